import Verif.Lemmas.World
import Verif.Props.RouterLinks
/-
C84: the neighbours a router has are those it was started with.
-/
namespace Nlsr
open Adjacent (ident)

theorem Router.step_ident (c : RConf) (s : Router) (op : Router.Op) :
    (Router.step c s op).nbr.adjs.map ident = s.nbr.adjs.map ident := by
  have hn : ∀ s op, (Router.nbrStep c s op).nbr.adjs.map ident = s.nbr.adjs.map ident := by
    intro s op
    rw [Router.nbrStep_nbr]
    exact Nbr.step_ident c.nbr s.nbr op
  unfold Router.step
  split
  · rfl
  · cases op with
    | nbr op =>
      show ((if Router.outsideNbr op then Router.nbrStep c s op else s).nbr.adjs).map _ = _
      split
      · exact hn s op
      · rfl
    | core op =>
      show ((if Router.outsideCore op then Router.coreStep c s op else s).nbr.adjs).map _ = _
      split
      · rw [Router.coreStep_adjs]
      · rfl
    | regOk i =>
      show ((Router.regOk c s i).nbr.adjs).map _ = _
      unfold Router.regOk
      split
      · rfl
      · exact (hn _ _).trans (hn _ _)
    | clock dt sys =>
      show ((Nbr.step c.nbr s.nbr (.clock dt)).adjs).map _ = _
      unfold Nbr.step; split <;> rfl
    | _ => rfl

/-- **C84**, the neighbours: whatever happens to a router after its start, its neighbours are those it was started with, in
that order, with their URIs; with link-state routing (also as a dry run of hyperbolic routing) their costs are those
configured, and with hyperbolic routing all are 0.  What builds the Adjacency LSA has the same list. -/
theorem C84_as_started (c : RConf) (disk : Option Seqs) (adjs : AdjacencyList) (npl : List PrefixInfo) (sys : Int)
    (ops : List Router.Op) (hf : Nbr.Fresh adjs) :
    let s := Router.run c (Router.init c disk adjs npl sys) ops
    s.core.lsdb.adjs = s.nbr.adjs ∧
    (c.lsdb.hyp ≠ .on → s.nbr.adjs.map (fun a => (a.name, a.uri, a.cost)) = adjs.map (fun a => (a.name, a.uri, a.cost))) ∧
    (c.lsdb.hyp = .on → s.nbr.adjs.map (fun a => (a.name, a.uri, a.cost)) = adjs.map (fun a => (a.name, a.uri, .fin 0))) := by
  have hr : Router.Reachable c (Router.run c (Router.init c disk adjs npl sys) ops) := ⟨disk, adjs, npl, sys, ops, hf, rfl⟩
  have hnb : (Router.init c disk adjs npl sys).nbr = Nbr.init c.nbr adjs := by
    unfold Router.init
    dsimp only
    exact Router.applies_nbr c _ _
  have key : ∀ (ops : List Router.Op) (s : Router), (Router.run c s ops).nbr.adjs.map ident = s.nbr.adjs.map ident := by
    intro ops
    induction ops with
    | nil => exact fun _ => rfl
    | cons op ops ih => exact fun s => (ih _).trans (Router.step_ident c s op)
  have h := key ops (Router.init c disk adjs npl sys)
  rw [hnb] at h
  refine ⟨hr.all.synced.lsdb, fun hh => h.trans ?_, fun hh => h.trans ?_⟩
  · unfold Nbr.init
    rw [if_neg (show ¬ c.nbr.hyp = .on from hh)]
    rfl
  · unfold Nbr.init
    rw [if_pos (show c.nbr.hyp = .on from hh), List.map_map]
    rfl

example : (exRouter .off 0 exUp).nbr.adjs.map (fun a => (a.cost, a.status)) = [(.fin 10, .active), (.fin 10, .active)] ∧
    (exRouter .on 0 exUp).nbr.adjs.map (fun a => (a.cost, a.status)) = [(.fin 0, .active), (.fin 0, .active)] := by decide +kernel

end Nlsr
