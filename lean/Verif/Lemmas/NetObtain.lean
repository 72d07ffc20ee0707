import Verif.Lemmas.Obtained
import Verif.Props.Net
/- In a network: a reported LSA is asked for or stored. -/
namespace Nlsr
namespace Router

/-- What a live router does when something happens to its LSDB. -/
theorem live_lsdb (c : RConf) (s : Router) (o : Lsdb.Op) (he : s.ended = false)
    (h : outsideCore (.lsdb o) = true) :
    ∃ x : Router, x.core.lsdb = Lsdb.step c.lsdb s.core.lsdb o ∧ Mild x (Router.step c s (.core (.lsdb o))) := by
  unfold Router.step
  rw [if_neg (by rw [he]; decide)]
  show ∃ x : Router, _ ∧ Mild x (if outsideCore (.lsdb o) then Router.coreStep c s (.lsdb o) else s)
  rw [if_pos h, coreStep_told]
  refine ⟨told c s (.lsdb o), ?_, newLsas_mild c _ _⟩
  exact (congrArg Core.lsdb (told_same c s (.lsdb o)).2).trans (Core.step_lsdb c.core s.core (.lsdb o))

end Router

namespace Net
open Lsdb (NodeInv)
open Router (Mild)
variable {ι : Type} [DecidableEq ι]

/-- Events that may happen, each of which also is as `P` says. -/
inductive Goes (c : ι → RConf) (P : State ι → Op ι → Prop) : State ι → State ι → Prop
  | refl (N : State ι) : Goes c P N N
  | step {N N' : State ι} (h : Goes c P N N') (op : Op ι) (ha : Allowed c N' op)
      (hr : ∀ i, Room (Net.step c N' op i).r.core.lsdb.seqs) (hp : P N' op) : Goes c P N (Net.step c N' op)

theorem Goes.reachable {c : ι → RConf} {P : State ι → Op ι → Prop} {N N' : State ι} (h : Goes c P N N') (hr : Reachable c N) :
    Reachable c N' := by
  induction h with
  | refl => exact hr
  | step _ op ha hr' _ ih => exact ih.step op ha hr'

theorem Goes.log {c : ι → RConf} (hs : Sane c) {P : State ι → Op ι → Prop} {N N' : State ι} (h : Goes c P N N') (hr : Reachable c N)
    {j : ι} {o : Out} (ho : o ∈ (N j).log) : o ∈ (N' j).log := by
  induction h with
  | refl => exact ho
  | step hg op _ _ _ ih =>
    obtain ⟨outs, e⟩ := log_grows ((hg.reachable hr).ninv hs) op j
    rw [e]
    exact List.mem_append_left _ ih

/-- What a router knows to be the highest number of an LSA was announced by its origin. -/
def Heard (c : ι → RConf) (N : State ι) : Prop :=
  ∀ i u n, (N i).r.core.lsdb.highestOf u = some n → ∃ j t, u = (c j).lsdb.names.lsaUserPrefix t ∧ .publish t n ∈ (N j).log

theorem heard_init (c : RConf) (disk : Option Seqs) (adjs : AdjacencyList) (npl : List PrefixInfo) (sys : Int) (u : Name) :
    (Router.init c disk adjs npl sys).core.lsdb.highestOf u = none := by
  have h1 := (Router.init_mild c disk adjs npl sys).highest
  have h2 : (Core.init c.core disk adjs npl sys).lsdb.highest = [] := highest_init c.lsdb disk adjs npl sys
  unfold Lsdb.highestOf
  rw [h1]
  show Option.map _ (List.find? _ (Core.init c.core disk adjs npl sys).lsdb.highest) = none
  rw [h2]
  rfl

theorem published_small {c : ι → RConf} {N : State ι} (h : NInv c N) {j : ι} {t : LsaType} {k : Nat} (hk : .publish t k ∈ (N j).log) :
    k < 2 ^ 63 := Nat.lt_of_le_of_lt ((h.node j).pub t k hk).1 ((h.node j).room t)

theorem Reachable.heard {c : ι → RConf} (hs : Sane c) {N : State ι} (h : Reachable c N) : Heard c N := by
  induction h with
  | start disk adjs npl sys hf hw hd hr =>
    intro i u n hn
    have : (Router.init (c i) (disk i) (adjs i) (npl i) (sys i)).core.lsdb.highestOf u = some n := hn
    rw [heard_init] at this
    cases this
  | @step N hN op ha hr ih =>
    have hi := hN.ninv hs
    have grow : ∀ {j : ι} {o : Out}, o ∈ (N j).log → o ∈ (Net.step c N op j).log := by
      intro j o ho
      obtain ⟨outs, e⟩ := log_grows hi op j
      rw [e]; exact List.mem_append_left _ ho
    have old : ∀ i u n, (N i).r.core.lsdb.highestOf u = some n → ∃ j t, u = (c j).lsdb.names.lsaUserPrefix t ∧ .publish t n ∈ (Net.step c N op j).log := by
      intro i u n hn
      obtain ⟨j, t, h1, h2⟩ := ih i u n hn
      exact ⟨j, t, h1, grow h2⟩
    intro i u n hn
    cases op with
    | act i' op =>
      by_cases e : i = i'
      · subst e
        have hn' : (Router.step (c i) (N i).r op).core.lsdb.highestOf u = some n := by
          have : Net.step c N (.act i op) i = { N i with r := Router.step (c i) (N i).r op } := if_pos rfl
          rw [this] at hn
          exact hn
        cases Router.step_does (c i) (N i).r op with
        | nothing hm => exact old i u n ((highestOf_congr hm.highest u).symm.trans hn')
        | lsdb o hop ho x hx _ hm =>
          have hn2 := (highestOf_congr hm.highest u).symm.trans hn'
          rw [hx] at hn2
          rcases highest_step (hi.node i).reach o u with h1 | ⟨k, rfl, h1⟩
          · exact old i u n (h1.symm.trans hn2)
          · rcases hop with rfl | ⟨_, _, _, e⟩
            · obtain ⟨j, t, rfl, hk, -⟩ := ha
              refine ⟨j, t, rfl, grow ?_⟩
              have hlt := published_small hi hk
              rw [Nat.mod_eq_of_lt (by omega)] at h1
              rw [h1] at hn2
              rw [← Option.some.inj hn2]
              exact hk
            · cases e
      · have : Net.step c N (.act i' op) i = N i := if_neg e
        rw [this] at hn
        exact old i u n hn
    | restart i' adjs npl sys kill =>
      by_cases e : i = i'
      · subst e
        have : Net.step c N (.restart i adjs npl sys kill) i = ⟨Router.init (c i) (lastPersist ((N i).log ++ kill.outs (c i) (N i))) adjs npl sys,
          (N i).log ++ kill.outs (c i) (N i)⟩ := if_pos rfl
        rw [this] at hn
        have hn' : (Router.init (c i) (lastPersist ((N i).log ++ kill.outs (c i) (N i))) adjs npl sys).core.lsdb.highestOf u = some n := hn
        rw [heard_init] at hn'
        cases hn'
      · have : Net.step c N (.restart i' adjs npl sys kill) i = N i := if_neg e
        rw [this] at hn
        exact old i u n hn

/-- The name of an announcement says who made it, and of what. -/
theorem prefix_inj {c : ι → RConf} (hs : Sane c) {j j' : ι} {t t' : LsaType}
    (h : (c j).lsdb.names.lsaUserPrefix t = (c j').lsdb.names.lsaUserPrefix t') : j = j' ∧ t = t' := by
  constructor
  · have h1 := C57_sync_origin_partial _ t (hs.short j) (hs.nlsr j) (hs.lsa j)
    have h2 := C57_sync_origin_partial _ t' (hs.short j') (hs.nlsr j') (hs.lsa j')
    rw [h, h2] at h1
    exact hs.distinct _ _ (Option.some.inj h1).symm
  · have h1 : ((c j).lsdb.names.lsaUserPrefix t).fromEnd 1 = some (Comp.str t.text) := by
      simp [RouterConf.lsaUserPrefix, Name.fromEnd]
    rw [h] at h1
    exact (LsaType.ofComp_text t).symm.trans (lsaUserPrefix_last h1)

theorem Heard.le {c : ι → RConf} (hs : Sane c) {N : State ι} (h : Heard c N) {i j : ι} {t : LsaType} {k : Nat}
    (hk : ∀ k', .publish t k' ∈ (N j).log → k' ≤ k) (n : Nat)
    (hn : (N i).r.core.lsdb.highestOf ((c j).lsdb.names.lsaUserPrefix t) = some n) : n ≤ k := by
  obtain ⟨j', t', h1, h2⟩ := h i _ n hn
  obtain ⟨rfl, rfl⟩ := prefix_inj hs h1
  exact hk n h2

end Net
end Nlsr
