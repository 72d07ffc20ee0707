import Verif.Props.HypForward
import Verif.Props.NetSettles
/-
C109: forwarding with hyperbolic routing in a network of routers that run the daemon, from the hello protocol and the
exchange of Coordinate LSAs to the routing tables.
-/
namespace Nlsr
open HR

/-- A router's own Coordinate LSA is always there, unless hyperbolic routing is off. -/
theorem Lsdb.Reachable.own_coord {c : LConf} {s : Lsdb} (h : Lsdb.Reachable c s) (hh : c.hyp ≠ .off) :
    ∃ o ∈ s.db, o.lsa.origin = c.router ∧ o.lsa.type = .coordinate := by
  refine Lsdb.Reachable.induct_step (P := fun s => ∃ o ∈ s.db, o.lsa.origin = c.router ∧ o.lsa.type = .coordinate) ?_ ?_ h
  · intro disk adjs npl sys
    have h1 : ∃ o, (Lsdb.buildName c (Lsdb.boot c disk adjs npl sys)).db = [o] ∧ o.lsa.origin = c.router ∧ o.lsa.type = .name :=
      ⟨_, rfl, rfl, rfl⟩
    obtain ⟨o, h2, h3, h4⟩ := h1
    unfold Lsdb.init
    dsimp only
    rw [if_neg (show ¬ c.hyp = .off from hh)]
    generalize Lsdb.buildName c (Lsdb.boot c disk adjs npl sys) = s at h2
    unfold Lsdb.buildCoord
    dsimp only
    have hc := Lsdb.install_cases c (Lsdb.announce s .coordinate (c.hyp ≠ .off))
      ⟨c.router, inc64 s.seqs.cor, s.expirationPoint c, .coord c.radius c.angles⟩
    have hdb : (Lsdb.announce s .coordinate (c.hyp ≠ .off)).db = [o] := (Lsdb.announce_frame s _ _).db.trans h2
    have hno : ∀ p, Lsdb.find (Lsdb.announce s .coordinate (c.hyp ≠ .off)) c.router .coordinate = some p → False := by
      intro p hp
      obtain ⟨g1, -, g3⟩ := Lsdb.find_some hp
      rw [hdb, List.mem_singleton] at g1
      rw [g1, h4] at g3
      cases g3
    generalize Lsdb.installLsa c _ _ = s' at hc ⊢
    cases hc with
    | rejected p hf _ => exact (hno p hf).elim
    | fresh _ => exact ⟨_, List.mem_append_right _ (List.mem_singleton.2 rfl), rfl, rfl⟩
    | newer p hf _ => exact (hno p hf).elim
  · rintro s op hs ⟨o, h1, h2, h3⟩
    obtain ⟨o', g1, g2, g3⟩ := C31_own_stays hs h1 h2 op (fun _ e => by rw [h3] at e; cases e)
    exact ⟨o', g1, g2, g3.trans h3⟩

/-- No neighbour of a running router has the status UNKNOWN. -/
theorem Nbr.Reachable.known {c : NConf} (hr : c.retry < 4294967296) {s : Nbr} (h : Nbr.Reachable c s) {a : Adjacent}
    (ha : a ∈ s.adjs) : a.status ≠ .unknown := by
  have key : ∀ n ∈ s.adjs.map (·.name), AdjacencyList.getStatus s.adjs n ≠ .unknown := by
    refine Nbr.Reachable.induct (P := fun s => ∀ n ∈ s.adjs.map (·.name), AdjacencyList.getStatus s.adjs n ≠ .unknown) ?_ ?_ h
    · intro adjs hf n hn
      obtain ⟨b, hb, rfl⟩ := List.mem_map.1 hn
      have hi := (show Nbr.Reachable c (Nbr.init c adjs) from ⟨adjs, [], hf, rfl⟩).ninv
      unfold AdjacencyList.getStatus
      rw [AdjacencyList.mem_find hi.nodup hb]
      dsimp only
      rw [(Nbr.init_mem hf hb).1]
      nofun
    · intro s op hs ih n hn
      rw [(Nbr.step_keep hs.ninv op).names] at hn
      obtain ⟨o, -, ⟨g, -⟩ | ⟨m, -, g1, g2⟩⟩ := Nbr.step_status hr hs.ninv op
      · rw [g]; exact ih n hn
      · by_cases e : n = m
        · rw [e]
          rcases g2 with ⟨-, g, -⟩ | ⟨-, g, -⟩ <;> rw [g] <;> nofun
        · rw [g1 n e]; exact ih n hn
  have := key _ (List.mem_map.2 ⟨a, ha, rfl⟩)
  unfold AdjacencyList.getStatus at this
  rw [AdjacencyList.mem_find h.ninv.nodup ha] at this
  exact this

namespace Net
variable {ι : Type} [DecidableEq ι]

/-- The coordinates in router `i`'s configuration. -/
def coordsOf (c : ι → RConf) (i : ι) : Option (Ext Rat × List (Ext Rat)) := some ((c i).lsdb.radius, (c i).lsdb.angles)

/-- The name in router `i`'s configuration. -/
def nameOf (c : ι → RConf) (i : ι) : Name := (c i).lsdb.router

/-- What the operators see to: hyperbolic routing is on everywhere; the routers use the same formulas; where the distance
between two of them is defined it is a number and not negative; the number of hello retries is a 32-bit number. -/
structure HypSane (T : Trig) (c : ι → RConf) : Prop where
  mode : ∀ i, (c i).lsdb.hyp = .on
  retry : ∀ i, (c i).lsdb.retry < 2 ^ 32
  trig : ∀ i, (c i).trig = T
  finite : ∀ i j p p' d, coordsOf c i = some p → coordsOf c j = some p' → DefinedDistance T ⟨[], p.1, p.2⟩ ⟨[], p'.1, p'.2⟩ d →
    ∃ q : Rat, d = .fin q ∧ 0 ≤ q

/-- Nothing is left to be exchanged or computed. -/
structure HypSettled (c : ι → RConf) (N : State ι) : Prop where
  /-- every router stores a Coordinate LSA of every router -/
  known : ∀ i j, ∃ k, Stores c N i j .coordinate k
  /-- every routing table was computed since its router's LSDB and neighbour list changed last -/
  computed : ∀ i, ∃ db, db.Perm (N i).r.core.lsdb.db ∧
    Core.hypTable (c i).core (N i).r.core.lsdb.adjs db = some (N i).r.core.rt.table
  /-- a router's neighbours have different face URIs -/
  uris : ∀ i, ((N i).r.nbr.adjs.map (·.uri)).Nodup

/-- A packet for router `d` goes from router `i` over the routers `js`, the last of which is `d`. -/
inductive Carried (c : ι → RConf) (N : State ι) (d : ι) : ι → List ι → Prop
  | here : Carried c N d d []
  | hop {i j : ι} {js : List ι} : i ≠ d → Forwards c N d i j → Carried c N d j js → Carried c N d i (j :: js)

section
variable {T : Trig} {c : ι → RConf} {N : State ι}

/-- C109: what a router stores of another one's coordinates is what that one was configured with, whatever happened. -/
theorem C109_coordinates (hs : Sane c) (h : Reachable c N) {i : ι} {o : Obj} (ho : o ∈ (N i).r.core.lsdb.db) {r : Ext Rat}
    {as : List (Ext Rat)} (hc : o.lsa.content = .coord r as) :
    ∃ j, o.lsa.origin = (c j).lsdb.router ∧ r = (c j).lsdb.radius ∧ as = (c j).lsdb.angles ∧ (c j).lsdb.hyp ≠ .off := by
  obtain ⟨j, x, h1, h2, h3, h4, h5⟩ := (Around.stored (N := N) i o ho rfl).source hs h
  obtain ⟨-, -, -, h6⟩ := ((h.ninv hs).node j).made x h1
  refine ⟨j, h3.symm.trans h2, ?_⟩
  rw [hc] at h5
  revert h5 h6
  cases x.content with
  | adj _ => exact fun h => h.elim
  | names _ => exact fun h => h.elim
  | coord r' as' =>
    rintro ⟨rfl, rfl⟩ h6
    exact h6

/-- The Coordinate LSAs that a router computes with are the configured coordinates of all routers. -/
theorem HypSettled.ads (hs : Sane c) (h : Reachable c N) (hq : HypSettled c N) {i : ι} {db : List Obj}
    (hp : db.Perm (N i).r.core.lsdb.db) :
    ((Core.coordAds db).map (·.origin)).Nodup ∧
    ∀ x, x ∈ Core.coordAds db ↔ ∃ j, x.origin = nameOf c j ∧ coordsOf c j = some (x.radius, x.angles) := by
  constructor
  · have hk : (db.map Lsdb.keyOf).Nodup := (hp.map _).nodup_iff.2 ((h.ninv hs).node i).reach.inv.keys
    clear hp
    induction db with
    | nil => exact List.nodup_nil
    | cons o db ih =>
      rw [List.map_cons, List.nodup_cons] at hk
      have ih := ih hk.2
      cases hc : o.lsa.content with
      | names _ => unfold Core.coordAds; rw [List.filterMap_cons_none (by rw [hc])]; exact ih
      | adj _ => unfold Core.coordAds; rw [List.filterMap_cons_none (by rw [hc])]; exact ih
      | coord r as =>
        unfold Core.coordAds
        rw [List.filterMap_cons_some (by rw [hc]), List.map_cons, List.nodup_cons]
        refine ⟨fun hm => ?_, ih⟩
        obtain ⟨ad, had, he⟩ := List.mem_map.1 hm
        obtain ⟨o', ho', hm'⟩ := List.mem_filterMap.1 had
        cases hc' : o'.lsa.content with
        | names _ => rw [hc'] at hm'; cases hm'
        | adj _ => rw [hc'] at hm'; cases hm'
        | coord r' as' =>
          rw [hc'] at hm'
          injection hm' with hm'
          subst hm'
          refine hk.1 (List.mem_map.2 ⟨o', ho', ?_⟩)
          unfold Lsdb.keyOf
          have : o'.lsa.origin = o.lsa.origin := he
          rw [this, show o'.lsa.type = o.lsa.type from (by unfold Lsa.type; rw [hc, hc']; rfl)]
  · intro x
    constructor
    · intro hx
      obtain ⟨o, ho, hm⟩ := List.mem_filterMap.1 hx
      cases hc : o.lsa.content with
      | names _ => rw [hc] at hm; cases hm
      | adj _ => rw [hc] at hm; cases hm
      | coord r as =>
        rw [hc] at hm
        injection hm with hm
        subst hm
        obtain ⟨j, h1, h2, h3, -⟩ := C109_coordinates hs h (hp.mem_iff.1 ho) hc
        exact ⟨j, h1, by rw [h2, h3]; rfl⟩
    · rintro ⟨j, h1, h2⟩
      obtain ⟨k, o, ho, ho1, ho2, -⟩ := hq.known i j
      cases hc : o.lsa.content with
      | names _ => unfold Lsa.type at ho2; rw [hc] at ho2; cases ho2
      | adj _ => unfold Lsa.type at ho2; rw [hc] at ho2; cases ho2
      | coord r as =>
        obtain ⟨j', g1, g2, g3, -⟩ := C109_coordinates hs h ho hc
        have : j' = j := hs.distinct _ _ (g1.symm.trans ho1)
        subst this
        refine List.mem_filterMap.2 ⟨o, hp.mem_iff.2 ho, ?_⟩
        rw [hc]
        dsimp only
        injection h2 with h2
        injection h2 with h3 h4
        rw [g1, g2, g3, h3, h4, ← (show x.origin = (c j').lsdb.router from h1)]

/-- The tables are those of a network that has converged. -/
theorem HypSettled.converged (hs : Sane c) (hT : HypSane T c) (h : Reachable c N) (hq : HypSettled c N) :
    HConverged T (nameOf c) (coordsOf c) (fun i => (N i).r.nbr.adjs) (fun i => (N i).r.core.rt.table) := by
  refine ⟨hs.distinct, hT.finite, fun i => ?_, fun i a ha b hb e => by rw [Lsdb.nodup_inj (hq.uris i) ha hb e]⟩
  obtain ⟨db, hp, ht⟩ := hq.computed i
  obtain ⟨h1, h2⟩ := hq.ads hs h hp
  have hsync := ((h.ninv hs).trusted i).reachable.all.synced.lsdb
  unfold Core.hypTable at ht
  rw [hsync, show (c i).core.trig = T from hT.trig i] at ht
  cases hcalc : calculate T (c i).core.router (N i).r.nbr.adjs (Core.coordAds db) with
  | none => rw [hcalc] at ht; cases ht
  | some os =>
    rw [hcalc] at ht
    obtain ⟨adds, ha, hb⟩ := Option.map_eq_some_iff.1 ht
    exact ⟨Core.coordAds db, os, adds, h1, h2, hcalc, ha, hb.symm⟩

/-- The first next hop, in terms of C86. -/
theorem HypSettled.forwards (hs : Sane c) (hT : HypSane T c) (h : Reachable c N) (hq : HypSettled c N) (d i j : ι) :
    Forwards c N d i j ↔ HHop (nameOf c) (fun i => (N i).r.nbr.adjs) (fun i => (N i).r.core.rt.table) d i j := by
  constructor
  · rintro ⟨e, he, hd, x, hx, a, ha, hn, hu⟩
    refine ⟨e, he, hd, x, hx, ?_⟩
    obtain ⟨-, y, j', b, g1, g2, -, g4, -⟩ := (C108_closest (hq.converged hs hT h) i d).1 e he hd
    rw [hx] at g1
    injection g1 with g1
    subst g1
    have : a = b := Lsdb.nodup_inj (hq.uris i) ha g2.1 (hu.trans g4)
    subst this
    exact ⟨a, ⟨ha, g2.2.1, hn⟩, hu.symm⟩
  · rintro ⟨e, he, hd, x, hx, a, ⟨ha, -, hn⟩, hu⟩
    exact ⟨e, he, hd, x, hx, a, ha, hn, hu.symm⟩

theorem Near.linkUp (hs : Sane c) (hT : HypSane T c) (h : Reachable c N) {i j : ι} {a : Adjacent}
    (ha : Near (nameOf c) (N i).r.nbr.adjs j a) : LinkUp (N i).r (c j).lsdb.router a.uri a.cost := by
  obtain ⟨h1, h2, h3⟩ := ha
  refine ⟨a, h1, ?_, h3, rfl, rfl⟩
  have := Nbr.Reachable.known (c := (c i).nbr) (hT.retry i) ((h.ninv hs).trusted i).reachable.all.base.nbr h1
  cases hst : a.status with
  | active => rfl
  | inactive => exact absurd hst h2
  | unknown => exact absurd hst this

/-- C109: in a network with hyperbolic routing whose routers have nothing left to exchange or compute, whatever happened
before, a router has an entry for another one exactly if it has a neighbour that is ACTIVE and at a defined distance from
it (by the configured coordinates of the two); and it hands packets on to such a neighbour, of which none is closer to the
destination, in thousandths. -/
theorem C109_closest (hs : Sane c) (hT : HypSane T c) (h : Reachable c N) (hq : HypSettled c N) (i d : ι) :
    (∀ j, Forwards c N d i j → d ≠ i ∧ (∃ u k, LinkUp (N i).r (c j).lsdb.router u k) ∧ ∃ q, Away T (coordsOf c) j d q ∧
      ∀ j' u k q', LinkUp (N i).r (c j').lsdb.router u k → j' ≠ i → Away T (coordsOf c) j' d q' → thousandths q ≤ thousandths q') ∧
    ((∃ j, Forwards c N d i j) ↔ d ≠ i ∧ ∃ j u k q, LinkUp (N i).r (c j).lsdb.router u k ∧ j ≠ i ∧ Away T (coordsOf c) j d q) := by
  have hc := hq.converged hs hT h
  have near : ∀ {j a}, Near (nameOf c) (N i).r.nbr.adjs j a → ∃ u k, LinkUp (N i).r (c j).lsdb.router u k := by
    exact fun ha => ⟨_, _, Near.linkUp hs hT h ha⟩
  have up : ∀ {j u k}, LinkUp (N i).r (c j).lsdb.router u k → ∃ a, Near (nameOf c) (N i).r.nbr.adjs j a := by
    rintro j u k ⟨a, h1, h2, h3, -⟩
    exact ⟨a, h1, by rw [h2]; nofun, h3⟩
  constructor
  · intro j hf
    obtain ⟨e, he, hd, x, hx, a, ha, hu⟩ := (hq.forwards hs hT h d i j).1 hf
    obtain ⟨hne, y, j', b, g1, g2, g3, g4, g5, g6⟩ := (C108_closest hc i d).1 e he hd
    rw [hx] at g1
    injection g1 with g1
    subst g1
    have : j = j' := by
      have := hc.faces i a ha.1 b g2.1 (hu.symm.trans g4)
      rw [ha.2.2, g2.2.2] at this
      exact hs.distinct _ _ this
    subst this
    refine ⟨hne, near ha, _, g5, fun j' u k q' hl hj hq' => ?_⟩
    obtain ⟨b', hb'⟩ := up hl
    exact g6 j' b' q' hb' hj (Or.inr nofun) hq'
  · constructor
    · rintro ⟨j, hf⟩
      obtain ⟨e, he, hd, -⟩ := hf
      obtain ⟨hne, j, b, q, h1, h2, h3, -⟩ := (C108_closest hc i d).2.1 ⟨e, he, hd⟩
      obtain ⟨u, k, hl⟩ := near h1
      exact ⟨hne, j, u, k, q, hl, h2, h3⟩
    · rintro ⟨hne, j, u, k, q, hl, hj, haw⟩
      obtain ⟨b, hb⟩ := up hl
      obtain ⟨e, he, hd⟩ := (C108_closest hc i d).2.2 ⟨hne, j, b, q, hb, hj, haw, Or.inr nofun⟩
      obtain ⟨-, x, j', a, g1, g2, -, g4, -⟩ := (C108_closest hc i d).1 e he hd
      exact ⟨j', e, he, hd, x, g1, a, g2.1, g2.2.2, g4.symm⟩

/-- C109, delivery: if every router of a set that no link leaves, other than `d`, has an ACTIVE neighbour that is closer
to `d` than itself, in thousandths, then packets for `d` from routers of the set go to one neighbour only, get closer with
every hop, and arrive; none comes back to a router it has left.
Missing for the full property: networks where some router has no such neighbour (`C108_violated_loop`); what `HypSettled`
assumes of the tables; and how the FIB orders hyperbolic costs (`C82_violated_hyperbolic`). -/
theorem C109_delivered_partial (hs : Sane c) (hT : HypSane T c) (h : Reachable c N) (hq : HypSettled c N) (S : ι → Prop) (d : ι)
    (hS : ∀ i, S i → ∀ j u k, LinkUp (N i).r (c j).lsdb.router u k → S j)
    (hG : ∀ i, S i → i ≠ d → ∃ q j u k q', Away T (coordsOf c) i d q ∧ LinkUp (N i).r (c j).lsdb.router u k ∧
      Away T (coordsOf c) j d q' ∧ thousandths q' < thousandths q) :
    (∀ i j j', Forwards c N d i j → Forwards c N d i j' → j = j') ∧
    (∀ i j, S i → Forwards c N d i j → S j ∧ ∃ q q', Away T (coordsOf c) i d q ∧ Away T (coordsOf c) j d q' ∧
      thousandths q' < thousandths q) ∧
    (∀ i, S i → ¬ Relation.TransGen (Forwards c N d) i i) ∧
    (∀ i, S i → ∃ js, Carried c N d i js ∧ (i :: js).Nodup) := by
  have hc := hq.converged hs hT h
  have e : Forwards c N d = HHop (nameOf c) (fun i => (N i).r.nbr.adjs) (fun i => (N i).r.core.rt.table) d := by
    funext i j
    exact propext (hq.forwards hs hT h d i j)
  obtain ⟨g1, g2, g3, g4⟩ := C108_greedy_partial hc S d
    (fun i hi j a ha => hS i hi j _ _ (Near.linkUp hs hT h ha))
    (by
      intro i hi hne
      obtain ⟨q, j, u, k, q', a1, ⟨a, b1, b2, b3, -⟩, a3, a4⟩ := hG i hi hne
      exact ⟨q, j, a, q', a1, ⟨b1, by rw [b2]; nofun, b3⟩, a3, a4⟩)
  rw [e]
  refine ⟨g1, g2, g4, fun i hi => ?_⟩
  obtain ⟨js, hd, hn⟩ := g3 i hi
  refine ⟨js, ?_, hn⟩
  clear hn g3
  induction hd with
  | here => exact .here
  | @hop i j js hne hh hd ih => exact .hop hne ((hq.forwards hs hT h d i j).2 hh) (ih (g2 i j hi hh).1)

/-- C109: when every router was told of the last Coordinate LSA that every other has announced, nothing went wrong since,
and no request is left, every router has the coordinates of all. -/
theorem C109_known (hs : Sane c) (hone : OneNetwork c) (hT : HypSane T c) (h : Reachable c N)
    (htold : ∀ i j k, i ≠ j → Last N j .coordinate k → Told c N i j .coordinate k ∧ Idle c N i j .coordinate k) (i j : ι) :
    ∃ k, Stores c N i j .coordinate k := by
  have own : ∀ j, ∃ k, Stores c N j j .coordinate k := by
    intro j
    obtain ⟨o, ho, h1, h2⟩ := ((h.ninv hs).node j).reach.own_coord (by rw [hT.mode j]; nofun)
    exact ⟨o.lsa.seq, o, ho, h1, h2, rfl⟩
  obtain ⟨k, hk⟩ := own j
  exact ⟨k, (C92_same hs hone h .coordinate (fun i => Or.inr (Or.inr ⟨rfl, by rw [hT.mode i]; nofun⟩)) htold (fun j _ _ => own j) i j k).2 hk⟩

end
/-! ### the hypotheses can be met -/

open Witness

/-- Router number `i` of the example network, with hyperbolic routing: all at radius 5, at the angles 2, 5/4 and 1. -/
def exHypConf (i : Fin 3) : RConf :=
  { exRC .on 0 with
    lsdb := { exConf .on with
      names := ⟨nm ["net"], nm ["site"], nm [["r1", "r2", "r3"].getD i.val ""]⟩,
      radius := .fin 5, angles := [.fin ([2, 5/4, 1].getD i.val 0)] },
    trig := Fork.T }

def exHypSite (i : Fin 3) : Site := ⟨Router.init (exHypConf i) none (exAdjs i) [] 0, []⟩

def exHypSites : List Site := [exHypSite 0, exHypSite 1, exHypSite 2]

theorem exHypSites_reachable : Reachable exHypConf (ofList exHypSites (exHypSite 0)) := by
  have h := Reachable.start (c := exHypConf) (fun _ => none) exAdjs (fun _ => []) (fun _ => 0) (fun i => freshB_fresh (by revert i; decide +kernel))
    (fun i => wholeB_whole (by revert i; decide +kernel)) (fun i q hq => by cases hq) (fun i => roomB_room (by revert i; decide +kernel))
  have e : ofList exHypSites (exHypSite 0) = fun i : Fin 3 => ⟨Router.init (exHypConf i) none (exAdjs i) [] 0, []⟩ := by
    funext i
    rcases i with ⟨i, hi⟩
    match i, hi with
    | 0, _ => rfl
    | 1, _ => rfl
    | 2, _ => rfl
  rw [e]
  exact h

/-- The neighbours find each other, all routers learn the coordinates of all, and compute their routes. -/
def exHypSettle : List (Op (Fin 3)) :=
  exMeet ++ ((List.finRange 3).flatMap fun j => (List.finRange 3).flatMap fun i =>
    if i = j then [] else exLearns j i .coordinate 1 (.coord (exHypConf i).lsdb.radius (exHypConf i).lsdb.angles)) ++
  exEach [exPause, .core (.calcTimer 0 [])]

def exHypSettled : List Site := (go false exHypConf (exHypSite 0) exHypSites exHypSettle).getD []

theorem exHypSettled_go : go false exHypConf (exHypSite 0) exHypSites exHypSettle = some exHypSettled := by
  have h : (go false exHypConf (exHypSite 0) exHypSites exHypSettle).isSome = true := by decide +kernel
  obtain ⟨l, hl⟩ := Option.isSome_iff_exists.1 h
  unfold exHypSettled
  rw [hl]; rfl

/-- `HypSane`, computed. -/
theorem hypSane_of {n : Nat} {c : Fin n → RConf} {T : Trig} (h : ∀ i, (c i).lsdb.hyp = .on ∧ (c i).lsdb.retry < 2 ^ 32)
    (ht : ∀ i, (c i).trig = T)
    (hq : ∀ i j, (match T.dist (c i).lsdb.radius (c j).lsdb.radius (T.inner (c i).lsdb.angles (c j).lsdb.angles) with
      | .fin q => decide (0 ≤ q) | _ => false) = true) : HypSane T c := by
  refine ⟨fun i => (h i).1, fun i => (h i).2, ht, ?_⟩
  rintro i j p p' d hp hp' ⟨-, -, -, -, -, rfl, -⟩
  cases hp; cases hp'
  have := hq i j
  dsimp only
  cases hc : T.dist (c i).lsdb.radius (c j).lsdb.radius (T.inner (c i).lsdb.angles (c j).lsdb.angles) with
  | fin q => rw [hc] at this; exact ⟨q, rfl, of_decide_eq_true this⟩
  | nan => rw [hc] at this; cases this
  | pinf => rw [hc] at this; cases this
  | ninf => rw [hc] at this; cases this

/-- `Away`, computed. -/
def apart (c : ι → RConf) (i d : ι) (q : Rat) : Bool :=
  (i == d && q == 0) ||
  (i != d && (c i).lsdb.angles.length == (c d).lsdb.angles.length &&
    ((c i).lsdb.angles.getLast?.map lastBad == some false) && !le0 (c i).lsdb.radius && !le0 (c d).lsdb.radius &&
    !le0 (Fork.T.inner (c i).lsdb.angles (c d).lsdb.angles) &&
    Fork.T.dist (c i).lsdb.radius (c d).lsdb.radius (Fork.T.inner (c i).lsdb.angles (c d).lsdb.angles) == .fin q &&
    (q != -1))

theorem apart_away {c : ι → RConf} {i d : ι} {q : Rat} (h : apart c i d q = true) : Away Fork.T (coordsOf c) i d q := by
  unfold apart at h
  simp only [Bool.or_eq_true, Bool.and_eq_true, beq_iff_eq, bne_iff_ne, ne_eq, Bool.not_eq_true'] at h
  rcases h with h | ⟨⟨⟨⟨⟨⟨⟨h1, h2⟩, h3⟩, h4⟩, h5⟩, h6⟩, h7⟩, h8⟩
  · exact Or.inl h
  · obtain ⟨a, ha, hb⟩ := Option.map_eq_some_iff.1 h3
    exact Or.inr ⟨h1, _, _, rfl, rfl, h2, ⟨a, ha, lastBad_eq_false.1 hb⟩, le0_eq_false.1 h4, le0_eq_false.1 h5, le0_eq_false.1 h6,
      h7.symm, fun e => by injection e with e; exact h8 e⟩

/-- The hypotheses of C109 can be met: r1 and r3, which are not neighbours, send each other packets by way of r2; every
router other than r3 has a neighbour closer to r3. -/
example : Sane exHypConf ∧ HypSane Fork.T exHypConf ∧ Reachable exHypConf (ofList exHypSettled (exHypSite 0)) ∧
    HypSettled exHypConf (ofList exHypSettled (exHypSite 0)) ∧
    (∀ i : Fin 3, i ≠ 2 → ∃ q j u k q', Away Fork.T (coordsOf exHypConf) i 2 q ∧
      LinkUp (ofList exHypSettled (exHypSite 0) i).r (exHypConf j).lsdb.router u k ∧
      Away Fork.T (coordsOf exHypConf) j 2 q' ∧ thousandths q' < thousandths q) ∧
    Forwards exHypConf (ofList exHypSettled (exHypSite 0)) 2 0 1 ∧ Forwards exHypConf (ofList exHypSettled (exHypSite 0)) 2 1 2 := by
  refine ⟨⟨by decide +kernel, by decide +kernel, by decide +kernel, by decide +kernel⟩,
    hypSane_of (by decide +kernel) (fun _ => rfl) (by decide +kernel),
    go_reachable rfl exHypSettled_go exHypSites_reachable, ⟨fun i j => ⟨1, ?_⟩, fun i => ⟨_, List.Perm.refl _, ?_⟩, by decide +kernel⟩, ?_, ?_, ?_⟩
  · unfold Stores; revert i j; decide +kernel
  · revert i; decide +kernel
  · intro i hi
    match i, hi with
    | 0, _ => exact ⟨8529971 / 1000000, 1, "udp4://10.0.0.2", .fin 0, 5841632 / 1000000, apart_away (by decide +kernel),
        (by unfold LinkUp; decide +kernel), apart_away (by decide +kernel), by decide +kernel⟩
    | 1, _ => exact ⟨5841632 / 1000000, 2, "udp4://10.0.0.3", .fin 0, 0, apart_away (by decide +kernel),
        (by unfold LinkUp; decide +kernel), apart_away (by decide +kernel), by decide +kernel⟩
    | 2, h => exact absurd rfl h
  all_goals unfold Forwards; decide +kernel

/-- The hypotheses of `C109_known` can be met: the routers of the example were told of each other's coordinates. -/
example : Sane exHypConf ∧ OneNetwork exHypConf ∧ HypSane Fork.T exHypConf ∧ Reachable exHypConf (ofList exHypSettled (exHypSite 0)) ∧
    ∀ i j k, i ≠ j → Last (ofList exHypSettled (exHypSite 0)) j .coordinate k →
      Told exHypConf (ofList exHypSettled (exHypSite 0)) i j .coordinate k ∧ Idle exHypConf (ofList exHypSettled (exHypSite 0)) i j .coordinate k :=
  ⟨⟨by decide +kernel, by decide +kernel, by decide +kernel, by decide +kernel⟩, ⟨by decide +kernel, by decide +kernel⟩,
    hypSane_of (by decide +kernel) (fun _ => rfl) (by decide +kernel), go_reachable rfl exHypSettled_go exHypSites_reachable,
    fun i j k hij => told_of (n := 3) rfl exHypSites_reachable exHypSettled_go (by decide +kernel) .coordinate
      (fun i j h => ⟨1, by revert i j; decide +kernel, by revert i j; decide +kernel⟩) i j k hij⟩

/-! Four routers: u, v, w and d of `C108_violated_loop`. -/

def exForkConf (i : Fin 4) : RConf :=
  { exRC .on 0 with
    lsdb := { exConf .on with
      names := ⟨nm ["net"], nm ["site"], nm [["u", "v", "w", "d"].getD i.val ""]⟩,
      radius := .fin 5, angles := [.fin ([2, 5/4, 3, 1].getD i.val 0)] },
    trig := Fork.T }

def exForkLink (i : Fin 4) : Adjacent := { name := (exForkConf i).lsdb.router, uri := ["udp4://u", "udp4://v", "udp4://w", "udp4://d"].getD i.val "" }

/-- u is linked to v and to w, w to d. -/
def exForkNear (i : Fin 4) : List (Fin 4) := [[1, 2], [0], [0, 3], [2]].getD i.val []

def exForkSite (i : Fin 4) : Site := ⟨Router.init (exForkConf i) none ((exForkNear i).map exForkLink) [] 0, []⟩

def exForkSites : List Site := [exForkSite 0, exForkSite 1, exForkSite 2, exForkSite 3]

theorem exForkSites_reachable : Reachable exForkConf (ofList exForkSites (exForkSite 0)) := by
  have h := Reachable.start (c := exForkConf) (fun _ => none) (fun i => (exForkNear i).map exForkLink) (fun _ => []) (fun _ => 0)
    (fun i => freshB_fresh (by revert i; decide +kernel))
    (fun i => wholeB_whole (by revert i; decide +kernel)) (fun i q hq => by cases hq) (fun i => roomB_room (by revert i; decide +kernel))
  have e : ofList exForkSites (exForkSite 0) = fun i : Fin 4 => ⟨Router.init (exForkConf i) none ((exForkNear i).map exForkLink) [] 0, []⟩ := by
    funext i
    rcases i with ⟨i, hi⟩
    match i, hi with
    | 0, _ => rfl
    | 1, _ => rfl
    | 2, _ => rfl
    | 3, _ => rfl
  rw [e]
  exact h

/-- Router `i` finds the faces of its neighbours, and all of them answer its hellos. -/
def exForkMeet (i : Fin 4) : List (Op (Fin 4)) :=
  ([Router.Op.nbr (.fetchOk 0 ((exForkNear i).map fun j => ((exForkLink j).uri, 300 + j.val)))] ++
    ((exForkNear i).flatMap fun _ => [Router.Op.regOk 0, .regOk 0]) ++
    (exForkNear i).flatMap fun j =>
      [Router.Op.nbr (.data 0 ((exForkConf j).lsdb.router ++ [Comp.str "nlsr", Comp.str "INFO", ⟨8, Tlv.encName (exForkConf i).lsdb.router⟩, Comp.str "v1"])),
       .nbr (.valid 0)]).map (.act i)

/-- Router `j` learns the coordinates of router `i`. -/
def exForkLearns (j i : Fin 4) : List (Op (Fin 4)) :=
  [.act j (.core (.lsdb (.sync ((exForkConf i).lsdb.names.lsaUserPrefix .coordinate) 1))),
   .act i (.core (.lsdb (.interest ((exForkConf i).lsdb.names.lsaInterest .coordinate 1) 9))),
   .act j (.core (.lsdb (.fetched 0 (some ⟨(exForkConf i).lsdb.router, 1, 3600000000000, .coord (exForkConf i).lsdb.radius (exForkConf i).lsdb.angles⟩))))]

def exForkSettle : List (Op (Fin 4)) :=
  (List.finRange 4).flatMap exForkMeet ++
  ((List.finRange 4).flatMap fun j => (List.finRange 4).flatMap fun i => if i = j then [] else exForkLearns j i) ++
  (List.finRange 4).flatMap fun i => [.act i exPause, .act i (.core (.calcTimer 0 []))]

def exForkSettled : List Site := (go false exForkConf (exForkSite 0) exForkSites exForkSettle).getD []

theorem exForkSettled_go : go false exForkConf (exForkSite 0) exForkSites exForkSettle = some exForkSettled := by
  have h : (go false exForkConf (exForkSite 0) exForkSites exForkSettle).isSome = true := by decide +kernel
  obtain ⟨l, hl⟩ := Option.isSome_iff_exists.1 h
  unfold exForkSettled
  rw [hl]; rfl

/-- What `C108_violated_loop` says of tables happens to four daemons with hyperbolic routing that have found their
neighbours, learned the coordinates of all routers and computed their routes: u sends packets for d to v, and v sends
them back to u, although u is linked to w and w to d (src/route/routing-calculator-hyperbolic.cpp:84-124). -/
theorem C109_violated_loop : ∃ (c : Fin 4 → RConf) (N : State (Fin 4)), Sane c ∧ HypSane Fork.T c ∧ Reachable c N ∧ HypSettled c N ∧
    (∃ u k, LinkUp (N 0).r (c 2).lsdb.router u k) ∧ (∃ u k, LinkUp (N 2).r (c 3).lsdb.router u k) ∧
    Forwards c N 3 0 1 ∧ Forwards c N 3 1 0 := by
  refine ⟨exForkConf, ofList exForkSettled (exForkSite 0), ⟨by decide +kernel, by decide +kernel, by decide +kernel, by decide +kernel⟩,
    hypSane_of (by decide +kernel) (fun _ => rfl) (by decide +kernel),
    go_reachable rfl exForkSettled_go exForkSites_reachable, ⟨fun i j => ⟨1, ?_⟩, fun i => ⟨_, List.Perm.refl _, ?_⟩, by decide +kernel⟩,
    ⟨"udp4://w", .fin 0, ?_⟩, ⟨"udp4://d", .fin 0, ?_⟩, ?_, ?_⟩
  · unfold Stores; revert i j; decide +kernel
  · revert i; decide +kernel
  · unfold LinkUp; decide +kernel
  · unfold LinkUp; decide +kernel
  all_goals unfold Forwards; decide +kernel

end Net
end Nlsr
