import Verif.Lemmas.CoreCost
import Verif.Props.Lsdb
/-
C16-C21: the name prefix table, in every state the LSDB, the routing table and the name prefix table
can reach together.
-/
namespace Nlsr
open Npt
open Core (Reachable Whole)
open Lsdb (view)

/-! ### vocabulary -/

/-- The table lists router `r` as a destination for prefix `p`. -/
def Lists (n : Npt) (p r : Name) : Prop :=
  ∃ e ∈ n.table, e.name = p ∧ ∃ o ∈ n.objs, o.pid ∈ e.rtes ∧ o.dest = r

/-- The stored Name LSA of `r` advertises `p` with cost `x`. -/
def Announces (d : Lsdb) (r p : Name) (x : Ext Rat) : Prop :=
  ∃ o ∈ d.db, o.lsa.origin = r ∧ ∃ m, o.lsa.content = .names m ∧ ⟨p, x⟩ ∈ m

/-- `h` is a hop of the current routing table to some destination listed for `p`. -/
def Offered (s : Core) (p : Name) (h : NextHop) : Prop :=
  ∃ r, Lists s.npt p r ∧ ∃ e ∈ s.rt.table, e.dest = r ∧ h ∈ e.hops

/-- A cheapest one for its face. -/
def Best (s : Core) (p : Name) (h : NextHop) : Prop :=
  Offered s p h ∧ ∀ o, Offered s p o → o.uri = h.uri → h.cost ≤ o.cost

/-! ### examples: three routers r1 (this one), r2 and r3, both neighbours -/

def exR3 : Name := nm ["net", "site", "r3"]

/-- Some distance function. -/
def exTrig : HR.Trig where
  inner _ _ := .fin 1
  dist a b _ := match a, b with | .fin x, .fin y => .fin (x + y) | _, _ => .nan

def exCore (h : HypState) : CConf := ⟨exConf h, 0, 15, exTrig⟩

def exAdj (n : Name) (u : String) : Adjacent := { name := n, uri := u, status := .active }

def exBegin (h : HypState) : Core :=
  Core.init (exCore h) none [exAdj exR2 "udp4://10.0.0.2", exAdj exR3 "udp4://10.0.0.3"] [] 0

/-- Fetch and install an LSA. -/
def exGet (r t : String) (o : Name) (seq : Nat) (c : Content) : List Core.Op :=
  [.lsdb (.sync (exUpdate r t) seq), .lsdb (.fetched 0 (some ⟨o, seq, 3600000000000, c⟩))]

def exWait : Core.Op := .lsdb (.clock (15 * Lsdb.nsPerSec) 0)

/-- The adjacency LSAs of all three routers and a routing calculation. -/
def exRoutes : List Core.Op :=
  [.lsdb .scheduleBuild, exWait, .lsdb .buildTimer] ++
  exGet "r2" "ADJACENCY" exR2 1 (.adj [exAdj exR1 "udp4://10.0.0.1"]) ++
  exGet "r3" "ADJACENCY" exR3 1 (.adj [exAdj exR1 "udp4://10.0.0.1"]) ++ [exWait, .calcTimer 0 []]

/-- Then r2 advertises /p with cost 5. -/
def exOne : List Core.Op := exRoutes ++ exGet "r2" "NAME" exR2 1 (.names [⟨nm ["p"], .fin 5⟩])

/-- And r3 advertises /p with cost 20. -/
def exTwo : List Core.Op := exOne ++ exGet "r3" "NAME" exR3 1 (.names [⟨nm ["p"], .fin 20⟩])

/-- And r2 withdraws it. -/
def exThree : List Core.Op := exTwo ++ exGet "r2" "NAME" exR2 2 (.names [])

def exRun (h : HypState) (ops : List Core.Op) : Core := Core.run (exCore h) (exBegin h) ops

theorem exRun_reachable (h : HypState) (ops : List Core.Op) : Reachable (exCore h) (exRun h ops) :=
  ⟨_, _, _, _, ops, rfl⟩

/-! ### relating the vocabulary to the lemmas -/

theorem lists_iff {n : Npt} (h : Npt.Inv n) (p r : Name) : Lists n p r ↔ Has n p r := by
  constructor
  · rintro ⟨e, he, hn, o, ho, hp, hd⟩
    obtain ⟨o', ho', hp', hl⟩ := h.rlive e he o.pid hp
    have : o' = o := Lsdb.nodup_inj h.pids ho' ho hp'
    subst this
    exact ⟨e, he, hn, o', ho, hl, hd, hp⟩
  · rintro ⟨e, he, hn, o, ho, -, hd, hp⟩
    exact ⟨e, he, hn, o, ho, hp, hd⟩

theorem announces_iff {c : LConf} {d : Lsdb} (h : Lsdb.Reachable c d) (r p : Name) (x : Ext Rat) :
    Announces d r p x ↔ advOf (view d) r p = some x := by
  unfold advOf view
  constructor
  · rintro ⟨o, ho, hr, m, hm, hx⟩
    have hf : d.find r .name = some o := by
      have := Lsdb.find_of_mem h.inv ho
      have ht : o.lsa.type = .name := by unfold Lsa.type; rw [hm]; rfl
      rwa [hr, ht] at this
    rw [hf]
    simp only [Option.map_some, hm]
    exact PrefixMap.get_mem (Lsdb.norm_names.1 (hm ▸ h.inv.norm o ho)) hx
  · cases hf : d.find r .name with
    | none => intro hx; cases hx
    | some o =>
      obtain ⟨ho, hr, ht⟩ := Lsdb.find_some hf
      cases hc : o.lsa.content with
      | names m =>
        intro hx
        simp only [Option.map_some, hc] at hx
        exact ⟨o, ho, hr, m, hc, PrefixMap.get_some hx⟩
      | adj _ => unfold Lsa.type at ht; rw [hc] at ht; cases ht
      | coord _ _ => unfold Lsa.type at ht; rw [hc] at ht; cases ht

theorem view_isSome {c : LConf} {d : Lsdb} (h : Lsdb.Reachable c d) (r : Name) :
    (∃ t, (view d r t).isSome) ↔ ∃ o ∈ d.db, o.lsa.origin = r := by
  unfold view
  constructor
  · rintro ⟨t, ht⟩
    cases hf : d.find r t with
    | none => rw [hf] at ht; cases ht
    | some o => exact ⟨o, (Lsdb.find_some hf).1, (Lsdb.find_some hf).2.1⟩
  · rintro ⟨o, ho, rfl⟩
    exact ⟨o.lsa.type, by rw [Lsdb.find_of_mem h.inv ho]; rfl⟩

/-! ### C16 -/

/-- A router other than this one is listed for a prefix that is neither its own name nor this router's
name iff its stored Name LSA advertises the prefix. -/
theorem C16_advertisers {c : CConf} {s : Core} (h : Reachable c s) (p r : Name) (hr : r ≠ c.router) (hp : p ≠ c.router)
    (hpr : p ≠ r) : Lists s.npt p r ↔ ∃ x, Announces s.lsdb r p x := by
  rw [lists_iff h.follows.fresh.inv, h.follows.adv p r hr hp hpr, Option.isSome_iff_exists]
  simp only [announces_iff h.lsdb]

/-- This router is never listed, and neither is its name. -/
theorem C16_not_own {c : CConf} {s : Core} (h : Reachable c s) (p r : Name) (hl : Lists s.npt p r) :
    r ≠ c.router ∧ p ≠ c.router :=
  h.follows.foreign p r ((lists_iff h.follows.fresh.inv p r).1 hl)

/-- A router is listed for its own name only while an LSA of it is stored.  (The converse fails: see C20.) -/
theorem C16_own_prefix_partial {c : CConf} {s : Core} (h : Reachable c s) (r : Name) (hl : Lists s.npt r r) :
    ∃ o ∈ s.lsdb.db, o.lsa.origin = r :=
  (view_isSome h.lsdb r).1 (h.follows.self r ((lists_iff h.follows.fresh.inv r r).1 hl))

/-- Every entry has at least one destination, and there is one entry per prefix. -/
theorem C16_no_idle_entry {c : CConf} {s : Core} (h : Reachable c s) :
    (s.npt.table.map (·.name)).Nodup ∧ ∀ e ∈ s.npt.table, ∃ r, Lists s.npt e.name r := by
  have hi := h.follows.fresh.inv
  refine ⟨hi.tnames, fun e he => ?_⟩
  have hne := hi.rne e he (by simp)
  cases hr : e.rtes with
  | nil => exact absurd hr hne
  | cons p l =>
    obtain ⟨o, ho, hp, -⟩ := hi.rlive e he p (by rw [hr]; simp)
    exact ⟨o.dest, e, he, rfl, o, ho, by rw [hp, hr]; simp, rfl⟩

/-- The claim has cases: r2 and r3 are listed for /p, then only r3. -/
example : Lists (exRun .off exTwo).npt (nm ["p"]) exR2 ∧ Lists (exRun .off exTwo).npt (nm ["p"]) exR3 ∧
    ¬ Lists (exRun .off exThree).npt (nm ["p"]) exR2 ∧ Lists (exRun .off exThree).npt (nm ["p"]) exR3 := by
  unfold Lists
  decide +kernel

/-! ### C17 -/

theorem rtHops_mem {t : RTable} (h : (t.map (·.dest)).Nodup) (d : Name) (x : NextHop) :
    x ∈ rtHops t d ↔ ∃ e ∈ t, e.dest = d ∧ x ∈ e.hops := by
  unfold rtHops RTable.find
  cases hf : List.find? (fun e => e.dest == d) t with
  | none =>
    simp only [Option.map_none, Option.getD_none, List.not_mem_nil, false_iff]
    rintro ⟨e, he, hd, -⟩
    have := List.find?_eq_none.1 hf e he
    simp [hd] at this
  | some e =>
    have h1 := List.mem_of_find?_eq_some hf
    have h2 : e.dest = d := by simpa using List.find?_some hf
    simp only [Option.map_some, Option.getD_some]
    constructor
    · exact fun hx => ⟨e, h1, h2, hx⟩
    · rintro ⟨e', he', hd', hx⟩
      have : e' = e := Lsdb.nodup_inj h he' h1 (hd'.trans h2.symm)
      rwa [this] at hx

theorem nhListEq_left : ∀ {a b : List NextHop}, nhListEq a b = true → ∀ x ∈ a, ∃ y ∈ b, x.eqv y = true := by
  intro a
  induction a with
  | nil => intro b _ x hx; simp at hx
  | cons z a ih =>
    intro b h x hx
    cases b with
    | nil => simp [nhListEq] at h
    | cons y b =>
      simp only [nhListEq, List.length_cons, List.zip_cons_cons, List.all_cons, Bool.and_eq_true, beq_iff_eq,
        Nat.add_right_cancel_iff] at h
      rcases List.mem_cons.1 hx with rfl | hx
      · exact ⟨y, by simp, h.2.1⟩
      · obtain ⟨w, hw, he⟩ := ih (b := b) (by
          unfold nhListEq
          simp only [Bool.and_eq_true, beq_iff_eq]
          exact ⟨h.1, h.2.2⟩) x hx
        exact ⟨w, by simp [hw], he⟩

theorem nhListEq_right : ∀ {a b : List NextHop}, nhListEq a b = true → ∀ y ∈ b, ∃ x ∈ a, x.eqv y = true := by
  intro a
  induction a with
  | nil =>
    intro b h y hy
    cases b with
    | nil => simp at hy
    | cons z b => simp [nhListEq] at h
  | cons z a ih =>
    intro b h y hy
    cases b with
    | nil => simp at hy
    | cons w b =>
      simp only [nhListEq, List.length_cons, List.zip_cons_cons, List.all_cons, Bool.and_eq_true, beq_iff_eq,
        Nat.add_right_cancel_iff] at h
      rcases List.mem_cons.1 hy with rfl | hy
      · exact ⟨z, by simp, h.2.1⟩
      · obtain ⟨x, hx, he⟩ := ih (b := b) (by
          unfold nhListEq
          simp only [Bool.and_eq_true, beq_iff_eq]
          exact ⟨h.1, h.2.2⟩) y hy
        exact ⟨x, by simp [hx], he⟩

/-- The hops merged into an entry, and the offers of its destinations, match. -/
theorem merged_offers {c : CConf} {s : Core} (h : Reachable c s) {e : NptEntry} (he : e ∈ s.npt.table) :
    e.nhl = offerAll (e.rtes.flatMap s.npt.hopsOf) ∧
    (∀ x ∈ e.rtes.flatMap s.npt.hopsOf, ∃ o, Offered s e.name o ∧ x.eqv o = true) ∧
    (∀ o, Offered s e.name o → ∃ x ∈ e.rtes.flatMap s.npt.hopsOf, x.eqv o = true) := by
  have hf := h.follows.fresh
  have hi := hf.inv
  have hneat := (h.table (Core.tables_neat c)).1
  refine ⟨hf.nhl e he (fun hc => hc.elim), ?_, ?_⟩
  · intro x hx
    obtain ⟨pid, hp, hx⟩ := List.mem_flatMap.1 hx
    obtain ⟨o, ho, hop, hl⟩ := hi.rlive e he pid hp
    have hob : s.npt.obj? pid = some o := by rw [← hop]; exact hi.obj ho
    unfold hopsOf at hx
    rw [hob] at hx
    obtain ⟨y, hy, hxy⟩ := nhListEq_left (hf.rtx o ho hl (fun hc => hc.elim)) x hx
    rw [h.rt] at hy
    obtain ⟨re, h1, h2, h3⟩ := (rtHops_mem hneat _ _).1 hy
    exact ⟨y, ⟨o.dest, ⟨e, he, rfl, o, ho, hop ▸ hp, rfl⟩, re, h1, h2, h3⟩, hxy⟩
  · rintro y ⟨r, ⟨e', he', hn, o, ho, hp, hd⟩, re, h1, h2, h3⟩
    have : e' = e := Lsdb.nodup_inj hi.tnames he' he hn
    subst this
    obtain ⟨o', ho', hop, hl⟩ := hi.rlive e' he' o.pid hp
    have : o' = o := Lsdb.nodup_inj hi.pids ho' ho hop
    subst this
    have hy : y ∈ rtHops s.rt.table o'.dest := (rtHops_mem hneat _ _).2 ⟨re, h1, h2.trans hd.symm, h3⟩
    rw [← h.rt] at hy
    obtain ⟨x, hx, hxy⟩ := nhListEq_right (hf.rtx o' ho' hl (fun hc => hc.elim)) y hy
    refine ⟨x, List.mem_flatMap.2 ⟨o'.pid, hp, ?_⟩, hxy⟩
    unfold hopsOf
    rw [hi.obj ho']
    exact hx

theorem offered_good {c : CConf} {s : Core} (h : Reachable c s) {G : NextHop → Prop} (hG : HopsOk G s.npt) {p : Name} {o : NextHop}
    (ho : Offered s p o) : G o := by
  obtain ⟨r, -, e, he, -, hx⟩ := ho
  exact hG.rt e (by rw [h.rt]; exact he) o hx

theorem merged_good {c : CConf} {s : Core} (h : Reachable c s) {G : NextHop → Prop} (hG : HopsOk G s.npt) {e : NptEntry}
    (he : e ∈ s.npt.table) : ∀ x ∈ e.rtes.flatMap s.npt.hopsOf, G x := by
  intro x hx
  obtain ⟨pid, hp, hx⟩ := List.mem_flatMap.1 hx
  obtain ⟨o, ho, hop, hl⟩ := h.follows.fresh.inv.rlive e he pid hp
  unfold hopsOf at hx
  rw [← hop, h.follows.fresh.inv.obj ho] at hx
  exact hG.pool o ho x hx

/-- Link-state routing (also with the hyperbolic dry run): the hops recorded for a prefix are, face by
face, cheapest among the hops the current routing table has to its destinations; every face of those
is there once. -/
theorem C17_link_state_partial {c : CConf} {s : Core} (h : Reachable c s) (hh : c.lsdb.hyp ≠ .on) (e : NptEntry)
    (he : e ∈ s.npt.table) :
    (∀ x ∈ e.nhl, Best s e.name x) ∧ (∀ o, Offered s e.name o → ∃ x ∈ e.nhl, x.uri = o.uri) ∧
    (e.nhl.map NextHop.uri).Nodup := by
  obtain ⟨h1, h2, h3⟩ := merged_offers h he
  have hw := h.whole hh
  have hmem : ∀ x, x ∈ e.rtes.flatMap s.npt.hopsOf ↔ Offered s e.name x := by
    intro x
    constructor
    · intro hx
      obtain ⟨o, ho, he'⟩ := h2 x hx
      rw [Core.whole_eq (merged_good h hw he x hx) (offered_good h hw ho) he']; exact ho
    · intro ho
      obtain ⟨y, hy, he'⟩ := h3 x ho
      rwa [Core.whole_eq (merged_good h hw he y hy) (offered_good h hw ho) he'] at hy
  obtain ⟨k1, k2, k3⟩ := C01_cheapest_per_face (e.rtes.flatMap s.npt.hopsOf)
  rw [← h1] at k1 k2 k3
  refine ⟨fun x hx => ⟨(hmem x).1 (k1 x hx).1, fun o ho hu => (k1 x hx).2 o ((hmem o).2 ho) hu⟩, ?_, k3⟩
  intro o ho
  exact k2 o ((hmem o).2 ho)

theorem floor_mono {a b : Rat} (h : a ≤ b) : a.floor ≤ b.floor :=
  Rat.le_floor_iff.2 (Rat.le_trans (Rat.floor_le a) h)

theorem adj_mono {a b : NextHop} (hh : a.hyp = b.hyp) (h : a.cost ≤ b.cost) : a.adj ≤ b.adj := by
  unfold NextHop.adj
  rw [hh]
  split
  · refine floor_mono ?_
    have : a.cost * 1000 ≤ b.cost * 1000 := Rat.mul_le_mul_of_nonneg_right h (by decide)
    exact Rat.add_le_add_right.2 this
  · exact floor_mono h

/-- Every mode: the same up to the resolution of the costs sent to the forwarder (whole numbers; for
hyperbolic routes thousandths).  Each recorded hop has the adjusted cost of an offer by the same face
and no offer by that face has a lower one; every face offered is there once. -/
theorem C17_adjusted_partial {c : CConf} {s : Core} (h : Reachable c s) (e : NptEntry) (he : e ∈ s.npt.table) :
    (∀ x ∈ e.nhl, (∃ o, Offered s e.name o ∧ o.uri = x.uri ∧ o.adj = x.adj) ∧
      ∀ o, Offered s e.name o → o.uri = x.uri → x.adj ≤ o.adj) ∧
    (∀ o, Offered s e.name o → ∃ x ∈ e.nhl, x.uri = o.uri) ∧ (e.nhl.map NextHop.uri).Nodup := by
  obtain ⟨h1, h2, h3⟩ := merged_offers h he
  obtain ⟨k1, k2, k3⟩ := C01_cheapest_per_face (e.rtes.flatMap s.npt.hopsOf)
  rw [← h1] at k1 k2 k3
  have heq : ∀ {x y : NextHop}, x.eqv y = true → x.adj = y.adj ∧ x.uri = y.uri := by
    intro x y hxy
    simpa [NextHop.eqv] using hxy
  have hflag : ∃ b, ∀ x ∈ e.rtes.flatMap s.npt.hopsOf, x.hyp = b := by
    by_cases hh : c.lsdb.hyp = .on
    · exact ⟨true, merged_good h (h.hypHops hh) he⟩
    · exact ⟨false, fun x hx => (merged_good h (h.whole hh) he x hx).1⟩
  obtain ⟨b, hb⟩ := hflag
  refine ⟨fun x hx => ⟨?_, ?_⟩, ?_, k3⟩
  · obtain ⟨o, ho, hxo⟩ := h2 x (k1 x hx).1
    exact ⟨o, ho, (heq hxo).2.symm, (heq hxo).1.symm⟩
  · intro o ho hu
    obtain ⟨y, hy, hyo⟩ := h3 o ho
    rw [← (heq hyo).1]
    exact adj_mono ((hb x (k1 x hx).1).trans (hb y hy).symm) ((k1 x hx).2 y hy ((heq hyo).2.trans hu))
  · intro o ho
    obtain ⟨y, hy, hyo⟩ := h3 o ho
    obtain ⟨x, hx, hxu⟩ := k2 y hy
    exact ⟨x, hx, hxu.trans (heq hyo).2⟩

/-- The claim has cases: /p has a hop by each neighbour. -/
example : ∃ e ∈ (exRun .off exTwo).npt.table, e.name = nm ["p"] ∧
    e.nhl = [⟨"udp4://10.0.0.2", 10, false⟩, ⟨"udp4://10.0.0.3", 10, false⟩] := by
  decide +kernel

/-! In hyperbolic mode r2's and r3's coordinates arrive and routes are computed; then the coordinates of
r3 change a little and routes are computed again. -/

def exCoords (d : Rat) : List Core.Op :=
  exGet "r2" "COORDINATE" exR2 1 (.coord (.fin 1) [.fin 1]) ++
  exGet "r3" "COORDINATE" exR3 1 (.coord (.fin 2) [.fin 1]) ++ [exWait, .calcTimer 0 []] ++
  exGet "r3" "COORDINATE" exR3 2 (.coord (.fin (2 + d)) [.fin 1]) ++ [exWait, .calcTimer 0 []]

/-- C17 does not hold exactly in hyperbolic mode: the table keeps the old cost 3 although the current
route costs 3.0001. -/
theorem C17_violated_hyperbolic :
    ∃ s, Reachable (exCore .on) s ∧ ∃ e ∈ s.npt.table, ∃ x ∈ e.nhl, ∀ re ∈ s.rt.table, x ∉ re.hops := by
  refine ⟨exRun .on (exCoords (1 / 10000)), exRun_reachable _ _, ?_⟩
  decide +kernel

/-! ### C18 -/

/-- No reachable state has erased an end iterator or followed an expired pointer. -/
theorem C18_no_fault {c : CConf} {s : Core} (h : Reachable c s) : s.npt.fault = false := h.follows.fresh.fault

/-- The operations that could fault do happen: a withdrawal and a routing change with prefixes in place. -/
example : (exRun .off exThree).npt.costs ≠ [] ∧ (exRun .off (exThree ++ [exWait, .lsdb (.setAdjs []), .lsdb .scheduleBuild,
    exWait, .lsdb .buildTimer])).rt.table = [] := by
  decide +kernel

/-! ### C19 -/

/-- The pool: one live object per destination; its use count is the number of prefix entries referring
to it and is positive; its back references are exactly those entries; every object an entry refers to
is in the pool. -/
theorem C19_pool_exact {c : CConf} {s : Core} (h : Reachable c s) :
    (∀ o ∈ s.npt.objs, o.live = true →
      o.use = (s.npt.table.filter (fun e => decide (o.pid ∈ e.rtes))).length ∧ 0 < o.use ∧
      (o.names.map (·.1)).Nodup ∧
      ∀ n i, (n, i) ∈ o.names ↔ ∃ e ∈ s.npt.table, e.name = n ∧ e.eid = i ∧ o.pid ∈ e.rtes) ∧
    (∀ e ∈ s.npt.table, e.rtes.Nodup ∧ ∀ p ∈ e.rtes, ∃ o ∈ s.npt.objs, o.pid = p ∧ o.live = true) ∧
    (∀ d, (∃ o ∈ s.npt.objs, o.live = true ∧ o.dest = d) ↔ ∃ p, Lists s.npt p d) ∧
    (∀ o ∈ s.npt.objs, ∀ o' ∈ s.npt.objs, o.live = true → o'.live = true → o.dest = o'.dest → o = o') := by
  have hi := h.follows.fresh.inv
  refine ⟨fun o ho hl => ⟨hi.use o ho hl, hi.usepos o ho hl (by simp), hi.bnodup o ho hl, ?_⟩,
    fun e he => ⟨hi.rnodup e he, hi.rlive e he⟩, ?_, hi.dests⟩
  · intro n i
    constructor
    · intro hm
      obtain ⟨e, he, h1, h2, h3⟩ := hi.back o ho hl _ hm
      exact ⟨e, he, h2, h1, h3⟩
    · rintro ⟨e, he, rfl, rfl, h3⟩
      exact hi.forth o ho hl e he h3 (by simp)
  · intro d
    constructor
    · rintro ⟨o, ho, hl, rfl⟩
      have hu := hi.use o ho hl
      have hp := hi.usepos o ho hl (by simp)
      rw [hu] at hp
      obtain ⟨e, he⟩ := List.exists_mem_of_length_pos hp
      unfold users at he
      obtain ⟨he, hpe⟩ := List.mem_filter.1 he
      exact ⟨e.name, e, he, rfl, o, ho, by simpa using hpe, rfl⟩
    · rintro ⟨p, hp⟩
      obtain ⟨e, -, -, o, ho, hl, hd, -⟩ := (lists_iff hi p d).1 hp
      exact ⟨o, ho, hl, hd⟩

/-- A destination used by two entries. -/
example : ∃ o ∈ (exRun .off exTwo).npt.objs, o.live = true ∧ o.dest = exR2 ∧ o.use = 2 ∧
    o.names.map (·.1) = [exR2, nm ["p"]] := by
  decide +kernel

/-! ### C20 -/

/-- One signal's effect on "router `r` is present", as the table sees it. -/
theorem C20_history_partial {c : CConf} {s : Core} (h : Reachable c s) (r : Name) (hr : r ≠ c.router) :
    Lists s.npt r r ↔ upOf r s.lsdb.log = true :=
  (lists_iff h.follows.fresh.inv r r).trans (h.up hr)

/-- An LSA of router `r` is reported removed, or the update of its Name LSA withdraws `r`'s own name. -/
def gone (r : Name) : Out → Bool
  | .signal .removed l _ _ => l.origin == r
  | .signal .updated l _ rem => l.origin == r && l.type == .name && rem.any (fun q => q.name == r)
  | _ => false

theorem kept_installed (c : CConf) {r : Name} :
    Core.Kept c (fun _ => True) (fun log v _ => ∀ t, (v r t).isSome → ∃ l a b, Out.signal .installed l a b ∈ log ∧ l.origin = r) where
  vs := by
    intro log v v' n outs h t
    have old : ∀ ty, (v r ty).isSome → ∃ l a b, Out.signal .installed l a b ∈ log ++ outs ∧ l.origin = r := by
      intro ty hty
      obtain ⟨l, a, b, hm, hl⟩ := h ty hty
      exact ⟨l, a, b, List.mem_append_left _ hm, hl⟩
    intro ty hty
    cases t with
    | quiet _ hq => exact old ty hty
    | installed l hv hn =>
      by_cases hk : r = l.origin ∧ ty = l.type
      · exact ⟨l, [], [], by simp, hk.1.symm⟩
      · unfold Lsdb.View.set at hty; rw [if_neg hk] at hty; exact old ty hty
    | updated l x hv ho ht hn hu =>
      by_cases hk : r = l.origin ∧ ty = l.type
      · obtain ⟨rfl, rfl⟩ := hk
        exact old l.type (by rw [hv]; rfl)
      · unfold Lsdb.View.set at hty; rw [if_neg hk] at hty; exact old ty hty
    | removed l hv hn =>
      by_cases hk : r = l.origin ∧ ty = l.type
      · unfold Lsdb.View.set at hty; rw [if_pos hk] at hty; cases hty
      · unfold Lsdb.View.set at hty; rw [if_neg hk] at hty; exact old ty hty
  routes _ _ h := h
  rehash _ h := h
  rehashNames _ _ h := h

theorem upOf_never_gone {r : Name} {log : List Out} (hg : ∀ o ∈ log, gone r o = false)
    (hi : ∃ l a b, Out.signal .installed l a b ∈ log ∧ l.origin = r) : upOf r log = true := by
  have mono : ∀ (log : List Out), (∀ o ∈ log, gone r o = false) → ∀ b, b = true → log.foldl (upStep r) b = true := by
    intro log
    induction log with
    | nil => intro _ b hb; exact hb
    | cons o log ih =>
      intro hg b hb
      rw [List.foldl_cons]
      refine ih (fun o ho => hg o (by simp [ho])) _ ?_
      have h1 := hg o (by simp)
      subst hb
      cases o with
      | signal k l a x =>
        cases k with
        | installed => unfold upStep; dsimp only; split <;> rfl
        | updated =>
          unfold upStep; dsimp only
          split
          · rename_i ho
            split
            · rename_i ht
              simp only [gone, ho, ht, beq_self_eq_true, Bool.true_and] at h1
              rw [h1]; rfl
            · rfl
          · rfl
        | removed =>
          unfold upStep; dsimp only
          split
          · rename_i ho; simp [gone, ho] at h1
          · rfl
      | _ => rfl
  obtain ⟨l, a, b, hm, hl⟩ := hi
  obtain ⟨pre, post, rfl⟩ := List.append_of_mem hm
  unfold upOf
  rw [List.foldl_append, List.foldl_cons]
  refine mono post (fun o ho => hg o (by simp [ho])) _ ?_
  unfold upStep; dsimp only
  rw [if_pos hl]

theorem installed_of_stored {c : CConf} {s : Core} (h : Reachable c s) {r : Name} (hr : r ≠ c.router)
    (ho : ∃ o ∈ s.lsdb.db, o.lsa.origin = r) : ∃ l a b, Out.signal .installed l a b ∈ s.lsdb.log ∧ l.origin = r := by
  obtain ⟨t, ht⟩ := (view_isSome h.lsdb r).2 ho
  refine (kept_installed c (r := r)).reachable (T := fun _ => True) (Core.tables_all c) ?_ h t ht
  intro disk adjs npl sys ty hty
  rw [Core.init_view c.lsdb disk adjs npl sys r ty hr] at hty
  cases hty

/-- The router prefix is there as long as an LSA of the router is stored, provided that no LSA of it has
ever been removed (and that its Name LSA never withdrew the router's own name). -/
theorem C20_no_removal_partial {c : CConf} {s : Core} (h : Reachable c s) (r : Name) (hr : r ≠ c.router)
    (hg : ∀ o ∈ s.lsdb.log, gone r o = false) : Lists s.npt r r ↔ ∃ o ∈ s.lsdb.db, o.lsa.origin = r := by
  refine ⟨C16_own_prefix_partial h r, fun ho => ?_⟩
  exact (C20_history_partial h r hr).2 (upOf_never_gone hg (installed_of_stored h hr ho))

/-- Its hypotheses are met with both of r2's LSAs stored. -/
example : (∀ o ∈ (exRun .off exTwo).lsdb.log, gone exR2 o = false) ∧ (∃ o ∈ (exRun .off exTwo).lsdb.db, o.lsa.origin = exR2) := by
  decide +kernel

/-- r2's Adjacency LSA (short-lived) and Name LSA arrive; the Adjacency LSA expires. -/
def exExpire : List Core.Op :=
  [.lsdb (.sync (exUpdate "r2" "ADJACENCY") 1),
   .lsdb (.fetched 0 (some ⟨exR2, 1, 1000000000, .adj [exAdj exR1 "udp4://10.0.0.1"]⟩))] ++
  exGet "r2" "NAME" exR2 1 (.names [⟨nm ["p"], .fin 5⟩]) ++ [exWait, .lsdb (.timer 3)]

/-- C20 does not hold: one of r2's two LSAs expires and the entry for r2's own prefix goes, although the
other LSA is still stored. -/
theorem C20_violated :
    ∃ s, Reachable (exCore .off) s ∧ (∃ o ∈ s.lsdb.db, o.lsa.origin = exR2) ∧ ¬ Lists s.npt exR2 exR2 ∧
      Lists s.npt (nm ["p"]) exR2 := by
  refine ⟨exRun .off exExpire, exRun_reachable _ _, ?_⟩
  unfold Lists
  decide +kernel

/-! ### C21 -/

/-- A cost at which prefix `p` could be reached by face `u`: the cost of a current route by `u` to a
router other than this one plus what that router advertises for `p`. -/
def Price (own : Name) (s : Core) (p : Name) (u : Uri) (k : Rat) : Prop :=
  ∃ r q, r ≠ own ∧ Announces s.lsdb r p (.fin q) ∧ ∃ e ∈ s.rt.table, e.dest = r ∧ ∃ h ∈ e.hops, h.uri = u ∧ k = h.cost + q

/-- The full claim for one command: every face it names has the least price. -/
def PricedRight (own : Name) (s : Core) (p : Name) (hops : NexthopList) : Prop :=
  ∀ h ∈ hops, Price own s p h.uri h.cost ∧ ∀ k, Price own s p h.uri k → h.cost ≤ k

/-- The last command for `p` charges `x` on top of the hops satisfying `H`: no hop and a removal; or an
update with exactly those faces, each with its cost plus `x`; or the conversion of a cost is undefined. -/
def Charges (cmd : Option FibCmd) (p : Name) (H : NextHop → Prop) (x : Ext Rat) : Prop :=
  match cmd with
  | none => False
  | some (.remove n) => n = p ∧ ∀ h, ¬ H h
  | some (.update n hops _) => n = p ∧
      ∀ u k, (∃ h ∈ hops, h.uri = u ∧ h.cost = k) ↔ ∃ h q, H h ∧ x = .fin q ∧ h.uri = u ∧ k = h.cost + q
  | some (.updateBad n) => n = p ∧ ∃ h, H h ∧ ∀ q, x = .fin q → ∃ h, H h ∧ ¬ (0 ≤ h.cost + q ∧ h.cost + q < 2 ^ 64)

theorem adjusted_mem {q : Rat} {l l' : NexthopList} (hl : (l.map NextHop.uri).Nodup) (h : adjusted (.fin q) l = some l') (u : Uri) (k : Rat) :
    (∃ h ∈ l', h.uri = u ∧ h.cost = k) ↔ ∃ h ∈ l, h.uri = u ∧ k = h.cost + q := by
  simp only [adjusted] at h
  split at h
  · injection h with h
    have e : l' = offerAll (l.map (fun h => ⟨h.uri, h.cost + q, false⟩)) := by
      rw [← h]; unfold offerAll; rw [List.foldl_map]
    obtain ⟨k1, k2, -⟩ := C01_cheapest_per_face (l.map (fun h : NextHop => (⟨h.uri, h.cost + q, false⟩ : NextHop)))
    rw [← e] at k1 k2
    constructor
    · rintro ⟨a, ha, rfl, rfl⟩
      obtain ⟨b, hb, hab⟩ := List.mem_map.1 (k1 a ha).1
      exact ⟨b, hb, by rw [← hab], by rw [← hab]⟩
    · rintro ⟨b, hb, rfl, rfl⟩
      obtain ⟨a, ha, hau⟩ := k2 _ (List.mem_map.2 ⟨b, hb, rfl⟩)
      obtain ⟨b', hb', hab⟩ := List.mem_map.1 (k1 a ha).1
      have : b' = b := UriNodup.eq_of_uri hl hb' hb (by rw [← hab] at hau; exact hau)
      subst this
      exact ⟨a, ha, hau, by rw [← hab]⟩
  · cases h

theorem tells_charges {cmd : Option FibCmd} {c : FibCmd} {p : Name} {l : NexthopList} {x : Ext Rat} {fl : Nat} (hc : cmd = some c)
    (h : Tells c p l x fl) (hl : (l.map NextHop.uri).Nodup) : Charges cmd p (fun h => h ∈ l) x := by
  subst hc
  rcases h with ⟨rfl, rfl⟩ | rfl
  · exact ⟨rfl, by simp⟩
  · unfold updCmd
    split
    · rename_i he
      rw [List.isEmpty_iff] at he
      subst he
      exact ⟨rfl, by simp⟩
    · rename_i he
      have hne : l ≠ [] := fun hc => he (by rw [hc]; rfl)
      obtain ⟨y, hy⟩ := List.exists_mem_of_ne_nil l hne
      split
      · rename_i l' ha
        refine ⟨rfl, fun u k => ?_⟩
        cases x with
        | fin q =>
          rw [adjusted_mem hl ha]
          constructor
          · rintro ⟨b, hb, h1, h2⟩; exact ⟨b, q, hb, rfl, h1, h2⟩
          · rintro ⟨b, q', hb, hq, h1, h2⟩
            injection hq with hq
            subst hq
            exact ⟨b, hb, h1, h2⟩
        | _ => cases ha
      · rename_i ha
        refine ⟨rfl, y, hy, ?_⟩
        rintro q rfl
        simp only [adjusted] at ha
        split at ha
        · cases ha
        · rename_i hn
          simp only [List.all_eq_true, decide_eq_true_eq] at hn
          refine Classical.byContradiction fun hcon => hn fun z hz => Classical.byContradiction fun hb => hcon ⟨z, hz, ?_⟩
          have : (2 : Rat) ^ 64 = 18446744073709551616 := by decide +kernel
          rw [this]; exact hb

/-- In this log, only signals for LSAs of router `r` have concerned prefix `p` (this router's own LSAs do
not count): no other router advertised or withdrew `p`, and `p` is not the name of a router. -/
def OnlyAdvertiser (own p r : Name) (log : List Out) : Prop :=
  ∀ k l adds removes, Out.signal k l adds removes ∈ log → l.origin ≠ own →
    (l.origin = p ∨ (∃ q ∈ adds ++ removes, q.name = p) ∨ ∃ m, l.content = .names m ∧ ∃ q ∈ m, q.name = p) → l.origin = r

theorem solo_of {own p r : Name} {log : List Out} (h : OnlyAdvertiser own p r log) : Solo own p r log := by
  intro o ho hc
  cases o with
  | signal k l a b =>
    simp only [concerns, Bool.and_eq_true, bne_iff_ne, ne_eq, Bool.or_eq_true, beq_iff_eq, List.any_eq_true] at hc
    simp only [sender, Option.some.injEq]
    refine h k l a b ho hc.1 ?_
    rcases hc.2 with ((h1 | ⟨q, hq, hn⟩) | ⟨q, hq, hn⟩) | ⟨q, hq, hn⟩
    · exact Or.inl h1
    · refine Or.inr (Or.inr ?_)
      unfold lsaNames at hq
      cases hcn : l.content with
      | names m => rw [hcn] at hq; exact ⟨m, rfl, q, hq, hn⟩
      | adj _ => rw [hcn] at hq; simp at hq
      | coord _ _ => rw [hcn] at hq; simp at hq
    · exact Or.inr (Or.inl ⟨q, List.mem_append_left _ hq, hn⟩)
    · exact Or.inr (Or.inl ⟨q, List.mem_append_right _ hq, hn⟩)
  | _ => simp [concerns] at hc

/-- Every mode: a prefix that only one router has ever advertised is registered with that router's cost
on top of the recorded hops. -/
theorem C21_one_advertiser_partial {c : CConf} {s : Core} (h : Reachable c s) (p r : Name) (hr : r ≠ c.router)
    (hp : p ≠ c.router) (hpr : p ≠ r) (hs : OnlyAdvertiser c.router p r s.lsdb.log) (x : Ext Rat)
    (hx : Announces s.lsdb r p x) :
    ∃ e ∈ s.npt.table, e.name = p ∧ Charges (lastCmd s.npt.out p) p (fun h => h ∈ e.nhl) x := by
  have hok := h.solo hr hp hpr (solo_of hs)
  obtain ⟨e, he, hn, -⟩ := (C16_advertisers h p r hr hp hpr).2 ⟨x, hx⟩
  obtain ⟨cmd, h1, h2⟩ := hok.last x ((announces_iff h.lsdb r p x).1 hx) e he hn
  exact ⟨e, he, hn, tells_charges h1 h2 (C17_adjusted_partial h e he).2.2⟩

/-- Link-state: in that case the command names exactly the faces by which `p` can be reached, each with
its least price; it is a removal only if there is none. -/
theorem C21_one_advertiser_price_partial {c : CConf} {s : Core} (h : Reachable c s) (hh : c.lsdb.hyp ≠ .on) (p r : Name)
    (hr : r ≠ c.router) (hp : p ≠ c.router) (hpr : p ≠ r) (hs : OnlyAdvertiser c.router p r s.lsdb.log) (q : Rat)
    (hx : Announces s.lsdb r p (.fin q)) :
    match lastCmd s.npt.out p with
    | some (.update _ hops _) => PricedRight c.router s p hops ∧ ∀ o, Offered s p o → ∃ h ∈ hops, h.uri = o.uri
    | some (.remove _) => ∀ o, ¬ Offered s p o
    | some (.updateBad _) => ∃ o, Best s p o ∧ ¬ (0 ≤ o.cost + q ∧ o.cost + q < 2 ^ 64)
    | none => False := by
  obtain ⟨e, he, hn, hc⟩ := C21_one_advertiser_partial h p r hr hp hpr hs _ hx
  obtain ⟨k1, k2, k3⟩ := C17_link_state_partial h hh e he
  rw [hn] at k1 k2
  have honly : ∀ r', Lists s.npt p r' → r' = r := fun r' hl =>
    (h.solo hr hp hpr (solo_of hs)).only r' ((lists_iff h.follows.fresh.inv p r').1 hl)
  have hlist : Lists s.npt p r := (C16_advertisers h p r hr hp hpr).2 ⟨_, hx⟩
  have hprice : ∀ {u k}, Price c.router s p u k → ∃ o, Offered s p o ∧ o.uri = u ∧ k = o.cost + q := by
    rintro u k ⟨r', q', hr', ha, re, h1, h2, o, h3, h4, h5⟩
    have hpr' : p ≠ r' := by
      rintro rfl
      obtain ⟨ob, hob, hor, -⟩ := ha
      obtain ⟨l, a, b, hm, hl⟩ := installed_of_stored h hr' ⟨ob, hob, hor⟩
      exact hpr (hl.symm.trans (hs _ l a b hm (by rw [hl]; exact hr') (Or.inl hl)))
    have hrr : r' = r := honly r' ((C16_advertisers h p r' hr' hp hpr').2 ⟨_, ha⟩)
    subst hrr
    have hq : q' = q := by
      have e1 := (announces_iff h.lsdb r' p _).1 ha
      have e2 := (announces_iff h.lsdb r' p _).1 hx
      rw [e1] at e2
      injection e2 with e2
      injection e2
    subst hq
    exact ⟨o, ⟨r', hlist, re, h1, h2, h3⟩, h4, h5⟩
  cases hcmd : lastCmd s.npt.out p with
  | none => rw [hcmd] at hc; exact hc
  | some cmd =>
    rw [hcmd] at hc
    cases cmd with
    | remove n =>
      intro o ho
      obtain ⟨x, hx, -⟩ := k2 o ho
      exact hc.2 x hx
    | updateBad n =>
      obtain ⟨-, -, -, h2⟩ := hc
      obtain ⟨x, hx, hb⟩ := h2 q rfl
      exact ⟨x, k1 x hx, hb⟩
    | update n hops fl =>
      refine ⟨fun y hy => ?_, fun o ho => ?_⟩
      · obtain ⟨x, q', hxm, hq, hu, hk⟩ := (hc.2 y.uri y.cost).1 ⟨y, hy, rfl, rfl⟩
        injection hq with hq
        subst hq
        obtain ⟨⟨r', hl, re, h1, h2, h3⟩, hbest⟩ := k1 x hxm
        have := honly r' hl
        subst this
        refine ⟨⟨r', q, hr, hx, re, h1, h2, x, h3, hu, hk⟩, fun k hpk => ?_⟩
        obtain ⟨o, ho, hou, rfl⟩ := hprice hpk
        rw [hk]
        exact Rat.add_le_add_right.2 (hbest o ho (hou.trans hu.symm))
      · obtain ⟨x, hxm, hxu⟩ := k2 o ho
        obtain ⟨y, hy, hyu, -⟩ := (hc.2 x.uri (x.cost + q)).2 ⟨x, q, hxm, rfl, rfl, rfl⟩
        exact ⟨y, hy, hyu.trans hxu⟩

/-- Its hypotheses are met by /p after r2's advertisement, and the price there is 15. -/
example : (∀ o ∈ (exRun .off exOne).lsdb.log, ∀ k l a b, o = .signal k l a b → l.origin ≠ exR1 →
      (l.origin = nm ["p"] ∨ (∃ q ∈ a ++ b, q.name = nm ["p"]) ∨ ∃ m, l.content = .names m ∧ ∃ q ∈ m, q.name = nm ["p"]) →
      l.origin = exR2) ∧
    Announces (exRun .off exOne).lsdb exR2 (nm ["p"]) (.fin 5) ∧
    lastCmd (exRun .off exOne).npt.out (nm ["p"]) = some (.update (nm ["p"]) [⟨"udp4://10.0.0.2", 15, false⟩] 1) := by
  refine ⟨?_, ?_, ?_⟩
  · have key : ∀ o ∈ (exRun .off exOne).lsdb.log, sender o = some exR2 ∨ sender o = none ∨ sender o = some exR1 ∨
        concerns exR1 (nm ["p"]) o = false := by decide +kernel
    rintro o ho k l a b rfl hne hc
    rcases key _ ho with h1 | h1 | h1 | h1
    · simpa [sender] using h1
    · cases h1
    · simp only [sender, Option.some.injEq] at h1; exact absurd h1 hne
    · exfalso
      simp only [concerns, Bool.and_eq_false_iff, bne_eq_false_iff_eq, Bool.or_eq_false_iff, beq_eq_false_iff_ne, List.any_eq_false,
        beq_iff_eq] at h1
      rcases h1 with h1 | ⟨⟨⟨h1, h2⟩, h3⟩, h4⟩
      · exact hne h1
      · rcases hc with hc | ⟨q, hq, hn⟩ | ⟨m, hm, q, hq, hn⟩
        · exact h1 hc
        · rcases List.mem_append.1 hq with hq | hq
          · exact h3 q hq hn
          · exact h4 q hq hn
        · refine h2 q ?_ hn
          unfold lsaNames; rw [hm]; exact hq
  · have : ∃ o ∈ (exRun .off exOne).lsdb.db, o.lsa.origin = exR2 ∧ o.lsa.content = .names [⟨nm ["p"], .fin 5⟩] := by
      decide +kernel
    obtain ⟨o, ho, h1, h2⟩ := this
    exact ⟨o, ho, h1, _, h2, by simp⟩
  · decide +kernel

/-- In this log `p` is only ever advertised by other routers with cost 0. -/
def OnlyZero (own p : Name) (log : List Out) : Prop :=
  ∀ k l adds removes, Out.signal k l adds removes ∈ log → l.origin ≠ own →
    (∀ q ∈ adds, q.name = p → q.cost = .fin 0) ∧ ∀ m, l.content = .names m → ∀ q ∈ m, q.name = p → q.cost = .fin 0

theorem free_of {own p : Name} {log : List Out} (h : OnlyZero own p log) : Free own p log := by
  intro k l a b hm hne q hq hn
  obtain ⟨h1, h2⟩ := h k l a b hm hne
  rcases List.mem_append.1 hq with hq | hq
  · unfold lsaNames at hq
    cases hcn : l.content with
    | names m => rw [hcn] at hq; exact h2 m hcn q hq hn
    | adj _ => rw [hcn] at hq; simp at hq
    | coord _ _ => rw [hcn] at hq; simp at hq
  · exact h1 q hq hn

/-- Every mode, any number of advertisers: a prefix only ever advertised with cost 0 (in particular a
router's own name that nobody advertises) is registered with the recorded hops' own costs. -/
theorem C21_zero_cost_partial {c : CConf} {s : Core} (h : Reachable c s) (p : Name)
    (hz : OnlyZero c.router p s.lsdb.log) (e : NptEntry) (he : e ∈ s.npt.table) (hn : e.name = p) :
    Charges (lastCmd s.npt.out p) p (fun h => h ∈ e.nhl) (.fin 0) := by
  obtain ⟨cmd, h1, h2⟩ := (h.free (free_of hz)).last e he hn
  exact tells_charges h1 h2 (C17_adjusted_partial h e he).2.2

/-- Link-state: in that case the faces registered are exactly those offered, each with its least cost. -/
theorem C21_zero_cost_price_partial {c : CConf} {s : Core} (h : Reachable c s) (hh : c.lsdb.hyp ≠ .on) (p : Name)
    (hz : OnlyZero c.router p s.lsdb.log) (hl : ∃ r, Lists s.npt p r) :
    match lastCmd s.npt.out p with
    | some (.update _ hops _) => ∀ u k, (∃ h ∈ hops, h.uri = u ∧ h.cost = k) ↔ ∃ o, Best s p o ∧ o.uri = u ∧ o.cost = k
    | some (.remove _) => ∀ o, ¬ Offered s p o
    | some (.updateBad _) => ∃ o, Best s p o ∧ ¬ (0 ≤ o.cost ∧ o.cost < 2 ^ 64)
    | none => False := by
  obtain ⟨r, e, he, hn, -⟩ := hl
  have hc := C21_zero_cost_partial h p hz e he hn
  obtain ⟨k1, k2, k3⟩ := C17_link_state_partial h hh e he
  rw [hn] at k1 k2
  cases hcmd : lastCmd s.npt.out p with
  | none => rw [hcmd] at hc; exact hc
  | some cmd =>
    rw [hcmd] at hc
    cases cmd with
    | remove n =>
      intro o ho
      obtain ⟨x, hx, -⟩ := k2 o ho
      exact hc.2 x hx
    | updateBad n =>
      obtain ⟨-, -, -, h2⟩ := hc
      obtain ⟨x, hx, hb⟩ := h2 0 rfl
      rw [Rat.add_zero] at hb
      exact ⟨x, k1 x hx, hb⟩
    | update n hops fl =>
      intro u k
      rw [hc.2 u k]
      constructor
      · rintro ⟨x, q, hx, hq, hu, hk⟩
        injection hq with hq
        subst hq
        exact ⟨x, k1 x hx, hu, by rw [hk, Rat.add_zero]⟩
      · rintro ⟨o, ho, hu, hk⟩
        obtain ⟨x, hx, hxu⟩ := k2 o ho.1
        refine ⟨x, 0, hx, rfl, hxu.trans hu, ?_⟩
        rw [Rat.add_zero, ← hk]
        exact Rat.le_antisymm (ho.2 x (k1 x hx).1 hxu) ((k1 x hx).2 o ho.1 hxu.symm)

/-- Its hypotheses are met by r2's own name. -/
example : ∃ r, Lists (exRun .off exOne).npt exR2 r :=
  ⟨exR2, by unfold Lists; decide +kernel⟩

/-- C21 does not hold with several advertisers: /p is registered by r2's face for 30, the cost of the
router heard last, while r2 advertises it with 5 over a route of cost 10. -/
theorem C21_violated_two_advertisers :
    ∃ s, Reachable (exCore .off) s ∧
      lastCmd s.npt.out (nm ["p"]) = some (.update (nm ["p"]) [⟨"udp4://10.0.0.2", 30, false⟩, ⟨"udp4://10.0.0.3", 30, false⟩] 1) ∧
      Price exR1 s (nm ["p"]) "udp4://10.0.0.2" 15 := by
  refine ⟨exRun .off exTwo, exRun_reachable _ _, by decide +kernel, exR2, 5, by decide +kernel, ?_, ?_⟩
  · have : ∃ o ∈ (exRun .off exTwo).lsdb.db, o.lsa.origin = exR2 ∧ o.lsa.content = .names [⟨nm ["p"], .fin 5⟩] := by
      decide +kernel
    obtain ⟨o, ho, h1, h2⟩ := this
    exact ⟨o, ho, h1, _, h2, by simp⟩
  · decide +kernel

/-- And when one of two advertisers withdraws, the other's prefix cost is lost: /p is registered for 10
although its only advertiser r3 asks for 20 on top. -/
theorem C21_violated_withdrawal :
    ∃ s, Reachable (exCore .off) s ∧
      lastCmd s.npt.out (nm ["p"]) = some (.update (nm ["p"]) [⟨"udp4://10.0.0.3", 10, false⟩] 1) ∧
      (∀ r x, Announces s.lsdb r (nm ["p"]) x → r = exR3 ∧ x = .fin 20) ∧
      s.rt.table.filter (fun e => e.dest == exR3) = [⟨exR3, [⟨"udp4://10.0.0.3", 10, false⟩]⟩] := by
  refine ⟨exRun .off exThree, exRun_reachable _ _, by decide +kernel, ?_, by decide +kernel⟩
  have key : ∀ o ∈ (exRun .off exThree).lsdb.db, ∀ q ∈ lsaNames o.lsa, q.name = nm ["p"] → o.lsa.origin = exR3 ∧ q.cost = .fin 20 := by
    decide +kernel
  rintro r x ⟨o, ho, hr, m, hm, hx⟩
  have := key o ho ⟨_, x⟩ (by unfold lsaNames; rw [hm]; exact hx) rfl
  exact ⟨hr.symm.trans this.1, this.2⟩

/-- In hyperbolic mode the route costs sent to the FIB are no longer marked hyperbolic, so a route of
cost 3.5 is registered with 3 instead of 3500, the same as one of cost 3.25. -/
theorem C21_violated_hyperbolic :
    ∃ s, Reachable (exCore .on) s ∧
      (∃ e ∈ s.rt.table, e.dest = exR3 ∧ ∃ h ∈ e.hops, h.cost = 7 / 2 ∧ h.hyp = true ∧ h.adj = 3500) ∧
      ∃ hops, lastCmd s.npt.out exR3 = some (.update exR3 hops 1) ∧ ∃ h ∈ hops, h.cost = 7 / 2 ∧ h.hyp = false ∧ h.adj = 3 := by
  refine ⟨exRun .on (exCoords (1 / 2)), exRun_reachable _ _, by decide +kernel, ?_⟩
  refine ⟨[⟨"udp4://10.0.0.3", 0, false⟩, ⟨"udp4://10.0.0.2", 7 / 2, false⟩], ?_⟩
  decide +kernel

end Nlsr
