import Verif.Lemmas.Round
import Verif.Lemmas.CoreHops
import Verif.Props.Npt
/- C113: costs are doubles; what their rounding does to routes. -/
namespace Nlsr

namespace LS

/-- A way of rounding that respects the order and is exact up to 2^53. -/
structure Mode (r : Int → Int) : Prop where
  mono : ∀ {a b : Int}, 0 ≤ a → a ≤ b → r a ≤ r b
  exact : ∀ {a : Int}, 0 ≤ a → a ≤ 2 ^ 53 → r a = a

theorem mode_flInt : Mode Dbl.flInt where
  mono {a b} h0 h := by
    unfold Dbl.flInt
    have := Dbl.roundNat_mono (show a.toNat ≤ b.toNat by omega)
    omega
  exact {a} h0 h := by
    unfold Dbl.flInt
    rw [Dbl.roundNat_id (by omega)]
    omega

/-- All distances are between 0 and `INF_DISTANCE`. -/
def Bounded (st : DState) : Prop := ∀ i, 0 ≤ st.dist.at' i ∧ st.dist.at' i ≤ infDistance

theorem get?_eq {α} {v : Vec α} {i : Nat} {x : α} (h : v.get? i = some x) : x = v.at' i := by
  unfold Vec.get? at h
  split at h
  · injection h with h; exact h.symm
  · cases h

theorem relaxR_eq {r : Int → Int} (hr : Mode r) (m : Mat) (q : List Nat) (head u : Nat) (st : DState) (hb : Bounded st) (v : Nat) :
    relaxR r m q head u st v = relax m q head u st v ∧ ∀ st', relax m q head u st v = some st' → Bounded st' := by
  unfold relaxR relax
  cases hw : m.get? u v with
  | none => exact ⟨rfl, nofun⟩
  | some w =>
    simp only [Option.bind_eq_bind, Option.bind_some]
    by_cases hc : (Ext.ge0 w && isNotExplored q v (head + 1)) = true
    · rw [if_pos hc, if_pos hc]
      cases hdu : st.dist.get? u with
      | none => exact ⟨rfl, nofun⟩
      | some du =>
        cases hdv : st.dist.get? v with
        | none => exact ⟨rfl, nofun⟩
        | some dv =>
          simp only [Option.bind_some]
          have b1 := hb u
          have b2 := hb v
          rw [← get?_eq hdu] at b1
          rw [← get?_eq hdv] at b2
          cases w with
          | nan => exact ⟨rfl, fun st' e => by cases e; exact hb⟩
          | ninf => exact ⟨rfl, fun st' e => by cases e; exact hb⟩
          | pinf => exact ⟨rfl, fun st' e => by cases e; exact hb⟩
          | fin z =>
            have hz : 0 ≤ z := by
              simp only [Bool.and_eq_true] at hc
              have := hc.1
              unfold Ext.ge0 at this
              simpa using this
            show (if r (du + z) < dv then _ else _) = (if du + z < dv then _ else _) ∧
              ∀ st', (if du + z < dv then _ else _) = some st' → Bounded st'
            unfold infDistance at b1 b2
            constructor
            · by_cases hs : du + z ≤ 2 ^ 53
              · rw [hr.exact (by omega) hs]
              · have h1 := hr.mono (a := 2 ^ 53) (b := du + z) (by decide) (by omega)
                rw [hr.exact (by decide) (by decide)] at h1
                rw [if_neg (by omega), if_neg (by omega)]
            · intro st' e
              split at e
              · rename_i hlt
                unfold Vec.set? at e
                split at e
                · simp only [Option.bind_some] at e
                  split at e
                  · injection e with e
                    subst e
                    intro i
                    show 0 ≤ (if i = v then du + z else st.dist.at' i) ∧ (if i = v then du + z else st.dist.at' i) ≤ infDistance
                    unfold infDistance
                    split
                    · omega
                    · exact hb i
                  · cases e
                · cases e
              · injection e with e
                rw [← e]; exact hb
    · rw [if_neg hc, if_neg hc]
      exact ⟨rfl, fun st' e => by cases e; exact hb⟩

theorem relaxAllR_eq {r : Int → Int} (hr : Mode r) (m : Mat) (q : List Nat) (head u : Nat) : ∀ (vs : List Nat) (st : DState), Bounded st →
    vs.foldlM (relaxR r m q head u) st = vs.foldlM (relax m q head u) st ∧
    ∀ st', vs.foldlM (relax m q head u) st = some st' → Bounded st'
  | [], st, hb => ⟨rfl, fun st' e => by cases e; exact hb⟩
  | v :: vs, st, hb => by
    obtain ⟨h1, h2⟩ := relaxR_eq hr m q head u st hb v
    rw [List.foldlM_cons, List.foldlM_cons, h1]
    cases h : relax m q head u st v with
    | none => exact ⟨rfl, nofun⟩
    | some st1 => exact relaxAllR_eq hr m q head u vs st1 (h2 _ h)

theorem loopR_eq {r : Int → Int} (hr : Mode r) (m : Mat) : ∀ (left head : Nat) (q : List Nat) (st : DState), Bounded st →
    dijkstraLoopR r m left head q st = dijkstraLoop m left head q st
  | 0, _, _, _, _ => rfl
  | left + 1, head, q, st, hb => by
    unfold dijkstraLoopR dijkstraLoop
    cases q[head]? with
    | none => rfl
    | some u =>
      simp only [Option.bind_eq_bind, Option.bind_some]
      cases st.dist.get? u with
      | none => rfl
      | some du =>
        simp only [Option.bind_some]
        split
        · rfl
        · obtain ⟨h1, h2⟩ := relaxAllR_eq hr m q head u (List.range m.n) st hb
          rw [h1]
          cases h : (List.range m.n).foldlM (relax m q head u) st with
          | none => rfl
          | some st1 =>
            simp only [Option.bind_some]
            cases sortQueue q st1.dist (head + 1) with
            | none => rfl
            | some q1 => exact loopR_eq hr m left (head + 1) q1 st1 (h2 _ h)

theorem dijkstraR_eq {r : Int → Int} (hr : Mode r) (m : Mat) (source : Nat) : dijkstraR r m source = dijkstra m source := by
  unfold dijkstraR dijkstra
  dsimp only
  unfold Vec.set?
  split
  · simp only [Option.bind_eq_bind, Option.bind_some]
    cases sortQueue (List.range m.n) _ 0 with
    | none => rfl
    | some q =>
      refine loopR_eq hr m _ _ _ _ ?_
      intro i
      show 0 ≤ (if i = source then 0 else infDistance) ∧ (if i = source then 0 else infDistance) ≤ infDistance
      unfold infDistance
      split <;> omega
  · rfl

theorem multiPathR_eq {r : Int → Int} (hr : Mode r) (map : NameMap) (source : Nat) (faceOf : Name → Uri) :
    ∀ (links : List (Nat × Ext Int)) (m : Mat), multiPathR r map source faceOf links m = multiPath map source faceOf links m
  | [], _ => rfl
  | link :: rest, m => by
    unfold multiPathR multiPath
    simp only [dijkstraR_eq hr, multiPathR_eq hr map source faceOf rest]

theorem calculateR_eq {r : Int → Int} (hr : Mode r) (map : NameMap) (maxFaces : Nat) (self : Name) (faceOf : Name → Uri)
    (lsas : List AdjAd) : calculateR r map maxFaces self faceOf lsas = calculate map maxFaces self faceOf lsas := by
  unfold calculateR calculate
  simp only [dijkstraR_eq hr, multiPathR_eq hr]
  cases map.noOf self <;> rfl

/-- C113: the link-state routes computed with doubles are those computed with exact numbers, whatever the LSAs say (however large
the costs in them), with one path or several. -/
theorem C113_link_state (map : NameMap) (maxFaces : Nat) (self : Name) (faceOf : Name → Uri) (lsas : List AdjAd) :
    calculateR Dbl.flInt map maxFaces self faceOf lsas = calculate map maxFaces self faceOf lsas :=
  calculateR_eq mode_flInt map maxFaces self faceOf lsas

/-- Large costs are rounded indeed. -/
example : Dbl.flInt (2 ^ 53 + 1) = 2 ^ 53 ∧ Dbl.flInt (2 ^ 53 + 3) = 2 ^ 53 + 4 := by decide +kernel

end LS

namespace Npt
open Dbl

/-- A link-state hop: a whole cost of at most `INF_DISTANCE`. -/
def Small (h : NextHop) : Prop := h.hyp = false ∧ ∃ n : Nat, n ≤ 2147483647 ∧ h.cost = (n : Rat)

theorem lsTable_small {c : CConf} {adjs : AdjacencyList} {db : List Obj} {t : RTable} (h : Core.lsTable c adjs db = some t) :
    ∀ e ∈ t, ∀ x ∈ e.hops, Small x := by
  unfold Core.lsTable at h
  obtain ⟨out, h1, h2⟩ := LS.calculate_total (Core.adjAds db) c.maxFaces c.router
    (fun n => (AdjacencyList.getAdjacent adjs n).uri)
  rw [h1] at h
  simp only [Option.map_some, Option.some.injEq] at h
  subst h
  intro e he x hx
  obtain ⟨h3, -⟩ := ((C13_one_entry_per_destination out).2.2 e he).2.1 x hx
  obtain ⟨-, ⟨z, hz, hz1, hz2⟩, hh⟩ := h2 _ _ h3
  refine ⟨hh, z.toNat, ?_, ?_⟩
  · unfold LS.infDistance at hz2
    omega
  · rw [hz, ← Rat.intCast_natCast, Int.toNat_of_nonneg hz1]

theorem adjustedR_eq {r : Rat → Rat} {q : Rat} {l : NexthopList} (h : ∀ x ∈ l, r (x.cost + q) = x.cost + q) :
    adjustedR r (.fin q) l = adjusted (.fin q) l := by
  unfold adjustedR adjusted
  dsimp only
  have h1 : l.all (fun h => decide (0 ≤ r (h.cost + q) ∧ r (h.cost + q) < costLimit)) =
      l.all (fun h => decide (0 ≤ h.cost + q ∧ h.cost + q < costLimit)) := by
    rw [Bool.eq_iff_iff, List.all_eq_true, List.all_eq_true]
    exact ⟨fun k x hx => by rw [← h x hx]; exact k x hx, fun k x hx => by rw [h x hx]; exact k x hx⟩
  have h2 : ∀ (l : NexthopList) (acc : NexthopList), (∀ x ∈ l, r (x.cost + q) = x.cost + q) →
      l.foldl (fun acc h => NexthopList.add acc ⟨h.uri, r (h.cost + q), false⟩) acc =
      l.foldl (fun acc h => NexthopList.add acc ⟨h.uri, h.cost + q, false⟩) acc := by
    intro l
    induction l with
    | nil => intro acc _; rfl
    | cons x l ih =>
      intro acc hx
      rw [List.foldl_cons, List.foldl_cons, hx x (by simp)]
      exact ih _ (fun y hy => hx y (by simp [hy]))
  rw [h1, h2 l [] h]

/-- C113: in link-state mode, for every entry of the name prefix table and a whole prefix cost up to `2^53 - 2^31`, the list of hops
given to the FIB with doubles is the one with exact sums. -/
theorem C113_whole {c : CConf} {s : Core} (h : Core.Reachable c s) (hh : c.lsdb.hyp ≠ .on) (e : NptEntry) (he : e ∈ s.npt.table)
    {k : Nat} (hk : k ≤ 2 ^ 53 - 2 ^ 31) :
    adjustedR fl (.fin (k : Rat)) e.nhl = adjusted (.fin (k : Rat)) e.nhl := by
  have hs : HopsOk Small s.npt := (Core.kept_hops c Small).reachable
    ⟨by simp, fun _ _ _ _ ht => lsTable_small ht, fun hc => absurd hc hh⟩ (fun _ _ _ _ => ⟨by simp, by simp⟩) h
  refine adjustedR_eq (fun x hx => ?_)
  obtain ⟨⟨ho, -⟩⟩ := (C17_link_state_partial h hh e he).1 x hx |> fun b => And.intro b trivial
  obtain ⟨-, n, hn, e'⟩ := offered_good h hs ho
  rw [e', ← Rat.natCast_add]
  exact fl_id (by omega)

/-- Rounding stays between two whole numbers. -/
theorem fl_between {s : Rat} (h0 : 0 ≤ s) (hq : s ≤ ((2 ^ 53 : Nat) : Rat)) :
    (s.floor : Rat) ≤ fl s ∧ fl s ≤ ((s.floor + 1 : Int) : Rat) := by
  have f0 : 0 ≤ s.floor := Rat.le_floor_iff.2 h0
  have f1 : s.floor ≤ ((2 ^ 53 : Nat) : Int) := by
    have h1 := Rat.le_trans (Rat.floor_le s) hq
    rw [← Rat.intCast_natCast] at h1
    exact Rat.intCast_le_intCast.1 h1
  have lo : (s.floor : Rat) ≤ fl s := by
    have e : (s.floor : Rat) = ((s.floor.toNat : Nat) : Rat) := by rw [← Rat.intCast_natCast, Int.toNat_of_nonneg f0]
    rw [e, ← fl_id (n := s.floor.toNat) (by omega)]
    refine fl_mono Rat.natCast_nonneg ?_
    rw [← e]
    exact Rat.floor_le s
  refine ⟨lo, ?_⟩
  by_cases hm : s.floor = ((2 ^ 53 : Nat) : Int)
  · have hs : s = ((2 ^ 53 : Nat) : Rat) := by
      have := Rat.floor_le s
      rw [hm, Rat.intCast_natCast] at this
      exact Rat.le_antisymm hq this
    have := fl_id (n := 2 ^ 53) (Nat.le_refl _)
    rw [← hs] at this
    rw [this]
    exact Rat.le_of_lt (Rat.lt_floor_add_one s)
  · have e : ((s.floor + 1 : Int) : Rat) = (((s.floor + 1).toNat : Nat) : Rat) := by
      rw [← Rat.intCast_natCast, Int.toNat_of_nonneg (by omega)]
    have h1 := fl_mono h0 (Rat.le_of_lt (Rat.lt_floor_add_one s))
    rw [e, fl_id (by omega), ← e] at h1
    exact h1

/-- C113: with prefix costs of any kind the cost registered is the sum rounded down, or one more; and it is never lower for a face
with a higher route cost. -/
theorem C113_registered_partial {a b q : Rat} (h0 : 0 ≤ a + q) :
    (a + q ≤ ((2 ^ 53 : Nat) : Rat) →
      (⟨"", fl (a + q), false⟩ : NextHop).adj = (a + q).floor ∨ (⟨"", fl (a + q), false⟩ : NextHop).adj = (a + q).floor + 1) ∧
    (a ≤ b → (⟨"", fl (a + q), false⟩ : NextHop).adj ≤ (⟨"", fl (b + q), false⟩ : NextHop).adj) := by
  have key : ∀ x : Rat, (⟨"", x, false⟩ : NextHop).adj = x.floor := fun _ => rfl
  rw [key, key]
  constructor
  · intro hq
    obtain ⟨k1, k2⟩ := fl_between h0 hq
    have lo := Rat.le_floor_iff.2 k1
    have hi := Rat.intCast_le_intCast.1 (Rat.le_trans (Rat.floor_le _) k2)
    omega
  · intro hab
    rw [Rat.le_floor_iff]
    exact Rat.le_trans (Rat.floor_le _) (fl_mono h0 (by grind))

/-- C113: in hyperbolic mode the cost in thousandths is off by at most one, and a face with a higher cost never gets a lower one. -/
theorem C113_hyperbolic {a b : NextHop} (ha : a.hyp = true) (hb : b.hyp = true) (h0 : 0 ≤ a.cost) :
    (a.cost * 1000 ≤ ((2 ^ 53 : Nat) : Rat) → adjR fl a ≤ a.adj + 1 ∧ a.adj ≤ adjR fl a + 1) ∧
    (a.cost ≤ b.cost → adjR fl a ≤ adjR fl b) := by
  unfold adjR NextHop.adj
  rw [if_pos ha, if_pos ha, if_pos hb]
  constructor
  · intro hq
    have h0' : 0 ≤ a.cost * 1000 := by grind
    obtain ⟨k1, k2⟩ := fl_between h0' hq
    have f1 := Rat.floor_le (a.cost * 1000)
    have f2 := Rat.lt_floor_add_one (a.cost * 1000)
    generalize a.cost * 1000 = s at *
    have c1 : s.floor ≤ (s + 1 / 2).floor := Rat.le_floor_iff.2 (by grind)
    have c2 : s.floor ≤ (fl s + 1 / 2).floor := Rat.le_floor_iff.2 (by grind)
    rw [Rat.intCast_add] at k2 f2
    have one : ((1 : Int) : Rat) = 1 := rfl
    have c3 : (s + 1 / 2).floor < s.floor + 2 := Rat.floor_lt_iff.2 (by
      rw [Rat.intCast_add, show ((2 : Int) : Rat) = 2 from rfl]; grind)
    have c4 : (fl s + 1 / 2).floor < s.floor + 2 := Rat.floor_lt_iff.2 (by
      rw [Rat.intCast_add, show ((2 : Int) : Rat) = 2 from rfl]; grind)
    omega
  · intro hab
    rw [Rat.le_floor_iff]
    have h1 := fl_mono (p := a.cost * 1000) (q := b.cost * 1000) (by grind) (by grind)
    have h2 := Rat.floor_le (fl (a.cost * 1000) + 1 / 2)
    grind

/-- A product that is rounded: 0.1 (the double) times 1000. -/
example : fl ((3602879701896397 : Rat) / ((2 ^ 55 : Nat) : Rat)) = (3602879701896397 : Rat) / ((2 ^ 55 : Nat) : Rat) ∧
    fl ((3602879701896397 : Rat) / ((2 ^ 55 : Nat) : Rat) * 1000) = 100 ∧
    (3602879701896397 : Rat) / ((2 ^ 55 : Nat) : Rat) * 1000 ≠ 100 ∧
    adjR fl ⟨"", (3602879701896397 : Rat) / ((2 ^ 55 : Nat) : Rat), true⟩ = 100 := by decide +kernel

/-- C113: a sum is off by at most one part in 2^53. -/
theorem C113_error {q : Rat} (hq : 1 ≤ q) :
    (fl q - q) * ((2 ^ 53 : Nat) : Rat) ≤ q ∧ (q - fl q) * ((2 ^ 53 : Nat) : Rat) ≤ q := fl_near hq

/-- A prefix cost that is not whole can be rounded up to the next whole number: on a route of cost 10 the prefix cost
`0.99999999999999989` (the double below 1) makes 11 instead of 10. -/
theorem C113_violated_up :
    (⟨"", fl (10 + (1 - 1 / ((2 ^ 53 : Nat) : Rat))), false⟩ : NextHop).adj = 11 ∧
    ((10 : Rat) + (1 - 1 / ((2 ^ 53 : Nat) : Rat))).floor = 10 ∧ fl (1 - 1 / ((2 ^ 53 : Nat) : Rat)) = 1 - 1 / ((2 ^ 53 : Nat) : Rat) := by
  decide +kernel

/-- With a prefix cost of 2^54, which commands and the wire format allow, faces with route costs 1 and 2 get the same cost, and the
one with the higher cost comes first if its URI does. -/
theorem C113_violated_large :
    adjustedR fl (.fin ((2 ^ 54 : Nat) : Rat)) [⟨"udp4://10.0.0.3", 1, false⟩, ⟨"udp4://10.0.0.2", 2, false⟩] =
      some [⟨"udp4://10.0.0.2", ((2 ^ 54 : Nat) : Rat), false⟩, ⟨"udp4://10.0.0.3", ((2 ^ 54 : Nat) : Rat), false⟩] ∧
    (adjusted (.fin ((2 ^ 54 : Nat) : Rat)) [⟨"udp4://10.0.0.3", 1, false⟩, ⟨"udp4://10.0.0.2", 2, false⟩]).map (·.map (·.uri)) =
      some ["udp4://10.0.0.3", "udp4://10.0.0.2"] := by
  decide +kernel

/-- An entry with hops, and a prefix cost in range. -/
example : ∃ e ∈ (exRun .off exTwo).npt.table, e.nhl ≠ [] ∧ (30 : Nat) ≤ 2 ^ 53 - 2 ^ 31 := by decide +kernel

end Npt
end Nlsr
