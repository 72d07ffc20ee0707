import Verif.Model.Hyperbolic
import Verif.Lemmas.LinkState
/-
C11, C12: hyperbolic route computation.
-/
namespace Nlsr
open NameMap LS HR

/-! ### Specification -/

/-- `x <= 0` is false for the double `x` (so: positive, +inf or NaN). -/
def NotLe0 : Ext Rat → Prop
  | .nan => True
  | .pinf => True
  | .ninf => False
  | .fin q => 0 < q

/-- The double is not outside `[0, 2π]` (NaN is not outside). -/
def NotOutside2Pi : Ext Rat → Prop
  | .nan => True
  | .pinf => False
  | .ninf => False
  | .fin q => 0 ≤ q ∧ q ≤ 2 * mPi

/-- The distance between two sets of coordinates is defined and is `c`, under the rule the code
implements. -/
def DefinedDistance (T : Trig) (s d : CoordAd) (c : Ext Rat) : Prop :=
  s.angles.length = d.angles.length ∧ (∃ a, s.angles.getLast? = some a ∧ NotOutside2Pi a) ∧
  NotLe0 s.radius ∧ NotLe0 d.radius ∧ NotLe0 (T.inner s.angles d.angles) ∧
  c = T.dist s.radius d.radius (T.inner s.angles d.angles) ∧ c ≠ .fin (-1)

/-- The router has a coordinate LSA. -/
def KnownHR (lsas : List CoordAd) (n : Name) : Prop := ∃ l ∈ lsas, l.origin = n

/-- The documented condition on an angle vector. -/
def AnglesInRange (v : List (Ext Rat)) : Prop :=
  v ≠ [] ∧ (∀ a ∈ v.dropLast, ∃ q, a = .fin q ∧ 0 ≤ q ∧ q ≤ mPi) ∧
  (∀ a, v.getLast? = some a → ∃ q, a = .fin q ∧ 0 ≤ q ∧ q < 2 * mPi)

/-! ### Lemmas -/

theorem HR.le0_eq_false {x : Ext Rat} : le0 x = false ↔ NotLe0 x := by
  cases x <;> simp [le0, Ext.rlt, NotLe0]
  rename_i q
  constructor
  · rintro ⟨h1, h2⟩
    rcases Rat.le_total (a := q) (b := 0) with h | h
    · exact absurd (Rat.le_antisymm h (Rat.not_lt.1 h1)) h2
    · exact Rat.lt_of_le_of_ne h (Ne.symm h2)
  · intro h; exact ⟨Rat.not_lt.2 (Rat.le_of_lt h), (Rat.ne_of_gt h)⟩

theorem HR.lastBad_eq_false {x : Ext Rat} : lastBad x = false ↔ NotOutside2Pi x := by
  cases x <;> simp [lastBad, Ext.rlt, NotOutside2Pi]
  rw [Rat.not_lt, Rat.not_lt]; exact And.comm

theorem HR.rangeBad_false (a b : Ext Rat) : rangeBad a b = false := by
  have : ∀ x : Ext Rat, (Ext.rlt (.fin mPi) x && Ext.rlt x (.fin 0)) = false := by
    intro x
    cases x <;> simp [Ext.rlt]
    rename_i q
    intro h
    have h0 : (0:Rat) < mPi := by decide +kernel
    exact Rat.not_lt.2 (Rat.le_of_lt (Std.lt_trans h0 h))
  simp [rangeBad, this]

theorem HR.angular_eq (T : Trig) (i j : List (Ext Rat)) :
    angular T i j = if i.length ≠ j.length then some unknown else
      match i.getLast? with
      | none => none
      | some a => if lastBad a then some unknown else some (T.inner i j) := by
  have : (i.dropLast.zip j.dropLast).any (fun p => rangeBad p.1 p.2) = false := by
    simp [List.any_eq_false, rangeBad_false]
  unfold angular
  rw [this]
  split
  · rfl
  · simp only [Bool.and_false, Bool.false_eq_true, if_false]
    cases i.getLast? with
    | none => rfl
    | some a => dsimp only; cases lastBad a <;> rfl

theorem HR.angular_none (T : Trig) (i j : List (Ext Rat)) :
    angular T i j = none ↔ i = [] ∧ j = [] := by
  rw [angular_eq]
  cases h : i.getLast? with
  | none =>
    have hi : i = [] := by simpa using h
    subst hi
    cases j <;> simp
  | some a =>
    have hi : i ≠ [] := by rintro rfl; simp at h
    simp only [hi, false_and, iff_false]
    split <;> (try split) <;> simp

theorem HR.notLe0_ne_unknown {x : Ext Rat} (h : NotLe0 x) : x ≠ unknown := by
  rintro rfl
  exact absurd h (by simp [NotLe0, unknown]; decide +kernel)

theorem HR.pairDistance_iff (T : Trig) (s d : CoordAd) (c : Ext Rat) :
    (pairDistance T s d = some c ∧ c ≠ unknown) ↔ DefinedDistance T s d c := by
  unfold pairDistance DefinedDistance
  rw [angular_eq]
  by_cases hl : s.angles.length = d.angles.length
  · simp only [hl, ne_eq, not_true, if_false, true_and]
    cases hg : s.angles.getLast? with
    | none => simp
    | some a =>
      simp only [Option.some.injEq, exists_eq_left', ← lastBad_eq_false]
      cases hb : lastBad a with
      | true => simp; intro h; exact h.symm
      | false =>
        simp only [Bool.false_eq_true, if_false, Option.map_some, Option.some.injEq, true_and]
        constructor
        · rintro ⟨h1, h2⟩
          split at h1
          · exact absurd h1.symm h2
          · unfold hypDist at h1
            split at h1
            · exact absurd h1.symm h2
            · split at h1
              · exact absurd h1.symm h2
              · rename_i h3
                simp only [Bool.or_eq_true, not_or, Bool.not_eq_true, le0_eq_false] at h3
                exact ⟨h3.1.2, h3.2, h3.1.1, h1.symm, h2⟩
        · rintro ⟨h1, h2, h3, h4, h5⟩
          refine ⟨?_, h5⟩
          have n1 := notLe0_ne_unknown h1
          have n2 := notLe0_ne_unknown h2
          have n3 := notLe0_ne_unknown h3
          simp [n1, n2, n3, hypDist, le0_eq_false.2 h1, le0_eq_false.2 h2, le0_eq_false.2 h3, h4]
  · simp [hl]; intro h; exact h.symm

theorem HR.mapM_flatten {α β : Type} {f : α → Option (List β)} : ∀ {l : List α} {r : List (List β)},
    l.mapM f = some r → ∀ x, x ∈ r.flatten ↔ ∃ a ∈ l, ∃ ys, f a = some ys ∧ x ∈ ys
  | [], r, h, x => by simp at h; subst h; simp
  | a :: l, r, h, x => by
    rw [List.mapM_cons] at h
    cases ha : f a with
    | none => simp [ha] at h
    | some ys =>
      cases hl : l.mapM f with
      | none => simp [ha, hl] at h
      | some r' =>
        simp [ha, hl] at h
        subst h
        simp [mapM_flatten hl x, ha]

theorem HR.mapM_isSome {α β : Type} {f : α → Option β} : ∀ {l : List α},
    (∀ a ∈ l, (f a).isSome) → (l.mapM f).isSome
  | [], _ => by simp
  | a :: l, h => by
    rw [List.mapM_cons]
    obtain ⟨y, hy⟩ := Option.isSome_iff_exists.1 (h a (by simp))
    obtain ⟨r, hr⟩ := Option.isSome_iff_exists.1 (mapM_isSome (l := l) (fun b hb => h b (by simp [hb])))
    simp [hy, hr]

theorem HR.find_eq {lsas : List CoordAd} (hn : (lsas.map (·.origin)).Nodup) {l : CoordAd} (n : Name) :
    findLsa lsas n = some l ↔ l ∈ lsas ∧ l.origin = n := by
  unfold findLsa
  constructor
  · intro h
    exact ⟨List.mem_of_find?_eq_some h, by simpa using List.find?_some h⟩
  · rintro ⟨h1, rfl⟩
    induction lsas with
    | nil => simp at h1
    | cons a as ih =>
      simp only [List.map_cons, List.nodup_cons] at hn
      rcases List.mem_cons.1 h1 with rfl | h1
      · simp
      · have hne : a.origin ≠ l.origin := by
          intro h; exact hn.1 (h ▸ List.mem_map_of_mem h1)
        have : (a.origin == l.origin) = false := by simpa using hne
        simp only [List.find?_cons, this]
        exact ih hn.2 h1

/-! ### C11 -/

/-- The route offers the property calls for: neighbour `a` offers its face for `d` at cost `c`. -/
def HypOffer (T : Trig) (self : Name) (lsas : List CoordAd) (a : Adjacent) (d : Name) (c : Ext Rat) :
    Prop :=
  a.status ≠ .inactive ∧ a.name ≠ self ∧
  ((d = a.name ∧ c = .fin 0) ∨
   (KnownHR lsas self ∧ d ≠ self ∧ d ≠ a.name ∧
    ∃ s ∈ lsas, ∃ t ∈ lsas, s.origin = a.name ∧ t.origin = d ∧ DefinedDistance T s t c))

theorem HR.destStep_mem {T lsas map this src a dest d u c ys} (hf : destStep T lsas map this src a dest = some ys)
    (hn : (lsas.map (·.origin)).Nodup) :
    (⟨d, u, c⟩ : Offer) ∈ ys ↔ u = a.uri ∧ (∃ t, this = some t ∧ dest ≠ t) ∧ dest ≠ src ∧
      map.nameOf dest = some d ∧
      ∃ s ∈ lsas, ∃ t ∈ lsas, s.origin = a.name ∧ t.origin = d ∧ DefinedDistance T s t c := by
  unfold destStep at hf
  cases this with
  | none => simp at hf; subst hf; simp
  | some t =>
    simp only at hf
    split at hf
    · rename_i hne
      cases hm : map.nameOf dest with
      | none => simp [hm] at hf; subst hf; simp
      | some d' =>
        simp only [hm, offerTo, Option.map_eq_some_iff] at hf
        obtain ⟨c', hc', rfl⟩ := hf
        have key : (c' ≠ unknown) ↔ ∃ s ∈ lsas, ∃ t ∈ lsas, s.origin = a.name ∧ t.origin = d' ∧
            DefinedDistance T s t c' := by
          unfold distance at hc'
          constructor
          · intro h
            cases h1 : findLsa lsas a.name with
            | none => simp [h1] at hc'; exact absurd hc'.symm h
            | some s =>
              cases h2 : findLsa lsas d' with
              | none => simp [h1, h2] at hc'; exact absurd hc'.symm h
              | some t =>
                simp only [h1, h2] at hc'
                have g1 := (find_eq hn _).1 h1
                have g2 := (find_eq hn _).1 h2
                exact ⟨s, g1.1, t, g2.1, g1.2, g2.2, (pairDistance_iff ..).1 ⟨hc', h⟩⟩
          · rintro ⟨s, _, t, _, _, _, hd⟩
            exact hd.2.2.2.2.2.2
        have uniq : ∀ c s t, s ∈ lsas → t ∈ lsas → s.origin = a.name → t.origin = d' →
            DefinedDistance T s t c → c = c' := by
          intro c s t hs ht hso hto hd
          have := ((pairDistance_iff ..).2 hd).1
          unfold distance at hc'
          rw [(find_eq hn _).2 ⟨hs, hso⟩, (find_eq hn _).2 ⟨ht, hto⟩] at hc'
          simp only [this, Option.some.injEq] at hc'
          exact hc'
        constructor
        · intro h
          split at h
          · simp at h
          · rename_i hcn
            simp only [List.mem_singleton, Offer.mk.injEq] at h
            obtain ⟨rfl, rfl, rfl⟩ := h
            exact ⟨rfl, ⟨t, rfl, hne.1⟩, hne.2, rfl, key.1 hcn⟩
        · rintro ⟨rfl, _, _, hd, s, hs, t', ht, hso, hto, hdd⟩
          simp only [Option.some.injEq] at hd
          subst hd
          have := uniq c s t' hs ht hso hto hdd
          subst this
          have hcn := key.2 ⟨s, hs, t', ht, hso, hto, hdd⟩
          simp [hcn]
    · rename_i hne
      simp only [Option.some.injEq] at hf
      subst hf
      simp only [List.not_mem_nil, false_iff]
      rintro ⟨_, ⟨t', h1, h2⟩, h3, _⟩
      simp only [Option.some.injEq] at h1
      subst h1
      exact hne ⟨h2, h3⟩

/-- **C11.** For every set of coordinate LSAs (one per router), every neighbour list with every
status assignment, and every distance function: when the computation does not fault, the hops
offered are exactly those the property describes. -/
theorem C11_offers (T : Trig) (self : Name) (adjs : AdjacencyList) (lsas : List CoordAd)
    (hn : (lsas.map (·.origin)).Nodup) (out : List Offer)
    (h : calculate T self adjs lsas = some out) (d : Name) (u : Uri) (c : Ext Rat) :
    (⟨d, u, c⟩ : Offer) ∈ out ↔ ∃ a ∈ adjs, a.uri = u ∧ HypOffer T self lsas a d c := by
  unfold HR.calculate at h
  rw [Option.map_eq_some_iff] at h
  obtain ⟨r, hr, rfl⟩ := h
  rw [mapM_flatten hr]
  obtain ⟨hW, hmem⟩ := fromOrigins_spec (lsas.map (·.origin))
  generalize hmap : fromOrigins (lsas.map (·.origin)) = map at *
  have hmem : ∀ x, x ∈ names map ↔ x ∈ lsas.map (·.origin) := hmem
  have allSome : ∀ a ∈ adjs, (neighborStep T lsas map self a).isSome := by
    clear hmem hW hmap
    induction adjs generalizing r with
    | nil => simp
    | cons x xs ih =>
      rw [List.mapM_cons] at hr
      cases hx : neighborStep T lsas map self x with
      | none => simp [hx] at hr
      | some y =>
        cases hl : xs.mapM (neighborStep T lsas map self) with
        | none => simp [hx, hl] at hr
        | some r' =>
          intro a ha
          rcases List.mem_cons.1 ha with rfl | ha
          · simp [hx]
          · exact ih r' hl a ha
  constructor
  · rintro ⟨a, ha, ys, hf, hx⟩
    refine ⟨a, ha, ?_⟩
    unfold neighborStep at hf
    split at hf
    · simp at hf; subst hf; simp at hx
    · rename_i hst
      split at hf
      · simp at hf; subst hf; simp at hx
      · rename_i hself
        rw [Option.map_eq_some_iff] at hf
        obtain ⟨os, hos, rfl⟩ := hf
        rcases List.mem_cons.1 hx with hx | hx
        · simp only [Offer.mk.injEq] at hx
          obtain ⟨rfl, rfl, rfl⟩ := hx
          exact ⟨rfl, hst, hself, Or.inl ⟨rfl, rfl⟩⟩
        · unfold viaNeighbor at hos
          cases hsrc : map.noOf a.name with
          | none => simp [hsrc] at hos; subst hos; simp at hx
          | some src =>
            simp only [hsrc, Option.map_eq_some_iff] at hos
            obtain ⟨r2, hr2, rfl⟩ := hos
            obtain ⟨dest, -, ys, hys, hx⟩ := (mapM_flatten hr2 _).1 hx
            obtain ⟨rfl, ⟨t, ht, h1⟩, h2, h3, h4⟩ := (destStep_mem hys hn).1 hx
            rw [nameOf_eq hW] at h3
            have ht' := (noOf_some_iff hW).1 ht
            have hs' := (noOf_some_iff hW).1 hsrc
            refine ⟨rfl, hst, hself, Or.inr ⟨?_, ?_, ?_, h4⟩⟩
            · have := (hmem self).1 (List.mem_of_getElem? ht')
              simpa [KnownHR] using this
            · rintro rfl
              have : map.noOf d = some dest := (noOf_some_iff hW).2 h3
              rw [ht] at this; simp at this; exact h1 this.symm
            · rintro rfl
              have : map.noOf a.name = some dest := (noOf_some_iff hW).2 h3
              rw [hsrc] at this; simp at this; exact h2 this.symm
  · rintro ⟨a, ha, rfl, hst, hself, hor⟩
    obtain ⟨ys, hys⟩ := Option.isSome_iff_exists.1 (allSome a ha)
    refine ⟨a, ha, ys, hys, ?_⟩
    unfold neighborStep at hys
    simp only [hst, hself, if_false, Option.map_eq_some_iff] at hys
    obtain ⟨os, hos, rfl⟩ := hys
    rcases hor with ⟨rfl, rfl⟩ | ⟨hk, h1, h2, s, hs, t, ht, hso, hto, hdd⟩
    · simp
    · refine List.mem_cons_of_mem _ ?_
      obtain ⟨src, hsrc⟩ : ∃ i, map.noOf a.name = some i :=
        noOf_of_mem hW ((hmem _).2 (by rw [← hso]; exact List.mem_map_of_mem hs))
      obtain ⟨this, hthis⟩ : ∃ i, map.noOf self = some i := by
        obtain ⟨l, hl, hlo⟩ := hk
        exact noOf_of_mem hW ((hmem _).2 (by rw [← hlo]; exact List.mem_map_of_mem hl))
      obtain ⟨dest, hdest⟩ : ∃ i, map.noOf d = some i :=
        noOf_of_mem hW ((hmem _).2 (by rw [← hto]; exact List.mem_map_of_mem ht))
      have gd := (noOf_some_iff hW).1 hdest
      unfold viaNeighbor at hos
      simp only [hsrc, Option.map_eq_some_iff] at hos
      obtain ⟨r2, hr2, rfl⟩ := hos
      rw [mapM_flatten hr2]
      have hlt : dest < map.length := by
        obtain ⟨h, -⟩ := List.getElem?_eq_some_iff.1 gd
        simpa [names] using h
      have hall : ∀ i ∈ List.range map.length, (destStep T lsas map (map.noOf self) src a i).isSome := by
        generalize List.range map.length = L at hr2
        clear hlt
        induction L generalizing r2 with
        | nil => simp
        | cons x xs ih =>
          rw [List.mapM_cons] at hr2
          cases hx : destStep T lsas map (map.noOf self) src a x with
          | none => simp [hx] at hr2
          | some y =>
            cases hl : xs.mapM (destStep T lsas map (map.noOf self) src a) with
            | none => simp [hx, hl] at hr2
            | some r' =>
              intro i hi
              rcases List.mem_cons.1 hi with rfl | hi
              · simp [hx]
              · exact ih r' hl i hi
      obtain ⟨ys, hys⟩ := Option.isSome_iff_exists.1 (hall dest (List.mem_range.2 hlt))
      refine ⟨dest, List.mem_range.2 hlt, ys, hys, (destStep_mem hys hn).2
        ⟨rfl, ⟨this, hthis, ?_⟩, ?_, ?_, s, hs, t, ht, hso, hto, hdd⟩⟩
      · rintro rfl
        have g2 := (noOf_some_iff hW).1 hthis
        rw [gd] at g2; simp at g2; exact h1 g2
      · rintro rfl
        have g2 := (noOf_some_iff hW).1 hsrc
        rw [gd] at g2; simp at g2; exact h2 g2
      · rw [nameOf_eq hW]; exact gd

/-- **C11, no route to oneself.** -/
theorem C11_no_route_to_self (T : Trig) (self : Name) (adjs : AdjacencyList) (lsas : List CoordAd)
    (hn : (lsas.map (·.origin)).Nodup) (out : List Offer)
    (h : HR.calculate T self adjs lsas = some out) : ∀ o ∈ out, o.dest ≠ self := by
  rintro ⟨d, u, c⟩ ho rfl
  obtain ⟨a, -, -, -, h2, ⟨h3, -⟩ | ⟨-, h3, -⟩⟩ := (C11_offers T d adjs lsas hn out h d u c).1 ho
  · exact h2 h3.symm
  · exact h3 rfl

/-- **C11, totality.** The computation does not fault when no coordinate LSA has an empty angle
vector (see C12 for what happens otherwise). -/
theorem C11_no_fault (T : Trig) (self : Name) (adjs : AdjacencyList) (lsas : List CoordAd)
    (h : ∀ l ∈ lsas, l.angles ≠ []) : ∃ out, HR.calculate T self adjs lsas = some out := by
  have hd : ∀ s d, (distance T lsas s d).isSome := by
    intro s d
    unfold distance
    cases h1 : findLsa lsas s with
    | none => simp
    | some x =>
      cases h2 : findLsa lsas d with
      | none => simp
      | some y =>
        simp only [pairDistance, Option.isSome_map]
        cases ha : angular T x.angles y.angles with
        | none =>
          exact absurd ((angular_none ..).1 ha).1 (h x (List.mem_of_find?_eq_some h1))
        | some _ => rfl
  have hds : ∀ map this src a i, (destStep T lsas map this src a i).isSome := by
    intro map this src a i
    unfold destStep
    split
    · rfl
    · split
      · split
        · simp [offerTo, hd]
        · rfl
      · rfl
  apply Option.isSome_iff_exists.1
  unfold HR.calculate
  rw [Option.isSome_map]
  refine mapM_isSome fun a _ => ?_
  unfold neighborStep
  split
  · rfl
  · split
    · rfl
    · rw [Option.isSome_map]
      unfold viaNeighbor
      split
      · rfl
      · rw [Option.isSome_map]
        exact mapM_isSome fun i _ => hds ..

/-! ### C12 -/

/-- **C12 (partial).** What is enforced: a distance is used only if both vectors have the same
non-zero length, the last angle of the *first* vector is not outside `[0, 2π]`, and both radii and
the angular distance fail `<= 0`; and the only fault is on two empty vectors.
Missing: the range of the other angles, the last angle of the second vector, and the exclusion of NaN
and of `2π`; see the refutations below. -/
theorem C12_checked_partial (T : Trig) (s d : CoordAd) :
    (∀ c, pairDistance T s d = some c → c ≠ .fin (-1) →
      s.angles.length = d.angles.length ∧ s.angles ≠ [] ∧ d.angles ≠ [] ∧
      (∃ a, s.angles.getLast? = some a ∧ NotOutside2Pi a) ∧ NotLe0 s.radius ∧ NotLe0 d.radius) ∧
    (pairDistance T s d = none ↔ s.angles = [] ∧ d.angles = []) := by
  constructor
  · intro c hc hne
    obtain ⟨h1, ⟨a, ha, hb⟩, h2, h3, -⟩ := (pairDistance_iff T s d c).1 ⟨hc, hne⟩
    have hs : s.angles ≠ [] := by intro h; simp [h] at ha
    refine ⟨h1, hs, ?_, ⟨a, ha, hb⟩, h2, h3⟩
    intro h; rw [h] at h1; exact hs (List.length_eq_zero_iff.1 h1)
  · rw [pairDistance, Option.map_eq_none_iff, angular_none]

/-- **C12 is violated: the range of the leading angles is not enforced.** An angle of 100 (or -7) is
accepted. -/
theorem C12_violated_range : ∀ (T : Trig), ∃ i j : List (Ext Rat),
    ¬ AnglesInRange i ∧ ¬ AnglesInRange j ∧ angular T i j = some (T.inner i j) := by
  intro T
  have h1 : lastBad (.fin 1) = false := by decide +kernel
  refine ⟨[.fin 100, .fin 1], [.fin (-7), .fin 1], ?_, ?_, by rw [angular_eq]; simp [h1]⟩
  · rintro ⟨-, h, -⟩
    obtain ⟨q, hq, -, h2⟩ := h (.fin 100) (by simp)
    injection hq with hq; subst hq
    revert h2; decide +kernel
  · rintro ⟨-, h, -⟩
    obtain ⟨q, hq, h2, -⟩ := h (.fin (-7)) (by simp)
    injection hq with hq; subst hq
    revert h2; decide +kernel

/-- **C12 is violated: the last angle of the second vector is never looked at**, so the test is not
symmetric: the same pair is refused in one order and used in the other. -/
theorem C12_violated_last : ∃ i j : List (Ext Rat), AnglesInRange i ∧ ¬ AnglesInRange j ∧
    ∀ (T : Trig), angular T i j = some (T.inner i j) ∧ angular T j i = some unknown := by
  have h1 : lastBad (.fin 1) = false := by decide +kernel
  have h2 : lastBad (.fin 100) = true := by decide +kernel
  refine ⟨[.fin 1], [.fin 100], ⟨by simp, by simp, ?_⟩, ?_,
    fun T => ⟨by rw [angular_eq]; simp [h1], by rw [angular_eq]; simp [h2]⟩⟩
  · intro a h
    simp only [List.getLast?_singleton, Option.some.injEq] at h
    exact ⟨1, h.symm, by decide +kernel, by decide +kernel⟩
  · rintro ⟨-, -, h⟩
    obtain ⟨q, hq, -, h2⟩ := h (.fin 100) (by simp)
    injection hq with hq; subst hq
    revert h2; decide +kernel

/-- **C12 is violated: NaN angles are used.** -/
theorem C12_violated_nan : ∀ (T : Trig), angular T [.nan] [.nan] = some (T.inner [.nan] [.nan]) :=
  fun _ => rfl

/-- **C12 is violated: two coordinate LSAs without angles (which the LSA decoder accepts) make the
computation read before the start of an empty vector.** -/
theorem C12_violated_fault : ∃ (self : Name) (adjs : AdjacencyList) (lsas : List CoordAd),
    (lsas.map (·.origin)).Nodup ∧ ∀ T, HR.calculate T self adjs lsas = none :=
  ⟨[⟨8, [97]⟩], [{ name := [⟨8, [98]⟩], status := .active }],
   [⟨[⟨8, [97]⟩], .pinf, [.pinf]⟩, ⟨[⟨8, [98]⟩], .pinf, []⟩, ⟨[⟨8, [99]⟩], .pinf, []⟩],
   by decide +kernel, fun _ => rfl⟩

/-! ### Non-vacuity -/
namespace Witness.Hyp
def T : Trig := ⟨fun _ _ => .fin 1, fun a b _ => match a, b with | .fin x, .fin y => .fin (x + y) | _, _ => .nan⟩
def self : Name := nm ["a"]
def adjs : AdjacencyList :=
  [{ name := nm ["b"], uri := "udp4://b", status := .active },
   { name := nm ["c"], uri := "udp4://c", status := .inactive }]
def lsas : List CoordAd :=
  [⟨nm ["a"], .fin 1, [.fin 1]⟩, ⟨nm ["b"], .fin 2, [.fin 2]⟩, ⟨nm ["c"], .fin 3, [.fin 3]⟩,
   ⟨nm ["d"], .fin (-1), [.fin 3]⟩]
end Witness.Hyp

example : (Witness.Hyp.lsas.map (·.origin)).Nodup ∧ (∀ l ∈ Witness.Hyp.lsas, l.angles ≠ []) ∧
    HR.calculate Witness.Hyp.T Witness.Hyp.self Witness.Hyp.adjs Witness.Hyp.lsas =
      some [⟨nm ["b"], "udp4://b", .fin 0⟩, ⟨nm ["c"], "udp4://b", .fin 5⟩] := by
  decide +kernel

end Nlsr
