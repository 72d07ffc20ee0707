import Verif.Model.Adjacency
import Verif.Lemmas.Basic
/- C45-C47: adjacency lists. -/
namespace Nlsr
open AdjacencyList

namespace AdjWitness
def x : Adjacent := { name := nm ["net", "x"], uri := "udp4://x", cost := .fin 10 }
def y : Adjacent := { name := nm ["net", "y"], uri := "udp4://y", cost := .fin 20, status := .active }
def z : Adjacent := { name := nm ["net", "z"], uri := "udp4://z", cost := .fin (19/2) }
end AdjWitness

/-! ### C45 -/

theorem modify_names (l : AdjacencyList) (n : Name) (f : Adjacent → Adjacent)
    (hf : ∀ a, (f a).name = a.name) : (modify l n f).map (·.name) = l.map (·.name) := by
  induction l with
  | nil => rfl
  | cons a as ih =>
    unfold AdjacencyList.modify
    split
    · simp [hf]
    · simp [ih]

theorem modify_find_ne (l : AdjacencyList) {n n' : Name} (hn : n' ≠ n) (f : Adjacent → Adjacent)
    (hf : ∀ a, (f a).name = a.name) : find (modify l n f) n' = find l n' := by
  induction l with
  | nil => rfl
  | cons a as ih =>
    unfold AdjacencyList.modify
    split
    · rename_i h
      have h : a.name = n := by simpa using h
      have : a.name ≠ n' := by rw [h]; exact fun h => hn h.symm
      simp [find, hf, this]
    · simp only [find, List.find?_cons] at ih ⊢
      split <;> simp_all

theorem modify_find_eq (l : AdjacencyList) (n : Name) (f : Adjacent → Adjacent)
    (hf : ∀ a, (f a).name = a.name) : find (modify l n f) n = (find l n).map f := by
  induction l with
  | nil => rfl
  | cons a as ih =>
    unfold AdjacencyList.modify
    split
    · rename_i h
      have h : a.name = n := by simpa using h
      simp [find, hf, h]
    · rename_i h
      have h : (a.name == n) = false := by simpa using h
      simp only [find, List.find?_cons, h] at ih ⊢
      exact ih

theorem find_none_iff (l : AdjacencyList) (n : Name) : find l n = none ↔ n ∉ l.map (·.name) := by
  simp only [find, List.find?_eq_none, List.mem_map, beq_iff_eq]
  constructor
  · rintro h ⟨a, ha, e⟩; exact h a ha e
  · intro h a ha e; exact h ⟨a, ha, e⟩

/-- C45: after any sequence of operations the names are distinct. -/
theorem C45_names_distinct (ops : List Op) :
    ((ops.foldl apply []).map (·.name)).Nodup := by
  have : ∀ (ops : List Op) (l : AdjacencyList), (l.map (·.name)).Nodup →
      ((ops.foldl apply l).map (·.name)).Nodup := by
    intro ops
    induction ops with
    | nil => intro l h; exact h
    | cons op ops ih =>
      intro l h
      refine ih _ ?_
      cases op with
      | insert a =>
        simp only [apply, AdjacencyList.insert]
        cases hf : find l a.name with
        | some b => exact h
        | none =>
          have := (find_none_iff l a.name).1 hf
          simp only [List.map_append, List.map_cons, List.map_nil]
          rw [List.nodup_append]
          refine ⟨h, by simp, ?_⟩
          intro x hx y hy
          simp at hy
          rintro rfl
          exact this (hy ▸ hx)
      | incTimedOut n => simp only [apply, incTimedOut]; rw [modify_names]; exact h; intro a; rfl
      | setTimedOut n k => simp only [apply, setTimedOut]; rw [modify_names]; exact h; intro a; rfl
      | setStatus n s => simp only [apply, setStatus]; rw [modify_names]; exact h; intro a; rfl
      | setFaceId n i => simp only [apply]; rw [modify_names]; exact h; intro a; rfl
      | reset => simp [apply]
  exact this ops [] (by simp)

/-- C45: insert succeeds iff the name is new; it then is found, and nothing else changes. -/
theorem C45_insert (l : AdjacencyList) (a : Adjacent) :
    ((insert l a).2 = true ↔ ∀ b ∈ l, b.name ≠ a.name) ∧
    ((insert l a).2 = false → (insert l a).1 = l) ∧
    ((insert l a).2 = true → find (insert l a).1 a.name = some a ∧
      ∀ n, n ≠ a.name → find (insert l a).1 n = find l n) := by
  unfold AdjacencyList.insert
  cases hf : find l a.name with
  | some b =>
    refine ⟨⟨fun h => (by simp at h), fun h => ?_⟩, fun _ => rfl, fun h => by simp at h⟩
    have h1 := List.mem_of_find?_eq_some hf
    have h2 := List.find?_some hf
    simp only [beq_iff_eq] at h2
    exact absurd h2 (h b h1)
  | none =>
    have := (find_none_iff l a.name).1 hf
    refine ⟨⟨fun _ b hb e => this (List.mem_map.2 ⟨b, hb, e⟩), fun _ => rfl⟩, fun h => by simp at h,
      fun _ => ⟨?_, fun n hn => ?_⟩⟩
    · simp only [find] at hf ⊢
      rw [List.find?_append, hf]; simp
    · simp only [find]
      rw [List.find?_append]
      have : (a.name == n) = false := by simpa using fun h => hn h.symm
      simp [this]

/-- C45: status and timeout updates change what is asked for on the named neighbour and nothing on
any other name; the set and order of names stay. -/
theorem C45_updates_local (l : AdjacencyList) (n : Name) (s : Status) (k : Nat) :
    (∀ n', n' ≠ n → find (setStatus l n s) n' = find l n' ∧ find (incTimedOut l n) n' = find l n' ∧
      find (setTimedOut l n k) n' = find l n') ∧
    (find (setStatus l n s) n = (find l n).map (fun a => { a with status := s })) ∧
    (find (incTimedOut l n) n = (find l n).map (fun a => { a with timedOut := a.timedOut + 1 })) ∧
    (find (setTimedOut l n k) n = (find l n).map (fun a => { a with timedOut := k })) ∧
    ((setStatus l n s).map (·.name) = l.map (·.name) ∧
      (incTimedOut l n).map (·.name) = l.map (·.name) ∧
      (setTimedOut l n k).map (·.name) = l.map (·.name)) := by
  refine ⟨fun n' hn => ⟨modify_find_ne _ hn _ (fun _ => rfl), modify_find_ne _ hn _ (fun _ => rfl),
    modify_find_ne _ hn _ (fun _ => rfl)⟩, modify_find_eq _ _ _ (fun _ => rfl),
    modify_find_eq _ _ _ (fun _ => rfl), modify_find_eq _ _ _ (fun _ => rfl),
    modify_names _ _ _ (fun _ => rfl), modify_names _ _ _ (fun _ => rfl),
    modify_names _ _ _ (fun _ => rfl)⟩

example : ([.insert AdjWitness.x, .insert AdjWitness.y, .insert AdjWitness.x,
    .setStatus (nm ["net", "x"]) .active, .incTimedOut (nm ["net", "y"])].foldl apply []) =
    [{ AdjWitness.x with status := .active }, { AdjWitness.y with timedOut := 1 }] := by
  decide +kernel

/-! ### C46 -/

/-- All costs are whole finite numbers. -/
def IntegralCosts (l : AdjacencyList) : Prop := ∀ a ∈ l, ∃ z : Int, a.cost = .fin (z : Rat)

theorem ceil_intCast (z : Int) : ((z : Rat)).ceil = z := by
  simp [Rat.ceil_eq_neg_floor_neg, ← Rat.intCast_neg, Rat.floor_intCast]

theorem diffInEpsilon_int (a b : Int) :
    diffInEpsilon (.fin (a : Rat)) (.fin (b : Rat)) = true ↔ a = b := by
  simp only [diffInEpsilon, decide_eq_true_eq]
  constructor
  · rintro ⟨h1, h2⟩
    have one : (1 / 4503599627370496 : Rat) < ((1 : Int) : Rat) := by decide +kernel
    have h3 : ((a - b : Int) : Rat) < ((1 : Int) : Rat) := by
      rw [Rat.intCast_sub]; exact Std.lt_trans h1 one
    have h4 : ((b - a : Int) : Rat) < ((1 : Int) : Rat) := by
      rw [Rat.intCast_sub]; exact Std.lt_trans h2 one
    rw [Rat.intCast_lt_intCast] at h3 h4
    omega
  · rintro rfl
    have h0 : (a : Rat) - (a : Rat) = 0 := by rw [← Rat.intCast_sub]; simp
    rw [h0]
    constructor <;> decide +kernel

/-- For neighbours with integral costs, `==` compares name, URI and cost. -/
theorem Adjacent.eqv_iff {a b : Adjacent} (ha : ∃ z : Int, a.cost = .fin (z : Rat))
    (hb : ∃ z : Int, b.cost = .fin (z : Rat)) :
    a.eqv b = true ↔ (a.name, a.uri, a.cost) = (b.name, b.uri, b.cost) := by
  obtain ⟨x, hx⟩ := ha
  obtain ⟨y, hy⟩ := hb
  simp only [Adjacent.eqv, Adjacent.linkCost, hx, hy, Ext.ceil, Ext.toRat, ceil_intCast,
    Bool.and_eq_true, beq_iff_eq, diffInEpsilon_int, Prod.mk.injEq, Ext.fin.injEq,
    Rat.intCast_inj, and_assoc]

theorem toSet_spec (l : AdjacencyList) (hn : (l.map (·.name)).Nodup) :
    (toSet l).Perm l ∧ (toSet l).Pairwise (fun a b => Name.lt a.name b.name = true) := by
  have key : ∀ (l acc : AdjacencyList), ((l ++ acc).map (·.name)).Nodup →
      acc.Pairwise (fun a b => Name.lt a.name b.name = true) →
      (l.foldl (fun s a => setInsert Adjacent.lt a s) acc).Perm (l ++ acc) ∧
      (l.foldl (fun s a => setInsert Adjacent.lt a s) acc).Pairwise
        (fun a b => Name.lt a.name b.name = true) := by
    intro l
    induction l with
    | nil => intro acc _ h; exact ⟨List.Perm.refl _, h⟩
    | cons a as ih =>
      intro acc hnd hs
      simp only [List.cons_append, List.map_cons, List.nodup_cons] at hnd
      have hne : ∀ b ∈ acc, b.name ≠ a.name := by
        intro b hb e
        exact hnd.1 (List.mem_map.2 ⟨b, by simp [hb], e⟩)
      -- on `a :: acc` the comparator is the name order
      have hlt : ∀ b ∈ acc, (Adjacent.lt a b = Name.lt a.name b.name) ∧
          (Adjacent.lt b a = Name.lt b.name a.name) := by
        intro b hb
        rcases Name.lt_or_gt (hne b hb) with h | h
        · simp [Adjacent.lt, h, Name.lt_asymm h]
        · simp [Adjacent.lt, h, Name.lt_asymm h]
      have hp : (setInsert Adjacent.lt a acc).Perm (a :: acc) := by
        refine setInsert_perm_of_noeqv (fun b hb => ?_)
        rw [(hlt b hb).1, (hlt b hb).2]
        exact (Name.lt_or_gt (hne b hb)).symm
      have hsame : setInsert Adjacent.lt a acc =
          setInsert (fun a b => Name.lt a.name b.name) a acc := by
        have : ∀ acc' : List Adjacent, (∀ b ∈ acc', (Adjacent.lt a b = Name.lt a.name b.name) ∧
            (Adjacent.lt b a = Name.lt b.name a.name)) →
            setInsert Adjacent.lt a acc' = setInsert (fun a b => Name.lt a.name b.name) a acc' := by
          intro acc'
          induction acc' with
          | nil => intro _; rfl
          | cons b bs ihb =>
            intro h
            unfold setInsert
            rw [(h b (by simp)).1, (h b (by simp)).2, ihb (fun c hc => h c (by simp [hc]))]
        exact this acc hlt
      have hs' : (setInsert Adjacent.lt a acc).Pairwise
          (fun a b => Name.lt a.name b.name = true) := by
        rw [hsame]
        exact setInsert_sorted (lt := fun a b : Adjacent => Name.lt a.name b.name)
          (fun a b c h1 h2 => Name.lt_trans h1 h2) hs
      have hp2 : (as ++ setInsert Adjacent.lt a acc).Perm (a :: as ++ acc) :=
        (List.Perm.append_left as hp).trans List.perm_middle
      obtain ⟨i1, i2⟩ := ih (setInsert Adjacent.lt a acc) (by
        have := (hp2.map (·.name)).nodup_iff.2 (by
          simp only [List.cons_append, List.map_cons, List.nodup_cons]; exact hnd)
        exact this) hs'
      exact ⟨i1.trans hp2, i2⟩
  have := key l [] (by simpa using hn) List.Pairwise.nil
  simpa [toSet] using this

/-- C46 for neighbours whose costs are whole numbers (and names distinct, C45): two lists compare
equal exactly when they hold the same neighbours, i.e. the same (name, URI, cost) triples in any
order.  In particular the comparison is reflexive and symmetric.  Missing for the full property:
fractional costs, for which it is false (below). -/
theorem C46_equality_partial (l l' : AdjacencyList) (hn : (l.map (·.name)).Nodup)
    (hn' : (l'.map (·.name)).Nodup) (hi : IntegralCosts l) (hi' : IntegralCosts l') :
    (eqv l l' = true ↔ (l.map (fun a => (a.name, a.uri, a.cost))).Perm
      (l'.map (fun a => (a.name, a.uri, a.cost)))) ∧
    eqv l l = true ∧ eqv l l' = eqv l' l := by
  have key : ∀ (l l' : AdjacencyList), (l.map (·.name)).Nodup → (l'.map (·.name)).Nodup →
      IntegralCosts l → IntegralCosts l' →
      (eqv l l' = true ↔ (l.map (fun a => (a.name, a.uri, a.cost))).Perm
        (l'.map (fun a => (a.name, a.uri, a.cost)))) := by
    intro l l' hn hn' hi hi'
    obtain ⟨p, s⟩ := toSet_spec l hn
    obtain ⟨p', s'⟩ := toSet_spec l' hn'
    have hz : ∀ (s s' : List Adjacent), s.length = s'.length → (∀ a ∈ s, ∃ z : Int, a.cost = .fin (z : Rat)) →
        (∀ a ∈ s', ∃ z : Int, a.cost = .fin (z : Rat)) →
        ((s.zip s').all (fun p => p.1.eqv p.2) = true ↔
          s.map (fun a => (a.name, a.uri, a.cost)) = s'.map (fun a => (a.name, a.uri, a.cost))) := by
      intro s
      induction s with
      | nil => intro s' h _ _; cases s' with
        | nil => simp
        | cons _ _ => simp at h
      | cons a as ih =>
        intro s' h h1 h2
        cases s' with
        | nil => simp at h
        | cons b bs =>
          simp only [List.zip_cons_cons, List.all_cons, Bool.and_eq_true, List.map_cons, List.cons.injEq]
          rw [ih bs (by simpa using h) (fun x hx => h1 x (by simp [hx])) (fun x hx => h2 x (by simp [hx])),
            Adjacent.eqv_iff (h1 a (by simp)) (h2 b (by simp))]
    have hi1 : ∀ a ∈ toSet l, ∃ z : Int, a.cost = .fin (z : Rat) := fun a ha => hi a (p.mem_iff.1 ha)
    have hi2 : ∀ a ∈ toSet l', ∃ z : Int, a.cost = .fin (z : Rat) := fun a ha => hi' a (p'.mem_iff.1 ha)
    simp only [eqv, Bool.and_eq_true, beq_iff_eq, p.length_eq, p'.length_eq]
    constructor
    · rintro ⟨⟨h1, -⟩, h2⟩
      have := (hz _ _ (by rw [p.length_eq, p'.length_eq, h1]) hi1 hi2).1 h2
      have e1 := p.map (fun a => (a.name, a.uri, a.cost))
      have e2 := p'.map (fun a => (a.name, a.uri, a.cost))
      rw [this] at e1
      exact e1.symm.trans e2
    · intro h
      have hlen : l.length = l'.length := by simpa using h.length_eq
      refine ⟨⟨hlen, hlen⟩, (hz _ _ (by rw [p.length_eq, p'.length_eq, hlen]) hi1 hi2).2 ?_⟩
      have e1 := p.map (fun a => (a.name, a.uri, a.cost))
      have e2 := p'.map (fun a => (a.name, a.uri, a.cost))
      refine List.Perm.eq_of_pairwise (le := fun a b => Name.lt a.1 b.1 = true) ?_ ?_ ?_
        (e1.trans (h.trans e2.symm))
      · intro a b _ _ h1 h2; rw [Name.lt_asymm h1] at h2; cases h2
      · rw [List.pairwise_map]; exact s
      · rw [List.pairwise_map]; exact s'
  refine ⟨key l l' hn hn' hi hi', (key l l hn hn hi hi).2 (List.Perm.refl _), ?_⟩
  rw [Bool.eq_iff_iff, key l l' hn hn' hi hi', key l' l hn' hn hi' hi]
  exact ⟨List.Perm.symm, List.Perm.symm⟩

example : (([AdjWitness.x, AdjWitness.y] : AdjacencyList).map (·.name)).Nodup ∧
    IntegralCosts [AdjWitness.x, AdjWitness.y] ∧
    eqv [AdjWitness.x, AdjWitness.y] [AdjWitness.y, AdjWitness.x] = true ∧
    eqv [AdjWitness.x] [AdjWitness.y] = false := by
  refine ⟨by decide +kernel, ?_, by decide +kernel, by decide +kernel⟩
  intro a ha
  simp only [List.mem_cons, List.not_mem_nil, or_false] at ha
  rcases ha with rfl | rfl
  · exact ⟨10, rfl⟩
  · exact ⟨20, rfl⟩

/-- C46 fails in general: a neighbour configured with link-cost 9.5 makes an adjacency list differ
from itself. -/
theorem C46_not_reflexive : ∃ l : AdjacencyList, (l.map (·.name)).Nodup ∧ eqv l l = false :=
  ⟨[AdjWitness.z], by decide +kernel, by decide +kernel⟩

/-- ... and the comparison is not symmetric: 10 against 9.5. -/
theorem C46_not_symmetric : ∃ l l' : AdjacencyList, eqv l l' = true ∧ eqv l' l = false :=
  ⟨[{ AdjWitness.z with cost := .fin 10 }], [AdjWitness.z], by decide +kernel, by decide +kernel⟩

/-! ### C47 -/

/-- The state of a neighbour is known: it is active or it has timed out often enough. -/
def StateKnown (retry : Nat) (a : Adjacent) : Prop := a.status = .active ∨ retry ≤ a.timedOut

theorem buildableLoop_spec (retry : Nat) : ∀ (l : AdjacencyList) (n : Nat),
    (buildableLoop retry l n = none ↔ ∃ a ∈ l, a.status = .active) ∧
    (∀ m, buildableLoop retry l n = some m →
      m = n + (l.filter (fun a => decide (retry ≤ a.timedOut))).length) := by
  intro l
  induction l with
  | nil => intro n; simp [buildableLoop]
  | cons a as ih =>
    intro n
    unfold buildableLoop
    by_cases ha : a.status = .active
    · simp [ha]
    · by_cases ht : retry ≤ a.timedOut
      · simp only [ha, ht, if_false, if_true]
        refine ⟨by simp [(ih (n + 1)).1, ha], fun m hm => ?_⟩
        rw [(ih (n + 1)).2 m hm]
        simp [ht]; omega
      · simp only [ha, ht, if_false]
        refine ⟨by simp [(ih n).1, ha], fun m hm => ?_⟩
        rw [(ih n).2 m hm]
        simp [ht]

/-- What the code decides: a build is allowed iff some neighbour is active, or all have timed out
often enough.  So the property holds whenever no neighbour is active, and a list in which every
state is known is always buildable; missing: the converse when some neighbour is active, which is
false (below). -/
theorem C47_buildable_partial (l : AdjacencyList) (retry : Nat) :
    (isAdjLsaBuildable l retry = true ↔
      (∃ a ∈ l, a.status = .active) ∨ ∀ a ∈ l, retry ≤ a.timedOut) ∧
    ((∀ a ∈ l, a.status ≠ .active) →
      (isAdjLsaBuildable l retry = true ↔ ∀ a ∈ l, StateKnown retry a)) ∧
    ((∀ a ∈ l, StateKnown retry a) → isAdjLsaBuildable l retry = true) := by
  have main : (isAdjLsaBuildable l retry = true ↔
      (∃ a ∈ l, a.status = .active) ∨ ∀ a ∈ l, retry ≤ a.timedOut) := by
    unfold isAdjLsaBuildable
    obtain ⟨h1, h2⟩ := buildableLoop_spec retry l 0
    cases hb : buildableLoop retry l 0 with
    | none => simp [h1.1 hb]
    | some n =>
      have hna : ¬ ∃ a ∈ l, a.status = .active := fun h => by
        rw [h1.2 h] at hb; cases hb
      have hn := h2 n hb
      simp only [beq_iff_eq]
      rw [hn]
      constructor
      · intro h
        right
        have : l.filter (fun a => decide (retry ≤ a.timedOut)) = l :=
          List.Sublist.eq_of_length List.filter_sublist (by omega)
        intro a ha
        rw [← this] at ha
        simpa using (List.mem_filter.1 ha).2
      · rintro (h | h)
        · exact absurd h hna
        · rw [List.filter_eq_self.2 (fun a ha => by simpa using h a ha)]; omega
  refine ⟨main, fun hna => ?_, fun hall => main.2 ?_⟩
  · rw [main]
    constructor
    · rintro (⟨a, ha, h⟩ | h)
      · exact absurd h (hna a ha)
      · exact fun a ha => Or.inr (h a ha)
    · intro h
      right
      intro a ha
      rcases h a ha with h | h
      · exact absurd h (hna a ha)
      · exact h
  · by_cases h : ∃ a ∈ l, a.status = .active
    · exact Or.inl h
    · right
      intro a ha
      rcases hall a ha with h' | h'
      · exact absurd ⟨a, ha, h'⟩ h
      · exact h'

/-- C47 fails: with one active neighbour the list is buildable although the other neighbour has
neither answered nor timed out. -/
theorem C47_violated : ∃ (l : AdjacencyList) (retry : Nat), isAdjLsaBuildable l retry = true ∧
    ¬ ∀ a ∈ l, StateKnown retry a := by
  refine ⟨[AdjWitness.x, AdjWitness.y], 3, by decide +kernel, fun h => ?_⟩
  have := h AdjWitness.x (by simp)
  rcases this with h | h
  · cases h
  · exact absurd h (by decide)

example : isAdjLsaBuildable [{ AdjWitness.x with timedOut := 3 }] 3 = true ∧
    isAdjLsaBuildable [{ AdjWitness.x with timedOut := 2 }] 3 = false := by decide +kernel

end Nlsr
