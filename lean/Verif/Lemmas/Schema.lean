import Verif.Model.Schema
import Verif.Lemmas.Uri
/- Name patterns: what a match means, and what the patterns of the shipped rules match. -/
namespace Nlsr.Schema

/-- A name as the rows of a pattern, with the groups. -/
inductive Splits : List Elem → Name → List Name → Prop
  | nil : Splits [] [] []
  | cons {e : Elem} {es : List Elem} {a n : Name} {g : List Name} (h : e.ok a = true) (hs : Splits es n g) :
      Splits (e :: es) (a ++ n) (if e.cap then a :: g else g)

theorem down_some {α : Type} {f : Nat → Option α} {x : α} : ∀ {n}, down f n = some x → ∃ k, k ≤ n ∧ f k = some x
  | 0, h => ⟨0, Nat.le_refl _, h⟩
  | n + 1, h => by
    unfold down at h
    split at h
    · rename_i y hy
      exact ⟨n + 1, Nat.le_refl _, hy.trans h⟩
    · obtain ⟨k, hk, hf⟩ := down_some h
      exact ⟨k, by omega, hf⟩

theorem down_isSome {α : Type} {f : Nat → Option α} {x : α} {k : Nat} : ∀ {n}, k ≤ n → f k = some x → (down f n).isSome = true
  | 0, h, hf => by
    have : k = 0 := by omega
    subst this
    unfold down
    rw [hf]; rfl
  | n + 1, h, hf => by
    unfold down
    split
    · rfl
    · rename_i hn
      by_cases hk : k = n + 1
      · subst hk; rw [hf] at hn; cases hn
      · exact down_isSome (by omega) hf

theorem run_sound : ∀ {es : List Elem} {n : Name} {g : List Name}, run es n = some g → Splits es n g
  | [], [], g, h => by cases h; exact .nil
  | [], _ :: _, g, h => by cases h
  | e :: es, n, g, h => by
    unfold run at h
    obtain ⟨k, -, hk⟩ := down_some h
    split at hk
    · rename_i ho
      obtain ⟨g', hg, rfl⟩ := Option.map_eq_some_iff.1 hk
      have := Splits.cons ho (run_sound hg)
      rw [List.take_append_drop] at this
      exact this
    · cases hk

theorem run_complete {es : List Elem} {n : Name} {g : List Name} (h : Splits es n g) : (run es n).isSome = true := by
  induction h with
  | nil => rfl
  | @cons e es a n g h hs ih =>
    unfold run
    obtain ⟨g', hg⟩ := Option.isSome_iff_exists.1 ih
    exact down_isSome (k := a.length) (x := if e.cap then a :: g' else g') (by simp) (by
      rw [List.take_left, List.drop_left, if_pos h, hg]; rfl)

/-- If all ways to split have the same groups, these are the groups of the match. -/
theorem run_iff {es : List Elem} {P : Name → List Name → Prop} (hP : ∀ n g, Splits es n g ↔ P n g)
    (hu : ∀ n g g', P n g → P n g' → g = g') (n : Name) (g : List Name) : run es n = some g ↔ P n g := by
  constructor
  · intro h; exact (hP n g).1 (run_sound h)
  · intro h
    obtain ⟨g', hg⟩ := Option.isSome_iff_exists.1 (run_complete ((hP n g).2 h))
    rw [hg, hu n g g' h ((hP n g').1 (run_sound hg))]

theorem run_isSome {es : List Elem} {n : Name} : (run es n).isSome = true ↔ ∃ g, Splits es n g :=
  ⟨fun h => (Option.isSome_iff_exists.1 h).imp fun _ => run_sound, fun ⟨_, h⟩ => run_complete h⟩

/-! ### Rows -/

theorem splits_nil {n : Name} {g : List Name} : Splits [] n g ↔ n = [] ∧ g = [] := by
  constructor
  · intro h; cases h; exact ⟨rfl, rfl⟩
  · rintro ⟨rfl, rfl⟩; exact .nil

theorem splits_cons {e : Elem} {es : List Elem} {n : Name} {g : List Name} : Splits (e :: es) n g ↔
    ∃ a m g', n = a ++ m ∧ e.ok a = true ∧ Splits es m g' ∧ g = if e.cap then a :: g' else g' := by
  constructor
  · intro h
    cases h with
    | cons h hs => exact ⟨_, _, _, rfl, h, hs, rfl⟩
  · rintro ⟨a, m, g', rfl, h, hs, rfl⟩
    exact .cons h hs

theorem ok_one {s : CSet} {a : Name} : (Elem.ok { set := s } a) = true ↔ ∃ c, a = [c] ∧ s.has c = true := by
  unfold Elem.ok
  cases a with
  | nil => simp
  | cons c t =>
    cases t with
    | nil => simp
    | cons d t => simp

theorem splits_one {s : CSet} {es : List Elem} {n : Name} {g : List Name} : Splits ({ set := s } :: es) n g ↔
    ∃ c m, n = c :: m ∧ s.has c = true ∧ Splits es m g := by
  rw [splits_cons]
  constructor
  · rintro ⟨a, m, g', rfl, h, hs, hg⟩
    obtain ⟨c, rfl, hc⟩ := ok_one.1 h
    simp at hg
    subst hg
    exact ⟨c, m, rfl, hc, hs⟩
  · rintro ⟨c, m, rfl, hc, hs⟩
    exact ⟨[c], m, g, rfl, ok_one.2 ⟨c, rfl, hc⟩, hs, by simp⟩

theorem splits_star {s : CSet} {cap : Bool} {es : List Elem} {n : Name} {g : List Name} :
    Splits ({ set := s, lo := 0, hi := none, cap } :: es) n g ↔
    ∃ a m g', n = a ++ m ∧ (∀ c ∈ a, s.has c = true) ∧ Splits es m g' ∧ g = if cap then a :: g' else g' := by
  rw [splits_cons]
  simp [Elem.ok]

/-- No component of the name fits one of these patterns. -/
def Free (l : List String) (a : Name) : Prop := ∀ c ∈ a, ∀ s ∈ l, fits s.toList (Uri.ofComp c) = false

/-- A component that fits the pattern. -/
def Is (s : String) (c : Comp) : Prop := fits s.toList (Uri.ofComp c) = true

theorem splits_noneOf {l : List String} {cap : Bool} {es : List Elem} {n : Name} {g : List Name} :
    Splits (noneOf l cap :: es) n g ↔ ∃ a m g', n = a ++ m ∧ Free l a ∧ Splits es m g' ∧ g = if cap then a :: g' else g' := by
  unfold noneOf
  rw [splits_star]
  have : ∀ a : Name, (∀ c ∈ a, (CSet.but (l.map String.toList)).has c = true) ↔ Free l a := by
    intro a; simp [CSet.has, Free]
  simp only [this]

theorem splits_one' {s : String} {es : List Elem} {n : Name} {g : List Name} : Splits (one s :: es) n g ↔
    ∃ c m, n = c :: m ∧ Is s c ∧ Splits es m g := by
  unfold one
  rw [splits_one]
  simp [CSet.has, Is]

theorem splits_among {l : List String} {es : List Elem} {n : Name} {g : List Name} : Splits (among l :: es) n g ↔
    ∃ c m, n = c :: m ∧ (∃ s ∈ l, Is s c) ∧ Splits es m g := by
  unfold among
  rw [splits_one]
  simp [CSet.has, Is]

theorem splits_any {es : List Elem} {n : Name} {g : List Name} : Splits (anyOne :: es) n g ↔ ∃ c m, n = c :: m ∧ Splits es m g := by
  unfold anyOne
  rw [splits_one]
  simp [CSet.has]

theorem splits_anyCap {es : List Elem} {n : Name} {g : List Name} : Splits (anyCap :: es) n g ↔
    ∃ a m g', n = a ++ m ∧ Splits es m g' ∧ g = a :: g' := by
  unfold anyCap
  rw [splits_star]
  simp [CSet.has]

theorem splits_upTo3 {n : Name} {g : List Name} : Splits [upTo3] n g ↔ 1 ≤ n.length ∧ n.length ≤ 3 ∧ g = [] := by
  rw [splits_cons]
  constructor
  · rintro ⟨a, m, g', rfl, h, hs, hg⟩
    obtain ⟨rfl, rfl⟩ := splits_nil.1 hs
    simp [Elem.ok, upTo3] at h hg ⊢
    exact ⟨of_decide_eq_true h.1.1, h.1.2, hg⟩
  · rintro ⟨h1, h2, rfl⟩
    exact ⟨n, [], [], by simp, by simp [Elem.ok, upTo3, CSet.has, h1, h2], .nil, by simp [upTo3]⟩

theorem splits_rest {n : Name} {g : List Name} : Splits [{ set := .any, lo := 0, hi := none }] n g ↔ g = [] := by
  rw [splits_star]
  constructor
  · rintro ⟨a, m, g', rfl, -, hs, hg⟩
    obtain ⟨rfl, rfl⟩ := splits_nil.1 hs
    simpa using hg
  · rintro rfl
    exact ⟨n, [], [], by simp, by simp [CSet.has], .nil, by simp⟩

/-! ### Components -/

theorem fits_self : ∀ (p : Text), fits p p = true
  | [] => rfl
  | c :: t => by simp [fits, fits_self t]

theorem fits_literal : ∀ {p t : Text}, '.' ∉ p → fits p t = true → t = p
  | [], [], _, _ => rfl
  | [], _ :: _, _, h => by simp [fits] at h
  | _ :: _, [], _, h => by simp [fits] at h
  | p :: ps, c :: cs, hp, h => by
    simp [fits] at h
    simp at hp
    rw [fits_literal (by exact hp.2) h.2]
    rcases h.1 with h1 | h1
    · exact absurd h1.symm hp.1
    · rw [h1]

theorem fits_len : ∀ {p t : Text}, fits p t = true → t.length = p.length
  | [], [], _ => rfl
  | [], _ :: _, h => by simp [fits] at h
  | _ :: _, [], h => by simp [fits] at h
  | p :: ps, c :: cs, h => by
    simp [fits] at h
    simp [fits_len h.2]

theorem is_lit {s : String} {x c : Comp} (hs : '.' ∉ s.toList) (he : '=' ∉ s.toList) (hx : Uri.parseComp s.toList = some x)
    (h : Is s c) : c = x := by
  have ht := fits_literal hs h
  have h8 : c.typ = 8 := Classical.byContradiction fun hn => by
    apply he
    rw [← ht]
    unfold Uri.ofComp
    rw [if_neg hn]
    simp
  have := Uri.parseComp_ofComp (x := c) (by omega) (by omega)
  rw [ht, hx] at this
  exact (Option.some.inj this).symm

/-- `<a>` in a rule whose text has no special character is the component with that text. -/
structure Lit (s : String) (x : Comp) : Prop where
  is : Is s x
  eq : ∀ {c}, Is s c → c = x

theorem lit_of {s : String} {x : Comp} (h1 : '.' ∉ s.toList) (h2 : '=' ∉ s.toList) (h3 : Uri.parseComp s.toList = some x)
    (h4 : Uri.ofComp x = s.toList) : Lit s x :=
  ⟨by unfold Is; rw [h4]; exact fits_self _, is_lit h1 h2 h3⟩

abbrev cNlsr := Nbr.nlsrComp
abbrev cInfo := Nbr.infoComp
abbrev cKey := Nbr.keyComp
abbrev cLsa := Comp.str "LSA"
abbrev cLocalhop := Comp.str "localhop"

theorem lit_nlsr : Lit "nlsr" cNlsr := lit_of (by decide +kernel) (by decide +kernel) (by decide +kernel) (by decide +kernel)
theorem lit_info : Lit "INFO" cInfo := lit_of (by decide +kernel) (by decide +kernel) (by decide +kernel) (by decide +kernel)
theorem lit_key : Lit "KEY" cKey := lit_of (by decide +kernel) (by decide +kernel) (by decide +kernel) (by decide +kernel)
theorem lit_lsa : Lit "LSA" cLsa := lit_of (by decide +kernel) (by decide +kernel) (by decide +kernel) (by decide +kernel)
theorem lit_localhop : Lit "localhop" cLocalhop :=
  lit_of (by decide +kernel) (by decide +kernel) (by decide +kernel) (by decide +kernel)
theorem lit_localhost : Lit "localhost" (Comp.str "localhost") :=
  lit_of (by decide +kernel) (by decide +kernel) (by decide +kernel) (by decide +kernel)
theorem lit_lsdb : Lit "lsdb" (Comp.str "lsdb") := lit_of (by decide +kernel) (by decide +kernel) (by decide +kernel) (by decide +kernel)
theorem lit_rt : Lit "routing-table" (Comp.str "routing-table") :=
  lit_of (by decide +kernel) (by decide +kernel) (by decide +kernel) (by decide +kernel)
theorem lit_update : Lit "prefix-update" (Comp.str "prefix-update") :=
  lit_of (by decide +kernel) (by decide +kernel) (by decide +kernel) (by decide +kernel)
theorem lit_advertise : Lit "advertise" (Comp.str "advertise") :=
  lit_of (by decide +kernel) (by decide +kernel) (by decide +kernel) (by decide +kernel)
theorem lit_withdraw : Lit "withdraw" (Comp.str "withdraw") :=
  lit_of (by decide +kernel) (by decide +kernel) (by decide +kernel) (by decide +kernel)

theorem is_iff {s : String} {x : Comp} (h : Lit s x) {c : Comp} : Is s c ↔ c = x := ⟨h.eq, fun e => e ▸ h.is⟩

/-- Free of literal patterns is free of the components. -/
theorem free_mem {l : List String} {a : Name} (h : Free l a) {s : String} (hs : s ∈ l) {x : Comp} (hx : Is s x) : x ∉ a := by
  intro hm
  have := h x hm s hs
  unfold Is at hx
  rw [hx] at this
  cases this

/-- A name up to the first component of some kind is unique. -/
theorem cut_unique {P : Comp → Prop} : ∀ {a a' m m' : Name} {x x' : Comp}, (∀ c ∈ a, ¬ P c) → (∀ c ∈ a', ¬ P c) → P x → P x' →
    a ++ x :: m = a' ++ x' :: m' → a = a' ∧ x = x' ∧ m = m'
  | [], [], _, _, _, _, _, _, _, _, h => by simp at h; exact ⟨rfl, h⟩
  | [], c' :: a', _, _, _, _, _, h2, hx, _, h => by
    simp at h
    exact absurd (h.1 ▸ hx) (h2 c' (by simp))
  | c :: a, [], _, _, _, _, h1, _, _, hx', h => by
    simp at h
    exact absurd (h.1 ▸ hx') (h1 c (by simp))
  | c :: a, c' :: a', _, _, _, _, h1, h2, hx, hx', h => by
    simp at h
    obtain ⟨rfl, h⟩ := h
    obtain ⟨rfl, r⟩ := cut_unique (fun d hd => h1 d (by simp [hd])) (fun d hd => h2 d (by simp [hd])) hx hx' h
    exact ⟨rfl, r⟩

theorem free_cut {l : List String} {s : String} (hs : s ∈ l) {a a' m m' : Name} {x x' : Comp} (h1 : Free l a) (h2 : Free l a')
    (hx : Is s x) (hx' : Is s x') (h : a ++ x :: m = a' ++ x' :: m') : a = a' ∧ x = x' ∧ m = m' :=
  cut_unique (P := Is s) (fun c hc hi => by have := h1 c hc s hs; unfold Is at hi; rw [hi] at this; cases this)
    (fun c hc hi => by have := h2 c hc s hs; unfold Is at hi; rw [hi] at this; cases this) hx hx' h

/-! ### The patterns of the shipped rules -/

theorem kInstance_run (n : Name) (g : List Name) : kInstance.run n = some g ↔
    ∃ a t, n = a ++ cNlsr :: cKey :: t ∧ Free ["KEY", "nlsr"] a ∧ 1 ≤ t.length ∧ t.length ≤ 3 ∧ g = [a] := by
  show run [noneOf ["KEY", "nlsr"] true, one "nlsr", one "KEY", upTo3] n = some g ↔ _
  refine run_iff (P := fun n g => ∃ a t, n = a ++ cNlsr :: cKey :: t ∧ Free ["KEY", "nlsr"] a ∧ 1 ≤ t.length ∧ t.length ≤ 3 ∧ g = [a]) ?_ ?_ n g
  · intro n g
    simp only [splits_noneOf, splits_one', splits_upTo3, is_iff lit_nlsr, is_iff lit_key]
    constructor
    · rintro ⟨a, _, _, rfl, ha, ⟨_, _, rfl, rfl, _, t, rfl, rfl, h1, h2, rfl⟩, rfl⟩
      exact ⟨a, t, rfl, ha, h1, h2, rfl⟩
    · rintro ⟨a, t, rfl, ha, h1, h2, rfl⟩
      exact ⟨a, _, _, rfl, ha, ⟨_, _, rfl, rfl, _, t, rfl, rfl, h1, h2, rfl⟩, rfl⟩
  · rintro n g g' ⟨a, t, rfl, ha, -, -, rfl⟩ ⟨b, u, he, hb, -, -, rfl⟩
    obtain ⟨rfl, -⟩ := free_cut (s := "nlsr") (by simp) ha hb lit_nlsr.is lit_nlsr.is he
    rfl

theorem kAny_run (n : Name) (g : List Name) : kAny.run n = some g ↔
    ∃ a t, n = a ++ cKey :: t ∧ Free ["KEY"] a ∧ 1 ≤ t.length ∧ t.length ≤ 3 ∧ g = [a] := by
  show run [noneOf ["KEY"] true, one "KEY", upTo3] n = some g ↔ _
  refine run_iff (P := fun n g => ∃ a t, n = a ++ cKey :: t ∧ Free ["KEY"] a ∧ 1 ≤ t.length ∧ t.length ≤ 3 ∧ g = [a]) ?_ ?_ n g
  · intro n g
    simp only [splits_noneOf, splits_one', splits_upTo3, is_iff lit_key]
    constructor
    · rintro ⟨a, _, _, rfl, ha, ⟨_, t, rfl, rfl, h1, h2, rfl⟩, rfl⟩
      exact ⟨a, t, rfl, ha, h1, h2, rfl⟩
    · rintro ⟨a, t, rfl, ha, h1, h2, rfl⟩
      exact ⟨a, _, _, rfl, ha, ⟨_, t, rfl, rfl, h1, h2, rfl⟩, rfl⟩
  · rintro n g g' ⟨a, t, rfl, ha, -, -, rfl⟩ ⟨b, u, he, hb, -, -, rfl⟩
    obtain ⟨rfl, -⟩ := free_cut (s := "KEY") (by simp) ha hb lit_key.is lit_key.is he
    rfl

theorem kOperator_run (n : Name) (g : List Name) : kOperator.run n = some g ↔
    ∃ a o b t, n = a ++ o :: (b ++ cKey :: t) ∧ Free ["KEY", "%C1.Operator"] a ∧ Is "%C1.Operator" o ∧ Free ["KEY"] b ∧
      1 ≤ t.length ∧ t.length ≤ 3 ∧ g = [a] := by
  show run [noneOf ["KEY", "%C1.Operator"] true, one "%C1.Operator", noneOf ["KEY"], one "KEY", upTo3] n = some g ↔ _
  refine run_iff (P := fun n g => ∃ a o b t, n = a ++ o :: (b ++ cKey :: t) ∧ Free ["KEY", "%C1.Operator"] a ∧
      Is "%C1.Operator" o ∧ Free ["KEY"] b ∧ 1 ≤ t.length ∧ t.length ≤ 3 ∧ g = [a]) ?_ ?_ n g
  · intro n g
    simp only [splits_noneOf, splits_one', splits_upTo3, is_iff lit_key]
    constructor
    · rintro ⟨a, _, _, rfl, ha, ⟨o, _, rfl, ho, b, _, _, rfl, hb, ⟨_, t, rfl, rfl, h1, h2, rfl⟩, rfl⟩, rfl⟩
      exact ⟨a, o, b, t, rfl, ha, ho, hb, h1, h2, rfl⟩
    · rintro ⟨a, o, b, t, rfl, ha, ho, hb, h1, h2, rfl⟩
      exact ⟨a, _, _, rfl, ha, ⟨o, _, rfl, ho, b, _, _, rfl, hb, ⟨_, t, rfl, rfl, h1, h2, rfl⟩, rfl⟩, rfl⟩
  · rintro n g g' ⟨a, o, b, t, rfl, ha, ho, -, -, -, rfl⟩ ⟨a', o', b', u, he, ha', ho', -, -, -, rfl⟩
    obtain ⟨rfl, -⟩ := free_cut (s := "%C1.Operator") (by simp) ha ha' ho ho' he
    rfl

theorem helloP_run (n : Name) (g : List Name) :
    Regex.run { elems := [noneOf ["nlsr", "INFO"] true, one "nlsr", one "INFO", anyOne, anyOne] } n = some g ↔
    ∃ a x y, n = a ++ [cNlsr, cInfo, x, y] ∧ Free ["nlsr", "INFO"] a ∧ g = [a] := by
  show run [noneOf ["nlsr", "INFO"] true, one "nlsr", one "INFO", anyOne, anyOne] n = some g ↔ _
  refine run_iff (P := fun n g => ∃ a x y, n = a ++ [cNlsr, cInfo, x, y] ∧ Free ["nlsr", "INFO"] a ∧ g = [a]) ?_ ?_ n g
  · intro n g
    simp only [splits_noneOf, splits_one', splits_any, splits_nil, is_iff lit_nlsr, is_iff lit_info]
    constructor
    · rintro ⟨a, _, _, rfl, ha, ⟨_, _, rfl, rfl, _, _, rfl, rfl, x, _, rfl, y, _, rfl, rfl, rfl⟩, rfl⟩
      exact ⟨a, x, y, rfl, ha, rfl⟩
    · rintro ⟨a, x, y, rfl, ha, rfl⟩
      exact ⟨a, _, _, rfl, ha, ⟨_, _, rfl, rfl, _, _, rfl, rfl, x, _, rfl, y, _, rfl, rfl, rfl⟩, rfl⟩
  · rintro n g g' ⟨a, x, y, rfl, ha, rfl⟩ ⟨b, x', y', he, hb, rfl⟩
    obtain ⟨rfl, -⟩ := free_cut (s := "nlsr") (by simp) ha hb lit_nlsr.is lit_nlsr.is he
    rfl

theorem helloF_some (n : Name) : (helloRule.filter.run n).isSome = true ↔
    ∃ a x y, n = a ++ [cNlsr, cInfo, x, y] ∧ Free ["nlsr", "INFO"] a := by
  show (run [noneOf ["nlsr", "INFO"], one "nlsr", one "INFO", anyOne, anyOne] n).isSome = true ↔ _
  rw [run_isSome]
  simp only [splits_noneOf, splits_one', splits_any, splits_nil, is_iff lit_nlsr, is_iff lit_info]
  constructor
  · rintro ⟨g, a, _, _, rfl, ha, ⟨_, _, rfl, rfl, _, _, rfl, rfl, x, _, rfl, y, _, rfl, rfl, rfl⟩, rfl⟩
    exact ⟨a, x, y, rfl, ha⟩
  · rintro ⟨a, x, y, rfl, ha⟩
    exact ⟨_, a, _, _, rfl, ha, ⟨_, _, rfl, rfl, _, _, rfl, rfl, x, _, rfl, y, _, rfl, rfl, rfl⟩, rfl⟩

theorem lsaF_some (n : Name) : (lsaRule.filter.run n).isSome = true ↔
    ∃ a m, n = a ++ cNlsr :: cLsa :: m ∧ Free ["nlsr", "LSA"] a := by
  show (run [noneOf ["nlsr", "LSA"], one "nlsr", one "LSA", { set := .any, lo := 0, hi := none }] n).isSome = true ↔ _
  rw [run_isSome]
  simp only [splits_noneOf, splits_one', splits_rest, is_iff lit_nlsr, is_iff lit_lsa]
  constructor
  · rintro ⟨g, a, _, _, rfl, ha, ⟨_, _, rfl, rfl, _, m, rfl, rfl, rfl⟩, rfl⟩
    exact ⟨a, m, rfl, ha⟩
  · rintro ⟨a, m, rfl, ha⟩
    exact ⟨_, a, _, _, rfl, ha, ⟨_, _, rfl, rfl, _, m, rfl, rfl, rfl⟩, rfl⟩

theorem lsaP_run (n : Name) (g : List Name) :
    Regex.run { elems := [one "localhop", noneOf ["nlsr", "LSA"] true, one "nlsr", one "LSA", anyCap, anyOne, anyOne, anyOne, anyOne] } n = some g ↔
    ∃ a b w x y z, n = cLocalhop :: (a ++ cNlsr :: cLsa :: (b ++ [w, x, y, z])) ∧ Free ["nlsr", "LSA"] a ∧ g = [a, b] := by
  show run [one "localhop", noneOf ["nlsr", "LSA"] true, one "nlsr", one "LSA", anyCap, anyOne, anyOne, anyOne, anyOne] n = some g ↔ _
  refine run_iff (P := fun n g => ∃ a b w x y z, n = cLocalhop :: (a ++ cNlsr :: cLsa :: (b ++ [w, x, y, z])) ∧
    Free ["nlsr", "LSA"] a ∧ g = [a, b]) ?_ ?_ n g
  · intro n g
    simp only [splits_noneOf, splits_one', splits_any, splits_anyCap, splits_nil, is_iff lit_nlsr, is_iff lit_lsa, is_iff lit_localhop]
    constructor
    · rintro ⟨_, _, rfl, rfl, a, _, _, rfl, ha, ⟨_, _, rfl, rfl, _, _, rfl, rfl, b, _, _, rfl, ⟨w, _, rfl, x, _, rfl, y, _, rfl, z, _, rfl, rfl, rfl⟩, rfl⟩, rfl⟩
      exact ⟨a, b, w, x, y, z, rfl, ha, rfl⟩
    · rintro ⟨a, b, w, x, y, z, rfl, ha, rfl⟩
      exact ⟨_, _, rfl, rfl, a, _, _, rfl, ha, ⟨_, _, rfl, rfl, _, _, rfl, rfl, b, _, _, rfl, ⟨w, _, rfl, x, _, rfl, y, _, rfl, z, _, rfl, rfl, rfl⟩, rfl⟩, rfl⟩
  · rintro n g g' ⟨a, b, w, x, y, z, rfl, ha, rfl⟩ ⟨a', b', w', x', y', z', he, ha', rfl⟩
    simp only [List.cons.injEq, true_and] at he
    obtain ⟨rfl, -, he⟩ := free_cut (s := "nlsr") (by simp) ha ha' lit_nlsr.is lit_nlsr.is he
    simp only [List.cons.injEq, true_and] at he
    rw [(List.append_inj' he rfl).1]

theorem datasetF_some (n : Name) : (datasetRule.filter.run n).isSome = true ↔
    ∃ a x m, n = a ++ cNlsr :: x :: m ∧ (x = Comp.str "lsdb" ∨ x = Comp.str "routing-table") ∧ Free ["nlsr"] a := by
  show (run [noneOf ["nlsr"], one "nlsr", among ["lsdb", "routing-table"], { set := .any, lo := 0, hi := none }] n).isSome = true ↔ _
  rw [run_isSome]
  simp only [splits_noneOf, splits_one', splits_among, splits_rest, is_iff lit_nlsr, List.mem_cons, List.not_mem_nil, or_false,
    exists_eq_or_imp, exists_eq_left, is_iff lit_lsdb, is_iff lit_rt]
  constructor
  · rintro ⟨g, a, _, _, rfl, ha, ⟨_, _, rfl, rfl, x, m, rfl, hx, rfl⟩, rfl⟩
    exact ⟨a, x, m, rfl, hx, ha⟩
  · rintro ⟨a, x, m, rfl, hx, ha⟩
    exact ⟨_, a, _, _, rfl, ha, ⟨_, _, rfl, rfl, x, m, rfl, hx, rfl⟩, rfl⟩

theorem datasetP_run (n : Name) (g : List Name) :
    Regex.run { elems := [noneOf ["nlsr"] true, one "nlsr", among ["lsdb", "routing-table"]], closed := false } n = some g ↔
    ∃ a x m, n = a ++ cNlsr :: x :: m ∧ (x = Comp.str "lsdb" ∨ x = Comp.str "routing-table") ∧ Free ["nlsr"] a ∧ g = [a] := by
  show run [noneOf ["nlsr"] true, one "nlsr", among ["lsdb", "routing-table"], { set := .any, lo := 0, hi := none }] n = some g ↔ _
  refine run_iff (P := fun n g => ∃ a x m, n = a ++ cNlsr :: x :: m ∧ (x = Comp.str "lsdb" ∨ x = Comp.str "routing-table") ∧
    Free ["nlsr"] a ∧ g = [a]) ?_ ?_ n g
  · intro n g
    simp only [splits_noneOf, splits_one', splits_among, splits_rest, is_iff lit_nlsr, List.mem_cons, List.not_mem_nil, or_false,
      exists_eq_or_imp, exists_eq_left, is_iff lit_lsdb, is_iff lit_rt]
    constructor
    · rintro ⟨a, _, _, rfl, ha, ⟨_, _, rfl, rfl, x, m, rfl, hx, rfl⟩, rfl⟩
      exact ⟨a, x, m, rfl, hx, ha, rfl⟩
    · rintro ⟨a, x, m, rfl, hx, ha, rfl⟩
      exact ⟨a, _, _, rfl, ha, ⟨_, _, rfl, rfl, x, m, rfl, hx, rfl⟩, rfl⟩
  · rintro n g g' ⟨a, x, m, rfl, -, ha, rfl⟩ ⟨b, y, m', he, -, hb, rfl⟩
    obtain ⟨rfl, -⟩ := free_cut (s := "nlsr") (by simp) ha hb lit_nlsr.is lit_nlsr.is he
    rfl

theorem exceptionF_some (n : Name) : (exceptionRule.filter.run n).isSome = true ↔
    ∃ a r b x y z, n = a ++ r :: (b ++ [cKey, x, y, z]) ∧ Free ["KEY", "%C1.Router"] a ∧ Is "%C1.Router" r ∧ Free ["KEY", "nlsr"] b := by
  show (run [noneOf ["KEY", "%C1.Router"], one "%C1.Router", noneOf ["KEY", "nlsr"], one "KEY", anyOne, anyOne, anyOne] n).isSome = true ↔ _
  rw [run_isSome]
  simp only [splits_noneOf, splits_one', splits_any, splits_nil, is_iff lit_key]
  constructor
  · rintro ⟨g, a, _, _, rfl, ha, ⟨r, _, rfl, hr, b, _, _, rfl, hb, ⟨_, _, rfl, rfl, x, _, rfl, y, _, rfl, z, _, rfl, rfl, rfl⟩, rfl⟩, rfl⟩
    exact ⟨a, r, b, x, y, z, rfl, ha, hr, hb⟩
  · rintro ⟨a, r, b, x, y, z, rfl, ha, hr, hb⟩
    exact ⟨_, a, _, _, rfl, ha, ⟨r, _, rfl, hr, b, _, _, rfl, hb, ⟨_, _, rfl, rfl, x, _, rfl, y, _, rfl, z, _, rfl, rfl, rfl⟩, rfl⟩, rfl⟩

theorem exceptionP_run (n : Name) (g : List Name) :
    Regex.run { elems := [noneOf ["KEY", "%C1.Router"] true, one "%C1.Router", noneOf ["KEY"], one "KEY", anyOne, anyOne, anyOne] } n = some g ↔
    ∃ a r b x y z, n = a ++ r :: (b ++ [cKey, x, y, z]) ∧ Free ["KEY", "%C1.Router"] a ∧ Is "%C1.Router" r ∧ Free ["KEY"] b ∧ g = [a] := by
  show run [noneOf ["KEY", "%C1.Router"] true, one "%C1.Router", noneOf ["KEY"], one "KEY", anyOne, anyOne, anyOne] n = some g ↔ _
  refine run_iff (P := fun n g => ∃ a r b x y z, n = a ++ r :: (b ++ [cKey, x, y, z]) ∧ Free ["KEY", "%C1.Router"] a ∧
    Is "%C1.Router" r ∧ Free ["KEY"] b ∧ g = [a]) ?_ ?_ n g
  · intro n g
    simp only [splits_noneOf, splits_one', splits_any, splits_nil, is_iff lit_key]
    constructor
    · rintro ⟨a, _, _, rfl, ha, ⟨r, _, rfl, hr, b, _, _, rfl, hb, ⟨_, _, rfl, rfl, x, _, rfl, y, _, rfl, z, _, rfl, rfl, rfl⟩, rfl⟩, rfl⟩
      exact ⟨a, r, b, x, y, z, rfl, ha, hr, hb, rfl⟩
    · rintro ⟨a, r, b, x, y, z, rfl, ha, hr, hb, rfl⟩
      exact ⟨a, _, _, rfl, ha, ⟨r, _, rfl, hr, b, _, _, rfl, hb, ⟨_, _, rfl, rfl, x, _, rfl, y, _, rfl, z, _, rfl, rfl, rfl⟩, rfl⟩, rfl⟩
  · rintro n g g' ⟨a, r, b, x, y, z, rfl, ha, hr, -, rfl⟩ ⟨a', r', b', x', y', z', he, ha', hr', -, rfl⟩
    obtain ⟨rfl, -⟩ := free_cut (s := "%C1.Router") (by simp) ha ha' hr hr' he
    rfl

theorem hierarchicalF_some (n : Name) : (hierarchicalRule.filter.run n).isSome = true ↔
    ∃ a x y z, n = a ++ [cKey, x, y, z] ∧ Free ["KEY"] a := by
  show (run [noneOf ["KEY"], one "KEY", anyOne, anyOne, anyOne] n).isSome = true ↔ _
  rw [run_isSome]
  simp only [splits_noneOf, splits_one', splits_any, splits_nil, is_iff lit_key]
  constructor
  · rintro ⟨g, a, _, _, rfl, ha, ⟨_, _, rfl, rfl, x, _, rfl, y, _, rfl, z, _, rfl, rfl, rfl⟩, rfl⟩
    exact ⟨a, x, y, z, rfl, ha⟩
  · rintro ⟨a, x, y, z, rfl, ha⟩
    exact ⟨_, a, _, _, rfl, ha, ⟨_, _, rfl, rfl, x, _, rfl, y, _, rfl, z, _, rfl, rfl, rfl⟩, rfl⟩

theorem commandF_some (n : Name) : (commandRule.filter.run n).isSome = true ↔
    ∃ v x y z, n = [Comp.str "localhost", cNlsr, Comp.str "prefix-update", v, x, y, z] ∧ (v = Comp.str "advertise" ∨ v = Comp.str "withdraw") := by
  show (run [one "localhost", one "nlsr", one "prefix-update", among ["advertise", "withdraw"], anyOne, anyOne, anyOne] n).isSome = true ↔ _
  rw [run_isSome]
  simp only [splits_one', splits_among, splits_any, splits_nil, is_iff lit_nlsr, is_iff lit_localhost, is_iff lit_update, List.mem_cons,
    List.not_mem_nil, or_false, exists_eq_or_imp, exists_eq_left, is_iff lit_advertise, is_iff lit_withdraw]
  constructor
  · rintro ⟨g, _, _, rfl, rfl, _, _, rfl, rfl, _, _, rfl, rfl, v, _, rfl, hv, x, _, rfl, y, _, rfl, z, _, rfl, rfl, rfl⟩
    exact ⟨v, x, y, z, rfl, hv⟩
  · rintro ⟨v, x, y, z, rfl, hv⟩
    exact ⟨_, _, _, rfl, rfl, _, _, rfl, rfl, _, _, rfl, rfl, v, _, rfl, hv, x, _, rfl, y, _, rfl, z, _, rfl, rfl, rfl⟩

end Nlsr.Schema
