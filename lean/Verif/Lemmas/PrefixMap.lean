import Verif.Lemmas.Basic
import Verif.Model.PrefixMap
/- The name/cost map of a Name LSA as a finite map. -/
namespace Nlsr.PrefixMap

def Sorted (l : PrefixMap) : Prop := l.Pairwise (fun a b => Name.lt a.name b.name = true)

/-- Cost of a name. -/
def get (l : PrefixMap) (n : Name) : Option (Ext Rat) := (l.find? (fun q => q.name == n)).map (·.cost)

theorem eq_of_not_lt {a b : Name} (h1 : ¬ Name.lt a b = true) (h2 : ¬ Name.lt b a = true) : a = b := by
  refine Classical.byContradiction fun hne => ?_
  rcases Name.lt_or_gt hne with h3 | h3
  · exact absurd h3 h1
  · exact absurd h3 h2

theorem mem_insert_imp {l : PrefixMap} {p q : PrefixInfo} (h : q ∈ insert l p) : q = p ∨ q ∈ l := by
  induction l with
  | nil => simpa [insert] using h
  | cons x xs ih =>
    unfold insert at h
    split at h
    · simpa using h
    · split at h
      · rcases List.mem_cons.1 h with h | h
        · exact Or.inr (by simp [h])
        · rcases ih h with h | h
          · exact Or.inl h
          · exact Or.inr (by simp [h])
      · rcases List.mem_cons.1 h with h | h
        · exact Or.inl h
        · exact Or.inr (by simp [h])

theorem insert_sorted {l : PrefixMap} (p : PrefixInfo) (h : Sorted l) : Sorted (insert l p) := by
  induction l with
  | nil => simp [insert, Sorted]
  | cons x xs ih =>
    unfold Sorted at h ih ⊢
    rw [List.pairwise_cons] at h
    unfold insert
    split
    · rename_i h1
      rw [List.pairwise_cons, List.pairwise_cons]
      refine ⟨?_, h⟩
      intro q hq
      rcases List.mem_cons.1 hq with rfl | hq
      · exact h1
      · exact Name.lt_trans h1 (h.1 q hq)
    · split
      · rename_i h1 h2
        rw [List.pairwise_cons]
        refine ⟨fun q hq => ?_, ih h.2⟩
        rcases mem_insert_imp hq with rfl | hq
        · exact h2
        · exact h.1 q hq
      · rename_i h1 h2
        have he : p.name = x.name := eq_of_not_lt h1 h2
        rw [List.pairwise_cons]
        exact ⟨fun q hq => by rw [he]; exact h.1 q hq, h.2⟩

theorem foldl_insert_sorted (l : List PrefixInfo) {acc : PrefixMap} (h : Sorted acc) :
    Sorted (l.foldl insert acc) := by
  induction l generalizing acc with
  | nil => exact h
  | cons x xs ih => exact ih (insert_sorted x h)

theorem ofList_sorted (l : List PrefixInfo) : Sorted (ofList l) := foldl_insert_sorted l List.Pairwise.nil

theorem insert_append (l : PrefixMap) (p : PrefixInfo)
    (h : ∀ q ∈ l, Name.lt q.name p.name = true) : insert l p = l ++ [p] := by
  induction l with
  | nil => rfl
  | cons q qs ih =>
    have h1 := h q (by simp)
    have h2 : Name.lt p.name q.name = false := Name.lt_asymm h1
    simp [insert, h1, h2, ih (fun q hq => h q (by simp [hq]))]

theorem foldl_insert_eq (l : List PrefixInfo) : ∀ acc : PrefixMap, Sorted (acc ++ l) →
    l.foldl insert acc = acc ++ l := by
  induction l with
  | nil => intro acc _; simp
  | cons x xs ih =>
    intro acc h
    have hx : ∀ q ∈ acc, Name.lt q.name x.name = true := by
      intro q hq
      exact (List.pairwise_append.1 h).2.2 q hq x (by simp)
    rw [List.foldl_cons, insert_append acc x hx, ih (acc ++ [x]) (by simpa using h)]
    simp

theorem ofList_of_sorted {l : PrefixMap} (h : Sorted l) : ofList l = l := by
  unfold ofList
  rw [foldl_insert_eq l [] (by simpa using h)]
  simp

theorem get_insert {l : PrefixMap} (p : PrefixInfo) (h : Sorted l) (n : Name) :
    get (insert l p) n = if p.name = n then some p.cost else get l n := by
  induction l with
  | nil =>
    simp only [insert, get, List.find?_cons, List.find?_nil, Option.map_none]
    by_cases hn : p.name = n
    · simp [hn]
    · have h4 : (p.name == n) = false := by simpa using hn
      simp [hn, h4]
  | cons x xs ih =>
    unfold Sorted at h
    rw [List.pairwise_cons] at h
    have ih := ih h.2
    unfold insert
    split
    · simp only [get, List.find?_cons]
      by_cases hn : p.name = n
      · simp [hn]
      · have h4 : (p.name == n) = false := by simpa using hn
        simp [hn, h4]
    · split
      · rename_i h1 h2
        simp only [get, List.find?_cons] at ih ⊢
        by_cases hx : x.name = n
        · have : p.name ≠ n := by
            intro hp; rw [hp, ← hx, Name.lt_irrefl] at h2; exact absurd h2 (by simp)
          simp [hx, this]
        · have : (x.name == n) = false := by simpa using hx
          simp only [this]
          exact ih
      · rename_i h1 h2
        have he : p.name = x.name := eq_of_not_lt h1 h2
        simp only [get, List.find?_cons]
        by_cases hn : p.name = n
        · simp [hn]
        · have h3 : (x.name == n) = false := by rw [← he]; simpa using hn
          have h4 : (p.name == n) = false := by simpa using hn
          simp [hn, h3, h4]

theorem get_foldl_insert (l : List PrefixInfo) : ∀ {acc : PrefixMap}, Sorted acc → ∀ n,
    (∀ q ∈ l, q.name ≠ n) → get (l.foldl insert acc) n = get acc n := by
  induction l with
  | nil => intro acc _ n _; rfl
  | cons x xs ih =>
    intro acc h n hn
    rw [List.foldl_cons, ih (insert_sorted x h) n (fun q hq => hn q (by simp [hq])), get_insert x h,
      if_neg (hn x (by simp))]

theorem get_some {l : PrefixMap} {n : Name} {c : Ext Rat} (h : get l n = some c) : (⟨n, c⟩ : PrefixInfo) ∈ l := by
  simp only [get, Option.map_eq_some_iff] at h
  obtain ⟨q, hq, rfl⟩ := h
  have := List.find?_some hq
  simp only [beq_iff_eq] at this
  subst this
  exact List.mem_of_find?_eq_some hq

theorem get_none {l : PrefixMap} {n : Name} (h : get l n = none) : ∀ q ∈ l, q.name ≠ n := by
  simp only [get, Option.map_eq_none_iff, List.find?_eq_none, beq_iff_eq] at h
  exact h

theorem get_mem {l : PrefixMap} (hs : Sorted l) {q : PrefixInfo} (h : q ∈ l) : get l q.name = some q.cost := by
  induction l with
  | nil => simp at h
  | cons x xs ih =>
    unfold Sorted at hs
    rw [List.pairwise_cons] at hs
    simp only [get, List.find?_cons]
    rcases List.mem_cons.1 h with rfl | h
    · simp
    · have h1 := hs.1 q h
      have : (x.name == q.name) = false := by
        simp only [beq_eq_false_iff_ne]
        intro he; rw [he, Name.lt_irrefl] at h1; exact absurd h1 (by simp)
      simp only [this]
      exact ih hs.2 h

theorem erase_sorted {l : PrefixMap} (n : Name) (h : Sorted l) : Sorted (erase l n) :=
  List.Pairwise.filter _ h

theorem get_erase (l : PrefixMap) (m n : Name) :
    get (erase l m) n = if n = m then none else get l n := by
  induction l with
  | nil => simp [erase, get]
  | cons x xs ih =>
    unfold erase get at ih ⊢
    rw [List.filter_cons]
    by_cases hx : x.name = m
    · have : (!(x.name == m)) = false := by simp [hx]
      simp only [this]
      rw [if_neg (by simp)]
      rw [ih]
      by_cases hn : n = m
      · simp [hn]
      · rw [if_neg hn, if_neg hn, List.find?_cons]
        have : (x.name == n) = false := by simp only [beq_eq_false_iff_ne]; intro h; exact hn (by rw [← h, hx])
        rw [this]
    · have : (!(x.name == m)) = true := by simp [hx]
      rw [if_pos this, List.find?_cons, List.find?_cons]
      by_cases hn : x.name = n
      · have h1 : n ≠ m := by rw [← hn]; exact hx
        simp [hn, h1]
      · have : (x.name == n) = false := by simpa using hn
        simp only [this]
        exact ih

theorem foldl_erase_sorted (r : List PrefixInfo) : ∀ {l : PrefixMap}, Sorted l →
    Sorted (r.foldl (fun m p => erase m p.name) l) := by
  induction r with
  | nil => intro l h; exact h
  | cons x xs ih => intro l h; exact ih (erase_sorted x.name h)

theorem get_foldl_erase (r : List PrefixInfo) : ∀ (l : PrefixMap) (n : Name),
    get (r.foldl (fun m p => erase m p.name) l) n = if (∃ q ∈ r, q.name = n) then none else get l n := by
  induction r with
  | nil => intro l n; simp
  | cons x xs ih =>
    intro l n
    rw [List.foldl_cons, ih, get_erase]
    by_cases h1 : ∃ q ∈ xs, q.name = n
    · have : ∃ q ∈ x :: xs, q.name = n := by obtain ⟨q, h, h'⟩ := h1; exact ⟨q, by simp [h], h'⟩
      rw [if_pos h1, if_pos this]
    · rw [if_neg h1]
      by_cases h2 : n = x.name
      · rw [if_pos h2, if_pos ⟨x, by simp, h2.symm⟩]
      · rw [if_neg h2, if_neg]
        rintro ⟨q, hq, hn⟩
        rcases List.mem_cons.1 hq with rfl | hq
        · exact h2 hn.symm
        · exact h1 ⟨q, hq, hn⟩

theorem get_foldl_insert_mem (l : List PrefixInfo) : ∀ {acc : PrefixMap}, Sorted acc →
    l.Pairwise (fun a b => Name.lt a.name b.name = true) → ∀ q ∈ l,
    get (l.foldl insert acc) q.name = some q.cost := by
  induction l with
  | nil => intro acc _ _ q hq; simp at hq
  | cons x xs ih =>
    intro acc h hp q hq
    rw [List.pairwise_cons] at hp
    rw [List.foldl_cons]
    rcases List.mem_cons.1 hq with rfl | hq
    · rw [get_foldl_insert xs (insert_sorted q h), get_insert q h, if_pos rfl]
      intro r hr he
      have := hp.1 r hr
      rw [he, Name.lt_irrefl] at this
      exact absurd this (by simp)
    · exact ih (insert_sorted x h) hp.2 q hq

theorem ext {a b : PrefixMap} (ha : Sorted a) (hb : Sorted b) (h : ∀ n, get a n = get b n) : a = b := by
  have hmem : ∀ q, q ∈ a ↔ q ∈ b := by
    intro q
    constructor
    · intro hq
      have := get_mem ha hq
      rw [h] at this
      exact get_some this
    · intro hq
      have := get_mem hb hq
      rw [← h] at this
      exact get_some this
  have hirr : ∀ l : PrefixMap, Sorted l → l.Nodup := by
    intro l hl
    refine List.Pairwise.imp ?_ hl
    intro x y hxy he
    rw [he, Name.lt_irrefl] at hxy
    exact absurd hxy (by simp)
  have hperm : a.Perm b := (List.perm_ext_iff_of_nodup (hirr a ha) (hirr b hb)).2 hmem
  refine List.Perm.eq_of_pairwise ?_ ha hb hperm
  intro x y _ _ h1 h2
  have := Name.lt_asymm h1
  rw [h2] at this
  exact absurd this (by simp)

end Nlsr.PrefixMap
