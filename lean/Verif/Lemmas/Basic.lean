import Verif.Model.Basic
namespace Nlsr

theorem setInsert_perm_of_noeqv {α : Type} {lt : α → α → Bool} {x : α} :
    ∀ {l : List α}, (∀ y ∈ l, lt x y = true ∨ lt y x = true) →
      (setInsert lt x l).Perm (x :: l)
  | [], _ => by simp [setInsert]
  | y :: ys, h => by
    unfold setInsert
    split
    · exact List.Perm.refl _
    · split
      · have ih := setInsert_perm_of_noeqv (lt := lt) (x := x) (l := ys)
          (fun z hz => h z (List.mem_cons_of_mem _ hz))
        exact (List.Perm.cons y ih).trans (List.Perm.swap x y ys)
      · rename_i h1 h2
        rcases h y List.mem_cons_self with h3 | h3
        · exact absurd h3 h1
        · exact absurd h3 h2

theorem setInsert_sorted {α : Type} {lt : α → α → Bool}
    (htrans : ∀ a b c, lt a b = true → lt b c = true → lt a c = true) {x : α} :
    ∀ {l : List α}, l.Pairwise (fun a b => lt a b = true) →
      (setInsert lt x l).Pairwise (fun a b => lt a b = true)
  | [], _ => by simp [setInsert]
  | y :: ys, h => by
    unfold setInsert
    split
    · rename_i hxy
      refine List.Pairwise.cons ?_ h
      intro z hz
      rcases List.mem_cons.1 hz with rfl | hz
      · exact hxy
      · exact htrans _ _ _ hxy ((List.pairwise_cons.1 h).1 z hz)
    · split
      · rename_i hyx
        have ih := setInsert_sorted htrans (x := x) (List.pairwise_cons.1 h).2
        refine List.Pairwise.cons ?_ ih
        intro z hz
        have hsub : ∀ {l : List α} {z}, z ∈ setInsert lt x l → z = x ∨ z ∈ l := by
          intro l
          induction l with
          | nil => intro z hz; simp [setInsert] at hz; exact Or.inl hz
          | cons w ws ihw =>
            intro z hz
            unfold setInsert at hz
            split at hz
            · simpa using hz
            · split at hz
              · rcases List.mem_cons.1 hz with rfl | hz
                · simp
                · rcases ihw hz with h | h
                  · exact Or.inl h
                  · exact Or.inr (List.mem_cons_of_mem _ h)
              · exact Or.inr hz
        rcases hsub hz with rfl | hz
        · exact hyx
        · exact (List.pairwise_cons.1 h).1 z hz
      · exact h


theorem mem_setInsert_imp {α : Type} {lt : α → α → Bool} {x z : α} :
    ∀ {l : List α}, z ∈ setInsert lt x l → z = x ∨ z ∈ l
  | [], h => by simp [setInsert] at h; exact Or.inl h
  | y :: ys, h => by
    unfold setInsert at h
    split at h
    · simpa using h
    · split at h
      · rcases List.mem_cons.1 h with rfl | h
        · simp
        · rcases mem_setInsert_imp h with h | h
          · exact Or.inl h
          · exact Or.inr (List.mem_cons_of_mem _ h)
      · exact Or.inr h

/-! ### Name order -/

theorem Comp.key_inj {a b : Comp} (h : a.key = b.key) : a = b := by
  cases a with
  | mk ta va =>
    cases b with
    | mk tb vb =>
      simp only [Comp.key, List.cons.injEq] at h
      obtain ⟨h1, -, h3⟩ := h
      have : va = vb := (List.map_inj_right (fun x y h => UInt8.toNat_inj.1 h)).1 h3
      rw [h1, this]

theorem Name.key_inj {a b : Name} (h : a.map Comp.key = b.map Comp.key) : a = b :=
  (List.map_inj_right (fun _ _ h => Comp.key_inj h)).1 h

theorem Name.lt_irrefl (a : Name) : Name.lt a a = false := by
  simp only [Name.lt, decide_eq_false_iff_not]
  exact List.lt_irrefl _

theorem Name.lt_trans {a b c : Name} (h1 : Name.lt a b = true) (h2 : Name.lt b c = true) :
    Name.lt a c = true := by
  simp only [Name.lt, decide_eq_true_eq] at *
  exact List.lt_trans h1 h2

theorem Name.lt_asymm {a b : Name} (h : Name.lt a b = true) : Name.lt b a = false := by
  cases h' : Name.lt b a
  · rfl
  · have := Name.lt_trans h h'; rw [Name.lt_irrefl] at this; cases this

theorem Name.lt_or_gt {a b : Name} (h : a ≠ b) : Name.lt a b = true ∨ Name.lt b a = true := by
  simp only [Name.lt, decide_eq_true_eq]
  by_cases h1 : a.map Comp.key < b.map Comp.key
  · exact Or.inl h1
  · right
    rw [List.not_lt] at h1
    by_cases h2 : b.map Comp.key < a.map Comp.key
    · exact h2
    · rw [List.not_lt] at h2
      exact absurd (Name.key_inj (List.le_antisymm h2 h1)) h

end Nlsr
