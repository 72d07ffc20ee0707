import Verif.Model.NexthopList
import Verif.Lemmas.Basic
/- Helper lemmas about next-hop lists. -/
namespace Nlsr

theorem NextHop.lt_trans' (a b c : NextHop) (h1 : a.lt b = true) (h2 : b.lt c = true) :
    a.lt c = true := by
  simp only [NextHop.lt, decide_eq_true_eq] at *
  rcases h1 with h1 | ⟨h1, h1'⟩ <;> rcases h2 with h2 | ⟨h2, h2'⟩
  · left; omega
  · left; omega
  · left; omega
  · right; exact ⟨by omega, String.lt_trans h1' h2'⟩

theorem NextHop.uriLt_trans' (a b c : NextHop) (h1 : a.uriLt b = true) (h2 : b.uriLt c = true) :
    a.uriLt c = true := by
  simp only [NextHop.uriLt, decide_eq_true_eq] at *
  exact String.lt_trans h1 h2

theorem uri_lt_or_lt {a b : String} (h : a ≠ b) : a < b ∨ b < a := by
  by_cases h1 : a < b
  · exact Or.inl h1
  · by_cases h2 : b < a
    · exact Or.inr h2
    · exact absurd (String.le_antisymm (String.not_lt.1 h2) (String.not_lt.1 h1)) h

/-- A comparator that separates hops with different URIs. -/
structure UriComp (lt : NextHop → NextHop → Bool) : Prop where
  trans : ∀ a b c, lt a b = true → lt b c = true → lt a c = true
  total : ∀ a b, a.uri ≠ b.uri → lt a b = true ∨ lt b a = true

theorem NextHop.lt_uriComp : UriComp NextHop.lt where
  trans := NextHop.lt_trans'
  total := by
    intro a b h
    simp only [NextHop.lt, decide_eq_true_eq]
    rcases Int.lt_trichotomy a.adj b.adj with h1 | h1 | h1
    · exact Or.inl (Or.inl h1)
    · rcases uri_lt_or_lt h with h2 | h2
      · exact Or.inl (Or.inr ⟨h1, h2⟩)
      · exact Or.inr (Or.inr ⟨h1.symm, h2⟩)
    · exact Or.inr (Or.inl h1)

theorem NextHop.uriLt_uriComp : UriComp NextHop.uriLt where
  trans := NextHop.uriLt_trans'
  total := by
    intro a b h
    simp only [NextHop.uriLt, decide_eq_true_eq]
    exact uri_lt_or_lt h

/-- URIs are pairwise distinct. -/
def UriNodup (l : List NextHop) : Prop := (l.map NextHop.uri).Nodup

theorem UriNodup.erase {l : List NextHop} (h : UriNodup l) (x : NextHop) : UriNodup (l.erase x) :=
  (List.Sublist.map _ (List.erase_sublist)).nodup h

theorem UriNodup.eq_of_uri {l : List NextHop} (h : UriNodup l) {a b : NextHop}
    (ha : a ∈ l) (hb : b ∈ l) (hu : a.uri = b.uri) : a = b := by
  induction l with
  | nil => cases ha
  | cons y ys ih =>
    simp only [UriNodup, List.map_cons, List.nodup_cons, List.mem_map, not_exists, not_and] at h
    rcases List.mem_cons.1 ha with ha' | ha' <;> rcases List.mem_cons.1 hb with hb' | hb'
    · rw [ha', hb']
    · subst ha'; exact absurd hu.symm (h.1 b hb')
    · subst hb'; exact absurd hu (h.1 a ha')
    · exact ih h.2 ha' hb'

theorem UriNodup.mem_erase {l : List NextHop} (h : UriNodup l) {x a : NextHop} (hx : x ∈ l) :
    a ∈ l.erase x ↔ a ∈ l ∧ a.uri ≠ x.uri := by
  have hn : l.Nodup := List.Pairwise.of_map _ (fun a b hab => fun e => hab (by rw [e])) h
  rw [hn.mem_erase_iff]
  constructor
  · rintro ⟨h1, h2⟩
    exact ⟨h2, fun hu => h1 (h.eq_of_uri h2 hx hu)⟩
  · rintro ⟨h1, h2⟩
    exact ⟨fun e => h2 (by rw [e]), h1⟩

/-- Membership after `addNextHop`, for lists with distinct URIs. -/
theorem mem_addNextHop {lt} (hc : UriComp lt) {l : List NextHop} (hl : UriNodup l)
    {nh a : NextHop} :
    a ∈ addNextHop lt l nh ↔
      (a ∈ l ∧ (a.uri = nh.uri → a.cost ≤ nh.cost)) ∨
      (a = nh ∧ ∀ b ∈ l, b.uri = nh.uri → nh.cost < b.cost) := by
  unfold addNextHop
  split
  · rename_i hf
    have hne : ∀ b ∈ l, b.uri ≠ nh.uri := by
      intro b hb
      have := List.find?_eq_none.1 hf b hb
      simpa using this
    rw [(setInsert_perm_of_noeqv (fun y hy => hc.total _ _ (hne y hy).symm)).mem_iff,
      List.mem_cons]
    constructor
    · rintro (rfl | h)
      · exact Or.inr ⟨rfl, fun b hb h => absurd h (hne b hb)⟩
      · exact Or.inl ⟨h, fun h' => absurd h' (hne a h)⟩
    · rintro (⟨h, -⟩ | ⟨rfl, -⟩)
      · exact Or.inr h
      · exact Or.inl rfl
  · rename_i it hf
    have hit : it ∈ l := List.mem_of_find?_eq_some hf
    have hu : it.uri = nh.uri := by simpa using List.find?_some hf
    split
    · rename_i hlt
      have hmem := fun a => hl.mem_erase (a := a) hit
      rw [(setInsert_perm_of_noeqv (fun y hy => hc.total _ _ (by
        have := ((hmem y).1 hy).2; rw [hu] at this; exact this.symm))).mem_iff,
        List.mem_cons, hmem]
      constructor
      · rintro (rfl | ⟨h1, h2⟩)
        · refine Or.inr ⟨rfl, fun b hb hbu => ?_⟩
          rw [hl.eq_of_uri hb hit (hbu.trans hu.symm)]; exact hlt
        · exact Or.inl ⟨h1, fun h => absurd (h.trans hu.symm) h2⟩
      · rintro (⟨h1, h2⟩ | ⟨rfl, -⟩)
        · by_cases h : a.uri = nh.uri
          · have : a = it := hl.eq_of_uri h1 hit (h.trans hu.symm)
            subst this
            exact absurd (h2 h) (Rat.not_le.2 hlt)
          · exact Or.inr ⟨h1, fun h' => h (h'.trans hu)⟩
        · exact Or.inl rfl
    · rename_i hlt
      have hle : it.cost ≤ nh.cost := Rat.not_lt.1 hlt
      constructor
      · intro h
        refine Or.inl ⟨h, fun hau => ?_⟩
        rw [hl.eq_of_uri h hit (hau.trans hu.symm)]; exact hle
      · rintro (⟨h, -⟩ | ⟨rfl, h2⟩)
        · exact h
        · exact absurd hle (Rat.not_le.2 (h2 it hit hu))

theorem addNextHop_uriNodup {lt} (hc : UriComp lt) {l : List NextHop} (hl : UriNodup l)
    (nh : NextHop) : UriNodup (addNextHop lt l nh) := by
  unfold addNextHop
  split
  · rename_i hf
    have hne : ∀ b ∈ l, b.uri ≠ nh.uri := by
      intro b hb
      simpa using List.find?_eq_none.1 hf b hb
    unfold UriNodup
    rw [((setInsert_perm_of_noeqv (fun y hy => hc.total _ _ (hne y hy).symm)).map _).nodup_iff]
    simp only [List.map_cons, List.nodup_cons, List.mem_map, not_exists, not_and]
    exact ⟨hne, hl⟩
  · rename_i it hf
    have hit : it ∈ l := List.mem_of_find?_eq_some hf
    have hu : it.uri = nh.uri := by simpa using List.find?_some hf
    split
    · have hmem := fun a => hl.mem_erase (a := a) hit
      have hne : ∀ y ∈ l.erase it, y.uri ≠ nh.uri := fun y hy => hu ▸ ((hmem y).1 hy).2
      unfold UriNodup
      rw [((setInsert_perm_of_noeqv (fun y hy => hc.total _ _ (hne y hy).symm)).map _).nodup_iff]
      simp only [List.map_cons, List.nodup_cons, List.mem_map, not_exists, not_and]
      exact ⟨hne, hl.erase it⟩
    · exact hl

theorem addNextHop_sorted {lt} (hc : UriComp lt) {l : List NextHop}
    (hs : l.Pairwise (fun a b => lt a b = true)) (nh : NextHop) :
    (addNextHop lt l nh).Pairwise (fun a b => lt a b = true) := by
  unfold addNextHop
  split
  · exact setInsert_sorted hc.trans hs
  · split
    · exact setInsert_sorted hc.trans (hs.sublist List.erase_sublist)
    · exact hs

end Nlsr
