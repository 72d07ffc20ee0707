import Verif.Spec.Graph
namespace Nlsr

namespace Path
variable {V : Type} {L : V → V → Int → Prop}

theorem trans {a b c : V} {k k' : Int} (h : Path L a b k) (h' : Path L b c k') :
    Path L a c (k + k') := by
  induction h' with
  | nil => simpa using h
  | snoc _ e ih => rw [← Int.add_assoc]; exact Path.snoc ih e

theorem single {a b : V} {w : Int} (e : L a b w) : Path L a b w := by
  have := Path.snoc (Path.nil (L := L) a) e
  simpa using this

theorem nonneg (hL : ∀ a b w, L a b w → 0 ≤ w) {a b : V} {k : Int} (h : Path L a b k) : 0 ≤ k := by
  induction h with
  | nil => exact Int.le_refl 0
  | snoc _ e ih => have := hL _ _ _ e; omega

theorem mono {L' : V → V → Int → Prop} (hLL : ∀ a b w, L a b w → L' a b w) {a b : V} {k : Int}
    (h : Path L a b k) : Path L' a b k := by
  induction h with
  | nil => exact Path.nil _
  | snoc _ e ih => exact Path.snoc ih (hLL _ _ _ e)

theorem map {W : Type} {L' : W → W → Int → Prop} (f : V → W)
    (hf : ∀ a b w, L a b w → L' (f a) (f b) w) {a b : V} {k : Int}
    (h : Path L a b k) : Path L' (f a) (f b) k := by
  induction h with
  | nil => exact Path.nil _
  | snoc _ e ih => exact Path.snoc ih (hf _ _ _ e)
end Path

/-- First edge of a walk that goes somewhere else. -/
theorem Path.first_edge {V : Type} {L : V → V → Int → Prop} {a b : V} {k : Int}
    (h : Path L a b k) : (a = b ∧ k = 0) ∨ ∃ n w k', L a n w ∧ Path L n b k' ∧ k = w + k' := by
  induction h with
  | nil => exact Or.inl ⟨rfl, rfl⟩
  | @snoc b c k w hp e ih =>
    rcases ih with ⟨rfl, rfl⟩ | ⟨n, w', k', h1, h2, rfl⟩
    · exact Or.inr ⟨c, w, 0, e, Path.nil _, by omega⟩
    · exact Or.inr ⟨n, w', k' + w, h1, Path.snoc h2 e, by omega⟩

theorem Shortest.unique {V : Type} {L : V → V → Int → Prop} {a b : V} {k k' : Int}
    (h : Shortest L a b k) (h' : Shortest L a b k') : k = k' :=
  Int.le_antisymm (h.2 _ h'.1) (h'.2 _ h.1)

theorem Shortest.exists {V : Type} {L : V → V → Int → Prop} (hL : ∀ a b w, L a b w → 0 ≤ w)
    {a b : V} {k : Int} (h : Path L a b k) : ∃ k', k' ≤ k ∧ Shortest L a b k' := by
  have : ∀ (n : Nat) (k : Int), Path L a b k → k.toNat ≤ n → ∃ k', k' ≤ k ∧ Shortest L a b k' := by
    intro n
    induction n with
    | zero =>
      intro k h hn
      refine ⟨k, Int.le_refl _, h, fun k' h' => ?_⟩
      have := h.nonneg hL; have := h'.nonneg hL; omega
    | succ n ih =>
      intro k h hn
      by_cases hk : ∃ k', Path L a b k' ∧ k' < k
      · obtain ⟨k', h1, h2⟩ := hk
        have := h1.nonneg hL
        obtain ⟨k'', h3, h4⟩ := ih k' h1 (by omega)
        exact ⟨k'', by omega, h4⟩
      · refine ⟨k, Int.le_refl _, h, fun k' h' => ?_⟩
        exact Int.not_lt.1 (fun hlt => hk ⟨k', h', hlt⟩)
  exact this k.toNat k h (Nat.le_refl _)

/-- A walk leaving `s` for `d ≠ s` is no cheaper than one that leaves `s` once and never returns. -/
theorem Path.avoid {V : Type} {L : V → V → Int → Prop} (hL : ∀ a b w, L a b w → 0 ≤ w)
    {s d : V} {k : Int} (h : Path L s d k) (hd : d ≠ s) :
    ∃ n w k', n ≠ s ∧ L s n w ∧ Path (Avoid s L) n d k' ∧ w + k' ≤ k := by
  have key : d = s ∨ ∃ n w k', n ≠ s ∧ L s n w ∧ Path (Avoid s L) n d k' ∧ w + k' ≤ k := by
    clear hd
    induction h with
    | nil => exact Or.inl rfl
    | @snoc b c k w hp e ih =>
      have hw := hL _ _ _ e
      by_cases hc : c = s
      · exact Or.inl hc
      · right
        rcases ih with rfl | ⟨n, w', k', h1, h2, h3, h4⟩
        · have := hp.nonneg hL
          exact ⟨c, w, 0, hc, e, Path.nil _, by omega⟩
        · by_cases hb : b = s
          · subst hb
            have := hp.nonneg hL
            exact ⟨c, w, 0, hc, e, Path.nil _, by omega⟩
          · exact ⟨n, w', k' + w, h1, h2, Path.snoc h3 ⟨e, hb, hc⟩, by omega⟩
  rcases key with h | h
  · exact absurd h hd
  · exact h

end Nlsr
