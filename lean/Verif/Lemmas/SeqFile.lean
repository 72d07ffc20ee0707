import Verif.Model.SeqFile
import Verif.Lemmas.Uri
/- Reading the state file back, whole or cut. -/
namespace Nlsr.SeqFile
open Num

/-- All three numbers fit in 64 bits. -/
def Fits (s : Seqs) : Prop := s.name < 2 ^ 64 ∧ s.adj < 2 ^ 64 ∧ s.cor < 2 ^ 64

theorem digit_not_space {c : Char} (h : isDigit c = true) : isSpace c = false := by
  cases hs : isSpace c with
  | false => rfl
  | true =>
    have : ∀ x ∈ [' ', '\t', '\n', '\x0b', '\x0c', '\r'], isDigit x = false := by decide
    unfold isSpace at hs
    rw [this c (by simpa using hs)] at h
    cases h

theorem dropWhile_head {p : Char → Bool} {c : Char} {t : Text} (h : p c = false) : (c :: t).dropWhile p = c :: t := by
  simp [List.dropWhile, h]

/-- A word and the blank after it. -/
theorem word_eq {sp w : Text} (hs : ∀ c ∈ sp, isSpace c = true) (hw : ∀ c ∈ w, isSpace c = false) (hne : w ≠ [])
    (t : Text) (ht : t = [] ∨ ∃ q, t = ' ' :: q) : In.word ⟨sp ++ (w ++ t), true⟩ = ⟨t, true⟩ := by
  have h1 : (sp ++ (w ++ t)).dropWhile isSpace = w ++ t := by
    rw [List.dropWhile_append_of_pos hs]
    cases w with
    | nil => exact absurd rfl hne
    | cons c w => exact dropWhile_head (hw c (by simp))
  have h2 : (w ++ t).dropWhile (fun c => !isSpace c) = t := by
    rw [List.dropWhile_append_of_pos (by intro x hx; rw [hw x hx]; rfl)]
    rcases ht with rfl | ⟨q, rfl⟩
    · rfl
    · exact dropWhile_head (by decide)
  unfold In.word
  rw [h1]
  cases w with
  | nil => exact absurd rfl hne
  | cons c w =>
    show In.mk (((c :: w) ++ t).dropWhile fun c => !isSpace c) true = _
    rw [h2]

/-- Digits are read as a number, up to something that is no digit. -/
theorem readInt_digits {ds t : Text} (hd : ∀ c ∈ ds, isDigit c = true) (hne : ds ≠ []) (ht : t = [] ∨ ∃ q, t = '\n' :: q) :
    readInt (ds ++ t) = some (false, decOf ds, t) := by
  have hsign : ∀ c : Char, isDigit c = true → c ≠ '-' ∧ c ≠ '+' := by
    intro c hc
    constructor
    · rintro rfl; exact absurd hc (by decide)
    · rintro rfl; exact absurd hc (by decide)
  cases ds with
  | nil => exact absurd rfl hne
  | cons c ds =>
    have hc := hd c (by simp)
    unfold readInt
    have h1 : ((c :: ds) ++ t).dropWhile isSpace = (c :: ds) ++ t := dropWhile_head (digit_not_space hc)
    have h2 : sign ((c :: ds) ++ t) = (false, (c :: ds) ++ t) := by
      unfold sign
      split
      · rename_i e; exact absurd (List.cons.inj e).1 (hsign c hc).1
      · rename_i e; exact absurd (List.cons.inj e).1 (hsign c hc).2
      · rfl
    rw [h1, h2]
    dsimp only
    have h3 : ((c :: ds) ++ t).takeWhile isDigit = c :: ds := by
      rw [List.takeWhile_append_of_pos hd]
      rcases ht with rfl | ⟨q, rfl⟩
      · simp
      · have : ('\n' :: q).takeWhile isDigit = [] := by
          rw [List.takeWhile_cons, if_neg (by decide)]
        rw [this]; simp
    have h4 : ((c :: ds) ++ t).dropWhile isDigit = t := by
      rw [List.dropWhile_append_of_pos hd]
      rcases ht with rfl | ⟨q, rfl⟩
      · rfl
      · exact dropWhile_head (by decide)
    rw [h3, h4]
    rw [if_neg (by simp)]

theorem number_eq {ds t : Text} (hd : ∀ c ∈ ds, isDigit c = true) (hne : ds ≠ []) (ht : t = [] ∨ ∃ q, t = '\n' :: q)
    (hlt : decOf ds < 2 ^ 64) (old : Nat) : In.number ⟨' ' :: (ds ++ t), true⟩ old = (⟨t, true⟩, decOf ds) := by
  have h1 : (' ' :: (ds ++ t)).dropWhile isSpace = ds ++ t := by
    rw [List.dropWhile_cons_of_pos (by decide)]
    cases ds with
    | nil => exact absurd rfl hne
    | cons c ds => exact dropWhile_head (digit_not_space (hd c (by simp)))
  unfold In.number
  rw [h1]
  have hne' : ds ++ t ≠ [] := by
    cases ds with
    | nil => exact absurd rfl hne
    | cons c ds => simp
  cases hx : ds ++ t with
  | nil => exact absurd hx hne'
  | cons c q =>
    show (match readInt (c :: q) with
      | none => _
      | some (neg, n, q') => _) = _
    rw [← hx, readInt_digits hd hne ht]
    show (if decOf ds < 2 ^ 64 then _ else _) = _
    rw [if_pos hlt]
    rfl

theorem decOf_append (a b : Text) : decOf a ≤ decOf (a ++ b) := by
  unfold decOf
  rw [List.foldl_append]
  generalize List.foldl (fun a c => a * 10 + (Uri.decVal c).getD 0) 0 a = n
  induction b generalizing n with
  | nil => exact Nat.le_refl _
  | cons c b ih =>
    rw [List.foldl_cons]
    refine Nat.le_trans ?_ (ih _)
    omega

theorem decOf_take (k n : Nat) : decOf ((Uri.dec n).take k) ≤ n := by
  have := decOf_append ((Uri.dec n).take k) ((Uri.dec n).drop k)
  rw [List.take_append_drop, Uri.decOf_dec] at this
  exact this

/-- A stream from which nothing more can be read. -/
def In.Spent (s : In) : Prop := s.ok = false ∨ s.rest = []

theorem Spent.word {s : In} (h : s.Spent) : s.word.Spent := by
  unfold In.word
  rcases h with h | h
  · rw [h]; exact Or.inl h
  · rw [h]
    cases s.ok with
    | false => exact Or.inr (by simp [h])
    | true => exact Or.inl rfl

theorem Spent.number {s : In} (h : s.Spent) (old : Nat) : (s.number old).1.Spent ∧ (s.number old).2 = old := by
  unfold In.number
  rcases h with h | h
  · rw [h]; exact ⟨Or.inl h, rfl⟩
  · rw [h]
    cases s.ok with
    | false => exact ⟨Or.inr (by simp [h]), rfl⟩
    | true => exact ⟨Or.inl rfl, rfl⟩

/-- A field of the file: a word without blanks. -/
def Label (w : Text) : Prop := w ≠ [] ∧ ∀ c ∈ w, isSpace c = false

/-- Reading one line that may be cut: the number is read as written and the stream stands behind it, or the file
ends in this line, and the number is not higher than the one written. -/
theorem field_cut {sp w : Text} (hs : ∀ c ∈ sp, isSpace c = true) (hw : Label w) {n : Nat} (hn : n < 2 ^ 64)
    {t : Text} (ht : t = [] ∨ ∃ q, t = '\n' :: q) (k : Nat) :
    (∃ j, In.number (In.word ⟨(sp ++ (w ++ (' ' :: (Uri.dec n ++ t)))).take k, true⟩) 0 = (⟨t.take j, true⟩, n) ∧
      k = (sp ++ (w ++ (' ' :: Uri.dec n))).length + j) ∨
    (k < (sp ++ (w ++ (' ' :: Uri.dec n))).length ∧
      (In.number (In.word ⟨(sp ++ (w ++ (' ' :: (Uri.dec n ++ t)))).take k, true⟩) 0).1.Spent ∧
      (In.number (In.word ⟨(sp ++ (w ++ (' ' :: (Uri.dec n ++ t)))).take k, true⟩) 0).2 ≤ n) := by
  have hlen : (sp ++ (w ++ (' ' :: Uri.dec n))).length = sp.length + w.length + 1 + (Uri.dec n).length := by
    simp; omega
  rw [hlen]
  have htake : ∀ j, (∃ q, t.take j = '\n' :: q) ∨ t.take j = [] := by
    intro j
    rcases ht with rfl | ⟨q, rfl⟩
    · right; simp
    · cases j with
      | zero => right; rfl
      | succ j => left; exact ⟨_, rfl⟩
  by_cases h1 : k ≤ sp.length
  · -- nothing but white space
    right
    refine ⟨by omega, ?_⟩
    have e : (sp ++ (w ++ (' ' :: (Uri.dec n ++ t)))).take k = sp.take k := by
      rw [List.take_append_of_le_length h1]
    have hsp : (sp.take k).dropWhile isSpace = [] := dropWhile_all (fun x hx => hs x (List.mem_of_mem_take hx))
    have : (In.word ⟨sp.take k, true⟩).Spent := by
      unfold In.word
      rw [hsp]
      exact Or.inl rfl
    rw [e]
    have := Spent.number this 0
    exact ⟨this.1, by rw [this.2]; exact Nat.zero_le _⟩
  · have e1 : (sp ++ (w ++ (' ' :: (Uri.dec n ++ t)))).take k =
        sp ++ (w ++ (' ' :: (Uri.dec n ++ t))).take (k - sp.length) := by
      rw [List.take_append, List.take_of_length_le (by omega)]
    rw [e1]
    by_cases h2 : k ≤ sp.length + w.length
    · right
      refine ⟨by omega, ?_⟩
      have e2 : (w ++ (' ' :: (Uri.dec n ++ t))).take (k - sp.length) = w.take (k - sp.length) ++ [] := by
        rw [List.take_append_of_le_length (by omega), List.append_nil]
      rw [e2]
      have hne : w.take (k - sp.length) ≠ [] := by
        intro e
        have := congrArg List.length e
        rw [List.length_take, List.length_nil] at this
        have hw0 : 0 < w.length := List.length_pos_iff.2 hw.1
        omega
      rw [word_eq hs (fun c hc => hw.2 c (List.mem_of_mem_take hc)) hne [] (Or.inl rfl)]
      have := Spent.number (s := ⟨[], true⟩) (Or.inr rfl) 0
      exact ⟨this.1, by rw [this.2]; exact Nat.zero_le _⟩
    · have e2 : (w ++ (' ' :: (Uri.dec n ++ t))).take (k - sp.length) =
          w ++ (' ' :: (Uri.dec n ++ t).take (k - sp.length - w.length - 1)) := by
        rw [List.take_append, List.take_of_length_le (by omega)]
        congr 1
        cases hk : k - sp.length - w.length with
        | zero => omega
        | succ m => rfl
      rw [e2, word_eq hs hw.2 hw.1 _ (Or.inr ⟨_, rfl⟩)]
      by_cases h3 : sp.length + w.length + 1 + (Uri.dec n).length ≤ k
      · left
        refine ⟨k - (sp.length + w.length + 1 + (Uri.dec n).length), ?_, by omega⟩
        have e3 : (Uri.dec n ++ t).take (k - sp.length - w.length - 1) =
            Uri.dec n ++ t.take (k - (sp.length + w.length + 1 + (Uri.dec n).length)) := by
          rw [List.take_append, List.take_of_length_le (by omega)]
          congr 2
          omega
        rw [e3, number_eq (isDigit_dec n) (Uri.dec_ne n) ((htake _).symm.imp id id) (by rw [Uri.decOf_dec]; exact hn),
          Uri.decOf_dec]
      · right
        refine ⟨by omega, ?_⟩
        have e3 : (Uri.dec n ++ t).take (k - sp.length - w.length - 1) =
            (Uri.dec n).take (k - sp.length - w.length - 1) ++ [] := by
          rw [List.take_append_of_le_length (by omega), List.append_nil]
        rw [e3]
        by_cases h4 : (Uri.dec n).take (k - sp.length - w.length - 1) = []
        · rw [h4]
          exact ⟨Or.inl rfl, Nat.zero_le _⟩
        · have hle := decOf_take (k - sp.length - w.length - 1) n
          rw [number_eq (fun c hc => isDigit_dec n c (List.mem_of_mem_take hc)) h4 (Or.inl rfl) (by omega)]
          exact ⟨Or.inr rfl, hle⟩

end Nlsr.SeqFile
