import Verif.Lemmas.Print
/- Numbers as they are printed. -/
namespace Nlsr
namespace Print

theorem pow10_zpow (e : Int) : Num.pow10 e = (10 : Rat) ^ e := by
  unfold Num.pow10
  split
  · rename_i h
    rw [show (10 : Rat) ^ e = (10 : Rat) ^ ((e.toNat : Nat) : Int) by rw [Int.toNat_of_nonneg h], Rat.zpow_natCast, Rat.natCast_pow]
    rfl
  · rename_i h
    rw [show (10 : Rat) ^ e = (10 : Rat) ^ (-(((-e).toNat : Nat) : Int)) by rw [Int.toNat_of_nonneg (by omega)]; congr 1; omega,
      Rat.zpow_neg, Rat.zpow_natCast, Rat.natCast_pow, Rat.div_def, Rat.one_mul]
    rfl

theorem pow10_add (a b : Int) : Num.pow10 (a + b) = Num.pow10 a * Num.pow10 b := by
  rw [pow10_zpow, pow10_zpow, pow10_zpow, Rat.zpow_add (by decide)]

theorem pow10_pos (a : Int) : 0 < Num.pow10 a := by
  rw [pow10_zpow]
  exact Rat.zpow_pos (by decide)

theorem pow10_nat (n : Nat) : Num.pow10 n = ((10 ^ n : Nat) : Rat) := by
  unfold Num.pow10
  rw [if_pos (by omega)]
  rfl

theorem pow10_one : Num.pow10 1 = 10 := by decide +kernel
theorem pow10_zero : Num.pow10 0 = 1 := by decide +kernel

/-! ### digits -/

theorem dec_len (n : Nat) : n < 10 ^ (Uri.dec n).length ∧ (0 < n → 10 ^ ((Uri.dec n).length - 1) ≤ n) := by
  induction n using Nat.strongRecOn with
  | ind n ih =>
    unfold Uri.dec
    split
    · rename_i h
      simp only [List.length_singleton]
      exact ⟨by omega, fun h => by omega⟩
    · rename_i h
      obtain ⟨h1, h2⟩ := ih (n / 10) (by omega)
      have h2 := h2 (by omega)
      rw [List.length_append, List.length_singleton]
      have hp : 0 < (Uri.dec (n / 10)).length := List.length_pos_iff.2 (Uri.dec_ne _)
      refine ⟨by rw [Nat.pow_succ]; omega, fun _ => ?_⟩
      rw [Nat.add_sub_cancel]
      have e : (Uri.dec (n / 10)).length = (Uri.dec (n / 10)).length - 1 + 1 := by omega
      rw [e, Nat.pow_succ]
      omega

theorem dec_length_le {n k : Nat} (hk : 0 < k) (h : n < 10 ^ k) : (Uri.dec n).length ≤ k := by
  by_cases hn : 0 < n
  · have h1 := (dec_len n).2 hn
    refine Classical.byContradiction fun hc => ?_
    have : 10 ^ k ≤ 10 ^ ((Uri.dec n).length - 1) := Nat.pow_le_pow_right (by decide) (by omega)
    omega
  · have : n = 0 := by omega
    subst this
    have : (Uri.dec 0).length = 1 := by unfold Uri.dec; rfl
    omega

theorem dec_length_eq {n k : Nat} (h1 : 10 ^ k ≤ n) (h2 : n < 10 ^ (k + 1)) : (Uri.dec n).length = k + 1 := by
  have a := dec_length_le (by omega) h2
  have b := (dec_len n).1
  refine Classical.byContradiction fun hc => ?_
  have : 10 ^ (Uri.dec n).length ≤ 10 ^ k := Nat.pow_le_pow_right (by decide) (by omega)
  omega

theorem dec_mul_ten {n : Nat} (h : 0 < n) : Uri.dec (n * 10) = Uri.dec n ++ ['0'] := by
  conv => lhs; unfold Uri.dec
  rw [if_neg (by omega), Nat.mul_div_cancel _ (by decide), Nat.mul_mod_left]
  rfl

theorem dec_mul_pow {n : Nat} (h : 0 < n) (j : Nat) : Uri.dec (n * 10 ^ j) = Uri.dec n ++ List.replicate j '0' := by
  induction j with
  | zero => simp
  | succ j ih =>
    rw [Nat.pow_succ, ← Nat.mul_assoc, dec_mul_ten (Nat.mul_pos h (Nat.pow_pos (by decide))), ih, List.append_assoc]
    rw [List.replicate_succ', ]

theorem frac_zeros (j : Nat) : frac (List.replicate j '0') = [] := by
  unfold frac
  rw [List.reverse_replicate]
  have : (List.replicate j '0').dropWhile (· == '0') = [] := by
    induction j with
    | zero => rfl
    | succ j ih => rw [List.replicate_succ, List.dropWhile_cons_of_pos (by decide)]; exact ih
  rw [this]
  rfl

/-! ### rounding -/

theorem roundEven_nat (n : Nat) : roundEven (n : Rat) = n := by
  unfold roundEven
  have h : (n : Rat).floor = (n : Int) := Rat.floor_intCast n
  rw [h]
  dsimp only [Int.toNat_natCast]
  rw [if_pos]
  rw [Rat.sub_self]
  decide +kernel

theorem roundEven_near {x : Rat} (hx : 0 ≤ x) : 2 * (roundEven x : Rat) ≤ 2 * x + 1 ∧ 2 * x ≤ 2 * (roundEven x : Rat) + 1 := by
  have h1 := Rat.floor_le x
  have h2 := Rat.lt_floor_add_one x
  have h0 : 0 ≤ x.floor := Rat.le_floor_iff.2 hx
  have e : ((x.floor.toNat : Nat) : Rat) = (x.floor : Rat) := by
    rw [← Rat.intCast_natCast, Int.toNat_of_nonneg h0]
  rw [Rat.intCast_add] at h2
  unfold roundEven
  dsimp only
  rw [e]
  have hs : ((x.floor.toNat + 1 : Nat) : Rat) = (x.floor : Rat) + 1 := by rw [Rat.natCast_add, e]; rfl
  have h3 : ((1 : Int) : Rat) = 1 := rfl
  rw [h3] at h2
  generalize (x.floor : Rat) = f at *
  split
  · rw [e]; constructor <;> grind
  · split
    · rw [hs]; constructor <;> grind
    · split
      · rw [e]; constructor <;> grind
      · rw [hs]; constructor <;> grind

theorem roundEven_ge {x : Rat} {n : Nat} (h : (n : Rat) ≤ x) : n ≤ roundEven x := by
  have hx : (n : Int) ≤ x.floor := Rat.le_floor_iff.2 (by rw [Rat.intCast_natCast]; exact h)
  have : n ≤ x.floor.toNat := by omega
  unfold roundEven
  dsimp only
  split
  · exact this
  · split
    · omega
    · split <;> omega

theorem roundEven_le {x : Rat} {n : Nat} (h0 : 0 ≤ x) (h : x < (n : Rat)) : roundEven x ≤ n := by
  have hx : x.floor < (n : Int) := Rat.floor_lt_iff.2 (by rw [Rat.intCast_natCast]; exact h)
  have h1 : 0 ≤ x.floor := Rat.le_floor_iff.2 h0
  have : x.floor.toNat + 1 ≤ n := by omega
  unfold roundEven
  dsimp only
  split
  · omega
  · split
    · omega
    · split <;> omega

/-! ### the exponent -/

theorem below_ok : ∀ {fuel : Nat} {q : Rat}, q < 1 → 1 ≤ q * Num.pow10 fuel → 1 ≤ fuel →
    1 ≤ q * Num.pow10 (below fuel q) ∧ q * Num.pow10 (below fuel q) < 10
  | 0, q, h1, h2, h0 => by omega
  | fuel + 1, q, h1, h2, _ => by
    unfold below
    split
    · rename_i h
      rw [show ((1 : Nat) : Int) = 1 from rfl, pow10_one]
      exact ⟨h, by grind⟩
    · rename_i h
      have e : ∀ k : Nat, q * Num.pow10 ((k + 1 : Nat) : Int) = q * 10 * Num.pow10 (k : Int) := by
        intro k
        rw [show (((k + 1 : Nat) : Int)) = 1 + (k : Int) by omega, pow10_add, pow10_one, Rat.mul_assoc]
      have hf : 1 ≤ fuel := by
        refine Classical.byContradiction fun hc => ?_
        have : fuel = 0 := by omega
        subst this
        rw [e, show ((0 : Nat) : Int) = 0 from rfl, pow10_zero, Rat.mul_one] at h2
        exact h h2
      rw [e] at h2 ⊢
      exact below_ok (by grind) h2 hf

/-- The exponent is that of the first digit. -/
theorem expo_ok {q : Rat} (h : 1 ≤ q * Num.pow10 400) : Num.pow10 (expo q) ≤ q ∧ q < Num.pow10 (expo q + 1) := by
  unfold expo
  split
  · rename_i h1
    have hf : (1 : Int) ≤ q.floor := Rat.le_floor_iff.2 (by exact h1)
    obtain ⟨a, b⟩ := dec_len q.floor.toNat
    have b := b (by omega)
    have hp : 0 < (Uri.dec q.floor.toNat).length := List.length_pos_iff.2 (Uri.dec_ne _)
    generalize (Uri.dec q.floor.toNat).length = k at *
    have e1 : (k : Int) - 1 = ((k - 1 : Nat) : Int) := by omega
    have e2 : (k : Int) - 1 + 1 = ((k : Nat) : Int) := by omega
    rw [e2, e1, pow10_nat, pow10_nat]
    constructor
    · have : (((10 ^ (k - 1) : Nat) : Int)) ≤ q.floor := by omega
      have := Rat.le_floor_iff.1 this
      rwa [Rat.intCast_natCast] at this
    · have : q.floor < (((10 ^ k : Nat) : Int)) := by omega
      have := Rat.floor_lt_iff.1 this
      rwa [Rat.intCast_natCast] at this
  · rename_i h1
    obtain ⟨a, b⟩ := below_ok (fuel := 400) (by grind) h (by decide)
    generalize below 400 q = k at *
    have hk := pow10_pos (k : Int)
    have e : Num.pow10 (-(k : Int)) * Num.pow10 (k : Int) = 1 := by
      rw [← pow10_add, Int.add_left_neg, pow10_zero]
    constructor
    · refine Rat.le_of_mul_le_mul_right (c := Num.pow10 (k : Int)) ?_ hk
      rw [e]; exact a
    · refine Rat.lt_of_mul_lt_mul_right (c := Num.pow10 (k : Int)) ?_ (Rat.le_of_lt hk)
      rw [pow10_add, pow10_one, Rat.mul_assoc, Rat.mul_comm 10, ← Rat.mul_assoc, e, Rat.one_mul]
      exact b

/-- Six digits, and at most half a unit of the last off. -/
theorem six_ok {q : Rat} (h : 1 ≤ q * Num.pow10 400) :
    100000 ≤ (six q).1 ∧ (six q).1 < 1000000 ∧
    ((six q).1 : Rat) * Num.pow10 ((six q).2 - 5) - q ≤ q / 200000 ∧ q - ((six q).1 : Rat) * Num.pow10 ((six q).2 - 5) ≤ q / 200000 := by
  obtain ⟨a, b⟩ := expo_ok h
  unfold six
  dsimp only
  generalize expo q = e at *
  have hp := pow10_pos (5 - e)
  have hp' := pow10_pos (e - 5)
  have e1 : Num.pow10 (e - 5) * Num.pow10 (5 - e) = 1 := by
    rw [← pow10_add, show e - 5 + (5 - e) = 0 by omega, pow10_zero]
  have e2 : Num.pow10 e * Num.pow10 (5 - e) = 100000 := by
    rw [← pow10_add, show e + (5 - e) = 5 by omega]; decide +kernel
  have e3 : Num.pow10 (e + 1) * Num.pow10 (5 - e) = 1000000 := by
    rw [← pow10_add, show e + 1 + (5 - e) = 6 by omega]; decide +kernel
  have e4 : Num.pow10 e = 100000 * Num.pow10 (e - 5) := by
    rw [show Num.pow10 e = Num.pow10 (5 + (e - 5)) by congr 1; omega, pow10_add, show Num.pow10 5 = 100000 by decide +kernel]
  have x1 : ((100000 : Nat) : Rat) ≤ q * Num.pow10 (5 - e) := by
    have := Rat.mul_le_mul_of_nonneg_right a (Rat.le_of_lt hp)
    rw [e2] at this; exact this
  have x2 : q * Num.pow10 (5 - e) < ((1000000 : Nat) : Rat) := by
    have := Rat.mul_lt_mul_of_pos_right b hp
    rw [e3] at this; exact this
  have x0 : 0 ≤ q * Num.pow10 (5 - e) := by
    have : (0 : Rat) ≤ ((100000 : Nat) : Rat) := by decide
    grind
  have r1 := roundEven_ge x1
  have r2 := roundEven_le x0 x2
  obtain ⟨n1, n2⟩ := roundEven_near x0
  have hq : q * Num.pow10 (5 - e) * Num.pow10 (e - 5) = q := by
    rw [Rat.mul_assoc, Rat.mul_comm (Num.pow10 (5 - e)), e1, Rat.mul_one]
  -- half a unit
  have m1 := Rat.mul_le_mul_of_nonneg_right n1 (Rat.le_of_lt hp')
  have m2 := Rat.mul_le_mul_of_nonneg_right n2 (Rat.le_of_lt hp')
  rw [Rat.add_mul, Rat.mul_assoc 2, Rat.mul_assoc 2, hq, Rat.one_mul] at m1
  rw [Rat.add_mul, Rat.mul_assoc 2, Rat.mul_assoc 2, hq, Rat.one_mul] at m2
  rw [e4] at a
  split
  · rename_i hd
    refine ⟨Nat.le_refl _, (by show 100000 < 1000000; decide), ?_⟩
    rw [hd] at m1 m2
    have e5 : Num.pow10 (e + 1 - 5) = 10 * Num.pow10 (e - 5) := by
      rw [show e + 1 - 5 = 1 + (e - 5) by omega, pow10_add, pow10_one]
    dsimp only
    rw [e5]
    rw [show ((1000000 : Nat) : Rat) = 1000000 from rfl] at m1 m2
    rw [show ((100000 : Nat) : Rat) = 100000 from rfl]
    generalize Num.pow10 (e - 5) = u at *
    constructor <;> grind
  · rename_i hd
    refine ⟨r1, by omega, ?_⟩
    dsimp only
    generalize Num.pow10 (e - 5) = u at *
    generalize ((roundEven (q * Num.pow10 (5 - e)) : Nat) : Rat) = d at *
    constructor <;> grind

/-! ### whole numbers below a million -/

theorem showMag_nat {n : Nat} (h : n < 1000000) : showMag (n : Rat) = Uri.dec n := by
  unfold showMag
  by_cases h0 : n = 0
  · subst h0
    rw [if_pos (by decide)]
    unfold Uri.dec
    rfl
  · have hn : 0 < n := by omega
    rw [if_neg (by intro e; exact h0 (by exact_mod_cast e))]
    obtain ⟨a, b⟩ := dec_len n
    have b := b hn
    have hp : 0 < (Uri.dec n).length := List.length_pos_iff.2 (Uri.dec_ne _)
    have hl : (Uri.dec n).length ≤ 6 := dec_length_le (by decide) h
    have hfl : (n : Rat).floor = (n : Int) := Rat.floor_intCast n
    have he : expo (n : Rat) = ((Uri.dec n).length : Int) - 1 := by
      unfold expo
      rw [if_pos (by
        have : ((1 : Int) : Rat) ≤ (n : Rat) := Rat.le_floor_iff.1 (by rw [hfl]; omega)
        exact this), hfl, Int.toNat_natCast]
    have hs : six (n : Rat) = (n * 10 ^ (6 - (Uri.dec n).length), ((Uri.dec n).length : Int) - 1) := by
      unfold six
      dsimp only
      rw [he]
      have : (5 : Int) - (((Uri.dec n).length : Int) - 1) = ((6 - (Uri.dec n).length : Nat) : Int) := by omega
      rw [this, pow10_nat, ← Rat.natCast_mul, roundEven_nat]
      rw [if_neg]
      intro e
      have : n * 10 ^ (6 - (Uri.dec n).length) < 10 ^ (Uri.dec n).length * 10 ^ (6 - (Uri.dec n).length) :=
        Nat.mul_lt_mul_of_pos_right a (Nat.pow_pos (by decide))
      rw [← Nat.pow_add, show (Uri.dec n).length + (6 - (Uri.dec n).length) = 6 by omega] at this
      omega
    rw [hs]
    unfold layout
    dsimp only
    rw [if_pos (by omega), dec_mul_pow hn, show (((Uri.dec n).length : Int) - 1).toNat + 1 = (Uri.dec n).length by omega,
      List.take_left, List.drop_left, frac_zeros, List.append_nil]

/-! ### reading it back -/

theorem decOf_snoc (a : Text) (c : Char) : Num.decOf (a ++ [c]) = Num.decOf a * 10 + (Uri.decVal c).getD 0 := by
  unfold Num.decOf
  rw [List.foldl_append]
  rfl

theorem decOf_zeros (a : Text) (j : Nat) : Num.decOf (a ++ List.replicate j '0') = Num.decOf a * 10 ^ j := by
  induction j with
  | zero => simp
  | succ j ih =>
    rw [List.replicate_succ', ← List.append_assoc, decOf_snoc, ih, Nat.pow_succ, Nat.mul_assoc]
    rfl

theorem decOf_zeros_front (j : Nat) (a : Text) : Num.decOf (List.replicate j '0' ++ a) = Num.decOf a := by
  induction j with
  | zero => rfl
  | succ j ih =>
    rw [List.replicate_succ]
    unfold Num.decOf at ih ⊢
    rw [List.cons_append, List.foldl_cons]
    exact ih

theorem dropZeros : ∀ (t : Text), ∃ j, t = (t.reverse.dropWhile (· == '0')).reverse ++ List.replicate j '0' := by
  intro t
  have key : ∀ l : Text, ∃ j, l = List.replicate j '0' ++ l.dropWhile (· == '0') := by
    intro l
    induction l with
    | nil => exact ⟨0, rfl⟩
    | cons c l ih =>
      by_cases hc : (c == '0') = true
      · obtain ⟨j, hj⟩ := ih
        refine ⟨j + 1, ?_⟩
        rw [List.dropWhile_cons_of_pos (p := (· == '0')) hc, List.replicate_succ, List.cons_append, ← hj, eq_of_beq hc]
      · exact ⟨0, by rw [List.dropWhile_cons_of_neg (p := (· == '0')) hc]; rfl⟩
  obtain ⟨j, hj⟩ := key t.reverse
  refine ⟨j, ?_⟩
  have := congrArg List.reverse hj
  rw [List.reverse_reverse, List.reverse_append, List.reverse_replicate] at this
  exact this

theorem takeDigits {l r : Text} (hl : ∀ x ∈ l, Num.isDigit x = true) (hr : ∀ x, r.head? = some x → Num.isDigit x = false) :
    (l ++ r).takeWhile Num.isDigit = l ∧ (l ++ r).dropWhile Num.isDigit = r := by
  induction l with
  | nil =>
    cases r with
    | nil => exact ⟨rfl, rfl⟩
    | cons x r =>
      have := hr x rfl
      simp [this]
  | cons y l ih =>
    have h := ih (fun x hx => hl x (List.mem_cons_of_mem _ hx))
    have hy := hl y (List.mem_cons.2 (Or.inl rfl))
    rw [List.cons_append, List.takeWhile_cons_of_pos hy, List.dropWhile_cons_of_pos hy, h.1, h.2]
    exact ⟨rfl, rfl⟩

/-- What may follow the digits, and what it means. -/
def Tail (ex : Text) (e : Int) : Prop := Num.readExp ex = some (e, []) ∧ (ex = [] ∨ ∃ r, ex = 'e' :: r)

theorem tail_nil : Tail [] 0 := ⟨rfl, Or.inl rfl⟩

theorem Tail.head {ex : Text} {e : Int} (h : Tail ex e) : ∀ x, ex.head? = some x → Num.isDigit x = false := by
  intro x hx
  rcases h.2 with rfl | ⟨r, rfl⟩
  · cases hx
  · injection hx with hx; subst hx; decide

theorem dec_isDigit (n : Nat) : ∀ x ∈ Uri.dec n, Num.isDigit x = true := Num.isDigit_dec n

theorem tail_exp (e : Int) : Tail ('e' :: showExp e) e := by
  refine ⟨?_, Or.inr ⟨_, rfl⟩⟩
  have hd : ∀ x ∈ (if e.natAbs < 10 then '0' :: Uri.dec e.natAbs else Uri.dec e.natAbs), Num.isDigit x = true := by
    intro x hx
    split at hx
    · rcases List.mem_cons.1 hx with rfl | hx
      · decide
      · exact dec_isDigit _ x hx
    · exact dec_isDigit _ x hx
  have hne : (if e.natAbs < 10 then '0' :: Uri.dec e.natAbs else Uri.dec e.natAbs) ≠ [] := by
    split
    · exact List.cons_ne_nil _ _
    · exact Uri.dec_ne _
  have hv : Num.decOf (if e.natAbs < 10 then '0' :: Uri.dec e.natAbs else Uri.dec e.natAbs) = e.natAbs := by
    split
    · have := decOf_zeros_front 1 (Uri.dec e.natAbs)
      rw [Uri.decOf_dec] at this
      exact this
    · exact Uri.decOf_dec _
  unfold showExp
  generalize (if e.natAbs < 10 then '0' :: Uri.dec e.natAbs else Uri.dec e.natAbs) = ds at *
  obtain ⟨t1, t2⟩ := takeDigits (l := ds) (r := []) hd (fun _ h => by cases h)
  rw [List.append_nil] at t1 t2
  unfold Num.readExp
  by_cases he : e < 0
  · rw [if_pos he]
    show (if List.takeWhile Num.isDigit ds = [] then none else some (if true = true then -(Num.decOf (List.takeWhile Num.isDigit ds) : Int) else _, List.dropWhile Num.isDigit ds)) = _
    rw [t1, t2, if_neg hne, if_pos rfl, hv]
    congr 2
    omega
  · rw [if_neg he]
    show (if List.takeWhile Num.isDigit ds = [] then none else some (if false = true then _ else (Num.decOf (List.takeWhile Num.isDigit ds) : Int), List.dropWhile Num.isDigit ds)) = _
    rw [t1, t2, if_neg hne, if_neg (by decide), hv]
    congr 2
    omega

theorem readDouble_shape {ip fp ex : Text} {e : Int} (hi : ip ≠ []) (hip : ∀ x ∈ ip, Num.isDigit x = true) (hfp : ∀ x ∈ fp, Num.isDigit x = true)
    (hx : Tail ex e) :
    Num.readDouble (ip ++ (if fp = [] then [] else '.' :: fp) ++ ex) =
      if (Num.decOf (ip ++ fp) : Rat) * Num.pow10 (e - fp.length) ≤ Num.dblMax then
        some ((Num.decOf (ip ++ fp) : Rat) * Num.pow10 (e - fp.length), []) else none := by
  obtain ⟨c, cs, hc⟩ : ∃ c cs, ip = c :: cs := List.exists_cons_of_ne_nil hi
  have hcd := hip c (by rw [hc]; exact List.mem_cons.2 (Or.inl rfl))
  have s1 : Num.isSpace c = false := by
    cases h : Num.isSpace c with
    | false => rfl
    | true =>
      have : ∀ x ∈ [' ', '\t', '\n', '\x0b', '\x0c', '\r'], Num.isDigit x = false := by decide
      rw [this c (List.contains_iff_mem.1 h)] at hcd
      cases hcd
  have s2 : c ≠ '-' := by rintro rfl; revert hcd; decide
  have s3 : c ≠ '+' := by rintro rfl; revert hcd; decide
  have h1 : ∀ r, (ip ++ r).dropWhile Num.isSpace = ip ++ r := by
    intro r
    rw [hc, List.cons_append, List.dropWhile_cons_of_neg (by rw [s1]; decide)]
  have h2 : ∀ r, Num.sign (ip ++ r) = (false, ip ++ r) := by
    intro r
    rw [hc]
    show Num.sign (c :: _) = _
    unfold Num.sign
    split
    · rename_i heq; injection heq with heq; exact absurd heq s2
    · rename_i heq; injection heq with heq; exact absurd heq s3
    · rfl
  unfold Num.readDouble
  rw [List.append_assoc, h1, h2]
  dsimp only
  by_cases hf : fp = []
  · subst hf
    rw [if_pos rfl, List.nil_append]
    obtain ⟨t1, t2⟩ := takeDigits (l := ip) (r := ex) hip hx.head
    rw [t1, t2]
    have h3 := hx.1
    rcases hx.2 with rfl | ⟨r, rfl⟩
    · dsimp only
      rw [if_neg (fun h => hi h.1), h3]
      rfl
    · show (if ip = [] ∧ ([] : Text) = [] then none
        else match Num.readExp ('e' :: r) with
          | none => none
          | some (e, r3) =>
            let v : Rat := (Num.decOf (ip ++ []) : Rat) * Num.pow10 (e - ([] : Text).length)
            if v ≤ Num.dblMax then some (if false then -v else v, r3) else none) = _
      rw [if_neg (fun h => hi h.1), h3]
      rfl
  · rw [if_neg hf]
    obtain ⟨t1, t2⟩ := takeDigits (l := ip) (r := '.' :: fp ++ ex) hip (fun x h => by injection h with h; subst h; decide)
    obtain ⟨t3, t4⟩ := takeDigits (l := fp) (r := ex) hfp hx.head
    rw [t1, t2, List.cons_append]
    show (if ip = [] ∧ List.takeWhile Num.isDigit (fp ++ ex) = [] then none
      else match Num.readExp (List.dropWhile Num.isDigit (fp ++ ex)) with
        | none => none
        | some (e, r3) =>
          let v : Rat := (Num.decOf (ip ++ List.takeWhile Num.isDigit (fp ++ ex)) : Rat) *
            Num.pow10 (e - (List.takeWhile Num.isDigit (fp ++ ex)).length)
          if v ≤ Num.dblMax then some (if false then -v else v, r3) else none) = _
    rw [t3, t4, if_neg (fun h => hi h.1), hx.1]
    rfl

theorem frac_eq (t : Text) : ∃ fp j, t = fp ++ List.replicate j '0' ∧ frac t = if fp = [] then [] else '.' :: fp := by
  obtain ⟨j, hj⟩ := dropZeros t
  refine ⟨_, j, hj, ?_⟩
  unfold frac
  split
  · rename_i h; rw [h, if_pos rfl]
  · rename_i h; rw [if_neg]; intro e; exact h e

/-- Digits before and after the point, zeros at the end left away, and an exponent. -/
theorem readDouble_frac {ip t ex : Text} {e : Int} (hi : ip ≠ []) (hip : ∀ x ∈ ip, Num.isDigit x = true) (ht : ∀ x ∈ t, Num.isDigit x = true)
    (hx : Tail ex e) :
    Num.readDouble (ip ++ frac t ++ ex) =
      if (Num.decOf (ip ++ t) : Rat) * Num.pow10 (e - t.length) ≤ Num.dblMax then
        some ((Num.decOf (ip ++ t) : Rat) * Num.pow10 (e - t.length), []) else none := by
  obtain ⟨fp, j, h1, h2⟩ := frac_eq t
  have key : (Num.decOf (ip ++ t) : Rat) * Num.pow10 (e - t.length) = (Num.decOf (ip ++ fp) : Rat) * Num.pow10 (e - fp.length) := by
    rw [h1, ← List.append_assoc, decOf_zeros, List.length_append, List.length_replicate, Rat.natCast_mul, ← pow10_nat, Rat.mul_assoc, ← pow10_add]
    congr 2
    omega
  rw [h2, key]
  exact readDouble_shape hi hip (fun x hx => ht x (by rw [h1]; exact List.mem_append_left _ hx)) hx

/-- What `%g` prints, read back. -/
theorem readDouble_layout {d : Nat} {e : Int} (h1 : 100000 ≤ d) (h2 : d < 1000000) :
    Num.readDouble (layout d e) = if (d : Rat) * Num.pow10 (e - 5) ≤ Num.dblMax then some ((d : Rat) * Num.pow10 (e - 5), []) else none := by
  have hl : (Uri.dec d).length = 6 := dec_length_eq (k := 5) (by omega) (by omega)
  have hd : ∀ x ∈ Uri.dec d, Num.isDigit x = true := dec_isDigit d
  unfold layout
  dsimp only
  split
  · rename_i he
    have key := readDouble_frac (ip := (Uri.dec d).take (e.toNat + 1)) (t := (Uri.dec d).drop (e.toNat + 1)) (ex := []) (e := 0)
      (by intro h; have := congrArg List.length h; rw [List.length_take, hl] at this; simp at this)
      (fun x hx => hd x (List.mem_of_mem_take hx)) (fun x hx => hd x (List.mem_of_mem_drop hx)) tail_nil
    rw [List.take_append_drop, List.append_nil, List.length_drop, hl, Uri.decOf_dec,
      show (0 : Int) - ((6 - (e.toNat + 1) : Nat) : Int) = e - 5 by omega] at key
    exact key
  · split
    · rename_i he
      have hf : ∀ x ∈ List.replicate ((-e).toNat - 1) '0' ++ Uri.dec d, Num.isDigit x = true := by
        intro x hx
        rcases List.mem_append.1 hx with hx | hx
        · rw [List.eq_of_mem_replicate hx]; decide
        · exact hd x hx
      have key := readDouble_frac (ip := ['0']) (t := List.replicate ((-e).toNat - 1) '0' ++ Uri.dec d) (ex := []) (e := 0)
        (by decide) (by decide) hf tail_nil
      rw [List.append_nil, List.length_append, List.length_replicate, hl,
        show (0 : Int) - (((-e).toNat - 1 + 6 : Nat) : Int) = e - 5 by omega,
        show ['0'] ++ (List.replicate ((-e).toNat - 1) '0' ++ Uri.dec d) = List.replicate ((-e).toNat - 1 + 1) '0' ++ Uri.dec d by
          rw [List.replicate_succ]; rfl, decOf_zeros_front, Uri.decOf_dec] at key
      exact key
    · have key := readDouble_frac (ip := (Uri.dec d).take 1) (t := (Uri.dec d).drop 1) (ex := 'e' :: showExp e) (e := e)
        (by intro h; have := congrArg List.length h; rw [List.length_take, hl] at this; simp at this)
        (fun x hx => hd x (List.mem_of_mem_take hx)) (fun x hx => hd x (List.mem_of_mem_drop hx)) (tail_exp e)
      rw [List.take_append_drop, List.length_drop, hl, Uri.decOf_dec] at key
      exact key

end Print
end Nlsr
