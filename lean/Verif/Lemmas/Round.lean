import Verif.Model.Round
import Verif.Lemmas.PrintNum
import Verif.Lemmas.LinkState
/- Rounding to doubles: monotone, exact on whole numbers up to 2^53, off by at most half a unit in the last place. -/
namespace Nlsr
namespace Dbl
open Print

theorem roundEven_mono {x y : Rat} (h0 : 0 ≤ x) (h : x ≤ y) : roundEven x ≤ roundEven y := by
  have hf : x.floor ≤ y.floor := Rat.le_floor_iff.2 (Rat.le_trans (Rat.floor_le x) h)
  have h1 : 0 ≤ x.floor := Rat.le_floor_iff.2 h0
  by_cases e : x.floor = y.floor
  · unfold roundEven
    dsimp only
    rw [e]
    generalize ((y.floor.toNat : Nat) : Rat) = f
    generalize y.floor.toNat = n
    split
    · split
      · exact Nat.le_refl _
      · split
        · omega
        · split <;> omega
    · split
      · rw [if_neg (by grind), if_pos (by grind)]; omega
      · split
        · split
          · omega
          · split <;> omega
        · rw [if_neg (by grind)]
          split
          · omega
          · exact Nat.le_refl _
  · have : ((x.floor.toNat + 1 : Nat) : Rat) ≤ y := by
      have h2 : ((x.floor.toNat + 1 : Nat) : Int) ≤ y.floor := by omega
      have := Rat.le_floor_iff.1 h2
      rw [Rat.intCast_natCast] at this
      exact this
    refine Nat.le_trans ?_ (roundEven_ge this)
    unfold roundEven
    dsimp only
    split
    · omega
    · split
      · omega
      · split <;> omega

theorem roundEven_le' {x : Rat} {n : Nat} (h0 : 0 ≤ x) (h : x ≤ (n : Rat)) : roundEven x ≤ n := by
  have := roundEven_mono h0 h
  rw [roundEven_nat] at this
  exact this

theorem units_pos : (0 : Rat) < (units : Rat) := by
  rw [Rat.natCast_pos]; exact Nat.pow_pos (by decide)

theorem pow_pos' (k : Nat) : (0 : Rat) < ((2 ^ k : Nat) : Rat) := by
  rw [Rat.natCast_pos]; exact Nat.pow_pos (by decide)

theorem div_nonneg' {x u : Rat} (hx : 0 ≤ x) (hu : 0 < u) : 0 ≤ x / u := by
  rw [Rat.div_def]
  exact Rat.mul_nonneg hx (Rat.le_of_lt (Rat.inv_pos.2 hu))

theorem div_le_iff' {x u y : Rat} (hu : 0 < u) : x / u ≤ y ↔ x ≤ y * u := by
  constructor
  · intro h
    have := Rat.mul_le_mul_of_nonneg_right h (Rat.le_of_lt hu)
    rwa [Rat.div_mul_cancel (by grind)] at this
  · intro h
    refine Rat.le_of_mul_le_mul_right (c := u) ?_ hu
    rwa [Rat.div_mul_cancel (by grind)]

theorem le_div_iff' {x u y : Rat} (hu : 0 < u) : y ≤ x / u ↔ y * u ≤ x := by
  constructor
  · intro h
    have := Rat.mul_le_mul_of_nonneg_right h (Rat.le_of_lt hu)
    rwa [Rat.div_mul_cancel (by grind)] at this
  · intro h
    refine Rat.le_of_mul_le_mul_right (c := u) ?_ hu
    rwa [Rat.div_mul_cancel (by grind)]

/-- `fl` counted in units. -/
def flU (x : Rat) : Nat := roundEven (x / ((2 ^ (x.floor.toNat.log2 - 52) : Nat) : Rat)) * 2 ^ (x.floor.toNat.log2 - 52)

theorem fl_eq (q : Rat) : fl q = (flU (q * (units : Rat)) : Rat) / (units : Rat) := rfl

theorem log2_mono {a b : Nat} (h : a ≤ b) : a.log2 ≤ b.log2 := by
  by_cases ha : a = 0
  · rw [ha, Nat.log2_zero]; exact Nat.zero_le _
  · rw [Nat.le_log2 (by omega)]
    exact Nat.le_trans (Nat.log2_self_le ha) h

theorem flU_mono {x y : Rat} (h0 : 0 ≤ x) (h : x ≤ y) : flU x ≤ flU y := by
  have hf : x.floor ≤ y.floor := Rat.le_floor_iff.2 (Rat.le_trans (Rat.floor_le x) h)
  have h1 : 0 ≤ x.floor := Rat.le_floor_iff.2 h0
  have hl : x.floor.toNat.log2 ≤ y.floor.toNat.log2 := log2_mono (by omega)
  unfold flU
  by_cases e : x.floor.toNat.log2 = y.floor.toNat.log2
  · rw [e]
    refine Nat.mul_le_mul_right _ (roundEven_mono (div_nonneg' h0 (pow_pos' _)) ?_)
    rw [Rat.div_def, Rat.div_def]
    exact Rat.mul_le_mul_of_nonneg_right h (Rat.le_of_lt (Rat.inv_pos.2 (pow_pos' _)))
  · -- a power of two lies between
    have hx : x ≤ ((2 ^ (x.floor.toNat.log2 + 1) : Nat) : Rat) := by
      have h2 := Rat.lt_floor_add_one x
      have h3 : x.floor + 1 ≤ ((2 ^ (x.floor.toNat.log2 + 1) : Nat) : Int) := by
        have := @Nat.lt_log2_self x.floor.toNat
        omega
      have h4 : ((x.floor + 1 : Int) : Rat) ≤ (((2 ^ (x.floor.toNat.log2 + 1) : Nat) : Int) : Rat) := Rat.intCast_le_intCast.2 h3
      rw [Rat.intCast_natCast] at h4
      exact Rat.le_trans (Rat.le_of_lt h2) h4
    have hy : ((2 ^ y.floor.toNat.log2 : Nat) : Rat) ≤ y := by
      have hne : y.floor.toNat ≠ 0 := by
        intro h0
        rw [h0, Nat.log2_zero] at e hl
        omega
      have h3 : ((2 ^ y.floor.toNat.log2 : Nat) : Int) ≤ y.floor := by
        have := Nat.log2_self_le hne
        omega
      have h4 := Rat.le_floor_iff.1 h3
      rwa [Rat.intCast_natCast] at h4
    generalize x.floor.toNat.log2 = a at *
    generalize y.floor.toNat.log2 = b at *
    have s1 : roundEven (x / ((2 ^ (a - 52) : Nat) : Rat)) * 2 ^ (a - 52) ≤ 2 ^ (a + 1) := by
      have e1 : 2 ^ (a + 1) = 2 ^ (a + 1 - (a - 52)) * 2 ^ (a - 52) := by
        rw [← Nat.pow_add]; congr 1; omega
      rw [e1]
      refine Nat.mul_le_mul_right _ (roundEven_le' (div_nonneg' h0 (pow_pos' _)) ?_)
      rw [div_le_iff' (pow_pos' _), ← Rat.natCast_mul, ← e1]
      exact hx
    have s2 : 2 ^ b ≤ roundEven (y / ((2 ^ (b - 52) : Nat) : Rat)) * 2 ^ (b - 52) := by
      have e1 : 2 ^ b = 2 ^ (b - (b - 52)) * 2 ^ (b - 52) := by
        rw [← Nat.pow_add]; congr 1; omega
      rw [e1]
      refine Nat.mul_le_mul_right _ (roundEven_ge ?_)
      rw [le_div_iff' (pow_pos' _), ← Rat.natCast_mul, ← e1]
      exact hy
    have s3 : 2 ^ (a + 1) ≤ 2 ^ b := Nat.pow_le_pow_right (by decide) (by omega)
    omega

theorem fl_mono {p q : Rat} (h0 : 0 ≤ p) (h : p ≤ q) : fl p ≤ fl q := by
  have h1 := flU_mono (Rat.mul_nonneg h0 (Rat.le_of_lt units_pos)) (Rat.mul_le_mul_of_nonneg_right h (Rat.le_of_lt units_pos))
  rw [fl_eq, fl_eq, Rat.div_def, Rat.div_def]
  exact Rat.mul_le_mul_of_nonneg_right (Rat.natCast_le_natCast.2 h1) (Rat.le_of_lt (Rat.inv_pos.2 units_pos))

theorem pow_split {m k : Nat} (h : m ≤ k) : 2 ^ k = 2 ^ m * 2 ^ (k - m) := by
  rw [← Nat.pow_add]; congr 1; omega

theorem fl_nonneg (q : Rat) : 0 ≤ fl q := by
  rw [fl_eq]
  exact div_nonneg' Rat.natCast_nonneg units_pos

/-- Half a unit in the last place. -/
theorem fl_near {q : Rat} (hq : 1 ≤ q) : (fl q - q) * ((2 ^ 53 : Nat) : Rat) ≤ q ∧ (q - fl q) * ((2 ^ 53 : Nat) : Rat) ≤ q := by
  have hK := units_pos
  have hx : 0 ≤ q * (units : Rat) := Rat.mul_nonneg (by grind) (Rat.le_of_lt hK)
  have hbig : ((2 ^ 52 : Nat) : Rat) ≤ q * (units : Rat) := by
    have h1 : (units : Rat) ≤ q * (units : Rat) := by
      have := Rat.mul_le_mul_of_nonneg_right hq (Rat.le_of_lt hK)
      grind
    have h2 : ((2 ^ 52 : Nat) : Rat) ≤ (units : Rat) :=
      Rat.natCast_le_natCast.2 (Nat.pow_le_pow_right (by decide) (by decide))
    exact Rat.le_trans h2 h1
  have hq' : fl q * (units : Rat) = (flU (q * (units : Rat)) : Rat) := by
    rw [fl_eq, Rat.div_mul_cancel (by grind)]
  have hfl : ((2 ^ 52 : Nat) : Int) ≤ (q * (units : Rat)).floor := Rat.le_floor_iff.2 (by rw [Rat.intCast_natCast]; exact hbig)
  have hl : ((2 ^ (q * (units : Rat)).floor.toNat.log2 : Nat) : Rat) ≤ q * (units : Rat) := by
    have hne : (q * (units : Rat)).floor.toNat ≠ 0 := by
      have : 0 < 2 ^ 52 := by decide
      omega
    have h3 : ((2 ^ (q * (units : Rat)).floor.toNat.log2 : Nat) : Int) ≤ (q * (units : Rat)).floor := by
      have := Nat.log2_self_le hne
      omega
    have h4 := Rat.le_floor_iff.1 h3
    rwa [Rat.intCast_natCast] at h4
  have h52 : 52 ≤ (q * (units : Rat)).floor.toNat.log2 := by
    rw [Nat.le_log2 (by have : 0 < 2 ^ 52 := by decide
                        omega)]
    omega
  have e : ((2 ^ (q * (units : Rat)).floor.toNat.log2 : Nat) : Rat) =
      ((2 ^ 52 : Nat) : Rat) * ((2 ^ ((q * (units : Rat)).floor.toNat.log2 - 52) : Nat) : Rat) := by
    rw [← Rat.natCast_mul, ← pow_split h52]
  have hu := pow_pos' ((q * (units : Rat)).floor.toNat.log2 - 52)
  unfold flU at hq'
  rw [Rat.natCast_mul] at hq'
  obtain ⟨n1, n2⟩ := roundEven_near (div_nonneg' hx hu)
  rw [e] at hl
  generalize ((2 ^ ((q * (units : Rat)).floor.toNat.log2 - 52) : Nat) : Rat) = u at *
  have hxu : q * (units : Rat) / u * u = q * (units : Rat) := Rat.div_mul_cancel (by grind)
  generalize q * (units : Rat) / u = y at *
  generalize ((roundEven y : Nat) : Rat) = z at *
  have m1 := Rat.mul_le_mul_of_nonneg_right n1 (Rat.le_of_lt hu)
  have m2 := Rat.mul_le_mul_of_nonneg_right n2 (Rat.le_of_lt hu)
  have e53 : ((2 ^ 53 : Nat) : Rat) = 2 * ((2 ^ 52 : Nat) : Rat) := by
    rw [show (2 ^ 53 : Nat) = 2 * 2 ^ 52 from rfl, Rat.natCast_mul]; rfl
  have p52 := pow_pos' 52
  rw [e53]
  generalize ((2 ^ 52 : Nat) : Rat) = t at *
  have k1 : 2 * (fl q * (units : Rat)) ≤ 2 * (q * (units : Rat)) + u := by grind
  have k2 : 2 * (q * (units : Rat)) ≤ 2 * (fl q * (units : Rat)) + u := by grind
  have t1 := Rat.mul_le_mul_of_nonneg_right k1 (Rat.le_of_lt p52)
  have t2 := Rat.mul_le_mul_of_nonneg_right k2 (Rat.le_of_lt p52)
  generalize (units : Rat) = K at *
  constructor
  · refine Rat.le_of_mul_le_mul_right (c := K) ?_ hK
    grind
  · refine Rat.le_of_mul_le_mul_right (c := K) ?_ hK
    grind

/-! ### whole numbers -/

theorem natCast_ne {n : Nat} (h : 0 < n) : (n : Rat) ≠ 0 := by
  have : (0 : Rat) < (n : Rat) := Rat.natCast_pos.2 h
  grind

theorem floor_div (n d : Nat) (hd : 0 < d) : ((n : Rat) / (d : Rat)).floor = ((n / d : Nat) : Int) := by
  have hd' : (0 : Rat) < (d : Rat) := Rat.natCast_pos.2 hd
  have h1 : ((n / d : Nat) : Int) ≤ ((n : Rat) / (d : Rat)).floor := by
    rw [Rat.le_floor_iff, Rat.intCast_natCast, le_div_iff' hd', ← Rat.natCast_mul, Rat.natCast_le_natCast]
    exact Nat.div_mul_le_self n d
  have h2 : ((n : Rat) / (d : Rat)).floor < ((n / d + 1 : Nat) : Int) := by
    rw [Rat.floor_lt_iff, Rat.intCast_natCast, ← Rat.not_le, le_div_iff' hd', ← Rat.natCast_mul, Rat.natCast_le_natCast]
    have := Nat.lt_mul_div_succ n hd
    rw [Nat.mul_comm]
    omega
  omega

theorem roundEven_div (n d : Nat) (hd : 0 < d) : roundEven ((n : Rat) / (d : Rat)) =
    if d < 2 * (n % d) ∨ (d = 2 * (n % d) ∧ n / d % 2 = 1) then n / d + 1 else n / d := by
  have hd' : (0 : Rat) < (d : Rat) := Rat.natCast_pos.2 hd
  unfold roundEven
  rw [floor_div n d hd]
  dsimp only [Int.toNat_natCast]
  have hr : ((n : Rat) / (d : Rat) - ((n / d : Nat) : Rat)) * (d : Rat) = ((n % d : Nat) : Rat) := by
    have h1 : (n : Rat) / (d : Rat) * (d : Rat) = (n : Rat) := Rat.div_mul_cancel (natCast_ne hd)
    have h2 : (n : Rat) = (d : Rat) * ((n / d : Nat) : Rat) + ((n % d : Nat) : Rat) := by
      rw [← Rat.natCast_mul, ← Rat.natCast_add, Nat.div_add_mod]
    grind
  generalize (n : Rat) / (d : Rat) - ((n / d : Nat) : Rat) = r at *
  have c1 : r < 1 / 2 ↔ 2 * (n % d) < d := by
    rw [← Rat.natCast_lt_natCast, Rat.natCast_mul, ← hr]
    have h2 : ((2 : Nat) : Rat) = 2 := rfl
    rw [h2]
    constructor
    · intro h
      have := Rat.mul_lt_mul_of_pos_right h hd'
      grind
    · intro h
      refine Rat.lt_of_mul_lt_mul_right (c := (d : Rat)) ?_ (Rat.le_of_lt hd')
      grind
  have c2 : 1 / 2 < r ↔ d < 2 * (n % d) := by
    rw [← Rat.natCast_lt_natCast, Rat.natCast_mul, ← hr]
    have h2 : ((2 : Nat) : Rat) = 2 := rfl
    rw [h2]
    constructor
    · intro h
      have := Rat.mul_lt_mul_of_pos_right h hd'
      grind
    · intro h
      refine Rat.lt_of_mul_lt_mul_right (c := (d : Rat)) ?_ (Rat.le_of_lt hd')
      grind
  by_cases h1 : 2 * (n % d) < d
  · rw [if_pos (c1.2 h1), if_neg (by omega)]
  · rw [if_neg (fun h => h1 (c1.1 h))]
    by_cases h2 : d < 2 * (n % d)
    · rw [if_pos (c2.2 h2), if_pos (Or.inl h2)]
    · rw [if_neg (fun h => h2 (c2.1 h))]
      by_cases h3 : n / d % 2 = 0
      · rw [if_pos h3, if_neg (by omega)]
      · rw [if_neg h3, if_pos (Or.inr ⟨by omega, by omega⟩)]

/-- On whole numbers `fl` is the conversion of an integer to a double. -/
theorem fl_nat (n : Nat) : fl (n : Rat) = (roundNat n : Rat) := by
  by_cases h0 : n = 0
  · subst h0
    decide +kernel
  have hlog : ((n : Rat) * (units : Rat)).floor.toNat.log2 = n.log2 + 1074 := by
    rw [← Rat.natCast_mul]
    have : ((n * units : Nat) : Rat).floor = ((n * units : Nat) : Int) := Rat.floor_intCast _
    rw [this, Int.toNat_natCast]
    have hne : n * units ≠ 0 := Nat.mul_ne_zero h0 (by unfold units; exact Nat.ne_of_gt (Nat.pow_pos (by decide)))
    rw [Nat.log2_eq_iff hne]
    unfold units
    constructor
    · rw [Nat.pow_add]; exact Nat.mul_le_mul_right _ (Nat.log2_self_le h0)
    · rw [show n.log2 + 1074 + 1 = (n.log2 + 1) + 1074 by omega, Nat.pow_add]
      exact Nat.mul_lt_mul_of_pos_right Nat.lt_log2_self (Nat.pow_pos (by decide))
  have hK := natCast_ne (show 0 < units from Nat.pow_pos (by decide))
  rw [fl_eq]
  unfold flU
  rw [hlog]
  by_cases hb : n < 2 ^ 53
  · have hl : n.log2 ≤ 52 := by
      have := (Nat.log2_lt h0).2 hb
      omega
    have e1 : units = 2 ^ (52 - n.log2) * 2 ^ (n.log2 + 1074 - 52) := by
      rw [show n.log2 + 1074 - 52 = 1074 - (52 - n.log2) by omega]
      exact pow_split (by omega)
    generalize n.log2 + 1074 - 52 = E at *
    have e2 : (n : Rat) * (units : Rat) / ((2 ^ E : Nat) : Rat) = ((n * 2 ^ (52 - n.log2) : Nat) : Rat) := by
      have hp := natCast_ne (show 0 < 2 ^ E from Nat.pow_pos (by decide))
      rw [e1, Rat.natCast_mul, Rat.natCast_mul, ← Rat.mul_assoc, Rat.mul_div_cancel hp]
    rw [e2, roundEven_nat, Nat.mul_assoc, ← e1, Rat.natCast_mul, Rat.mul_div_cancel hK]
    unfold roundNat
    rw [if_pos hb]
  · have hl : 53 ≤ n.log2 := (Nat.le_log2 h0).2 (by omega)
    have e1 : 2 ^ (n.log2 + 1074 - 52) = 2 ^ (n.log2 - 52) * units := by
      have := pow_split (show n.log2 - 52 ≤ n.log2 + 1074 - 52 by omega)
      rw [show n.log2 + 1074 - 52 - (n.log2 - 52) = 1074 by omega] at this
      exact this
    have e2 : (n : Rat) * (units : Rat) / ((2 ^ (n.log2 - 52) * units : Nat) : Rat) = (n : Rat) / ((2 ^ (n.log2 - 52) : Nat) : Rat) := by
      have hp := natCast_ne (show 0 < 2 ^ (n.log2 - 52) from Nat.pow_pos (by decide))
      rw [Rat.natCast_mul]
      generalize ((2 ^ (n.log2 - 52) : Nat) : Rat) = a at *
      generalize (units : Rat) = b at *
      grind
    rw [e1, e2, roundEven_div _ _ (Nat.pow_pos (by decide)), ← Nat.mul_assoc, Rat.natCast_mul, Rat.mul_div_cancel hK]
    unfold roundNat
    rw [if_neg hb]

theorem roundNat_mono {a b : Nat} (h : a ≤ b) : roundNat a ≤ roundNat b := by
  rw [← Rat.natCast_le_natCast, ← fl_nat, ← fl_nat]
  exact fl_mono Rat.natCast_nonneg (Rat.natCast_le_natCast.2 h)

theorem roundNat_id {n : Nat} (h : n ≤ 2 ^ 53) : roundNat n = n := by
  by_cases e : n = 2 ^ 53
  · rw [e]; decide +kernel
  · unfold roundNat
    rw [if_pos (by omega)]

theorem fl_id {n : Nat} (h : n ≤ 2 ^ 53) : fl (n : Rat) = (n : Rat) := by rw [fl_nat, roundNat_id h]

end Dbl
end Nlsr
