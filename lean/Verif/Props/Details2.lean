import Verif.Props.Details
/- Three further details: C105 (packets that are no segments), C110 (which double is which number, units of times). -/
namespace Nlsr

namespace Segments

theorem fetch_failed {f : Fetcher} (h : f.failed = true) (ds : List Data) : f.fetch ds = none := by
  have h0 : f.result = none := by unfold Fetcher.result; simp [h]
  induction ds with
  | nil => exact h0
  | cons d ds ih =>
    have : f.receive d = f := by unfold Fetcher.receive; simp [h]
    unfold Fetcher.fetch
    rw [h0, this]
    exact ih

/-- C105: a packet that answers the fetcher but does not end in a segment number ends the fetch without result, whatever comes later. -/
theorem C105_not_segment {f : Fetcher} (h0 : f.result = none) {d : Data} (hw : f.wants d.name = true)
    (hd : ∀ n x, d.name = n ++ [x] → x.typ ≠ 50) (ds : List Data) : f.fetch (d :: ds) = none := by
  unfold Fetcher.fetch
  rw [h0]
  refine fetch_failed ?_ ds
  have hn : number d.name = none := by
    unfold number
    split
    · rename_i c hc
      have : d.name = d.name.dropLast ++ [c] := by
        unfold Name.fromEnd at hc
        split at hc
        · rename_i hl
          have hne : d.name ≠ [] := by intro e; rw [e] at hl; exact absurd hl.2 (by decide)
          rw [← List.getLast?_eq_getElem?, List.getLast?_eq_some_getLast hne] at hc
          injection hc with hc
          rw [← hc]
          exact (List.dropLast_concat_getLast hne).symm
        · cases hc
      have ht := hd _ _ this
      rw [if_neg (by simp [Comp.isSegment, ht])]
    · rfl
  unfold Fetcher.receive
  by_cases hf : f.failed = true
  · simp [hf]
  · simp [hf, hw, hn]

example : Fetcher.wants { ask := exAsk } (exAsk ++ [Comp.str "x"]) = true ∧ Fetcher.result { ask := exAsk } = none ∧
    (Comp.str "x").typ ≠ 50 := by decide +kernel

end Segments

namespace Print

theorem mag_nat (b : UInt64) (h : b.toNat < 2047 * 2 ^ 52) :
    magOf b = some (some (((if b.toNat / 2 ^ 52 = 0 then 2 * b.toNat else (2 ^ 52 + b.toNat % 2 ^ 52) * 2 ^ (b.toNat / 2 ^ 52) : Nat) : Rat) /
      ((2 ^ 1075 : Nat) : Rat))) := by
  have he : b.toNat / 2 ^ 52 < 2047 := Nat.div_lt_of_lt_mul (by omega)
  unfold magOf
  dsimp only
  rw [Nat.mod_eq_of_lt (Nat.lt_trans he (by decide)), if_neg (by omega)]
  by_cases h0 : b.toNat / 2 ^ 52 = 0
  · have hm : b.toNat % 2 ^ 52 = b.toNat := Nat.mod_eq_of_lt (by omega)
    rw [if_pos h0, if_pos h0, hm, show (1075 : Nat) = 1074 + 1 from rfl, Nat.pow_succ]
    have hx : ((2 ^ 1074 : Nat) : Rat) ≠ 0 := by
      have : (0 : Rat) < ((2 ^ 1074 : Nat) : Rat) := by rw [Rat.natCast_pos]; exact Nat.pow_pos (by decide)
      grind
    rw [Rat.natCast_mul, Rat.natCast_mul]
    generalize ((2 ^ 1074 : Nat) : Rat) = x at *
    have : ((2 : Nat) : Rat) = 2 := rfl
    rw [this]
    grind
  · rw [if_neg h0, if_neg h0]

/-- C110: which numbers the 64 bits of a cost or coordinate stand for: all zero is 0, and from one pattern to the next the number grows
by one unit in the last place, `2^-1074` for the first two exponents and doubling with each further one. -/
theorem C110_bits : magOf 0 = some (some 0) ∧ ∀ b : UInt64, b.toNat + 1 < 2047 * 2 ^ 52 →
    ∃ q, magOf b = some (some q) ∧
      magOf (b + 1) = some (some (q + ((2 ^ max 1 (b.toNat / 2 ^ 52) : Nat) : Rat) / ((2 ^ 1075 : Nat) : Rat))) := by
  refine ⟨by decide +kernel, fun b h => ⟨_, mag_nat b (by omega), ?_⟩⟩
  have hb : (b + 1).toNat = b.toNat + 1 := by
    rw [UInt64.toNat_add]
    exact Nat.mod_eq_of_lt (Nat.lt_trans h (by decide))
  rw [mag_nat (b + 1) (by omega), hb]
  congr 2
  have key : ∀ x : Nat, (if (x + 1) / 2 ^ 52 = 0 then 2 * (x + 1) else (2 ^ 52 + (x + 1) % 2 ^ 52) * 2 ^ ((x + 1) / 2 ^ 52)) =
      (if x / 2 ^ 52 = 0 then 2 * x else (2 ^ 52 + x % 2 ^ 52) * 2 ^ (x / 2 ^ 52)) + 2 ^ max 1 (x / 2 ^ 52) := by
    intro x
    by_cases hm : x % 2 ^ 52 + 1 < 2 ^ 52
    · have e1 : (x + 1) / 2 ^ 52 = x / 2 ^ 52 := by omega
      have e2 : (x + 1) % 2 ^ 52 = x % 2 ^ 52 + 1 := by omega
      rw [e1, e2]
      by_cases h0 : x / 2 ^ 52 = 0
      · rw [if_pos h0, if_pos h0, h0, show 2 ^ max 1 0 = 2 from rfl]; omega
      · rw [if_neg h0, if_neg h0, Nat.max_eq_right (by omega), ← Nat.add_assoc, Nat.add_mul, Nat.one_mul]
    · have e1 : (x + 1) / 2 ^ 52 = x / 2 ^ 52 + 1 := by omega
      have e2 : (x + 1) % 2 ^ 52 = 0 := by omega
      have e3 : x % 2 ^ 52 = 2 ^ 52 - 1 := by omega
      rw [e1, e2, if_neg (by omega), e3]
      by_cases h0 : x / 2 ^ 52 = 0
      · rw [if_pos h0, h0, show 2 ^ max 1 0 = 2 from rfl]; omega
      · rw [if_neg h0, Nat.max_eq_right (by omega), Nat.pow_succ 2 (x / 2 ^ 52)]
        generalize 2 ^ (x / 2 ^ 52) = y
        omega
  rw [key, Rat.natCast_add]
  generalize ((2 ^ 1075 : Nat) : Rat) = z
  rw [Rat.div_def, Rat.div_def, Rat.div_def, Rat.add_mul]

/-- 1.0 and the number after it; the least positive number. -/
example : magOf 0x3ff0000000000000 = some (some 1) ∧ magOf 0x3ff0000000000001 = some (some (1 + 1 / ((2 ^ 52 : Nat) : Rat))) ∧
    magOf 1 = some (some (1 / ((2 ^ 1074 : Nat) : Rat))) ∧ (0x3ff0000000000000 : UInt64).toNat + 1 < 2047 * 2 ^ 52 := by decide +kernel

/-- C110: times are printed with their unit, in the singular for 1 and -1 only. -/
theorem C110_unit (i : Int) :
    showMs i = (toString i ++ (if i = 1 ∨ i = -1 then " millisecond" else " milliseconds")).toList := by
  unfold showMs
  rw [C110_time, String.toList_append]
  by_cases h : i = 1 ∨ i = -1
  · rw [if_pos h, if_pos (by omega)]
  · rw [if_neg h, if_neg (by omega)]

/-- C110: the patterns that stand for no number: infinity is printed `inf`, everything above it `nan`, with a sign for the upper half of
all patterns. -/
theorem C110_special (b : UInt64) :
    (b.toNat % 2 ^ 63 = 2047 * 2 ^ 52 → showDouble b = (if 2 ^ 63 ≤ b.toNat then "-inf" else "inf").toList) ∧
    (2047 * 2 ^ 52 < b.toNat % 2 ^ 63 → showDouble b = (if 2 ^ 63 ≤ b.toNat then "-nan" else "nan").toList) := by
  have hlt := b.toNat_lt
  have he : 2047 * 2 ^ 52 ≤ b.toNat % 2 ^ 63 → b.toNat / 2 ^ 52 % 2048 = 2047 := by
    intro h
    omega
  constructor
  · intro h
    have hm : magOf b = some none := by
      unfold magOf
      dsimp only
      rw [if_pos (he (by omega)), if_pos (by omega)]
    unfold showDouble
    rw [hm]
    unfold signOf
    by_cases hs : 2 ^ 63 ≤ b.toNat
    · rw [decide_eq_true hs, if_pos hs]; decide +kernel
    · rw [decide_eq_false hs, if_neg hs]; decide +kernel
  · intro h
    have hm : magOf b = none := by
      unfold magOf
      dsimp only
      rw [if_pos (he (by omega)), if_neg (by omega)]
    unfold showDouble
    rw [hm]
    unfold signOf
    by_cases hs : 2 ^ 63 ≤ b.toNat
    · rw [decide_eq_true hs, if_pos hs]; decide +kernel
    · rw [decide_eq_false hs, if_neg hs]; decide +kernel

example : (0xfff0000000000000 : UInt64).toNat % 2 ^ 63 = 2047 * 2 ^ 52 ∧ 2047 * 2 ^ 52 < (0x7ff8000000000000 : UInt64).toNat % 2 ^ 63 := by
  decide +kernel

/-- C110: a pattern of the upper half is printed as a minus sign and what is printed for the pattern without its top bit; a
pattern of the lower half is printed with no sign in front. -/
theorem C110_sign (b : UInt64) :
    (2 ^ 63 ≤ b.toNat → showDouble b = '-' :: showDouble (b - 0x8000000000000000)) ∧
    (b.toNat < 2 ^ 63 → ∀ q, magOf b = some (some q) → showDouble b = showMag q) := by
  have hlt := b.toNat_lt
  have hc : (0x8000000000000000 : UInt64).toNat = 2 ^ 63 := by decide +kernel
  constructor
  · intro h
    have e : (b - 0x8000000000000000).toNat = b.toNat - 2 ^ 63 := by
      rw [UInt64.toNat_sub_of_le _ _ (by rw [UInt64.le_iff_toNat_le, hc]; exact h), hc]
    have hm : magOf (b - 0x8000000000000000) = magOf b := by
      unfold magOf
      rw [e]
      have h1 : (b.toNat - 2 ^ 63) / 2 ^ 52 % 2048 = b.toNat / 2 ^ 52 % 2048 := by omega
      have h2 : (b.toNat - 2 ^ 63) % 2 ^ 52 = b.toNat % 2 ^ 52 := by omega
      rw [h1, h2]
    have hs : signOf (b - 0x8000000000000000) = false := by
      unfold signOf
      rw [e]
      exact decide_eq_false (by omega)
    have hs' : signOf b = true := decide_eq_true h
    unfold showDouble
    rw [hm, hs, hs']
    rfl
  · intro h q hq
    have hs : signOf b = false := decide_eq_false (by omega)
    unfold showDouble
    rw [hs, hq]
    rfl

example : 2 ^ 63 ≤ (0xbff8000000000000 : UInt64).toNat ∧ showDouble 0xbff8000000000000 = "-1.5".toList ∧ showDouble 0x8000000000000000 = "-0".toList ∧
    showDouble 0x3ff8000000000000 = "1.5".toList := by
  decide +kernel

/-- C110: the last of the six digits is rounded to the nearest one, and to the even one if there are two. -/
theorem C110_ties {x : Rat} (hx : 0 ≤ x) {n : Nat} :
    roundEven x = n ↔ (2 * x < 2 * (n : Rat) + 1 ∧ 2 * (n : Rat) < 2 * x + 1) ∨
      (n % 2 = 0 ∧ (2 * x = 2 * (n : Rat) + 1 ∨ 2 * (n : Rat) = 2 * x + 1)) := by
  have h1 := Rat.floor_le x
  have h2 := Rat.lt_floor_add_one x
  have h0 : 0 ≤ x.floor := Rat.le_floor_iff.2 hx
  have e : ((x.floor.toNat : Nat) : Rat) = (x.floor : Rat) := by
    rw [← Rat.intCast_natCast, Int.toNat_of_nonneg h0]
  rw [Rat.intCast_add] at h2
  rw [← e] at h1 h2
  have h3 : ((1 : Int) : Rat) = 1 := rfl
  rw [h3] at h2
  unfold roundEven
  dsimp only
  generalize x.floor.toNat = f at *
  -- a whole number within one half of x is f or f + 1
  have near : 2 * x ≤ 2 * (n : Rat) + 1 → 2 * (n : Rat) ≤ 2 * x + 1 → n = f ∨ n = f + 1 ∨ (n + 1 = f ∧ x = (f : Rat) ∧ False) := by
    intro k1 k2
    have a1 : (f : Rat) < ((n + 1 : Nat) : Rat) ∨ (f : Rat) = ((n + 1 : Nat) : Rat) ∨ ((n + 1 : Nat) : Rat) < (f : Rat) := by
      rcases Nat.lt_trichotomy f (n + 1) with h | h | h
      · exact Or.inl (Rat.natCast_lt_natCast.2 h)
      · exact Or.inr (Or.inl (by rw [h]))
      · exact Or.inr (Or.inr (Rat.natCast_lt_natCast.2 h))
    have e1 : ((n + 1 : Nat) : Rat) = (n : Rat) + 1 := Rat.natCast_add n 1
    have a2 : (n : Rat) < ((f + 2 : Nat) : Rat) := by
      have : ((f + 2 : Nat) : Rat) = (f : Rat) + 2 := Rat.natCast_add f 2
      rw [this]; grind
    have b2 := Rat.natCast_lt_natCast.1 a2
    rcases a1 with a1 | a1 | a1
    · have b1 := Rat.natCast_lt_natCast.1 a1; omega
    · exfalso; grind
    · exfalso; grind
  have e1 : ((f + 1 : Nat) : Rat) = (f : Rat) + 1 := Rat.natCast_add f 1
  constructor
  · intro h
    split at h
    · subst h; left; constructor <;> grind
    · split at h
      · rw [← h, e1]; left; constructor <;> grind
      · split at h
        · subst h; right; exact ⟨by assumption, by left; grind⟩
        · right; subst h; rw [e1]; exact ⟨by omega, by right; grind⟩
  · rintro (⟨k1, k2⟩ | ⟨k0, k1⟩)
    · rcases near (by grind) (by grind) with h | h | ⟨-, -, h⟩
      · subst h
        rw [if_pos (by grind)]
      · subst h
        rw [e1] at k1 k2
        rw [if_neg (by grind), if_pos (by grind)]
      · exact h.elim
    · rcases near (by grind) (by grind) with h | h | ⟨-, -, h⟩
      · subst h
        rw [if_neg (by grind), if_neg (by grind), if_pos k0]
      · subst h
        rw [e1] at k1
        rw [if_neg (by grind), if_neg (by grind), if_neg (by omega)]
      · exact h.elim

example : roundEven (5 / 2) = 2 ∧ roundEven (7 / 2) = 4 ∧ roundEven (13 / 5) = 3 := by decide +kernel

/-- C110: `lsdb` prints a part that starts with `LSDB:`, `routing` one that starts with `Routing Table`, and `status` prints both after
a line of its own; without a routing table `routing` says so, and with one it does not. -/
theorem C110_screens (now : Int) (s : Nlsrc.Shown) :
    (∃ t, screen now "lsdb".toList s = "LSDB:\n".toList ++ t) ∧
    (s.rt = none → screen now "routing".toList s = "Routing Table is not calculated yet\n".toList) ∧
    (s.rt ≠ none → ∃ t, screen now "routing".toList s = "Routing Table:\n".toList ++ t) ∧
    screen now "status".toList s = "NLSR Status\n".toList ++ screen now "lsdb".toList s ++ screen now "routing".toList s := by
  have e1 : screen now "lsdb".toList s = lsdbText now s := by unfold screen; rw [if_pos rfl]
  have e2 : screen now "routing".toList s = rtText s := by unfold screen; rw [if_neg (by simp), if_pos rfl]
  have e3 : screen now "status".toList s = "NLSR Status".toList ++ nl ++ lsdbText now s ++ rtText s := by
    unfold screen; rw [if_neg (by simp), if_neg (by simp)]
  have join : ∀ (a : String) (t : Text), a.toList ++ nl ++ t = (a ++ "\n").toList ++ t := by
    intro a t; rw [String.toList_append]; rfl
  refine ⟨⟨(routers s).flatMap (routerText now s), ?_⟩, ?_, ?_, ?_⟩
  · rw [e1]; unfold lsdbText; rw [join]; rfl
  · intro h
    rw [e2]
    unfold rtText rtString
    rw [h]
    rfl
  · intro h
    obtain ⟨t, ht⟩ := Option.ne_none_iff_exists'.1 h
    refine ⟨t.1.flatMap entryText ++ (if t.2 = [] then [] else "Dry-Run Hyperbolic Routing Table:".toList ++ nl ++ t.2.flatMap entryText), ?_⟩
    rw [e2]
    unfold rtText rtString
    rw [ht]
    show (if tableText t ≠ [] then tableText t else _) = _
    have : tableText t = "Routing Table:\n".toList ++ (t.1.flatMap entryText ++
        (if t.2 = [] then [] else "Dry-Run Hyperbolic Routing Table:".toList ++ nl ++ t.2.flatMap entryText)) := by
      unfold tableText
      rw [List.append_assoc, join]
      rfl
    have hl : "Routing Table:\n".toList ≠ [] := by decide +kernel
    rw [this, if_pos (fun h => hl (List.append_eq_nil_iff.1 h).1)]
  · rw [e1, e2, e3, List.append_assoc, join, List.append_assoc]
    rfl

example : screen 0 "routing".toList {} = "Routing Table is not calculated yet\n".toList ∧
    screen 0 "routing".toList { rt := some ([⟨nm ["a"], [⟨"udp://x", 5, false⟩]⟩], []) } =
      "Routing Table:\n  Destination: /a\n    NextHop(Uri: udp://x, Cost: 5)\n".toList := by decide +kernel

end Print
end Nlsr
