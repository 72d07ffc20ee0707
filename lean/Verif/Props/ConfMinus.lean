import Verif.Props.ConfNames
/- C72: numbers that are written with a minus sign. -/
namespace Nlsr
open Conf

namespace Num

theorem readInt_minus (n : Nat) : readInt ('-' :: Uri.dec n) = some (true, n, []) := by
  have hd := isDigit_dec n
  have hs : sign ('-' :: Uri.dec n) = (true, Uri.dec n) := rfl
  unfold readInt
  rw [List.dropWhile_cons_of_neg (by decide), hs]
  dsimp only
  rw [takeWhile_all hd, dropWhile_all hd, if_neg (Uri.dec_ne n), Uri.decOf_dec]

theorem parseUnsigned_minus (n : Nat) :
    parseUnsigned 32 ('-' :: Uri.dec n) = if n < 2 ^ 32 then some ((2 ^ 32 - n) % 2 ^ 32) else none := by
  unfold parseUnsigned readUnsigned
  rw [readInt_minus]
  dsimp only
  by_cases h : n < 2 ^ 32
  · rw [if_pos h, if_pos h]; rfl
  · rw [if_neg h, if_neg h]; rfl

theorem parseSigned_minus {n : Nat} (h : n ≤ 2 ^ 31) : parseSigned 32 ('-' :: Uri.dec n) = some (-(n : Int)) := by
  unfold parseSigned readSigned
  rw [readInt_minus]
  dsimp only
  rw [if_pos rfl, if_pos h]
  rfl

end Num

/-- The file has one section `sec`, and in it the value of `key` is `-n`. -/
def WrittenMinus (t : Tree) (sec key : String) (n : Nat) : Prop :=
  ∃ x, OnlySection t sec x ∧ Line x.2 key ('-' :: Uri.dec n)

/-- What the code makes of `-n` where it reads an unsigned number of 32 bits: zero stays zero, a number of 32 bits is
counted back from 2^32, and for a larger one `d` is used. -/
def wrap (n d : Nat) : Nat := if n = 0 then 0 else if n < 2 ^ 32 then 2 ^ 32 - n else d

theorem minus_get {x : Tree} {key : String} {n : Nat} (h : Line x key ('-' :: Uri.dec n)) :
    (∀ d, getU32 x key d = wrap n d) ∧ (∀ lo hi d k, configVar x key lo hi d = some k → k = wrap n d) ∧
    (n ≤ 2 ^ 31 → ∀ d, getInt x key d = -(n : Int)) := by
  have hu : ∀ d, (Num.parseUnsigned 32 ('-' :: Uri.dec n)).getD d = wrap n d := by
    intro d
    rw [Num.parseUnsigned_minus]
    unfold wrap
    by_cases h0 : n = 0
    · subst h0; rw [if_pos rfl, if_pos (by decide)]; rfl
    · rw [if_neg h0]
      by_cases h1 : n < 2 ^ 32
      · rw [if_pos h1, if_pos h1]
        exact Nat.mod_eq_of_lt (by omega)
      · rw [if_neg h1, if_neg h1]; rfl
  refine ⟨fun d => ?_, fun lo hi d k hk => ?_, fun hn d => ?_⟩
  · unfold getU32; rw [lookup_line.2 h]; exact hu d
  · unfold configVar at hk
    rw [lookup_line.2 h] at hk
    dsimp only at hk
    have := hu d
    split at hk
    · rename_i e
      rw [e] at this
      injection hk with hk
      rw [← hk]; exact this
    · rename_i v e
      rw [e] at this
      split at hk
      · cases hk
      · injection hk with hk
        rw [← hk]; exact this
  · unfold getInt; rw [lookup_line.2 h]; dsimp only; rw [Num.parseSigned_minus hn]; rfl

/-- C72, negative numbers: where the code reads an unsigned number, `-n` in an accepted configuration is not refused as such but
counted back from 2^32 (`C72_violated_negative`), or the default if it does not fit; `-0` is zero.  Where it reads an `int`, the value
is the one written, so that it is subject to the tests of the range (`C52_in_range_partial`). -/
theorem C72_minus_partial {env : ConfEnv} {t : Tree} {p : Params} (h : load env t = some p) (n : Nat) :
    (WrittenMinus t "general" "lsa-refresh-time" n → p.refresh = wrap n 1800) ∧
    (WrittenMinus t "general" "router-dead-interval" n → p.dead = wrap n (2 * p.refresh)) ∧
    (WrittenMinus t "general" "lsa-interest-lifetime" n → n ≤ 2 ^ 31 → p.lifetime = -(n : Int)) ∧
    (WrittenMinus t "general" "sync-interest-lifetime" n → p.syncLifetime = wrap n 60000) ∧
    (WrittenMinus t "neighbors" "hello-retries" n → n ≤ 2 ^ 31 → p.retries = -(n : Int)) ∧
    (WrittenMinus t "neighbors" "hello-timeout" n → p.timeout = wrap n 1) ∧
    (WrittenMinus t "neighbors" "hello-interval" n → p.helloInterval = wrap n 60) ∧
    (WrittenMinus t "neighbors" "adj-lsa-build-interval" n → p.buildInterval = wrap n 10) ∧
    (WrittenMinus t "neighbors" "face-dataset-fetch-interval" n → p.fetchInterval = wrap n 3600) ∧
    (WrittenMinus t "fib" "max-faces-per-prefix" n → n ≤ 2 ^ 31 → p.maxFaces = -(n : Int)) ∧
    (WrittenMinus t "fib" "routing-calc-interval" n → p.calcInterval = wrap n 15) := by
  have gen' := general_read h
  have nei := neighbors_read h
  have fb := fib_read h
  refine ⟨?_, ?_, ?_, ?_, ?_, ?_, ?_, ?_, ?_, ?_, ?_⟩ <;> rintro ⟨x, hx, hl⟩
  · rw [(gen' x hx).1]; exact (minus_get hl).1 _
  · rw [(gen' x hx).2.1]; exact (minus_get hl).1 _
  · intro hn; rw [(gen' x hx).2.2.1]; exact (minus_get hl).2.2 hn _
  · rw [(gen' x hx).2.2.2]; exact (minus_get hl).1 _
  · intro hn; rw [(nei x hx).1]; exact (minus_get hl).2.2 hn _
  · rw [(nei x hx).2.1]; exact (minus_get hl).1 _
  · rw [(nei x hx).2.2.1]; exact (minus_get hl).1 _
  · exact (minus_get hl).2.1 _ _ _ _ (nei x hx).2.2.2.1
  · exact (minus_get hl).2.1 _ _ _ _ (nei x hx).2.2.2.2.2
  · intro hn; rw [(fb x hx).1]; exact (minus_get hl).2.2 hn _
  · exact (minus_get hl).2.1 _ _ _ _ (fb x hx).2

/-- A case: a refresh time of -4294965496 is accepted, as 1800; and a dead interval of -1. -/
example :
    (∃ p, load exEnv (.node [] [exGeneralWith "lsa-refresh-time" "-4294965496"]) = some p ∧
      WrittenMinus (.node [] [exGeneralWith "lsa-refresh-time" "-4294965496"]) "general" "lsa-refresh-time" 4294965496 ∧ p.refresh = 1800) ∧
    ∃ p, load exEnv (.node [] [exGeneralWith "router-dead-interval" "-1"]) = some p ∧
      WrittenMinus (.node [] [exGeneralWith "router-dead-interval" "-1"]) "general" "router-dead-interval" 1 ∧ p.dead = 4294967295 := by
  constructor
  · have h : (load exEnv (.node [] [exGeneralWith "lsa-refresh-time" "-4294965496"])).map (·.refresh) = some 1800 := by decide +kernel
    obtain ⟨p, hp, h2⟩ := Option.map_eq_some_iff.1 h
    exact ⟨p, hp, ⟨exGeneralWith "lsa-refresh-time" "-4294965496",
      by simp [OnlySection, Tree.kids, exGeneralWith, confSection], lookup_line.1 (by decide +kernel)⟩, h2⟩
  · have h : (load exEnv (.node [] [exGeneralWith "router-dead-interval" "-1"])).map (·.dead) = some 4294967295 := by decide +kernel
    obtain ⟨p, hp, h2⟩ := Option.map_eq_some_iff.1 h
    exact ⟨p, hp, ⟨exGeneralWith "router-dead-interval" "-1",
      by simp [OnlySection, Tree.kids, exGeneralWith, confSection], lookup_line.1 (by decide +kernel)⟩, h2⟩

end Nlsr
