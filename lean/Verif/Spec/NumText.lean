import Verif.Model.Num
/-
What a text has to look like to stand for a number, written down from the grammar of `std::num_get` in the C locale (external
library, used through `ptree::get` in src/conf-file-processor.cpp:285-460, 498, 544), without the functions that read it.
-/
namespace Nlsr.NumText

/-- The six white space characters.  External library (`std::isspace`). -/
def Blank (t : Text) : Prop := ∀ c ∈ t, c ∈ [' ', '\t', '\n', '\x0b', '\x0c', '\r']

/-- Ten digits and nothing else. -/
def Digits (t : Text) : Prop := ∀ c ∈ t, c ∈ ['0', '1', '2', '3', '4', '5', '6', '7', '8', '9']

/-- The number in base ten: each digit counts for a power of ten. -/
def value : Text → Nat
  | [] => 0
  | c :: t => (c.toNat - '0'.toNat) * 10 ^ t.length + value t

/-- `-`, or `+`, or nothing. -/
def Sign (neg : Bool) (t : Text) : Prop := (neg = true ∧ t = ['-']) ∨ (neg = false ∧ (t = [] ∨ t = ['+']))

/-- White space, a sign, at least one digit, white space. -/
def IsInt (t : Text) (neg : Bool) (n : Nat) : Prop :=
  ∃ sp sg ds sp', t = sp ++ (sg ++ (ds ++ sp')) ∧ Blank sp ∧ Sign neg sg ∧ ds ≠ [] ∧ Digits ds ∧ Blank sp' ∧ n = value ds

/-- The value an unsigned parameter of `bits` bits takes: minus counts from the upper end. -/
def IsUnsigned (bits : Nat) (t : Text) (k : Nat) : Prop :=
  ∃ neg n, IsInt t neg n ∧ n < 2 ^ bits ∧ k = if neg = true ∧ n ≠ 0 then 2 ^ bits - n else n

/-- The value a signed parameter of `bits` bits takes. -/
def IsSigned (bits : Nat) (t : Text) (k : Int) : Prop :=
  (∃ n, IsInt t false n ∧ n < 2 ^ (bits - 1) ∧ k = n) ∨ (∃ n, IsInt t true n ∧ n ≤ 2 ^ (bits - 1) ∧ k = -(n : Int))

/-- The fraction: a dot and digits, or nothing. -/
def Fraction (t fp : Text) : Prop := (t = [] ∧ fp = []) ∨ (t = '.' :: fp ∧ Digits fp)

/-- The exponent: the letter, a sign and digits, or nothing. -/
def Exponent (t : Text) (e : Int) : Prop :=
  (t = [] ∧ e = 0) ∨ ∃ c neg sg ds, t = c :: (sg ++ ds) ∧ (c = 'e' ∨ c = 'E') ∧ Sign neg sg ∧ ds ≠ [] ∧ Digits ds ∧
    e = if neg = true then -(value ds : Int) else (value ds : Int)

/-- A decimal fraction with its value; not larger than the largest double. -/
def IsReal (t : Text) (q : Rat) : Prop :=
  ∃ sp neg sg ip ft fp et e sp', t = sp ++ (sg ++ (ip ++ (ft ++ (et ++ sp')))) ∧ Blank sp ∧ Sign neg sg ∧ Digits ip ∧ Fraction ft fp ∧
    Exponent et e ∧ Blank sp' ∧ ¬ (ip = [] ∧ fp = []) ∧
    (value (ip ++ fp) : Rat) * Num.pow10 (e - fp.length) ≤ Num.dblMax ∧
    q = (if neg = true then -1 else 1) * ((value (ip ++ fp) : Rat) * Num.pow10 (e - fp.length))

/-- Where a decimal fraction ends: nothing follows that could belong to it. -/
def Ends (ft et rest : Text) : Prop :=
  ∀ c, rest.head? = some c → c ∉ ['0', '1', '2', '3', '4', '5', '6', '7', '8', '9'] ∧
    (et = [] → c ≠ 'e' ∧ c ≠ 'E' ∧ (ft = [] → c ≠ '.'))

/-- The decimal fraction at the front of a text, which goes as far as possible, its value, and the rest. -/
def RealAhead (t : Text) (q : Rat) (rest : Text) : Prop :=
  ∃ sp neg sg ip ft fp et e, t = sp ++ (sg ++ (ip ++ (ft ++ (et ++ rest)))) ∧ Blank sp ∧ Sign neg sg ∧ Digits ip ∧ Fraction ft fp ∧
    Exponent et e ∧ Ends ft et rest ∧ ¬ (ip = [] ∧ fp = []) ∧
    (value (ip ++ fp) : Rat) * Num.pow10 (e - fp.length) ≤ Num.dblMax ∧
    q = (if neg = true then -1 else 1) * ((value (ip ++ fp) : Rat) * Num.pow10 (e - fp.length))

/-- The text of the angles: decimal fractions with a comma, a space or nothing between them (and white space before each), up to the first
thing that is none; the rest is ignored.  src/conf-file-processor.cpp:549-554. -/
inductive Angles : Text → List Rat → Prop
  | stop {t : Text} (h : ¬ ∃ q r, RealAhead t q r) : Angles t []
  | skip {t r : Text} {q : Rat} {qs : List Rat} (c : Char) (hc : c = ',' ∨ c = ' ') (h : RealAhead t q (c :: r)) (hr : Angles r qs) :
      Angles t (q :: qs)
  | more {t r : Text} {q : Rat} {qs : List Rat} (hc : r.head? ≠ some ',' ∧ r.head? ≠ some ' ') (h : RealAhead t q r) (hr : Angles r qs) :
      Angles t (q :: qs)

end Nlsr.NumText
