import Verif.Model.Basic
/- Conversions between 64-bit integers and doubles, as `static_cast` and implicit conversions do them (IEEE 754). -/
namespace Nlsr.Dbl

/-- `(double) n` for an unsigned integer: 53 significant bits, nearest, ties to even.
As in src/update/command-processor.cpp:53-54 (the cost given to `NamePrefixList::insert`). -/
def roundNat (n : Nat) : Nat :=
  if n < 2 ^ 53 then n
  else
    let e := Nat.log2 n - 52
    let q := n / 2 ^ e
    let r := n % 2 ^ e
    let up := 2 ^ e < 2 * r ∨ (2 ^ e = 2 * r ∧ q % 2 = 1)
    (if up then q + 1 else q) * 2 ^ e

/-- `(uint64_t) x` for a non-negative double holding an integer; `none` is undefined behaviour.
As in src/update/command-processor.cpp:59, src/update/prefix-update-processor.cpp:154-158. -/
def toU64 (n : Nat) : Option Nat := if n < 2 ^ 64 then some n else none

end Nlsr.Dbl
