import Verif.Model.Uri
/-
Numbers in texts: what `std::istream >> x` and `boost::lexical_cast`/`ptree::get<T>` make of them (C locale).
External libraries; doubles are read as exact rationals (rounding is not modelled).
-/
namespace Nlsr.Num

/-- `std::isspace`. -/
def isSpace (c : Char) : Bool := [' ', '\t', '\n', '\x0b', '\x0c', '\r'].contains c

/-- `std::isdigit` in the C locale. -/
def isDigit (c : Char) : Bool := (Uri.decVal c).isSome

/-- The number a run of digits stands for.  External library (`std::num_get`). -/
def decOf (t : Text) : Nat := t.foldl (fun a c => a * 10 + (Uri.decVal c).getD 0) 0

/-- An optional sign: negative?, and the rest.  External library (`std::num_get`). -/
def sign : Text → Bool × Text
  | '-' :: t => (true, t)
  | '+' :: t => (false, t)
  | t => (false, t)

/-- Sign, magnitude and rest of an integer at the front (`num_get`, base 10); at least one digit.  External library. -/
def readInt (t : Text) : Option (Bool × Nat × Text) :=
  let (neg, r) := sign (t.dropWhile isSpace)
  let ds := r.takeWhile isDigit
  if ds = [] then none else some (neg, decOf ds, r.dropWhile isDigit)

/-- `stream >> unsigned` of `bits` bits: a negative number is taken modulo `2^bits`; too large fails.
External library. -/
def readUnsigned (bits : Nat) (t : Text) : Option (Nat × Text) :=
  match readInt t with
  | none => none
  | some (neg, n, r) => if n < 2 ^ bits then some (if neg then (2 ^ bits - n) % 2 ^ bits else n, r) else none

/-- `stream >> signed` of `bits` bits.  External library. -/
def readSigned (bits : Nat) (t : Text) : Option (Int × Text) :=
  match readInt t with
  | none => none
  | some (neg, n, r) =>
    if neg then (if n ≤ 2 ^ (bits - 1) then some (-(n : Int), r) else none)
    else if n < 2 ^ (bits - 1) then some ((n : Int), r) else none

/-- The largest finite double.  `std::numeric_limits<double>::max()`. -/
def dblMax : Rat := ((2 ^ 53 - 1) * 2 ^ 971 : Nat)

/-- The exponent part: value and rest; `none`: `e` without digits.  External library (`std::num_get`). -/
def readExp : Text → Option (Int × Text)
  | 'e' :: t | 'E' :: t =>
    let (neg, r) := sign t
    let ds := r.takeWhile isDigit
    if ds = [] then none else some (if neg then -(decOf ds : Int) else decOf ds, r.dropWhile isDigit)
  | t => some (0, t)

/-- `10^e`.  Not in the code. -/
def pow10 (e : Int) : Rat := if 0 ≤ e then ((10 ^ e.toNat : Nat) : Rat) else 1 / ((10 ^ (-e).toNat : Nat) : Rat)

/-- `stream >> double`: value and rest.  External library (`std::num_get`). -/
def readDouble (t : Text) : Option (Rat × Text) :=
  let (neg, r) := sign (t.dropWhile isSpace)
  let ip := r.takeWhile isDigit
  let r1 := r.dropWhile isDigit
  let (fp, r2) := match r1 with
    | '.' :: q => (q.takeWhile isDigit, q.dropWhile isDigit)
    | q => ([], q)
  if ip = [] ∧ fp = [] then none
  else match readExp r2 with
    | none => none
    | some (e, r3) =>
      let v : Rat := (decOf (ip ++ fp) : Rat) * pow10 (e - fp.length)
      if v ≤ dblMax then some (if neg then -v else v, r3) else none

/-- `ptree::get<T>`: everything has to be used, up to white space.  External library (Boost). -/
def entire {α : Type} (x : Option (α × Text)) : Option α :=
  match x with
  | some (v, r) => if r.all isSpace then some v else none
  | none => none

/-- `ptree::get<uint32_t>` and the like (Boost), as in src/conf-file-processor.cpp:407. -/
def parseUnsigned (bits : Nat) (t : Text) : Option Nat := entire (readUnsigned bits t)
/-- `ptree::get<int>` and the like (Boost), as in src/conf-file-processor.cpp:395. -/
def parseSigned (bits : Nat) (t : Text) : Option Int := entire (readSigned bits t)
/-- `ptree::get<double>` (Boost), as in src/conf-file-processor.cpp:498, 544. -/
def parseDouble (t : Text) : Option Rat := entire (readDouble t)

end Nlsr.Num
