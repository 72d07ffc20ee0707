import Verif.Model.Basic
/-
Text forms of names, as configuration files, commands and logs use them: `Name::toUri` and `Name(uri)` of
ndn-cxx (external library).  A text is a list of octets seen as characters below 256.

Simplification: component types that ndn-cxx prints with a word (`seg=`, `v=`, `sha256digest=`, …) are printed
with their number here, like every other type.
-/
namespace Nlsr

/-- `std::string`. -/
abbrev Text := List Char

namespace Uri

/-- Characters printed as themselves: letters, digits, `-`, `.`, `_`, `~`. -/
def unreserved (c : Char) : Bool := c.isAlphanum || c == '-' || c == '.' || c == '_' || c == '~'

/-- External library ndn-cxx, `ndn::escape`. -/
def hexDigit (n : Nat) : Char := (['0', '1', '2', '3', '4', '5', '6', '7', '8', '9', 'A', 'B', 'C', 'D', 'E', 'F'])[n]?.getD '0'

/-- External library ndn-cxx, `ndn::escape`. -/
def escByte (b : UInt8) : Text :=
  let c := Char.ofNat b.toNat
  if unreserved c then [c] else ['%', hexDigit (b.toNat / 16), hexDigit (b.toNat % 16)]

/-- `ndn::escape`. -/
def escape (v : List UInt8) : Text := v.flatMap escByte

/-- Value part of a component: values made of periods only get three more. -/
def escValue (v : List UInt8) : Text := (if v.all (· == 46) then ['.', '.', '.'] else []) ++ escape v

/-- A decimal digit. -/
def digit (n : Nat) : Char := Char.ofNat (48 + n)

/-- Decimal digits, `std::to_string`. -/
def dec (n : Nat) : Text := if n < 10 then [digit n] else dec (n / 10) ++ [digit (n % 10)]

/-- `Component::toUri`. -/
def ofComp (c : Comp) : Text := if c.typ = 8 then escValue c.val else dec c.typ ++ '=' :: escValue c.val

/-- `Name::toUri`. -/
def ofName : Name → Text
  | [] => ['/']
  | n => n.flatMap (fun c => '/' :: ofComp c)

/-- `fromHexChar`. -/
def hexVal (c : Char) : Option Nat :=
  if '0'.toNat ≤ c.toNat ∧ c.toNat ≤ '9'.toNat then some (c.toNat - '0'.toNat)
  else if 'A'.toNat ≤ c.toNat ∧ c.toNat ≤ 'F'.toNat then some (c.toNat - 'A'.toNat + 10)
  else if 'a'.toNat ≤ c.toNat ∧ c.toNat ≤ 'f'.toNat then some (c.toNat - 'a'.toNat + 10)
  else none

/-- A character as an octet. -/
def byte (c : Char) : UInt8 := UInt8.ofNat c.toNat

/-- `ndn::unescape`: a malformed `%` sequence stands for itself. -/
def unescape : Text → List UInt8
  | '%' :: a :: b :: t =>
    match hexVal a, hexVal b with
    | some x, some y => UInt8.ofNat (x * 16 + y) :: unescape t
    | _, _ => byte '%' :: byte a :: byte b :: unescape t
  | c :: t => byte c :: unescape t
  | [] => []

/-- `parseUriEscapedValue`: texts of periods only need three too many. -/
def parseValue (t : Text) : Option (List UInt8) :=
  let v := unescape t
  if v.all (· == 46) then (if v.length < 3 then none else some (v.drop 3)) else some v

/-- External library (`boost::lexical_cast`). -/
def decVal (c : Char) : Option Nat := if '0'.toNat ≤ c.toNat ∧ c.toNat ≤ '9'.toNat then some (c.toNat - '0'.toNat) else none

/-- A decimal number: digits only, at least one. -/
def parseDec (t : Text) : Option Nat :=
  if t = [] then none else t.foldl (fun a c => match a, decVal c with | some n, some d => some (n * 10 + d) | _, _ => none) (some 0)

/-- The component type before `=`: a number from 1 to 65535 without leading zeros. -/
def parseType (t : Text) : Option Nat :=
  match parseDec t with
  | some n => if 1 ≤ n ∧ n ≤ 65535 ∧ t.head? ≠ some '0' then some n else none
  | none => none

/-- `Component::fromUri`; `none` is an exception. -/
def parseComp (t : Text) : Option Comp :=
  if t.contains '=' then
    match parseType (t.takeWhile (· != '=')), parseValue ((t.dropWhile (· != '=')).drop 1) with
    | some n, some v => some ⟨n, v⟩
    | _, _ => none
  else (parseValue t).map (⟨8, ·⟩)

/-- Pieces between separators. -/
def splitAt (sep : Char) : Text → List Text
  | [] => [[]]
  | c :: t =>
    if c = sep then [] :: splitAt sep t
    else match splitAt sep t with
      | [] => [[c]]
      | p :: ps => (c :: p) :: ps

/-- The components of a name text without its leading slash; a slash at the end adds nothing. -/
def pieces (t : Text) : List Text :=
  let ps := splitAt '/' t
  if ps.getLast? = some [] then ps.dropLast else ps

/-- `scheme:` before the first slash is dropped. -/
def dropScheme (t : Text) : Text :=
  if (t.takeWhile (· != '/')).contains ':' then (t.dropWhile (· != ':')).drop 1 else t

/-- A leading slash, or `//authority/`, is dropped. -/
def dropLead : Text → Text
  | '/' :: '/' :: t => (t.dropWhile (· != '/')).drop 1
  | '/' :: t => t
  | t => t

/-- `Name(uri)`; `none` is an exception. -/
def parseName (t : Text) : Option Name := (pieces (dropLead (dropScheme t))).mapM parseComp

end Uri
end Nlsr
