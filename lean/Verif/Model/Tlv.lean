import Verif.Model.Basic
/-
NDN TLV primitives (ndn-cxx `encoding/tlv.hpp`, `block.cpp`, `block-helpers.cpp`: external library,
modelled because the codecs of src/lsa, src/adjacent.cpp, src/name-prefix-list.cpp and src/route rest
on them) as functions on byte lists.
-/
namespace Nlsr.Tlv

/-- `ndn::Buffer`. -/
abbrev Bytes := List UInt8

/-- `n` as `k` big-endian octets. -/
def be : Nat → Nat → Bytes
  | 0, _ => []
  | k + 1, n => be k (n / 256) ++ [UInt8.ofNat n]

/-- Big-endian value. -/
def fromBe (b : Bytes) : Nat := b.foldl (fun a x => a * 256 + x.toNat) 0

/-- VAR-NUMBER (`writeVarNumber`). -/
def encVar (n : Nat) : Bytes :=
  if n < 253 then [UInt8.ofNat n]
  else if n < 65536 then 253 :: be 2 n
  else if n < 4294967296 then 254 :: be 4 n
  else 255 :: be 8 n

/-- Octets following the first one of a VAR-NUMBER. -/
def varWidth (b : UInt8) : Nat := if b < 253 then 0 else if b = 253 then 2 else if b = 254 then 4 else 8

/-- `readVarNumber`: value and remaining octets. -/
def decVar : Bytes → Option (Nat × Bytes)
  | [] => none
  | b :: rest =>
    if b < 253 then some (b.toNat, rest)
    else if rest.length < varWidth b then none
    else some (fromBe (rest.take (varWidth b)), rest.drop (varWidth b))

/-- A TLV block: type, length, value. -/
def block (t : Nat) (v : Bytes) : Bytes := encVar t ++ encVar v.length ++ v

/-- Read one block (`Block(Buffer)` / one element of `Block::parse`): type in `1 .. 2^32-1`
(`readType`), length not beyond the buffer. -/
def decBlock (b : Bytes) : Option (Nat × Bytes × Bytes) :=
  match decVar b with
  | none => none
  | some (t, r) =>
    if 1 ≤ t ∧ t < 4294967296 then
      match decVar r with
      | none => none
      | some (l, r') => if l ≤ r'.length then some (t, r'.take l, r'.drop l) else none
    else none

/-- A parsed element: type and value octets.  External library ndn-cxx. -/
abbrev Elem := Nat × Bytes

/-- `Block::parse`: the sequence of elements, failing on any trailing garbage.  `fuel` bounds the
number of elements; each takes at least two octets. -/
def parseN : Nat → Bytes → Option (List Elem)
  | _, [] => some []
  | 0, _ :: _ => none
  | fuel + 1, b =>
    match decBlock b with
    | none => none
    | some (t, v, rest) => (parseN fuel rest).map ((t, v) :: ·)

/-- `Block::parse` (ndn-cxx) with enough fuel. -/
def parse (b : Bytes) : Option (List Elem) := parseN b.length b

/-- `prependNonNegativeIntegerBlock` value: 1, 2, 4 or 8 octets. -/
def encNni (n : Nat) : Bytes :=
  if n < 256 then be 1 n
  else if n < 65536 then be 2 n
  else if n < 4294967296 then be 4 n
  else be 8 n

/-- `readNonNegativeInteger`: length must be 1, 2, 4 or 8. -/
def decNni (b : Bytes) : Option Nat :=
  if b.length = 1 ∨ b.length = 2 ∨ b.length = 4 ∨ b.length = 8 then some (fromBe b) else none

/-- `prependDoubleBlock` value: the 64-bit pattern, big-endian. -/
def encDouble (d : UInt64) : Bytes := be 8 d.toNat

/-- `readDouble`: 8 octets, or 4 octets converted by `f32` (IEEE single to double, left abstract). -/
def decDouble (f32 : UInt32 → UInt64) (b : Bytes) : Option UInt64 :=
  if b.length = 8 then some (UInt64.ofNat (fromBe b))
  else if b.length = 4 then some (f32 (UInt32.ofNat (fromBe b)))
  else none

/-- `Name::wireEncode`: type 7, components in order. -/
def encComps : Name → Bytes
  | [] => []
  | c :: cs => block c.typ c.val ++ encComps cs

/-- `Name::wireEncode` (ndn-cxx). -/
def encName (n : Name) : Bytes := block 7 (encComps n)

/-- `Name::wireDecode` on the value octets (component types are not checked further). -/
def decName (v : Bytes) : Option Name := (parse v).map (List.map fun e => ⟨e.1, e.2⟩)

end Nlsr.Tlv
