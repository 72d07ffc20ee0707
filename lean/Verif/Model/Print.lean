import Verif.Model.NlsrcMain
/-
What `nlsrc` prints: the texts of LSAs and routing tables, tools/nlsrc.cpp:367-383, 431-478 and the `operator<<` of
src/lsa and src/route.

Simplifications: the difference of expiration time and clock does not overflow; the clock is read once; component types
that ndn-cxx prints with a word are printed with their number (see `Model/Uri`).
-/
namespace Nlsr
namespace Print
open Tlv Wire

/-! ### numbers -/

/-- The sign bit of a double.  IEEE 754. -/
def signOf (b : UInt64) : Bool := decide (2 ^ 63 ≤ b.toNat)

/-- The magnitude of a double; `none`: NaN, `some none`: infinity.  IEEE 754. -/
def magOf (b : UInt64) : Option (Option Rat) :=
  let e : Nat := b.toNat / 2 ^ 52 % 2048
  let m : Nat := b.toNat % 2 ^ 52
  if e = 2047 then (if m = 0 then some none else none)
  else if e = 0 then some (some (((m : Nat) : Rat) / ((2 ^ 1074 : Nat) : Rat)))
  else some (some ((((2 ^ 52 + m) * 2 ^ e : Nat) : Rat) / ((2 ^ 1075 : Nat) : Rat)))

/-- To the nearest whole number, ties to even; for non-negative numbers.  C library (`printf`). -/
def roundEven (x : Rat) : Nat :=
  let f := x.floor.toNat
  let r := x - f
  if r < 1 / 2 then f else if 1 / 2 < r then f + 1 else if f % 2 = 0 then f else f + 1

/-- How often a number below 1 has to be multiplied by 10 to reach 1.  Not in the code: part of `expo`. -/
def below : Nat → Rat → Nat
  | 0, _ => 1
  | fuel + 1, q => if 1 ≤ q * 10 then 1 else below fuel (q * 10) + 1

/-- The exponent of the first decimal digit of a positive number.  C library (`printf`). -/
def expo (q : Rat) : Int :=
  if 1 ≤ q then ((Uri.dec q.floor.toNat).length : Int) - 1 else - (below 400 q : Int)

/-- The first six digits of a positive number, rounded, and the exponent of the first.  C library (`printf`). -/
def six (q : Rat) : Nat × Int :=
  let e := expo q
  let d := roundEven (q * Num.pow10 (5 - e))
  if d = 1000000 then (100000, e + 1) else (d, e)

/-- Zeros at the end are left away, and the point before nothing.  C library (`printf`). -/
def frac (t : Text) : Text :=
  match (t.reverse.dropWhile (· == '0')).reverse with
  | [] => []
  | l => '.' :: l

/-- An exponent: sign and at least two digits.  C library (`printf`). -/
def showExp (e : Int) : Text :=
  (if e < 0 then '-' else '+') :: (if e.natAbs < 10 then '0' :: Uri.dec e.natAbs else Uri.dec e.natAbs)

/-- `%g`: six digits `d`, the first of which stands for `10^e`.  C library (`printf`). -/
def layout (d : Nat) (e : Int) : Text :=
  let ds := Uri.dec d
  if 0 ≤ e ∧ e < 6 then ds.take (e.toNat + 1) ++ frac (ds.drop (e.toNat + 1))
  else if -4 ≤ e ∧ e < 0 then '0' :: frac (List.replicate ((-e).toNat - 1) '0' ++ ds)
  else ds.take 1 ++ frac (ds.drop 1) ++ 'e' :: showExp e

/-- A non-negative number.  `os << double` (`%g`, six digits). -/
def showMag (q : Rat) : Text := if q = 0 then ['0'] else layout (six q).1 (six q).2

/-- `os << double`: `%g`, six digits. -/
def showDouble (b : UInt64) : Text :=
  (if signOf b then ['-'] else []) ++
    match magOf b with
    | none => ['n', 'a', 'n']
    | some none => ['i', 'n', 'f']
    | some (some q) => showMag q

/-- `os << double` for a finite number. -/
def showRat (q : Rat) : Text := if q < 0 then '-' :: showMag (-q) else showMag q

/-- `os << int`. -/
def showInt (i : Int) : Text := if i < 0 then '-' :: Uri.dec i.natAbs else Uri.dec i.natAbs

/-- `os << milliseconds`: Boost's words.  External library (Boost.Chrono). -/
def showMs (i : Int) : Text :=
  showInt i ++ (if i.natAbs = 1 then " millisecond".toList else " milliseconds".toList)

/-- `std::endl` or `"\n"`. -/
def nl : Text := ['\n']

/-- The text of a URI: octets as characters. -/
def uriText (u : Bytes) : Text := u.map (fun b => Char.ofNat b.toNat)

/-! ### LSAs -/

/-- `operator<<(std::ostream&, const Lsa&)` up to `print`, src/lsa/lsa.cpp:100-111; `kind` is the word for the type, 113-131. -/
def baseText (now : Int) (kind : String) (x : WBase) : Text :=
  "    ".toList ++ kind.toList ++ " LSA:".toList ++ nl ++
  "      Origin Router      : ".toList ++ Uri.ofName x.origin ++ nl ++
  "      Sequence Number    : ".toList ++ Uri.dec x.seq ++ nl ++
  "      Expires in         : ".toList ++ showMs (Int.tdiv (x.exp - now) 1000000) ++ nl

/-- The loop of `AdjLsa::print`, src/lsa/adj-lsa.cpp:120-126, from index `i` on. -/
def adjsText : Nat → List WAdj → Text
  | _, [] => []
  | i, a :: as =>
    "        Adjacent ".toList ++ Uri.dec i ++ ": (name=".toList ++ Uri.ofName a.name ++ ", uri=".toList ++ uriText a.uri ++
      ", cost=".toList ++ showDouble a.cost ++ ")".toList ++ nl ++ adjsText (i + 1) as

/-- `os << AdjLsa`, src/lsa/lsa.cpp:100-111, src/lsa/adj-lsa.cpp:115-127. -/
def adjText (now : Int) (x : WAdjLsa) : Text :=
  baseText now "ADJACENCY" x.base ++ "      Adjacent(s):".toList ++ nl ++ adjsText 0 x.adjs

/-- The loop of `CoordinateLsa::print`, src/lsa/coordinate-lsa.cpp:125-128. -/
def anglesText : Nat → List UInt64 → Text
  | _, [] => []
  | i, a :: as => "      Hyperbolic Theta ".toList ++ Uri.dec i ++ " : ".toList ++ showDouble a ++ nl ++ anglesText (i + 1) as

/-- `os << CoordinateLsa`, src/lsa/lsa.cpp:100-111, src/lsa/coordinate-lsa.cpp:121-129. -/
def coordText (now : Int) (x : WCoordLsa) : Text :=
  baseText now "COORDINATE" x.base ++ "      Hyperbolic Radius  : ".toList ++ showDouble x.radius ++ nl ++ anglesText 0 x.angles

/-- The loop of `NameLsa::print`, src/lsa/name-lsa.cpp:120-124. -/
def namesText : Nat → List WPrefix → Text
  | _, [] => []
  | i, p :: ps =>
    "        Name ".toList ++ Uri.dec i ++ ": ".toList ++ Uri.ofName p.name ++ " | Cost: ".toList ++ showDouble p.cost ++ nl ++
      namesText (i + 1) ps

/-- `os << NameLsa`, src/lsa/lsa.cpp:100-111, src/lsa/name-lsa.cpp:116-125. -/
def nameText (now : Int) (x : WNameLsa) : Text :=
  baseText now "NAME" x.base ++ "      Names:".toList ++ nl ++ namesText 0 x.names

/-- What is recorded under `n`, if anything.  tools/nlsrc.cpp:367-383. -/
def recorded {α : Type} (l : List (Name × α)) (n : Name) : Option α := (l.find? (fun p => decide (p.1 = n))).map (·.2)

/-- The keys of `m_routers`, in its order.  tools/nlsrc.cpp:370, tools/nlsrc.hpp:168. -/
def routers (s : Nlsrc.Shown) : List Name :=
  (s.adj.map (·.1) ++ s.cor.map (·.1) ++ s.name.map (·.1)).foldl (fun l n => setInsert Name.lt n l) []

/-- One of the three `if`s in the loop of `printLsdb`: the text and a line end.  tools/nlsrc.cpp:450-460. -/
def part : Option Text → Text
  | none => []
  | some t => t ++ nl

/-- The loop body of `printLsdb`, tools/nlsrc.cpp:444-461. -/
def routerText (now : Int) (s : Nlsrc.Shown) (n : Name) : Text :=
  "  OriginRouter: ".toList ++ Uri.ofName n ++ nl ++ nl ++
  part ((recorded s.adj n).map (adjText now)) ++ part ((recorded s.cor n).map (coordText now)) ++
  part ((recorded s.name n).map (nameText now))

/-- `printLsdb`, tools/nlsrc.cpp:439-462. -/
def lsdbText (now : Int) (s : Nlsrc.Shown) : Text := "LSDB:".toList ++ nl ++ (routers s).flatMap (routerText now s)

/-! ### routing tables -/

/-- `os << NextHop`, src/route/nexthop.cpp:101-106. -/
def hopText (h : NextHop) : Text :=
  "NextHop(Uri: ".toList ++ h.uri.toList ++ ", Cost: ".toList ++ showRat h.cost ++ ")".toList

/-- What `make_ostream_joiner(os, "\n    ")` writes.  src/route/nexthop-list.hpp:170. -/
def joined : List Text → Text
  | [] => []
  | [t] => t
  | t :: ts => t ++ nl ++ "    ".toList ++ joined ts

/-- `os << RoutingTableEntry`, src/route/routing-table-entry.cpp:97-102, src/route/nexthop-list.hpp:165-172. -/
def entryText (e : RtEntry) : Text :=
  "  Destination: ".toList ++ Uri.ofName e.dest ++ nl ++ "    ".toList ++ joined (e.hops.map hopText) ++ nl

/-- `os << RoutingTableStatus`, src/route/routing-table.cpp:312-328. -/
def tableText (t : RTable × RTable) : Text :=
  "Routing Table:".toList ++ nl ++ t.1.flatMap entryText ++
  (if t.2 = [] then [] else "Dry-Run Hyperbolic Routing Table:".toList ++ nl ++ t.2.flatMap entryText)

/-- `m_rtString`: empty if no table was recorded.  tools/nlsrc.cpp:431-437. -/
def rtString (s : Nlsrc.Shown) : Text := (s.rt.map tableText).getD []

/-- `printRT`, tools/nlsrc.cpp:464-472. -/
def rtText (s : Nlsrc.Shown) : Text :=
  if rtString s ≠ [] then rtString s else "Routing Table is not calculated yet".toList ++ nl

/-- What is printed for `lsdb`, `routing` and `status`.  tools/nlsrc.cpp:136-160, 474-478. -/
def screen (now : Int) (w : Text) (s : Nlsrc.Shown) : Text :=
  if w = "lsdb".toList then lsdbText now s
  else if w = "routing".toList then rtText s
  else "NLSR Status".toList ++ nl ++ lsdbText now s ++ rtText s

end Print
end Nlsr
