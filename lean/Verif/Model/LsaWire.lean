import Verif.Model.Tlv
import Verif.Model.RoutingTable
/-
Wire formats of LSAs and of the routing-table dataset.
Models src/lsa/{lsa,adj-lsa,coordinate-lsa,name-lsa}.cpp, src/adjacent.cpp, src/name-prefix-list.cpp,
src/route/{nexthop,routing-table-entry,routing-table}.cpp.  Doubles are 64-bit patterns; URIs and
time strings are octet strings.  Encoders prepend in C++; here they are written front to back.
-/
namespace Nlsr.Wire
open Tlv

/-- External text codecs: `FaceUri(string)` (throws on an invalid URI; `toString` of the parsed URI is
`uri`), `time::fromString`/`toString`.  Used in src/adjacent.cpp:143-145 and src/lsa/lsa.cpp:83-95. -/
structure Codec where
  /-- canonical text of an accepted URI -/
  uri : Bytes → Option Bytes
  timeTo : Int → Bytes
  timeFrom : Bytes → Option Int
  f32 : UInt32 → UInt64

/-- src/adjacent.hpp: the fields that go on the wire. -/
structure WAdj where
  name : Name
  uri  : Bytes
  cost : UInt64
deriving DecidableEq, Repr

/-- src/name-prefix-list.hpp `PrefixInfo`. -/
structure WPrefix where
  name : Name
  cost : UInt64
deriving DecidableEq, Repr

/-- `Lsa` base fields.  src/lsa/lsa.hpp:139-141. -/
structure WBase where
  origin : Name
  seq : Nat
  exp : Int
deriving DecidableEq, Repr

/-- `AdjLsa`, src/lsa/adj-lsa.hpp:129. -/
structure WAdjLsa where
  base : WBase
  adjs : List WAdj
deriving DecidableEq, Repr

/-- `NameLsa`, src/lsa/name-lsa.hpp:121. -/
structure WNameLsa where
  base : WBase
  names : List WPrefix
deriving DecidableEq, Repr

/-- `CoordinateLsa`, src/lsa/coordinate-lsa.hpp:131-132. -/
structure WCoordLsa where
  base : WBase
  radius : UInt64
  angles : List UInt64
deriving DecidableEq, Repr

/-- The "expected element of type `t`, then advance" step used by all decoders.  E.g. src/adjacent.cpp:131-139. -/
def expect (t : Nat) : List Elem → Option (Bytes × List Elem)
  | [] => none
  | e :: es => if e.1 = t then some (e.2, es) else none

/-- The "loop over the remaining elements, all of type `t`" pattern.  E.g. src/lsa/adj-lsa.cpp:104-113. -/
def loopOf {α : Type} (t : Nat) (f : Bytes → Option α) : List Elem → Option (List α)
  | [] => some []
  | e :: es =>
    if e.1 = t then
      match f e.2, loopOf t f es with
      | some a, some as => some (a :: as)
      | _, _ => none
    else none

/-- A top-level block of type `t` filling the buffer (`Block(bufferPtr)` and the type test).
E.g. src/lsa/adj-lsa.cpp:84-89. -/
def top (t : Nat) (b : Bytes) : Option Bytes :=
  match decBlock b with
  | some (t', v, []) => if t' = t then some v else none
  | _ => none

/-- `Lsa::wireEncode`, src/lsa/lsa.cpp:42-60. -/
def encBase (C : Codec) (b : WBase) : Bytes :=
  block 128 (encName b.origin ++ block 130 (encNni b.seq) ++ block 139 (C.timeTo b.exp))

/-- `Lsa::wireDecode`, src/lsa/lsa.cpp:64-98 (elements after ExpirationTime are ignored). -/
def decBase (C : Codec) (v : Bytes) : Option WBase := do
  let es ← parse v
  let (nv, es) ← expect 7 es
  let origin ← decName nv
  let (sv, es) ← expect 130 es
  let seq ← decNni sv
  let (tv, _) ← expect 139 es
  let exp ← C.timeFrom tv
  some ⟨origin, seq, exp⟩

/-- `Adjacent::wireEncode`, src/adjacent.cpp:81-97. -/
def encAdj (a : WAdj) : Bytes :=
  block 132 (encName a.name ++ block 141 a.uri ++ block 140 (encDouble a.cost))

/-- `Adjacent::wireDecode`, src/adjacent.cpp:117-157. -/
def decAdj (C : Codec) (v : Bytes) : Option WAdj := do
  let es ← parse v
  let (nv, es) ← expect 7 es
  let name ← decName nv
  let (uv, es) ← expect 141 es
  let uri ← C.uri uv
  let (cv, _) ← expect 140 es
  let cost ← decDouble C.f32 cv
  some ⟨name, uri, cost⟩

/-- `AdjacencyList::insert`, src/adjacency-list.cpp:31-40 (by name; a repeated name is dropped). -/
def insertAdj (l : List WAdj) (a : WAdj) : List WAdj :=
  if l.any (fun x => x.name == a.name) then l else l ++ [a]

/-- `AdjLsa::wireEncode`, src/lsa/adj-lsa.cpp:43-60. -/
def encAdjLsa (C : Codec) (l : WAdjLsa) : Bytes :=
  block 131 (encBase C l.base ++ (l.adjs.map encAdj).flatten)

/-- `AdjLsa::wireDecode`, src/lsa/adj-lsa.cpp:82-113. -/
def decAdjLsa (C : Codec) (b : Bytes) : Option WAdjLsa := do
  let v ← top 131 b
  let es ← parse v
  let (bv, es) ← expect 128 es
  let base ← decBase C bv
  let adjs ← loopOf 132 (decAdj C) es
  some ⟨base, adjs.foldl insertAdj []⟩

/-- `PrefixInfo::wireEncode`, src/name-prefix-list.cpp:123-137. -/
def encPrefix (p : WPrefix) : Bytes :=
  block 146 (encName p.name ++ block 140 (encDouble p.cost))

/-- `PrefixInfo::wireDecode`, src/name-prefix-list.cpp:159-187. -/
def decPrefix (C : Codec) (v : Bytes) : Option WPrefix := do
  let es ← parse v
  let (nv, es) ← expect 7 es
  let name ← decName nv
  let (cv, _) ← expect 140 es
  let cost ← decDouble C.f32 cv
  some ⟨name, cost⟩

/-- `NamePrefixList::insert(PrefixInfo)` on the `std::map`, src/name-prefix-list.cpp:45-51: the cost
is overwritten if the name is present. -/
def insertPrefix (l : List WPrefix) (p : WPrefix) : List WPrefix :=
  match l with
  | [] => [p]
  | q :: qs =>
    if Name.lt p.name q.name then p :: q :: qs
    else if Name.lt q.name p.name then q :: insertPrefix qs p
    else p :: qs

/-- `NameLsa::wireEncode`, src/lsa/name-lsa.cpp:42-60. -/
def encNameLsa (C : Codec) (l : WNameLsa) : Bytes :=
  block 137 (encBase C l.base ++ (l.names.map encPrefix).flatten)

/-- `NameLsa::wireDecode`, src/lsa/name-lsa.cpp:82-114. -/
def decNameLsa (C : Codec) (b : Bytes) : Option WNameLsa := do
  let v ← top 137 b
  let es ← parse v
  let (bv, es) ← expect 128 es
  let base ← decBase C bv
  let ps ← loopOf 146 (decPrefix C) es
  some ⟨base, ps.foldl insertPrefix []⟩

/-- `CoordinateLsa::wireEncode`, src/lsa/coordinate-lsa.cpp:41-59. -/
def encCoordLsa (C : Codec) (l : WCoordLsa) : Bytes :=
  block 133 (encBase C l.base ++ block 135 (encDouble l.radius) ++
    (l.angles.map (fun a => block 136 (encDouble a))).flatten)

/-- `CoordinateLsa::wireDecode`, src/lsa/coordinate-lsa.cpp:81-120. -/
def decCoordLsa (C : Codec) (b : Bytes) : Option WCoordLsa := do
  let v ← top 133 b
  let es ← parse v
  let (bv, es) ← expect 128 es
  let base ← decBase C bv
  let (rv, es) ← expect 135 es
  let radius ← decDouble C.f32 rv
  let angles ← loopOf 136 (decDouble C.f32) es
  some ⟨base, radius, angles⟩

/-! ### Routing-table dataset -/

/-- External codecs for face URIs (as text) and doubles (as rationals).  Used in src/route/nexthop.cpp:28-41, 63-99. -/
structure RtCodec where
  uriTo : Uri → Bytes
  uriFrom : Bytes → Option Uri
  costTo : Rat → UInt64
  costFrom : UInt64 → Rat
  f32 : UInt32 → UInt64

/-- `NextHop::wireEncode`, src/route/nexthop.cpp:28-41 (the hyperbolic flag is not encoded). -/
def encHop (C : RtCodec) (h : NextHop) : Bytes :=
  block 143 (block 141 (C.uriTo h.uri) ++ block 134 (encDouble (C.costTo h.cost)))

/-- `NextHop::wireDecode`, src/route/nexthop.cpp:63-99. -/
def decHop (C : RtCodec) (v : Bytes) : Option NextHop := do
  let es ← parse v
  let (uv, es) ← expect 141 es
  let uri ← C.uriFrom uv
  let (cv, _) ← expect 134 es
  let cost ← decDouble C.f32 cv
  some ⟨uri, C.costFrom cost, false⟩

/-- `RoutingTableEntry::wireEncode`, src/route/routing-table-entry.cpp:27-43. -/
def encRte (C : RtCodec) (e : RtEntry) : Bytes :=
  block 145 (encName e.dest ++ (e.hops.map (encHop C)).flatten)

/-- `RoutingTableEntry::wireDecode`, src/route/routing-table-entry.cpp:65-95. -/
def decRte (C : RtCodec) (v : Bytes) : Option RtEntry := do
  let es ← parse v
  let (nv, es) ← expect 7 es
  let dest ← decName nv
  let hops ← loopOf 143 (decHop C) es
  some ⟨dest, hops.foldl NexthopList.add []⟩

/-- `RoutingTableStatus::wireEncode`, src/route/routing-table.cpp:242-260. -/
def encRt (C : RtCodec) (rt dry : RTable) : Bytes :=
  block 144 ((rt.map (encRte C)).flatten ++ (dry.map (encRte C)).flatten)

/-- Lines 296-307 of `RoutingTableStatus::wireDecode`: an entry goes to the routing table the first
time its destination is seen, to the dry-run table after that. -/
def splitTables : List RtEntry → RTable × RTable
  | es => es.foldl (fun (p : RTable × RTable) e =>
      if p.1.any (fun x => x.dest == e.dest) then (p.1, p.2 ++ [e]) else (p.1 ++ [e], p.2)) ([], [])

/-- `RoutingTableStatus::wireDecode`, src/route/routing-table.cpp:282-312, into a fresh object. -/
def decRt (C : RtCodec) (b : Bytes) : Option (RTable × RTable) := do
  let v ← top 144 b
  let es ← parse v
  let entries ← loopOf 145 (decRte C) es
  some (splitTables entries)

end Nlsr.Wire
