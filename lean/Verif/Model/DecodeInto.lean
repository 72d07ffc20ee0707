import Verif.Model.WireCache
/-
`wireDecode` called on an object that is in use: what it overwrites, in the order of the code, also when it throws
part of the way.  A `Name` that cannot be decoded (inside ndn-cxx) is taken to stay as it was.
-/
namespace Nlsr
namespace Into
open Tlv Wire

/-- The object after `wireDecode`, and whether it returned (rather than threw). -/
abbrev Res (α : Type) := α × Bool

/-- The text of `FaceUri()`, src/adjacent.cpp:121. -/
def noUri : Bytes := "://".toUTF8.toList

/-- `Lsa::wireDecode`, src/lsa/lsa.cpp:64-98. -/
def base (C : Codec) (o : WBase) (v : Bytes) : Res WBase :=
  let o := { o with origin := [], seq := 0 }
  match parse v with
  | none => (o, false)
  | some es =>
    match (expect 7 es).bind fun p => (decName p.1).map fun n => (n, p.2) with
    | none => (o, false)
    | some (n, es) =>
      let o := { o with origin := n }
      match (expect 130 es).bind fun p => (decNni p.1).map fun k => (k, p.2) with
      | none => (o, false)
      | some (k, es) =>
        let o := { o with seq := k }
        match (expect 139 es).bind fun p => C.timeFrom p.1 with
        | none => (o, false)
        | some t => ({ o with exp := t }, true)

/-- The part all three LSA classes have in common, e.g. src/lsa/adj-lsa.cpp:85-101: the block is kept; the type is tested,
the elements parsed and the base class decoded.  `none` as elements: it threw. -/
def lsaHead {α : Type} (C : Codec) (t : Nat) (get : α → WBase) (set : α → WBase → α) (s : Cached α) (b : Bytes) :
    Cached α × Option (List Elem) :=
  let s := { s with wire := some b }
  match ((top t b).bind parse).bind (expect 128) with
  | none => (s, none)
  | some (bv, es) =>
    let r := base C (get s.val) bv
    let s := { s with val := set s.val r.1 }
    (s, if r.2 then some es else none)

/-- `AdjLsa::wireDecode`, src/lsa/adj-lsa.cpp:82-113. -/
def adjLsa (C : Codec) (s : Cached WAdjLsa) (b : Bytes) : Res (Cached WAdjLsa) :=
  let (s, r) := lsaHead C 131 (·.base) (fun l x => { l with base := x }) s b
  match r.bind (loopOf 132 (decAdj C)) with
  | none => (s, false)
  | some l => ({ s with val := { s.val with adjs := l.foldl insertAdj [] } }, true)

/-- `NameLsa::wireDecode`, src/lsa/name-lsa.cpp:82-114. -/
def nameLsa (C : Codec) (s : Cached WNameLsa) (b : Bytes) : Res (Cached WNameLsa) :=
  let (s, r) := lsaHead C 137 (·.base) (fun l x => { l with base := x }) s b
  match r.bind (loopOf 146 (decPrefix C)) with
  | none => (s, false)
  | some l => ({ s with val := { s.val with names := l.foldl insertPrefix [] } }, true)

/-- `CoordinateLsa::wireDecode`, src/lsa/coordinate-lsa.cpp:81-120. -/
def coordLsa (C : Codec) (s : Cached WCoordLsa) (b : Bytes) : Res (Cached WCoordLsa) :=
  let (s, r) := lsaHead C 133 (·.base) (fun l x => { l with base := x }) s b
  match r.bind (fun es => (expect 135 es).bind fun p => (decDouble C.f32 p.1).map fun x => (x, p.2)) with
  | none => (s, false)
  | some (x, es) =>
    let s := { s with val := { s.val with radius := x } }
    match loopOf 136 (decDouble C.f32) es with
    | none => (s, false)
    | some l => ({ s with val := { s.val with angles := l } }, true)

/-- An `Adjacent` with the members that are not encoded, src/adjacent.hpp:189-204. -/
structure AdjObj where
  wire : WAdj
  status : Status := .unknown
  timedOut : Nat := 0
  faceId : Nat := 0
deriving DecidableEq, Repr

/-- `Adjacent::wireDecode`, src/adjacent.cpp:117-157: status, timeouts and face id are not touched. -/
def adjacent (C : Codec) (s : Cached AdjObj) (b : Bytes) : Res (Cached AdjObj) :=
  let s : Cached AdjObj := ⟨{ s.val with wire := ⟨[], noUri, 0⟩ }, some b⟩
  match ((top 132 b).bind parse).bind fun es => (expect 7 es).bind fun p => (decName p.1).map fun n => (n, p.2) with
  | none => (s, false)
  | some (n, es) =>
    let s := { s with val := { s.val with wire := { s.val.wire with name := n } } }
    match (expect 141 es).bind fun p => (C.uri p.1).map fun u => (u, p.2) with
    | none => (s, false)
    | some (u, es) =>
      let s := { s with val := { s.val with wire := { s.val.wire with uri := u } } }
      match (expect 140 es).bind fun p => decDouble C.f32 p.1 with
      | none => (s, false)
      | some x => ({ s with val := { s.val with wire := { s.val.wire with cost := x } } }, true)

/-- `PrefixInfo::wireDecode`, src/name-prefix-list.cpp:159-187: nothing is reset. -/
def prefixInfo (C : Codec) (s : Cached WPrefix) (b : Bytes) : Res (Cached WPrefix) :=
  let s : Cached WPrefix := ⟨s.val, some b⟩
  match ((top 146 b).bind parse).bind fun es => (expect 7 es).bind fun p => (decName p.1).map fun n => (n, p.2) with
  | none => (s, false)
  | some (n, es) =>
    let s := { s with val := { s.val with name := n } }
    match (expect 140 es).bind fun p => decDouble C.f32 p.1 with
    | none => (s, false)
    | some x => ({ s with val := { s.val with cost := x } }, true)

/-- `NextHop::wireDecode`, src/route/nexthop.cpp:63-99: `m_isHyperbolic` is not touched. -/
def nextHop (C : RtCodec) (s : Cached NextHop) (b : Bytes) : Res (Cached NextHop) :=
  let s : Cached NextHop := ⟨{ s.val with uri := "://", cost := 0 }, some b⟩
  match ((top 143 b).bind parse).bind fun es => (expect 141 es).bind fun p => (C.uriFrom p.1).map fun u => (u, p.2) with
  | none => (s, false)
  | some (u, es) =>
    let s := { s with val := { s.val with uri := u } }
    match (expect 134 es).bind fun p => decDouble C.f32 p.1 with
    | none => (s, false)
    | some x => ({ s with val := { s.val with cost := C.costFrom x } }, true)

/-- Lines 87-94 of `RoutingTableEntry::wireDecode`, src/route/routing-table-entry.cpp: the next hops are added one by one. -/
def hops (C : RtCodec) : List Elem → List NextHop → Res (List NextHop)
  | [], l => (l, true)
  | e :: es, l =>
    if e.1 = 143 then
      match decHop C e.2 with
      | some h => hops C es (NexthopList.add l h)
      | none => (l, false)
    else (l, false)

/-- `RoutingTableEntry::wireDecode`, src/route/routing-table-entry.cpp:65-95. -/
def entry (C : RtCodec) (s : Cached RtEntry) (b : Bytes) : Res (Cached RtEntry) :=
  let s : Cached RtEntry := ⟨{ s.val with hops := [] }, some b⟩
  match ((top 145 b).bind parse).bind fun es => (expect 7 es).bind fun p => (decName p.1).map fun n => (n, p.2) with
  | none => (s, false)
  | some (n, es) =>
    let r := hops C es []
    (⟨⟨n, r.1⟩, s.wire⟩, r.2)

/-- Lines 296-311 of `RoutingTableStatus::wireDecode`, src/route/routing-table.cpp: `seen` are the destinations of the
entries so far. -/
def entries (C : RtCodec) : List Elem → List Name → RTable × RTable → Res (RTable × RTable)
  | [], _, t => (t, true)
  | e :: es, seen, t =>
    if e.1 = 145 then
      match decRte C e.2 with
      | some x => if x.dest ∈ seen then entries C es seen (t.1, t.2 ++ [x]) else entries C es (seen ++ [x.dest]) (t.1 ++ [x], t.2)
      | none => (t, false)
    else (t, false)

/-- `RoutingTableStatus::wireDecode`, src/route/routing-table.cpp:282-312: the routing table is emptied first, the dry-run
table is not. -/
def tables (C : RtCodec) (s : Cached (RTable × RTable)) (b : Bytes) : Res (Cached (RTable × RTable)) :=
  match (top 144 b).bind parse with
  | none => (⟨([], s.val.2), some b⟩, false)
  | some es =>
    let r := entries C es [] ([], s.val.2)
    (⟨r.1, some b⟩, r.2)

end Into
end Nlsr
