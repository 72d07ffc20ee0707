import Verif.Model.LsaWire
import Verif.Model.RoutingTable
/-
Objects that keep their encoding: `m_wire` of the LSAs (src/lsa) and of the routing table (src/route/routing-table).

Comparison of two LSAs (`operator==`), which decides whether `update` does anything, is a parameter.
-/
namespace Nlsr
open Tlv Wire

/-- An object with its cached encoding (`m_wire`; `none`: reset).  E.g. src/lsa/lsa.hpp:144. -/
structure Cached (α : Type) where
  val : α
  wire : Option Bytes := none
deriving DecidableEq, Repr

namespace Cached

/-- `wireEncode()`, e.g. src/lsa/adj-lsa.cpp:64-80: the cached block, or a new one that is kept. -/
def encode {α : Type} (enc : α → Bytes) (s : Cached α) : Bytes × Cached α :=
  match s.wire with
  | some w => (w, s)
  | none => (enc s.val, { s with wire := some (enc s.val) })

/-- A method that resets the cache and changes the object.  E.g. src/lsa/adj-lsa.hpp:73-85. -/
def change {α : Type} (s : Cached α) (f : α → α) : Cached α := { val := f s.val, wire := none }

/-- A method that changes the object and leaves the cache alone.  E.g. src/lsa/coordinate-lsa.cpp:134-147. -/
def quiet {α : Type} (s : Cached α) (f : α → α) : Cached α := { s with val := f s.val }

/-- The constructors from a block, e.g. src/lsa/adj-lsa.cpp:38-41, 82-85: the block is kept; `none`: an exception. -/
def decode {α : Type} (dec : Bytes → Option α) (b : Bytes) : Option (Cached α) := (dec b).map (fun v => ⟨v, some b⟩)

end Cached

/-- The methods of an LSA class that the LSDB calls on objects it holds.  src/lsdb.cpp:305-338, 424-457. -/
structure LsaMethods (α : Type) where
  base : α → WBase
  /-- `setSeqNo`, src/lsa/lsa.hpp:81-86 -/
  setSeq : Cached α → Nat → Cached α
  /-- `setExpirationTimePoint`, src/lsa/lsa.hpp:106-111 -/
  setExp : Cached α → Int → Cached α
  /-- `update` -/
  update : Cached α → α → Cached α

/-- `AdjLsa`: src/lsa/adj-lsa.hpp:73-85, src/lsa/adj-lsa.cpp:131-143. -/
def adjMethods (same : List WAdj → List WAdj → Bool) : LsaMethods WAdjLsa where
  base l := l.base
  setSeq s n := s.change (fun l => { l with base := { l.base with seq := n } })
  setExp s t := s.change (fun l => { l with base := { l.base with exp := t } })
  update s o :=
    if same s.val.adjs o.adjs then s
    else o.adjs.foldl (fun s a => s.change (fun l => { l with adjs := insertAdj l.adjs a }))
      (s.change (fun l => { l with adjs := [] }))

/-- `NameLsa`: src/lsa/name-lsa.hpp:77-90, src/lsa/name-lsa.cpp:128-165. -/
def nameMethods : LsaMethods WNameLsa where
  base l := l.base
  setSeq s n := s.change (fun l => { l with base := { l.base with seq := n } })
  setExp s t := s.change (fun l => { l with base := { l.base with exp := t } })
  update s o :=
    let toAdd := o.names.filter (fun p => !(s.val.names.map (·.name)).contains p.name)
    let toRemove := s.val.names.filter (fun p => !(o.names.map (·.name)).contains p.name)
    let s := toAdd.foldl (fun s p => s.change (fun l => { l with names := insertPrefix l.names p })) s
    toRemove.foldl (fun s p => s.change (fun l => { l with names := l.names.filter (fun q => !(q.name == p.name)) })) s

/-- `CoordinateLsa`: src/lsa/coordinate-lsa.cpp:134-147; `update` sets the members and does not reset the cache. -/
def coordMethods (same : WCoordLsa → WCoordLsa → Bool) : LsaMethods WCoordLsa where
  base l := l.base
  setSeq s n := s.change (fun l => { l with base := { l.base with seq := n } })
  setExp s t := s.change (fun l => { l with base := { l.base with exp := t } })
  update s o := if same s.val o then s else s.quiet (fun l => { l with radius := o.radius, angles := o.angles })

/-- What happens to an LSA while it is in the LSDB.  src/lsdb.cpp. -/
inductive Held (α : Type)
  /-- it is encoded: to answer an interest (src/lsdb.cpp:278) or for a data set
  (src/publisher/dataset-interest-handler.cpp:66) -/
  | encode
  /-- `expireOrRefreshLsa`, src/lsdb.cpp:441-443 -/
  | refresh (exp : Int)
  /-- `installLsa` of a later one, src/lsdb.cpp:327-330 -/
  | later (o : α)

/-- An LSA in the LSDB, and the blocks it was encoded to, each with what it was then.  src/lsdb.hpp:365. -/
structure HeldLsa (α : Type) where
  obj : Cached α
  out : List (Bytes × α) := []

namespace HeldLsa

/-- One of them (src/lsdb.cpp:278, 327-330, 441-443). -/
def step {α : Type} (M : LsaMethods α) (enc : α → Bytes) (s : HeldLsa α) : Held α → HeldLsa α
  | .encode => let r := s.obj.encode enc; { obj := r.2, out := s.out ++ [(r.1, s.obj.val)] }
  | .refresh exp => { s with obj := M.setExp (M.setSeq s.obj (((M.base s.obj.val).seq + 1) % 2 ^ 64)) exp }
  | .later o => { s with obj := M.update (M.setExp (M.setSeq s.obj (M.base o).seq) (M.base o).exp) o }

/-- Several of them. -/
def run {α : Type} (M : LsaMethods α) (enc : α → Bytes) (s : HeldLsa α) (l : List (Held α)) : HeldLsa α := l.foldl (step M enc) s

end HeldLsa

/-- The methods of an LSA object in any order.  src/lsa/lsa.hpp:81-123. -/
inductive LsaCall (α : Type)
  | encode | setSeq (n : Nat) | setExp (t : Int) | update (o : α)

/-- One of them (src/lsa/lsa.hpp:81-123). -/
def LsaCall.step {α : Type} (M : LsaMethods α) (enc : α → Bytes) (s : HeldLsa α) : LsaCall α → HeldLsa α
  | .encode => let r := s.obj.encode enc; { obj := r.2, out := s.out ++ [(r.1, s.obj.val)] }
  | .setSeq n => { s with obj := M.setSeq s.obj n }
  | .setExp t => { s with obj := M.setExp s.obj t }
  | .update o => { s with obj := M.update s.obj o }

/-! ### the routing table -/

/-- Methods of `RoutingTable` that change the tables (src/route/routing-table.cpp:180-240), and `wireEncode`. -/
inductive RtCall
  | add (dest : Name) (nh : NextHop) | addDry (dest : Name) (nh : NextHop) | clear | clearDry | encode

/-- A routing table (src/route/routing-table.hpp:81-83), and the blocks it was encoded to, each with what it was then. -/
structure RtObj where
  obj : Cached (RTable × RTable)
  out : List (Bytes × RTable × RTable) := []

namespace RtObj

/-- One of them (src/route/routing-table.cpp:182-280). -/
def step (C : RtCodec) (s : RtObj) : RtCall → RtObj
  | .add d h => { s with obj := s.obj.change (fun t => (RTable.addNextHop t.1 d h, t.2)) }
  | .addDry d h => { s with obj := s.obj.change (fun t => (t.1, RTable.addNextHop t.2 d h)) }
  | .clear => { s with obj := s.obj.change (fun t => ([], t.2)) }
  | .clearDry => { s with obj := s.obj.change (fun t => (t.1, [])) }
  | .encode => let r := s.obj.encode (fun t => encRt C t.1 t.2); { obj := r.2, out := s.out ++ [(r.1, s.obj.val)] }

/-- Several of them. -/
def run (C : RtCodec) (s : RtObj) (l : List RtCall) : RtObj := l.foldl (step C) s

end RtObj

/-! ### the other methods of the LSAs, and the small objects -/

/-- What a method does to an object with a cached encoding: encode it, change it and reset the cache, or change it and
leave the cache alone.  E.g. src/adjacent.hpp:76-130. -/
inductive Touch (α : Type)
  | encode | change (f : α → α) | quiet (f : α → α)

/-- A method (e.g. src/adjacent.hpp:76-130, src/adjacent.cpp:99-115). -/
def Touch.step {α : Type} (enc : α → Bytes) (s : HeldLsa α) : Touch α → HeldLsa α
  | .encode => let r := s.obj.encode enc; { obj := r.2, out := s.out ++ [(r.1, s.obj.val)] }
  | .change f => { s with obj := s.obj.change f }
  | .quiet f => { s with obj := s.obj.quiet f }

/-- Several of them. -/
def Touch.run {α : Type} (enc : α → Bytes) (s : HeldLsa α) (l : List (Touch α)) : HeldLsa α := l.foldl (Touch.step enc) s

/-- Methods of `Adjacent`, src/adjacent.hpp:76-141.  A cost that is refused (src/adjacent.cpp:69-74) changes nothing
and is not listed here.  Status, timeouts and the face id are not part of the encoding. -/
inductive AdjCall
  | encode | setName (n : Name) | setFaceUri (u : Bytes) | setLinkCost (c : UInt64) | setStatus | setTimedOut | setFaceId

/-- src/adjacent.hpp:76-141; `setLinkCost`, src/adjacent.cpp:66-77, does not reset the cache. -/
def AdjCall.touch : AdjCall → Touch WAdj
  | .encode => .encode
  | .setName n => .change (fun a => { a with name := n })
  | .setFaceUri u => .change (fun a => { a with uri := u })
  | .setLinkCost c => .quiet (fun a => { a with cost := c })
  | .setStatus => .change id
  | .setTimedOut => .change id
  | .setFaceId => .quiet id

/-- Methods of `NextHop`, src/route/nexthop.hpp:66-109. -/
inductive HopCall
  | encode | setUri (u : Uri) | setCost (c : Rat) | setHyperbolic (b : Bool)

/-- src/route/nexthop.hpp:66-109: no method resets the cache. -/
def HopCall.touch : HopCall → Touch NextHop
  | .encode => .encode
  | .setUri u => .quiet (fun h => { h with uri := u })
  | .setCost c => .quiet (fun h => { h with cost := c })
  | .setHyperbolic b => .quiet (fun h => { h with hyp := b })

/-- Methods of `RoutingTableEntry`, src/route/routing-table-entry.hpp:64-68: the list of next hops is handed out for
changing. -/
inductive RteCall
  | encode | addNextHop (h : NextHop)

/-- src/route/routing-table-entry.hpp:64-68. -/
def RteCall.touch : RteCall → Touch RtEntry
  | .encode => .encode
  | .addNextHop h => .quiet (fun e => { e with hops := NexthopList.add e.hops h })

/-- Further methods of `AdjLsa`, src/lsa/adj-lsa.hpp:74-86. -/
inductive AdjLsaCall
  | encode | setSeq (n : Nat) | setExp (t : Int) | resetAdl | addAdjacent (a : WAdj)

/-- src/lsa/adj-lsa.hpp:74-86, src/lsa/lsa.hpp:81-111. -/
def AdjLsaCall.touch : AdjLsaCall → Touch WAdjLsa
  | .encode => .encode
  | .setSeq n => .change (fun l => { l with base := { l.base with seq := n } })
  | .setExp t => .change (fun l => { l with base := { l.base with exp := t } })
  | .resetAdl => .change (fun l => { l with adjs := [] })
  | .addAdjacent a => .change (fun l => { l with adjs := insertAdj l.adjs a })

/-- Further methods of `NameLsa`, src/lsa/name-lsa.hpp:66-90; `viaList`: a name is put into the list that `getNpl()`
hands out. -/
inductive NameLsaCall
  | encode | setSeq (n : Nat) | setExp (t : Int) | addName (p : WPrefix) | removeName (n : Name) | viaList (p : WPrefix)

/-- src/lsa/name-lsa.hpp:66-90, src/lsa/lsa.hpp:81-111. -/
def NameLsaCall.touch : NameLsaCall → Touch WNameLsa
  | .encode => .encode
  | .setSeq n => .change (fun l => { l with base := { l.base with seq := n } })
  | .setExp t => .change (fun l => { l with base := { l.base with exp := t } })
  | .addName p => .change (fun l => { l with names := insertPrefix l.names p })
  | .removeName n => .change (fun l => { l with names := l.names.filter (fun q => !(q.name == n)) })
  | .viaList p => .quiet (fun l => { l with names := insertPrefix l.names p })

/-- Further methods of `CoordinateLsa`, src/lsa/coordinate-lsa.hpp:79-97. -/
inductive CoordLsaCall
  | encode | setSeq (n : Nat) | setExp (t : Int) | setRadius (r : UInt64) | setTheta (a : List UInt64)

/-- src/lsa/coordinate-lsa.hpp:79-97, src/lsa/lsa.hpp:81-111. -/
def CoordLsaCall.touch : CoordLsaCall → Touch WCoordLsa
  | .encode => .encode
  | .setSeq n => .change (fun l => { l with base := { l.base with seq := n } })
  | .setExp t => .change (fun l => { l with base := { l.base with exp := t } })
  | .setRadius r => .change (fun l => { l with radius := r })
  | .setTheta a => .change (fun l => { l with angles := a })

/-- `Adjacent::wireDecode` of a block, src/adjacent.cpp:117-157. -/
def decAdjBlock (C : Codec) (b : Bytes) : Option WAdj := (top 132 b).bind (decAdj C)

/-- `NextHop::wireDecode` of a block, src/route/nexthop.cpp:63-98. -/
def decHopBlock (C : RtCodec) (b : Bytes) : Option NextHop := (top 143 b).bind (decHop C)

/-- `RoutingTableEntry::wireDecode` of a block, src/route/routing-table-entry.cpp:65-96. -/
def decRteBlock (C : RtCodec) (b : Bytes) : Option RtEntry := (top 145 b).bind (decRte C)

end Nlsr
