import Verif.Model.Lsdb
/-
LSAs that take more than one packet: what the segmenter makes of an encoding (src/lsdb.cpp:278-285) and what
`ndn::SegmentFetcher`, which src/lsdb.cpp:487-523 starts, makes of the packets that come.

The fetcher is ndn-cxx code, modelled from its documentation and source: the first interest is for the name given, with
CanBePrefix, and takes any Data under it that ends in a segment number; the rest of that Data's name is kept, and every
later interest is for that name with a segment number, without CanBePrefix.  The last segment is named in every packet
(`FinalBlockId`).  When all segments up to it have come, their contents are put together in order.
-/
namespace Nlsr
namespace Segments

/-- `MAX_NDN_PACKET_SIZE / 2`.  src/lsdb.cpp:280. -/
def size : Nat := 4400

/-- How many segments `Segmenter::segment` makes.  src/lsdb.cpp:278-280; external library ndn-cxx. -/
def count (b : List UInt8) : Nat := if b.isEmpty then 1 else (b.length + size - 1) / size

/-- Content of a segment.  src/lsdb.cpp:278-280; external library ndn-cxx. -/
def piece (b : List UInt8) (i : Nat) : List UInt8 := (b.drop (i * size)).take size

/-- A packet: its name, content, and the number in its `FinalBlockId`.  src/lsdb.cpp:278-280. -/
structure Data where
  name    : Name
  content : List UInt8
  final   : Nat
deriving DecidableEq

/-- The packet of a segment; `enc` is `wireEncode` (src/lsdb.cpp:278). -/
def ofSeg (enc : Lsa → List UInt8) (d : Seg) : Data := ⟨d.name, piece (enc d.lsa) d.idx, count (enc d.lsa) - 1⟩

/-- `SegmentFetcher`: what it was asked for, the name without segment number (`m_versionedDataName`), the number of
segments (`m_nSegments`, 0 when not known), and the contents so far (`m_segmentBuffer`).  src/lsdb.cpp:495; external
library ndn-cxx. -/
structure Fetcher where
  ask    : Name
  base   : Option Name := none
  total  : Nat := 0
  got    : List (Nat × List UInt8) := []
  failed : Bool := false
deriving DecidableEq

/-- The segment number a name ends in.  External library ndn-cxx. -/
def number (n : Name) : Option Nat :=
  match n.fromEnd 1 with
  | some c => if c.isSegment then Tlv.decNni c.val else none
  | none => none

namespace Fetcher

/-- The Data answers one of the fetcher's interests.  External library ndn-cxx. -/
def wants (f : Fetcher) (n : Name) : Bool :=
  match f.base with
  | none => Name.isPrefixOf f.ask n
  | some b => n.dropLast == b && n.length == b.length + 1

/-- A packet comes (and is valid).  External library ndn-cxx, src/lsdb.cpp:499-516. -/
def receive (f : Fetcher) (d : Data) : Fetcher :=
  if f.failed || !f.wants d.name then f
  else match number d.name with
    | none => { f with failed := true }
    | some i =>
      { f with base := some (f.base.getD d.name.dropLast), total := d.final + 1,
               got := if f.got.any (·.1 == i) then f.got else f.got ++ [(i, d.content)] }

/-- All segments have come: their contents in order.  External library ndn-cxx. -/
def result (f : Fetcher) : Option (List UInt8) :=
  if f.failed || f.total == 0 then none
  else if (List.range f.total).all (fun i => f.got.any (·.1 == i)) then
    some ((List.range f.total).flatMap (fun i => ((f.got.find? (·.1 == i)).map (·.2)).getD []))
  else none

/-- The packets come one after the other; the fetcher ends when it has everything.  External library ndn-cxx. -/
def fetch (f : Fetcher) : List Data → Option (List UInt8)
  | [] => f.result
  | d :: ds => match f.result with
    | some r => some r
    | none => fetch (f.receive d) ds

end Fetcher
end Segments
end Nlsr
