import Verif.Model.Basic
/-
Next hops and next-hop lists.
Models src/route/nexthop.hpp and src/route/nexthop-list.hpp.
-/
namespace Nlsr

/-- A face URI.  `ndn::FaceUri` is opaque here: only equality and a linear order are used
(src/route/nexthop.hpp:130-142, src/route/nexthop-list.hpp:34-41). -/
abbrev Uri := String

/-- src/route/nexthop.hpp:145-147.  `double m_routeCost` is an exact rational:
NaN, infinities and rounding are not modelled. The wire cache `m_wire` is left out. -/
structure NextHop where
  uri  : Uri
  cost : Rat
  hyp  : Bool := false
deriving DecidableEq, Repr

namespace NextHop

/-- `getRouteCostAsAdjustedInteger`, src/route/nexthop.hpp:77-89, with
`HYPERBOLIC_COST_ADJUSTMENT_FACTOR = 1000` (line 162).
For non-negative costs (the only ones for which the C++ cast to `uint64_t` is defined)
truncation is `floor`, and `round` is `floor (x + 1/2)`. -/
def adj (h : NextHop) : Int :=
  if h.hyp then (h.cost * 1000 + 1/2).floor else h.cost.floor

/-- `operator==`, src/route/nexthop.hpp:130-135. -/
def eqv (a b : NextHop) : Bool := a.adj == b.adj && a.uri == b.uri

/-- `operator<`, src/route/nexthop.hpp:137-142 (lexicographic tuple comparison). -/
def lt (a b : NextHop) : Bool := decide (a.adj < b.adj ∨ (a.adj = b.adj ∧ a.uri < b.uri))

/-- `NextHopUriSortedComparator`, src/route/nexthop-list.hpp:34-41. -/
def uriLt (a b : NextHop) : Bool := decide (a.uri < b.uri)

end NextHop

/-- `NexthopListT<T>::addNextHop`, src/route/nexthop-list.hpp:56-70.
`std::find_if` by URI in set order; absent: insert; present with a higher cost: erase it and
insert the new one; otherwise unchanged. -/
def addNextHop (lt : NextHop → NextHop → Bool) (l : List NextHop) (nh : NextHop) : List NextHop :=
  match l.find? (fun item => item.uri == nh.uri) with
  | none => setInsert lt nh l
  | some it => if it.cost > nh.cost then setInsert lt nh (l.erase it) else l

/-- `NexthopListT<T>::removeNextHop`, src/route/nexthop-list.hpp:77-84:
erase the first element that is `operator==` to `nh` (adjusted cost and URI). -/
def removeNextHop (l : List NextHop) (nh : NextHop) : List NextHop :=
  l.eraseP (fun item => item.eqv nh)

/-- `NexthopList = NexthopListT<std::less<NextHop>>` (src/route/nexthop-list.hpp:149). -/
abbrev NexthopList := List NextHop

/-- `NexthopList::addNextHop`.  src/route/nexthop-list.hpp:56-70. -/
abbrev NexthopList.add (l : NexthopList) (nh : NextHop) : NexthopList := addNextHop NextHop.lt l nh

/-- `operator==` on next-hop lists, src/route/nexthop-list.hpp:151-156: `std::set::operator==`
compares sizes and then elements pairwise with `NextHop::operator==`. -/
def nhListEq (a b : List NextHop) : Bool :=
  a.length == b.length && (a.zip b).all (fun p => p.1.eqv p.2)

/-- Operations a user can apply to a next-hop list.  src/route/nexthop-list.hpp:56-84. -/
inductive NhOp
  | add (h : NextHop)
  | remove (h : NextHop)
  | clear
deriving Repr

/-- One operation. `clear`: src/route/nexthop-list.hpp:92-96. -/
def nhStep (l : NexthopList) : NhOp → NexthopList
  | .add h => l.add h
  | .remove h => removeNextHop l h
  | .clear => []

end Nlsr
