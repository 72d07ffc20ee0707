import Verif.Model.NameMap
import Verif.Model.NexthopList
/- Models src/adjacent.hpp/.cpp and src/adjacency-list.hpp/.cpp. -/
namespace Nlsr

/-- `Adjacent`, src/adjacent.hpp:189-208.  `m_linkCost` is a raw double; counters are `Nat`
(no wrap at 2^32); the wire cache is left out. -/
structure Adjacent where
  name     : Name
  uri      : Uri := ""
  cost     : Ext Rat := .fin 10
  status   : Status := .inactive
  timedOut : Nat := 0
  faceId   : Nat := 0
deriving DecidableEq, Repr

/-- `util::diffInEpsilon`, src/utility/numeric.hpp:35-39: `|lhs - rhs| < 2^-52`.  A difference
involving NaN or two equal infinities is NaN, and other infinite differences are infinite: false. -/
def diffInEpsilon : Ext Rat → Ext Rat → Bool
  | .fin a, .fin b => decide (a - b < 1 / 4503599627370496 ∧ b - a < 1 / 4503599627370496)
  | _, _ => false

/-- `<` on doubles.  Used by `operator<`, src/adjacent.cpp:167-173, and `setLinkCost`, line 69. -/
def Ext.rlt : Ext Rat → Ext Rat → Bool
  | .ninf, .pinf => true
  | .ninf, .fin _ => true
  | .fin _, .pinf => true
  | .fin a, .fin b => decide (a < b)
  | _, _ => false

/-- A rounded double seen as a double again.  `getLinkCost` returns a double, src/adjacent.hpp:97-101. -/
def Ext.toRat : Ext Int → Ext Rat
  | .nan => .nan
  | .ninf => .ninf
  | .pinf => .pinf
  | .fin z => .fin (z : Rat)

namespace Adjacent
/-- `getLinkCost`, src/adjacent.hpp:97-101. -/
def linkCost (a : Adjacent) : Ext Rat := a.cost.ceil.toRat

/-- `operator==`, src/adjacent.cpp:159-165: own raw cost against the other's rounded cost. -/
def eqv (a b : Adjacent) : Bool :=
  a.name == b.name && a.uri == b.uri && diffInEpsilon a.cost b.linkCost

/-- `operator<`, src/adjacent.cpp:167-173: tuples (name, raw cost) and (name, rounded cost). -/
def lt (a b : Adjacent) : Bool :=
  Name.lt a.name b.name || (!Name.lt b.name a.name && Ext.rlt a.cost b.linkCost)

/-- `setLinkCost`, src/adjacent.cpp:66-77: throws (`none`) on a negative cost other than the
non-adjacent marker. NaN passes the test. -/
def setLinkCost (a : Adjacent) (lc : Ext Rat) : Option Adjacent :=
  if Ext.rlt lc (.fin 0) && !(lc == .fin (-12345)) then none else some { a with cost := lc }
end Adjacent

/-- `AdjacencyList::m_adjList`, src/adjacency-list.hpp:140. -/
abbrev AdjacencyList := List Adjacent

namespace AdjacencyList
/-- `find`, src/adjacency-list.cpp:162-174. -/
def find (l : AdjacencyList) (n : Name) : Option Adjacent := List.find? (fun a => a.name == n) l

/-- `insert`, src/adjacency-list.cpp:31-40; returns the new list and whether it was inserted. -/
def insert (l : AdjacencyList) (a : Adjacent) : AdjacencyList × Bool :=
  match find l a.name with
  | some _ => (l, false)
  | none => (l ++ [a], true)

/-- `getAdjacent`, src/adjacency-list.cpp:42-51: a default-constructed neighbour if absent. -/
def getAdjacent (l : AdjacencyList) (n : Name) : Adjacent :=
  match find l n with
  | some a => a
  | none => { name := n }

/-- `operator==`, src/adjacency-list.cpp:53-64: sizes, then `std::set<Adjacent>` equality (sizes and
pairwise `==` in set order). -/
def toSet (l : AdjacencyList) : List Adjacent :=
  l.foldl (fun s a => setInsert Adjacent.lt a s) []

/-- `operator==`, src/adjacency-list.cpp:53-64. -/
def eqv (l l' : AdjacencyList) : Bool :=
  l.length == l'.length &&
  (toSet l).length == (toSet l').length && ((toSet l).zip (toSet l')).all (fun p => p.1.eqv p.2)

/-- Modify the first entry with a given name (the `find` + setter pattern,
src/adjacency-list.cpp:72-88, 112-119). -/
def modify (l : AdjacencyList) (n : Name) (f : Adjacent → Adjacent) : AdjacencyList :=
  match l with
  | [] => []
  | a :: as => if a.name == n then f a :: as else a :: modify as n f

/-- `incrementTimedOutInterestCount`, src/adjacency-list.cpp:72-79. -/
def incTimedOut (l : AdjacencyList) (n : Name) : AdjacencyList :=
  modify l n (fun a => { a with timedOut := a.timedOut + 1 })

/-- `setTimedOutInterestCount`, src/adjacency-list.cpp:81-88. -/
def setTimedOut (l : AdjacencyList) (n : Name) (k : Nat) : AdjacencyList :=
  modify l n (fun a => { a with timedOut := k })

/-- `getTimedOutInterestCount`, src/adjacency-list.cpp:90-98 (−1 if absent). -/
def getTimedOut (l : AdjacencyList) (n : Name) : Int :=
  match find l n with
  | none => -1
  | some a => a.timedOut

/-- `getStatusOfNeighbor`, src/adjacency-list.cpp:100-110. -/
def getStatus (l : AdjacencyList) (n : Name) : Status :=
  match find l n with
  | none => .unknown
  | some a => a.status

/-- `setStatusOfNeighbor`, src/adjacency-list.cpp:112-119. -/
def setStatus (l : AdjacencyList) (n : Name) (s : Status) : AdjacencyList :=
  modify l n (fun a => { a with status := s })

/-- `isAdjLsaBuildable`, src/adjacency-list.cpp:133-148: the loop returns true at the first active
neighbour; `n` counts timed-out ones. -/
def buildableLoop (retry : Nat) : AdjacencyList → Nat → Option Nat
  | [], n => some n
  | a :: as, n =>
    if a.status = .active then none
    else if retry ≤ a.timedOut then buildableLoop retry as (n + 1)
    else buildableLoop retry as n

/-- `isAdjLsaBuildable`, src/adjacency-list.cpp:133-148: the value returned. -/
def isAdjLsaBuildable (l : AdjacencyList) (retry : Nat) : Bool :=
  match buildableLoop retry l 0 with
  | none => true
  | some n => n == l.length

/-- `getNumOfActiveNeighbor`, src/adjacency-list.cpp:150-160. -/
def numActive (l : AdjacencyList) : Nat :=
  (l.filter (fun a => decide (a.status = .active))).length

/-- The operations the daemon applies to its adjacency list.  `setFaceId` stands for
`findAdjacent(...)->setFaceId` (src/nlsr.cpp:207, 246, 291-292) addressed by name. -/
inductive Op
  | insert (a : Adjacent)
  | incTimedOut (n : Name)
  | setTimedOut (n : Name) (k : Nat)
  | setStatus (n : Name) (s : Status)
  | setFaceId (n : Name) (id : Nat)
  | reset
deriving Repr

/-- One of them, by the functions above (src/adjacency-list.cpp). -/
def apply (l : AdjacencyList) : Op → AdjacencyList
  | .insert a => (insert l a).1
  | .incTimedOut n => incTimedOut l n
  | .setTimedOut n k => setTimedOut l n k
  | .setStatus n s => setStatus l n s
  | .setFaceId n id => modify l n (fun a => { a with faceId := id })
  | .reset => []

/-- `AdjLsa(originRouter, seqNo, expiry, adl)`, src/lsa/adj-lsa.cpp:27-36: the adjacency list of the
LSA holds the ACTIVE neighbours, added in order with `insert` (adj-lsa.hpp `addAdjacent`). -/
def lsaList (l : AdjacencyList) : AdjacencyList :=
  l.foldl (fun acc a => if a.status = .active then (insert acc a).1 else acc) []

/-- What the calculators read of it.  `getAdl` in src/route/routing-calculator-link-state.cpp:122-130. -/
def ads (l : AdjacencyList) : List (Name × Ext Rat) := l.map (fun a => (a.name, a.cost))
end AdjacencyList
end Nlsr
