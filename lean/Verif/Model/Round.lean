import Verif.Model.Print
import Verif.Model.LinkState
import Verif.Model.Npt
/-
Cost arithmetic as doubles do it.  The other models compute with exact numbers; here the sums of
src/route/routing-calculator-link-state.cpp:293-296, src/route/name-prefix-table.cpp:121-131 and the product of
src/route/nexthop.hpp:84 are rounded.

Simplification: no sum overflows (finite doubles whose sum is below 2^1024).
-/
namespace Nlsr

namespace Dbl

/-- `2^-1074` is the least positive double; numbers are counted in this unit.  IEEE 754. -/
def units : Nat := 2 ^ 1074

/-- The double nearest to a non-negative number, ties to even, subnormals included.  IEEE 754 (`+`, `*` on `double`). -/
def fl (q : Rat) : Rat :=
  let x := q * (units : Rat)
  let u : Nat := 2 ^ (x.floor.toNat.log2 - 52)
  ((Print.roundEven (x / (u : Rat)) * u : Nat) : Rat) / (units : Rat)

/-- `fl` on whole numbers (of which only non-negative ones occur).  IEEE 754. -/
def flInt (i : Int) : Int := (roundNat i.toNat : Nat)

end Dbl

namespace LS

/-- `relax` with the sum rounded by `r`.  src/route/routing-calculator-link-state.cpp:289-301. -/
def relaxR (r : Int → Int) (m : Mat) (q : List Nat) (head u : Nat) (st : DState) (v : Nat) : Option DState := do
  let w ← m.get? u v
  if Ext.ge0 w && isNotExplored q v (head + 1) then
    let du ← st.dist.get? u
    let dv ← st.dist.get? v
    match Ext.addFin du w with
    | .fin d =>
      if r d < dv then
        let dist ← st.dist.set? v (r d)
        let parent ← st.parent.set? v (some u)
        some ⟨parent, dist⟩
      else some st
    | _ => some st
  else some st

/-- `dijkstraLoop` with rounded sums.  src/route/routing-calculator-link-state.cpp:282-306. -/
def dijkstraLoopR (r : Int → Int) (m : Mat) : Nat → Nat → List Nat → DState → Option DState
  | 0, _, _, st => some st
  | left + 1, head, q, st => do
    let u ← q[head]?
    let du ← st.dist.get? u
    if du = infDistance then
      some st
    else
      let st ← (List.range m.n).foldlM (relaxR r m q head u) st
      let q ← sortQueue q st.dist (head + 1)
      dijkstraLoopR r m left (head + 1) q st

/-- `dijkstra` with rounded sums.  src/route/routing-calculator-link-state.cpp:264-309. -/
def dijkstraR (r : Int → Int) (m : Mat) (source : Nat) : Option DState := do
  let n := m.n
  let dist ← (⟨n, fun _ => infDistance⟩ : Vec Int).set? source 0
  let q ← sortQueue (List.range n) dist 0
  dijkstraLoopR r m n 0 q ⟨⟨n, fun _ => none⟩, dist⟩

/-- `multiPath` with rounded sums.  src/route/routing-calculator-link-state.cpp:373-381. -/
def multiPathR (r : Int → Int) (map : NameMap) (source : Nat) (faceOf : Name → Uri) :
    List (Nat × Ext Int) → Mat → Option (List (Name × NextHop))
  | [], _ => some []
  | link :: rest, m => do
    let m ← simulateOneNeighbor m source link
    let dr ← dijkstraR r m source
    let out ← addNextHops map source faceOf dr
    let outs ← multiPathR r map source faceOf rest m
    some (out ++ outs)

/-- `calculate` with rounded sums.  src/route/routing-calculator-link-state.cpp:348-383. -/
def calculateR (r : Int → Int) (map : NameMap) (maxFaces : Nat) (self : Name) (faceOf : Name → Uri)
    (lsas : List AdjAd) : Option (List (Name × NextHop)) :=
  match map.noOf self with
  | none => some []
  | some source => do
    let m ← makeAdjMatrix lsas map
    if maxFaces = 1 then
      let dr ← dijkstraR r m source
      addNextHops map source faceOf dr
    else
      let links ← gatherLinks m source
      multiPathR r map source faceOf links m

end LS

namespace Npt

/-- `adjusted` with the sums rounded by `r`.  src/route/name-prefix-table.cpp:121-131. -/
def adjustedR (r : Rat → Rat) (k : Ext Rat) (l : NexthopList) : Option NexthopList :=
  match k with
  | .fin q =>
    if l.all (fun h => decide (0 ≤ r (h.cost + q) ∧ r (h.cost + q) < costLimit)) then
      some (l.foldl (fun acc h => NexthopList.add acc ⟨h.uri, r (h.cost + q), false⟩) [])
    else none
  | _ => none

/-- `NextHop.adj` with the product rounded by `r`; `round` itself makes no error.  src/route/nexthop.hpp:77-89. -/
def adjR (r : Rat → Rat) (h : NextHop) : Int :=
  if h.hyp then (r (h.cost * 1000) + 1 / 2).floor else h.cost.floor

end Npt
end Nlsr
