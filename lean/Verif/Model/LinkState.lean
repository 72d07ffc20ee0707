import Verif.Model.NameMap
import Verif.Model.NexthopList
/- Models src/route/routing-calculator-link-state.cpp. -/
namespace Nlsr.LS

/-- `Adjacent::NON_ADJACENT_COST`, src/adjacent.hpp:187. -/
def nonAdjacent : Ext Int := .fin (-12345)

/-- `INF_DISTANCE`, routing-calculator-link-state.cpp:38. -/
def infDistance : Int := 2147483647

/-- `std::vector<T>` of fixed size with checked access: `none` = out-of-range access (undefined
behaviour in C++). -/
structure Vec (α : Type) where
  size : Nat
  at' : Nat → α

/-- Reading an element, e.g. src/route/routing-calculator-link-state.cpp:283. -/
def Vec.get? {α} (v : Vec α) (i : Nat) : Option α := if i < v.size then some (v.at' i) else none
/-- Writing an element, e.g. src/route/routing-calculator-link-state.cpp:296-297. -/
def Vec.set? {α} (v : Vec α) (i : Nat) (x : α) : Option (Vec α) :=
  if i < v.size then some ⟨v.size, fun j => if j = i then x else v.at' j⟩ else none

/-- `AdjMatrix` (`boost::multi_array<double, 2>`, n × n), lines 41-47; checked access. -/
structure Mat where
  n : Nat
  at' : Nat → Nat → Ext Int

/-- Reading an element, e.g. src/route/routing-calculator-link-state.cpp:149-150. -/
def Mat.get? (m : Mat) (r c : Nat) : Option (Ext Int) :=
  if r < m.n ∧ c < m.n then some (m.at' r c) else none
/-- Writing an element, e.g. src/route/routing-calculator-link-state.cpp:128. -/
def Mat.set? (m : Mat) (r c : Nat) (x : Ext Int) : Option Mat :=
  if r < m.n ∧ c < m.n then some ⟨m.n, fun i j => if i = r ∧ j = c then x else m.at' i j⟩ else none

/-- Lines 123-129: the write for one adjacency of the LSA of `origin`.  `getLinkCost` is `ceil`
(src/adjacent.hpp:97-101). -/
def writeAdj (map : NameMap) (origin : Name) (m : Mat) (a : Name × Ext Rat) : Option Mat :=
  match map.noOf origin, map.noOf a.1 with
  | some r, some c => if r < m.n ∧ c < m.n then m.set? r c a.2.ceil else some m
  | _, _ => some m

/-- Lines 122-130: the writes of one adjacency LSA. -/
def writeLsa (map : NameMap) (m : Mat) (l : AdjAd) : Option Mat :=
  l.adjs.foldlM (writeAdj map l.origin) m

/-- Lines 145-165: one step of the correction pass. -/
def correctCell (m : Mat) (row col : Nat) : Option Mat := do
  let toCost ← m.get? row col
  let fromCost ← m.get? col row
  if Ext.feq fromCost toCost then
    some m
  else
    let corrected := if Ext.ge0 toCost && Ext.ge0 fromCost then Ext.fmax toCost fromCost
                     else nonAdjacent
    let m ← m.set? row col corrected
    m.set? col row corrected

/-- `makeAdjMatrix`, lines 104-169. -/
def makeAdjMatrix (lsas : List AdjAd) (map : NameMap) : Option Mat := do
  let n := map.length
  let m ← lsas.foldlM (writeLsa map) ⟨n, fun _ _ => nonAdjacent⟩
  (List.range n).foldlM (fun m row => (List.range n).foldlM (fun m col => correctCell m row col) m) m

/-- Inner loop of `sortQueueByDistance` (lines 175-179) for a fixed `i`: `cur` is `q[i]`, the list is
`q[i+1..]`; each strictly closer element is swapped into position `i`. -/
def bubble (dist : Vec Int) (cur : Nat) : List Nat → Option (Nat × List Nat)
  | [] => some (cur, [])
  | x :: rest => do
    let dx ← dist.get? x
    let dc ← dist.get? cur
    if dx < dc then
      let (m, r) ← bubble dist x rest
      some (m, cur :: r)
    else
      let (m, r) ← bubble dist cur rest
      some (m, x :: r)

/-- Outer loop of `sortQueueByDistance` (lines 174-180); the first argument is the number of
remaining iterations, `q.size() - i`. -/
def exchSort (dist : Vec Int) : Nat → List Nat → Option (List Nat)
  | 0, l => some l
  | _ + 1, [] => some []
  | k + 1, x :: rest => do
    let (m, r) ← bubble dist x rest
    let r' ← exchSort dist k r
    some (m :: r')

/-- `sortQueueByDistance(q, dist, start)`, lines 171-181: `q[0..start)` is untouched. -/
def sortQueue (q : List Nat) (dist : Vec Int) (start : Nat) : Option (List Nat) := do
  let r ← exchSort dist (q.drop start).length (q.drop start)
  some (q.take start ++ r)

/-- `isNotExplored`, lines 183-192. -/
def isNotExplored (q : List Nat) (u : Nat) (start : Nat) : Bool := (q.drop start).any (· == u)

/-- `DijkstraResult`, lines 239-259; `EMPTY_PARENT` is `none`.  `distance` is an `Int`: the values
stored are sums of rounded-up costs below `INF_DISTANCE` (or `INF_DISTANCE`), exact in a double. -/
structure DState where
  parent : Vec (Option Nat)
  dist   : Vec Int

/-- Lines 289-301: the body of the loop over `v`.  A `fin` sum is compared with `distance[v]`;
`+inf < distance[v]` is false (NaN and -inf cannot pass `>= 0`). -/
def relax (m : Mat) (q : List Nat) (head u : Nat) (st : DState) (v : Nat) : Option DState := do
  let w ← m.get? u v
  if Ext.ge0 w && isNotExplored q v (head + 1) then
    let du ← st.dist.get? u
    let dv ← st.dist.get? v
    match Ext.addFin du w with
    | .fin d =>
      if d < dv then
        let dist ← st.dist.set? v d
        let parent ← st.parent.set? v (some u)
        some ⟨parent, dist⟩
      else some st
    | _ => some st
  else some st

/-- The `while (head < nRouters)` loop, lines 282-306; the first argument is `nRouters - head`. -/
def dijkstraLoop (m : Mat) : Nat → Nat → List Nat → DState → Option DState
  | 0, _, _, st => some st
  | left + 1, head, q, st => do
    let u ← q[head]?
    let du ← st.dist.get? u
    if du = infDistance then
      some st
    else
      let st ← (List.range m.n).foldlM (relax m q head u) st
      let q ← sortQueue q st.dist (head + 1)
      dijkstraLoop m left (head + 1) q st

/-- `calculateDijkstraPath`, lines 264-309. -/
def dijkstra (m : Mat) (source : Nat) : Option DState := do
  let n := m.n
  let dist ← (⟨n, fun _ => infDistance⟩ : Vec Int).set? source 0
  let q ← sortQueue (List.range n) dist 0
  dijkstraLoop m n 0 q ⟨⟨n, fun _ => none⟩, dist⟩

/-- The `while` loop of `getNextHop`, lines 246-249; first argument: steps allowed.  Running out of
steps (`none`) stands for non-termination. -/
def walkUp (parent : Vec (Option Nat)) : Nat → Nat → Option Nat → Option (Nat × Option Nat)
  | 0, _, _ => none
  | k + 1, dest, nh => do
    match ← parent.get? dest with
    | none => some (dest, nh)
    | some p => walkUp parent k p (some dest)

/-- `DijkstraResult::getNextHop`, lines 242-254; inner `none` is `NO_NEXT_HOP`.  The loop is given
`nRouters + 1` steps. -/
def getNextHop (st : DState) (dest source : Nat) : Option (Option Nat) := do
  let (d, nh) ← walkUp st.parent (st.parent.size + 1) dest none
  if d = source then some nh else some none

/-- Body of the loop of `addNextHopsToRoutingTable`, lines 322-343.  `faceOf` is
`adjacencies.getAdjacent(name).getFaceUri()`.  Dereferencing an absent name is `none`.  The result
is the call made: `rt.addNextHop(destination, nextHop)`. -/
def routeTo (map : NameMap) (source : Nat) (faceOf : Name → Uri) (st : DState) (i : Nat) :
    Option (List (Name × NextHop)) := do
  if i = source then some [] else
    match ← getNextHop st i source with
    | none => some []
    | some r =>
      let cost ← st.dist.get? i
      let rName ← map.nameOf r
      let dName ← map.nameOf i
      some [(dName, ⟨faceOf rName, (cost : Rat), false⟩)]

/-- `addNextHopsToRoutingTable`, lines 314-344: the sequence of `addNextHop` calls. -/
def addNextHops (map : NameMap) (source : Nat) (faceOf : Name → Uri) (st : DState) :
    Option (List (Name × NextHop)) := do
  let ls ← (List.range map.length).mapM (routeTo map source faceOf st)
  some ls.flatten

/-- `gatherLinks`, lines 203-219: (index, cost) pairs. -/
def gatherLinks (m : Mat) (source : Nat) : Option (List (Nat × Ext Int)) := do
  let ls ← (List.range m.n).mapM (fun i =>
    if i = source then some [] else do
      let c ← m.get? source i
      some (if Ext.ge0 c then [(i, c)] else []))
  some ls.flatten

/-- `simulateOneNeighbor`, lines 224-237 (modifies the matrix in place). -/
def simulateOneNeighbor (m : Mat) (source : Nat) (link : Nat × Ext Int) : Option Mat :=
  (List.range m.n).foldlM (fun m i =>
    if i = link.1 then m.set? source i link.2 else m.set? source i nonAdjacent) m

/-- The multi-path loop, lines 373-381; the matrix is carried from one link to the next. -/
def multiPath (map : NameMap) (source : Nat) (faceOf : Name → Uri) :
    List (Nat × Ext Int) → Mat → Option (List (Name × NextHop))
  | [], _ => some []
  | link :: rest, m => do
    let m ← simulateOneNeighbor m source link
    let dr ← dijkstra m source
    let out ← addNextHops map source faceOf dr
    let outs ← multiPath map source faceOf rest m
    some (out ++ outs)

/-- `calculateLinkStateRoutingPath`, lines 348-383: the sequence of `rt.addNextHop` calls. -/
def calculate (map : NameMap) (maxFaces : Nat) (self : Name) (faceOf : Name → Uri)
    (lsas : List AdjAd) : Option (List (Name × NextHop)) :=
  match map.noOf self with
  | none => some []
  | some source => do
    let m ← makeAdjMatrix lsas map
    if maxFaces = 1 then
      let dr ← dijkstra m source
      addNextHops map source faceOf dr
    else
      let links ← gatherLinks m source
      multiPath map source faceOf links m

/-- The computation as the routing table runs it: the map is built from the same LSDB
(src/route/routing-table.cpp:131-135). -/
def calculateFromLsdb (maxFaces : Nat) (self : Name) (faceOf : Name → Uri) (lsas : List AdjAd) :
    Option (List (Name × NextHop)) :=
  calculate (NameMap.fromAdj lsas) maxFaces self faceOf lsas

end Nlsr.LS
