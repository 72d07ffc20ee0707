import Verif.Model.Lsdb
import Verif.Model.RoutingTable
/-
Models src/route/name-prefix-table.cpp, src/route/name-prefix-table-entry.{hpp,cpp} and
src/route/routing-table-pool-entry.hpp.

Shared and weak pointers are object identities.  Iteration over the two `std::unordered_map`s
(`m_rtpool`, `namePrefixTableEntries`) follows a list order that the operations `rehash` and
`rehashNames` may permute at any time, so every iteration order is covered.  Route and prefix costs
are exact rationals; a cost that is not a finite number, or a sum outside the range of `uint64_t`
(whose conversion in `getRouteCostAsAdjustedInteger` is undefined), is the outcome `updateBad`.
-/
namespace Nlsr

/-- `RoutingTablePoolEntry`, src/route/routing-table-pool-entry.hpp:48-104.  `live`: the object is in
`m_rtpool` (under its destination); objects taken out of the pool stay as long as they are referred to. -/
structure PoolObj where
  pid   : Nat
  live  : Bool
  dest  : Name
  hops  : NexthopList
  use   : Nat
  /-- `namePrefixTableEntries`: name and the entry a weak pointer refers to -/
  names : List (Name × Nat)
deriving DecidableEq, Repr

/-- `NamePrefixTableEntry`, src/route/name-prefix-table-entry.hpp:126-133. -/
structure NptEntry where
  eid   : Nat
  name  : Name
  flags : Nat
  /-- `m_rteList` -/
  rtes  : List Nat
  /-- `m_nexthopList` -/
  nhl   : NexthopList
deriving DecidableEq, Repr

/-- Calls of the FIB.  src/route/name-prefix-table.cpp:180-213, 267-278. -/
inductive FibCmd
  | update (n : Name) (hops : NexthopList) (flags : Nat)
  | remove (n : Name)
  /-- `update` with a cost whose integer conversion is undefined -/
  | updateBad (n : Name)
deriving DecidableEq, Repr

/-- `NamePrefixTable`, src/route/name-prefix-table.hpp:141-151, with the objects shared pointers refer to and the calls
of the FIB so far. -/
structure Npt where
  objs   : List PoolObj := []
  table  : List NptEntry := []
  /-- `m_nexthopCost`, keys (router, prefix) -/
  costs  : List ((Name × Name) × Ext Rat) := []
  nextId : Nat := 0
  /-- `m_routingTable`'s table as last announced -/
  rt     : RTable := []
  out    : List FibCmd := []
  /-- an end iterator was erased or an expired weak pointer dereferenced -/
  fault  : Bool := false

namespace Npt

/-- `ndn::nfd::ROUTE_FLAG_CHILD_INHERIT`, `ROUTE_FLAG_CAPTURE`.
External library ndn-cxx; src/route/name-prefix-table.cpp:82, 96, 175, src/route/name-prefix-table.hpp:81. -/
def childInherit : Nat := 1
/-- `ROUTE_FLAG_CAPTURE` (ndn-cxx). -/
def capture : Nat := 2

/-- Not in the code: notes a call of the FIB. -/
def emit (s : Npt) (c : FibCmd) : Npt := { s with out := s.out ++ [c] }

/-- A change through a pointer to a pool entry.  Lines 141-325. -/
def modObj (s : Npt) (pid : Nat) (f : PoolObj → PoolObj) : Npt :=
  { s with objs := s.objs.map (fun o => if o.pid == pid then f o else o) }

/-- A change through a pointer to a prefix entry.  Lines 134-285. -/
def modEntry (s : Npt) (eid : Nat) (f : NptEntry → NptEntry) : Npt :=
  { s with table := s.table.map (fun e => if e.eid == eid then f e else e) }

/-- What a pointer to a pool entry refers to.  Lines 141-325. -/
def obj? (s : Npt) (pid : Nat) : Option PoolObj := s.objs.find? (fun o => o.pid == pid)

/-- What a pointer to a prefix entry refers to.  Lines 134-285. -/
def entry? (s : Npt) (eid : Nat) : Option NptEntry := s.table.find? (fun e => e.eid == eid)

/-- `m_rtpool.find`.  Line 141. -/
def inPool (s : Npt) (dest : Name) : Option PoolObj := s.objs.find? (fun o => o.live && o.dest == dest)

/-- `std::find_if` over `m_table` by name. -/
def byName (s : Npt) (n : Name) : Option NptEntry := s.table.find? (fun e => e.name == n)

/-- `getNexthopList` of a pool entry, src/route/routing-table-entry.hpp:94-95. -/
def hopsOf (s : Npt) (pid : Nat) : NexthopList :=
  match s.obj? pid with
  | some o => o.hops
  | none => []

/-- `getUseCount`, src/route/routing-table-pool-entry.hpp:103. -/
def useOf (s : Npt) (pid : Nat) : Nat :=
  match s.obj? pid with
  | some o => o.use
  | none => 0

/-- `m_nexthopCost[key] = v`.  Lines 80, 94. -/
def setCost (s : Npt) (k : Name × Name) (v : Ext Rat) : Npt :=
  { s with costs := (k, v) :: s.costs.filter (fun p => !(p.1 == k)) }

/-- `m_nexthopCost.find(key)`, src/route/name-prefix-table.hpp:151. -/
def costOf (s : Npt) (k : Name × Name) : Option (Ext Rat) := (s.costs.find? (fun p => p.1 == k)).map (·.2)

/-- `m_nexthopCost.erase(m_nexthopCost.find(key))`: undefined if the key is absent.  Lines 102, 113. -/
def eraseCost (s : Npt) (k : Name × Name) : Npt :=
  match s.costOf k with
  | none => { s with fault := true }
  | some _ => { s with costs := s.costs.filter (fun p => !(p.1 == k)) }

/-- `operator[]`: a missing key is inserted with value 0.  src/route/name-prefix-table.cpp:121-131. -/
def touchCost (s : Npt) (k : Name × Name) : Npt :=
  match s.costOf k with
  | none => s.setCost k (.fin 0)
  | some _ => s

/-- The value read by `operator[]`.  src/route/name-prefix-table.cpp:121-131. -/
def costValue (s : Npt) (k : Name × Name) : Ext Rat := (s.costOf k).getD (.fin 0)

/-- 2^64.  The range of `uint64_t`, src/route/nexthop.hpp:77-89. -/
def costLimit : Rat := 18446744073709551616

/-- The list built by `adjustNexthopCosts`, src/route/name-prefix-table.cpp:121-131.  The new hops are
made with the two-argument constructor, so they are not hyperbolic.  `none`: see the header. -/
def adjusted (k : Ext Rat) (l : NexthopList) : Option NexthopList :=
  match k with
  | .fin q =>
    if l.all (fun h => decide (0 ≤ h.cost + q ∧ h.cost + q < costLimit)) then
      some (l.foldl (fun acc h => NexthopList.add acc ⟨h.uri, h.cost + q, false⟩) [])
    else none
  | _ => none

/-- `m_fib.update(name, adjustNexthopCosts(hops, name, dest), flags)`.
src/route/name-prefix-table.cpp:180-213, 267-278. -/
def fibUpdate (s : Npt) (name dest : Name) (hops : NexthopList) (flags : Nat) : Npt :=
  if hops.isEmpty then s.emit (.update name [] flags)
  else
    match adjusted (s.costValue (dest, name)) hops with
    | some l => (s.touchCost (dest, name)).emit (.update name l flags)
    | none => (s.touchCost (dest, name)).emit (.updateBad name)

/-- `generateNhlfromRteList`, src/route/name-prefix-table-entry.cpp:32-43. -/
def merge (s : Npt) (rtes : List Nat) : NexthopList := (rtes.flatMap s.hopsOf).foldl NexthopList.add []

/-- `generateNhlfromRteList`, src/route/name-prefix-table-entry.cpp:32-43. -/
def regen (s : Npt) (eid : Nat) : Npt := s.modEntry eid (fun e => { e with nhl := s.merge e.rtes })

/-- Lines 141-167: find the pool entry or create it from the routing table. -/
def ensurePool (s : Npt) (dest : Name) : Npt × Nat :=
  match s.inPool dest with
  | some o => (s, o.pid)
  | none =>
    ({ s with
        objs := s.objs ++ [⟨s.nextId, true, dest, ((RTable.find s.rt dest).map (·.hops)).getD [], 0, []⟩]
        nextId := s.nextId + 1 }, s.nextId)

/-- Lines 137-138, 171-178, 196-203: find the prefix entry or create it. -/
def ensureEntry (s : Npt) (name : Name) (flags : Nat) : Npt × Nat :=
  match s.byName name with
  | some e =>
    (if e.flags ≠ flags ∧ e.nhl.length = 0 then s.modEntry e.eid (fun x => { x with flags := flags }) else s, e.eid)
  | none =>
    ({ s with table := s.table ++ [⟨s.nextId, name, childInherit, [], []⟩], nextId := s.nextId + 1 }, s.nextId)

/-- `addRoutingTableEntry`, src/route/name-prefix-table-entry.cpp:63-77. -/
def addRte (s : Npt) (eid pid : Nat) : Npt :=
  match s.entry? eid with
  | none => s
  | some e =>
    if pid ∈ e.rtes then s
    else (s.modObj pid (fun o => { o with use := o.use + 1 })).modEntry eid
      (fun e => { e with rtes := e.rtes ++ [pid] })

/-- Lines 180-194 and 206-213. -/
def tellFib (s : Npt) (eid : Nat) (name dest : Name) : Npt :=
  match s.entry? eid with
  | none => s
  | some e => if 0 < e.nhl.length then s.fibUpdate name dest e.nhl e.flags else s.emit (.remove name)

/-- `namePrefixTableEntries.try_emplace`, lines 216-218. -/
def backRef (s : Npt) (pid : Nat) (name : Name) (eid : Nat) : Npt :=
  s.modObj pid (fun o => if o.names.any (fun p => p.1 == name) then o else { o with names := o.names ++ [(name, eid)] })

/-- `addEntry`, src/route/name-prefix-table.cpp:133-219. -/
def addEntry (s : Npt) (name dest : Name) (flags : Nat) : Npt :=
  let (s, pid) := s.ensurePool dest
  let (s, eid) := s.ensureEntry name flags
  (((s.addRte eid pid).regen eid).tellFib eid name dest).backRef pid name eid

/-- `removeRoutingTableEntry`, src/route/name-prefix-table-entry.cpp:45-61. -/
def removeRte (s : Npt) (e : NptEntry) (pid : Nat) : Npt :=
  if pid ∈ e.rtes then
    (s.modObj pid (fun o => { o with use := o.use - 1, names := o.names.filter (fun p => !(p.1 == e.name)) })).modEntry
      e.eid (fun e => { e with rtes := e.rtes.erase pid })
  else s

/-- Lines 246-250. -/
def dropUnused (s : Npt) (pid : Nat) : Npt :=
  if s.useOf pid = 0 then s.modObj pid (fun o => { o with live := false }) else s

/-- Lines 267-278. -/
def finishRemove (s : Npt) (eid : Nat) (name dest : Name) : Npt :=
  match s.entry? eid with
  | none => s
  | some e =>
    if e.rtes.length = 0 then { s with table := s.table.filter (fun x => !(x.eid == eid)) }.emit (.remove name)
    else (s.regen eid).fibUpdate name dest (s.merge e.rtes) e.flags

/-- `removeEntry`, src/route/name-prefix-table.cpp:221-284. -/
def removeEntry (s : Npt) (name dest : Name) : Npt :=
  match s.inPool dest with
  | none => s
  | some o =>
    match s.byName name with
    | none => s
    | some e => ((s.removeRte e o.pid).dropUnused o.pid).finishRemove e.eid name dest

/-- Lines 303-306 and 311-314. -/
def readd (s : Npt) (dest : Name) (r : Name × Nat) : Npt :=
  match s.entry? r.2 with
  | none => { s with fault := true }
  | some e => s.addEntry e.name dest e.flags

/-- The body of the loop in `updateWithNewRoute`, lines 292-320. -/
def refreshObj (s : Npt) (pid : Nat) : Npt :=
  match s.obj? pid with
  | none => s
  | some o =>
    match RTable.find s.rt o.dest with
    | some e =>
      if nhListEq o.hops e.hops then s
      else o.names.foldl (fun s r => s.readd o.dest r) (s.modObj pid (fun o => { o with hops := e.hops }))
    | none => o.names.foldl (fun s r => s.readd o.dest r) (s.modObj pid (fun o => { o with hops := [] }))

/-- `updateWithNewRoute`, src/route/name-prefix-table.cpp:286-321, called when the routing table has
become `t`. -/
def updateWithNewRoute (s : Npt) (t : RTable) : Npt :=
  ((s.objs.filter (·.live)).map (·.pid)).foldl refreshObj { s with rt := t }

/-- Lines 78-84 and 92-98. -/
def advertise (own router : Name) (s : Npt) (p : PrefixInfo) : Npt :=
  if p.name = own then s
  else (s.setCost (router, p.name) p.cost).addEntry p.name router childInherit

/-- Lines 100-105 and 111-116. -/
def withdraw (own router : Name) (s : Npt) (n : Name) : Npt :=
  if n = own then s else (s.eraseCost (router, n)).removeEntry n router

/-- The names of a Name LSA.  src/lsa/name-lsa.hpp:121. -/
def lsaNames (l : Lsa) : List PrefixInfo :=
  match l.content with
  | .names m => m
  | _ => []

/-- `updateFromLsdb`, src/route/name-prefix-table.cpp:63-119. -/
def updateFromLsdb (own : Name) (s : Npt) (k : ModKind) (l : Lsa) (adds removes : List PrefixInfo) : Npt :=
  if own = l.origin then s
  else
    match k with
    | .installed => (lsaNames l).foldl (advertise own l.origin) (s.addEntry l.origin l.origin capture)
    | .updated =>
      if l.type = .name then
        (removes.map (·.name)).foldl (withdraw own l.origin) (adds.foldl (advertise own l.origin) s)
      else s
    | .removed => ((lsaNames l).map (·.name)).foldl (withdraw own l.origin) (s.removeEntry l.origin l.origin)

/-- What happens to the table: src/route/name-prefix-table.cpp:46-53, and a change of the order of a hash table. -/
inductive Op
  | signal (k : ModKind) (l : Lsa) (adds removes : List PrefixInfo)
  | routes (t : RTable)
  | rehash (objs : List PoolObj)
  | rehashNames (pid : Nat) (names : List (Name × Nat))

/-- An operation, by the functions above (src/route/name-prefix-table.cpp). -/
def step (own : Name) (s : Npt) : Op → Npt
  | .signal k l adds removes => updateFromLsdb own s k l adds removes
  | .routes t => updateWithNewRoute s t
  | .rehash objs => if objs.isPerm s.objs then { s with objs := objs } else s
  | .rehashNames pid names =>
    s.modObj pid (fun o => if names.isPerm o.names then { o with names := names } else o)

/-- A run of the daemon (src/main.cpp:85-86). -/
def run (own : Name) (s : Npt) (ops : List Op) : Npt := ops.foldl (step own) s

end Npt
end Nlsr
