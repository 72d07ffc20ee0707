import Verif.Model.Npt
/-
Models how the LSDB, the routing table and the name prefix table are connected:
the scheduling part of src/route/routing-table.cpp and the signal connections of src/nlsr.cpp and
src/route/{routing-table,name-prefix-table}.cpp.

`onLsdbModified` has the routing table's listener first and the name prefix table's second (order of
the members in src/nlsr.hpp:180-184).  The routing table and the name prefix table are constructed
after the LSDB, so they do not hear the LSDB constructor's own signals.  A listener only schedules or
changes its own tables and never calls the LSDB back, so feeding the signals logged by one LSDB step
after that step is the same as feeding them one by one.
-/
namespace Nlsr

/-- Configuration read by the three parts.  src/conf-parameter.hpp:490-530. -/
structure CConf where
  lsdb     : LConf
  /-- max-faces-per-prefix -/
  maxFaces : Nat
  /-- routing-calc-interval (seconds) -/
  calcInt  : Nat
  trig     : HR.Trig

/-- `getRouterPrefix`, src/conf-parameter.hpp:498. -/
def CConf.router (c : CConf) : Name := c.lsdb.router

/-- State of `RoutingTable`, src/route/routing-table.hpp:96-131.  `m_isRoutingTableCalculating` is not
kept: it is only true inside `calculate`, which nothing calls from inside. -/
structure RtState where
  /-- `m_isRouteCalculationScheduled` -/
  flag    : Bool := false
  /-- calls of `calculate` in the scheduler, with the time each is due -/
  events  : List Nat := []
  /-- `m_ownAdjLsaExist` -/
  ownAdj  : Bool := false
  table   : RTable := []
  dry     : RTable := []
  /-- a calculator read outside its data or met a distance that is NaN or infinite; nothing is claimed
  about the tables from then on -/
  undef   : Bool := false

namespace RtState
/-- `scheduleRoutingTableCalculation`, src/route/routing-table.cpp:166-174. -/
def schedule (c : CConf) (now : Nat) (s : RtState) : RtState :=
  if s.flag then s else { s with events := s.events ++ [now + c.calcInt * Lsdb.nsPerSec], flag := true }

/-- Is this a change that asks for a calculation?  Lines 70-76.  src/route/routing-table.cpp. -/
def wantsCalc (h : HypState) (k : ModKind) (t : LsaType) : Bool :=
  k != .removed && ((t == .adjacency && h != .on) || (t == .coordinate && h != .off))
end RtState

/-- The LSDB, the routing table and the name prefix table.  src/nlsr.hpp:177-179. -/
structure Core where
  lsdb : Lsdb
  rt   : RtState
  npt  : Npt

namespace Core

/-- What the link-state calculator reads of the stored adjacency LSAs.
src/route/routing-calculator-link-state.cpp:112-130. -/
def adjAds (db : List Obj) : List AdjAd :=
  db.filterMap fun o =>
    match o.lsa.content with
    | .adj l => some ⟨o.lsa.origin, l.map (fun a => (a.name, a.cost))⟩
    | _ => none

/-- What the hyperbolic calculator reads of the stored coordinate LSAs.
src/route/routing-calculator-hyperbolic.cpp:143-161. -/
def coordAds (db : List Obj) : List HR.CoordAd :=
  db.filterMap fun o =>
    match o.lsa.content with
    | .coord r as => some ⟨o.lsa.origin, r, as⟩
    | _ => none

/-- The table the link-state calculator builds, src/route/routing-table.cpp:129-135. -/
def lsTable (c : CConf) (adjs : AdjacencyList) (db : List Obj) : Option RTable :=
  (LS.calculateFromLsdb c.maxFaces c.router (fun n => (AdjacencyList.getAdjacent adjs n).uri) (adjAds db)).map
    RTable.build

/-- The table the hyperbolic calculator builds, lines 145-157. -/
def hypTable (c : CConf) (adjs : AdjacencyList) (db : List Obj) : Option RTable :=
  match HR.calculate c.trig c.router adjs (coordAds db) with
  | none => none
  | some os => (os.mapM (fun o : HR.Offer => o.hop.map (fun h => (o.dest, h)))).map RTable.build

/-- `calculateLsRoutingTable`, lines 113-140. -/
def calcLs (c : CConf) (db : List Obj) (s : Core) : Core :=
  if s.lsdb.buildFlag then s
  else if !s.rt.ownAdj then s
  else
    match lsTable c s.lsdb.adjs db with
    | none => { s with rt := { s.rt with undef := true } }
    | some t => { s with rt := { s.rt with table := t }, npt := s.npt.updateWithNewRoute t }

/-- `calculateHypRoutingTable`, lines 142-164. -/
def calcHyp (c : CConf) (db : List Obj) (isDry : Bool) (s : Core) : Core :=
  match hypTable c s.lsdb.adjs db with
  | none => { s with rt := { s.rt with undef := true } }
  | some t =>
    if isDry then { s with rt := { s.rt with dry := t } }
    else { s with rt := { s.rt with table := t }, npt := s.npt.updateWithNewRoute t }

/-- `calculate`, lines 85-111.  `db` is the order in which the LSDB's hashed index is walked. -/
def calculate (c : CConf) (db : List Obj) (s : Core) : Core :=
  let s := match c.lsdb.hyp with
    | .off => calcLs c db s
    | .dryRun => calcHyp c db true (calcLs c db s)
    | .on => calcHyp c db false s
  { s with rt := { s.rt with flag := false } }

/-- The routing table's listener, lines 44-82. -/
def rtHear (c : CConf) (now : Nat) (k : ModKind) (l : Lsa) (p : RtState × Npt) : RtState × Npt :=
  let own : Bool := l.origin == c.router && l.type == .adjacency
  let p := if own && k == .removed then
      ({ p.1 with table := [], dry := [], ownAdj := false }, p.2.updateWithNewRoute [])
    else p
  let r := if own && k == .installed then { p.1 with ownAdj := true } else p.1
  (if RtState.wantsCalc c.lsdb.hyp k l.type then r.schedule c now else r, p.2)

/-- `onLsdbModified`: both listeners.  src/route/routing-table.cpp:44-82, src/route/name-prefix-table.cpp:48-53. -/
def hear (c : CConf) (now : Nat) (p : RtState × Npt) : Out → RtState × Npt
  | .signal k l adds removes =>
    let p := rtHear c now k l p
    (p.1, p.2.updateFromLsdb c.router k l adds removes)
  | _ => p

/-- What happens to the three parts: src/nlsr.cpp:46-49, src/hello-protocol.cpp:194-199, 239-244. -/
inductive Op
  | lsdb (op : Lsdb.Op)
  /-- `scheduleRoutingTableCalculation` called by the hello protocol and by face events -/
  | scheduleCalc
  /-- the scheduler runs a pending calculation that is due; `db` is the order of the walk -/
  | calcTimer (i : Nat) (db : List Obj)
  | rehash (objs : List PoolObj)
  | rehashNames (pid : Nat) (names : List (Name × Nat))

/-- One LSDB operation followed by its signals.  src/lsdb.cpp:320, 332, 347 raise the signal. -/
def lsdbStep (c : CConf) (s : Core) (op : Lsdb.Op) : Core :=
  let d := Lsdb.step c.lsdb s.lsdb op
  let p := (d.log.drop s.lsdb.log.length).foldl (hear c d.now) (s.rt, s.npt)
  ⟨d, p.1, p.2⟩

/-- The scheduled call of `calculate`, src/route/routing-table.cpp:166-179. -/
def calcTimer (c : CConf) (s : Core) (i : Nat) (db : List Obj) : Core :=
  match s.rt.events[i]? with
  | none => s
  | some d =>
    if s.lsdb.now < d then s
    else calculate c (if db.isPerm s.lsdb.db then db else s.lsdb.db) { s with rt := { s.rt with events := s.rt.events.eraseIdx i } }

/-- An operation, by the functions above (src/nlsr.cpp:46-49). -/
def step (c : CConf) (s : Core) : Op → Core
  | .lsdb op => lsdbStep c s op
  | .scheduleCalc => { s with rt := s.rt.schedule c s.lsdb.now }
  | .calcTimer i db => calcTimer c s i db
  | .rehash objs => { s with npt := s.npt.step c.router (.rehash objs) }
  | .rehashNames pid names => { s with npt := s.npt.step c.router (.rehashNames pid names) }

/-- A run of the daemon (src/main.cpp:85-86). -/
def run (c : CConf) (s : Core) (ops : List Op) : Core := ops.foldl (step c) s

/-- The start of the daemon.  src/nlsr.cpp:45-48. -/
def init (c : CConf) (disk : Option Seqs) (adjs : AdjacencyList) (npl : List PrefixInfo) (sys : Int) : Core :=
  ⟨Lsdb.init c.lsdb disk adjs npl sys, {}, {}⟩

end Core
end Nlsr
