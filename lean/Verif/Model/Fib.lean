import Verif.Model.Npt
/-
Models src/route/fib.{hpp,cpp}: the forwarding table and the commands sent to NFD.

Commands are logged when they are sent.  NFD's answers are operations of the environment (`regOk`,
`regFail`, `stratOk`, `stratFail`), in any order and at any time.  NFD answers a registration with the
face id of the request.  `m_table` is a `std::map`; nothing that is modelled depends on its order.
-/
namespace Nlsr

namespace AdjacencyList
/-- `isNeighbor`, src/adjacency-list.cpp:66-70. -/
def isNeighbor (l : AdjacencyList) (n : Name) : Bool := (find l n).isSome

/-- `findAdjacent(faceUri)`, src/adjacency-list.cpp:190-195. -/
def findUri (l : AdjacencyList) (u : Uri) : Option Adjacent := List.find? (fun a => a.uri == u) l

/-- `getFaceId`, src/adjacency-list.cpp:197-203. -/
def faceIdOf (l : AdjacencyList) (u : Uri) : Nat :=
  match findUri l u with
  | some a => a.faceId
  | none => 0

/-- `findAdjacent(faceUri)->setFaceId(id)`.  src/route/fib.cpp:206-209. -/
def setFaceOf (l : AdjacencyList) (u : Uri) (id : Nat) : AdjacencyList :=
  match l with
  | [] => []
  | a :: as => if a.uri == u then { a with faceId := id } :: as else a :: setFaceOf as u id
end AdjacencyList

/-- Configuration read by the FIB.  src/route/fib.cpp:37-45, 157-165. -/
structure FConf where
  maxFaces : Nat
  /-- `m_refreshTime`, twice lsa-refresh-time (seconds), src/route/fib.cpp:40 -/
  refresh  : Nat

/-- `GRACE_PERIOD`, src/route/fib.hpp:233. -/
def fibGrace : Nat := 10

/-- A command to NFD.  `root` numbers the calls of `registerPrefix` (`setStrategy`) with count 0; a retry
keeps the number.  `at` is the time it is sent (nanoseconds), `exp` its lifetime (seconds).  The URI is
not part of the command; it is kept to say which face was meant. -/
inductive NfdCmd
  | register (root : Nat) (n : Name) (uri : Uri) (fid : Nat) (cost : Int) (flags exp : Nat) (at' : Nat)
  | unregister (n : Name) (uri : Uri) (fid : Nat)
  | strategy (root : Nat) (n s : Name)
deriving DecidableEq, Repr

/-- A registration waiting for its answer: the values bound to the callbacks, src/route/fib.cpp:191-193. -/
structure RegReq where
  root  : Nat
  name  : Name
  uri   : Uri
  fid   : Nat
  cost  : Int
  flags : Nat
  exp   : Nat
  times : Nat
deriving DecidableEq, Repr

/-- A strategy choice waiting for its answer, lines 272-274. -/
structure StratReq where
  root  : Nat
  name  : Name
  strat : Name
  count : Nat
deriving DecidableEq, Repr

/-- `FibEntry`, src/route/fib.hpp:36-42.  `refresh`: the pending refresh, when it is due and with which
flags.  The scheduler drops it when the entry is erased (`ScopedEventId`). -/
structure FibEntry where
  name    : Name
  seqNo   : Nat := 1
  hops    : List NextHop := []
  refresh : Option (Nat × Nat) := none
deriving DecidableEq, Repr

/-- `Fib`, src/route/fib.hpp:217-227, with the commands it sent and those not yet answered. -/
structure Fib where
  adjs     : AdjacencyList
  table    : List FibEntry := []
  now      : Nat := 0
  nextRoot : Nat := 0
  regs     : List RegReq := []
  strats   : List StratReq := []
  log      : List NfdCmd := []
  /-- names passed to `onPrefixRegistrationSuccess` -/
  ok       : List Name := []

namespace Fib

/-- `m_table.find`, src/route/fib.cpp:51, 102, 318. -/
def find (s : Fib) (n : Name) : Option FibEntry := s.table.find? (fun e => e.name == n)

/-- A change through an iterator into `m_table`, src/route/fib.cpp:125-153. -/
def modEntry (s : Fib) (n : Name) (f : FibEntry → FibEntry) : Fib :=
  { s with table := s.table.map (fun e => if e.name == n then f e else e) }

/-- The part of `registerPrefix` common to first attempts and retries, lines 173-198. -/
def send (s : Fib) (root : Nat) (n : Name) (u : Uri) (cost : Int) (exp flags times : Nat) : Fib :=
  let fid := s.adjs.faceIdOf u
  if 0 < fid then
    { s with regs := s.regs ++ [⟨root, n, u, fid, cost, flags, exp, times⟩]
             log := s.log ++ [.register root n u fid cost flags exp s.now] }
  else s

/-- `registerPrefix(…, 0)`.  src/route/fib.cpp:173-198. -/
def registerPrefix (s : Fib) (n : Name) (u : Uri) (cost : Int) (exp flags : Nat) : Fib :=
  { s.send s.nextRoot n u cost exp flags 0 with nextRoot := s.nextRoot + 1 }

/-- `onRegistrationSuccess`, lines 200-212, for the `i`-th waiting registration. -/
def regOk (s : Fib) (i : Nat) : Fib :=
  match s.regs[i]? with
  | none => s
  | some r => { s with regs := s.regs.eraseIdx i, adjs := s.adjs.setFaceOf r.uri r.fid, ok := s.ok ++ [r.name] }

/-- `onRegistrationFailure`, lines 214-233. -/
def regFail (s : Fib) (i : Nat) : Fib :=
  match s.regs[i]? with
  | none => s
  | some r =>
    let s := { s with regs := s.regs.eraseIdx i }
    if r.times < 3 then s.send r.root r.name r.uri r.cost r.exp r.flags (r.times + 1) else s

/-- `unregisterPrefix`, lines 235-262. -/
def unregisterPrefix (s : Fib) (n : Name) (u : Uri) : Fib :=
  let fid := match s.adjs.findUri u with
    | some a => a.faceId
    | none => 0
  if 0 < fid then { s with log := s.log ++ [.unregister n u fid] } else s

/-- `setStrategy`, lines 264-275. -/
def sendStrategy (s : Fib) (root : Nat) (n st : Name) (count : Nat) : Fib :=
  { s with strats := s.strats ++ [⟨root, n, st, count⟩], log := s.log ++ [.strategy root n st] }

/-- `setStrategy(…, 0)`, lines 264-275. -/
def setStrategy (s : Fib) (n st : Name) : Fib :=
  { s.sendStrategy s.nextRoot n st 0 with nextRoot := s.nextRoot + 1 }

/-- `onSetStrategySuccess`, lines 277-282. -/
def stratOk (s : Fib) (i : Nat) : Fib := { s with strats := s.strats.eraseIdx i }

/-- `onSetStrategyFailure`, lines 284-294. -/
def stratFail (s : Fib) (i : Nat) : Fib :=
  match s.strats[i]? with
  | none => s
  | some r =>
    let s := { s with strats := s.strats.eraseIdx i }
    if r.count < 3 then s.sendStrategy r.root r.name r.strat (r.count + 1) else s

/-- `remove`, lines 47-60. -/
def remove (s : Fib) (n : Name) : Fib :=
  match s.find n with
  | none => s
  | some e =>
    if s.adjs.isNeighbor e.name then s
    else
      let s := e.hops.foldl (fun s h => s.unregisterPrefix e.name h.uri) s
      { s with table := s.table.filter (fun x => !(x.name == n)) }

/-- `addNextHopsToFibEntryAndNfd`, lines 62-83: the commands. -/
def registerHops (c : FConf) (s : Fib) (n : Name) (hops : List NextHop) (flags : Nat) : Fib :=
  if s.adjs.isNeighbor n then s
  else hops.foldl (fun s h => s.registerPrefix n h.uri h.adj (c.refresh + fibGrace) flags) s

/-- `addNextHopsToFibEntryAndNfd`, lines 62-83: the entry's set. -/
def addHops (entry hops : List NextHop) : List NextHop := hops.foldl (addNextHop NextHop.uriLt) entry

/-- `getNumberOfFacesForName`, lines 157-165. -/
def numFaces (c : FConf) (l : NexthopList) : Nat := if c.maxFaces = 0 then l.length else min l.length c.maxFaces

/-- Lines 94-100: the hops to install, a set ordered by URI. -/
def hopsToAdd (c : FConf) (l : NexthopList) : List NextHop := addHops [] (l.take (numFaces c l))

/-- `std::set_difference` of two sets ordered by URI, lines 128-132. -/
def uriMinus (a b : List NextHop) : List NextHop := a.filter (fun h => !(b.any (fun g => g.uri == h.uri)))

/-- Lines 134-142: one hop that is no longer wanted. -/
def dropHop (n : Name) (s : Fib) (h : NextHop) : Fib :=
  (if s.adjs.isNeighbor n then s else s.unregisterPrefix n h.uri).modEntry n
    (fun e => { e with hops := removeNextHop e.hops h })

/-- `scheduleEntryRefresh`, lines 296-306. -/
def scheduleRefresh (c : FConf) (s : Fib) (n : Name) (flags : Nat) : Fib :=
  s.modEntry n (fun e => { e with refresh := some (s.now + c.refresh * Lsdb.nsPerSec, flags) })

/-- Lines 149-154. -/
def ensureRefresh (c : FConf) (s : Fib) (n : Name) (flags : Nat) : Fib :=
  match s.find n with
  | none => s
  | some e =>
    if e.refresh.isNone && !s.adjs.isNeighbor e.name then s.scheduleRefresh c n flags else s

/-- `update`, lines 85-155. -/
def update (c : FConf) (s : Fib) (n : Name) (all : NexthopList) (flags : Nat) : Fib :=
  let new := hopsToAdd c all
  match s.find n with
  | none =>
    if new.isEmpty then s.remove n
    else
      let s := s.registerHops c n new flags
      ensureRefresh c { s with table := s.table ++ [{ name := n, hops := addHops [] new }] } n flags
  | some e =>
    if new.isEmpty then s.remove n
    else
      let s := (s.registerHops c n new flags).modEntry n (fun e => { e with hops := addHops e.hops new })
      let s := (uriMinus (addHops e.hops new) new).foldl (dropHop n) s
      (s.modEntry n (fun e => { e with seqNo := e.seqNo + 1 })).ensureRefresh c n flags

/-- `refreshEntry` followed by `scheduleLoop`, lines 308-335, when the refresh of `n` is due. -/
def refresh (c : FConf) (s : Fib) (n : Name) : Fib :=
  match s.find n with
  | none => s
  | some e =>
    match e.refresh with
    | none => s
    | some (due, flags) =>
      if s.now < due then s
      else
        let s := s.modEntry n (fun e => { e with seqNo := e.seqNo + 1 })
        let s := e.hops.foldl (fun s h => s.registerPrefix n h.uri h.adj (c.refresh + fibGrace) flags) s
        s.scheduleRefresh c n flags

/-- What happens to the FIB: calls by src/route/name-prefix-table.cpp and src/nlsr.cpp, answers of NFD, timers. -/
inductive Op
  | update (n : Name) (hops : NexthopList) (flags : Nat)
  | remove (n : Name)
  /-- `registerPrefix` called from outside (src/nlsr.cpp, for a neighbour's own name) -/
  | register (n : Name) (u : Uri) (cost : Int) (exp flags : Nat)
  | setStrategy (n st : Name)
  | regOk (i : Nat)
  | regFail (i : Nat)
  | stratOk (i : Nat)
  | stratFail (i : Nat)
  | refresh (n : Name)
  | clock (dt : Nat)
  /-- a neighbour's face id is set from outside (src/nlsr.cpp) -/
  | setFaceId (n : Name) (id : Nat)

/-- An operation, by the functions above (src/route/fib.cpp). -/
def step (c : FConf) (s : Fib) : Op → Fib
  | .update n hops flags => s.update c n hops flags
  | .remove n => s.remove n
  | .register n u cost exp flags => s.registerPrefix n u cost exp flags
  | .setStrategy n st => s.setStrategy n st
  | .regOk i => s.regOk i
  | .regFail i => s.regFail i
  | .stratOk i => s.stratOk i
  | .stratFail i => s.stratFail i
  | .refresh n => s.refresh c n
  | .clock dt => { s with now := s.now + dt }
  | .setFaceId n id => { s with adjs := AdjacencyList.modify s.adjs n (fun a => { a with faceId := id }) }

/-- A run of the daemon (src/main.cpp:85-86). -/
def run (c : FConf) (s : Fib) (ops : List Op) : Fib := ops.foldl (step c) s

end Fib
end Nlsr
