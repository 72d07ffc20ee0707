import Verif.Model.Core
import Verif.Model.Nbr
/-
Models src/nlsr.{hpp,cpp}: one router, made of the parts modelled elsewhere and the signals that connect them.

The neighbours (`ConfParameter::m_adjl`) are one object shared by all parts.  The model of each part keeps its
own copy, and the copies are brought up to date when the hello protocol or a face event has changed the
neighbours.  Calls a part makes of other parts are carried out when its own step is over.  No part reads back
what it has changed in another part during such a step, so the result is the same, with one exception: within
one step, commands to NFD for routes and for strategies may be sent in another order.
-/
namespace Nlsr

/-- The configuration of a router, src/conf-parameter.hpp:490-545.  The parts read the same values. -/
structure RConf where
  lsdb     : LConf
  maxFaces : Nat
  calcInt  : Nat
  trig     : HR.Trig
  /-- hello-interval -/
  interval : Nat
  syncPrefix : Name
  tries    : Nat
  fetchInt : Nat
  nameTlv  : Nat → Bool

namespace RConf
/-- What the LSDB, the routing table and the name prefix table read.  src/nlsr.cpp:45-48. -/
def core (c : RConf) : CConf := ⟨c.lsdb, c.maxFaces, c.calcInt, c.trig⟩

/-- What the hello protocol and the face code read.  src/nlsr.cpp:49, 264-353. -/
def nbr (c : RConf) : NConf :=
  { router := c.lsdb.router, hyp := c.lsdb.hyp, retry := c.lsdb.retry, resend := c.lsdb.resend, interval := c.interval
    lsaPrefix := c.lsdb.names.lsaPrefix, syncPrefix := c.syncPrefix, tries := c.tries, fetchInt := c.fetchInt
    nameTlv := c.nameTlv }

/-- What the FIB reads, src/route/fib.cpp:37-45: twice lsa-refresh-time. -/
def fib (c : RConf) : FConf := ⟨c.maxFaces, 2 * c.lsdb.refresh⟩
end RConf

/-- The parts of a router, src/nlsr.hpp:160-193.  `undef`: a cost that `uint64_t` cannot hold was converted to it. -/
structure Router where
  nbr   : Nbr
  core  : Core
  fib   : Fib
  undef : Bool := false

namespace Router

/-- The conversion of `getLinkCost()` to the parameter `uint64_t faceCost`, src/route/fib.cpp:174.  The
fraction is cut off; a value out of range is undefined (`none`). -/
def toU64 : Ext Rat → Option Int
  | .fin q => if -1 < q ∧ q < Npt.costLimit then some (if q < 0 then 0 else q.floor) else none
  | _ => none

/-- `ndn::time::milliseconds::max()` in whole seconds, src/nlsr.cpp:66, 250, 287. -/
def forever : Nat := 9223372036854775

/-- `m_fib.registerPrefix` with no expiry and the capture flag, src/nlsr.cpp:65-66, 313-318. -/
def register (s : Router) (c : RConf) (n : Name) (u : Uri) (cost : Ext Rat) : Router :=
  match toU64 cost with
  | none => { s with undef := true }
  | some k => { s with fib := Fib.step c.fib s.fib (.register n u k forever Npt.capture) }

/-- A call that the hello protocol or the face code makes of another part: src/hello-protocol.cpp:194-199,
239-249, src/nlsr.cpp:60-68, 117-150, 306-319. -/
def apply (c : RConf) (s : Router) : NOut → Router
  | .build => { s with core := Core.step c.core s.core (.lsdb .scheduleBuild) }
  | .calc => { s with core := Core.step c.core s.core .scheduleCalc }
  | .initial n =>
    match AdjacencyList.find s.nbr.adjs n with
    | none => s
    | some a => s.register c c.syncPrefix a.uri a.linkCost
  | .register n u k => s.register c n u k
  | .strategy n st => { s with fib := Fib.step c.fib s.fib (.setStrategy n st) }
  | _ => s

/-- The face ids the FIB sees, brought up to date.  `m_adjacencyList` is shared, src/nlsr.cpp:42-44. -/
def syncFaces (c : FConf) (adjs : AdjacencyList) (f : Fib) : Fib :=
  adjs.foldl (fun f a => Fib.step c f (.setFaceId a.name a.faceId)) f

/-- The neighbours seen by the LSDB, the calculators and the FIB, brought up to date.  src/nlsr.cpp:42-44. -/
def sync (c : RConf) (s : Router) : Router :=
  { s with core := Core.step c.core s.core (.lsdb (.setAdjs s.nbr.adjs)), fib := syncFaces c.fib s.nbr.adjs s.fib }

/-- A step of the hello protocol or the face code, and the calls it makes.  src/hello-protocol.cpp, src/nlsr.cpp. -/
def nbrStep (c : RConf) (s : Router) (op : Nbr.Op) : Router :=
  let d := Nbr.step c.nbr s.nbr op
  (d.out.drop s.nbr.out.length).foldl (apply c) (sync c { s with nbr := d })

/-- A call of the FIB by the name prefix table.  src/route/name-prefix-table.cpp:180-213, 267-278. -/
def fibCmd (c : RConf) (s : Router) : FibCmd → Router
  | .update n l fl => { s with fib := Fib.step c.fib s.fib (.update n l fl) }
  | .remove n => { s with fib := Fib.step c.fib s.fib (.remove n) }
  | .updateBad _ => { s with undef := true }

/-- The origins announced by `onNewLsa`.  src/nlsr.cpp:50-54. -/
def newOrigins (l : List Out) : List Name := l.filterMap fun o => match o with
  | .newLsa _ _ r => some r
  | _ => none

/-- A step of the LSDB, the routing table or the name prefix table, and the calls it makes.  src/nlsr.cpp:45-54. -/
def coreStep (c : RConf) (s : Router) (op : Core.Op) : Router :=
  let d := Core.step c.core s.core op
  let s' := (d.npt.out.drop s.core.npt.out.length).foldl (fibCmd c) { s with core := d }
  (newOrigins (d.lsdb.log.drop s.core.lsdb.log.length)).foldl (fun s r => nbrStep c s (.newLsa r)) s'

/-- `onRegistrationSuccess`, src/route/fib.cpp:200-212, src/nlsr.cpp:55-58. -/
def regOk (c : RConf) (s : Router) (i : Nat) : Router :=
  match s.fib.regs[i]? with
  | none => s
  | some r => nbrStep c (nbrStep c { s with fib := Fib.step c.fib s.fib (.regOk i) } (.regFace r.uri r.fid)) (.registered r.name)

/-- What happens to a router: packets, timers, answers of NFD, commands.  src/nlsr.cpp. -/
inductive Op
  /-- hello packets and timers, face events, face data sets -/
  | nbr (op : Nbr.Op)
  /-- LSA packets and timers, sync updates, prefix commands, route calculations -/
  | core (op : Core.Op)
  | regOk (i : Nat)
  | regFail (i : Nat)
  | stratOk (i : Nat)
  | stratFail (i : Nat)
  | refresh (n : Name)
  | clock (dt : Nat) (sys : Int)

/-- Which operations of `Nbr` come from outside; the others are calls of other parts (src/nlsr.cpp:50-58).  The
faces in a data set have ids other than 0. -/
def outsideNbr : Nbr.Op → Bool
  | .registered _ => false
  | .newLsa _ => false
  | .regFace _ _ => false
  | .clock _ => false
  | .fetchOk _ faces => faces.all (fun f => f.2 != 0)
  | _ => true

/-- Which operations of `Core` come from outside.  src/hello-protocol.cpp:194-199. -/
def outsideCore : Core.Op → Bool
  | .scheduleCalc => false
  | .lsdb (.setAdjs _) => false
  | .lsdb .scheduleBuild => false
  | .lsdb (.clock _ _) => false
  | _ => true

/-- The daemon has ended by an exception, src/main.cpp:85-91. -/
def ended (s : Router) : Bool := s.nbr.dead || s.core.lsdb.log.contains .fault

/-- An operation, by the functions above (src/nlsr.cpp). -/
def stepOp (c : RConf) (s : Router) : Op → Router
  | .nbr op => if outsideNbr op then nbrStep c s op else s
  | .core op => if outsideCore op then coreStep c s op else s
  | .regOk i => regOk c s i
  | .regFail i => { s with fib := Fib.step c.fib s.fib (.regFail i) }
  | .stratOk i => { s with fib := Fib.step c.fib s.fib (.stratOk i) }
  | .stratFail i => { s with fib := Fib.step c.fib s.fib (.stratFail i) }
  | .refresh n => { s with fib := Fib.step c.fib s.fib (.refresh n) }
  | .clock dt sys =>
    { s with nbr := Nbr.step c.nbr s.nbr (.clock dt), core := Core.step c.core s.core (.lsdb (.clock dt sys))
             fib := Fib.step c.fib s.fib (.clock dt) }

/-- An operation; nothing happens to a daemon that has ended (src/main.cpp:85-91). -/
def step (c : RConf) (s : Router) (op : Op) : Router := if s.ended then s else stepOp c s op

/-- A run of the daemon (src/main.cpp:85-86). -/
def run (c : RConf) (s : Router) (ops : List Op) : Router := ops.foldl (step c) s

/-- The constructor, src/nlsr.cpp:37-115. -/
def init (c : RConf) (disk : Option Seqs) (adjs : AdjacencyList) (npl : List PrefixInfo) (sys : Int) : Router :=
  let n := Nbr.init c.nbr adjs
  n.out.foldl (apply c) (sync c ⟨n, Core.init c.core disk adjs npl sys, { adjs := adjs }, false⟩)

end Router
end Nlsr
