import Verif.Model.Adjacency
import Verif.Model.Names
import Verif.Model.PrefixMap
/-
Models src/lsdb.{hpp,cpp}, the `update` functions of src/lsa/*.cpp, src/sequencing-manager.{hpp,cpp}
and src/communication/sync-logic-handler.cpp as one state machine.

Simplifications: time is in nanoseconds; validation of fetched data is not modelled (any decoded LSA
may arrive); statistics are left out; the
segmenter is a function giving the number of segments; encodings are represented by the LSA they
encode (the round trip is `Verif.Props.Tlv`); `m_adjBuildCount` does not overflow.
-/
namespace Nlsr

/-- `uint64_t` increment.  As in src/lsdb.cpp:441, src/sequencing-manager.hpp:110-126. -/
def inc64 (n : Nat) : Nat := (n + 1) % 18446744073709551616

/-- What an LSA advertises: `AdjLsa::m_adl`, `CoordinateLsa::m_hyperbolicRadius/Angles`,
`NameLsa::m_npl`.  src/lsa/adj-lsa.hpp:129, src/lsa/coordinate-lsa.hpp:131-132, src/lsa/name-lsa.hpp:121. -/
inductive Content
  | adj (l : AdjacencyList)
  | coord (radius : Ext Rat) (angles : List (Ext Rat))
  | names (l : PrefixMap)
deriving DecidableEq, Repr

/-- `Lsa::getType`, src/lsa/lsa.hpp:78-79. -/
def Content.type : Content → LsaType
  | .adj _ => .adjacency
  | .coord _ _ => .coordinate
  | .names _ => .name

/-- `Lsa`, src/lsa/lsa.hpp:137-144 (origin router, sequence number, expiration time point in
nanoseconds of the system clock). -/
structure Lsa where
  origin  : Name
  seq     : Nat
  exp     : Int
  content : Content
deriving DecidableEq, Repr

/-- `Lsa::getType`, src/lsa/lsa.hpp:78-79. -/
def Lsa.type (l : Lsa) : LsaType := l.content.type

/-- The list loop of `AdjLsa::update` and of the decoder: `addAdjacent` one by one
(src/lsa/adj-lsa.cpp:104-113, 134-137). -/
def AdjacencyList.ofList (l : List Adjacent) : AdjacencyList :=
  l.foldl (fun acc a => (AdjacencyList.insert acc a).1) []

/-- Result of an `update` call.  src/lsa/lsa.hpp:119-120. -/
structure UpdateResult where
  content : Content
  updated : Bool
  adds    : List PrefixInfo := []
  removes : List PrefixInfo := []
deriving DecidableEq, Repr

/-- `AdjLsa::update`, src/lsa/adj-lsa.cpp:129-141. -/
def updateAdj (old new : AdjacencyList) : UpdateResult :=
  if AdjacencyList.eqv old new then { content := .adj old, updated := false }
  else { content := .adj (AdjacencyList.ofList new), updated := true }

/-- `operator==`, src/lsa/coordinate-lsa.hpp:121-128. -/
def coordEq (r : Ext Rat) (as : List (Ext Rat)) (r' : Ext Rat) (as' : List (Ext Rat)) : Bool :=
  diffInEpsilon r r' && as.length == as'.length && (as.zip as').all (fun p => diffInEpsilon p.1 p.2)

/-- `CoordinateLsa::update`, src/lsa/coordinate-lsa.cpp:132-145. -/
def updateCoord (r : Ext Rat) (as : List (Ext Rat)) (r' : Ext Rat) (as' : List (Ext Rat)) : UpdateResult :=
  if coordEq r as r' as' then { content := .coord r as, updated := false }
  else { content := .coord r' as', updated := true }

/-- `NameLsa::update`, src/lsa/name-lsa.cpp:128-162. -/
def updateNames (old new : PrefixMap) : UpdateResult :=
  let adds := PrefixMap.minus new old
  let removes := PrefixMap.minus old new
  let l := adds.foldl PrefixMap.insert old
  { content := .names (removes.foldl (fun m p => PrefixMap.erase m p.name) l)
    updated := !adds.isEmpty || !removes.isEmpty
    adds := adds
    removes := removes }

/-- `Lsa::update` dispatch.  Caller and argument have the same type because the LSDB looks LSAs up by
type; the last case is unreachable.  src/lsdb.cpp:330. -/
def Content.update (old new : Content) : UpdateResult :=
  match old, new with
  | .adj a, .adj b => updateAdj a b
  | .coord r as, .coord r' as' => updateCoord r as r' as'
  | .names a, .names b => updateNames a b
  | c, _ => { content := c, updated := false }

/-- What a decoder or constructor builds out of the advertised elements.
src/lsa/adj-lsa.cpp:27-36, 104-113, src/lsa/name-lsa.cpp:27-36, 96-110. -/
def Content.norm : Content → Content
  | .adj l => .adj (AdjacencyList.ofList l)
  | .coord r as => .coord r as
  | .names l => .names (PrefixMap.ofList l)

/-- Sequence numbers of `SequencingManager`, src/sequencing-manager.hpp:149-151. -/
structure Seqs where
  name : Nat := 0
  adj  : Nat := 0
  cor  : Nat := 0
deriving DecidableEq, Repr

namespace Seqs
/-- `getLsaSeq`, src/sequencing-manager.hpp:59-72. -/
def get (s : Seqs) : LsaType → Nat
  | .name => s.name
  | .adjacency => s.adj
  | .coordinate => s.cor
  | .base => 0

/-- `setLsaSeq`, src/sequencing-manager.hpp:41-57. -/
def set (s : Seqs) (t : LsaType) (n : Nat) : Seqs :=
  match t with
  | .name => { s with name := n }
  | .adjacency => { s with adj := n }
  | .coordinate => { s with cor := n }
  | .base => s

/-- `+= 10` on `uint64_t`.  src/sequencing-manager.cpp:72-92. -/
def plus10 (n : Nat) : Nat := (n + 10) % 18446744073709551616

/-- `initiateSeqNoFromFile`, src/sequencing-manager.cpp:55-95, first part (lines 72-82). -/
def initA (h : HypState) (d : Seqs) : Seqs :=
  let d := { d with name := plus10 d.name }
  if h = .on then d else { d with cor := 0, adj := plus10 d.adj }

/-- second part (lines 84-92). -/
def initB (h : HypState) (d : Seqs) : Seqs :=
  if h = .off then d else { d with adj := 0, cor := plus10 d.cor }

/-- `none` is an absent file.  src/sequencing-manager.cpp:55-95. -/
def init (h : HypState) : Option Seqs → Seqs
  | none => {}
  | some d => initB h (initA h d)
end Seqs

/-- `LsdbUpdate`, src/lsdb.hpp:54-58. -/
inductive ModKind | installed | updated | removed
deriving DecidableEq, Repr

/-- A Data packet made by the segmenter: its name, the LSA whose encoding it carries a segment of.
src/lsdb.cpp:276-286. -/
structure Seg where
  name : Name
  lsa  : Lsa
  idx  : Nat
deriving DecidableEq, Repr

/-- Observable effects, in order.
src/lsdb.cpp, src/sequencing-manager.cpp:42-53, src/communication/sync-logic-handler.cpp:74-90. -/
inductive Out
  /-- the state file has been replaced (`rename`, src/sequencing-manager.cpp:52) -/
  | persist (s : Seqs)
  /-- `SyncLogic::publishUpdate` for this LSA type -/
  | publish (t : LsaType) (n : Nat)
  /-- `onLsdbModified` -/
  | signal (k : ModKind) (l : Lsa) (adds removes : List PrefixInfo)
  /-- `onNewLsa` -/
  | newLsa (updateName : Name) (seq : Nat) (origin : Name)
  /-- an LSA interest (a segment fetch) for `lsaName/seq` -/
  | interest (lsaName : Name) (seq : Nat)
  /-- `m_face.put` of a segment of an own LSA -/
  | data (s : Seg)
  /-- `m_face.put` of a stored segment of another router's LSA -/
  | storedData (name : Name)
  /-- an exception leaves the event loop: the daemon exits (src/main.cpp:85-91) -/
  | fault
deriving DecidableEq, Repr

/-- Configuration read by the LSDB.  src/conf-parameter.hpp:490-530. -/
structure LConf where
  names     : RouterConf
  hyp       : HypState
  /-- lsa-refresh-time (seconds) -/
  refresh   : Nat
  /-- router-dead-interval (seconds) -/
  dead      : Nat
  /-- adj-lsa-build-interval (seconds) -/
  build     : Nat
  /-- hello-retries -/
  retry     : Nat
  /-- hello-timeout (seconds) -/
  resend    : Nat
  /-- lsa-interest-lifetime (seconds) -/
  lifetime  : Nat
  radius    : Ext Rat
  angles    : List (Ext Rat)
  /-- number of segments the segmenter makes of an LSA's encoding -/
  segments  : Lsa → Nat

/-- `getRouterPrefix`, src/conf-parameter.hpp:498. -/
def LConf.router (c : LConf) : Name := c.names.routerPrefix

/-- An LSA object in memory: identity, value, and the event its `ScopedEventId` owns
(src/lsa/lsa.hpp:144). -/
structure Obj where
  oid : Nat
  lsa : Lsa
  evt : Nat
deriving DecidableEq, Repr

/-- A pending `expireOrRefreshLsa` call; the closure owns the LSA object (src/lsdb.cpp:420). -/
structure Ev where
  eid : Nat
  due : Nat
  oid : Nat
deriving DecidableEq, Repr

/-- A segment fetch in progress.  src/lsdb.cpp:487-523. -/
structure Fetch where
  lsaName  : Name
  seq      : Nat
  deadline : Nat
deriving DecidableEq, Repr

/-- `Lsdb`, src/lsdb.hpp:359-387, with the clocks, the scheduler's events and what was done so far. -/
structure Lsdb where
  /-- steady clock, ns -/
  now        : Nat := 0
  /-- system clock, ns -/
  sys        : Int := 0
  db         : List Obj := []
  /-- objects removed from the LSDB that a pending event may still refer to -/
  dead       : List Obj := []
  events     : List Ev := []
  nextId     : Nat := 0
  seqs       : Seqs := {}
  /-- `m_highestSeqNo` -/
  highest    : List (Name × Nat) := []
  fetches    : List Fetch := []
  /-- scheduled `expressInterest` calls and their due times -/
  retries    : List (Nat × Fetch) := []
  /-- `m_isBuildAdjLsaScheduled` -/
  buildFlag  : Bool := false
  /-- event owned by `m_scheduledAdjLsaBuild` -/
  buildDue   : Option Nat := none
  buildCount : Nat := 0
  /-- the configured neighbours (`ConfParameter::getAdjacencyList`) -/
  adjs       : AdjacencyList := []
  /-- the configured/advertised names (`getNamePrefixList().getPrefixInfo()`) -/
  npl        : List PrefixInfo := []
  /-- `m_segmentFifo` -/
  fifo       : List Seg := []
  /-- `m_lsaStorage`: names of the stored segments -/
  storage    : List Name := []
  log        : List Out := []

namespace Lsdb

/-- The clocks count nanoseconds (`ndn::time`). -/
def nsPerSec : Nat := 1000000000

/-- Not in the code: notes an effect. -/
def emit (s : Lsdb) (o : Out) : Lsdb := { s with log := s.log ++ [o] }

/-- `findLsa`, src/lsdb.hpp:195-200. -/
def isKey (r : Name) (t : LsaType) (o : Obj) : Bool := o.lsa.origin == r && o.lsa.type == t

/-- `findLsa`, src/lsdb.hpp:195-200. -/
def find (s : Lsdb) (r : Name) (t : LsaType) : Option Obj := s.db.find? (isKey r t)

/-- `isLsaNew`, src/lsdb.hpp:249-255. -/
def isLsaNew (s : Lsdb) (r : Name) (t : LsaType) (n : Nat) : Bool :=
  match s.find r t with
  | some o => decide (o.lsa.seq < n)
  | none => true

/-- `getLsaExpirationTimePoint`, src/lsdb.hpp:344-348. -/
def expirationPoint (c : LConf) (s : Lsdb) : Int := s.sys + ((c.dead * nsPerSec : Nat) : Int)

/-- Seconds until the LSA's timer, without the grace period: src/lsdb.cpp:307-313.
`duration_cast<seconds>` of a positive duration rounds down. -/
def timeToExpire (c : LConf) (s : Lsdb) (l : Lsa) : Nat :=
  if l.origin = c.router then c.refresh
  else if 0 < l.exp - s.sys then ((l.exp - s.sys) / (nsPerSec : Int)).toNat
  else c.refresh

/-- Delay of the timer: `expTime + GRACE_PERIOD`, src/lsdb.cpp:420, src/lsdb.hpp:52. -/
def timerDelay (secs : Nat) : Nat := (secs + 10) * nsPerSec

/-- Replace the stored object with this identity.  src/lsdb.cpp:327-335, 441-446 change it through its pointer. -/
def setObj (db : List Obj) (o : Obj) : List Obj := db.map (fun x => if x.oid == o.oid then o else x)

/-- `scheduleLsaExpiration` and `setExpiringEventId` on the object `o` (src/lsdb.cpp:416-421,
src/lsa/lsa.hpp:103-107).  Assigning to the `ScopedEventId` cancels the event it owned. -/
def reschedule (s : Lsdb) (o : Obj) (secs : Nat) : Lsdb :=
  { s with
    db := setObj s.db { o with evt := s.nextId }
    events := s.events.filter (fun e => !(e.eid == o.evt)) ++ [⟨s.nextId, s.now + timerDelay secs, o.oid⟩]
    nextId := s.nextId + 1 }

/-- `installLsa`, first branch, src/lsdb.cpp:316-323. -/
def installNew (s : Lsdb) (l : Lsa) (secs : Nat) : Lsdb :=
  { s with
    db := s.db ++ [⟨s.nextId, l, s.nextId + 1⟩]
    events := s.events ++ [⟨s.nextId + 1, s.now + timerDelay secs, s.nextId⟩]
    nextId := s.nextId + 2
    log := s.log ++ [.signal .installed l [] []] }

/-- `installLsa`, second branch, src/lsdb.cpp:325-337. -/
def installUpdate (s : Lsdb) (o : Obj) (l : Lsa) (secs : Nat) : Lsdb :=
  let u := o.lsa.content.update l.content
  let s' := reschedule s { o with lsa := ⟨o.lsa.origin, l.seq, l.exp, u.content⟩ } secs
  if u.updated then s'.emit (.signal .updated l u.adds u.removes) else s'

/-- `installLsa`, src/lsdb.cpp:304-338. -/
def installLsa (c : LConf) (s : Lsdb) (l : Lsa) : Lsdb :=
  let secs := timeToExpire c s l
  match s.find l.origin l.type with
  | none => installNew s l secs
  | some o => if o.lsa.seq < l.seq then installUpdate s o l secs else s

/-- `removeLsa`, src/lsdb.cpp:340-355. -/
def removeLsa (s : Lsdb) (r : Name) (t : LsaType) : Lsdb :=
  match s.find r t with
  | none => s
  | some o =>
    { s with
      db := s.db.filter (fun x => !isKey r t x)
      dead := o :: s.dead
      log := s.log ++ [.signal .removed o.lsa [] []] }

/-- `writeSeqNoToFile`, src/sequencing-manager.cpp:42-53: the temporary file is written first, the
`rename` makes it visible at once. -/
def persist (s : Lsdb) : Lsdb := s.emit (.persist s.seqs)

/-- `SyncLogicHandler::publishRoutingUpdate`, src/communication/sync-logic-handler.cpp:74-90. -/
def publish (s : Lsdb) (t : LsaType) : Lsdb := s.emit (.publish t (s.seqs.get t))

/-- The common beginning of the three `buildAndInstallOwn...Lsa` functions: increase, write, publish
(src/lsdb.cpp:149-151, 162-168, 405-411). -/
def announce (s : Lsdb) (t : LsaType) (doPublish : Bool) : Lsdb :=
  let s := { s with seqs := s.seqs.set t (inc64 (s.seqs.get t)) }
  let s := persist s
  if doPublish then publish s t else s

/-- `buildAndInstallOwnNameLsa`, src/lsdb.cpp:144-154. -/
def buildName (c : LConf) (s : Lsdb) : Lsdb :=
  let l : Lsa := ⟨c.router, inc64 s.seqs.name, s.expirationPoint c, .names (PrefixMap.ofList s.npl)⟩
  installLsa c (announce s .name true) l

/-- `buildAndInstallOwnCoordinateLsa`, src/lsdb.cpp:156-171. -/
def buildCoord (c : LConf) (s : Lsdb) : Lsdb :=
  let l : Lsa := ⟨c.router, inc64 s.seqs.cor, s.expirationPoint c, .coord c.radius c.angles⟩
  installLsa c (announce s .coordinate (c.hyp ≠ .off)) l

/-- `buildAndInstallOwnAdjLsa`, src/lsdb.cpp:399-414. -/
def buildAdj (c : LConf) (s : Lsdb) : Lsdb :=
  let l : Lsa := ⟨c.router, inc64 s.seqs.adj, s.expirationPoint c, .adj (AdjacencyList.lsaList s.adjs)⟩
  installLsa c (announce s .adjacency (c.hyp ≠ .on)) l

/-- `scheduleAdjLsaBuild`, src/lsdb.cpp:173-192.  The `ScopedEventId` cancels the event it owned. -/
def scheduleBuild (c : LConf) (s : Lsdb) : Lsdb :=
  let s := { s with buildCount := s.buildCount + 1 }
  if c.hyp = .on then s
  else { s with buildFlag := true, buildDue := some (s.now + c.build * nsPerSec) }

/-- `buildAdjLsa`, the part under "one scheduled", src/lsdb.cpp:368-386. -/
def buildOrRemove (c : LConf) (s : Lsdb) : Lsdb :=
  if 0 < s.buildCount then
    let s' := if 0 < AdjacencyList.numActive s.adjs then buildAdj c s
              else removeLsa s c.router .adjacency
    { s' with buildCount := s'.buildCount - s.buildCount }
  else s

/-- `buildAdjLsa`, src/lsdb.cpp:357-397. -/
def buildAdjLsa (c : LConf) (s : Lsdb) : Lsdb :=
  let s := { s with buildFlag := false, buildDue := none }
  if AdjacencyList.isAdjLsaBuildable s.adjs c.retry then buildOrRemove c s
  else { s with buildFlag := true, buildDue := some (s.now + c.retry * c.resend * nsPerSec) }

/-- Refresh of an own LSA, src/lsdb.cpp:441-448. -/
def refresh (c : LConf) (s : Lsdb) (o : Obj) : Lsdb :=
  let l := { o.lsa with seq := inc64 o.lsa.seq, exp := s.expirationPoint c }
  let s := { s with seqs := s.seqs.set o.lsa.type l.seq }
  let s := reschedule s { o with lsa := l } c.refresh
  publish (persist s) o.lsa.type

/-- `expireOrRefreshLsa`, src/lsdb.cpp:423-457; `l` is the LSA owned by the closure. -/
def expireOrRefresh (c : LConf) (s : Lsdb) (l : Lsa) : Lsdb :=
  match s.find l.origin l.type with
  | none => s
  | some o =>
    if o.lsa.seq = l.seq then
      if o.lsa.origin = c.router then refresh c s o
      else removeLsa s o.lsa.origin o.lsa.type
    else s

/-- The scheduler runs the event `eid` if it is pending and due.  src/lsdb.cpp:416-421. -/
def fire (c : LConf) (s : Lsdb) (eid : Nat) : Lsdb :=
  match s.events.find? (fun e => e.eid == eid) with
  | none => s
  | some ev =>
    if s.now < ev.due then s
    else
      match (s.db ++ s.dead).find? (fun o => o.oid == ev.oid) with
      | none => { s with events := s.events.filter (fun e => !(e.eid == eid)) }
      | some o => expireOrRefresh c { s with events := s.events.filter (fun e => !(e.eid == eid)) } o.lsa

/-- Lookup in `m_highestSeqNo`.  src/lsdb.cpp:474, 562. -/
def highestOf (s : Lsdb) (n : Name) : Option Nat := (s.highest.find? (fun p => p.1 == n)).map (·.2)

/-- `m_highestSeqNo[name] = n`, src/lsdb.cpp:476-479, 563-567. -/
def setHighest (m : List (Name × Nat)) (n : Name) (k : Nat) : List (Name × Nat) :=
  (n, k) :: m.filter (fun p => !(p.1 == n))

/-- src/lsdb.cpp:474-485 and 562-571: `none` if a higher number is known. -/
def noteSeq (s : Lsdb) (n : Name) (k : Nat) : Option Lsdb :=
  match s.highestOf n with
  | none => some { s with highest := setHighest s.highest n k }
  | some h =>
    if h < k then some { s with highest := setHighest s.highest n k }
    else if k < h then none
    else some s

/-- LSA_REFRESH_TIME_MAX, src/conf-parameter.hpp:47 (seconds). -/
def refreshMax : Nat := 7200

/-- `expressInterest`, src/lsdb.cpp:459-526.  The interest name is `lsaName` followed by the number
(the caller appends it with `appendNumber`, lines 138-139, and it is read back with `toNumber`, line
472; see `toNumber_number`). -/
def expressInterest (s : Lsdb) (lsaName : Name) (seq : Nat) (deadline : Nat) : Lsdb :=
  match s.noteSeq lsaName seq with
  | none => s
  | some s => { s with fetches := s.fetches ++ [⟨lsaName, seq, deadline⟩]
                       log := s.log ++ [.interest lsaName seq] }

/-- Own-router part of `processUpdateFromSync`, src/lsdb.cpp:99-114. -/
def ownUpdate (c : LConf) (s : Lsdb) (t : LsaType) (seq : Nat) : Lsdb :=
  match t with
  | .name => buildName c { s with seqs := s.seqs.set .name seq }
  | .adjacency => if c.hyp = .off then buildAdj c { s with seqs := s.seqs.set .adjacency seq } else s
  | .coordinate => if c.hyp = .on then buildCoord c { s with seqs := s.seqs.set .coordinate seq } else s
  | .base => s

/-- src/lsdb.cpp:122-134: the types not fetched in a mode. -/
def notFetched (h : HypState) (t : LsaType) (seq : Nat) : Bool :=
  (t == .adjacency && seq != 0 && h == .on) || (t == .coordinate && seq != 0 && h == .off)

/-- `processUpdateFromSync`, src/lsdb.cpp:87-142. -/
def processUpdate (c : LConf) (s : Lsdb) (updateName : Name) (seq : Nat) (origin : Name) (t : LsaType) : Lsdb :=
  if origin = c.router then
    if s.isLsaNew origin t seq then ownUpdate c s t seq else s
  else if s.isLsaNew origin t seq then
    if notFetched c.hyp t seq then s
    else expressInterest (s.emit (.newLsa updateName seq origin)) updateName seq
           (s.now + refreshMax * nsPerSec)
  else s

/-- `SyncLogicHandler::processUpdate` followed by `Lsdb::processUpdateFromSync`.  The type is read
from the last component, which exists because the name contains `LSA`.
src/communication/sync-logic-handler.cpp:53-72, src/lsdb.cpp:87-142. -/
def sync (c : LConf) (s : Lsdb) (updateName : Name) (seq : Nat) : Lsdb :=
  match syncOrigin updateName, updateName.fromEnd 1 with
  | some origin, some last => processUpdate c s updateName seq origin (LsaType.ofComp last)
  | _, _ => s

/-- The decoded LSA is installed if the interest's number is new (src/lsdb.cpp:581-612); `none` is a
decoding error or an LSA of another type (C56). -/
def installFetched (c : LConf) (s : Lsdb) (origin : Name) (t : LsaType) (seq : Nat) (p : Option Lsa) : Lsdb :=
  match p with
  | none => s
  | some l => if t ≠ .base ∧ l.type = t ∧ s.isLsaNew origin t seq then installLsa c s l else s

/-- `afterFetchLsa`, src/lsdb.cpp:553-614. -/
def afterFetch (c : LConf) (s : Lsdb) (f : Fetch) (p : Option Lsa) : Lsdb :=
  match s.noteSeq f.lsaName f.seq with
  | none => s
  | some s =>
    let interestName := f.lsaName ++ [Comp.number f.seq]
    if Name.position interestName (Comp.str "LSA") < 0 then s
    else match interestName.fromEnd 2 with
      | none => s
      | some tc => installFetched c s (interestOrigin c.names.network interestName) (LsaType.ofComp tc) f.seq p

/-- `onComplete` handler, src/lsdb.cpp:512-516; `m_lsaStorage.erase` removes everything under the
previous number (`seqNo - 1` on `uint64_t`). -/
def fetchDone (c : LConf) (s : Lsdb) (f : Fetch) (p : Option Lsa) : Lsdb :=
  let old := f.lsaName ++ [Comp.number ((f.seq + 18446744073709551615) % 18446744073709551616)]
  afterFetch c { s with storage := s.storage.filter (fun n => !Name.isPrefixOf old n) } f p

/-- `onFetchLsaError`, src/lsdb.cpp:528-551. -/
def fetchFailed (c : LConf) (s : Lsdb) (f : Fetch) (timeout : Bool) : Lsdb :=
  if s.now < f.deadline ∧ s.highestOf f.lsaName = some f.seq then
    { s with retries := s.retries ++ [(s.now + (if timeout then 0 else c.lifetime * nsPerSec), f)] }
  else s

/-- Name of the segments made for an interest, `appendVersion` and a segment number
(src/lsdb.cpp:278-280). -/
def segName (interestName : Name) (ver i : Nat) : Name :=
  interestName ++ [⟨54, Tlv.encNni ver⟩, ⟨50, Tlv.encNni i⟩]

/-- `m_segmentFifo(100)`: the oldest entries are dropped, src/lsdb.cpp:57. -/
def fifoInsert (l new : List Seg) : List Seg := (l ++ new).drop ((l ++ new).length - 100)

/-- `InMemoryStorage::find`: the entry with the least name under `n`.  src/lsdb.cpp:221, 263; external library ndn-cxx.
Simplification: among entries of the same name, which ndn-cxx orders by their digests, the first. -/
def least {α : Type} (key : α → Name) (n : Name) : List α → Option α
  | [] => none
  | d :: ds =>
    match least key n ds with
    | none => if Name.isPrefixOf n (key d) then some d else none
    | some e => if Name.isPrefixOf n (key d) && !Name.lt (key e) (key d) then some d else some e

/-- Segment number requested, src/lsdb.cpp:287-290. -/
def segWanted (interestName : Name) : Nat :=
  match interestName.fromEnd 1 with
  | some c => if c.isSegment then (Tlv.decNni c.val).getD 0 else 0
  | none => 0

/-- `processInterestForLsa`, src/lsdb.cpp:269-302; `ver` is the version the segmenter's
`appendVersion` chooses. -/
def replyOwn (c : LConf) (s : Lsdb) (name : Name) (t : LsaType) (seq ver : Nat) : Lsdb :=
  match s.find c.router t with
  | none => s
  | some o =>
    if o.lsa.seq = seq then
      let segs := (List.range (c.segments o.lsa)).map (fun i => (⟨segName name ver i, o.lsa, i⟩ : Seg))
      let s := { s with fifo := fifoInsert s.fifo segs }
      match segs[segWanted name]? with
      | some d => s.emit (.data d)
      | none => s
    else s

/-- The part of `processInterest` after the FIFO lookup, src/lsdb.cpp:236-266; `iname` is the name
without version and segment.  Simplification: stored segments are looked up as if the interest had CanBePrefix;
without it ndn-cxx only takes a segment of exactly that name.  (Nothing that is stored becomes stale: the stores have no
timers of their own.) -/
def processStripped (c : LConf) (s : Lsdb) (name iname : Name) (ver : Nat) : Lsdb :=
  if interestOrigin c.names.network iname = c.router ∧ 0 ≤ Name.position iname (Comp.str "LSA") then
    match iname.fromEnd 1, iname.fromEnd 2 with
    | some last, some tc =>
      match last.toNumber with
      | none => s.emit .fault
      | some seq =>
        match LsaType.ofComp tc with
        | .base => s
        | t => replyOwn c s name t seq ver
    | _, _ => s.emit .fault
  else
    match least id name s.storage with
    | some n => s.emit (.storedData n)
    | none => s

/-- `processInterest`, src/lsdb.cpp:213-267.  The interest filter only lets names under the LSA
prefix through (lines 64-65), so `[-2]` exists. -/
def processInterest (c : LConf) (s : Lsdb) (name : Name) (ver : Nat) : Lsdb :=
  if Name.isPrefixOf c.names.lsaPrefix name then
    match name.fromEnd 2 with
    | none => s
    | some v =>
      if v.isVersion then
        match least (·.name) name s.fifo with
        | some d => s.emit (.data d)
        | none => processStripped c s name (Name.getPrefix name (-2)) ver
      else processStripped c s name name ver
  else s

/-- Everything that can happen to the LSDB.  Numbers are `uint64_t`.  src/lsdb.cpp. -/
inductive Op
  /-- time passes; the system clock may be set to anything -/
  | clock (dt : Nat) (sys : Int)
  /-- hello protocol and face events change the neighbours -/
  | setAdjs (l : AdjacencyList)
  /-- prefix commands change the advertised names -/
  | setNpl (l : List PrefixInfo)
  | buildName
  | scheduleBuild
  | buildTimer
  | timer (eid : Nat)
  | sync (updateName : Name) (seq : Nat)
  | fetched (i : Nat) (p : Option Lsa)
  | fetchError (i : Nat) (timeout : Bool)
  | retryTimer (i : Nat)
  /-- a fetched segment passed validation and is stored (src/lsdb.cpp:500-506) -/
  | segment (name : Name)
  /-- its deletion timer fires (src/lsdb.cpp:508-509) -/
  | segmentGone (name : Name)
  | interest (name : Name) (ver : Nat)
  /-- deletion timer of a FIFO segment (src/lsdb.cpp:283-284) -/
  | fifoGone (name : Name)

/-- `build` timer.  src/lsdb.cpp:191, 395. -/
def buildTimer (c : LConf) (s : Lsdb) : Lsdb :=
  match s.buildDue with
  | none => s
  | some d => if s.now < d then s else buildAdjLsa c s

/-- The fetch is complete and `p` is what its content decodes to: src/lsdb.cpp:514-518, 553-614. -/
def fetched (c : LConf) (s : Lsdb) (i : Nat) (p : Option Lsa) : Lsdb :=
  match s.fetches[i]? with
  | none => s
  | some f => fetchDone c { s with fetches := s.fetches.eraseIdx i } f
      (p.map (fun l => { l with seq := l.seq % 18446744073709551616, content := l.content.norm }))

/-- The fetch failed: src/lsdb.cpp:520-523, 528-551. -/
def fetchError (c : LConf) (s : Lsdb) (i : Nat) (timeout : Bool) : Lsdb :=
  match s.fetches[i]? with
  | none => s
  | some f => fetchFailed c { s with fetches := s.fetches.eraseIdx i } f timeout

/-- The scheduled `expressInterest`, src/lsdb.cpp:547-548. -/
def retryTimer (s : Lsdb) (i : Nat) : Lsdb :=
  match s.retries[i]? with
  | none => s
  | some (due, f) =>
    if s.now < due then s
    else expressInterest { s with retries := s.retries.eraseIdx i } f.lsaName f.seq f.deadline

/-- A packet has at most 8800 octets (`ndn::MAX_NDN_PACKET_SIZE`), so a received name has fewer
components than that.  External library ndn-cxx. -/
def maxComponents : Nat := 8800

/-- An operation, by the functions above (src/lsdb.cpp). -/
def step (c : LConf) (s : Lsdb) : Op → Lsdb
  | .clock dt sys => { s with now := s.now + dt, sys := sys }
  | .setAdjs l => { s with adjs := l }
  | .setNpl l => { s with npl := l }
  | .buildName => s.buildName c
  | .scheduleBuild => s.scheduleBuild c
  | .buildTimer => s.buildTimer c
  | .timer eid => s.fire c eid
  | .sync n k => s.sync c n (k % 18446744073709551616)
  | .fetched i p => s.fetched c i p
  | .fetchError i t => s.fetchError c i t
  | .retryTimer i => s.retryTimer i
  | .segment n => { s with storage := s.storage ++ [n] }
  | .segmentGone n => { s with storage := s.storage.filter (fun m => !Name.isPrefixOf n m) }
  | .interest n v => if n.length ≤ maxComponents then s.processInterest c n v else s
  | .fifoGone n => { s with fifo := s.fifo.filter (fun d => !Name.isPrefixOf n d.name) }

/-- A run of the daemon (src/main.cpp:85-86). -/
def run (c : LConf) (s : Lsdb) (ops : List Op) : Lsdb := ops.foldl (step c) s

/-- State at the start of the constructor body, src/lsdb.cpp:47-59; `disk` is the state file. -/
def boot (c : LConf) (disk : Option Seqs) (adjs : AdjacencyList) (npl : List PrefixInfo) (sys : Int) : Lsdb :=
  { sys := sys, seqs := Seqs.init c.hyp disk, adjs := adjs, npl := npl }

/-- The constructor, src/lsdb.cpp:34-78. -/
def init (c : LConf) (disk : Option Seqs) (adjs : AdjacencyList) (npl : List PrefixInfo) (sys : Int) : Lsdb :=
  let s := buildName c (boot c disk adjs npl sys)
  if c.hyp = .off then s else buildCoord c s

end Lsdb
end Nlsr
