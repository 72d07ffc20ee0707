import Verif.Model.Fib
import Verif.Model.Names
/-
Models src/hello-protocol.{hpp,cpp} and the parts of src/nlsr.cpp that look after neighbours: face
events, the face dataset, and strategies for certificates.

The outside world is the NDN library and NFD: interests come in, interests that were sent time out, are
nacked or bring data, data passes validation or does not, faces come and go, timers fire.  All of it is
operations, in any order.  An interest times out, and a timer fires, when it is due or later.  Face URIs
are compared as text (the code compares parsed URIs in one place and text in the other; URIs are taken
to be in canonical form).  An exception that nobody catches ends the daemon (`dead`).
-/
namespace Nlsr

/-- The configuration read by the hello protocol and the face code, src/conf-parameter.hpp:490-520. -/
structure NConf where
  router   : Name
  hyp      : HypState
  /-- hello-retries -/
  retry    : Nat
  /-- hello-timeout, hello-interval (seconds) -/
  resend   : Nat
  interval : Nat
  lsaPrefix  : Name
  syncPrefix : Name
  /-- face-dataset-fetch-tries, face-dataset-fetch-interval (seconds) -/
  tries    : Nat
  fetchInt : Nat
  /-- which outer TLV types `Name(Block)` accepts, a matter of the NDN library; 7 is the type of a name -/
  nameTlv  : Nat → Bool

/-- What the daemon does.  src/hello-protocol.cpp, src/nlsr.cpp. -/
inductive NOut
  | interest (n : Name)
  | data (n : Name)
  /-- `Lsdb::scheduleAdjLsaBuild` -/
  | build
  /-- `RoutingTable::scheduleRoutingTableCalculation` -/
  | calc
  /-- `onInitialHelloDataValidated` -/
  | initial (n : Name)
  /-- `Fib::registerPrefix` with the neighbour's link cost, no expiry, and the capture flag -/
  | register (n : Name) (uri : Uri) (cost : Ext Rat)
  /-- a face dataset is requested; the next round is scheduled -/
  | fetch
  | nextFetch
  /-- `Fib::setStrategy` -/
  | strategy (n s : Name)
deriving DecidableEq, Repr

/-- What happened to the daemon, as far as the properties need it.
Not in the code: notes of what happened, for stating properties. -/
inductive NEvent
  /-- a hello interest was lost (timeout, or some time after a nack) -/
  | lost (interest : Name)
  /-- a hello data passed validation -/
  | valid (data : Name)
  | faceDown (fid : Nat)
  | faceUp (uri : Uri) (fid : Nat)
  | dataset (faces : List (Uri × Nat))
  /-- NFD accepted a registration on this face -/
  | regFace (uri : Uri) (fid : Nat)
deriving DecidableEq, Repr

/-- The neighbours (src/conf-parameter.hpp:536), the scheduler's events and what waits for an answer in
src/hello-protocol.hpp:132-139 and src/nlsr.hpp:168-193. -/
structure Nbr where
  adjs   : AdjacencyList
  now    : Nat := 0
  /-- scheduled calls of `sendHelloInterest`: neighbour and time -/
  timers : List (Name × Nat) := []
  /-- interests sent and not answered: name and time of expiry -/
  waiting : List (Name × Nat) := []
  /-- nacked interests that will count as lost: name and time -/
  nacked : List (Name × Nat) := []
  /-- data being validated -/
  validating : List Name := []
  /-- face dataset requests in flight: failures so far in this round -/
  fetches : List Nat := []
  /-- scheduled rounds -/
  rounds : List Nat := []
  /-- `m_strategySetOnRouters` -/
  certs  : List Name := []
  out    : List NOut := []
  hist   : List NEvent := []
  dead   : Bool := false

namespace AdjacencyList
/-- `findAdjacent(faceId)`, src/adjacency-list.cpp:183-188. -/
def findFace (l : AdjacencyList) (fid : Nat) : Option Adjacent := List.find? (fun a => a.faceId == fid) l

/-- A change through the iterator of `findAdjacent(faceId)`.  src/nlsr.cpp:187-222. -/
def modifyFace (l : AdjacencyList) (fid : Nat) (f : Adjacent → Adjacent) : AdjacencyList :=
  match l with
  | [] => []
  | a :: as => if a.faceId == fid then f a :: as else a :: modifyFace as fid f
end AdjacencyList

namespace Nbr

/-- The clocks count nanoseconds (`ndn::time`). -/
def nsPerSec : Nat := 1000000000

/-- `NLSR_COMPONENT`, `INFO_COMPONENT`, src/hello-protocol.hpp:126-127. -/
def nlsrComp : Comp := Comp.str "nlsr"
/-- `INFO_COMPONENT`, src/hello-protocol.hpp:126. -/
def infoComp : Comp := Comp.str "INFO"

/-- The name of a hello interest: `/<neighbor>/nlsr/INFO/<router>`, src/hello-protocol.cpp:97-101. -/
def helloName (c : NConf) (n : Name) : Name := n ++ [nlsrComp, infoComp, ⟨8, Tlv.encName c.router⟩]

/-- `Name(component.blockFromValue())`, line 127: one TLV block filling the value, whose own value is a
sequence of components; anything else throws (`none`). -/
def nameFromValue (c : NConf) (v : Tlv.Bytes) : Option Name :=
  match Tlv.decBlock v with
  | some (t, x, []) => if c.nameTlv t then Tlv.decName x else none
  | _ => none

/-- Not in the code: notes an effect. -/
def emit (s : Nbr) (o : NOut) : Nbr := { s with out := s.out ++ [o] }

/-- `expressInterest`, lines 65-85. -/
def express (c : NConf) (s : Nbr) (name : Name) : Nbr :=
  { s with waiting := s.waiting ++ [(name, s.now + c.resend * nsPerSec)], out := s.out ++ [.interest name] }

/-- `sendHelloInterest`, lines 87-108. -/
def sendHello (c : NConf) (s : Nbr) (n : Name) : Nbr :=
  match AdjacencyList.find s.adjs n with
  | none => s
  | some a =>
    let s := if a.faceId ≠ 0 then s.express c (helloName c a.name) else s
    { s with timers := s.timers ++ [(n, s.now + c.interval * nsPerSec)] }

/-- The scheduled call.  src/hello-protocol.cpp:106-107. -/
def helloTimer (c : NConf) (s : Nbr) (i : Nat) : Nbr :=
  match s.timers[i]? with
  | none => s
  | some (n, due) => if s.now < due then s else sendHello c { s with timers := s.timers.eraseIdx i } n

/-- `processInterest`, lines 110-160.  `ver` is the version appended to the data's name.  The face hands
over interests under `/<router>/nlsr/INFO` (lines 45-51). -/
def interest (c : NConf) (s : Nbr) (name : Name) (ver : Comp) : Nbr :=
  if !Name.isPrefixOf (c.router ++ [nlsrComp, infoComp]) name then s
  else if Name.fromEnd name 2 ≠ some infoComp then s
  else
    match Name.fromEnd name 1 with
    | none => s
    | some x =>
      match nameFromValue c x.val with
      | none => { s with dead := true }
      | some n =>
        match AdjacencyList.find s.adjs n with
        | none => s
        | some a =>
          let s := s.emit (.data (name ++ [ver]))
          if a.status = .inactive ∧ a.faceId ≠ 0 then s.express c (helloName c n) else s

/-- Lines 194-199, 239-244.  src/hello-protocol.cpp. -/
def rebuild (c : NConf) (s : Nbr) : Nbr := s.emit (if c.hyp = .on then .calc else .build)

/-- `processInterestTimedOut`, lines 162-201.  An absent neighbour's count is −1, that is 2^32−1 as
`uint32_t`. -/
def lost (c : NConf) (s : Nbr) (name : Name) : Nbr :=
  let s := { s with hist := s.hist ++ [.lost name] }
  if Name.fromEnd name 2 ≠ some infoComp then s
  else
    let n := Name.getPrefix name (-3)
    let s := { s with adjs := AdjacencyList.incTimedOut s.adjs n }
    let status := AdjacencyList.getStatus s.adjs n
    let count := (AdjacencyList.getTimedOut s.adjs n % 4294967296).toNat
    if count < c.retry then s.express c (helloName c n)
    else if status = .active then
      rebuild c { s with adjs := AdjacencyList.setStatus s.adjs n .inactive }
    else s

/-- The interest's lifetime is over.  src/hello-protocol.cpp:82. -/
def timeout (c : NConf) (s : Nbr) (i : Nat) : Nbr :=
  match s.waiting[i]? with
  | none => s
  | some (name, due) => if s.now < due then s else lost c { s with waiting := s.waiting.eraseIdx i } name

/-- The nack callback, lines 75-80. -/
def nack (c : NConf) (s : Nbr) (i : Nat) : Nbr :=
  match s.waiting[i]? with
  | none => s
  | some (name, _) =>
    { s with waiting := s.waiting.eraseIdx i, nacked := s.nacked ++ [(name, s.now + 2 * c.resend * nsPerSec)] }

/-- The call scheduled by the nack callback, src/hello-protocol.cpp:75-80. -/
def nackTimer (c : NConf) (s : Nbr) (i : Nat) : Nbr :=
  match s.nacked[i]? with
  | none => s
  | some (name, due) => if s.now < due then s else lost c { s with nacked := s.nacked.eraseIdx i } name

/-- Data comes back for a waiting interest: the face accepts names that extend the interest's
(`setCanBePrefix(true)`), and `onContent`, lines 206-218, hands it to the validator.  A packet has at most
8800 octets, and so a name has at most that many components. -/
def data (s : Nbr) (i : Nat) (d : Name) : Nbr :=
  match s.waiting[i]? with
  | none => s
  | some (name, _) =>
    if Name.isPrefixOf name d && decide (d.length ≤ 8800) then
      { s with waiting := s.waiting.eraseIdx i, validating := s.validating ++ [d] } else s

/-- `onContentValidated`, lines 220-250. -/
def validated (c : NConf) (s : Nbr) (d : Name) : Nbr :=
  let s := { s with hist := s.hist ++ [.valid d] }
  if Name.fromEnd d 3 = some infoComp then
    let n := Name.getPrefix d (-4)
    let old := AdjacencyList.getStatus s.adjs n
    let s := { s with adjs := AdjacencyList.setTimedOut (AdjacencyList.setStatus s.adjs n .active) n 0 }
    if old ≠ AdjacencyList.getStatus s.adjs n then (rebuild c s).emit (.initial n) else s
  else s

/-- Data passes validation, src/hello-protocol.cpp:215-217. -/
def valid (c : NConf) (s : Nbr) (i : Nat) : Nbr :=
  match s.validating[i]? with
  | none => s
  | some d => validated c { s with validating := s.validating.eraseIdx i } d

/-- `onContentValidationFailed`, lines 252-257. -/
def invalid (s : Nbr) (i : Nat) : Nbr := { s with validating := s.validating.eraseIdx i }

/-! ### src/nlsr.cpp -/

/-- `registerAdjacencyPrefixes`, lines 306-319. -/
def registerAdj (c : NConf) (s : Nbr) (a : Adjacent) : Nbr :=
  (s.emit (.register a.name a.uri a.linkCost)).emit (.register c.lsaPrefix a.uri a.linkCost)

/-- `onFaceEventNotification`, a face is destroyed, lines 184-227. -/
def faceDown (c : NConf) (s : Nbr) (fid : Nat) : Nbr :=
  let s := { s with hist := s.hist ++ [.faceDown fid] }
  match AdjacencyList.findFace s.adjs fid with
  | none => s
  | some a =>
    if a.status = .active then
      let down := fun (a : Adjacent) => { a with faceId := 0, status := .inactive, timedOut := c.retry }
      rebuild c { s with adjs := AdjacencyList.modifyFace s.adjs fid down }
    else { s with adjs := AdjacencyList.modifyFace s.adjs fid (fun a => { a with faceId := 0 }) }

/-- `onFaceEventNotification`, a face is created, lines 228-258.  A URI that cannot be parsed has no
effect and is not an event here. -/
def faceUp (c : NConf) (s : Nbr) (uri : Uri) (fid : Nat) : Nbr :=
  let s := { s with hist := s.hist ++ [.faceUp uri fid] }
  match AdjacencyList.findUri s.adjs uri with
  | none => s
  | some a =>
    if a.faceId = 0 ∨ a.faceId ≠ fid then
      registerAdj c { s with adjs := AdjacencyList.setFaceOf s.adjs uri fid }
        { a with faceId := fid }
    else s

/-- The first half of `Fib::onRegistrationSuccess`, src/route/fib.cpp:206-209: the neighbour with the URI is given the
face id of NFD's answer. -/
def regFace (s : Nbr) (uri : Uri) (fid : Nat) : Nbr :=
  { s with adjs := AdjacencyList.setFaceOf s.adjs uri fid, hist := s.hist ++ [.regFace uri fid] }

/-- The inner loop of `processFaceDataset`, lines 281-292: the neighbour afterwards, and whether its
prefixes are registered (once for each time the id is set). -/
def matchFaces (a : Adjacent) : List (Uri × Nat) → Adjacent × Nat
  | [] => (a, 0)
  | f :: fs =>
    if a.faceId = 0 ∧ a.uri = f.1 then
      let r := matchFaces { a with faceId := f.2 } fs
      (r.1, r.2 + 1)
    else matchFaces a fs

/-- `processFaceDataset`, lines 272-304, without the scheduling. -/
def useDataset (c : NConf) (faces : List (Uri × Nat)) : AdjacencyList → AdjacencyList × List NOut
  | [] => ([], [])
  | a :: as =>
    let r := matchFaces a faces
    let t := useDataset c faces as
    (r.1 :: t.1, (List.replicate r.2 [NOut.register a.name a.uri a.linkCost, .register c.lsaPrefix a.uri a.linkCost]).flatten ++ t.2)

/-- `scheduleDatasetFetch`, lines 343-353. -/
def scheduleFetch (c : NConf) (s : Nbr) : Nbr :=
  { s with rounds := s.rounds ++ [s.now + c.fetchInt * nsPerSec], out := s.out ++ [.nextFetch] }

/-- A dataset arrives, lines 272-304. -/
def fetchOk (c : NConf) (s : Nbr) (i : Nat) (faces : List (Uri × Nat)) : Nbr :=
  match s.fetches[i]? with
  | none => s
  | some _ =>
    let r := useDataset c faces s.adjs
    scheduleFetch c { s with fetches := s.fetches.eraseIdx i, adjs := r.1, out := s.out ++ r.2,
                             hist := s.hist ++ [.dataset faces] }

/-- `onFaceDatasetFetchTimeout`, lines 321-341. -/
def fetchFail (c : NConf) (s : Nbr) (i : Nat) : Nbr :=
  match s.fetches[i]? with
  | none => s
  | some k =>
    let s := { s with fetches := s.fetches.eraseIdx i }
    if k < c.tries then { s with fetches := s.fetches ++ [k + 1], out := s.out ++ [.fetch] }
    else scheduleFetch c s

/-- The next round starts, lines 348-352, 264-270. -/
def fetchTimer (s : Nbr) (i : Nat) : Nbr :=
  match s.rounds[i]? with
  | none => s
  | some due =>
    if s.now < due then s
    else { s with rounds := s.rounds.eraseIdx i, fetches := s.fetches ++ [0], out := s.out ++ [.fetch] }

/-- `Certificate::KEY_COMPONENT` and the strategies of src/route/fib.hpp:212-213. -/
def keyComp : Comp := Comp.str "KEY"
/-- `BEST_ROUTE_STRATEGY`, src/route/fib.hpp:213. -/
def bestRoute : Name := nm ["localhost", "nfd", "strategy", "best-route"]
/-- `MULTICAST_STRATEGY`, src/route/fib.hpp:212. -/
def multicast : Name := nm ["localhost", "nfd", "strategy", "multicast"]
/-- the component written `%C1.Router`.  src/nlsr.cpp:138. -/
def routerTag : Comp := ⟨8, 0xC1 :: ".Router".toUTF8.toList⟩

/-- The part of the name before `%C1.Router`, lines 137-143. -/
def siteOf (n : Name) : Name := n.takeWhile (fun c => !(c == routerTag))

/-- the component written `%C1.Operator`, src/nlsr.cpp:148: `Name::append` of a text goes through
`Name(std::string)`, which reads it as a URI. -/
def operatorTag : Comp := ⟨8, 0xC1 :: ".Operator".toUTF8.toList⟩

/-- The names of `registerStrategyForCerts`, lines 129-149. -/
def certNames (n : Name) : List Name :=
  [n ++ [keyComp], n ++ [nlsrComp, keyComp], siteOf n ++ [keyComp], siteOf n ++ [operatorTag]]

/-- `registerStrategyForCerts`, lines 117-150, called for each `onNewLsa`. -/
def newLsa (s : Nbr) (origin : Name) : Nbr :=
  if s.certs.contains origin then s
  else { s with certs := s.certs ++ [origin], out := s.out ++ (certNames origin).map (.strategy · bestRoute) }

/-- What happens to the daemon as far as neighbours are concerned: src/hello-protocol.cpp, src/nlsr.cpp. -/
inductive Op
  /-- `onPrefixRegistrationSuccess` (src/nlsr.cpp:55-58) -/
  | registered (n : Name)
  | helloTimer (i : Nat)
  | interest (name : Name) (ver : Comp)
  | timeout (i : Nat)
  | nack (i : Nat)
  | nackTimer (i : Nat)
  | data (i : Nat) (d : Name)
  | valid (i : Nat)
  | invalid (i : Nat)
  | faceDown (fid : Nat)
  | faceUp (uri : Uri) (fid : Nat)
  | fetchOk (i : Nat) (faces : List (Uri × Nat))
  | fetchFail (i : Nat)
  | fetchTimer (i : Nat)
  | newLsa (origin : Name)
  /-- NFD accepts a registration, src/route/fib.cpp:206-209; `registered` follows -/
  | regFace (uri : Uri) (fid : Nat)
  | clock (dt : Nat)
deriving Repr

/-- An operation, by the functions above (src/hello-protocol.cpp, src/nlsr.cpp). -/
def stepOp (c : NConf) (s : Nbr) : Op → Nbr
  | .registered n => s.sendHello c n
  | .helloTimer i => s.helloTimer c i
  | .interest name ver => s.interest c name ver
  | .timeout i => s.timeout c i
  | .nack i => s.nack c i
  | .nackTimer i => s.nackTimer c i
  | .data i d => s.data i d
  | .valid i => s.valid c i
  | .invalid i => s.invalid i
  | .faceDown fid => s.faceDown c fid
  | .faceUp uri fid => s.faceUp c uri fid
  | .fetchOk i faces => s.fetchOk c i faces
  | .fetchFail i => s.fetchFail c i
  | .fetchTimer i => s.fetchTimer i
  | .newLsa origin => s.newLsa origin
  | .regFace uri fid => s.regFace uri fid
  | .clock dt => { s with now := s.now + dt }

/-- After an uncaught exception nothing happens any more (src/main.cpp:85-91). -/
def step (c : NConf) (s : Nbr) (op : Op) : Nbr := if s.dead then s else stepOp c s op

/-- A run of the daemon (src/main.cpp:85-86). -/
def run (c : NConf) (s : Nbr) (ops : List Op) : Nbr := ops.foldl (step c) s

/-- The start, src/nlsr.cpp:82-115 as far as it concerns neighbours: strategies for the LSA and sync
prefixes, the first dataset request, and link costs 0 in hyperbolic mode. -/
def init (c : NConf) (adjs : AdjacencyList) : Nbr :=
  { adjs := if c.hyp = .on then adjs.map (fun a => { a with cost := .fin 0 }) else adjs
    fetches := [0]
    out := [.strategy c.lsaPrefix multicast, .strategy c.syncPrefix multicast, .fetch] }

end Nbr
end Nlsr
