import Verif.Model.Nbr
/- Packet statistics: src/statistics.{hpp,cpp}, src/stats-collector.cpp, and where src/hello-protocol.cpp and src/lsdb.cpp
raise the signals it listens to. -/
namespace Nlsr

/-- `Statistics::PacketType`, src/statistics.hpp:31-52. -/
inductive Packet
  | sentHelloInterest | sentHelloData | rcvHelloInterest | rcvHelloData
  | sentLsaInterest | sentAdjInterest | sentCoordInterest | sentNameInterest
  | sentLsaData | sentAdjData | sentCoordData | sentNameData
  | rcvLsaInterest | rcvAdjInterest | rcvCoordInterest | rcvNameInterest
  | rcvLsaData | rcvAdjData | rcvCoordData | rcvNameData
deriving DecidableEq, Repr

/-- `Statistics`: the map of counters (`int`); `undef`: an `int` went past its largest value.  src/statistics.hpp:72. -/
structure Stats where
  counter : List (Packet × Nat) := []
  undef : Bool := false
deriving DecidableEq, Repr

namespace Stats

/-- `m_packetCounter.find(type)`, src/statistics.cpp:31. -/
def find (m : List (Packet × Nat)) (t : Packet) : Option Nat := (m.find? (fun p => p.1 = t)).map (·.2)

/-- `get`, src/statistics.cpp:28-38. -/
def get (s : Stats) (t : Packet) : Nat := (find s.counter t).getD 0

/-- `m_packetCounter[type] = n`.  src/statistics.cpp:40-52. -/
def set (m : List (Packet × Nat)) (t : Packet) (n : Nat) : List (Packet × Nat) :=
  match m with
  | [] => [(t, n)]
  | p :: ps => if p.1 = t then (t, n) :: ps else p :: set ps t n

/-- `increment`, src/statistics.cpp:40-44. -/
def increment (s : Stats) (t : Packet) : Stats :=
  if s.get t + 1 < 2 ^ 31 then { s with counter := set s.counter t (s.get t + 1) }
  else { s with undef := true }

/-- `resetAll`, src/statistics.cpp:46-52. -/
def resetAll (s : Stats) : Stats := { s with counter := s.counter.map (fun p => (p.1, 0)) }

/-- src/statistics.cpp:40-52. -/
inductive Op
  | increment (t : Packet)
  | reset
deriving DecidableEq, Repr

/-- One of them (src/statistics.cpp:40-52). -/
def step (s : Stats) : Op → Stats
  | .increment t => s.increment t
  | .reset => s.resetAll

/-- Several, from no counters (src/statistics.hpp:72). -/
def run (ops : List Op) : Stats := ops.foldl step {}

end Stats

/-! The signals of the hello protocol. -/
namespace Nbr

/-- `sendHelloInterest`, src/hello-protocol.cpp:87-108 with the increment of `expressInterest`, line 84. -/
def countSend (s : Nbr) (n : Name) : List Packet :=
  match AdjacencyList.find s.adjs n with
  | none => []
  | some a => if a.faceId ≠ 0 then [.sentHelloInterest] else []

/-- `processInterest`, lines 110-160: increments on lines 118, 144 and, through `expressInterest`, 84. -/
def countInterest (c : NConf) (s : Nbr) (name : Name) : List Packet :=
  if !Name.isPrefixOf (c.router ++ [nlsrComp, infoComp]) name then []
  else .rcvHelloInterest ::
    (if Name.fromEnd name 2 ≠ some infoComp then []
     else match Name.fromEnd name 1 with
      | none => []
      | some x => match nameFromValue c x.val with
        | none => []
        | some n => match AdjacencyList.find s.adjs n with
          | none => []
          | some a => .sentHelloData :: (if a.status = .inactive ∧ a.faceId ≠ 0 then [.sentHelloInterest] else []))

/-- `processInterestTimedOut`, lines 162-187. -/
def countLost (c : NConf) (s : Nbr) (name : Name) : List Packet :=
  if Name.fromEnd name 2 ≠ some infoComp then []
  else
    let n := Name.getPrefix name (-3)
    let adjs := AdjacencyList.incTimedOut s.adjs n
    if (AdjacencyList.getTimedOut adjs n % 4294967296).toNat < c.retry then [.sentHelloInterest] else []

/-- The increments of one operation.  Validated data are counted at the end of `onContentValidated`, line 249. -/
def counts (c : NConf) (s : Nbr) (op : Op) : List Packet :=
  if s.dead then []
  else match op with
    | .registered n => s.countSend n
    | .helloTimer i => match s.timers[i]? with
      | none => []
      | some (n, due) => if s.now < due then [] else s.countSend n
    | .interest name _ => s.countInterest c name
    | .timeout i => match s.waiting[i]? with
      | none => []
      | some (name, due) => if s.now < due then [] else s.countLost c name
    | .nackTimer i => match s.nacked[i]? with
      | none => []
      | some (name, due) => if s.now < due then [] else s.countLost c name
    | .valid i => match s.validating[i]? with
      | none => []
      | some _ => [.rcvHelloData]
    | _ => []

/-- All increments of a run.  src/stats-collector.cpp:26-47. -/
def countsRun (c : NConf) : Nbr → List Op → List Packet
  | _, [] => []
  | s, op :: ops => s.counts c op ++ countsRun c (step c s op) ops

end Nbr

/-! The signals of the LSDB. -/
namespace Lsdb

/-- `incrementInterestSentStats`, `incrementInterestRcvdStats`, `incrementDataSentStats`, src/lsdb.hpp:202-242, and the
three cases of `afterFetchLsa`. -/
def countType (adj coord name : Packet) : LsaType → List Packet
  | .adjacency => [adj]
  | .coordinate => [coord]
  | .name => [name]
  | .base => []

/-- `expressInterest`, src/lsdb.cpp:459-526: increments on lines 464 and 525. -/
def countExpress (s : Lsdb) (lsaName : Name) (seq : Nat) : List Packet :=
  .sentLsaInterest :: (match s.noteSeq lsaName seq with
    | none => []
    | some _ => match (lsaName ++ [Comp.number seq]).fromEnd 2 with
      | some tc => countType .sentAdjInterest .sentCoordInterest .sentNameInterest (LsaType.ofComp tc)
      | none => [])

/-- `processInterestForLsa`, lines 269-302, and lines 257-260. -/
def countReply (c : LConf) (s : Lsdb) (t : LsaType) (seq : Nat) : List Packet :=
  countType .rcvAdjInterest .rcvCoordInterest .rcvNameInterest t ++
  (match s.find c.router t with
   | none => []
   | some o => if o.lsa.seq = seq then
       countType .sentAdjData .sentCoordData .sentNameData t ++ [.sentLsaData] else [])

/-- The part after line 234. -/
def countStripped (c : LConf) (s : Lsdb) (iname : Name) : List Packet :=
  .rcvLsaInterest ::
  (if interestOrigin c.names.network iname = c.router ∧ 0 ≤ Name.position iname (Comp.str "LSA") then
    match iname.fromEnd 1, iname.fromEnd 2 with
    | some last, some tc => match last.toNumber with
      | none => []
      | some seq => match LsaType.ofComp tc with
        | .base => []
        | t => countReply c s t seq
    | _, _ => []
   else [])

/-- `processInterest`, lines 213-267: an interest answered from the FIFO returns before line 234. -/
def countInterest (c : LConf) (s : Lsdb) (name : Name) : List Packet :=
  if Name.isPrefixOf c.names.lsaPrefix name then
    match name.fromEnd 2 with
    | none => []
    | some v =>
      if v.isVersion then
        match Lsdb.least (·.name) name s.fifo with
        | some _ => []
        | none => countStripped c s (Name.getPrefix name (-2))
      else countStripped c s name
  else []

/-- `afterFetchLsa`, lines 553-614: increments on lines 557 and 592-604; a decoding error comes before the latter
only if the data is not a block at all (`p = none` stands for that). -/
def countFetched (s : Lsdb) (f : Fetch) (p : Option Lsa) : List Packet :=
  .rcvLsaData :: (match s.noteSeq f.lsaName f.seq with
    | none => []
    | some _ =>
      let interestName := f.lsaName ++ [Comp.number f.seq]
      if Name.position interestName (Comp.str "LSA") < 0 then []
      else match interestName.fromEnd 2 with
        | none => []
        | some tc => if p.isSome then countType .rcvAdjData .rcvCoordData .rcvNameData (LsaType.ofComp tc) else [])

/-- Does this update make the LSDB express an interest?  src/lsdb.cpp:94-141. -/
def countSync (c : LConf) (s : Lsdb) (updateName : Name) (seq : Nat) : List Packet :=
  match syncOrigin updateName, updateName.fromEnd 1 with
  | some origin, some last =>
    let t := LsaType.ofComp last
    if origin = c.router then []
    else if s.isLsaNew origin t seq then
      if notFetched c.hyp t seq then [] else countExpress s updateName seq
    else []
  | _, _ => []

/-- The increments of one operation.  src/lsdb.cpp:464, 525, 557, 592-604, src/stats-collector.cpp:26-47. -/
def counts (c : LConf) (s : Lsdb) : Op → List Packet
  | .sync n k => s.countSync c n (k % 18446744073709551616)
  | .fetched i p => match s.fetches[i]? with
    | none => []
    | some f => s.countFetched f p
  | .retryTimer i => match s.retries[i]? with
    | none => []
    | some (due, f) => if s.now < due then [] else s.countExpress f.lsaName f.seq
  | .interest n _ => if n.length ≤ maxComponents then s.countInterest c n else []
  | _ => []

/-- All increments of a run, src/stats-collector.cpp:26-47. -/
def countsRun (c : LConf) : Lsdb → List Op → List Packet
  | _, [] => []
  | s, op :: ops => s.counts c op ++ countsRun c (step c s op) ops

end Lsdb
end Nlsr
