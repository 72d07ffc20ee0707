import Verif.Model.Sync
/-
src/lsdb.cpp:87-142, 459-551: which face an LSA interest is sent to.  The functions of `Model/Lsdb` again, with the
argument `incomingFaceId` that is left out there.

Simplification: what NFD does with the tag is not part of this; interests of later segments go where the first one went
(ndn-cxx's segment fetcher copies the interest with its tags).
-/
namespace Nlsr

/-- The LSDB and the LSA interests sent so far: LSA name, number and face.  Face 0 stands for an interest without
`NextHopFaceIdTag`: NFD's strategy decides.  src/lsdb.cpp:487-490. -/
structure Directed where
  db : Lsdb
  asks : List (Name × Nat × Nat) := []

namespace Directed
open Lsdb

/-- `expressInterest`, src/lsdb.cpp:459-526. -/
def expressInterest (S : Directed) (lsaName : Name) (seq face deadline : Nat) : Directed :=
  match S.db.noteSeq lsaName seq with
  | none => S
  | some s => { db := { s with fetches := s.fetches ++ [⟨lsaName, seq, deadline⟩], log := s.log ++ [.interest lsaName seq] }
                asks := S.asks ++ [(lsaName, seq, face)] }

/-- `processUpdateFromSync`, src/lsdb.cpp:87-142. -/
def processUpdate (c : LConf) (S : Directed) (updateName : Name) (seq : Nat) (origin : Name) (t : LsaType) (face : Nat) : Directed :=
  if origin = c.router then
    if S.db.isLsaNew origin t seq then { S with db := ownUpdate c S.db t seq } else S
  else if S.db.isLsaNew origin t seq then
    if notFetched c.hyp t seq then S
    else expressInterest { S with db := S.db.emit (.newLsa updateName seq origin) } updateName seq face
           (S.db.now + refreshMax * nsPerSec)
  else S

/-- `SyncLogicHandler::processUpdate`, src/communication/sync-logic-handler.cpp:53-72. -/
def sync (c : LConf) (S : Directed) (updateName : Name) (seq face : Nat) : Directed :=
  match syncOrigin updateName, updateName.fromEnd 1 with
  | some origin, some last => processUpdate c S updateName seq origin (LsaType.ofComp last) face
  | _, _ => S

/-- The call scheduled by `onFetchLsaError`, src/lsdb.cpp:547-548: no face. -/
def retryTimer (S : Directed) (i : Nat) : Directed :=
  match S.db.retries[i]? with
  | none => S
  | some (due, f) =>
    if S.db.now < due then S
    else expressInterest { S with db := { S.db with retries := S.db.retries.eraseIdx i } } f.lsaName f.seq 0 f.deadline

/-- What happens: the libraries report through `onChronoSyncUpdate`, `onPSyncUpdate` or `onSvsUpdate`
(src/communication/sync-protocol-adapter.cpp:133-168), the scheduler calls `expressInterest`, or anything else
of `Lsdb.Op`. -/
inductive Op
  | report (m : Sync.Missing)
  | retryTimer (i : Nat)
  | other (op : Lsdb.Op)

/-- One event; reports and retries come as such.  src/lsdb.cpp. -/
def step (p : SyncProto) (c : LConf) (S : Directed) : Op → Directed
  | .report m =>
    let u := Sync.onUpdate p m
    sync c S u.1 (u.2.1 % 18446744073709551616) u.2.2
  | .retryTimer i => retryTimer S i
  | .other (.sync _ _) => S
  | .other (.retryTimer _) => S
  | .other op => { S with db := Lsdb.step c S.db op }

/-- A run of the daemon. -/
def run (p : SyncProto) (c : LConf) (S : Directed) (ops : List Op) : Directed := ops.foldl (step p c) S

end Directed
end Nlsr
