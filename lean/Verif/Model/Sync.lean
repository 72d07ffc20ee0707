import Verif.Model.Lsdb
/-
src/communication/sync-protocol-adapter.cpp and src/communication/sync-logic-handler.cpp: what the LSDB announces is
handed to a sync library, and what the library reports is handed to the LSDB.

The libraries (ChronoSync, PSync, SVS) are external.  Of them this is modelled: a table of node names and numbers.
ChronoSync and PSync ignore a number for a node that has not been added; SVS keeps any.  ChronoSync appends the
session component it is given to the node name.  Whether a number that is not higher than the last one replaces it
differs between the libraries: it is the parameter `takes` (old number, new number).
-/
namespace Nlsr

/-- `SyncProtocol`, src/conf-parameter.hpp:38-42. -/
inductive SyncProto | chronosync | psync | svs
deriving DecidableEq, Repr

namespace Sync

/-- The node names known to the library and their numbers (external libraries). -/
abbrev Table := Name → Option Nat

/-- One entry of the table is replaced (external libraries). -/
def Table.set (T : Table) (n : Name) (k : Nat) : Table := fun m => if m = n then some k else T m

/-- The name a user node goes by in the library: ChronoSync appends `FIXED_SESSION`,
src/communication/sync-protocol-adapter.cpp:30, 59, 92. -/
def node (p : SyncProto) (user : Name) : Name :=
  match p with
  | .chronosync => user ++ [Comp.number 0]
  | .psync | .svs => user

/-- `SyncProtocolAdapter::addUserNode`, src/communication/sync-protocol-adapter.cpp:86-107. -/
def addUserNode (p : SyncProto) (T : Table) (user : Name) : Table :=
  match p with
  | .chronosync | .psync => if (T (node p user)).isSome then T else T.set (node p user) 0
  | .svs => T

/-- `SyncProtocolAdapter::SyncProtocolAdapter`, src/communication/sync-protocol-adapter.cpp:33-84.  The one node given
to the constructor is added by it for ChronoSync and by line 69 for PSync. -/
def adapter (p : SyncProto) (user : Name) : Table := addUserNode p (fun _ => none) user

/-- `SyncProtocolAdapter::publishUpdate`, src/communication/sync-protocol-adapter.cpp:109-131. -/
def publishUpdate (p : SyncProto) (takes : Nat → Nat → Bool) (T : Table) (user : Name) (k : Nat) : Table :=
  match T (node p user) with
  | some old => if takes old k then T.set (node p user) k else T
  | none => if p = .svs then T.set (node p user) k else T

/-- What a library reports about a node: its name, its number and the face it heard it from
(`MissingDataInfo` of the three libraries). -/
structure Missing where
  node : Name
  high : Nat
  face : Nat
deriving DecidableEq, Repr

/-- `onChronoSyncUpdate`, `onPSyncUpdate`, `onSvsUpdate`, src/communication/sync-protocol-adapter.cpp:133-168: the
arguments of the callback for one element. -/
def onUpdate (p : SyncProto) (m : Missing) : Name × Nat × Nat :=
  match p with
  | .chronosync => (Name.getPrefix m.node (-1), m.high, 0)
  | .psync | .svs => (m.node, m.high, m.face)

/-- `SyncLogicHandler::SyncLogicHandler`, src/communication/sync-logic-handler.cpp:32-51. -/
def handler (p : SyncProto) (c : LConf) : Table :=
  let T := adapter p (c.names.lsaUserPrefix .name)
  let T := if c.hyp ≠ .on then addUserNode p T (c.names.lsaUserPrefix .adjacency) else T
  if c.hyp ≠ .off then addUserNode p T (c.names.lsaUserPrefix .coordinate) else T

/-- `SyncLogicHandler::publishRoutingUpdate`, src/communication/sync-logic-handler.cpp:74-90. -/
def publishRouting (p : SyncProto) (takes : Nat → Nat → Bool) (c : LConf) (T : Table) (t : LsaType) (k : Nat) : Table :=
  match t with
  | .adjacency => publishUpdate p takes T (c.names.lsaUserPrefix .adjacency) k
  | .coordinate => publishUpdate p takes T (c.names.lsaUserPrefix .coordinate) k
  | .name => publishUpdate p takes T (c.names.lsaUserPrefix .name) k
  | .base => T

/-- What the library knows after all that the LSDB has announced.  src/lsdb.cpp:151, 167, 410, 448. -/
def table (p : SyncProto) (takes : Nat → Nat → Bool) (c : LConf) (log : List Out) : Table :=
  log.foldl (fun T o => match o with
    | .publish t k => publishRouting p takes c T t k
    | _ => T) (handler p c)

/-- A report of the library reaches the LSDB: src/communication/sync-protocol-adapter.cpp:133-168,
src/communication/sync-logic-handler.cpp:53-72, src/lsdb.cpp:87-142.  The face is used to ask that face first
and is not modelled. -/
def report (p : SyncProto) (c : LConf) (s : Lsdb) (m : Missing) : Lsdb :=
  Lsdb.sync c s (onUpdate p m).1 (onUpdate p m).2.1

end Sync
end Nlsr
