import Verif.Model.Net
import Verif.Model.Cmd
/-
The network of Verif.Model.Net in which prefixes are advertised and withdrawn only by the configuration files and
by commands (src/update/command-processor.cpp).

Replies and the configuration file that commands change (Verif.Model.Cmd) have no effect on the LSDB and are left out.
-/
namespace Nlsr.Net
variable {ι : Type} [DecidableEq ι]

/-- The routers, and their lists of prefixes (`ConfParameter::m_npl`, src/conf-parameter.hpp:537). -/
structure CState (ι : Type) where
  net : State ι
  npl : ι → Npl

/-- The list of prefixes after a command, and whether it has changed.  src/update/command-processor.cpp:42-54, 88-100. -/
def listed (l : Npl) (x : Cmd) : Bool × Npl :=
  match x.verb with
  | .advertise => Npl.insert l x.name "" (.fin (Dbl.roundNat (x.cost.getD 0)))
  | .withdraw => Npl.erase l x.name ""

/-- A command reaches router `i`.  The LSDB reads the list of prefixes when it builds the Name LSA
(src/lsdb.cpp:145-150), which it does if the list has changed (src/update/command-processor.cpp:53-56, 98-101). -/
def command (c : ι → RConf) (N : CState ι) (i : ι) (x : Cmd) : CState ι :=
  let r := listed (N.npl i) x
  let M := step c N.net (.act i (.core (.lsdb (.setNpl r.2.infos))))
  { net := if r.1 then step c M (.act i (.core (.lsdb .buildName))) else M
    npl := fun j => if j = i then r.2 else N.npl j }

/-- The list of prefixes made from a configuration file, src/conf-file-processor.cpp:605-631. -/
def configured (start : List (Name × Ext Rat)) : Npl := start.foldl (fun l p => (Npl.insert l p.1 "" p.2).2) []

/-- What happens in the network. -/
inductive COp (ι : Type)
  /-- something at a router, other than commands -/
  | act (i : ι) (op : Router.Op)
  /-- a prefix command -/
  | cmd (i : ι) (x : Cmd)
  /-- a router is stopped and started again, with the prefixes of its configuration file -/
  | restart (i : ι) (adjs : AdjacencyList) (start : List (Name × Ext Rat)) (sys : Int) (kill : Kill := .idle)

/-- Only commands change the list of prefixes and have the Name LSA built, src/update/command-processor.cpp:56, 101;
the other callers of `buildAndInstallOwnNameLsa` are the constructor (src/lsdb.cpp:73) and the handling of sync
updates (src/lsdb.cpp:102). -/
def byCommand : Router.Op → Bool
  | .core (.lsdb (.setNpl _)) => true
  | .core (.lsdb .buildName) => true
  | _ => false

/-- One event.  A command to a daemon that has ended does nothing (src/main.cpp:85-91). -/
def cstep (c : ι → RConf) (N : CState ι) : COp ι → CState ι
  | .act i op => if byCommand op then N else { N with net := step c N.net (.act i op) }
  | .cmd i x => if (N.net i).r.ended then N else command c N i x
  | .restart i adjs start sys kill =>
    { net := step c N.net (.restart i adjs (configured start).infos sys kill)
      npl := fun j => if j = i then configured start else N.npl j }

/-- What the libraries and the network may do (see `Allowed`). -/
def CAllowed (c : ι → RConf) (N : CState ι) : COp ι → Prop
  | .act i op => Allowed c N.net (.act i op)
  | .cmd _ _ => True
  | .restart i adjs start sys kill => Allowed c N.net (.restart i adjs (configured start).infos sys kill)

end Nlsr.Net
