import Verif.Model.Npl
import Verif.Model.Info
import Verif.Model.Dbl
import Verif.Model.Lsdb
/-
Commands that add and remove prefixes: src/update/command-processor.cpp, prefix-update-processor.cpp,
nfd-rib-command-processor.cpp, together with the LSDB they act on.

The validation of command interests is in `Access`.  Not modelled: the texts of
replies.
-/
namespace Nlsr

/-- Which of the two processors got the command.
src/update/prefix-update-processor.cpp:52-69, src/update/nfd-rib-command-processor.cpp:28-42. -/
inductive CmdModule
  /-- `PrefixUpdateProcessor` -/
  | nlsr
  /-- `NfdRibCommandProcessor` -/
  | rib
deriving DecidableEq, Repr

/-- The two handlers of src/update/command-processor.hpp:54-68. -/
inductive CmdVerb | advertise | withdraw
deriving DecidableEq, Repr

/-- A command with the parameters the handlers look at (`ControlParameters`).
src/update/command-processor.cpp:46-51, 92-97, src/update/prefix-update-commands.cpp:26-44. -/
structure Cmd where
  via : CmdModule := .nlsr
  verb : CmdVerb
  name : Name
  cost : Option Nat := none
  flags : Option Nat := none
  faceId : Option Nat := none
deriving DecidableEq, Repr

/-- A reply: status code and the face id in its body.  src/update/command-processor.cpp:49-55, 95-101. -/
structure Reply where
  code : Nat
  faceId : Nat
deriving DecidableEq, Repr

/-- What the commands act on.  `lsdb.npl` mirrors `npl` (both are `m_confParam.getNamePrefixList()`).
src/update/command-processor.hpp:89-91, src/update/prefix-update-processor.hpp:96-97. -/
structure CmdState where
  npl : Npl := []
  lsdb : Lsdb
  /-- the dynamic configuration file; `none`: it cannot be opened -/
  file : Option ConfFile := none
  replies : List Reply := []
  /-- a conversion without defined result was made -/
  undef : Bool := false

namespace CmdState

/-- `checkForPrefixInFile`, src/update/prefix-update-processor.cpp:100-116, on a file that opens. -/
def inFile (f : ConfFile) (line : Text) : Bool := f.lines.contains line

/-- `section`, line 121. -/
def sectionOf (n : Name) : Text := "advertising.".toList ++ Uri.ofName n

/-- `value`, line 122. -/
def lineOf (n : Name) (cost : Nat) : Text := "    ".toList ++ Uri.ofName n ++ ' ' :: Uri.dec cost

/-- `addOrDeletePrefix`, lines 118-152. -/
def addOrDelete (file : Option ConfFile) (n : Name) (cost : Nat) (add : Bool) : Bool × Option ConfFile :=
  match file with
  | none => (false, none)
  | some f =>
    if add then
      if inFile f (lineOf n cost) then (false, some f)
      else let r := f.put (sectionOf n) (Uri.dec cost); (r.1, some r.2)
    else
      if !inFile f (lineOf n cost) then (false, some f)
      else let r := f.remove (sectionOf n); (r.1, some r.2)

/-- `m_namePrefixList` after a change, seen by the LSDB.  src/nlsr.cpp:43, src/lsdb.cpp:145-150. -/
def setNpl (s : CmdState) (l : Npl) : CmdState := { s with npl := l, lsdb := { s.lsdb with npl := l.infos } }

/-- `m_lsdb.buildAndInstallOwnNameLsa()`, src/update/command-processor.cpp:56, 101. -/
def build (c : LConf) (s : CmdState) : CmdState := { s with lsdb := s.lsdb.buildName c }

/-- lines 49-51, 95-97 -/
def replyFace (cmd : Cmd) : Nat :=
  match cmd.faceId with
  | some f => if 0 < f then f else 1
  | none => 1

/-- `done(…)`, src/update/command-processor.cpp:57-85, 103-129. -/
def reply (s : CmdState) (cmd : Cmd) (code : Nat) : CmdState := { s with replies := s.replies ++ [⟨code, replyFace cmd⟩] }

/-- `afterAdvertise`: saves for `PrefixUpdateProcessor` (src/update/prefix-update-processor.cpp:154-158), does nothing
otherwise (src/update/command-processor.hpp:72-76); then the reply, src/update/command-processor.cpp:57-67, 71-82.  The
cost is a double converted to `uint64_t`. -/
def saveReply (s : CmdState) (cmd : Cmd) (cost : Nat) : CmdState :=
  match cmd.via with
  | .rib => s.reply cmd 205
  | .nlsr =>
    match Dbl.toU64 cost with
    | none => { s with undef := true }
    | some k =>
      let r := addOrDelete s.file cmd.name k true
      { s with file := r.2 }.reply cmd (if r.1 then 205 else 500)

/-- `advertiseAndInsertPrefix`, src/update/command-processor.cpp:42-86. -/
def advertise (c : LConf) (s : CmdState) (cmd : Cmd) : CmdState :=
  let cost := Dbl.roundNat (cmd.cost.getD 0)
  let r := Npl.insert s.npl cmd.name "" (.fin cost)
  let s := s.setNpl r.2
  let save := cmd.flags = some 1
  if r.1 then
    let s := s.build c
    if save then s.saveReply cmd cost else s.reply cmd 200
  else
    if save then s.saveReply cmd cost else s.reply cmd 204

/-- `afterWithdraw`: the line with cost 0 is looked for (src/update/prefix-update-processor.cpp:160-164). -/
def deleteReply (s : CmdState) (cmd : Cmd) : CmdState :=
  match cmd.via with
  | .rib => s.reply cmd 205
  | .nlsr =>
    let r := addOrDelete s.file cmd.name 0 false
    { s with file := r.2 }.reply cmd (if r.1 then 205 else 500)

/-- `withdrawAndRemovePrefix`, src/update/command-processor.cpp:88-130. -/
def withdraw (c : LConf) (s : CmdState) (cmd : Cmd) : CmdState :=
  let r := Npl.erase s.npl cmd.name ""
  let s := s.setNpl r.2
  let save := cmd.flags = some 1
  if r.1 then
    let s := s.build c
    if save then s.deleteReply cmd else s.reply cmd 200
  else
    if save then s.deleteReply cmd else s.reply cmd 204

/-- What happens to the processors and the LSDB (src/nlsr.cpp:74-83). -/
inductive Op
  | cmd (x : Cmd)
  /-- anything else that happens to the LSDB -/
  | lsdb (op : Lsdb.Op)

/-- The handlers of src/update/command-processor.cpp:42-130, and src/lsdb.cpp. -/
def step (c : LConf) (s : CmdState) : Op → CmdState
  | .cmd x => match x.verb with
    | .advertise => s.advertise c x
    | .withdraw => s.withdraw c x
  | .lsdb op => match op with
    | .setNpl _ => s
    | op => { s with lsdb := s.lsdb.step c op }

/-- A run of the daemon (src/main.cpp:85-86). -/
def run (c : LConf) (s : CmdState) (ops : List Op) : CmdState := ops.foldl (step c) s

/-- At start: the prefixes of the configuration file (src/conf-file-processor.cpp:605-631), and the LSDB built from
them. -/
def init (c : LConf) (disk : Option Seqs) (adjs : AdjacencyList) (npl : List (Name × Ext Rat)) (sys : Int)
    (file : Option ConfFile) : CmdState :=
  let l := npl.foldl (fun l p => (Npl.insert l p.1 "" p.2).2) []
  { npl := l, lsdb := Lsdb.init c disk adjs l.infos sys, file := file }

end CmdState
end Nlsr
