import Verif.Model.Conf
import Verif.Model.Security
import Verif.Model.NlsrcMain
/-
The daemon from its command line to the event loop: `main` of src/main.cpp and `ConfFileProcessor::processConfFile`, with what
they do to the file system.

Not modelled: the parser of the configuration file (`Place.parse`), what the key chain, the face and the constructor of `Nlsr`
do (`Start`, `Router`); a file that changes between being opened and being copied; a `test.seq` that cannot be removed.  The
certificate files (`SecEnv`) are not among the files that loading changes.
-/
namespace Nlsr.Boot

/-- `"hf:V"`, src/main.cpp:49. -/
def takes (c : Char) : Option Bool :=
  if c = 'h' ∨ c = 'V' then some false else if c = 'f' then some true else none

/-- How far the options get us. -/
inductive Began
  | exit (status : Nat)
  | go (file : Text)
deriving DecidableEq, Repr

/-- The loop over the options, src/main.cpp:48-64. -/
def options (file : Text) : List Got → Began
  | [] => .go file
  | .bad :: _ => .exit 2
  | .opt c arg :: gs =>
    if c = 'h' then .exit 0
    else if c = 'f' then options (arg.getD []) gs
    else if c = 'V' then .exit 0
    else .exit 2

/-- The files, by where they really are. -/
abbrev Disk := Text → Option Text

/-- What is fixed about the file system, and the parser. -/
structure Place where
  /-- the file a path leads to (links, `.` and `..` resolved) -/
  real : Text → Text
  /-- what is at a path: nothing, a directory (`some true`), something else -/
  dir : Text → Option Bool
  /-- whether a file at this path can be created and written -/
  canWrite : Text → Bool
  /-- `read_info`; `none`: it throws -/
  parse : Text → Option Tree

/-- `operator/` of `fs::path` with a relative second operand.  External library. -/
def join (dir : Text) (name : String) : Text :=
  if dir = [] ∨ dir.getLast? = some '/' then dir ++ name.toList else dir ++ '/' :: name.toList

/-- A file is written. -/
def Disk.set (d : Disk) (at_ : Text) (v : Option Text) : Disk := fun x => if x = at_ then v else d x

/-- `fs::copy_file` with `overwrite_existing`; `none`: it throws, as it does if both paths lead to one file.  External library. -/
def copy (pl : Place) (src dst : Text) (d : Disk) : Option Disk :=
  if pl.real src = pl.real dst then none
  else match d (pl.real src) with
    | none => none
    | some v => if pl.canWrite dst then some (d.set (pl.real dst) (some v)) else none

/-- The state directory, src/conf-file-processor.cpp:337-388: the files afterwards, and whether the section goes on. -/
def prepare (pl : Place) (conf dir : Text) (d : Disk) : Disk × Bool :=
  match pl.dir dir with
  | some true =>
    if conf = join dir "nlsr.conf" then (d, false)
    else match copy pl conf (join dir "nlsr.conf") d with
      | none => (d, false)
      | some d =>
        if pl.canWrite (join dir "test.seq") then (d.set (pl.real (join dir "test.seq")) none, true) else (d, false)
  | _ => (d, false)

/-- `processConfSectionGeneral`, src/conf-file-processor.cpp:213-391. -/
def general (pl : Place) (conf : Text) (t : Tree) (p : Params) (d : Disk) : Disk × Option Params :=
  match Conf.protocolOf ((Conf.lookup "sync-protocol" t).getD "psync".toList) with
  | none => (d, none)
  | some proto =>
    match (Conf.generalNames t { p with protocol := proto }).bind (Conf.generalTimes t) with
    | none => (d, none)
    | some p =>
      match Conf.lookup "state-dir" t with
      | none => (d, none)
      | some dir =>
        match prepare pl conf dir d with
        | (d, true) => (d, some { p with stateDir := some dir })
        | (d, false) => (d, none)

/-- How loading ends. -/
inductive Loaded
  /-- refused with a message -/
  | refused
  /-- an exception that nothing catches -/
  | aborted
  | done (p : Params) (s : Security)

/-- `processSection`, src/conf-file-processor.cpp:186-212; `faceUri` is as in `ConfEnv`. -/
def section_ (pl : Place) (faceUri : Text → Option String) (sec : SecEnv) (conf : Text) (name : Text) (t : Tree) (p : Params)
    (s : Security) (d : Disk) : Disk × Loaded :=
  if name = "general".toList then
    match general pl conf t p d with
    | (d, some p) => (d, .done p s)
    | (d, none) => (d, .refused)
  else if name = "security".toList then
    match Security.load sec t s with
    | .refused => (d, .refused)
    | .aborted => (d, .aborted)
    | .done s => (d, .done p s)
  else
    match Conf.section_ ⟨faceUri, fun _ => false, fun _ => false⟩ name t p with
    | none => (d, .refused)
    | some p => (d, .done p s)

/-- The loop of `load`, src/conf-file-processor.cpp:178-182. -/
def sections (pl : Place) (faceUri : Text → Option String) (sec : SecEnv) (conf : Text) :
    List (Text × Tree) → Params → Security → Disk → Disk × Loaded
  | [], p, s, d => (d, .done p s)
  | x :: xs, p, s, d =>
    match section_ pl faceUri sec conf x.1 x.2 p s d with
    | (d, .done p s) => sections pl faceUri sec conf xs p s d
    | r => r

/-- `processConfFile`, src/conf-file-processor.cpp:147-184. -/
def load (pl : Place) (faceUri : Text → Option String) (sec : SecEnv) (conf : Text) (d : Disk) : Disk × Loaded :=
  match d (pl.real conf) with
  | none => (d, .refused)
  | some v =>
    match pl.parse v with
    | none => (d, .refused)
    | some t =>
      match sections pl faceUri sec conf t.kids {} {} d with
      | (d, .done p s) => (d, .done (Conf.buildPrefixes p) s)
      | r => r

/-- What `main` has come to when it enters `face.processEvents()`. -/
inductive Start
  | exit (status : Nat)
  | aborted
  | run (p : Params) (s : Security)

/-- `main`, src/main.cpp:43-84; `args` are the words behind the program's name. -/
def main (permute : Bool) (pl : Place) (faceUri : Text → Option String) (sec : SecEnv) (args : List Text) (d : Disk) : Disk × Start :=
  match options "nlsr.conf".toList (Getopt.getopt takes permute args).1 with
  | .exit n => (d, .exit n)
  | .go conf =>
    match load pl faceUri sec conf d with
    | (d, .refused) => (d, .exit 2)
    | (d, .aborted) => (d, .aborted)
    | (d, .done p s) => (d, .run p s)

end Nlsr.Boot
