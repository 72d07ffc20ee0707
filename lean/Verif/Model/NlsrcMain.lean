import Verif.Model.Nlsrc
/-
The command line tool from its first line to its end: options, the choice of the validator, what is asked for, and what is
done with the answers.  tools/nlsrc.cpp.

Not modelled here: the texts that are printed (`Model/Print`), the segments a data set comes in (`Reply` is what
ndn-cxx's segment fetcher makes of them, with whether all of them pass the rules of a configuration file).
-/
namespace Nlsr

/-- What one call of `getopt` gives. -/
inductive Got
  | opt (c : Char) (arg : Option Text)
  /-- `'?'`: unknown option, or its argument is missing -/
  | bad
deriving DecidableEq, Repr

namespace Getopt

/-- The option letters in one word; at the end the letter whose argument is the next word, if any.  `takes c` is whether
option `c` has an argument (`none`: there is no such option).  External library (C library). -/
def cluster (takes : Char → Option Bool) : Text → List Got × Option Char
  | [] => ([], none)
  | c :: cs =>
    match takes c with
    | none => (.bad :: (cluster takes cs).1, (cluster takes cs).2)
    | some false => (.opt c none :: (cluster takes cs).1, (cluster takes cs).2)
    | some true => if cs = [] then ([], some c) else ([.opt c (some cs)], none)

/-- All that `getopt` gives, in order, and the words that are left.  External library (C library): with `permute` (glibc)
options may follow other words, without it (POSIX) the first other word ends the options. -/
def getopt (takes : Char → Option Bool) (permute : Bool) : List Text → List Got × List Text
  | [] => ([], [])
  | a :: r =>
    if a = ['-', '-'] then ([], r)
    else if a.head? = some '-' ∧ a ≠ ['-'] then
      match cluster takes a.tail with
      | (g, none) => (g ++ (getopt takes permute r).1, (getopt takes permute r).2)
      | (g, some c) =>
        match r with
        | [] => (g ++ [.bad], [])
        | b :: r' => (g ++ .opt c (some b) :: (getopt takes permute r').1, (getopt takes permute r').2)
    else if permute then ((getopt takes permute r).1, a :: (getopt takes permute r).2)
    else ([], a :: r)

end Getopt

namespace Nlsrc
open Tlv (Bytes)
open Wire

/-- `"hVR:c:k"`, tools/nlsrc.cpp:501. -/
def takes (c : Char) : Option Bool :=
  if c = 'h' ∨ c = 'V' ∨ c = 'k' then some false else if c = 'R' ∨ c = 'c' then some true else none

/-- `m_routerPrefix`, `confFile`, `disableValidator`.  tools/nlsrc.cpp:60, 499-500. -/
structure Options where
  router : Name := nm ["localhost"]
  conf : Text
  noVerify : Bool := false
deriving DecidableEq, Repr

/-- How far the options get us. -/
inductive Began
  | exit (status : Nat)
  /-- an exception that nothing catches -/
  | aborted
  | go (o : Options)
deriving DecidableEq, Repr

/-- The loop over the options, tools/nlsrc.cpp:501-522.  `setRouterPrefix(::optarg)` makes a name of the text, which may
throw; this is before the `try` of line 536. -/
def options (o : Options) : List Got → Began
  | [] => .go o
  | .bad :: _ => .exit 2
  | .opt c arg :: gs =>
    if c = 'h' then .exit 0
    else if c = 'V' then .exit 0
    else if c = 'R' then
      match Uri.parseName (arg.getD []) with
      | none => .aborted
      | some n => options { o with router := n } gs
    else if c = 'c' then options { o with conf := arg.getD [] } gs
    else if c = 'k' then options { o with noVerify := true } gs
    else .exit 2

/-- What `enableValidator` meets: rules that load, a file or rules it refuses (false), any other exception.
tools/nlsrc.cpp:106-134. -/
inductive Load
  | ok
  | refused
  | threw
deriving DecidableEq, Repr

/-- A command under way: whom it is for, the file whose rules answers must pass (`none`: `ValidatorNull`), and what it
does. -/
structure Job where
  router : Name
  verify : Option Text
  act : NlsrcAct
deriving DecidableEq, Repr

/-- What `main` has come to when it enters `face.processEvents()`. -/
inductive Start
  | exit (status : Nat)
  | aborted
  | run (j : Job)
deriving DecidableEq, Repr

/-- `dispatch` in `main`, tools/nlsrc.cpp:535-546. -/
def launch (router : Name) (verify : Option Text) (words : List Text) : Start :=
  match dispatch words with
  | .usage => .exit 2
  | .failed => .exit 1
  | .send x => .run ⟨router, verify, .send x⟩
  | .status w => .run ⟨router, verify, .status w⟩

/-- `main`, tools/nlsrc.cpp:486-546; `args` are the words behind the program's name, `dflt` is `DEFAULT_CONFIG_FILE`. -/
def main (permute : Bool) (dflt : Text) (load : Text → Load) (args : List Text) : Start :=
  if args = [] then .exit 2
  else
    let g := Getopt.getopt takes permute args
    match options { conf := dflt } g.1 with
    | .exit n => .exit n
    | .aborted => .aborted
    | .go o =>
      if g.2 = [] then .exit 2
      else if o.router ≠ nm ["localhost"] ∧ o.noVerify = false then
        match load o.conf with
        | .refused => .exit 1
        | .threw => .aborted
        | .ok => launch o.router (some o.conf) g.2
      else launch o.router none g.2

/-! ### asking and showing -/

/-- The data sets.  tools/nlsrc.cpp:327-353. -/
inductive What
  | adj | cor | name | rt
deriving DecidableEq, Repr

/-- `getStatus`, tools/nlsrc.cpp:136-160. -/
def fetches (w : Text) : List What :=
  if w = "lsdb".toList then [.adj, .cor, .name]
  else if w = "routing".toList then [.rt]
  else [.adj, .cor, .name, .rt]

/-- The name a data set is asked for by, tools/nlsrc.cpp:48-51, 355-365, 385-395; src/publisher/dataset-interest-handler.hpp:46-48. -/
def asked (router : Name) : What → Name
  | .adj => router ++ nm ["nlsr", "lsdb", "adjacencies"]
  | .cor => router ++ nm ["nlsr", "lsdb", "coordinates"]
  | .name => router ++ nm ["nlsr", "lsdb", "names"]
  | .rt => router ++ nm ["nlsr", "routing-table"]

/-- What a router named `router` serves: its two top prefixes and its four data sets.  src/nlsr.cpp:94-95, src/nlsr.hpp:165,
src/publisher/dataset-interest-handler.cpp:33-58. -/
def served (router : Name) : List (Name × What) :=
  [router ++ nm ["nlsr"], nm ["localhost", "nlsr"]].flatMap (fun top =>
    [(top ++ nm ["lsdb", "adjacencies"], .adj), (top ++ nm ["lsdb", "coordinates"], .cor), (top ++ nm ["lsdb", "names"], .name),
     (top ++ nm ["routing-table"], .rt)])

/-- What comes for a data set: nothing in time (or a Nack), or octets, and which files' rules all the packets pass. -/
inductive Reply
  | lost
  | data (b : Bytes) (passes : Text → Bool)

/-- `m_routers` and `m_rtString`: what is printed.  tools/nlsrc.cpp:367-383, 431-437; tools/nlsrc.hpp:150-170. -/
structure Shown where
  adj : List (Name × WAdjLsa) := []
  cor : List (Name × WCoordLsa) := []
  name : List (Name × WNameLsa) := []
  rt : Option (RTable × RTable) := none

/-- `fetchFromLsdb`, `fetchFromRt`: the segment fetcher gives up if a packet does not pass the validator.
tools/nlsrc.cpp:355-365, 385-395. -/
def accepted (verify : Option Text) : Reply → Option Bytes
  | .lost => none
  | .data b passes =>
    match verify with
    | none => some b
    | some f => if passes f then some b else none

/-- `onFetchSuccess` with `recordLsa` and `recordRtable`, tools/nlsrc.cpp:367-383, 398-437; `none` is an exception. -/
def take (C : Codec) (R : RtCodec) (b : Bytes) (s : Shown) : What → Option Shown
  | .adj =>
    let r := records (decAdjLsa C) (b.length + 1) b
    if r.2 = .threw then none else some { s with adj := recordAll (·.base.origin) r.1 }
  | .cor =>
    let r := records (decCoordLsa C) (b.length + 1) b
    if r.2 = .threw then none else some { s with cor := recordAll (·.base.origin) r.1 }
  | .name =>
    let r := records (decNameLsa C) (b.length + 1) b
    if r.2 = .threw then none else some { s with name := recordAll (·.base.origin) r.1 }
  | .rt =>
    let r := records (decRt R) (b.length + 1) b
    if r.2 = .threw then none else some { s with rt := r.1.getLast? }

/-- `runNextStep` over the steps of `getStatus`: the exit status and what is printed, if anything.
tools/nlsrc.cpp:136-160, 231-241, 423-429, 439-478, 535-549. -/
def fetchAll (C : Codec) (R : RtCodec) (verify : Option Text) (reply : What → Reply) : List What → Shown → Nat × Option Shown
  | [], s => (0, some s)
  | w :: ws, s =>
    match accepted verify (reply w) with
    | none => (1, none)
    | some b =>
      match take C R b s w with
      | none => (1, none)
      | some s' => fetchAll C R verify reply ws s'

/-- The rest of the run: exit status and what is printed.  The answer to a prefix update is not validated
(tools/nlsrc.cpp:289-292 takes whatever packet comes): which files' rules it passes makes no difference.
tools/nlsrc.cpp:268-325, 423-429, 535-549. -/
def finish (C : Codec) (R : RtCodec) (j : Job) (reply : What → Reply) (a : Answer) (_passes : Text → Bool) : Nat × Option Shown :=
  match j.act with
  | .usage => (2, none)
  | .failed => (1, none)
  | .send _ => (answered a, none)
  | .status w => fetchAll C R j.verify reply (fetches w) {}

end Nlsrc
end Nlsr
