import Verif.Model.Cmd
import Verif.Model.Num
import Verif.Model.LsaWire
/-
The command line tool: tools/nlsrc.cpp.

Not modelled: options (`-R`, `-c`, `-k`, `-h`, `-V`), signing, the transport of parameters and replies, how the data set is
cut into segments and put together again (ndn-cxx), and the texts that are printed.
-/
namespace Nlsr

/-- What a command line does. -/
inductive NlsrcAct
  /-- the usage is printed, status 2 -/
  | usage
  /-- an exception gets to `main`, status 1 -/
  | failed
  /-- a prefix update is sent -/
  | send (x : Cmd)
  /-- data sets are fetched -/
  | status (what : Text)
deriving DecidableEq, Repr

namespace Nlsrc
open Tlv (Bytes)

/-- `std::stoi` (base 10): what follows the digits is ignored; `none` is an exception. -/
def stoi (t : Text) : Option Int := (Num.readSigned 32 t).map (·.1)

/-- `int` to `uint64_t`.  tools/nlsrc.cpp:193, 246. -/
def toU64 (v : Int) : Nat := (v % (2 ^ 64 : Nat)).toNat

/-- `advertiseName`, `withdrawName` and `sendNamePrefixUpdate`, tools/nlsrc.cpp:243-293; the argument of the first two is
made from a text (`Name(const std::string&)`), which throws if it is no name. -/
def update (verb : CmdVerb) (name : Text) (flag : Bool) (cost : Nat) : NlsrcAct :=
  match Uri.parseName name with
  | none => .failed
  | some n =>
    .send ⟨.nlsr, verb, n, if verb = .advertise ∧ 0 < cost then some cost else none, if flag then some 1 else none, none⟩

/-- The part of `dispatch` from line 187 on. -/
def costly (name kw cost : Text) (save : Bool) : NlsrcAct :=
  if kw ≠ "cost".toList then .usage
  else match stoi cost with
    | none => .usage
    | some v => update .advertise name save (toU64 v)

/-- `dispatch`, tools/nlsrc.cpp:163-229, with `main`, 525-540. -/
def dispatch : List Text → NlsrcAct
  | [] => .usage
  | sub :: args =>
    if sub = "advertise".toList then
      match args with
      | [name] => update .advertise name false 0
      | [name, a] => if a ≠ "save".toList then .usage else update .advertise name true 0
      | [name, kw, cost] => costly name kw cost false
      | [name, kw, cost, s] => if s ≠ "save".toList then .usage else costly name kw cost true
      | _ => .usage
    else if sub = "withdraw".toList then
      match args with
      | [name] => update .withdraw name false 0
      | [name, a] => if a ≠ "delete".toList then .usage else update .withdraw name true 0
      | _ => .usage
    else if sub = "lsdb".toList ∨ sub = "routing".toList ∨ sub = "status".toList then
      match args with
      | [] => .status sub
      | _ => .usage
    else .usage

/-- What comes back for a prefix update.  tools/nlsrc.cpp:290-325. -/
inductive Answer
  /-- a data packet of content type Nack -/
  | nackData
  /-- content that is no `ControlResponse` -/
  | garbage
  /-- a `ControlResponse` with this code -/
  | code (k : Nat)
  /-- a network Nack, or nothing in time -/
  | lost
deriving DecidableEq, Repr

/-- `m_exitCode` after `onControlResponse` and `onTimeout`, tools/nlsrc.cpp:295-325, 423-429. -/
def answered : Answer → Nat
  | .nackData => 0
  | .garbage => 1
  | .code k => if k ≠ 200 ∧ k ≠ 205 then (if k = 204 then 0 else 1) else 0
  | .lost => 1

/-- The exit status of a prefix update.  tools/nlsrc.cpp:163-231, 487-549. -/
def exitStatus (args : List Text) (a : Answer) : Option Nat :=
  match dispatch args with
  | .usage => some 2
  | .failed => some 1
  | .send _ => some (answered a)
  | .status _ => none

/-! ### data sets -/

/-- What `nlsrc` got out of one data set: what was recorded, and how it ended.  tools/nlsrc.cpp:398-420. -/
inductive Ended
  | fine
  /-- "cannot decode LSA TLV": the rest is skipped, but the run goes on -/
  | cut
  /-- an exception: the run ends with status 1 -/
  | threw
deriving DecidableEq, Repr

/-- `onFetchSuccess`, tools/nlsrc.cpp:398-420; the fuel is at least the length of the buffer. -/
def records {α : Type} (dec : Bytes → Option α) : Nat → Bytes → List α × Ended
  | 0, _ => ([], .fine)
  | fuel + 1, b =>
    if b = [] then ([], .fine)
    else match Tlv.decBlock b with
      | none => ([], .cut)
      | some (_, _, rest) =>
        match dec (b.take (b.length - rest.length)) with
        | none => ([], .threw)
        | some x => let r := records dec fuel rest; (x :: r.1, r.2)

/-- `publishLsaStatus`, src/publisher/dataset-interest-handler.cpp:57-69: the encodings one after the other. -/
def dataset {α : Type} (enc : α → Bytes) (l : List α) : Bytes := (l.map enc).flatten

/-- `recordLsa`, tools/nlsrc.cpp:367-383: one entry for each origin and type, the last one recorded. -/
def record {α : Type} (m : List (Name × α)) (k : Name) (x : α) : List (Name × α) :=
  match m with
  | [] => [(k, x)]
  | p :: ps => if p.1 = k then (k, x) :: ps else p :: record ps k x

/-- All that is recorded of one type.  tools/nlsrc.cpp:367-383. -/
def recordAll {α : Type} (key : α → Name) (l : List α) : List (Name × α) := l.foldl (fun m x => record m (key x) x) []

end Nlsrc
end Nlsr
