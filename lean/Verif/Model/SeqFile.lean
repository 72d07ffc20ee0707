import Verif.Model.Lsdb
import Verif.Model.Num
/-
The state file of src/sequencing-manager.cpp as text, and how it is replaced.

Simplifications: the texts are ASCII; a character handed to the stream is in the file at once (no buffers, no caches);
the temporary file can always be opened.  A full disk is modelled: `room` is the number of characters that fit, and
what does not fit is lost without an error, because the state of the stream is not looked at (lines 46-53).
-/
namespace Nlsr.SeqFile

/-- The text of `writeSeqNoToFile`, src/sequencing-manager.cpp:49-51. -/
def render (s : Seqs) : Text :=
  "NameLsaSeq ".toList ++ (Uri.dec s.name ++ ('\n' :: ("AdjLsaSeq ".toList ++ (Uri.dec s.adj ++
    ('\n' :: ("CorLsaSeq ".toList ++ Uri.dec s.cor))))))

/-- An input stream: what is left, and that nothing failed so far.  External library (`std::istream`). -/
structure In where
  rest : Text
  ok : Bool := true
deriving DecidableEq, Repr

/-- `stream >> text`: skips white space, then takes all that is not white space; fails at the end.
External library (`std::istream`); src/sequencing-manager.cpp:64-66. -/
def In.word (s : In) : In :=
  if !s.ok then s
  else
    match s.rest.dropWhile Num.isSpace with
    | [] => ⟨[], false⟩
    | r => ⟨r.dropWhile (fun c => !Num.isSpace c), true⟩

/-- `stream >> number` for a `uint64_t` that is `old` before.  A stream that failed or is at its end leaves it alone;
no digits give 0 and a number that is too large gives the largest one, both with a failure.
External library (`std::istream`, `std::num_get`); src/sequencing-manager.cpp:64-66. -/
def In.number (s : In) (old : Nat) : In × Nat :=
  if !s.ok then (s, old)
  else
    match s.rest.dropWhile Num.isSpace with
    | [] => (⟨[], false⟩, old)
    | r => match Num.readInt r with
      | none => (⟨r, false⟩, 0)
      | some (neg, n, q) =>
        if n < 2 ^ 64 then (⟨q, true⟩, if neg then (2 ^ 64 - n) % 2 ^ 64 else n) else (⟨q, false⟩, 2 ^ 64 - 1)

/-- Lines 64-66 of src/sequencing-manager.cpp; the numbers are 0 before (src/sequencing-manager.hpp:149-151). -/
def parse (t : Text) : Seqs :=
  let p1 := In.number (In.word ⟨t, true⟩) 0
  let p2 := In.number (In.word p1.1) 0
  let p3 := In.number (In.word p2.1) 0
  ⟨p1.2, p2.2, p3.2⟩

/-- The state file and the temporary one; `none`: there is no such file.  src/sequencing-manager.cpp:46-48. -/
structure Files where
  file : Option Text := none
  tmp : Option Text := none
deriving DecidableEq, Repr

/-- What `writeSeqNoToFile` does to them, src/sequencing-manager.cpp:46-53. -/
inductive FileOp
  /-- the temporary file is opened and emptied, line 48 -/
  | create
  /-- a character is written to it, lines 49-51 -/
  | put (c : Char)
  /-- it takes the place of the state file, line 53 -/
  | rename
deriving DecidableEq, Repr

/-- One of them, src/sequencing-manager.cpp:46-53. -/
def Files.step (f : Files) : FileOp → Files
  | .create => { f with tmp := some [] }
  | .put c => { f with tmp := f.tmp.map (· ++ [c]) }
  | .rename => match f.tmp with
    | some t => ⟨some t, none⟩
    | none => f

/-- `writeSeqNoToFile`, src/sequencing-manager.cpp:43-54, on a disk with room for `room` characters. -/
def writeOps (room : Nat) (s : Seqs) : List FileOp :=
  .create :: (((render s).take room).map .put ++ [.rename])

/-- One thing the daemon does that is seen outside of it: a step of the file system, or another output of the LSDB.
src/lsdb.cpp:145-152. -/
inductive Deed
  | file (op : FileOp)
  | out (o : Out)

/-- The steps an output of the LSDB consists of: writing the state file takes many. src/lsdb.cpp:150, 166, 409, 447. -/
def deedsOf (room : Nat) : Out → List Deed
  | .persist s => (writeOps room s).map .file
  | o => [.out o]

/-- The steps of several outputs (src/lsdb.cpp). -/
def deeds (room : Nat) (l : List Out) : List Deed := l.flatMap (deedsOf room)

/-- The outputs other than to the files.  src/lsdb.cpp. -/
def outs (l : List Deed) : List Out :=
  l.filterMap fun
    | .out o => some o
    | .file _ => none

/-- The files after some steps, src/sequencing-manager.cpp:46-53. -/
def filesAfter (f : Files) (l : List Deed) : Files :=
  l.foldl (fun f d => match d with
    | .file op => f.step op
    | .out _ => f) f

/-- The numbers the daemon finds when it starts (before it adds 10), src/sequencing-manager.cpp:58-66. -/
def Files.seqs (f : Files) : Option Seqs := f.file.map parse

end Nlsr.SeqFile
