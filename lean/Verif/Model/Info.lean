import Verif.Model.Uri
/-
Configuration trees and files: `boost::property_tree` (external library) as src/utility/boost-info-editor.cpp
and src/conf-file-processor.cpp use it.

Trusted: reading back a file written by `write_info` gives the tree that was written.
Simplification: escape sequences inside quoted words are not modelled (`token`).
-/
namespace Nlsr

/-- `ptree`: data and children in order; keys may repeat.
External library (Boost), as src/utility/boost-info-editor.cpp uses it. -/
inductive Tree
  | node (data : Text) (kids : List (Text × Tree))
deriving Repr

namespace Tree

/-- `ptree::data` (Boost). -/
def data : Tree → Text
  | node d _ => d

/-- The children of a `ptree`, in order (Boost). -/
def kids : Tree → List (Text × Tree)
  | node _ k => k

/-- Apply `f` to the first child with key `k`, if there is one (`find` gives the first).
External library (Boost); src/utility/boost-info-editor.cpp:56-92. -/
def modifyFirst (k : Text) (f : Tree → Tree) : List (Text × Tree) → List (Text × Tree)
  | [] => []
  | x :: xs => if x.1 = k then (k, f x.2) :: xs else x :: modifyFirst k f xs

/-- `ptree::put(path, value)`: follow the path, adding what is missing at the end, and set the data there.
External library (Boost); src/utility/boost-info-editor.cpp:56-68. -/
def put (v : Text) : List Text → Tree → Tree
  | [], node _ k => node v k
  | p :: ps, node d k =>
    if k.any (fun x => x.1 = p) then node d (modifyFirst p (put v ps) k)
    else node d (k ++ [(p, put v ps (node [] []))])

/-- `get_child_optional(path)` followed by `erase(key)` on it: all children with that key go.
src/utility/boost-info-editor.cpp:70-92. -/
def remove (key : Text) : List Text → Tree → Tree
  | [], node d k => node d (k.filter (fun x => !decide (x.1 = key)))
  | p :: ps, node d k => node d (modifyFirst p (remove key ps) k)

/-- A word of a file: quoted if it is empty or has a character with a meaning in files.
External library (Boost), `write_info`; src/utility/boost-info-editor.cpp:43-54. -/
def token (t : Text) : Text :=
  if t = [] ∨ t.any (fun c => [' ', '\t', '{', '}', ';', '\n', '"'].contains c) then '"' :: t ++ ['"'] else t

/-- Indentation by four spaces for each level (Boost, `write_info`). -/
def indent (n : Nat) : Text := List.replicate (4 * n) ' '

/-- What `write_info` puts after a key, on the same line. -/
def dataPart (d : Text) (leaf : Bool) : Text :=
  if d ≠ [] then ' ' :: token d else if leaf then ' ' :: token [] else []

mutual
/-- The lines `write_info` prints for a child. -/
def lines (n : Nat) (key : Text) : Tree → List Text
  | node d k =>
    (indent n ++ token key ++ dataPart d k.isEmpty) ::
      (if k.isEmpty then [] else (indent n ++ ['{']) :: linesAll (n + 1) k ++ [indent n ++ ['}']])

/-- The lines of several children (Boost, `write_info`). -/
def linesAll (n : Nat) : List (Text × Tree) → List Text
  | [] => []
  | (key, t) :: ks => lines n key t ++ linesAll n ks
end

/-- The lines of a whole file. -/
def fileLines (t : Tree) : List Text := linesAll 0 t.kids

end Tree

/-- A configuration file: its lines, and what `read_info` makes of it (`none`: it throws). -/
structure ConfFile where
  lines : List Text
  tree : Option Tree
  writable : Bool := true
deriving Repr

namespace ConfFile

/-- `save`, src/utility/boost-info-editor.cpp:43-54. -/
def save (f : ConfFile) (t : Tree) : Bool × ConfFile :=
  if f.writable then (true, { f with lines := t.fileLines, tree := some t }) else (false, f)

/-- `put`, src/utility/boost-info-editor.cpp:56-68; the section is a path with periods. -/
def put (f : ConfFile) (section_ value : Text) : Bool × ConfFile :=
  match f.tree with
  | none => (false, f)
  | some t => f.save (t.put value (Uri.splitAt '.' section_))

/-- `remove`, src/utility/boost-info-editor.cpp:70-92: the last piece of the path is the key to erase. -/
def remove (f : ConfFile) (section_ : Text) : Bool × ConfFile :=
  match f.tree with
  | none => (false, f)
  | some t =>
    let ps := Uri.splitAt '.' section_
    f.save (t.remove (ps.getLast?.getD []) ps.dropLast)

end ConfFile
end Nlsr
