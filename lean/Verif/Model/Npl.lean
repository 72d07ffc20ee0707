import Verif.Model.PrefixMap
/- The list of prefixes a router advertises, with its sources: src/name-prefix-list.{hpp,cpp}. -/
namespace Nlsr

/-- One entry of `m_namesSources` (src/name-prefix-list.hpp:150-160): the key, the set of sources, and the cost
of `costObj` (whose name is the key).  The order inside the set of sources is not modelled. -/
structure NplEntry where
  name : Name
  sources : List String
  cost : Ext Rat
deriving DecidableEq, Repr

/-- `NamePrefixList`: a `std::map` in name order. -/
abbrev Npl := List NplEntry

namespace Npl

/-- `insert(name, source, cost)`, src/name-prefix-list.cpp:37-43, with its return value. -/
def insert (l : Npl) (n : Name) (src : String) (cost : Ext Rat) : Bool × Npl :=
  match l with
  | [] => (true, [⟨n, [src], cost⟩])
  | e :: es =>
    if Name.lt n e.name then (true, ⟨n, [src], cost⟩ :: e :: es)
    else if Name.lt e.name n then
      let r := insert es n src cost
      (r.1, e :: r.2)
    else (!e.sources.contains src,
      ⟨e.name, if e.sources.contains src then e.sources else e.sources ++ [src], cost⟩ :: es)

/-- `erase(name, source)`, src/name-prefix-list.cpp:53-66, with its return value. -/
def erase (l : Npl) (n : Name) (src : String) : Bool × Npl :=
  match l.find? (fun e => e.name == n) with
  | none => (false, l)
  | some e =>
    let left := e.sources.filter (fun x => !(x == src))
    (e.sources.contains src,
      if left = [] then l.filter (fun x => !(x.name == n))
      else l.map (fun x => if x.name == n then { x with sources := left } else x))

/-- `getNames`, src/name-prefix-list.cpp:76-84. -/
def names (l : Npl) : List Name := l.map (·.name)

/-- `getPrefixInfo`, src/name-prefix-list.cpp:86-94. -/
def infos (l : Npl) : List PrefixInfo := l.map (fun e => ⟨e.name, e.cost⟩)

/-- src/name-prefix-list.hpp:114-126. -/
inductive Op
  | insert (n : Name) (src : String) (cost : Ext Rat)
  | erase (n : Name) (src : String)
deriving DecidableEq, Repr

/-- One of them, with its return value (src/name-prefix-list.cpp:37-66). -/
def step (l : Npl) : Op → Bool × Npl
  | .insert n s c => insert l n s c
  | .erase n s => erase l n s

/-- Several, from an empty list (src/name-prefix-list.cpp:28). -/
def run (ops : List Op) : Npl := ops.foldl (fun l op => (step l op).2) []

end Npl
end Nlsr
