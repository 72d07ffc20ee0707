import Verif.Model.Basic
/- Models the name/cost map inside a Name LSA: src/name-prefix-list.{hpp,cpp} as used by src/lsa/name-lsa.cpp. -/
namespace Nlsr

/-- `PrefixInfo`, src/name-prefix-list.hpp:39-100 (without its wire cache). -/
structure PrefixInfo where
  name : Name
  cost : Ext Rat := .fin 0
deriving DecidableEq, Repr

/-- The `NamePrefixList` of a Name LSA.  There every entry has the single source `""`
(`insert(PrefixInfo)` and `erase(name)`, src/name-prefix-list.cpp:45-66), so it is a map from names
to costs, kept in name order. -/
abbrev PrefixMap := List PrefixInfo

namespace PrefixMap
/-- `NamePrefixList::insert(PrefixInfo)`, src/name-prefix-list.cpp:45-51: overwrites the cost of a
name already present. -/
def insert (l : PrefixMap) (p : PrefixInfo) : PrefixMap :=
  match l with
  | [] => [p]
  | q :: qs =>
    if Name.lt p.name q.name then p :: q :: qs
    else if Name.lt q.name p.name then q :: insert qs p
    else p :: qs

/-- `NamePrefixList::erase(name)`, src/name-prefix-list.cpp:53-66, with the single source `""`. -/
def erase (l : PrefixMap) (n : Name) : PrefixMap := l.filter (fun q => !(q.name == n))

/-- Building a map entry by entry (`addName` loop of src/lsa/name-lsa.cpp:32-34, 104-112). -/
def ofList (l : List PrefixInfo) : PrefixMap := l.foldl insert []

/-- `std::set_difference` of the two sorted name lists, looked up as `PrefixInfo`s
(src/lsa/name-lsa.cpp:137-148, 151-160). -/
def minus (a b : PrefixMap) : List PrefixInfo := a.filter (fun p => !(b.any (fun q => q.name == p.name)))
end PrefixMap
end Nlsr
