import Verif.Model.Basic
/- Models src/route/name-map.hpp and name-map.cpp. -/
namespace Nlsr

/-- What the calculators read of an adjacency LSA: origin and its adjacency list entries
(name, link cost as a raw double).  src/lsa/adj-lsa.hpp, src/adjacent.hpp. -/
structure AdjAd where
  origin : Name
  adjs   : List (Name × Ext Rat)
deriving DecidableEq, Repr

/-- `NameMap::m_bimap`, src/route/name-map.hpp:125-135: pairs (name, mapping number),
unique on both sides. -/
abbrev NameMap := List (Name × Nat)

namespace NameMap
/-- `addEntry`, src/route/name-map.cpp:29-34: the number is the current size; bimap insertion does
nothing if the name or the number is already present. -/
def addEntry (m : NameMap) (n : Name) : NameMap :=
  let no := m.length
  if m.any (fun p => p.1 == n || p.2 == no) then m else m ++ [(n, no)]

/-- `getRouterNameByMappingNo`, src/route/name-map.cpp:36-44. -/
def nameOf (m : NameMap) (no : Nat) : Option Name := (m.find? (fun p => p.2 == no)).map (·.1)

/-- `getMappingNoByRouterName`, src/route/name-map.cpp:46-54. -/
def noOf (m : NameMap) (n : Name) : Option Nat := (m.find? (fun p => p.1 == n)).map (·.2)

/-- `createFromAdjLsdb`, src/route/name-map.hpp:56-71. -/
def fromAdj (lsas : List AdjAd) : NameMap :=
  lsas.foldl (fun m l => l.adjs.foldl (fun m a => m.addEntry a.1) (m.addEntry l.origin)) []

/-- `createFromCoordinateLsdb`, src/route/name-map.hpp:80-90 (only the origins are read). -/
def fromOrigins (origins : List Name) : NameMap := origins.foldl addEntry []
end NameMap
end Nlsr
