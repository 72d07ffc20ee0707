import Verif.Model.LinkState
import Verif.Model.Hyperbolic
/- Models the tables of src/route/routing-table.cpp (the scheduling part is in Model/Core.lean). -/
namespace Nlsr

/-- `RoutingTableEntry`, src/route/routing-table-entry.hpp (name pool users are modelled in
Model/Npt.lean). -/
structure RtEntry where
  dest : Name
  hops : NexthopList
deriving DecidableEq, Repr

/-- `m_rTable`, `m_dryTable`, src/route/routing-table.hpp:81-82. -/
abbrev RTable := List RtEntry

namespace RTable
/-- `findRoutingTableEntry`, src/route/routing-table.cpp:199-208. -/
def find (t : RTable) (d : Name) : Option RtEntry := List.find? (fun e => e.dest == d) t

/-- Apply `addNextHop` to the first entry for `d` (the pointer returned by `find`), lines 194, 223. -/
def updateFirst (t : RTable) (d : Name) (nh : NextHop) : RTable :=
  match t with
  | [] => []
  | e :: es => if e.dest == d then { e with hops := e.hops.add nh } :: es else e :: updateFirst es d nh

/-- `addNextHop`, lines 182-197, and `addNextHopToDryTable`, lines 210-226 (same code on the other
table). -/
def addNextHop (t : RTable) (d : Name) (nh : NextHop) : RTable :=
  match find t d with
  | none => t ++ [⟨d, NexthopList.add [] nh⟩]
  | some _ => updateFirst t d nh

/-- A sequence of additions to a cleared table (`clearRoutingTable`, lines 228-233). -/
def build (adds : List (Name × NextHop)) : RTable := adds.foldl (fun t p => addNextHop t p.1 p.2) []
end RTable
end Nlsr
