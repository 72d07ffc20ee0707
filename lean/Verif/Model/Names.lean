import Verif.Model.Tlv
/-
Name handling used by the LSDB, sync and hello code: src/utility/name-helper.hpp,
src/communication/sync-logic-handler.cpp, src/conf-parameter.{hpp,cpp} and the `ndn::Name` operations
they call (external library, modelled with its `size_t` arithmetic).
-/
namespace Nlsr

/-- `Lsa::Type`, src/lsa/lsa.hpp:55-61. -/
inductive LsaType | adjacency | coordinate | name | base
deriving DecidableEq, Repr

/-- `operator<<`, src/lsa/lsa.cpp:113-131. -/
def LsaType.text : LsaType → String
  | .adjacency => "ADJACENCY"
  | .coordinate => "COORDINATE"
  | .name => "NAME"
  | .base => "BASE"

/-- `operator>>` applied to the URI form of a component, src/lsa/lsa.cpp:133-151.  The URI form is one
of the three words iff the component is generic with exactly these octets; everything else is BASE. -/
def LsaType.ofComp (c : Comp) : LsaType :=
  if c = Comp.str "ADJACENCY" then .adjacency
  else if c = Comp.str "COORDINATE" then .coordinate
  else if c = Comp.str "NAME" then .name
  else .base

namespace Name

/-- `util::getNameComponentPosition`, src/utility/name-helper.hpp:37-48 (−1 if absent). -/
def position (n : Name) (c : Comp) : Int :=
  match n.findIdx? (fun x => c == x) with
  | some i => (i : Int)
  | none => -1

/-- `Name::getSubName(iStart, nComponents)` of ndn-cxx: a negative start counts from the end, the
count is a `size_t` (so a negative number wraps; −1 is `npos`, "to the end"), and `iStart + count`
wraps as well. -/
def subName (n : Name) (start cnt : Int) : Name :=
  let s := if start < 0 then start + n.length else start
  let i : Nat := if s < 0 then 0 else s.toNat
  let c : Nat := (cnt % 18446744073709551616).toNat
  let e : Nat := if c = 18446744073709551615 then n.length
    else min n.length ((i + c) % 18446744073709551616)
  (n.take e).drop i

/-- `Name::getPrefix(k)`: a negative `k` counts from the end.  External library ndn-cxx. -/
def getPrefix (n : Name) (k : Int) : Name := if k < 0 then subName n 0 (n.length + k) else subName n 0 k

/-- `Name::get(-k)` / `operator[]` with a negative index; out of range is undefined behaviour
(`none`).  External library ndn-cxx. -/
def fromEnd (n : Name) (k : Nat) : Option Comp := if 1 ≤ k ∧ k ≤ n.length then n[n.length - k]? else none

end Name

/-- `Component::toNumber`: throws (`none`) unless the value is 1, 2, 4 or 8 octets.  External library ndn-cxx. -/
def Comp.toNumber (c : Comp) : Option Nat := Tlv.decNni c.val

/-- `Name::appendNumber(n)`: a generic component holding `n`.  External library ndn-cxx. -/
def Comp.number (n : Nat) : Comp := ⟨8, Tlv.encNni n⟩

/-- `Component::isVersion`: type 54 and a value readable as a number.  External library ndn-cxx. -/
def Comp.isVersion (c : Comp) : Bool := c.typ == 54 && (Tlv.decNni c.val).isSome

/-- `Component::isSegment`: type 50 and a value readable as a number.  External library ndn-cxx. -/
def Comp.isSegment (c : Comp) : Bool := c.typ == 50 && (Tlv.decNni c.val).isSome

/-- The names a router is configured with.  src/conf-parameter.hpp:494-502. -/
structure RouterConf where
  network : Name
  site : Name
  router : Name
deriving DecidableEq, Repr

namespace RouterConf
/-- `ConfParameter::setNetwork`, src/conf-parameter.cpp:107-110. -/
def lsaPrefix (c : RouterConf) : Name :=
  [Comp.str "localhop"] ++ c.network ++ [Comp.str "nlsr", Comp.str "LSA"]

/-- `buildRouterAndSyncUserPrefix`, src/conf-parameter.hpp:174-184. -/
def routerPrefix (c : RouterConf) : Name := c.network ++ c.site ++ c.router

/-- `buildRouterAndSyncUserPrefix`, src/conf-parameter.cpp:113-124. -/
def syncUserPrefix (c : RouterConf) : Name := c.lsaPrefix ++ c.site ++ c.router

/-- `makeLsaUserPrefix`, src/communication/sync-logic-handler.hpp:44-48: the update name the router
publishes under. -/
def lsaUserPrefix (c : RouterConf) (t : LsaType) : Name := c.syncUserPrefix ++ [Comp.str t.text]

/-- The interest a peer expresses after that update, src/lsdb.cpp:138-139. -/
def lsaInterest (c : RouterConf) (t : LsaType) (seq : Nat) : Name :=
  c.lsaUserPrefix t ++ [Comp.number seq]
end RouterConf

/-- `SyncLogicHandler::processUpdate`, src/communication/sync-logic-handler.cpp:53-72: the origin
router derived from an update name; `none` for a malformed update (logged and dropped). -/
def syncOrigin (updateName : Name) : Option Name :=
  let nlsrPos := Name.position updateName (Comp.str "nlsr")
  let lsaPos := Name.position updateName (Comp.str "LSA")
  if nlsrPos < 0 ∨ lsaPos < 0 then none
  else some (Name.subName updateName 1 (nlsrPos - 1) ++
    Name.getPrefix (Name.subName updateName (lsaPos + 1) (-1)) (-1))

/-- Origin router derived from an LSA interest name, src/lsdb.cpp:236-242 and 573-580. -/
def interestOrigin (network : Name) (interestName : Name) : Name :=
  let lsaPos := Name.position interestName (Comp.str "LSA")
  network ++ Name.subName interestName (lsaPos + 1) (interestName.length - lsaPos - 3)

end Nlsr
