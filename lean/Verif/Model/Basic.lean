/-
Basic vocabulary shared by the models: names, numbers, configuration enums.
-/
namespace Nlsr

/-- An NDN name component: TLV type (8 = GenericNameComponent) and value bytes
(ndn-cxx `ndn::name::Component`, external library). -/
structure Comp where
  typ : Nat := 8
  val : List UInt8
deriving DecidableEq, Repr

/-- Component made from a text string, as `ndn::name::Component(std::string)`. -/
def Comp.str (s : String) : Comp := ⟨8, s.toUTF8.toList⟩

/-- An NDN name (ndn-cxx `ndn::Name`): a list of components. -/
abbrev Name := List Comp

/-- Name from text components, e.g. `nm ["ndn", "site", "r1"]`.  Not in the code: for writing examples. -/
def nm (l : List String) : Name := l.map Comp.str

/-- Sort key of a component: type, length, bytes (NDN canonical order,
`ndn::name::Component::compare`).  External library ndn-cxx. -/
def Comp.key (c : Comp) : List Nat := c.typ :: c.val.length :: c.val.map (·.toNat)

/-- NDN canonical name order, `ndn::Name::compare` (`operator<`): component by component, a proper
prefix comes first.  External library ndn-cxx. -/
def Name.lt (a b : Name) : Bool := decide (a.map Comp.key < b.map Comp.key)

/-- `Name::isPrefixOf`.  External library ndn-cxx. -/
def Name.isPrefixOf (a b : Name) : Bool := List.isPrefixOf a b

/-- Insertion into an ordered `std::set`/`std::map` kept as a sorted list; nothing happens if an
element equivalent under the comparator is present. -/
def setInsert {α : Type} (lt : α → α → Bool) (x : α) : List α → List α
  | [] => [x]
  | y :: ys =>
    if lt x y then x :: y :: ys
    else if lt y x then y :: setInsert lt x ys
    else y :: ys

/-- IEEE double restricted to what comparisons can see: NaN, the infinities, or a finite value.
`Ext Rat` is a double (finite doubles are rationals; -0 is identified with 0);
`Ext Int` a double after `std::ceil`. -/
inductive Ext (α : Type)
  | nan
  | ninf
  | pinf
  | fin (a : α)
deriving DecidableEq, Repr

namespace Ext
/-- `std::ceil` on doubles. -/
def ceil : Ext Rat → Ext Int
  | nan => nan
  | ninf => ninf
  | pinf => pinf
  | fin q => fin q.ceil

/-- `x >= 0` (false for NaN).  As in src/route/routing-calculator-link-state.cpp:285-301. -/
def ge0 : Ext Int → Bool
  | nan => false
  | ninf => false
  | pinf => true
  | fin z => decide (0 ≤ z)

/-- `x == y` on doubles (false if either is NaN).  As in src/route/routing-calculator-link-state.cpp:145-165. -/
def feq : Ext Int → Ext Int → Bool
  | ninf, ninf => true
  | pinf, pinf => true
  | fin a, fin b => a == b
  | _, _ => false

/-- `x < y` on doubles (false if either is NaN).  As in src/route/routing-calculator-link-state.cpp:145-165, 289-301. -/
def flt : Ext Int → Ext Int → Bool
  | ninf, pinf => true
  | ninf, fin _ => true
  | fin _, pinf => true
  | fin a, fin b => decide (a < b)
  | _, _ => false

/-- `std::max(a, b)` = `(a < b) ? b : a`. -/
def fmax (a b : Ext Int) : Ext Int := if flt a b then b else a

/-- `d + x` for a finite `d`.  As in src/route/routing-calculator-link-state.cpp:289-301. -/
def addFin (d : Int) : Ext Int → Ext Int
  | nan => nan
  | ninf => ninf
  | pinf => pinf
  | fin z => fin (d + z)
end Ext

/-- src/conf-parameter.hpp:105-110. -/
inductive HypState | off | on | dryRun
deriving DecidableEq, Repr

/-- src/adjacent.hpp `Adjacent::Status` (UNKNOWN = -1, INACTIVE = 0, ACTIVE = 1). -/
inductive Status | unknown | inactive | active
deriving DecidableEq, Repr

end Nlsr
