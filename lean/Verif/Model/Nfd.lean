import Verif.Model.Basic
/-
What NFD does with the routes it was told: from the RIB to the faces a packet is sent to.
NFD is not part of /repo.  This is its documented behaviour (NFD developer's guide, "RIB management", and the
descriptions of ROUTE_FLAG_CHILD_INHERIT and ROUTE_FLAG_CAPTURE that src/route/fib.hpp:115,
src/route/name-prefix-table.hpp:81 and src/route/name-prefix-table.cpp:76-97 rely on).  Not modelled: origins of routes (NLSR's have one origin), and
which routes are used when a face fails.
-/
namespace Nlsr
namespace Nfd

/-- The routes of a RIB, by name and face: cost and flags. -/
abbrev Routes := Name → Nat → Option (Int × Nat)

/-- ROUTE_FLAG_CHILD_INHERIT: the route is used for longer names too, beside their own. -/
def childInherit (flags : Nat) : Bool := flags % 2 == 1

/-- ROUTE_FLAG_CAPTURE: routes of shorter names are not used for this name and longer ones. -/
def capture (flags : Nat) : Bool := flags / 2 % 2 == 1

/-- The prefixes of `n` with at most `k` components, the longest first. -/
def upTo (n : Name) : Nat → List Name
  | 0 => [n.take 0]
  | k + 1 => n.take (k + 1) :: upTo n k

/-- Some route of `p`, over one of these faces, captures. -/
def captures (faces : List Nat) (rib : Routes) (p : Name) : Bool :=
  faces.any fun f => match rib p f with | some (_, fl) => capture fl | none => false

/-- What a name gets over face `f` from these shorter names (the longest first): of the routes that are inherited, that of
the longest name; a name that captures is the last one looked at. -/
def inherited (faces : List Nat) (rib : Routes) (f : Nat) : List Name → Option Int
  | [] => none
  | p :: ps =>
    match rib p f with
    | some (cost, fl) => if childInherit fl then some cost else if captures faces rib p then none else inherited faces rib f ps
    | none => if captures faces rib p then none else inherited faces rib f ps

/-- What is the cost of face `f` for a packet with these prefixes (the longest first)?  The longest one that has routes
decides: a route of its own over `f` counts, otherwise what it inherits. -/
def hop (faces : List Nat) (rib : Routes) (f : Nat) : List Name → Option Int
  | [] => none
  | p :: ps =>
    if faces.any (fun g => (rib p g).isSome) then
      match rib p f with
      | some (cost, _) => some cost
      | none => if captures faces rib p then none else inherited faces rib f ps
    else hop faces rib f ps

/-- The cost of face `f` for a packet with name `n`, if it is among the next hops. -/
def cost (faces : List Nat) (rib : Routes) (n : Name) (f : Nat) : Option Int := hop faces rib f (upTo n n.length)

end Nfd
end Nlsr
