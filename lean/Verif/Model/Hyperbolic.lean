import Verif.Model.Adjacency
/- Models src/route/routing-calculator-hyperbolic.cpp. -/
namespace Nlsr.HR

/-- What the calculator reads of a coordinate LSA (src/lsa/coordinate-lsa.hpp): doubles as `Ext Rat`. -/
structure CoordAd where
  origin : Name
  radius : Ext Rat
  angles : List (Ext Rat)
deriving DecidableEq, Repr

/-- The two floating-point formulas, left abstract (any functions on doubles):
`inner` is lines 201-236 (`acos` of the inner product), `dist` lines 256-258. -/
structure Trig where
  inner : List (Ext Rat) → List (Ext Rat) → Ext Rat
  dist  : Ext Rat → Ext Rat → Ext Rat → Ext Rat

/-- `M_PI`, the exact value of the double.
External library; used in src/route/routing-calculator-hyperbolic.cpp:196-211. -/
def mPi : Rat := 884279719003555 / 281474976710656

/-- `UNKNOWN_DISTANCE` and `UNKNOWN_RADIUS`, lines 69-70. -/
def unknown : Ext Rat := .fin (-1)

/-- `x <= 0.0` on doubles (false for NaN).  As in src/route/routing-calculator-hyperbolic.cpp:243-260. -/
def le0 (x : Ext Rat) : Bool := Ext.rlt x (.fin 0) || x == .fin 0

/-- The test of lines 181-182 for one position `k`. -/
def rangeBad (a b : Ext Rat) : Bool :=
  (Ext.rlt (.fin mPi) a && Ext.rlt a (.fin 0)) || (Ext.rlt (.fin mPi) b && Ext.rlt b (.fin 0))

/-- The test of lines 189-190 (repeated word for word on lines 195-196). -/
def lastBad (a : Ext Rat) : Bool := Ext.rlt (.fin (2 * mPi)) a || Ext.rlt a (.fin 0)

/-- `calculateAngularDistance`, lines 164-237.  Outer `none`: reading element `size()-1` of an empty
vector (undefined behaviour, line 189).  All other reads are below `size()`. -/
def angular (T : Trig) (i j : List (Ext Rat)) : Option (Ext Rat) :=
  if i.length ≠ j.length then some unknown
  else if decide (1 < i.length) && (i.dropLast.zip j.dropLast).any (fun p => rangeBad p.1 p.2) then
    some unknown
  else match i.getLast? with
    | none => none
    | some last =>
      if lastBad last then some unknown
      else if lastBad last then some unknown
      else some (T.inner i j)

/-- `calculateHyperbolicDistance`, lines 239-259. -/
def hypDist (T : Trig) (ri rj th : Ext Rat) : Ext Rat :=
  if th = unknown then unknown
  else if le0 th || le0 ri || le0 rj then unknown
  else T.dist ri rj th

/-- `lsdb.findLsa<CoordinateLsa>`.  src/lsdb.hpp:130-136. -/
def findLsa (lsas : List CoordAd) (n : Name) : Option CoordAd := lsas.find? (fun l => l.origin == n)

/-- Lines 143-161, once both LSAs are at hand. -/
def pairDistance (T : Trig) (s d : CoordAd) : Option (Ext Rat) :=
  (angular T s.angles d.angles).map fun th =>
    if s.radius = unknown ∨ d.radius = unknown ∨ th = unknown then unknown
    else hypDist T s.radius d.radius th

/-- `getHyperbolicDistance`, lines 128-162. -/
def distance (T : Trig) (lsas : List CoordAd) (src dest : Name) : Option (Ext Rat) :=
  match findLsa lsas src, findLsa lsas dest with
  | some s, some d => pairDistance T s d
  | _, _ => some unknown

/-- One `addNextHop(dest, faceUri, cost)` call (lines 261-275).  The hop carries the hyperbolic flag. -/
structure Offer where
  dest : Name
  uri  : Uri
  cost : Ext Rat
deriving DecidableEq, Repr

/-- Lines 113-121: the offer for one destination. -/
def offerTo (T : Trig) (lsas : List CoordAd) (a : Adjacent) (d : Name) : Option (List Offer) :=
  (distance T lsas a.name d).map fun c => if c = unknown then [] else [⟨d, a.uri, c⟩]

/-- Body of the inner loop, lines 108-123. -/
def destStep (T : Trig) (lsas : List CoordAd) (map : NameMap) (this : Option Nat) (src : Nat)
    (a : Adjacent) (dest : Nat) : Option (List Offer) :=
  match this with
  | none => some []
  | some t =>
    if dest ≠ t ∧ dest ≠ src then
      match map.nameOf dest with
      | some d => offerTo T lsas a d
      | none => some []
    else some []

/-- Lines 100-124. -/
def viaNeighbor (T : Trig) (lsas : List CoordAd) (map : NameMap) (this : Option Nat)
    (a : Adjacent) : Option (List Offer) :=
  match map.noOf a.name with
  | none => some []
  | some src => ((List.range map.length).mapM (destStep T lsas map this src a)).map List.flatten

/-- Body of the outer loop, lines 84-124. -/
def neighborStep (T : Trig) (lsas : List CoordAd) (map : NameMap) (self : Name) (a : Adjacent) :
    Option (List Offer) :=
  if a.status = .inactive then some []
  else if a.name = self then some []
  else (viaNeighbor T lsas map (map.noOf self) a).map (fun os => ⟨a.name, a.uri, .fin 0⟩ :: os)

/-- `calculatePath`, lines 72-126, with the map built from the same LSDB
(src/route/routing-table.cpp:152-157): the sequence of `addNextHop` calls. -/
def calculate (T : Trig) (self : Name) (adjs : AdjacencyList) (lsas : List CoordAd) :
    Option (List Offer) :=
  (adjs.mapM (neighborStep T lsas (NameMap.fromOrigins (lsas.map (·.origin))) self)).map List.flatten

/-- The routing-table hop of an offer (lines 265-266); `none` for a NaN or infinite cost, which
`NextHop` does not represent. -/
def Offer.hop (o : Offer) : Option NextHop :=
  match o.cost with
  | .fin c => some ⟨o.uri, c, true⟩
  | _ => none

end Nlsr.HR
