import Verif.Spec.Graph
import Verif.Model.NameMap
/- Specification vocabulary for link-state routing: which links exist, read off the LSAs. -/
namespace Nlsr

/-- Router `a`'s adjacency LSA lists `b` with cost `x`. -/
def Advertises (lsas : List AdjAd) (a b : Name) (x : Ext Rat) : Prop :=
  ∃ l ∈ lsas, l.origin = a ∧ (b, x) ∈ l.adjs

/-- The usable link from `a` to `b` has cost `k`: both ends list each other with finite costs that,
rounded up, are not negative, and `k` is the larger of the two. -/
def Link (lsas : List AdjAd) (a b : Name) (k : Int) : Prop :=
  ∃ x y : Rat, Advertises lsas a b (.fin x) ∧ Advertises lsas b a (.fin y) ∧
    0 ≤ x.ceil ∧ 0 ≤ y.ceil ∧ k = max x.ceil y.ceil

/-- One LSA per router, and no router listed twice in an LSA (guaranteed by the LSDB, C27, and by
adjacency lists, C45). -/
structure WellFormed (lsas : List AdjAd) : Prop where
  origins : (lsas.map (·.origin)).Nodup
  adjs : ∀ l ∈ lsas, (l.adjs.map (·.1)).Nodup

/-- Routes with a total cost of this much or more are not used. -/
def costLimit : Int := 2147483647

end Nlsr
