/- Walks and least costs in a directed graph with integer edge costs: the vocabulary in which the
routing properties are stated.  Independent of the router model. -/
namespace Nlsr

/-- `Path L a b k`: there is a walk from `a` to `b` along edges of `L` with total cost `k`. -/
inductive Path {V : Type} (L : V → V → Int → Prop) : V → V → Int → Prop
  | nil (a : V) : Path L a a 0
  | snoc {a b c : V} {k w : Int} : Path L a b k → L b c w → Path L a c (k + w)

/-- `k` is the least cost of a walk from `a` to `b`. -/
def Shortest {V : Type} (L : V → V → Int → Prop) (a b : V) (k : Int) : Prop :=
  Path L a b k ∧ ∀ k', Path L a b k' → k ≤ k'

/-- The edges of `L` that neither start nor end at `s`. -/
def Avoid {V : Type} (s : V) (L : V → V → Int → Prop) : V → V → Int → Prop :=
  fun a b w => L a b w ∧ a ≠ s ∧ b ≠ s

end Nlsr
