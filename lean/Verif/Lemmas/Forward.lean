import Verif.Lemmas.Path
import Mathlib.Logic.Relation
/- Forwarding by first hops that lie on shortest paths. -/
namespace Nlsr
namespace Fwd
variable {V : Type} {G : V → V → Int → Prop} {F : V → V → Prop} {d : V} {lim : Int}

/-- A packet at `r` visits `vs` and stops at `d`, at total cost `k`. -/
inductive Walk (G : V → V → Int → Prop) (F : V → V → Prop) (d : V) : V → List V → Int → Prop
  | here : Walk G F d d [] 0
  | hop {r n : V} {vs : List V} {w k : Int} : F r n → G r n w → Walk G F d n vs k → Walk G F d r (n :: vs) (w + k)

/-- Every hop goes to a router that is closer. -/
def Closer (G : V → V → Int → Prop) (F : V → V → Prop) (d : V) : Prop :=
  ∀ r n, F r n → ∃ w k, G r n w ∧ Shortest G n d k ∧ Shortest G r d (w + k)

theorem loop_free (hp : ∀ a b w, G a b w → 0 < w) (hc : Closer G F d) (r : V) : ¬ Relation.TransGen F r r := by
  have down : ∀ {r n}, Relation.TransGen F r n → ∀ {k k'}, Shortest G r d k → Shortest G n d k' → k' < k := by
    intro r n h
    induction h with
    | single h =>
      intro k k' a b
      obtain ⟨w, k2, h1, h2, h3⟩ := hc _ _ h
      have := a.unique h3
      have := b.unique h2
      have := hp _ _ _ h1
      omega
    | tail _ h ih =>
      intro k k' a b
      obtain ⟨w, k2, h1, h2, h3⟩ := hc _ _ h
      have := ih a h3
      have := b.unique h2
      have := hp _ _ _ h1
      omega
  intro h
  have : ∃ k, Shortest G r d k := by
    have : ∀ {x y}, Relation.TransGen F x y → ∃ k, Shortest G x d k := by
      intro x y h
      induction h with
      | single h => obtain ⟨w, k2, h1, h2, h3⟩ := hc _ _ h; exact ⟨_, h3⟩
      | tail _ _ ih => exact ih
    exact this h
  obtain ⟨k, hk⟩ := this
  have := down h hk hk
  omega

theorem cons_trans {r n y : V} (hop : F r n) (h : Relation.TransGen F n y) : Relation.TransGen F r y := by
  induction h with
  | single h => exact .tail (.single hop) h
  | tail _ h ih => exact .tail ih h

theorem walk_nodup (hl : ∀ r, ¬ Relation.TransGen F r r) {r : V} {vs : List V} {k : Int} (h : Walk G F d r vs k) :
    (∀ v ∈ vs, Relation.TransGen F r v) ∧ (r :: vs).Nodup := by
  induction h with
  | here => simp
  | @hop r n vs w k hop hg _ ih =>
    obtain ⟨i1, i2⟩ := ih
    have hall : ∀ v ∈ n :: vs, Relation.TransGen F r v := by
      intro v hv
      rcases List.mem_cons.1 hv with rfl | hv
      · exact .single hop
      · exact cons_trans hop (i1 v hv)
    exact ⟨hall, List.nodup_cons.2 ⟨fun hm => hl r (hall r hm), i2⟩⟩

/-- Wherever there is a path below the limit there is a hop; so the packet arrives. -/
theorem arrives (hp : ∀ a b w, G a b w → 0 < w) (hc : Closer G F d)
    (hprog : ∀ r, r ≠ d → ∀ k, Path G r d k → k < lim → ∃ n, F r n) :
    ∀ (m : Nat) (r : V) (k : Int), Shortest G r d k → k < lim → k.toNat ≤ m → ∃ vs, Walk G F d r vs k := by
  intro m
  induction m with
  | zero =>
    intro r k hk hlim hm
    by_cases hr : r = d
    · subst hr
      have : k = 0 := hk.unique ⟨Path.nil _, fun k' hk' => Path.nonneg (L := G) (fun a b w h => Int.le_of_lt (hp a b w h)) hk'⟩
      subst this
      exact ⟨[], .here⟩
    · obtain ⟨n, hf⟩ := hprog r hr k hk.1 hlim
      obtain ⟨w, k2, h1, h2, h3⟩ := hc _ _ hf
      have := hk.unique h3
      have := hp _ _ _ h1
      have := Path.nonneg (L := G) (fun a b w h => Int.le_of_lt (hp a b w h)) h2.1
      omega
  | succ m ih =>
    intro r k hk hlim hm
    by_cases hr : r = d
    · subst hr
      have : k = 0 := hk.unique ⟨Path.nil _, fun k' hk' => Path.nonneg (L := G) (fun a b w h => Int.le_of_lt (hp a b w h)) hk'⟩
      subst this
      exact ⟨[], .here⟩
    · obtain ⟨n, hf⟩ := hprog r hr k hk.1 hlim
      obtain ⟨w, k2, h1, h2, h3⟩ := hc _ _ hf
      have e := hk.unique h3
      have := hp _ _ _ h1
      have := Path.nonneg (L := G) (fun a b w h => Int.le_of_lt (hp a b w h)) h2.1
      obtain ⟨vs, hv⟩ := ih n k2 h2 (by omega) (by omega)
      exact ⟨n :: vs, e ▸ .hop hf h1 hv⟩

end Fwd
end Nlsr
