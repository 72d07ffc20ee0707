import Verif.Model.Fib
import Verif.Lemmas.NexthopList
/- Facts about the FIB model: normal forms of the operations, invariants. -/
namespace Nlsr

/-- Ordered by URI, as `NextHopUriSortedSet` is. -/
def UriSorted (l : List NextHop) : Prop := l.Pairwise (fun a b => NextHop.uriLt a b = true)

theorem UriSorted.nodup {l : List NextHop} (h : UriSorted l) : UriNodup l := by
  unfold UriNodup List.Nodup
  rw [List.pairwise_map]
  refine List.Pairwise.imp (fun {a b} hab he => ?_) h
  simp only [NextHop.uriLt, decide_eq_true_eq, he] at hab
  exact absurd hab (String.lt_irrefl _)

namespace Fib

theorem addHops_sorted {a : List NextHop} (h : UriSorted a) (b : List NextHop) : UriSorted (addHops a b) := by
  unfold addHops
  induction b generalizing a with
  | nil => exact h
  | cons x xs ih => exact ih (addNextHop_sorted NextHop.uriLt_uriComp h x)

theorem mem_addHops {a : List NextHop} (ha : UriSorted a) {b : List NextHop} (hb : UriNodup b) (h : NextHop) :
    h ∈ addHops a b ↔ (h ∈ a ∧ ∀ g ∈ b, g.uri = h.uri → h.cost ≤ g.cost) ∨
      (h ∈ b ∧ ∀ g ∈ a, g.uri = h.uri → h.cost < g.cost) := by
  unfold addHops
  induction b generalizing a with
  | nil => simp
  | cons x xs ih =>
    have hx : ∀ g ∈ xs, g.uri ≠ x.uri := by
      intro g hg he
      have := (List.nodup_cons.1 hb).1
      exact this (List.mem_map.2 ⟨g, hg, he⟩)
    have hb' : UriNodup xs := (List.nodup_cons.1 hb).2
    have hm := fun y => mem_addNextHop NextHop.uriLt_uriComp ha.nodup (nh := x) (a := y)
    rw [List.foldl_cons, ih (addNextHop_sorted NextHop.uriLt_uriComp ha x) hb']
    constructor
    · rintro (⟨h1, h2⟩ | ⟨h1, h2⟩)
      · rcases (hm h).1 h1 with ⟨h3, h4⟩ | ⟨rfl, h4⟩
        · refine Or.inl ⟨h3, fun g hg hu => ?_⟩
          rcases List.mem_cons.1 hg with rfl | hg
          · exact h4 hu.symm
          · exact h2 g hg hu
        · exact Or.inr ⟨List.mem_cons_self, fun g hg hu => h4 g hg hu⟩
      · refine Or.inr ⟨List.mem_cons_of_mem _ h1, fun g hg hu => h2 g ((hm g).2 (Or.inl ⟨hg, fun e => ?_⟩)) hu⟩
        exact absurd (hu.symm.trans e) (hx h h1)
    · rintro (⟨h1, h2⟩ | ⟨h1, h2⟩)
      · exact Or.inl ⟨(hm h).2 (Or.inl ⟨h1, fun e => h2 x List.mem_cons_self e.symm⟩),
          fun g hg hu => h2 g (List.mem_cons_of_mem _ hg) hu⟩
      · rcases List.mem_cons.1 h1 with rfl | h3
        · exact Or.inl ⟨(hm h).2 (Or.inr ⟨rfl, h2⟩), fun g hg hu => absurd hu (hx g hg)⟩
        · refine Or.inr ⟨h3, fun g hg hu => ?_⟩
          rcases (hm g).1 hg with ⟨h4, -⟩ | ⟨rfl, -⟩
          · exact h2 g h4 hu
          · exact absurd hu.symm (hx h h3)

/-- Adding to the empty set keeps all hops. -/
theorem addHops_perm {b : List NextHop} (hb : UriNodup b) : (addHops [] b).Perm b := by
  have key : ∀ (b a : List NextHop), UriNodup (a ++ b) → (b.foldl (addNextHop NextHop.uriLt) a).Perm (a ++ b) := by
    intro b
    induction b with
    | nil => intro a _; simp
    | cons x xs ih =>
      intro a h
      have hx : ∀ g ∈ a, g.uri ≠ x.uri := by
        intro g hg he
        unfold UriNodup at h
        rw [List.map_append, List.nodup_append] at h
        exact h.2.2 _ (List.mem_map_of_mem hg) _ (List.mem_map_of_mem List.mem_cons_self) he
      have hp : (addNextHop NextHop.uriLt a x).Perm (x :: a) := by
        unfold addNextHop
        have : a.find? (fun item => item.uri == x.uri) = none := by
          rw [List.find?_eq_none]; intro g hg; simpa using hx g hg
        rw [this]
        exact setInsert_perm_of_noeqv (fun y hy => NextHop.uriLt_uriComp.total _ _ (hx y hy).symm)
      have hp2 : ((addNextHop NextHop.uriLt a x) ++ xs).Perm (a ++ x :: xs) :=
        (hp.append_right xs).trans (List.perm_middle (l₁ := a) (l₂ := xs) (a := x)).symm
      rw [List.foldl_cons]
      refine (ih _ ?_).trans hp2
      unfold UriNodup
      exact (hp2.map _).nodup_iff.2 h
  exact key b [] hb

theorem numFaces_take (c : FConf) (l : NexthopList) :
    l.take (numFaces c l) = if c.maxFaces = 0 then l else l.take c.maxFaces := by
  unfold numFaces
  split
  · simp
  · rw [← List.take_take]
    exact List.take_of_length_le (by rw [List.length_take]; omega)

/-- The hops of `l` that `update` wants. -/
def wanted (c : FConf) (l : NexthopList) : List NextHop := if c.maxFaces = 0 then l else l.take c.maxFaces

theorem wanted_nodup (c : FConf) {l : NexthopList} (hl : UriNodup l) : UriNodup (wanted c l) := by
  unfold wanted
  split
  · exact hl
  · exact (List.Sublist.map _ (List.take_sublist _ _)).nodup hl

theorem hopsToAdd_perm (c : FConf) {l : NexthopList} (hl : UriNodup l) : (hopsToAdd c l).Perm (wanted c l) := by
  unfold hopsToAdd
  rw [numFaces_take]
  exact addHops_perm (wanted_nodup c hl)

theorem hopsToAdd_sorted (c : FConf) (l : NexthopList) : UriSorted (hopsToAdd c l) := addHops_sorted List.Pairwise.nil _

/-- The set an entry has after `update`. -/
def mergedHops (old new : List NextHop) : List NextHop :=
  (uriMinus (addHops old new) new).foldl removeNextHop (addHops old new)

theorem mem_removeNextHop {l : List NextHop} (hl : UriNodup l) {h g : NextHop} (hh : h ∈ l) :
    g ∈ removeNextHop l h ↔ g ∈ l ∧ g.uri ≠ h.uri := by
  have key : ∀ l : List NextHop, UriNodup l → h ∈ l → ∀ g, g ∈ removeNextHop l h ↔ g ∈ l ∧ g.uri ≠ h.uri := by
    intro l
    induction l with
    | nil => intro _ h; cases h
    | cons x xs ih =>
      intro hl hh g
      have hx := (List.nodup_cons.1 hl).1
      unfold removeNextHop
      rw [List.eraseP_cons]
      by_cases hxh : x.eqv h = true
      · rw [hxh, cond_true]
        have hu : x.uri = h.uri := by
          simp only [NextHop.eqv, Bool.and_eq_true, beq_iff_eq] at hxh; exact hxh.2
        constructor
        · intro hg
          refine ⟨List.mem_cons_of_mem _ hg, fun e => hx (List.mem_map.2 ⟨g, hg, e.trans hu.symm⟩)⟩
        · rintro ⟨hg, hne⟩
          rcases List.mem_cons.1 hg with rfl | hg
          · exact absurd hu hne
          · exact hg
      · rw [Bool.eq_false_iff.2 hxh, cond_false]
        have hne : h ≠ x := by
          rintro rfl
          exact hxh (by simp [NextHop.eqv])
        have hh' : h ∈ xs := (List.mem_cons.1 hh).resolve_left hne
        have hux : x.uri ≠ h.uri := fun e => hx (List.mem_map.2 ⟨h, hh', e.symm⟩)
        rw [List.mem_cons, List.mem_cons]
        have := ih (List.nodup_cons.1 hl).2 hh' g
        unfold removeNextHop at this
        rw [this]
        constructor
        · rintro (rfl | ⟨h1, h2⟩)
          · exact ⟨Or.inl rfl, hux⟩
          · exact ⟨Or.inr h1, h2⟩
        · rintro ⟨rfl | h1, h2⟩
          · exact Or.inl rfl
          · exact Or.inr ⟨h1, h2⟩
  exact key l hl hh g

theorem removeNextHop_sorted {l : List NextHop} (h : UriSorted l) (x : NextHop) : UriSorted (removeNextHop l x) :=
  List.Pairwise.sublist List.eraseP_sublist h

theorem foldl_remove {l : List NextHop} : ∀ (r : List NextHop), UriSorted l → (∀ h ∈ r, h ∈ l) → UriNodup r →
    UriSorted (r.foldl removeNextHop l) ∧
    ∀ g, g ∈ r.foldl removeNextHop l ↔ g ∈ l ∧ ∀ h ∈ r, g.uri ≠ h.uri := by
  intro r
  induction r generalizing l with
  | nil => intro hl _ _; exact ⟨hl, fun g => by simp⟩
  | cons x xs ih =>
    intro hl hr hn
    have hx := (List.nodup_cons.1 hn).1
    have hm := fun g => mem_removeNextHop hl.nodup (g := g) (hr x List.mem_cons_self)
    obtain ⟨h1, h2⟩ := ih (removeNextHop_sorted hl x)
      (fun h hh => (hm h).2 ⟨hr h (List.mem_cons_of_mem _ hh), fun e => hx (List.mem_map.2 ⟨h, hh, e⟩)⟩)
      (List.nodup_cons.1 hn).2
    refine ⟨h1, fun g => ?_⟩
    rw [List.foldl_cons, h2, hm]
    constructor
    · rintro ⟨⟨h3, h4⟩, h5⟩
      refine ⟨h3, fun h hh => ?_⟩
      rcases List.mem_cons.1 hh with rfl | hh
      · exact h4
      · exact h5 h hh
    · rintro ⟨h3, h4⟩
      exact ⟨⟨h3, h4 x List.mem_cons_self⟩, fun h hh => h4 h (List.mem_cons_of_mem _ hh)⟩

theorem mem_uriMinus (a b : List NextHop) (h : NextHop) : h ∈ uriMinus a b ↔ h ∈ a ∧ ∀ g ∈ b, g.uri ≠ h.uri := by
  unfold uriMinus
  rw [List.mem_filter]
  simp

theorem merged_spec {old new : List NextHop} (ho : UriSorted old) (hn : UriNodup new) :
    UriSorted (mergedHops old new) ∧ ∀ h, h ∈ mergedHops old new ↔
      (h ∈ old ∧ (∃ g ∈ new, g.uri = h.uri ∧ h.cost ≤ g.cost)) ∨ (h ∈ new ∧ ∀ g ∈ old, g.uri = h.uri → h.cost < g.cost) := by
  have hs := addHops_sorted ho new
  obtain ⟨h1, h2⟩ := foldl_remove (l := addHops old new) (uriMinus (addHops old new) new) hs
    (fun h hh => ((mem_uriMinus _ _ _).1 hh).1)
    ((List.Sublist.map _ List.filter_sublist).nodup hs.nodup)
  refine ⟨h1, fun h => ?_⟩
  unfold mergedHops
  rw [h2, mem_addHops ho hn]
  constructor
  · rintro ⟨h3, h4⟩
    rcases h3 with ⟨h3, h5⟩ | h3
    · by_cases hg : ∃ g ∈ new, g.uri = h.uri
      · obtain ⟨g, hg, hu⟩ := hg
        exact Or.inl ⟨h3, g, hg, hu, h5 g hg hu⟩
      · refine absurd rfl (h4 h ((mem_uriMinus _ _ _).2 ⟨(mem_addHops ho hn h).2 (Or.inl ⟨h3, h5⟩), ?_⟩))
        exact fun g hg' hu => hg ⟨g, hg', hu⟩
    · exact Or.inr h3
  · intro hh
    refine ⟨?_, ?_⟩
    · rcases hh with ⟨h3, g, hg, hu, hle⟩ | h3
      · refine Or.inl ⟨h3, fun g' hg' hu' => ?_⟩
        rw [hn.eq_of_uri hg' hg (hu'.trans hu.symm)]; exact hle
      · exact Or.inr h3
    · intro g hg he
      obtain ⟨-, h5⟩ := (mem_uriMinus _ _ _).1 hg
      rcases hh with ⟨-, g', hg', hu, -⟩ | ⟨h3, -⟩
      · exact h5 g' hg' (hu.trans he)
      · exact h5 h h3 he

end Fib
end Nlsr
