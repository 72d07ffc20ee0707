import Verif.Model.RoutingTable
import Verif.Props.NexthopList
/-
C13: one routing-table entry per destination.
-/
namespace Nlsr
open RTable

/-- Hops added for destination `d`, in order. -/
def hopsFor (adds : List (Name × NextHop)) (d : Name) : List NextHop :=
  (adds.filter (fun p => p.1 == d)).map (·.2)

theorem RTable.updateFirst_dests (t : RTable) (d nh) :
    (updateFirst t d nh).map (·.dest) = t.map (·.dest) := by
  induction t with
  | nil => rfl
  | cons e es ih => simp only [updateFirst]; split <;> simp [ih]

theorem RTable.mem_updateFirst {t : RTable} (hn : (t.map (·.dest)).Nodup) (d nh) (e : RtEntry) :
    e ∈ updateFirst t d nh ↔
      (e ∈ t ∧ e.dest ≠ d) ∨ ∃ e' ∈ t, e'.dest = d ∧ e = { e' with hops := e'.hops.add nh } := by
  induction t with
  | nil => simp [updateFirst]
  | cons x xs ih =>
    simp only [List.map_cons, List.nodup_cons] at hn
    simp only [updateFirst]
    by_cases hx : x.dest = d
    · have hxs : ∀ y ∈ xs, y.dest ≠ d := by
        intro y hy h; exact hn.1 (by rw [hx, ← h]; exact List.mem_map_of_mem hy)
      simp only [hx, beq_self_eq_true, if_true, List.mem_cons]
      constructor
      · rintro (rfl | h)
        · exact Or.inr ⟨x, by simp, hx, by simp [hx]⟩
        · exact Or.inl ⟨Or.inr h, hxs e h⟩
      · rintro (⟨rfl | h, h2⟩ | ⟨e', rfl | h, h2, h3⟩)
        · exact absurd hx h2
        · exact Or.inr h
        · exact Or.inl (by simp [h3, hx])
        · exact absurd h2 (hxs _ h)
    · have hb : (x.dest == d) = false := by simpa using hx
      simp only [hb, Bool.false_eq_true, if_false, List.mem_cons, ih hn.2]
      constructor
      · rintro (rfl | ⟨h, h2⟩ | ⟨e', h, h2⟩)
        · exact Or.inl ⟨Or.inl rfl, hx⟩
        · exact Or.inl ⟨Or.inr h, h2⟩
        · exact Or.inr ⟨e', Or.inr h, h2⟩
      · rintro (⟨rfl | h, h2⟩ | ⟨e', rfl | h, h2, h3⟩)
        · exact Or.inl rfl
        · exact Or.inr (Or.inl ⟨h, h2⟩)
        · exact absurd h2 hx
        · exact Or.inr (Or.inr ⟨e', h, h2, h3⟩)

theorem RTable.find_none {t : RTable} {d : Name} : find t d = none ↔ ∀ e ∈ t, e.dest ≠ d := by
  simp [find, List.find?_eq_none]

/-- The table is the one the additions `adds` should give. -/
def RtInv (t : RTable) (adds : List (Name × NextHop)) : Prop :=
  (t.map (·.dest)).Nodup ∧
  ∀ e, e ∈ t ↔ (∃ p ∈ adds, p.1 = e.dest) ∧ e.hops = offerAll (hopsFor adds e.dest)

theorem hopsFor_append (adds p d) : hopsFor (adds ++ [p]) d =
    hopsFor adds d ++ (if p.1 = d then [p.2] else []) := by
  unfold hopsFor
  by_cases h : p.1 = d <;> simp [List.filter_append, h]

theorem offerAll_snoc (l x) : offerAll (l ++ [x]) = (offerAll l).add x := by
  simp [offerAll]

theorem hopsFor_nil_of {adds : List (Name × NextHop)} {d} (h : ¬ ∃ p ∈ adds, p.1 = d) :
    hopsFor adds d = [] := by
  simp only [hopsFor, List.map_eq_nil_iff, List.filter_eq_nil_iff]
  intro p hp hq; exact h ⟨p, hp, by simpa using hq⟩

theorem RtInv.add {t adds} (h : RtInv t adds) (p : Name × NextHop) :
    RtInv (RTable.addNextHop t p.1 p.2) (adds ++ [p]) := by
  obtain ⟨hn, hm⟩ := h
  unfold RTable.addNextHop
  cases hf : find t p.1 with
  | none =>
    have hf' := find_none.1 hf
    have hnot : ¬ ∃ q ∈ adds, q.1 = p.1 := by
      intro hq
      exact hf' ⟨p.1, offerAll (hopsFor adds p.1)⟩ ((hm _).2 ⟨hq, rfl⟩) rfl
    refine ⟨?_, fun e => ?_⟩
    · simp only [List.map_append, List.map_cons, List.map_nil, List.nodup_append]
      refine ⟨hn, by simp, ?_⟩
      intro a ha b hb
      simp at hb; subst hb
      obtain ⟨e, he, rfl⟩ := List.mem_map.1 ha
      exact hf' e he
    · simp only [List.mem_append, List.mem_singleton, hopsFor_append]
      constructor
      · rintro (he | rfl)
        · obtain ⟨⟨q, hq, hqd⟩, hh⟩ := (hm e).1 he
          have : p.1 ≠ e.dest := (hf' e he).symm
          exact ⟨⟨q, Or.inl hq, hqd⟩, by simp [this, hh]⟩
        · exact ⟨⟨p, Or.inr rfl, rfl⟩, by simp [hopsFor_nil_of hnot, offerAll]⟩
      · rintro ⟨⟨q, hq | rfl, hqd⟩, hh⟩
        · left
          have : p.1 ≠ e.dest := by intro h; exact hnot ⟨q, hq, hqd.trans h.symm⟩
          simp only [this, if_false, List.append_nil] at hh
          exact (hm e).2 ⟨⟨q, hq, hqd⟩, hh⟩
        · right
          cases e with
          | mk d hops =>
            simp only at hqd hh
            subst hqd
            simp only [if_true, hopsFor_nil_of hnot, List.nil_append] at hh
            simp [hh, offerAll]
  | some e0 =>
    have he0 : e0 ∈ t := List.mem_of_find?_eq_some hf
    have hd0 : e0.dest = p.1 := by simpa using List.find?_some hf
    refine ⟨by simpa [updateFirst_dests] using hn, fun e => ?_⟩
    simp only [mem_updateFirst hn, List.mem_append, List.mem_singleton, hopsFor_append]
    constructor
    · rintro (⟨he, hne⟩ | ⟨e', he', hd', rfl⟩)
      · obtain ⟨⟨q, hq, hqd⟩, hh⟩ := (hm e).1 he
        exact ⟨⟨q, Or.inl hq, hqd⟩, by simp [Ne.symm hne, hh]⟩
      · obtain ⟨⟨q, hq, hqd⟩, hh⟩ := (hm e').1 he'
        refine ⟨⟨q, Or.inl hq, hqd⟩, ?_⟩
        simp only [hd', if_true, offerAll_snoc]
        rw [hh, hd']
    · rintro ⟨hex, hh⟩
      by_cases hd : p.1 = e.dest
      · right
        refine ⟨e0, he0, hd0, ?_⟩
        have := ((hm e0).1 he0).2
        simp only [hd, if_true, offerAll_snoc] at hh
        cases e with
        | mk d hops =>
          cases e0 with
          | mk d0 hops0 =>
            simp only at *
            subst hd0; subst hd
            rw [hh, this]
      · left
        simp only [hd, if_false, List.append_nil] at hh
        refine ⟨(hm e).2 ⟨?_, hh⟩, Ne.symm hd⟩
        obtain ⟨q, hq | rfl, hqd⟩ := hex
        · exact ⟨q, hq, hqd⟩
        · exact absurd hqd hd

theorem build_inv (adds : List (Name × NextHop)) : RtInv (build adds) adds := by
  suffices ∀ (l : List (Name × NextHop)) t pre, RtInv t pre →
      RtInv (l.foldl (fun t p => RTable.addNextHop t p.1 p.2) t) (pre ++ l) by
    simpa [build] using this adds [] [] ⟨by simp, by simp⟩
  intro l
  induction l with
  | nil => intro t pre h; simpa using h
  | cons x xs ih => intro t pre h; simpa using ih _ _ (h.add x)

/-- **C13.** After any sequence of additions to a cleared table: no two entries share a destination;
the destinations are exactly those added; and the hops of an entry are, face by face, cheapest
among those added for that destination, one per face, each face added present. -/
theorem C13_one_entry_per_destination (adds : List (Name × NextHop)) :
    ((build adds).map (·.dest)).Nodup ∧
    (∀ d, (∃ e ∈ build adds, e.dest = d) ↔ ∃ p ∈ adds, p.1 = d) ∧
    (∀ e ∈ build adds, (e.hops.map NextHop.uri).Nodup ∧
      (∀ h ∈ e.hops, (e.dest, h) ∈ adds ∧
        ∀ o, (e.dest, o) ∈ adds → o.uri = h.uri → h.cost ≤ o.cost) ∧
      (∀ o, (e.dest, o) ∈ adds → ∃ h ∈ e.hops, h.uri = o.uri)) := by
  obtain ⟨hn, hm⟩ := build_inv adds
  have hmem : ∀ d o, o ∈ hopsFor adds d ↔ (d, o) ∈ adds := by
    intro d o
    simp only [hopsFor, List.mem_map, List.mem_filter, beq_iff_eq]
    constructor
    · rintro ⟨⟨a, b⟩, ⟨h1, h2⟩, h3⟩; simp only at h2 h3; subst h2; subst h3; exact h1
    · intro h; exact ⟨(d, o), ⟨h, rfl⟩, rfl⟩
  refine ⟨hn, fun d => ⟨?_, ?_⟩, fun e he => ?_⟩
  · rintro ⟨e, he, rfl⟩; exact ((hm e).1 he).1
  · intro h; exact ⟨⟨d, offerAll (hopsFor adds d)⟩, (hm _).2 ⟨h, rfl⟩, rfl⟩
  · obtain ⟨-, hh⟩ := (hm e).1 he
    obtain ⟨c1, c2, c3⟩ := C01_cheapest_per_face (hopsFor adds e.dest)
    rw [← hh] at c1 c2 c3
    refine ⟨c3, fun h hx => ?_, fun o ho => c2 o ((hmem _ _).2 ho)⟩
    obtain ⟨h1, h2⟩ := c1 h hx
    exact ⟨(hmem _ _).1 h1, fun o ho hu => h2 o ((hmem _ _).2 ho) hu⟩

example : (build [(nm ["x"], ⟨"f1", 5, false⟩), (nm ["y"], ⟨"f1", 7, false⟩), (nm ["x"], ⟨"f1", 3, false⟩),
    (nm ["x"], ⟨"f2", 9, false⟩)]) =
    [⟨nm ["x"], [⟨"f1", 3, false⟩, ⟨"f2", 9, false⟩]⟩, ⟨nm ["y"], [⟨"f1", 7, false⟩]⟩] := by
  decide +kernel

end Nlsr
