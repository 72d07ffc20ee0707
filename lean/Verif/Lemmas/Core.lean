import Verif.Model.Core
import Verif.Lemmas.NptOut
import Verif.Lemmas.LsdbView
/- How the name prefix table follows the LSDB. -/
namespace Nlsr
namespace Npt
open Lsdb (View VS VSs)

/-- Up to date in every respect. -/
structure Fresh (s : Npt) : Prop where
  inv : Inv s
  fault : s.fault = false
  nhl : NhlX s (fun _ => False)
  rtx : RtX s (fun _ => False)
  heard : Heard s

theorem Fresh.addEntry {s : Npt} (h : Fresh s) (name dest : Name) (fl : Nat) : Fresh (s.addEntry name dest fl) := by
  obtain ⟨h1, h2⟩ := addEntry_hops h.inv name dest fl h.nhl h.rtx
  exact ⟨(addEntry_spec h.inv name dest fl).1, (calm_addEntry s name dest fl).fault.trans h.fault,
    h1.mono (fun _ hc => hc.1), h2, h.heard.addEntry h.inv name dest fl⟩

theorem Fresh.removeEntry {s : Npt} (h : Fresh s) (name dest : Name) : Fresh (s.removeEntry name dest) := by
  obtain ⟨h1, h2⟩ := removeEntry_hops h.inv name dest h.nhl h.rtx
  exact ⟨(removeEntry_spec h.inv name dest).1, (calm_removeEntry s name dest).fault.trans h.fault, h1, h2,
    h.heard.removeEntry h.inv name dest⟩

theorem Fresh.setCost {s : Npt} (h : Fresh s) (k : Name × Name) (v : Ext Rat) : Fresh (s.setCost k v) :=
  ⟨(⟨rfl, rfl, rfl⟩ : Shape s (s.setCost k v)).inv h.inv, h.fault, h.nhl.same rfl rfl, h.rtx.same rfl rfl, h.heard.same rfl rfl⟩

theorem eraseCost_some {s : Npt} {k : Name × Name} {v : Ext Rat} (h : s.costOf k = some v) :
    s.eraseCost k = { s with costs := s.costs.filter (fun p => !(p.1 == k)) } := by
  unfold eraseCost; rw [h]

theorem Fresh.eraseCost {s : Npt} (h : Fresh s) {k : Name × Name} {v : Ext Rat} (hv : s.costOf k = some v) :
    Fresh (s.eraseCost k) := by
  have hs := (shape_eraseCost s k).inv h.inv
  rw [eraseCost_some hv] at hs ⊢
  exact ⟨hs, h.fault, h.nhl.same rfl rfl, h.rtx.same rfl rfl, h.heard.same rfl rfl⟩

theorem Fresh.routes {s : Npt} (h : Fresh s) (t : RTable) : Fresh (s.updateWithNewRoute t) := by
  obtain ⟨h1, h2, h3⟩ := updateWithNewRoute_spec h.inv h.nhl t
  exact ⟨h1.inv, h1.calm.fault.trans h.fault, h2, h3, h1.heard (h.heard.same rfl rfl)⟩

theorem has_setCost (s : Npt) (k : Name × Name) (v : Ext Rat) (p r : Name) : Has (s.setCost k v) p r ↔ Has s p r :=
  (⟨rfl, rfl, rfl⟩ : Shape s (s.setCost k v)).has p r

theorem advertise_own {own r : Name} {s : Npt} {q : PrefixInfo} (h : q.name = own) : advertise own r s q = s := by
  unfold advertise; rw [if_pos h]

theorem advertise_other {own r : Name} {s : Npt} {q : PrefixInfo} (h : q.name ≠ own) :
    advertise own r s q = (s.setCost (r, q.name) q.cost).addEntry q.name r childInherit := by
  unfold advertise; rw [if_neg h]

/-- Advertising a list of names. -/
theorem advertiseAll {own r : Name} : ∀ (l : List PrefixInfo) {s : Npt}, Fresh s →
    Fresh (l.foldl (advertise own r) s) ∧
    (∀ p d, Has (l.foldl (advertise own r) s) p d ↔ Has s p d ∨ (d = r ∧ p ≠ own ∧ ∃ q ∈ l, q.name = p)) ∧
    (∀ k v, (∀ q ∈ l, k ≠ (r, q.name)) → s.costOf k = some v → (l.foldl (advertise own r) s).costOf k = some v) ∧
    ((l.map (·.name)).Nodup → ∀ q ∈ l, q.name ≠ own → (l.foldl (advertise own r) s).costOf (r, q.name) = some q.cost) ∧
    (l.foldl (advertise own r) s).rt = s.rt := by
  intro l
  induction l with
  | nil =>
    intro s h
    exact ⟨h, fun p d => by simp, fun k v _ h => h, fun _ q hq => by simp at hq, rfl⟩
  | cons q l ih =>
    intro s h
    rw [List.foldl_cons]
    by_cases ho : q.name = own
    · rw [advertise_own ho]
      obtain ⟨i1, i2, i3, i4, i5⟩ := ih h
      refine ⟨i1, ?_, ?_, ?_, i5⟩
      · intro p d
        rw [i2]
        constructor
        · rintro (h1 | ⟨h1, h2, x, hx, hn⟩)
          · exact Or.inl h1
          · exact Or.inr ⟨h1, h2, x, by simp [hx], hn⟩
        · rintro (h1 | ⟨h1, h2, x, hx, hn⟩)
          · exact Or.inl h1
          · rcases List.mem_cons.1 hx with rfl | hx
            · exact absurd (hn.symm.trans ho) h2
            · exact Or.inr ⟨h1, h2, x, hx, hn⟩
      · intro k v hk
        exact i3 k v (fun x hx => hk x (by simp [hx]))
      · intro hnd x hx hxo
        rw [List.map_cons, List.nodup_cons] at hnd
        rcases List.mem_cons.1 hx with rfl | hx
        · exact absurd ho hxo
        · exact i4 hnd.2 x hx hxo
    · rw [advertise_other ho]
      have h1 := (h.setCost (r, q.name) q.cost).addEntry q.name r childInherit
      have hc := calm_addEntry (s.setCost (r, q.name) q.cost) q.name r childInherit
      have hh := (addEntry_spec (h.setCost (r, q.name) q.cost).inv q.name r childInherit).2
      have hrt : ((s.setCost (r, q.name) q.cost).addEntry q.name r childInherit).rt = s.rt := hc.rt
      generalize (s.setCost (r, q.name) q.cost).addEntry q.name r childInherit = s1 at h1 hc hh hrt
      obtain ⟨i1, i2, i3, i4, i5⟩ := ih h1
      refine ⟨i1, ?_, ?_, ?_, i5.trans hrt⟩
      · intro p d
        rw [i2, hh, has_setCost]
        constructor
        · rintro ((h2 | ⟨rfl, rfl⟩) | ⟨h2, h3, x, hx, hn⟩)
          · exact Or.inl h2
          · exact Or.inr ⟨rfl, ho, q, by simp, rfl⟩
          · exact Or.inr ⟨h2, h3, x, by simp [hx], hn⟩
        · rintro (h2 | ⟨h2, h3, x, hx, hn⟩)
          · exact Or.inl (Or.inl h2)
          · rcases List.mem_cons.1 hx with rfl | hx
            · exact Or.inl (Or.inr ⟨hn.symm, h2⟩)
            · exact Or.inr ⟨h2, h3, x, hx, hn⟩
      · intro k v hk hv
        refine i3 k v (fun x hx => hk x (by simp [hx])) (hc.costs k v ?_)
        rw [costOf_setCost, if_neg (hk q (by simp))]
        exact hv
      · intro hnd x hx hxo
        rw [List.map_cons, List.nodup_cons] at hnd
        rcases List.mem_cons.1 hx with rfl | hx
        · refine i3 _ _ ?_ (hc.costs _ _ (by rw [costOf_setCost, if_pos rfl]))
          intro y hy hc
          simp only [Prod.mk.injEq, true_and] at hc
          exact hnd.1 (List.mem_map.2 ⟨y, hy, hc.symm⟩)
        · exact i4 hnd.2 x hx hxo

theorem withdraw_own {own r n : Name} {s : Npt} (h : n = own) : withdraw own r s n = s := by
  unfold withdraw; rw [if_pos h]

theorem withdraw_other {own r n : Name} {s : Npt} (h : n ≠ own) :
    withdraw own r s n = (s.eraseCost (r, n)).removeEntry n r := by
  unfold withdraw; rw [if_neg h]

/-- Withdrawing a list of distinct names whose costs are recorded. -/
theorem withdrawAll {own r : Name} : ∀ (l : List Name) {s : Npt}, Fresh s → l.Nodup →
    (∀ n ∈ l, n ≠ own → ∃ v, s.costOf (r, n) = some v) →
    Fresh (l.foldl (withdraw own r) s) ∧
    (∀ p d, Has (l.foldl (withdraw own r) s) p d ↔ Has s p d ∧ ¬ (d = r ∧ p ≠ own ∧ p ∈ l)) ∧
    (∀ k v, (∀ n ∈ l, k ≠ (r, n)) → s.costOf k = some v → (l.foldl (withdraw own r) s).costOf k = some v) ∧
    (l.foldl (withdraw own r) s).rt = s.rt := by
  intro l
  induction l with
  | nil =>
    intro s h _ _
    exact ⟨h, fun p d => by simp, fun k v _ h => h, rfl⟩
  | cons n l ih =>
    intro s h hnd hcost
    rw [List.foldl_cons]
    rw [List.nodup_cons] at hnd
    by_cases ho : n = own
    · rw [withdraw_own ho]
      obtain ⟨i1, i2, i3, i4⟩ := ih h hnd.2 (fun m hm => hcost m (by simp [hm]))
      refine ⟨i1, ?_, fun k v hk => i3 k v (fun x hx => hk x (by simp [hx])), i4⟩
      intro p d
      rw [i2]
      constructor
      · rintro ⟨h1, h2⟩
        refine ⟨h1, ?_⟩
        rintro ⟨h3, h4, h5⟩
        rcases List.mem_cons.1 h5 with rfl | h5
        · exact h4 ho
        · exact h2 ⟨h3, h4, h5⟩
      · rintro ⟨h1, h2⟩
        exact ⟨h1, fun ⟨h3, h4, h5⟩ => h2 ⟨h3, h4, by simp [h5]⟩⟩
    · rw [withdraw_other ho]
      obtain ⟨v0, hv0⟩ := hcost n (by simp) ho
      have h0 := h.eraseCost hv0
      have hs : Shape s (s.eraseCost (r, n)) := shape_eraseCost s _
      have hk0 := costOf_eraseCost s (r, n)
      have h1 := h0.removeEntry n r
      have hc := calm_removeEntry (s.eraseCost (r, n)) n r
      have hh := (removeEntry_spec h0.inv n r).2
      have hrt : (s.eraseCost (r, n)).rt = s.rt := by unfold eraseCost; split <;> rfl
      generalize (s.eraseCost (r, n)).removeEntry n r = s1 at h1 hc hh
      have hkeep : ∀ k v, k ≠ (r, n) → s.costOf k = some v → s1.costOf k = some v := by
        intro k v hk hv
        refine hc.costs k v ?_
        rw [hk0, if_neg hk]; exact hv
      obtain ⟨i1, i2, i3, i4⟩ := ih h1 hnd.2 (by
        intro m hm hmo
        obtain ⟨v, hv⟩ := hcost m (by simp [hm]) hmo
        refine ⟨v, hkeep _ v ?_ hv⟩
        intro hc
        simp only [Prod.mk.injEq, true_and] at hc
        exact hnd.1 (hc ▸ hm))
      refine ⟨i1, ?_, ?_, (i4.trans hc.rt).trans hrt⟩
      · intro p d
        rw [i2, hh, hs.has]
        constructor
        · rintro ⟨⟨h2, h3⟩, h4⟩
          refine ⟨h2, ?_⟩
          rintro ⟨h5, h6, h7⟩
          rcases List.mem_cons.1 h7 with rfl | h7
          · exact h3 ⟨rfl, h5⟩
          · exact h4 ⟨h5, h6, h7⟩
        · rintro ⟨h2, h3⟩
          refine ⟨⟨h2, ?_⟩, fun ⟨h5, h6, h7⟩ => h3 ⟨h5, h6, by simp [h7]⟩⟩
          rintro ⟨rfl, h5⟩
          exact h3 ⟨h5, ho, by simp⟩
      · intro k v hk hv
        exact i3 k v (fun x hx => hk x (by simp [hx])) (hkeep k v (hk n (by simp)) hv)

/-- The cost with which `r` advertises `p` according to the stored contents. -/
def advOf (v : View) (r p : Name) : Option (Ext Rat) :=
  match v r .name with
  | some (.names m) => PrefixMap.get m p
  | _ => none

/-- The table follows the stored contents. -/
structure Follows (own : Name) (v : View) (n : Npt) : Prop where
  fresh : Fresh n
  foreign : ∀ p r, Has n p r → r ≠ own ∧ p ≠ own
  adv : ∀ p r, r ≠ own → p ≠ own → p ≠ r → (Has n p r ↔ (advOf v r p).isSome)
  self : ∀ r, Has n r r → ∃ t, (v r t).isSome
  cost : ∀ p r x, r ≠ own → p ≠ own → advOf v r p = some x → n.costOf (r, p) = some x

theorem advOf_set_other {v : View} {r : Name} {t : LsaType} {x : Option Content} {r' p : Name} (h : r' ≠ r ∨ t ≠ .name) :
    advOf (v.set r t x) r' p = advOf v r' p := by
  unfold advOf View.set
  rw [if_neg]
  rintro ⟨h1, h2⟩
  rcases h with h | h
  · exact h h1
  · exact h h2.symm

theorem advOf_set {v : View} {r p : Name} {m : PrefixMap} :
    advOf (v.set r .name (some (.names m))) r p = PrefixMap.get m p := by
  unfold advOf View.set
  rw [if_pos ⟨rfl, rfl⟩]

theorem advOf_set_none {v : View} {r p : Name} : advOf (v.set r .name none) r p = none := by
  unfold advOf View.set
  rw [if_pos ⟨rfl, rfl⟩]

theorem get_isSome {m : PrefixMap} {p : Name} : (PrefixMap.get m p).isSome ↔ ∃ q ∈ m, q.name = p := by
  constructor
  · intro h
    obtain ⟨c, hc⟩ := Option.isSome_iff_exists.1 h
    exact ⟨_, PrefixMap.get_some hc, rfl⟩
  · rintro ⟨q, hq, rfl⟩
    cases hg : PrefixMap.get m q.name with
    | some _ => rfl
    | none => exact absurd rfl (PrefixMap.get_none hg q hq)

theorem sorted_of_norm {m : PrefixMap} (h : (Content.names m).norm = .names m) : PrefixMap.Sorted m := by
  simp only [Content.norm, Content.names.injEq] at h
  rw [← h]; exact PrefixMap.ofList_sorted m

theorem sorted_nodup {m : List PrefixInfo} (h : m.Pairwise (fun a b => Name.lt a.name b.name = true)) :
    (m.map (·.name)).Nodup := by
  unfold List.Nodup
  rw [List.pairwise_map]
  refine h.imp ?_
  intro a b hab hc
  rw [hc] at hab
  exact absurd hab (by simp [Name.lt_irrefl])

/-- What the name prefix table does with one logged output of the LSDB. -/
def feed (own : Name) (n : Npt) : Out → Npt
  | .signal k l adds removes => updateFromLsdb own n k l adds removes
  | _ => n

theorem feed_quiet {own : Name} {outs : List Out} (h : ∀ o ∈ outs, Lsdb.Out.isSignal o = false) (n : Npt) :
    outs.foldl (feed own) n = n := by
  induction outs generalizing n with
  | nil => rfl
  | cons o os ih =>
    rw [List.foldl_cons]
    have h1 := h o (by simp)
    have : feed own n o = n := by
      cases o with
      | signal k l a r => cases h1
      | _ => rfl
    rw [this]
    exact ih (fun o ho => h o (by simp [ho])) n

/-- Changes at the router itself leave the relation alone. -/
theorem Follows.own {own : Name} {v : View} {n : Npt} (h : Follows own v n) (t : LsaType) (x : Option Content) :
    Follows own (v.set own t x) n := by
  refine ⟨h.fresh, h.foreign, ?_, ?_, ?_⟩
  · intro p r hr hp hpr
    rw [advOf_set_other (Or.inl hr)]; exact h.adv p r hr hp hpr
  · intro r hr
    obtain ⟨t', ht'⟩ := h.self r hr
    refine ⟨t', ?_⟩
    unfold View.set
    rw [if_neg (fun hc => (h.foreign r r hr).1 hc.1)]
    exact ht'
  · intro p r y hr hp
    rw [advOf_set_other (Or.inl hr)]; exact h.cost p r y hr hp

/-- The names of an LSA of another type. -/
theorem lsaNames_other {l : Lsa} (h : l.type ≠ .name) : lsaNames l = [] := by
  unfold lsaNames
  cases hc : l.content with
  | names m => exact absurd (by unfold Lsa.type; rw [hc]; rfl) h
  | _ => rfl

theorem lsaNames_name {l : Lsa} (h : l.type = .name) : l.content = .names (lsaNames l) := by
  unfold lsaNames
  unfold Lsa.type at h
  cases hc : l.content with
  | names m => rfl
  | adj a => rw [hc] at h; cases h
  | coord a b => rw [hc] at h; cases h

theorem Follows.installed {own : Name} {v : View} {n : Npt} (h : Follows own v n) (l : Lsa)
    (hv : v l.origin l.type = none) (hn : l.content.norm = l.content) :
    Follows own (v.set l.origin l.type (some l.content)) (updateFromLsdb own n .installed l [] []) := by
  by_cases ho : own = l.origin
  · have : updateFromLsdb own n .installed l [] [] = n := by unfold updateFromLsdb; rw [if_pos ho]
    rw [this, ← ho]; exact h.own _ _
  · have : updateFromLsdb own n .installed l [] [] =
        (lsaNames l).foldl (advertise own l.origin) (n.addEntry l.origin l.origin capture) := by
      unfold updateFromLsdb; rw [if_neg ho]
    rw [this]
    have h1 := h.fresh.addEntry l.origin l.origin capture
    have hc := calm_addEntry n l.origin l.origin capture
    have hh := (addEntry_spec h.fresh.inv l.origin l.origin capture).2
    generalize n.addEntry l.origin l.origin capture = n1 at h1 hc hh
    obtain ⟨i1, i2, i3, i4, -⟩ := advertiseAll (own := own) (r := l.origin) (lsaNames l) h1
    refine ⟨i1, ?_, ?_, ?_, ?_⟩
    · intro p r hpr
      rcases (i2 p r).1 hpr with h2 | ⟨rfl, h2, -⟩
      · rcases (hh p r).1 h2 with h3 | ⟨rfl, rfl⟩
        · exact h.foreign p r h3
        · exact ⟨Ne.symm ho, Ne.symm ho⟩
      · exact ⟨Ne.symm ho, h2⟩
    · intro p r hr hp hpr
      rw [i2, hh]
      by_cases hk : r = l.origin
      · subst hk
        have e1 : (Has n p l.origin ∨ p = l.origin ∧ l.origin = l.origin) ↔ Has n p l.origin :=
          or_iff_left (fun hc => hpr hc.1)
        rw [e1, h.adv p _ hr hp hpr]
        by_cases ht : l.type = .name
        · rw [ht] at hv ⊢
          rw [lsaNames_name ht, advOf_set, get_isSome]
          have : advOf v l.origin p = none := by unfold advOf; rw [hv]
          rw [this]
          simp [hp]
        · rw [advOf_set_other (Or.inr ht), lsaNames_other ht]
          simp
      · rw [advOf_set_other (Or.inl hk), ← h.adv p r hr hp hpr]
        constructor
        · rintro ((h2 | ⟨h2, h3⟩) | ⟨h2, h3⟩)
          · exact h2
          · exact absurd h3 hk
          · exact absurd h2 hk
        · exact fun h2 => Or.inl (Or.inl h2)
    · intro r hr
      by_cases hk : r = l.origin
      · refine ⟨l.type, ?_⟩
        unfold View.set
        rw [if_pos ⟨hk, rfl⟩]; rfl
      · have : Has n r r := by
          rcases (i2 r r).1 hr with h2 | ⟨h2, -⟩
          · rcases (hh r r).1 h2 with h3 | ⟨h3, -⟩
            · exact h3
            · exact absurd h3 hk
          · exact absurd h2 hk
        obtain ⟨t, ht⟩ := h.self r this
        refine ⟨t, ?_⟩
        unfold View.set
        rw [if_neg (fun hc => hk hc.1)]; exact ht
    · intro p r x hr hp hx
      by_cases hk : r = l.origin ∧ l.type = .name
      · obtain ⟨rfl, ht⟩ := hk
        rw [ht, lsaNames_name ht, advOf_set] at hx
        have hs : PrefixMap.Sorted (lsaNames l) := by
          rw [lsaNames_name ht] at hn; exact sorted_of_norm hn
        exact i4 (sorted_nodup hs) _ (PrefixMap.get_some hx) hp
      · rw [advOf_set_other (by
          by_cases h1 : r = l.origin
          · exact Or.inr (fun h2 => hk ⟨h1, h2⟩)
          · exact Or.inl h1)] at hx
        refine i3 _ _ ?_ (hc.costs _ _ (h.cost p r x hr hp hx))
        intro q hq hc
        simp only [Prod.mk.injEq] at hc
        refine hk ⟨hc.1, ?_⟩
        refine Classical.byContradiction fun ht => ?_
        rw [lsaNames_other ht] at hq
        simp at hq

theorem minus_sorted {a b : PrefixMap} (h : PrefixMap.Sorted a) : PrefixMap.Sorted (PrefixMap.minus a b) :=
  List.Pairwise.filter _ h

theorem mem_minus {a b : PrefixMap} {q : PrefixInfo} : q ∈ PrefixMap.minus a b ↔ q ∈ a ∧ ∀ x ∈ b, x.name ≠ q.name := by
  unfold PrefixMap.minus
  rw [List.mem_filter]
  simp

/-- The cost recorded for a name after an update of a Name LSA. -/
theorem get_updateNames {a b : PrefixMap} (ha : PrefixMap.Sorted a) (hb : PrefixMap.Sorted b) (p : Name) :
    ∃ m, (updateNames a b).content = .names m ∧
    ((∃ q ∈ PrefixMap.minus b a, q.name = p ∧ PrefixMap.get m p = some q.cost) ∨
     ((∃ q ∈ PrefixMap.minus a b, q.name = p) ∧ PrefixMap.get m p = none) ∨
     ((∀ q ∈ PrefixMap.minus b a, q.name ≠ p) ∧ (∀ q ∈ PrefixMap.minus a b, q.name ≠ p) ∧
       PrefixMap.get m p = PrefixMap.get a p)) := by
  refine ⟨_, rfl, ?_⟩
  rw [PrefixMap.get_foldl_erase]
  by_cases h1 : ∃ q ∈ PrefixMap.minus a b, q.name = p
  · rw [if_pos h1]
    exact Or.inr (Or.inl ⟨h1, rfl⟩)
  · rw [if_neg h1]
    by_cases h2 : ∃ q ∈ PrefixMap.minus b a, q.name = p
    · obtain ⟨q, hq, rfl⟩ := h2
      exact Or.inl ⟨q, hq, rfl, PrefixMap.get_foldl_insert_mem _ ha (minus_sorted hb) q hq⟩
    · refine Or.inr (Or.inr ⟨fun q hq hc => h2 ⟨q, hq, hc⟩, fun q hq hc => h1 ⟨q, hq, hc⟩, ?_⟩)
      exact PrefixMap.get_foldl_insert _ ha p (fun q hq hc => h2 ⟨q, hq, hc⟩)

theorem Follows.updated {own : Name} {v : View} {n : Npt} (h : Follows own v n) (l : Lsa) (old : Content)
    (hv : v l.origin l.type = some old) (ho : old.norm = old) (ht : old.type = l.type)
    (hn : l.content.norm = l.content) :
    Follows own (v.set l.origin l.type (some (old.update l.content).content))
      (updateFromLsdb own n .updated l (old.update l.content).adds (old.update l.content).removes) := by
  by_cases hown : own = l.origin
  · have : ∀ a r, updateFromLsdb own n .updated l a r = n := by intros; unfold updateFromLsdb; rw [if_pos hown]
    rw [this, ← hown]; exact h.own _ _
  by_cases htn : l.type = .name
  · have hl := lsaNames_name htn
    generalize lsaNames l = b at hl
    obtain ⟨a, rfl⟩ : ∃ a, old = .names a := by
      cases old with
      | names a => exact ⟨a, rfl⟩
      | adj _ => rw [htn] at ht; cases ht
      | coord _ _ => rw [htn] at ht; cases ht
    have hu : ∀ x y, updateFromLsdb own n .updated l x y =
        (y.map (·.name)).foldl (withdraw own l.origin) (x.foldl (advertise own l.origin) n) := by
      intros; unfold updateFromLsdb; rw [if_neg hown]; simp only [htn, if_true]
    rw [hl] at hn
    have hsa := sorted_of_norm ho
    have hsb := sorted_of_norm hn
    rw [hu, hl, htn]
    rw [htn] at hv
    show Follows own (v.set l.origin .name (some (updateNames a b).content))
      (((PrefixMap.minus a b).map (·.name)).foldl (withdraw own l.origin)
        ((PrefixMap.minus b a).foldl (advertise own l.origin) n))
    obtain ⟨i1, i2, i3, i4, -⟩ := advertiseAll (own := own) (r := l.origin) (PrefixMap.minus b a) h.fresh
    generalize (PrefixMap.minus b a).foldl (advertise own l.origin) n = n1 at i1 i2 i3 i4
    have hold : ∀ p, advOf v l.origin p = PrefixMap.get a p := by intro p; unfold advOf; rw [hv]
    have hsep : ∀ x ∈ PrefixMap.minus b a, ∀ y ∈ PrefixMap.minus a b, x.name ≠ y.name := by
      intro x hx y hy
      exact ((mem_minus.1 hx).2 y (mem_minus.1 hy).1).symm
    obtain ⟨j1, j2, j3, -⟩ := withdrawAll (own := own) (r := l.origin) ((PrefixMap.minus a b).map (·.name)) i1
      (sorted_nodup (minus_sorted hsa)) (by
        intro m hm hmo
        obtain ⟨y, hy, rfl⟩ := List.mem_map.1 hm
        refine ⟨y.cost, i3 _ _ ?_ (h.cost _ _ _ (Ne.symm hown) hmo ?_)⟩
        · intro x hx hc
          simp only [Prod.mk.injEq, true_and] at hc
          exact hsep x hx y hy hc.symm
        · rw [hold]; exact PrefixMap.get_mem hsa (mem_minus.1 hy).1)
    generalize ((PrefixMap.minus a b).map (·.name)).foldl (withdraw own l.origin) n1 = n2 at j1 j2 j3
    refine ⟨j1, ?_, ?_, ?_, ?_⟩
    · intro p r hpr
      rcases (i2 p r).1 ((j2 p r).1 hpr).1 with h2 | ⟨rfl, h2, -⟩
      · exact h.foreign p r h2
      · exact ⟨Ne.symm hown, h2⟩
    · intro p r hr hp hpr
      rw [j2, i2]
      by_cases hk : r = l.origin
      · subst hk
        obtain ⟨m, hm, hg⟩ := get_updateNames hsa hsb p
        rw [hm, advOf_set, h.adv p _ hr hp hpr, hold]
        rcases hg with ⟨q, hq, hqn, hg⟩ | ⟨⟨q, hq, hqn⟩, hg⟩ | ⟨h1, h2, hg⟩
        · rw [hg]
          simp only [Option.isSome_some, iff_true]
          refine ⟨Or.inr ⟨trivial, hp, q, hq, hqn⟩, ?_⟩
          rintro ⟨-, -, hc⟩
          obtain ⟨y, hy, hyn⟩ := List.mem_map.1 hc
          exact hsep q hq y hy (hqn.trans hyn.symm)
        · rw [hg]
          simp only [Option.isSome_none, Bool.false_eq_true, iff_false]
          exact fun hc => hc.2 ⟨trivial, hp, List.mem_map.2 ⟨q, hq, hqn⟩⟩
        · rw [hg]
          constructor
          · rintro ⟨h3 | ⟨-, -, q, hq, hqn⟩, -⟩
            · exact h3
            · exact absurd hqn (h1 q hq)
          · intro h3
            refine ⟨Or.inl h3, ?_⟩
            rintro ⟨-, -, hc⟩
            obtain ⟨y, hy, hyn⟩ := List.mem_map.1 hc
            exact h2 y hy hyn
      · rw [advOf_set_other (Or.inl hk), ← h.adv p r hr hp hpr]
        constructor
        · rintro ⟨h2 | ⟨h2, -⟩, -⟩
          · exact h2
          · exact absurd h2 hk
        · exact fun h2 => ⟨Or.inl h2, fun hc => hk hc.1⟩
    · intro r hr
      by_cases hk : r = l.origin
      · refine ⟨.name, ?_⟩
        unfold View.set
        rw [if_pos ⟨hk, rfl⟩]; rfl
      · have : Has n r r := by
          rcases (i2 r r).1 ((j2 r r).1 hr).1 with h2 | ⟨h2, -⟩
          · exact h2
          · exact absurd h2 hk
        obtain ⟨t, ht⟩ := h.self r this
        refine ⟨t, ?_⟩
        unfold View.set
        rw [if_neg (fun hc => hk hc.1)]; exact ht
    · intro p r x hr hp hx
      by_cases hk : r = l.origin
      · subst hk
        obtain ⟨m, hm, hg⟩ := get_updateNames hsa hsb p
        rw [hm, advOf_set] at hx
        rcases hg with ⟨q, hq, rfl, hg⟩ | ⟨-, hg⟩ | ⟨h1, h2, hg⟩
        · rw [hg] at hx
          refine j3 _ _ ?_ ?_
          · intro y hy hc
            simp only [Prod.mk.injEq, true_and] at hc
            obtain ⟨z, hz, rfl⟩ := List.mem_map.1 hy
            exact hsep q hq z hz hc
          · rw [← hx]; exact i4 (sorted_nodup (minus_sorted hsb)) q hq hp
        · rw [hg] at hx; cases hx
        · rw [hg] at hx
          refine j3 _ _ ?_ (i3 _ _ ?_ (h.cost p _ x hr hp (by rw [hold]; exact hx)))
          · intro y hy hc
            simp only [Prod.mk.injEq, true_and] at hc
            obtain ⟨z, hz, rfl⟩ := List.mem_map.1 hy
            exact h2 z hz hc.symm
          · intro q hq hc
            simp only [Prod.mk.injEq, true_and] at hc
            exact h1 q hq hc.symm
      · rw [advOf_set_other (Or.inl hk)] at hx
        refine j3 _ _ ?_ (i3 _ _ ?_ (h.cost p r x hr hp hx))
        · intro y _ hc
          simp only [Prod.mk.injEq] at hc
          exact hk hc.1
        · intro y _ hc
          simp only [Prod.mk.injEq] at hc
          exact hk hc.1
  · have : ∀ a r, updateFromLsdb own n .updated l a r = n := by
      intros; unfold updateFromLsdb; rw [if_neg hown]; simp only [htn, if_false]
    rw [this]
    refine ⟨h.fresh, h.foreign, ?_, ?_, ?_⟩
    · intro p r hr hp hpr
      rw [advOf_set_other (Or.inr htn)]; exact h.adv p r hr hp hpr
    · intro r hr
      obtain ⟨t', ht'⟩ := h.self r hr
      by_cases hk : r = l.origin ∧ t' = l.type
      · refine ⟨t', ?_⟩
        unfold View.set
        rw [if_pos hk]; rfl
      · refine ⟨t', ?_⟩
        unfold View.set
        rw [if_neg hk]; exact ht'
    · intro p r y hr hp
      rw [advOf_set_other (Or.inr htn)]; exact h.cost p r y hr hp

theorem Follows.removed {own : Name} {v : View} {n : Npt} (h : Follows own v n) (l : Lsa)
    (hv : v l.origin l.type = some l.content) (hn : l.content.norm = l.content) :
    Follows own (v.set l.origin l.type none) (updateFromLsdb own n .removed l [] []) := by
  by_cases hown : own = l.origin
  · have : updateFromLsdb own n .removed l [] [] = n := by unfold updateFromLsdb; rw [if_pos hown]
    rw [this, ← hown]; exact h.own _ _
  have hu : updateFromLsdb own n .removed l [] [] =
      ((lsaNames l).map (·.name)).foldl (withdraw own l.origin) (n.removeEntry l.origin l.origin) := by
    unfold updateFromLsdb; rw [if_neg hown]
  rw [hu]
  have hadv : l.type = .name → ∀ p, advOf v l.origin p = PrefixMap.get (lsaNames l) p := by
    intro ht p
    unfold advOf
    rw [ht, lsaNames_name ht] at hv
    rw [hv]
  have hsort : PrefixMap.Sorted (lsaNames l) := by
    by_cases ht : l.type = .name
    · rw [lsaNames_name ht] at hn; exact sorted_of_norm hn
    · rw [lsaNames_other ht]; exact List.Pairwise.nil
  have h1 := h.fresh.removeEntry l.origin l.origin
  have hc := calm_removeEntry n l.origin l.origin
  have hh := (removeEntry_spec h.fresh.inv l.origin l.origin).2
  generalize n.removeEntry l.origin l.origin = n1 at h1 hc hh
  obtain ⟨j1, j2, j3, -⟩ := withdrawAll (own := own) (r := l.origin) ((lsaNames l).map (·.name)) h1
    (sorted_nodup hsort) (by
      intro m hm hmo
      obtain ⟨y, hy, rfl⟩ := List.mem_map.1 hm
      have ht : l.type = .name := by
        refine Classical.byContradiction fun ht => ?_
        rw [lsaNames_other ht] at hy; simp at hy
      refine ⟨y.cost, hc.costs _ _ (h.cost _ _ _ (Ne.symm hown) hmo ?_)⟩
      rw [hadv ht]; exact PrefixMap.get_mem hsort hy)
  have hself : ¬ Has (((lsaNames l).map (·.name)).foldl (withdraw own l.origin) n1) l.origin l.origin := by
    intro hc
    exact ((hh _ _).1 ((j2 _ _).1 hc).1).2 ⟨rfl, rfl⟩
  generalize ((lsaNames l).map (·.name)).foldl (withdraw own l.origin) n1 = n2 at j1 j2 j3 hself
  refine ⟨j1, ?_, ?_, ?_, ?_⟩
  · intro p r hpr
    exact h.foreign p r ((hh p r).1 ((j2 p r).1 hpr).1).1
  · intro p r hr hp hpr
    rw [j2, hh]
    by_cases hk : r = l.origin
    · subst hk
      have e1 : (Has n p l.origin ∧ ¬ (p = l.origin ∧ l.origin = l.origin)) ↔ Has n p l.origin :=
        and_iff_left (fun hc => hpr hc.1)
      rw [e1, h.adv p _ hr hp hpr]
      by_cases ht : l.type = .name
      · rw [ht, advOf_set_none, hadv ht, get_isSome]
        simp only [Option.isSome_none, Bool.false_eq_true, iff_false]
        rintro ⟨⟨q, hq, hqn⟩, h2⟩
        exact h2 ⟨trivial, hp, List.mem_map.2 ⟨q, hq, hqn⟩⟩
      · rw [advOf_set_other (Or.inr ht), lsaNames_other ht]
        simp
    · rw [advOf_set_other (Or.inl hk), ← h.adv p r hr hp hpr]
      constructor
      · exact fun h2 => h2.1.1
      · exact fun h2 => ⟨⟨h2, fun hc => hk hc.2⟩, fun hc => hk hc.1⟩
  · intro r hr
    by_cases hk : r = l.origin
    · subst hk; exact absurd hr hself
    · obtain ⟨t, ht⟩ := h.self r ((hh r r).1 ((j2 r r).1 hr).1).1
      refine ⟨t, ?_⟩
      unfold View.set
      rw [if_neg (fun hc => hk hc.1)]; exact ht
  · intro p r x hr hp hx
    by_cases hk : r = l.origin ∧ l.type = .name
    · obtain ⟨rfl, ht⟩ := hk
      rw [ht, advOf_set_none] at hx; cases hx
    · rw [advOf_set_other (by
        by_cases h1 : r = l.origin
        · exact Or.inr (fun h2 => hk ⟨h1, h2⟩)
        · exact Or.inl h1)] at hx
      refine j3 _ _ ?_ (hc.costs _ _ (h.cost p r x hr hp hx))
      intro y hy hc
      simp only [Prod.mk.injEq] at hc
      refine hk ⟨hc.1, ?_⟩
      refine Classical.byContradiction fun ht => ?_
      rw [lsaNames_other ht] at hy
      simp at hy

theorem Follows.vs {own : Name} {v v' : View} {n : Npt} {outs : List Out} (h : Follows own v n) (t : VS v outs v') :
    Follows own v' (outs.foldl (feed own) n) := by
  cases t with
  | quiet _ hq => rw [feed_quiet hq]; exact h
  | installed l hv hn => exact h.installed l hv hn
  | updated l old hv ho ht hn hu => exact h.updated l old hv ho ht hn
  | removed l hv hn => exact h.removed l hv hn

theorem Follows.routes {own : Name} {v : View} {n : Npt} (h : Follows own v n) (t : RTable) :
    Follows own v (n.updateWithNewRoute t) := by
  have hk := (updateWithNewRoute_spec h.fresh.inv h.fresh.nhl t).1
  have hh : ∀ p r, Has (n.updateWithNewRoute t) p r ↔ Has n p r := fun p r =>
    (hk.has p r).trans ((⟨rfl, rfl, rfl⟩ : Shape n { n with rt := t }).has p r)
  refine ⟨h.fresh.routes t, ?_, ?_, ?_, ?_⟩
  · intro p r hpr; exact h.foreign p r ((hh p r).1 hpr)
  · intro p r hr hp hpr; rw [hh]; exact h.adv p r hr hp hpr
  · intro r hr; exact h.self r ((hh r r).1 hr)
  · intro p r x hr hp hx; exact hk.calm.costs _ _ (h.cost p r x hr hp hx)

end Npt
end Nlsr
