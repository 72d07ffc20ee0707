import Verif.Lemmas.NexthopList
/-
C01, C02: next-hop lists.
Statements speak only about the sequence of offers, URIs and costs.
-/
namespace Nlsr

/-- The list obtained by offering hops one after another to an empty `NexthopList`. -/
def offerAll (offers : List NextHop) : NexthopList := offers.foldl NexthopList.add []

/-- Specification: `h` is a cheapest offer for its face among `offers`. -/
def CheapestOffer (offers : List NextHop) (h : NextHop) : Prop :=
  h ∈ offers ∧ ∀ o ∈ offers, o.uri = h.uri → h.cost ≤ o.cost

private theorem offers_inv (lt) (hc : UriComp lt) (offers : List NextHop) :
    ∀ (l pre : List NextHop), UriNodup l → l.Pairwise (fun a b => lt a b = true) →
    (∀ h ∈ l, CheapestOffer pre h) → (∀ o ∈ pre, ∃ h ∈ l, h.uri = o.uri) →
    let r := offers.foldl (addNextHop lt) l
    UriNodup r ∧ r.Pairwise (fun a b => lt a b = true) ∧
    (∀ h ∈ r, CheapestOffer (pre ++ offers) h) ∧ (∀ o ∈ pre ++ offers, ∃ h ∈ r, h.uri = o.uri) := by
  induction offers with
  | nil => intro l pre h1 h2 h3 h4; simpa using ⟨h1, h2, h3, h4⟩
  | cons x xs ih =>
    intro l pre h1 h2 h3 h4
    have hm : ∀ a, a ∈ addNextHop lt l x ↔ _ := fun a => mem_addNextHop hc h1 (a := a)
    have := ih (addNextHop lt l x) (pre ++ [x]) (addNextHop_uriNodup hc h1 x)
      (addNextHop_sorted hc h2 x) ?_ ?_
    · simpa using this
    · intro h hh
      rcases (hm h).1 hh with ⟨h5, h6⟩ | ⟨rfl, h6⟩
      · refine ⟨List.mem_append_left _ (h3 h h5).1, fun o ho hu => ?_⟩
        rcases List.mem_append.1 ho with ho | ho
        · exact (h3 h h5).2 o ho hu
        · rw [List.mem_singleton.1 ho] at hu ⊢; exact h6 hu.symm
      · refine ⟨by simp, fun o ho hu => ?_⟩
        rcases List.mem_append.1 ho with ho | ho
        · obtain ⟨b, hb, hbu⟩ := h4 o ho
          have e1 : b.uri = h.uri := hbu.trans hu
          exact Rat.le_of_lt (Std.lt_of_lt_of_le (h6 b hb e1) ((h3 b hb).2 o ho hbu.symm))
        · rw [List.mem_singleton.1 ho]; exact Rat.le_refl
    · intro o ho
      rcases List.mem_append.1 ho with ho | ho
      · obtain ⟨b, hb, hbu⟩ := h4 o ho
        by_cases hx : b.uri = x.uri ∧ x.cost < b.cost
        · refine ⟨x, (hm x).2 (Or.inr ⟨rfl, fun c hc' hcu => ?_⟩), hx.1.symm.trans hbu⟩
          rw [h1.eq_of_uri hc' hb (hcu.trans hx.1.symm)]; exact hx.2
        · refine ⟨b, (hm b).2 (Or.inl ⟨hb, fun hu => ?_⟩), hbu⟩
          exact Rat.not_lt.1 (fun h => hx ⟨hu, h⟩)
      · rw [List.mem_singleton.1 ho]
        by_cases hx : ∃ b ∈ l, b.uri = x.uri ∧ b.cost ≤ x.cost
        · obtain ⟨b, hb, hbu, hbc⟩ := hx
          exact ⟨b, (hm b).2 (Or.inl ⟨hb, fun _ => hbc⟩), hbu⟩
        · refine ⟨x, (hm x).2 (Or.inr ⟨rfl, fun c hc' hcu => ?_⟩), rfl⟩
          exact Rat.not_le.1 (fun h => hx ⟨c, hc', hcu, h⟩)

private theorem offerAll_inv (offers : List NextHop) :
    UriNodup (offerAll offers) ∧ (offerAll offers).Pairwise (fun a b => NextHop.lt a b = true) ∧
    (∀ h ∈ offerAll offers, CheapestOffer offers h) ∧
    (∀ o ∈ offers, ∃ h ∈ offerAll offers, h.uri = o.uri) := by
  have := offers_inv NextHop.lt NextHop.lt_uriComp offers [] []
    (by simp [UriNodup]) (by simp) (by simp) (by simp)
  simpa [offerAll] using this

/-- **C01.** After any sequence of offers: every hop kept is a cheapest offer for its face, every
face offered has a hop, and no two hops kept share a face. -/
theorem C01_cheapest_per_face (offers : List NextHop) :
    (∀ h ∈ offerAll offers, CheapestOffer offers h) ∧
    (∀ o ∈ offers, ∃ h ∈ offerAll offers, h.uri = o.uri) ∧
    ((offerAll offers).map NextHop.uri).Nodup :=
  ⟨(offerAll_inv offers).2.2.1, (offerAll_inv offers).2.2.2, (offerAll_inv offers).1⟩

/-- **C01, order independence.** The face-to-cost content does not depend on the order of offers. -/
theorem C01_order_independent (offers offers' : List NextHop) (hp : offers.Perm offers')
    (u : Uri) (c : Rat) :
    (∃ h ∈ offerAll offers, h.uri = u ∧ h.cost = c) ↔
    (∃ h ∈ offerAll offers', h.uri = u ∧ h.cost = c) := by
  have key : ∀ {a b : List NextHop}, a.Perm b →
      (∃ h ∈ offerAll a, h.uri = u ∧ h.cost = c) → (∃ h ∈ offerAll b, h.uri = u ∧ h.cost = c) := by
    intro a b hab ⟨h, hh, hu, hc⟩
    have ha := C01_cheapest_per_face a
    have hb := C01_cheapest_per_face b
    have h1 := ha.1 h hh
    obtain ⟨k, hk, hku⟩ := hb.2.1 h (hab.mem_iff.1 h1.1)
    have h2 := hb.1 k hk
    refine ⟨k, hk, hku.trans hu, ?_⟩
    rw [← hc]
    exact Rat.le_antisymm (h2.2 h (hab.mem_iff.1 h1.1) hku.symm)
      (h1.2 k (hab.mem_iff.2 h2.1) hku)
  exact ⟨key hp, key hp.symm⟩

/-- Non-vacuity: three offers on two faces, given in two orders. -/
example :
    offerAll [⟨"udp4://10.0.0.1:6363", 21/2, false⟩, ⟨"udp4://10.0.0.2:6363", 10, false⟩,
      ⟨"udp4://10.0.0.1:6363", 7, false⟩]
      = [⟨"udp4://10.0.0.1:6363", 7, false⟩, ⟨"udp4://10.0.0.2:6363", 10, false⟩] := by
  decide +kernel

private theorem nhStep_inv (l : NexthopList) (op : NhOp)
    (h : UriNodup l ∧ l.Pairwise (fun a b => NextHop.lt a b = true)) :
    UriNodup (nhStep l op) ∧ (nhStep l op).Pairwise (fun a b => NextHop.lt a b = true) := by
  cases op with
  | add x => exact ⟨addNextHop_uriNodup NextHop.lt_uriComp h.1 x,
      addNextHop_sorted NextHop.lt_uriComp h.2 x⟩
  | remove x =>
    exact ⟨(List.Sublist.map _ List.eraseP_sublist).nodup h.1, h.2.sublist List.eraseP_sublist⟩
  | clear => simp [nhStep, UriNodup]

/-- **C02.** For every history of adds, removes and clears, iteration is in strictly increasing
(adjusted integer cost, URI) order, so for every `k` no hop left out of the first `k` has a smaller
adjusted cost than a hop kept; and no face occurs twice. -/
theorem C02_cheapest_first (ops : List NhOp) (k : Nat) :
    let l := ops.foldl nhStep []
    l.Pairwise (fun a b => a.adj < b.adj ∨ (a.adj = b.adj ∧ a.uri < b.uri)) ∧
    (∀ kept ∈ l.take k, ∀ left ∈ l.drop k, kept.adj ≤ left.adj) ∧
    (l.map NextHop.uri).Nodup := by
  have inv : ∀ (ops : List NhOp) (l : NexthopList),
      (UriNodup l ∧ l.Pairwise (fun a b => NextHop.lt a b = true)) →
      UriNodup (ops.foldl nhStep l) ∧
        (ops.foldl nhStep l).Pairwise (fun a b => NextHop.lt a b = true) := by
    intro ops
    induction ops with
    | nil => intro l h; exact h
    | cons op ops ih => intro l h; exact ih _ (nhStep_inv l op h)
  have h := inv ops [] (by simp [UriNodup])
  have hp : (ops.foldl nhStep []).Pairwise
      (fun a b : NextHop => a.adj < b.adj ∨ (a.adj = b.adj ∧ a.uri < b.uri)) :=
    h.2.imp (fun {a b} hab => by simpa [NextHop.lt] using hab)
  refine ⟨hp, ?_, h.1⟩
  intro a ha b hb
  have h3 := hp
  rw [← List.take_append_drop k (ops.foldl nhStep [])] at h3
  rcases (List.pairwise_append.1 h3).2.2 a ha b hb with h4 | ⟨h4, -⟩ <;> omega

/-- For link-state hops with integral cost the order is by the exact cost. -/
theorem C02_cheapest_first_exact (ops : List NhOp) (k : Nat)
    (hint : ∀ h ∈ ops.foldl nhStep [], h.hyp = false ∧ ∃ n : Int, h.cost = (n : Rat)) :
    ∀ kept ∈ (ops.foldl nhStep []).take k, ∀ left ∈ (ops.foldl nhStep []).drop k,
      kept.cost ≤ left.cost := by
  intro a ha b hb
  have h := (C02_cheapest_first ops k).2.1 a ha b hb
  obtain ⟨ha1, n, ha2⟩ := hint a (List.mem_of_mem_take ha)
  obtain ⟨hb1, m, hb2⟩ := hint b (List.mem_of_mem_drop hb)
  simp only [NextHop.adj, ha1, hb1, ha2, hb2, Rat.floor_intCast, Bool.false_eq_true,
    if_false] at h
  rw [ha2, hb2]
  exact Rat.intCast_le_intCast.2 h

/-- **C02.** A removal takes away the hop with that face and adjusted cost and nothing else, whatever the history. -/
theorem C02_remove (ops : List NhOp) (x y : NextHop) :
    y ∈ nhStep (ops.foldl nhStep []) (.remove x) ↔ y ∈ ops.foldl nhStep [] ∧ ¬ (y.uri = x.uri ∧ y.adj = x.adj) := by
  have hn := (C02_cheapest_first ops 0).2.2
  generalize ops.foldl nhStep [] = l at hn ⊢
  show y ∈ l.eraseP (fun item => item.eqv x) ↔ _
  have he : ∀ z : NextHop, z.eqv x = true ↔ z.uri = x.uri ∧ z.adj = x.adj := by
    intro z
    simp only [NextHop.eqv, Bool.and_eq_true, beq_iff_eq]
    exact And.comm
  induction l with
  | nil => simp
  | cons z zs ih =>
    rw [List.map_cons, List.nodup_cons] at hn
    by_cases hz : z.eqv x = true
    · rw [List.eraseP_cons_of_pos (p := fun item => NextHop.eqv item x) hz, List.mem_cons]
      constructor
      · intro h
        refine ⟨Or.inr h, fun hyx => hn.1 ?_⟩
        rw [((he z).1 hz).1, ← hyx.1]
        exact List.mem_map_of_mem h
      · rintro ⟨rfl | h, h2⟩
        · exact absurd ((he _).1 hz) h2
        · exact h
    · rw [List.eraseP_cons_of_neg (p := fun item => NextHop.eqv item x) hz, List.mem_cons, List.mem_cons]
      have ih' := ih hn.2
      constructor
      · rintro (rfl | h)
        · exact ⟨Or.inl rfl, fun h => hz ((he _).2 h)⟩
        · exact ⟨Or.inr (ih'.1 h).1, (ih'.1 h).2⟩
      · rintro ⟨rfl | h, h2⟩
        · exact Or.inl rfl
        · exact Or.inr (ih'.2 ⟨h, h2⟩)

/-- Non-vacuity: a history with replacement and removal. -/
example :
    [NhOp.add ⟨"b", 20, false⟩, .add ⟨"a", 20, false⟩, .add ⟨"c", 5, false⟩,
      .add ⟨"b", 3, false⟩, .remove ⟨"c", 5, false⟩].foldl nhStep []
      = [⟨"b", 3, false⟩, ⟨"a", 20, false⟩] := by decide +kernel

end Nlsr
