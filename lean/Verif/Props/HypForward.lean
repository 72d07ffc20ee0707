import Verif.Props.Hyperbolic
import Verif.Props.Converged
/-
C108: forwarding in a network that has converged with hyperbolic routing.  Every router holds the same
Coordinate LSAs (in an order of its own), has computed its routes from them and from its own list of
neighbours, and sends packets for a destination to the first next hop of its entry.
-/
namespace Nlsr
open HR

/-! ### Specification -/

section
variable {ι : Type}

/-- Router `i` is at distance `q` from router `d`, by the coordinates `co` that the routers advertise: a router is
at distance 0 from itself, and from another one at the distance that is defined for their coordinates. -/
def Away (T : Trig) (co : ι → Option (Ext Rat × List (Ext Rat))) (i d : ι) (q : Rat) : Prop :=
  (i = d ∧ q = 0) ∨
  (i ≠ d ∧ ∃ p p', co i = some p ∧ co d = some p' ∧ DefinedDistance T ⟨[], p.1, p.2⟩ ⟨[], p'.1, p'.2⟩ (.fin q))

/-- A distance in thousandths, rounded to a whole number: what next hops are compared by. -/
def thousandths (q : Rat) : Int := (q * 1000 + 1/2).floor

/-- `a` is in the list and stands for router `j`, and routes may go through it. -/
def Near (name : ι → Name) (adjs : AdjacencyList) (j : ι) (a : Adjacent) : Prop :=
  a ∈ adjs ∧ a.status ≠ .inactive ∧ a.name = name j

/-- The routing tables of a network in which every router has computed its routes from the same Coordinate
LSAs.  The routers are called `name i`; `co i` are the coordinates that router `i` advertises, if it does, and
`adjs i` is its neighbour list. -/
structure HConverged (T : Trig) (name : ι → Name) (co : ι → Option (Ext Rat × List (Ext Rat)))
    (adjs : ι → AdjacencyList) (t : ι → RTable) : Prop where
  distinct : ∀ i j, name i = name j → i = j
  /-- the distances are numbers, and not negative -/
  finite : ∀ i j p p' c, co i = some p → co j = some p' → DefinedDistance T ⟨[], p.1, p.2⟩ ⟨[], p'.1, p'.2⟩ c →
    ∃ q : Rat, c = .fin q ∧ 0 ≤ q
  computed : ∀ i, ∃ lsas os adds, (lsas.map (·.origin)).Nodup ∧
    (∀ x, x ∈ lsas ↔ ∃ j, x.origin = name j ∧ co j = some (x.radius, x.angles)) ∧
    calculate T (name i) (adjs i) lsas = some os ∧
    os.mapM (fun o : Offer => o.hop.map (fun h => (o.dest, h))) = some adds ∧ t i = RTable.build adds
  /-- a router reaches different neighbours through different faces -/
  faces : ∀ i, ∀ a ∈ adjs i, ∀ b ∈ adjs i, a.uri = b.uri → a.name = b.name

/-- Router `i` hands a packet for router `d` to router `j`: the entry's first next hop is the face of `j`. -/
def HHop (name : ι → Name) (adjs : ι → AdjacencyList) (t : ι → RTable) (d i j : ι) : Prop :=
  ∃ e ∈ t i, e.dest = name d ∧ ∃ h, e.hops.head? = some h ∧ ∃ a, Near name (adjs i) j a ∧ h.uri = a.uri

/-- A packet for `d` at `i` visits the routers `js` and stops at `d`. -/
inductive HDelivered (name : ι → Name) (adjs : ι → AdjacencyList) (t : ι → RTable) (d : ι) : ι → List ι → Prop
  | here : HDelivered name adjs t d d []
  | hop {i j : ι} {js : List ι} : i ≠ d → HHop name adjs t d i j → HDelivered name adjs t d j js →
      HDelivered name adjs t d i (j :: js)
end

/-! ### Lemmas -/

theorem mapM_some_mem {α β : Type} {f : α → Option β} {l : List α} {out : List β} (h : l.mapM f = some out) :
    ∀ y, y ∈ out ↔ ∃ x ∈ l, f x = some y := by
  induction l generalizing out with
  | nil =>
    rw [List.mapM_nil] at h
    cases h
    simp
  | cons x xs ih =>
    rw [List.mapM_cons] at h
    cases hx : f x with
    | none => rw [hx] at h; cases h
    | some b =>
      cases hr : xs.mapM f with
      | none => rw [hx, hr] at h; cases h
      | some bs =>
        rw [hx, hr] at h
        cases h
        intro y
        rw [List.mem_cons, ih hr]
        constructor
        · rintro (rfl | ⟨z, hz, hy⟩)
          · exact ⟨x, List.mem_cons_self, hx⟩
          · exact ⟨z, List.mem_cons_of_mem _ hz, hy⟩
        · rintro ⟨z, hz, hy⟩
          rcases List.mem_cons.1 hz with rfl | hz
          · rw [hx] at hy; injection hy with hy; exact Or.inl hy.symm
          · exact Or.inr ⟨z, hz, hy⟩

theorem thousandths_nonneg {q : Rat} (h : 0 ≤ q) : 0 ≤ thousandths q := by
  unfold thousandths
  rw [Rat.le_floor_iff]
  have : (0:Rat) ≤ q * 1000 := Rat.mul_nonneg h (by decide +kernel)
  grind

section
variable {ι : Type} {T : Trig} {name : ι → Name} {co : ι → Option (Ext Rat × List (Ext Rat))} {adjs : ι → AdjacencyList}
  {t : ι → RTable}

theorem Away.unique {n d : ι} {q q' : Rat} (h : Away T co n d q) (h' : Away T co n d q') : q = q' := by
  rcases h with ⟨e, rfl⟩ | ⟨e, s, t, hs, ht, hd⟩ <;> rcases h' with ⟨e', rfl⟩ | ⟨e', s', t', hs', ht', hd'⟩
  · rfl
  · exact absurd e e'
  · exact absurd e' e
  · rw [hs] at hs'
    cases hs'
    rw [ht] at ht'
    cases ht'
    have := hd.2.2.2.2.2.1.trans hd'.2.2.2.2.2.1.symm
    injection this

theorem Away.nonneg (hc : HConverged T name co adjs t) {n d : ι} {q : Rat} (h : Away T co n d q) : 0 ≤ q := by
  rcases h with ⟨-, rfl⟩ | ⟨-, s, u, hs, hu, hd⟩
  · exact Rat.le_refl
  · obtain ⟨q', e, h⟩ := hc.finite _ _ s u _ hs hu hd
    injection e with e
    rw [e]; exact h

theorem Away.known {i d : ι} {q : Rat} (h : Away T co i d q) (hne : i ≠ d) : co i ≠ none := by
  rcases h with ⟨e, -⟩ | ⟨-, p, p', h, -⟩
  · exact absurd e hne
  · rw [h]; nofun

/-- What the additions of router `i` for router `d` are. -/
theorem HConverged.adds (hc : HConverged T name co adjs t) (i : ι) : ∃ adds, t i = RTable.build adds ∧
    ∀ d h, (name d, h) ∈ adds ↔ d ≠ i ∧ h.hyp = true ∧ ∃ j a, Near name (adjs i) j a ∧ j ≠ i ∧ h.uri = a.uri ∧
      Away T co j d h.cost ∧ (j = d ∨ co i ≠ none) := by
  obtain ⟨lsas, os, adds, hn, hmem, h1, h2, h3⟩ := hc.computed i
  refine ⟨adds, h3, fun d h => ?_⟩
  have hoff := C11_offers T (name i) (adjs i) lsas hn os h1
  rw [mapM_some_mem h2]
  constructor
  · rintro ⟨⟨d', u, c⟩, ho, hh⟩
    obtain ⟨a, ha, rfl, hact, hself, hrest⟩ := (hoff d' u c).1 ho
    cases c with
    | nan => cases hh
    | pinf => cases hh
    | ninf => cases hh
    | fin q =>
      cases hh
      rcases hrest with ⟨e, ec⟩ | ⟨⟨l, hl, hlo⟩, hd, hda, s, hs, u, hu, so, uo, hdd⟩
      · cases ec
        refine ⟨fun h => hself (by rw [← e, h]), rfl, d, a, ⟨ha, hact, e.symm⟩, fun h => hself (by rw [← e, h]), rfl, Or.inl ⟨rfl, rfl⟩,
          Or.inl rfl⟩
      · obtain ⟨j, hj, hjc⟩ := (hmem s).1 hs
        obtain ⟨d', hd', hdc⟩ := (hmem u).1 hu
        have : d' = d := hc.distinct _ _ (hd'.symm.trans uo)
        subst this
        obtain ⟨i', hi', hic⟩ := (hmem l).1 hl
        have : i' = i := hc.distinct _ _ (hi'.symm.trans hlo)
        subst this
        have hn : a.name = name j := so.symm.trans hj
        refine ⟨fun h => hd (by rw [h]), rfl, j, a, ⟨ha, hact, hn⟩, fun h => hself (by rw [hn, h]), rfl,
          Or.inr ⟨fun h => hda (by rw [hn, h]), _, _, hjc, hdc, hdd⟩, Or.inr (by rw [hic]; nofun)⟩
  · rintro ⟨hdr, hh, j, a, ⟨ha, hact, hn⟩, hji, hu, haw, hk⟩
    have hself : a.name ≠ name i := fun e => hji (hc.distinct _ _ (hn.symm.trans e))
    refine ⟨⟨name d, a.uri, .fin h.cost⟩, (hoff _ a.uri _).2 ⟨a, ha, rfl, hact, hself, ?_⟩, ?_⟩
    · rcases haw with ⟨e, h0⟩ | ⟨e, p, p', hp, hp', hdd⟩
      · exact Or.inl ⟨by rw [hn, e], by rw [h0]⟩
      · rcases hk with hk | hk
        · exact absurd hk e
        · obtain ⟨r, hr⟩ := Option.ne_none_iff_exists'.1 hk
          exact Or.inr ⟨⟨⟨name i, r.1, r.2⟩, (hmem _).2 ⟨i, rfl, hr⟩, rfl⟩, fun e => hdr (hc.distinct _ _ e),
            fun e' => e (hc.distinct _ _ (hn.symm.trans e'.symm)),
            ⟨name j, p.1, p.2⟩, (hmem _).2 ⟨j, rfl, hp⟩, ⟨name d, p'.1, p'.2⟩, (hmem _).2 ⟨d, rfl, hp'⟩, hn.symm, rfl, hdd⟩
    · cases h with
      | mk u c y =>
        simp only at hh hu
        subst hh; subst hu
        rfl

/-- C108, the first next hop: the entry of a router for another router `d` leads to a neighbour that is not down and
whose distance to `d` is defined; no neighbour that is not down and has a defined distance to `d` is closer, in
thousandths; the cost is that distance.  There is an entry if there is such a neighbour, and only then.  (A router
that advertises no coordinates has entries for its neighbours only.) -/
theorem C108_closest (hc : HConverged T name co adjs t) (i d : ι) :
    (∀ e ∈ t i, e.dest = name d → d ≠ i ∧ ∃ h j a, e.hops.head? = some h ∧ Near name (adjs i) j a ∧ j ≠ i ∧ h.uri = a.uri ∧
      Away T co j d h.cost ∧
      ∀ j' b q, Near name (adjs i) j' b → j' ≠ i → (j' = d ∨ co i ≠ none) → Away T co j' d q →
        thousandths h.cost ≤ thousandths q) ∧
    ((∃ e ∈ t i, e.dest = name d) ↔ d ≠ i ∧ ∃ j b q, Near name (adjs i) j b ∧ j ≠ i ∧ Away T co j d q ∧
      (j = d ∨ co i ≠ none)) := by
  obtain ⟨adds, ht, hadds⟩ := hc.adds i
  obtain ⟨c1, c2, c3⟩ := C13_one_entry_per_destination adds
  have hinv := build_inv adds
  rw [ht]
  constructor
  · intro e he hed
    obtain ⟨d1, d2, d3⟩ := c3 e he
    obtain ⟨p, hp, hpd⟩ := (c2 e.dest).1 ⟨e, he, rfl⟩
    obtain ⟨x, hx, -⟩ := d3 p.2 (by rw [← hpd]; exact hp)
    rw [hed] at d2 d3
    cases hh : e.hops with
    | nil => rw [hh] at hx; cases hx
    | cons h tl =>
      have hmem : h ∈ e.hops := by rw [hh]; exact List.mem_cons_self
      obtain ⟨hne, hhyp, j, a, ha, har, hau, haw, hak⟩ := (hadds _ _).1 (d2 h hmem).1
      refine ⟨hne, h, j, a, rfl, ha, har, hau, haw, fun j' b q hb hbr hbk hbq => ?_⟩
      -- the neighbour's offer is among the additions
      have hadd : (name d, (⟨b.uri, q, true⟩ : NextHop)) ∈ adds :=
        (hadds _ _).2 ⟨hne, rfl, j', b, hb, hbr, rfl, hbq, hbk⟩
      obtain ⟨y, hy, hyu⟩ := d3 _ hadd
      obtain ⟨-, hyh, -⟩ := (hadds _ _).1 (d2 y hy).1
      have hyq : y.cost ≤ q := (d2 y hy).2 _ hadd hyu.symm
      have hmono : thousandths y.cost ≤ thousandths q := by
        unfold thousandths
        exact Rat.floor_monotone (by grind)
      have hops : e.hops = offerAll (hopsFor adds e.dest) := ((hinv.2 e).1 he).2
      have hfold : ((hopsFor adds e.dest).map NhOp.add).foldl nhStep [] = e.hops := by
        rw [hops, List.foldl_map]; rfl
      have hs := (C02_cheapest_first ((hopsFor adds e.dest).map NhOp.add) 1).2.1
      rw [hfold, hh] at hs
      rw [hh] at hy
      have adj : ∀ {z : NextHop}, z.hyp = true → z.adj = thousandths z.cost := by
        intro z hz
        unfold NextHop.adj thousandths
        rw [if_pos hz]
      rcases List.mem_cons.1 hy with rfl | hy
      · exact hmono
      · have := hs h (by simp) y (by simpa using hy)
        rw [adj hhyp, adj hyh] at this
        exact Int.le_trans this hmono
  · rw [c2 (name d)]
    constructor
    · rintro ⟨⟨d', h⟩, hp, hd'⟩
      change d' = name d at hd'
      subst hd'
      obtain ⟨hne, -, j, a, ha, har, -, haw, hk⟩ := (hadds _ _).1 hp
      exact ⟨hne, j, a, _, ha, har, haw, hk⟩
    · rintro ⟨hne, j, b, q, hb, hbr, hbq, hbk⟩
      exact ⟨(name d, ⟨b.uri, q, true⟩), (hadds _ _).2 ⟨hne, rfl, j, b, hb, hbr, rfl, hbq, hbk⟩, rfl⟩

theorem HHop.unique (hc : HConverged T name co adjs t) {d r n n' : ι} (h : HHop name adjs t d r n)
    (h' : HHop name adjs t d r n') : n = n' := by
  obtain ⟨e, he, hd, x, hx, a, ha, hu⟩ := h
  obtain ⟨e', he', hd', x', hx', a', ha', hu'⟩ := h'
  obtain ⟨adds, ht, -⟩ := hc.adds r
  have hi := build_inv adds
  rw [ht] at he he'
  have p := ((hi.2 e).1 he).2
  have p' := ((hi.2 e').1 he').2
  rw [hd] at p
  rw [hd', ← p] at p'
  rw [p', hx] at hx'
  injection hx' with hx'
  subst hx'
  have := hc.faces r a ha.1 a' ha'.1 (hu.symm.trans hu')
  rw [ha.2.2, ha'.2.2] at this
  exact hc.distinct _ _ this

/-- C108, delivery: let every router of a set that no link leaves, other than `d`, have a neighbour that is not down
and closer to `d` than the router itself, in thousandths.  Then from every router of the set a packet for `d`
is handed to one router only, which is closer to `d`; it arrives at `d` and no router is visited twice.
(Without the condition on the neighbours the claim is false, see `C108_violated_loop`.) -/
theorem C108_greedy_partial (hc : HConverged T name co adjs t) (S : ι → Prop) (d : ι)
    (hS : ∀ i, S i → ∀ j a, Near name (adjs i) j a → S j)
    (hG : ∀ i, S i → i ≠ d → ∃ q j b q', Away T co i d q ∧ Near name (adjs i) j b ∧ Away T co j d q' ∧
      thousandths q' < thousandths q) :
    (∀ i j j', HHop name adjs t d i j → HHop name adjs t d i j' → j = j') ∧
    (∀ i j, S i → HHop name adjs t d i j → S j ∧ ∃ q q', Away T co i d q ∧ Away T co j d q' ∧ thousandths q' < thousandths q) ∧
    (∀ i, S i → ∃ js, HDelivered name adjs t d i js ∧ (i :: js).Nodup) ∧
    (∀ i, S i → ¬ Relation.TransGen (HHop name adjs t d) i i) := by
  have step : ∀ r n, S r → HHop name adjs t d r n →
      S n ∧ ∃ q q', Away T co r d q ∧ Away T co n d q' ∧ thousandths q' < thousandths q := by
    rintro r n hr ⟨e, he, hd, x, hx, a, ha, hu⟩
    refine ⟨hS r hr n a ha, ?_⟩
    obtain ⟨hne, h, j, a', h1, h2, h3, h4, h5, h6⟩ := (C108_closest hc r d).1 e he hd
    rw [hx] at h1
    injection h1 with h1; subst h1
    have hname := hc.faces r a ha.1 a' h2.1 (hu.symm.trans h4)
    rw [ha.2.2, h2.2.2] at hname
    have hname := hc.distinct _ _ hname
    subst hname
    obtain ⟨q, j', b, q', g1, g2, g3, g4⟩ := hG r hr (Ne.symm hne)
    have hbr : j' ≠ r := by
      intro e
      rw [e] at g3
      have := g1.unique g3
      subst this
      omega
    refine ⟨q, x.cost, g1, h5, ?_⟩
    have := h6 j' b q' g2 hbr (Or.inr (g1.known (Ne.symm hne))) g3
    omega
  -- along any sequence of hops the distance goes down
  have down : ∀ {r n}, S r → Relation.TransGen (HHop name adjs t d) r n →
      S n ∧ ∃ q q', Away T co r d q ∧ Away T co n d q' ∧ thousandths q' < thousandths q := by
    intro r n hr h
    induction h with
    | single h => exact step _ _ hr h
    | tail _ h ih =>
      obtain ⟨hs, q, q', a1, a2, a3⟩ := ih
      obtain ⟨hs', p, p', b1, b2, b3⟩ := step _ _ hs h
      have := a2.unique b1
      subst this
      exact ⟨hs', q, p', a1, b2, by omega⟩
  have loop : ∀ r, S r → ¬ Relation.TransGen (HHop name adjs t d) r r := by
    intro r hr h
    obtain ⟨-, q, q', a1, a2, a3⟩ := down hr h
    have := a1.unique a2
    subst this
    omega
  have deliver : ∀ (m : Nat) (r : ι), S r → (∀ q, Away T co r d q → (thousandths q).toNat ≤ m) → ∃ vs, HDelivered name adjs t d r vs := by
    intro m
    induction m with
    | zero =>
      intro r hr hm
      by_cases e : r = d
      · subst e; exact ⟨[], .here⟩
      · obtain ⟨q, j, b, q', g1, g2, g3, g4⟩ := hG r hr e
        have := thousandths_nonneg (g3.nonneg hc)
        have := hm q g1
        omega
    | succ m ih =>
      intro r hr hm
      by_cases e : r = d
      · subst e; exact ⟨[], .here⟩
      · obtain ⟨q, j, b, q', g1, g2, g3, g4⟩ := hG r hr e
        have hbr : j ≠ r := by
          intro e
          rw [e] at g3
          have := g1.unique g3
          subst this
          omega
        obtain ⟨en, hen, hd⟩ := (C108_closest hc r d).2.2 ⟨Ne.symm e, j, b, q', g2, hbr, g3, Or.inr (g1.known e)⟩
        obtain ⟨-, h, j2, a, h1, h2, -, h4, -⟩ := (C108_closest hc r d).1 en hen hd
        have hop : HHop name adjs t d r j2 := ⟨en, hen, hd, h, h1, a, h2, h4⟩
        obtain ⟨hs, p, p', b1, b2, b3⟩ := step _ _ hr hop
        obtain ⟨vs, hv⟩ := ih j2 hs (fun z hz => by
          have := b2.unique hz
          subst this
          have := hm _ b1
          have := thousandths_nonneg (b2.nonneg hc)
          omega)
        exact ⟨j2 :: vs, .hop e hop hv⟩
  have nodup : ∀ {r vs}, HDelivered name adjs t d r vs → S r →
      (∀ v ∈ vs, Relation.TransGen (HHop name adjs t d) r v) ∧ (r :: vs).Nodup := by
    intro r vs h
    induction h with
    | here => intro _; simp
    | @hop r n vs _ hop _ ih =>
      intro hr
      obtain ⟨i1, i2⟩ := ih (step _ _ hr hop).1
      have hall : ∀ v ∈ n :: vs, Relation.TransGen (HHop name adjs t d) r v := by
        intro v hv
        rcases List.mem_cons.1 hv with rfl | hv
        · exact .single hop
        · have : ∀ {y}, Relation.TransGen (HHop name adjs t d) n y → Relation.TransGen (HHop name adjs t d) r y := by
            intro y hy
            induction hy with
            | single h => exact .tail (.single hop) h
            | tail _ h ih => exact .tail ih h
          exact this (i1 v hv)
      exact ⟨hall, List.nodup_cons.2 ⟨fun hm => loop r hr (hall r hm), i2⟩⟩
  refine ⟨fun r n n' => HHop.unique hc, step, fun r hr => ?_, loop⟩
  obtain ⟨q, hq⟩ : ∃ q, Away T co r d q := by
    by_cases e : r = d
    · exact ⟨0, Or.inl ⟨e, rfl⟩⟩
    · obtain ⟨q, -, -, -, h, -⟩ := hG r hr e
      exact ⟨q, h⟩
  obtain ⟨vs, hv⟩ := deliver (thousandths q).toNat r hr (fun q' hq' => by rw [hq.unique hq']; exact Nat.le_refl _)
  exact ⟨vs, hv, (nodup hv hr).2⟩

end

/-! ### Witnesses -/

/-- The Coordinate LSAs of routers that all advertise coordinates, in the order of their numbers. -/
def adsOf {n : Nat} (name : Fin n → Name) (co : Fin n → Ext Rat × List (Ext Rat)) : List CoordAd :=
  (List.finRange n).map (fun i => ⟨name i, (co i).1, (co i).2⟩)

/-- The tables of a network whose routers all walk the LSAs in this order. -/
def hypTablesOf {n : Nat} (T : Trig) (name : Fin n → Name) (co : Fin n → Ext Rat × List (Ext Rat)) (adjs : Fin n → AdjacencyList)
    (i : Fin n) : RTable :=
  match calculate T (name i) (adjs i) (adsOf name co) with
  | none => []
  | some os => ((os.mapM (fun o : Offer => o.hop.map (fun h => (o.dest, h)))).map RTable.build).getD []

theorem converged_hypTablesOf {n : Nat} (T : Trig) (name : Fin n → Name) (co : Fin n → Ext Rat × List (Ext Rat)) (adjs : Fin n → AdjacencyList)
    (hn : ∀ i j, name i = name j → i = j)
    (hq : ∀ i j, (match T.dist (co i).1 (co j).1 (T.inner (co i).2 (co j).2) with | .fin q => decide (0 ≤ q) | _ => false) = true)
    (hr : ∀ i, ((calculate T (name i) (adjs i) (adsOf name co)).bind
      (fun os => os.mapM (fun o : Offer => o.hop.map (fun h => (o.dest, h))))).isSome = true)
    (hf : ∀ i, ∀ a ∈ adjs i, ∀ b ∈ adjs i, a.uri = b.uri → a.name = b.name) :
    HConverged T name (fun i => some (co i)) adjs (hypTablesOf T name co adjs) := by
  refine ⟨hn, ?_, fun i => ?_, hf⟩
  · rintro i j p p' c hp hp' ⟨-, -, -, -, -, rfl, -⟩
    cases hp; cases hp'
    have := hq i j
    cases hc : T.dist (co i).1 (co j).1 (T.inner (co i).2 (co j).2) with
    | fin q => rw [hc] at this; exact ⟨q, rfl, of_decide_eq_true this⟩
    | nan => rw [hc] at this; cases this
    | pinf => rw [hc] at this; cases this
    | ninf => rw [hc] at this; cases this
  · have h := hr i
    cases h1 : calculate T (name i) (adjs i) (adsOf name co) with
    | none => rw [h1] at h; cases h
    | some os =>
      rw [h1] at h
      cases h2 : os.mapM (fun o : Offer => o.hop.map (fun h => (o.dest, h))) with
      | none => rw [Option.bind_some, h2] at h; cases h
      | some adds =>
        refine ⟨adsOf name co, os, adds, ?_, fun x => ?_, h1, h2, ?_⟩
        · unfold adsOf
          rw [List.map_map]
          exact List.pairwise_map.2 ((List.nodup_finRange n).imp (fun h e => h (hn _ _ e)))
        · unfold adsOf
          constructor
          · intro hx
            obtain ⟨j, -, rfl⟩ := List.mem_map.1 hx
            exact ⟨j, rfl, rfl⟩
          · rintro ⟨j, h1, h2⟩
            injection h2 with h2
            refine List.mem_map.2 ⟨j, List.mem_finRange j, ?_⟩
            rw [h2, ← h1]
        · unfold hypTablesOf
          rw [h1]
          dsimp only
          rw [h2]
          rfl

namespace Witness.Fork
/-- u, v, w and d. -/
def name (i : Fin 4) : Name := nm ["net", ["u", "v", "w", "d"].getD i.val ""]

/-- All at radius 5, at the angles 2, 5/4, 3 and 1. -/
def co (i : Fin 4) : Ext Rat × List (Ext Rat) := (.fin 5, [.fin ([2, 5/4, 3, 1].getD i.val 0)])

def adj (n : String) : Adjacent := { name := nm ["net", n], uri := "udp4://" ++ n, status := .active }

/-- u is linked to v and to w, w to d. -/
def adjs (i : Fin 4) : AdjacencyList := [[adj "v", adj "w"], [adj "u"], [adj "u", adj "d"], [adj "w"]].getD i.val []

/-- The same four routers with a link between v and d. -/
def adjs' (i : Fin 4) : AdjacencyList := [[adj "v", adj "w"], [adj "u", adj "d"], [adj "u", adj "d"], [adj "w", adj "v"]].getD i.val []

/-- The values of the two formulas for these coordinates: the angle between two directions of the plane, and
the distance for radius 5 and the six angles that occur, to six digits. -/
def T : Trig where
  inner i j := match i, j with
    | [.fin x], [.fin y] => .fin (if x ≤ y then y - x else x - y)
    | _, _ => .nan
  dist _ _ th :=
    if th = .fin (1/4) then .fin (5841632 / 1000000) else if th = .fin (3/4) then .fin (7991831 / 1000000)
    else if th = .fin 1 then .fin (8529971 / 1000000) else if th = .fin (7/4) then .fin (9470943 / 1000000)
    else .fin (9654830 / 1000000)

theorem fork_converged : HConverged T name (fun i => some (co i)) adjs (hypTablesOf T name co adjs) :=
  converged_hypTablesOf T name co adjs (by decide +kernel) (by decide +kernel) (by decide +kernel) (by decide +kernel)

theorem ring_converged : HConverged T name (fun i => some (co i)) adjs' (hypTablesOf T name co adjs') :=
  converged_hypTablesOf T name co adjs' (by decide +kernel) (by decide +kernel) (by decide +kernel) (by decide +kernel)

/-- `Away`, computed. -/
def awayB (i d : Fin 4) (q : Rat) : Bool :=
  (i == d && q == 0) || (i != d && !le0 (T.inner (co i).2 (co d).2) && T.dist (co i).1 (co d).1 (T.inner (co i).2 (co d).2) == .fin q)

theorem awayB_away {i d : Fin 4} {q : Rat} (h : awayB i d q = true) : Away T (fun i => some (co i)) i d q := by
  unfold awayB at h
  simp only [Bool.or_eq_true, Bool.and_eq_true, beq_iff_eq, bne_iff_ne, ne_eq, Bool.not_eq_true'] at h
  rcases h with h | ⟨⟨h1, h2⟩, h3⟩
  · exact Or.inl h
  · refine Or.inr ⟨h1, co i, co d, rfl, rfl, rfl, ⟨_, rfl, ?_⟩, ?_, ?_, le0_eq_false.1 h2, h3.symm, ?_⟩
    · refine lastBad_eq_false.1 ?_
      have : ∀ i : Fin 4, lastBad (.fin ([2, 5/4, 3, 1].getD i.val 0)) = false := by decide +kernel
      exact this i
    · show (0:Rat) < 5
      decide +kernel
    · show (0:Rat) < 5
      decide +kernel
    · rw [← h3]
      have : ∀ i d, T.dist (co i).1 (co d).1 (T.inner (co i).2 (co d).2) ≠ .fin (-1) := by decide +kernel
      exact this i d

/-- Three routers, the second and the third in the same direction. -/
def rowName (i : Fin 3) : Name := nm ["net", ["a", "b", "c"].getD i.val ""]
def rowCo (i : Fin 3) : Ext Rat × List (Ext Rat) := [(.fin 5, [.fin 2]), (.fin 5, [.fin 1]), (.fin 7, [.fin 1])].getD i.val (.nan, [])
/-- They are linked in a row. -/
def rowAdjs (i : Fin 3) : AdjacencyList := [[adj "b"], [adj "a", adj "c"], [adj "b"]].getD i.val []

end Witness.Fork
open Witness

/-- The hypotheses of `C108_greedy_partial` are met by the four routers once v is linked to d: packets from u
go by way of v. -/
example : HConverged Fork.T Fork.name (fun i => some (Fork.co i)) Fork.adjs' (hypTablesOf Fork.T Fork.name Fork.co Fork.adjs') ∧
    (∀ i : Fin 4, i ≠ 3 → ∃ q j b q', Away Fork.T (fun i => some (Fork.co i)) i 3 q ∧ Near Fork.name (Fork.adjs' i) j b ∧
        Away Fork.T (fun i => some (Fork.co i)) j 3 q' ∧ thousandths q' < thousandths q) ∧
    ((hypTablesOf Fork.T Fork.name Fork.co Fork.adjs' 0).find? (fun e => e.dest == Fork.name 3)).map (fun e => e.hops.map (·.uri)) =
      some ["udp4://v", "udp4://w"] := by
  refine ⟨Fork.ring_converged, fun i hi => ?_, by decide +kernel⟩
  have hd : Fork.awayB 3 3 0 = true := by decide +kernel
  match i, hi with
  | 0, _ => exact ⟨8529971 / 1000000, 1, Fork.adj "v", 5841632 / 1000000, Fork.awayB_away (by decide +kernel),
      ⟨by decide +kernel, nofun, by decide +kernel⟩, Fork.awayB_away (by decide +kernel), by decide +kernel⟩
  | 1, _ => exact ⟨5841632 / 1000000, 3, Fork.adj "d", 0, Fork.awayB_away (by decide +kernel),
      ⟨by decide +kernel, nofun, by decide +kernel⟩, Fork.awayB_away hd, by decide +kernel⟩
  | 2, _ => exact ⟨9654830 / 1000000, 3, Fork.adj "d", 0, Fork.awayB_away (by decide +kernel),
      ⟨by decide +kernel, nofun, by decide +kernel⟩, Fork.awayB_away hd, by decide +kernel⟩
  | 3, h => exact absurd rfl h

/-- In a network that has converged with hyperbolic routing, packets can go back and forth for ever between
two routers although the destination can be reached: u is linked to v and w, and w to d, but v is closer to d
than w is.  So u sends packets for d to v, and v, whose only neighbour is u, sends them back.  This holds
whatever the formulas of lines 201-258 yield, as long as v is closer than w by a thousandth or more; for the
coordinates given (radius 5, angles 2, 1.25, 3 and 1) it is 5.84 against 9.65.  The code has no measure against
it: a router offers each neighbour's distance whether or not it is smaller than its own
(src/route/routing-calculator-hyperbolic.cpp:84-124). -/
theorem C108_violated_loop :
    (∀ (T : Trig) (t : Fin 4 → RTable) (x y : Rat), HConverged T Fork.name (fun i => some (Fork.co i)) Fork.adjs t →
      Away T (fun i => some (Fork.co i)) 1 3 x → Away T (fun i => some (Fork.co i)) 2 3 y → thousandths x < thousandths y →
      (∃ q, Away T (fun i => some (Fork.co i)) 0 3 q) →
      HHop Fork.name Fork.adjs t 3 0 1 ∧ HHop Fork.name Fork.adjs t 3 1 0) ∧
    (∃ (T : Trig) (t : Fin 4 → RTable) (x y q : Rat), HConverged T Fork.name (fun i => some (Fork.co i)) Fork.adjs t ∧
      Away T (fun i => some (Fork.co i)) 1 3 x ∧ Away T (fun i => some (Fork.co i)) 2 3 y ∧ thousandths x < thousandths y ∧
      Away T (fun i => some (Fork.co i)) 0 3 q) ∧
    (∃ a b, Near Fork.name (Fork.adjs 0) 2 a ∧ Near Fork.name (Fork.adjs 2) 3 b) := by
  have near : ∀ (i j : Fin 4) a, Near Fork.name (Fork.adjs i) j a → (Fork.adjs i).any (fun a => a.name == Fork.name j) = true := by
    intro i j a h
    exact List.any_eq_true.2 ⟨a, h.1, by rw [h.2.2]; exact beq_self_eq_true _⟩
  have au : ∀ j a, Near Fork.name (Fork.adjs 0) j a → j = 1 ∨ j = 2 := by
    intro j a h
    have := near 0 j a h
    revert this
    clear h
    revert j
    decide +kernel
  have av : ∀ j a, Near Fork.name (Fork.adjs 1) j a → j = 0 := by
    intro j a h
    have := near 1 j a h
    revert this
    clear h
    revert j
    decide +kernel
  have n01 : Near Fork.name (Fork.adjs 0) 1 (Fork.adj "v") := ⟨by decide +kernel, nofun, by decide +kernel⟩
  have n10 : Near Fork.name (Fork.adjs 1) 0 (Fork.adj "u") := ⟨by decide +kernel, nofun, by decide +kernel⟩
  refine ⟨?_, ?_, ⟨Fork.adj "w", Fork.adj "d", ⟨by decide +kernel, nofun, by decide +kernel⟩, ⟨by decide +kernel, nofun, by decide +kernel⟩⟩⟩
  · rintro T t x y hc hx hy hlt ⟨q, hq⟩
    constructor
    · obtain ⟨e, he, hd⟩ := (C108_closest hc 0 3).2.2 ⟨by decide, 1, _, x, n01, by decide, hx, Or.inr nofun⟩
      obtain ⟨-, h, j, a, h1, h2, h3, h4, h5, h6⟩ := (C108_closest hc 0 3).1 e he hd
      rcases au j a h2 with rfl | rfl
      · exact ⟨e, he, hd, h, h1, a, h2, h4⟩
      · have := h6 1 _ x n01 (by decide) (Or.inr nofun) hx
        rw [h5.unique hy] at this
        omega
    · obtain ⟨e, he, hd⟩ := (C108_closest hc 1 3).2.2 ⟨by decide, 0, _, q, n10, by decide, hq, Or.inr nofun⟩
      obtain ⟨-, h, j, a, h1, h2, h3, h4, -⟩ := (C108_closest hc 1 3).1 e he hd
      have := av j a h2
      subst this
      exact ⟨e, he, hd, h, h1, a, h2, h4⟩
  · exact ⟨Fork.T, _, 5841632 / 1000000, 9654830 / 1000000, 8529971 / 1000000, Fork.fork_converged, Fork.awayB_away (by decide +kernel),
      Fork.awayB_away (by decide +kernel), by decide +kernel, Fork.awayB_away (by decide +kernel)⟩

/-- Two routers that lie in the same direction but at different radii have different coordinates, and yet no
distance: an angle of zero between them counts as an error (src/route/routing-calculator-hyperbolic.cpp:250-254,
although the message there asks only that no two nodes have the exact same coordinates).  So in a row of three
routers a - b - c with b and c in the same direction, a never has an entry for c, whatever the formula for the
distance. -/
theorem C108_violated_direction (T : Trig) (t : Fin 3 → RTable) (h0 : T.inner [.fin 1] [.fin 1] = .fin 0)
    (hc : HConverged T Fork.rowName (fun i => some (Fork.rowCo i)) Fork.rowAdjs t) :
    Fork.rowCo 1 ≠ Fork.rowCo 2 ∧ (∃ a b, Near Fork.rowName (Fork.rowAdjs 0) 1 a ∧ Near Fork.rowName (Fork.rowAdjs 1) 2 b) ∧
    ¬ ∃ e ∈ t 0, e.dest = Fork.rowName 2 := by
  refine ⟨by decide +kernel, ⟨Fork.adj "b", Fork.adj "c", ⟨by decide +kernel, nofun, by decide +kernel⟩, ⟨by decide +kernel, nofun, by decide +kernel⟩⟩, fun h => ?_⟩
  obtain ⟨-, j, b, q, hb, -, haw, -⟩ := (C108_closest hc 0 2).2.1 h
  have hj : j = 1 := by
    have : (Fork.rowAdjs 0).any (fun a => a.name == Fork.rowName j) = true :=
      List.any_eq_true.2 ⟨b, hb.1, by rw [hb.2.2]; exact beq_self_eq_true _⟩
    revert this
    clear hb haw
    revert j
    decide +kernel
  subst hj
  rcases haw with ⟨e, -⟩ | ⟨-, p, p', hp, hp', -, -, -, -, hin, -⟩
  · exact absurd e (by decide)
  · cases hp; cases hp'
    have : NotLe0 (T.inner [.fin 1] [.fin 1]) := hin
    rw [h0] at this
    exact absurd this (show ¬ (0:Rat) < 0 by decide +kernel)

/-- Such a row of routers. -/
example : Fork.T.inner [.fin 1] [.fin 1] = .fin 0 ∧
    HConverged Fork.T Fork.rowName (fun i => some (Fork.rowCo i)) Fork.rowAdjs (hypTablesOf Fork.T Fork.rowName Fork.rowCo Fork.rowAdjs) ∧
    (hypTablesOf Fork.T Fork.rowName Fork.rowCo Fork.rowAdjs 0).map (·.dest) = [Fork.rowName 1] :=
  ⟨by decide +kernel, converged_hypTablesOf _ _ _ _ (by decide +kernel) (by decide +kernel) (by decide +kernel) (by decide +kernel), by decide +kernel⟩

end Nlsr
