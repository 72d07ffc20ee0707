import Verif.Props.LinkState
import Verif.Props.RoutingTable
/-
C81: forwarding in a converged network.  Every router holds the same Adjacency LSAs (in an order of its own),
has computed its routes from them, and sends packets for a destination to the first next hop of its entry.
-/
namespace Nlsr
open LS

/-- The routing tables of a network in which every router has computed its routes from the same Adjacency
LSAs `L`.  `face r n` is the face URI that router `r` has for its neighbour `n`; the order in which a router's
LSDB is walked and its number of faces per prefix are its own. -/
structure Converged (L : List AdjAd) (face : Name → Name → Uri) (t : Name → RTable) : Prop where
  wf : WellFormed L
  computed : ∀ r, ∃ lsas maxFaces out, lsas.Perm L ∧ calculateFromLsdb maxFaces r (face r) lsas = some out ∧
    t r = RTable.build out
  /-- a router reaches different neighbours through different faces -/
  faces : ∀ r n n' w w', Link L r n w → Link L r n' w' → face r n = face r n' → n = n'

/-- Router `r` hands a packet for router `d` to router `n`: the entry's first next hop is the face of `n`. -/
def Hop (L : List AdjAd) (face : Name → Name → Uri) (t : Name → RTable) (d r n : Name) : Prop :=
  ∃ e ∈ t r, e.dest = d ∧ ∃ h, e.hops.head? = some h ∧ h.uri = face r n ∧ ∃ w, Link L r n w

/-- A packet for `d` at `r` visits the routers `vs` and stops at `d`, at total link cost `k`. -/
inductive Delivered (L : List AdjAd) (face : Name → Name → Uri) (t : Name → RTable) (d : Name) : Name → List Name → Int → Prop
  | here : Delivered L face t d d [] 0
  | hop {r n : Name} {vs : List Name} {w k : Int} : Hop L face t d r n → Link L r n w →
      Delivered L face t d n vs k → Delivered L face t d r (n :: vs) (w + k)

theorem Link.perm {L L' : List AdjAd} (h : L.Perm L') : Link L = Link L' := by
  have hadv : Advertises L = Advertises L' := by
    funext a b x
    apply propext
    unfold Advertises
    constructor
    · rintro ⟨l, h', r⟩; exact ⟨l, h.mem_iff.1 h', r⟩
    · rintro ⟨l, h', r⟩; exact ⟨l, h.mem_iff.2 h', r⟩
  unfold Link
  rw [hadv]

theorem WellFormed.perm {L L' : List AdjAd} (h : L.Perm L') (hw : WellFormed L) : WellFormed L' :=
  ⟨(h.map _).nodup_iff.1 hw.origins, fun l hl => hw.adjs l (h.mem_iff.2 hl)⟩

theorem Link.unique {L : List AdjAd} (hw : WellFormed L) {a b : Name} {w w' : Int} (h : Link L a b w) (h' : Link L a b w') :
    w = w' := by
  obtain ⟨m, -, hm⟩ := C04_agreed_cost L hw
  have hmem : ∀ {x y k}, Link L x y k → ∃ i, (NameMap.fromAdj L).noOf x = some i := by
    rintro x y k ⟨p, q, ⟨l, hl, ho, hp⟩, -⟩
    exact ((C03_known_routers L []).1 x).2 ⟨l, hl, Or.inl ho.symm⟩
  have hsym : Link L b a w := by
    obtain ⟨p, q, h1, h2, h3, h4, h5⟩ := h
    exact ⟨q, p, h2, h1, h4, h3, by rw [h5, Int.max_comm]⟩
  obtain ⟨i, hi⟩ := hmem h
  obtain ⟨j, hj⟩ := hmem hsym
  obtain ⟨cell, -, -, -, -, hc⟩ := hm a b i j hi hj
  have e1 := ((hc w).2 h).1
  have e2 := ((hc w').2 h').1
  rw [e1] at e2
  injection e2

/-- What the first next hop of an entry is. -/
theorem first_hop (lsas : List AdjAd) (hw : WellFormed lsas) (maxFaces : Nat) (r : Name) (face : Name → Uri)
    {out : List (Name × NextHop)} (ho : calculateFromLsdb maxFaces r face lsas = some out) :
    (∀ e ∈ RTable.build out, e.dest ≠ r ∧ ∃ h, e.hops.head? = some h ∧ ∃ (n : Name) (w k : Int), Link lsas r n w ∧
      h.uri = face n ∧ Shortest (Link lsas) n e.dest k ∧ Shortest (Link lsas) r e.dest (w + k) ∧ w + k < costLimit ∧
      h.cost = ((w + k : Int) : Rat)) ∧
    (∀ d, d ≠ r → ∀ k, Path (Link lsas) r d k → k < costLimit → ∃ e ∈ RTable.build out, e.dest = d) := by
  have hinv := build_inv out
  obtain ⟨c1, c2, c3⟩ := C13_one_entry_per_destination out
  -- the first hop is one of the additions and none is cheaper
  have hhead : ∀ e ∈ RTable.build out, ∃ h, e.hops.head? = some h ∧ (e.dest, h) ∈ out ∧
      ((∀ o, (e.dest, o) ∈ out → o.hyp = false ∧ ∃ n : Int, o.cost = (n : Rat)) → ∀ o, (e.dest, o) ∈ out → h.cost ≤ o.cost) := by
    intro e he
    obtain ⟨d1, d2, d3⟩ := c3 e he
    obtain ⟨p, hp, hpd⟩ := (c2 e.dest).1 ⟨e, he, rfl⟩
    obtain ⟨x, hx, -⟩ := d3 p.2 (by rw [← hpd]; exact hp)
    cases hh : e.hops with
    | nil => rw [hh] at hx; cases hx
    | cons h tl =>
      have hmem : h ∈ e.hops := by rw [hh]; exact List.mem_cons_self
      refine ⟨h, rfl, (d2 h hmem).1, fun hint o ho' => ?_⟩
      obtain ⟨y, hy, hyu⟩ := d3 o ho'
      have hyo : y.cost ≤ o.cost := (d2 y hy).2 o ho' hyu.symm
      have hops : e.hops = offerAll (hopsFor out e.dest) := ((hinv.2 e).1 he).2
      have hall : ∀ z ∈ ((hopsFor out e.dest).map NhOp.add).foldl nhStep [], z ∈ e.hops := by
        intro z hz
        rw [hops]
        rw [List.foldl_map] at hz
        exact hz
      have hfold : ((hopsFor out e.dest).map NhOp.add).foldl nhStep [] = e.hops := by
        rw [hops, List.foldl_map]; rfl
      have hc := C02_cheapest_first_exact ((hopsFor out e.dest).map NhOp.add) 1
        (fun z hz => hint z ((d2 z (hall z hz)).1))
      rw [hfold, hh] at hc
      rw [hh] at hy
      rcases List.mem_cons.1 hy with rfl | hy
      · exact hyo
      · exact Rat.le_trans (hc h (by simp) y (by simpa using hy)) hyo
  by_cases hmf : maxFaces = 1
  · subst hmf
    obtain ⟨out', e', f1, f2, f3⟩ := C05_shortest_paths lsas hw r face
    obtain ⟨out'', e'', g⟩ := C06_next_hop_on_shortest_path lsas hw r face
    rw [ho] at e' e''
    injection e' with e'; subst e'
    injection e'' with e''; subst e''
    refine ⟨fun e he => ?_, fun d hd k hp hk => ?_⟩
    · obtain ⟨h, h1, h2, -⟩ := hhead e he
      obtain ⟨hd, -⟩ := (f1 e.dest).1 ⟨h, h2⟩
      obtain ⟨k0, a1, a2⟩ := f2 _ _ h2
      obtain ⟨n, w, k, b1, b2, b3, b4, b5⟩ := g _ _ h2
      have : k0 = w + k := by rw [a1] at b5; exact_mod_cast b5
      subst this
      obtain ⟨-, k', p1, p2⟩ := (f1 e.dest).1 ⟨h, h2⟩
      exact ⟨hd, h, h1, n, w, k, b2, b3, b4, a2, Int.lt_of_le_of_lt (a2.2 _ p1) p2, b5⟩
    · obtain ⟨nh, hm⟩ := (f1 d).2 ⟨hd, k, hp, hk⟩
      exact (c2 d).2 ⟨_, hm, rfl⟩
  · obtain ⟨out', e', f⟩ := C07_multipath_offers lsas hw maxFaces hmf r face
    obtain ⟨out'', e'', g1, g2⟩ := C07_best_offer_is_shortest lsas hw maxFaces hmf r face
    rw [ho] at e' e''
    injection e' with e'; subst e'
    injection e'' with e''; subst e''
    refine ⟨fun e he => ?_, fun d hd k hp hk => ?_⟩
    · obtain ⟨h, h1, h2, h3⟩ := hhead e he
      obtain ⟨hd, n, w, k, a1, a2, a3, a4, a5⟩ := (f _ _).1 h2
      have hint : ∀ o, (e.dest, o) ∈ out → o.hyp = false ∧ ∃ n : Int, o.cost = (n : Rat) := by
        intro o ho'
        obtain ⟨-, n', w', k', -, -, -, -, b5⟩ := (f _ _).1 ho'
        exact ⟨by rw [b5], w' + k', by rw [b5]⟩
      have hpath : Path (Link lsas) r e.dest (w + k) :=
        (Path.single a2).trans (a3.1.mono (fun a b w h => h.1))
      obtain ⟨k1, hk1, hsh⟩ := Shortest.exists (L := Link lsas) Link.nonneg hpath
      obtain ⟨⟨nh, m1, m2⟩, m3⟩ := g2 e.dest hd k1 hsh (by omega)
      have hle := h3 hint nh m1
      have hcost : h.cost = ((w + k : Int) : Rat) := by rw [a5]
      rw [m2, hcost, Rat.intCast_le_intCast] at hle
      have hk : w + k = k1 := by omega
      have hkn : Path (Link lsas) n e.dest k := a3.1.mono (fun a b w h => h.1)
      refine ⟨hd, h, h1, n, w, k, a2, by rw [a5], ⟨hkn, fun k' hk' => ?_⟩, by rw [hk]; exact hsh, a4, hcost⟩
      have := hsh.2 _ ((Path.single a2).trans hk')
      omega
    · obtain ⟨nh, hm⟩ := (g1 d).2 ⟨hd, k, hp, hk⟩
      exact (c2 d).2 ⟨_, hm, rfl⟩

section
variable {L : List AdjAd} {face : Name → Name → Uri} {t : Name → RTable}

theorem Converged.first (hc : Converged L face t) (r : Name) :
    (∀ e ∈ t r, e.dest ≠ r ∧ ∃ h, e.hops.head? = some h ∧ ∃ (n : Name) (w k : Int), Link L r n w ∧
      h.uri = face r n ∧ Shortest (Link L) n e.dest k ∧ Shortest (Link L) r e.dest (w + k) ∧ w + k < costLimit ∧
      h.cost = ((w + k : Int) : Rat)) ∧
    (∀ d, d ≠ r → ∀ k, Path (Link L) r d k → k < costLimit → ∃ e ∈ t r, e.dest = d) := by
  obtain ⟨lsas, mf, out, h1, h2, h3⟩ := hc.computed r
  have := first_hop lsas (hc.wf.perm h1.symm) mf r (face r) h2
  rw [Link.perm h1, ← h3] at this
  exact this

theorem Converged.one_entry (hc : Converged L face t) {r : Name} {e e' : RtEntry} (he : e ∈ t r) (he' : e' ∈ t r)
    (h : e.dest = e'.dest) : e = e' := by
  obtain ⟨lsas, mf, out, h1, h2, h3⟩ := hc.computed r
  rw [h3] at he he'
  have hi := build_inv out
  have a := ((hi.2 e).1 he).2
  have b := ((hi.2 e').1 he').2
  cases e; cases e'
  simp only at h a b
  subst h
  rw [a, b]

/-- A hop goes to a router that is closer by the cost of the link. -/
theorem Hop.closer (hc : Converged L face t) {d r n : Name} (h : Hop L face t d r n) :
    ∃ w k, Link L r n w ∧ Shortest (Link L) n d k ∧ Shortest (Link L) r d (w + k) ∧ w + k < costLimit := by
  obtain ⟨e, he, rfl, x, h1, h2, w0, h3⟩ := h
  obtain ⟨-, y, g1, n', w, k, g2, g3, g4, g5, g6, -⟩ := (hc.first r).1 e he
  rw [g1] at h1
  injection h1 with h1; subst h1
  have := hc.faces r n n' w0 w h3 g2 (h2.symm.trans g3)
  subst this
  exact ⟨w, k, g2, g4, g5, g6⟩

/-- C81: if every usable link costs at least 1, then for all routers and destinations (1) the first next hop
leads to one router only; (2) a packet never comes back to a router it has left; (3) a router with an entry
for `d` delivers: the packet visits routers, none twice, and ends at `d`, and the links it takes add up to the
cost of the entry, which is the least possible; (4) there is an entry whenever `d` can be reached below the
limit. -/
theorem C81_loop_free_partial (hc : Converged L face t) (hp : ∀ a b w, Link L a b w → 0 < w) (d : Name) :
    (∀ r n n', Hop L face t d r n → Hop L face t d r n' → n = n') ∧
    (∀ r, ¬ Relation.TransGen (Hop L face t d) r r) ∧
    (∀ r, ∀ e ∈ t r, e.dest = d → ∃ h vs k, e.hops.head? = some h ∧ Delivered L face t d r vs k ∧ (r :: vs).Nodup ∧
      h.cost = (k : Rat) ∧ Shortest (Link L) r d k) ∧
    (∀ r, r ≠ d → ∀ k, Path (Link L) r d k → k < costLimit → ∃ e ∈ t r, e.dest = d) := by
  have down : ∀ {r n}, Relation.TransGen (Hop L face t d) r n → ∀ {k k'}, Shortest (Link L) r d k → Shortest (Link L) n d k' → k' < k := by
    intro r n h
    induction h with
    | single h =>
      intro k k' a b
      obtain ⟨w, k2, h1, h2, h3, -⟩ := Hop.closer hc h
      have := a.unique h3
      have := b.unique h2
      have := hp _ _ _ h1
      omega
    | tail _ h ih =>
      intro k k' a b
      obtain ⟨w, k2, h1, h2, h3, -⟩ := Hop.closer hc h
      have := ih a h3
      have := b.unique h2
      have := hp _ _ _ h1
      omega
  have loop : ∀ r, ¬ Relation.TransGen (Hop L face t d) r r := by
    intro r h
    have : ∃ k, Shortest (Link L) r d k := by
      have : ∀ {x y}, Relation.TransGen (Hop L face t d) x y → ∃ k, Shortest (Link L) x d k := by
        intro x y h
        induction h with
        | single h => obtain ⟨w, k2, h1, h2, h3, -⟩ := Hop.closer hc h; exact ⟨_, h3⟩
        | tail _ _ ih => exact ih
      exact this h
    obtain ⟨k, hk⟩ := this
    have := down h hk hk
    omega
  refine ⟨?_, loop, ?_, fun r hr k => (hc.first r).2 d (Ne.symm hr) k⟩
  · rintro r n n' ⟨e, he, hd, x, h1, h2, w, h3⟩ ⟨e', he', hd', x', h1', h2', w', h3'⟩
    have := hc.one_entry he he' (hd.trans hd'.symm)
    subst this
    rw [h1] at h1'
    injection h1' with h1'; subst h1'
    exact hc.faces r n n' w w' h3 h3' (h2.symm.trans h2')
  · -- by induction on the distance
    have deliver : ∀ (m : Nat) (r : Name), (∃ e ∈ t r, e.dest = d) → ∀ k, Shortest (Link L) r d k → k.toNat ≤ m →
        ∃ vs, Delivered L face t d r vs k ∧ ∀ v ∈ vs, Relation.TransGen (Hop L face t d) r v := by
      intro m
      induction m with
      | zero =>
        rintro r ⟨e, he, hd⟩ k hk hm
        obtain ⟨-, h, h1, n, w, k2, h2, h3, h4, h5, -⟩ := (hc.first r).1 e he
        rw [hd] at h4 h5
        have := hk.unique h5
        have := hp _ _ _ h2
        have := Path.nonneg (L := Link L) Link.nonneg h4.1
        omega
      | succ m ih =>
        rintro r ⟨e, he, hd⟩ k hk hm
        obtain ⟨-, h, h1, n, w, k2, h2, h3, h4, h5, h6, -⟩ := (hc.first r).1 e he
        rw [hd] at h4 h5
        have e1 := hk.unique h5
        have hw := hp _ _ _ h2
        have hk2 := Path.nonneg (L := Link L) Link.nonneg h4.1
        have hop : Hop L face t d r n := ⟨e, he, hd, h, h1, h3, w, h2⟩
        by_cases hn : n = d
        · subst hn
          have : k2 = 0 := h4.unique ⟨Path.nil _, fun k' hk' => Path.nonneg (L := Link L) Link.nonneg hk'⟩
          subst this
          rw [e1]
          exact ⟨[n], .hop hop h2 .here, fun v hv => by rw [List.mem_singleton.1 hv]; exact .single hop⟩
        · obtain ⟨vs, g1, g2⟩ := ih n ((hc.first n).2 d (Ne.symm hn) k2 h4.1 (by omega)) k2 h4 (by omega)
          rw [e1]
          refine ⟨n :: vs, .hop hop h2 g1, fun v hv => ?_⟩
          rcases List.mem_cons.1 hv with rfl | hv
          · exact .single hop
          · have : ∀ {y}, Relation.TransGen (Hop L face t d) n y → Relation.TransGen (Hop L face t d) r y := by
              intro y hy
              induction hy with
              | single h => exact .tail (.single hop) h
              | tail _ h ih => exact .tail ih h
            exact this (g2 v hv)
    have nodup : ∀ {r vs k}, Delivered L face t d r vs k → (∀ v ∈ vs, Relation.TransGen (Hop L face t d) r v) ∧ (r :: vs).Nodup := by
      intro r vs k h
      induction h with
      | here => simp
      | @hop r n vs w k hop hl _ ih =>
        obtain ⟨i1, i2⟩ := ih
        have hall : ∀ v ∈ n :: vs, Relation.TransGen (Hop L face t d) r v := by
          intro v hv
          rcases List.mem_cons.1 hv with rfl | hv
          · exact .single hop
          · have : ∀ {y}, Relation.TransGen (Hop L face t d) n y → Relation.TransGen (Hop L face t d) r y := by
              intro y hy
              induction hy with
              | single h => exact .tail (.single hop) h
              | tail _ h ih => exact .tail ih h
            exact this (i1 v hv)
        exact ⟨hall, List.nodup_cons.2 ⟨fun hm => loop r (hall r hm), i2⟩⟩
    intro r e he hd
    obtain ⟨-, h, h1, n, w, k2, h2, h3, h4, h5, h6, h7⟩ := (hc.first r).1 e he
    rw [hd] at h4 h5
    obtain ⟨vs, g1, -⟩ := deliver (w + k2).toNat r ⟨e, he, hd⟩ _ h5 (Nat.le_refl _)
    exact ⟨h, vs, w + k2, h1, g1, (nodup g1).2, h7, h5⟩
end

/-! ### Witnesses -/

/-- The tables of a network whose routers all walk `L` in this order and use one face per prefix. -/
def tablesOf (L : List AdjAd) (face : Name → Name → Uri) (r : Name) : RTable :=
  match calculateFromLsdb 1 r (face r) L with
  | some out => RTable.build out
  | none => []

theorem converged_tablesOf {L : List AdjAd} {face : Name → Name → Uri} (hw : WellFormed L)
    (hi : ∀ r, ∀ n ∈ L.flatMap (fun l => l.adjs.map (·.1)), ∀ n' ∈ L.flatMap (fun l => l.adjs.map (·.1)), face r n = face r n' → n = n') :
    Converged L face (tablesOf L face) := by
  have hmem : ∀ {r n w}, Link L r n w → n ∈ L.flatMap (fun l => l.adjs.map (·.1)) := by
    rintro r n w ⟨x, y, ⟨l, hl, -, hx⟩, -⟩
    exact List.mem_flatMap.2 ⟨l, hl, List.mem_map.2 ⟨_, hx, rfl⟩⟩
  refine ⟨hw, fun r => ?_, fun r n n' w w' h h' => hi r n (hmem h) n' (hmem h')⟩
  obtain ⟨out, ho, -⟩ := C08_no_fault L 1 r (face r)
  exact ⟨L, 1, out, List.Perm.refl _, ho, by unfold tablesOf; rw [ho]⟩

namespace Witness
/-- A face for each router of the witness networks. -/
def uriOf (n : Name) : Uri :=
  if n = a then "udp4://a" else if n = b then "udp4://b" else if n = c then "udp4://c" else if n = d then "udp4://d"
  else if n = nm ["net", "e"] then "udp4://e" else if n = nm ["net", "w"] then "udp4://w" else "udp4://z"

/-- Seven routers; the link between a and b costs nothing. -/
def zero : List AdjAd :=
  let e := nm ["net", "e"]; let w := nm ["net", "w"]; let z := nm ["net", "z"]
  [⟨a, [(b, .fin 0), (c, .fin 2), (z, .fin 1)]⟩, ⟨b, [(a, .fin 0), (e, .fin 2), (w, .fin 1)]⟩,
   ⟨c, [(a, .fin 2), (d, .fin 1)]⟩, ⟨d, [(c, .fin 1), (e, .fin 1)]⟩, ⟨e, [(b, .fin 2), (d, .fin 1)]⟩,
   ⟨z, [(a, .fin 1)]⟩, ⟨w, [(b, .fin 1)]⟩]

theorem zero_converged : Converged zero (fun _ => uriOf) (tablesOf zero (fun _ => uriOf)) :=
  converged_tablesOf ⟨by decide +kernel, by decide +kernel⟩ (fun _ => by decide +kernel)
theorem lsas_converged : Converged lsas (fun _ => uriOf) (tablesOf lsas (fun _ => uriOf)) :=
  converged_tablesOf ⟨by decide +kernel, by decide +kernel⟩ (fun _ => by decide +kernel)
end Witness

/-- The hypotheses of `C81_loop_free_partial` are met by the four-router network, where a packet from a to c
goes by way of b. -/
example : Converged Witness.lsas (fun _ => Witness.uriOf) (tablesOf Witness.lsas (fun _ => Witness.uriOf)) ∧
    (∀ a b w, Link Witness.lsas a b w → 0 < w) ∧
    (tablesOf Witness.lsas (fun _ => Witness.uriOf) Witness.a).map (fun e => (e.dest, e.hops.map (·.uri))) =
      [(Witness.b, ["udp4://b"]), (Witness.c, ["udp4://b"])] ∧
    (tablesOf Witness.lsas (fun _ => Witness.uriOf) Witness.b).map (fun e => (e.dest, e.hops.map (·.uri))) =
      [(Witness.a, ["udp4://a"]), (Witness.c, ["udp4://c"])] := by
  refine ⟨Witness.lsas_converged, ?_, by decide +kernel, by decide +kernel⟩
  rintro a b w ⟨x, y, ⟨l, hl, -, hx⟩, -, -, -, rfl⟩
  have : ∀ l ∈ Witness.lsas, ∀ p ∈ l.adjs, (match p.2 with | .fin q => decide (0 < q.ceil) | _ => true) = true := by
    decide +kernel
  have := this l hl _ hx
  simp only [decide_eq_true_eq] at this
  omega

/-- With a link that costs nothing, which a configuration may ask for (src/conf-file-processor.cpp:498), two
routers that have converged can each be the other's next hop: packets from a to d go back and forth between a
and b for ever, although a, b and d are connected.  Ties are broken by the order in which the exchange sort
of src/route/routing-calculator-link-state.cpp:171-181 leaves the queue, which is not stable. -/
theorem C81_violated_zero : ∃ (L : List AdjAd) (face : Name → Name → Uri) (t : Name → RTable) (d r n : Name),
    Converged L face t ∧ (∀ l ∈ L, ∀ p ∈ l.adjs, ∃ q : Nat, p.2 = .fin q) ∧ (∃ k, Path (Link L) r d k ∧ k < costLimit) ∧
    Hop L face t d r n ∧ Hop L face t d n r := by
  have adv : ∀ {L : List AdjAd} {x y : Name} {q : Ext Rat}, (L.any (fun l => l.origin == x && l.adjs.contains (y, q))) = true →
      Advertises L x y q := by
    intro L x y q h
    obtain ⟨l, hl, h⟩ := List.any_eq_true.1 h
    simp only [Bool.and_eq_true, beq_iff_eq, List.contains_iff_mem] at h
    exact ⟨l, hl, h.1, h.2⟩
  have ab : Link Witness.zero Witness.a Witness.b 0 :=
    ⟨0, 0, adv (by decide +kernel), adv (by decide +kernel), by decide +kernel, by decide +kernel, by decide +kernel⟩
  have ba : Link Witness.zero Witness.b Witness.a 0 :=
    ⟨0, 0, adv (by decide +kernel), adv (by decide +kernel), by decide +kernel, by decide +kernel, by decide +kernel⟩
  have ac : Link Witness.zero Witness.a Witness.c 2 :=
    ⟨2, 2, adv (by decide +kernel), adv (by decide +kernel), by decide +kernel, by decide +kernel, by decide +kernel⟩
  have cd : Link Witness.zero Witness.c Witness.d 1 :=
    ⟨1, 1, adv (by decide +kernel), adv (by decide +kernel), by decide +kernel, by decide +kernel, by decide +kernel⟩
  have hop : ∀ {r n : Name}, ((tablesOf Witness.zero (fun _ => Witness.uriOf) r).any (fun e => e.dest == Witness.d &&
      e.hops.head?.map (·.uri) == some (Witness.uriOf n))) = true → (∃ w, Link Witness.zero r n w) →
      Hop Witness.zero (fun _ => Witness.uriOf) (tablesOf Witness.zero (fun _ => Witness.uriOf)) Witness.d r n := by
    intro r n h hl
    obtain ⟨e, he, h⟩ := List.any_eq_true.1 h
    simp only [Bool.and_eq_true, beq_iff_eq] at h
    obtain ⟨x, hx, hu⟩ := Option.map_eq_some_iff.1 h.2
    exact ⟨e, he, h.1, x, hx, hu, hl⟩
  refine ⟨Witness.zero, fun _ => Witness.uriOf, _, Witness.d, Witness.a, Witness.b, Witness.zero_converged, ?_,
    ⟨3, (Path.single ac).trans (Path.single cd), by decide⟩, hop (by decide +kernel) ⟨0, ab⟩, hop (by decide +kernel) ⟨0, ba⟩⟩
  have : ∀ l ∈ Witness.zero, ∀ p ∈ l.adjs, p.2 = .fin (0 : Nat) ∨ p.2 = .fin (1 : Nat) ∨ p.2 = .fin (2 : Nat) := by decide +kernel
  intro l hl p hp
  rcases this l hl p hp with h | h | h
  · exact ⟨_, h⟩
  · exact ⟨_, h⟩
  · exact ⟨_, h⟩

end Nlsr
