import Verif.Lemmas.LinkStateRoutes
/-
C03-C10: router numbering and link-state route computation.
The specifications (`Advertises`, `Link`, `Path`, `Shortest`, `Avoid`) are in Verif/Spec.
-/
namespace Nlsr
open NameMap LS

/-! ### Witness topology used for non-vacuity -/

namespace Witness
def a : Name := nm ["net", "a"]
def b : Name := nm ["net", "b"]
def c : Name := nm ["net", "c"]
def d : Name := nm ["net", "d"]
/-- a-b 10 (b says 9.5), b-c 5, a-c 25, c-d advertised by c only, NaN from d. -/
def lsas : List AdjAd :=
  [⟨a, [(b, .fin 10), (c, .fin 25)]⟩,
   ⟨b, [(a, .fin (19/2)), (c, .fin 5)]⟩,
   ⟨c, [(a, .fin 25), (b, .fin 5), (d, .fin 1)]⟩,
   ⟨d, [(c, .nan)]⟩]
def face (n : Name) : Uri := if n = b then "udp4://b" else if n = c then "udp4://c" else ""
end Witness

example : WellFormed Witness.lsas := ⟨by decide +kernel, by decide +kernel⟩

/-! ### C03 -/

/-- Adding any list of names one after another to an empty map. -/
def numberAll (l : List Name) : NameMap := l.foldl NameMap.addEntry []

/-- C03: after adding any list of names, (1) a name has a number iff it was added; (2) the numbers in
use are exactly `0 .. n-1` where `n` is the size; (3) name and number lookups are inverse; (4) the
size is the number of distinct names added; (5) numbers given earlier stay the same when more names
are added. -/
theorem C03_numbering (l l' : List Name) :
    (∀ x, (∃ i, (numberAll l).noOf x = some i) ↔ x ∈ l) ∧
    (∀ i, (∃ x, (numberAll l).nameOf i = some x) ↔ i < (numberAll l).length) ∧
    (∀ x i, (numberAll l).noOf x = some i ↔ (numberAll l).nameOf i = some x) ∧
    (∃ ds : List Name, ds.Nodup ∧ (∀ x, x ∈ ds ↔ x ∈ l) ∧ (numberAll l).length = ds.length) ∧
    (∀ x i, (numberAll l).noOf x = some i → (numberAll (l ++ l')).noOf x = some i) := by
  obtain ⟨h1, h2⟩ := fromOrigins_spec l
  have h1 : WF (numberAll l) := h1
  have h2 : ∀ x, x ∈ names (numberAll l) ↔ x ∈ l := h2
  refine ⟨fun x => ?_, fun i => ?_, fun x i => ?_, ⟨names (numberAll l), h1.nodup, h2, ?_⟩, ?_⟩
  · rw [← h2]
    constructor
    · rintro ⟨i, hi⟩
      exact List.mem_of_getElem? ((noOf_some_iff h1).1 hi)
    · exact noOf_of_mem h1
  · rw [nameOf_eq h1]
    constructor
    · rintro ⟨x, hx⟩
      obtain ⟨h, -⟩ := List.getElem?_eq_some_iff.1 hx
      simpa [names] using h
    · intro h
      have : i < (names (numberAll l)).length := by simpa [names] using h
      exact ⟨_, List.getElem?_eq_getElem this⟩
  · rw [noOf_some_iff h1, nameOf_eq h1]
  · simp [names]
  · intro x i hx
    have hW' : WF (numberAll (l ++ l')) := (fromOrigins_spec (l ++ l')).1
    rw [noOf_some_iff h1] at hx
    rw [noOf_some_iff hW']
    have hpre : names (numberAll l) <+: names (numberAll (l ++ l')) := by
      have := (foldl_addEntry id l' (numberAll l) h1).2.2
      simpa [numberAll, List.foldl_append] using this
    obtain ⟨hi, e⟩ := List.getElem?_eq_some_iff.1 hx
    rw [List.prefix_iff_getElem?] at hpre
    rw [hpre i hi, e]

/-- C03, LSDB part: the numbered names are exactly the originators and their advertised neighbours;
from coordinate LSAs exactly the originators. -/
theorem C03_known_routers (lsas : List AdjAd) (origins : List Name) :
    (∀ x, (∃ i, (fromAdj lsas).noOf x = some i) ↔
      ∃ l ∈ lsas, x = l.origin ∨ ∃ a ∈ l.adjs, x = a.1) ∧
    (∀ x i, (fromAdj lsas).noOf x = some i ↔ (fromAdj lsas).nameOf i = some x) ∧
    (∀ i, (∃ x, (fromAdj lsas).nameOf i = some x) ↔ i < (fromAdj lsas).length) ∧
    (∀ x, (∃ i, (fromOrigins origins).noOf x = some i) ↔ x ∈ origins) := by
  obtain ⟨h1, h2⟩ := fromAdj_spec lsas
  refine ⟨fun x => ?_, fun x i => ?_, fun i => ?_, (C03_numbering origins []).1⟩
  · rw [← h2]
    exact ⟨fun ⟨i, hi⟩ => List.mem_of_getElem? ((noOf_some_iff h1).1 hi), noOf_of_mem h1⟩
  · rw [noOf_some_iff h1, nameOf_eq h1]
  · rw [nameOf_eq h1]
    constructor
    · rintro ⟨x, hx⟩
      obtain ⟨h, -⟩ := List.getElem?_eq_some_iff.1 hx
      simpa [names] using h
    · intro h
      have : i < (names (fromAdj lsas)).length := by simpa [names] using h
      exact ⟨_, List.getElem?_eq_getElem this⟩

example : numberAll [Witness.b, Witness.a, Witness.b, Witness.c] =
    [(Witness.b, 0), (Witness.a, 1), (Witness.c, 2)] := by decide +kernel

/-! ### C04 -/

/-- C04: in the matrix used by the computation, the cells of a pair of known routers are equal in
both directions; the link counts as usable iff both routers list each other with a cost that is
non-negative once rounded up; then its cost is at least both rounded-up costs and equal to one of
them (the larger). -/
theorem C04_agreed_cost (lsas : List AdjAd) (hwf : WellFormed lsas) :
    ∃ m, makeAdjMatrix lsas (fromAdj lsas) = some m ∧
    ∀ a b r c, (fromAdj lsas).noOf a = some r → (fromAdj lsas).noOf b = some c →
      ∃ cell, m.get? r c = some cell ∧ m.get? c r = some cell ∧
        (cell.ge0 = true ↔ ∃ x y, Advertises lsas a b x ∧ Advertises lsas b a y ∧
          x.ceil.ge0 = true ∧ y.ceil.ge0 = true) ∧
        (∀ x y, Advertises lsas a b x → Advertises lsas b a y → x.ceil.ge0 = true →
          y.ceil.ge0 = true → (cell = x.ceil ∨ cell = y.ceil) ∧
            cell.flt x.ceil = false ∧ cell.flt y.ceil = false) ∧
        (∀ k : Int, (cell = .fin k ∧ 0 ≤ k) ↔ Link lsas a b k) := by
  obtain ⟨hW, -⟩ := fromAdj_spec lsas
  obtain ⟨m, m0, e, n, s0, s⟩ := makeAdjMatrix_spec hW hwf
  refine ⟨m, e, fun a b r c ha hb => ?_⟩
  have hr : r < m.n := n ▸ noOf_lt hW ha
  have hc : c < m.n := n ▸ noOf_lt hW hb
  refine ⟨m.at' r c, by simp [Mat.get?, hr, hc], ?_, ?_, ?_, ?_⟩
  · simp only [Mat.get?, hr, hc, and_self, if_true, s r c hr hc, s c r hc hr]
    rw [corr_comm]
  · rw [s r c hr hc]
    have hge : ∀ {x y : Ext Int}, (corr x y).ge0 = true ↔ x.ge0 = true ∧ y.ge0 = true := by
      intro x y
      unfold corr
      by_cases hf : Ext.feq y x = true
      · have := feq_eq hf; subst this; simp [hf]
      · rw [if_neg hf]
        by_cases hg : (Ext.ge0 x && Ext.ge0 y) = true
        · have hg' : x.ge0 = true ∧ y.ge0 = true := by simpa using hg
          rw [if_pos hg]
          simp only [Ext.fmax]
          by_cases hfl : x.flt y = true <;> simp [hfl, hg']
        · have : ¬ (x.ge0 = true ∧ y.ge0 = true) := by simpa using hg
          rw [if_neg hg]
          exact ⟨fun h => by simp [nonAdjacent, Ext.ge0] at h, fun h => absurd h this⟩
    have adv : ∀ {a b r c}, (fromAdj lsas).noOf a = some r → (fromAdj lsas).noOf b = some c →
        ((m0 r c).ge0 = true ↔ ∃ x, Advertises lsas a b x ∧ x.ceil.ge0 = true) := by
      intro a b r c ha hb
      obtain ⟨h1, h2⟩ := s0 a b r c ha hb
      constructor
      · intro h
        by_cases hx : ∃ x, Advertises lsas a b x
        · obtain ⟨x, hx⟩ := hx
          exact ⟨x, hx, h1 x hx ▸ h⟩
        · rw [h2 (fun x h => hx ⟨x, h⟩)] at h; simp [nonAdjacent, Ext.ge0] at h
      · rintro ⟨x, hx, h⟩
        rw [h1 x hx]; exact h
    rw [hge, adv ha hb, adv hb ha]
    constructor
    · rintro ⟨⟨x, h1, h2⟩, y, h3, h4⟩; exact ⟨x, y, h1, h3, h2, h4⟩
    · rintro ⟨x, y, h1, h3, h2, h4⟩; exact ⟨⟨x, h1, h2⟩, y, h3, h4⟩
  · intro x y hx hy gx gy
    rw [s r c hr hc, (s0 a b r c ha hb).1 x hx, (s0 b a c r hb ha).1 y hy]
    unfold corr
    have irr : ∀ z : Ext Int, z.flt z = false := by intro z; cases z <;> simp [Ext.flt]
    by_cases hf : Ext.feq y.ceil x.ceil = true
    · rw [if_pos hf, feq_eq hf]; exact ⟨Or.inl rfl, irr _, irr _⟩
    · rw [if_neg hf, gx, gy]
      simp only [Bool.and_self, if_true, Ext.fmax]
      by_cases hfl : x.ceil.flt y.ceil = true
      · rw [if_pos hfl]
        refine ⟨Or.inr rfl, ?_, irr _⟩
        revert hfl
        cases x.ceil <;> cases y.ceil <;> simp [Ext.flt]
        omega
      · rw [if_neg hfl]
        exact ⟨Or.inl rfl, irr _, by simpa using hfl⟩
  · intro k
    rw [← edge_iff_link hW n s0 s ha hb k]
    simp [Edge, hr, hc]

/-- The link a-b of the witness costs max(10, ceil 9.5) = 10 and c-d is unusable. -/
example : Link Witness.lsas Witness.a Witness.b 10 :=
  ⟨10, 19/2, ⟨_, List.mem_cons_self, rfl, by decide +kernel⟩,
    ⟨_, List.mem_cons_of_mem _ List.mem_cons_self, rfl, by decide +kernel⟩, by decide +kernel, by decide +kernel,
    by decide +kernel⟩

/-! ### C05, C06: single path -/

/-- C05: with one face per prefix the calls made into the (cleared) routing table are: exactly one
for each other router reachable at a total cost below the limit, none for anything else; and its
cost is the least total link cost over all walks. -/
theorem C05_shortest_paths (lsas : List AdjAd) (hwf : WellFormed lsas) (self : Name)
    (faceOf : Name → Uri) :
    ∃ out, calculateFromLsdb 1 self faceOf lsas = some out ∧
      (∀ d, (∃ nh, (d, nh) ∈ out) ↔
        d ≠ self ∧ ∃ k, Path (Link lsas) self d k ∧ k < costLimit) ∧
      (∀ d nh, (d, nh) ∈ out → ∃ k : Int, nh.cost = (k : Rat) ∧ Shortest (Link lsas) self d k) ∧
      (out.map (·.1)).Nodup := by
  obtain ⟨out, e, o1, o2, o3⟩ := single_spec lsas hwf self faceOf
  refine ⟨out, e, fun d => ⟨?_, ?_⟩, ?_, o1⟩
  · rintro ⟨nh, h⟩
    obtain ⟨hd, w, k2, k, hop, h1, h2, h3, -⟩ := o2 d nh h
    exact ⟨hd, k, h3.1, h2⟩
  · rintro ⟨hd, k, h1, h2⟩
    exact o3 d k hd h1 h2
  · intro d nh h
    obtain ⟨hd, w, k2, k, hop, h1, h2, h3, -⟩ := o2 d nh h
    exact ⟨k, by rw [h1], h3⟩

/-- C06: the face given for `d` is that of a router directly linked to this one, and the link cost
plus that router's own least cost to `d` is the installed cost. -/
theorem C06_next_hop_on_shortest_path (lsas : List AdjAd) (hwf : WellFormed lsas) (self : Name)
    (faceOf : Name → Uri) :
    ∃ out, calculateFromLsdb 1 self faceOf lsas = some out ∧
      ∀ d nh, (d, nh) ∈ out → ∃ (n : Name) (w k : Int), n ≠ self ∧ Link lsas self n w ∧
        nh.uri = faceOf n ∧ Shortest (Link lsas) n d k ∧ nh.cost = ((w + k : Int) : Rat) := by
  obtain ⟨out, e, o1, o2, o3⟩ := single_spec lsas hwf self faceOf
  refine ⟨out, e, fun d nh h => ?_⟩
  obtain ⟨hd, w, k2, k, hop, h1, h2, h3, h4, h5, h6, h7⟩ := o2 d nh h
  exact ⟨hop, w, k2, h4, h5, by rw [h1], h6, by rw [h1, h7]⟩

example : calculateFromLsdb 1 Witness.a Witness.face Witness.lsas =
    some [(Witness.b, ⟨"udp4://b", 10, false⟩), (Witness.c, ⟨"udp4://b", 15, false⟩)] := by
  decide +kernel

/-! ### C07: multi path -/

/-- C07: with any other number of faces per prefix the set of offers is exactly: for every
destination `d ≠ self` and every directly linked `n` from which `d` can be reached without passing
through this router at a total below the limit, the face of `n` with the link cost plus the cheapest
such walk. -/
theorem C07_multipath_offers (lsas : List AdjAd) (hwf : WellFormed lsas) (maxFaces : Nat)
    (hmf : maxFaces ≠ 1) (self : Name) (faceOf : Name → Uri) :
    ∃ out, calculateFromLsdb maxFaces self faceOf lsas = some out ∧
      ∀ d nh, (d, nh) ∈ out ↔ d ≠ self ∧ ∃ (n : Name) (w k : Int), n ≠ self ∧
        Link lsas self n w ∧ Shortest (Avoid self (Link lsas)) n d k ∧ w + k < costLimit ∧
        nh = ⟨faceOf n, ((w + k : Int) : Rat), false⟩ :=
  multi_spec lsas hwf maxFaces hmf self faceOf

/-- C07, second part: a destination is offered iff it is reachable below the limit, no offer is
below the overall least cost, and some offer attains it. -/
theorem C07_best_offer_is_shortest (lsas : List AdjAd) (hwf : WellFormed lsas) (maxFaces : Nat)
    (hmf : maxFaces ≠ 1) (self : Name) (faceOf : Name → Uri) :
    ∃ out, calculateFromLsdb maxFaces self faceOf lsas = some out ∧
      (∀ d, (∃ nh, (d, nh) ∈ out) ↔
        d ≠ self ∧ ∃ k, Path (Link lsas) self d k ∧ k < costLimit) ∧
      (∀ d, d ≠ self → ∀ k : Int, Shortest (Link lsas) self d k → k < costLimit →
        (∃ nh, (d, nh) ∈ out ∧ nh.cost = (k : Rat)) ∧
        ∀ nh, (d, nh) ∈ out → (k : Rat) ≤ nh.cost) := by
  obtain ⟨out, e, o⟩ := multi_spec lsas hwf maxFaces hmf self faceOf
  have hav : ∀ a b w, Avoid self (Link lsas) a b w → Link lsas a b w := fun a b w h => h.1
  have hnn : ∀ a b w, Avoid self (Link lsas) a b w → 0 ≤ w := fun a b w h => Link.nonneg a b w h.1
  have down : ∀ d, d ≠ self → ∀ k, Path (Link lsas) self d k → k < costLimit →
      ∃ nh, ∃ k' : Int, k' ≤ k ∧ (d, nh) ∈ out ∧ nh.cost = (k' : Rat) := by
    intro d hd k hp hk
    obtain ⟨n, w, k', h1, h2, h3, h4⟩ := hp.avoid Link.nonneg hd
    obtain ⟨k2, h5, h6⟩ := Shortest.exists hnn h3
    exact ⟨_, w + k2, by omega, (o d _).2 ⟨hd, n, w, k2, h1, h2, h6, by omega, rfl⟩, rfl⟩
  have up : ∀ d nh, (d, nh) ∈ out → d ≠ self ∧ ∃ k : Int, nh.cost = (k : Rat) ∧
      Path (Link lsas) self d k ∧ k < costLimit := by
    intro d nh h
    obtain ⟨hd, n, w, k, h1, h2, h3, h4, h5⟩ := (o d nh).1 h
    exact ⟨hd, w + k, by rw [h5], (Path.single h2).trans (h3.1.mono hav), h4⟩
  refine ⟨out, e, fun d => ⟨?_, ?_⟩, ?_⟩
  · rintro ⟨nh, h⟩
    obtain ⟨hd, k, -, h1, h2⟩ := up d nh h
    exact ⟨hd, k, h1, h2⟩
  · rintro ⟨hd, k, h1, h2⟩
    obtain ⟨nh, -, -, h3, -⟩ := down d hd k h1 h2
    exact ⟨nh, h3⟩
  · intro d hd k hsh hk
    refine ⟨?_, fun nh h => ?_⟩
    · obtain ⟨nh, k', h1, h2, h3⟩ := down d hd k hsh.1 hk
      obtain ⟨-, k2, h4, h5, -⟩ := up d nh h2
      have hk2 := hsh.2 k2 h5
      have : k' = k2 := by rw [h3] at h4; exact_mod_cast h4
      exact ⟨nh, h2, by rw [h3]; congr 1; omega⟩
    · obtain ⟨-, k2, h4, h5, -⟩ := up d nh h
      rw [h4]; exact Rat.intCast_le_intCast.2 (hsh.2 k2 h5)

example : calculateFromLsdb 0 Witness.a Witness.face Witness.lsas =
    some [(Witness.b, ⟨"udp4://b", 10, false⟩), (Witness.c, ⟨"udp4://b", 15, false⟩),
          (Witness.b, ⟨"udp4://c", 30, false⟩), (Witness.c, ⟨"udp4://c", 25, false⟩)] := by
  decide +kernel

/-! ### C08, C09 -/

/-- C08: for every LSDB content (no assumption at all), number of faces, own name and face lookup,
the computation returns (no out-of-range access, no endless loop: those are `none` in the model) and
never calls the routing table for this router itself. -/
theorem C08_no_fault (lsas : List AdjAd) (maxFaces : Nat) (self : Name) (faceOf : Name → Uri) :
    ∃ out, calculateFromLsdb maxFaces self faceOf lsas = some out ∧
      ∀ p ∈ out, p.1 ≠ self := by
  obtain ⟨out, e, h⟩ := calculate_total lsas maxFaces self faceOf
  exact ⟨out, e, fun p hp => (h p.1 p.2 hp).1⟩

/-- The checked accesses really can fail in the model: an index outside the matrix is `none`. -/
example : dijkstra ⟨2, fun _ _ => .fin 1⟩ 5 = none := by rfl
/-- A cyclic parent array would be reported as non-termination. -/
example : getNextHop ⟨⟨2, fun i => some (1 - i)⟩, ⟨2, fun _ => 0⟩⟩ 0 0 = none := by rfl

/-- C09, first part: whatever the advertised doubles are, every installed cost is a finite integer,
at least 0 and below the limit. -/
theorem C09_costs_bounded (lsas : List AdjAd) (maxFaces : Nat) (self : Name) (faceOf : Name → Uri) :
    ∃ out, calculateFromLsdb maxFaces self faceOf lsas = some out ∧
      ∀ p ∈ out, ∃ z : Int, p.2.cost = (z : Rat) ∧ 0 ≤ z ∧ z < costLimit := by
  obtain ⟨out, e, h⟩ := calculate_total lsas maxFaces self faceOf
  exact ⟨out, e, fun p hp => (h p.1 p.2 hp).2.1⟩

/-- C09, second part: every route follows links on which both ends advertised finite costs that are
not negative when rounded up (`Link`), and its cost is the sum over such links. -/
theorem C09_only_agreed_links (lsas : List AdjAd) (hwf : WellFormed lsas) (maxFaces : Nat)
    (self : Name) (faceOf : Name → Uri) :
    ∃ out, calculateFromLsdb maxFaces self faceOf lsas = some out ∧
      ∀ d nh, (d, nh) ∈ out → ∃ k : Int, nh.cost = (k : Rat) ∧ Path (Link lsas) self d k := by
  by_cases hmf : maxFaces = 1
  · subst hmf
    obtain ⟨out, e, -, h, -⟩ := C05_shortest_paths lsas hwf self faceOf
    exact ⟨out, e, fun d nh hm => by obtain ⟨k, h1, h2⟩ := h d nh hm; exact ⟨k, h1, h2.1⟩⟩
  · obtain ⟨out, e, o⟩ := multi_spec lsas hwf maxFaces hmf self faceOf
    refine ⟨out, e, fun d nh hm => ?_⟩
    obtain ⟨hd, n, w, k, h1, h2, h3, h4, h5⟩ := (o d nh).1 hm
    exact ⟨w + k, by rw [h5], (Path.single h2).trans (h3.1.mono (fun a b w h => h.1))⟩

/-- Hostile costs on every link of a two-router network: no route, no crash. -/
example : ∀ x ∈ [Ext.nan, .pinf, .ninf, .fin (-1), .fin 4294967296],
    calculateFromLsdb 1 Witness.a Witness.face
      [⟨Witness.a, [(Witness.b, .fin 1)]⟩, ⟨Witness.b, [(Witness.a, x)]⟩] = some [] := by
  decide +kernel

/-! ### C10 -/

/-- C10: two LSDBs whose adjacency LSAs say the same (in particular, the same LSAs in any order)
give the same destinations with the same costs. -/
theorem C10_order_independent (lsas lsas' : List AdjAd) (hperm : lsas.Perm lsas')
    (hwf : WellFormed lsas) (maxFaces : Nat) (self : Name) (faceOf : Name → Uri) :
    ∃ out out', calculateFromLsdb maxFaces self faceOf lsas = some out ∧
      calculateFromLsdb maxFaces self faceOf lsas' = some out' ∧
      (∀ d c, (∃ nh, (d, nh) ∈ out ∧ nh.cost = c) ↔ (∃ nh, (d, nh) ∈ out' ∧ nh.cost = c)) ∧
      (maxFaces ≠ 1 → ∀ p, p ∈ out ↔ p ∈ out') := by
  have hwf' : WellFormed lsas' := ⟨(hperm.map _).nodup_iff.1 hwf.origins,
    fun l hl => hwf.adjs l (hperm.mem_iff.2 hl)⟩
  have hlink : Link lsas = Link lsas' := by
    have hadv : Advertises lsas = Advertises lsas' := by
      funext a b x
      apply propext
      unfold Advertises
      constructor
      · rintro ⟨l, h, r⟩; exact ⟨l, hperm.mem_iff.1 h, r⟩
      · rintro ⟨l, h, r⟩; exact ⟨l, hperm.mem_iff.2 h, r⟩
    unfold Link
    rw [hadv]
  by_cases hmf : maxFaces = 1
  · subst hmf
    obtain ⟨out, e, h1, h2, -⟩ := C05_shortest_paths lsas hwf self faceOf
    obtain ⟨out', e', h1', h2', -⟩ := C05_shortest_paths lsas' hwf' self faceOf
    rw [← hlink] at h1' h2'
    refine ⟨out, out', e, e', fun d c => ⟨?_, ?_⟩, fun h => absurd rfl h⟩
    · rintro ⟨nh, hm, rfl⟩
      obtain ⟨nh', hm'⟩ := (h1' d).2 ((h1 d).1 ⟨nh, hm⟩)
      obtain ⟨k, g1, g2⟩ := h2 d nh hm
      obtain ⟨k', g1', g2'⟩ := h2' d nh' hm'
      exact ⟨nh', hm', by rw [g1, g1', g2.unique g2']⟩
    · rintro ⟨nh, hm, rfl⟩
      obtain ⟨nh', hm'⟩ := (h1 d).2 ((h1' d).1 ⟨nh, hm⟩)
      obtain ⟨k, g1, g2⟩ := h2' d nh hm
      obtain ⟨k', g1', g2'⟩ := h2 d nh' hm'
      exact ⟨nh', hm', by rw [g1, g1', g2.unique g2']⟩
  · obtain ⟨out, e, o⟩ := multi_spec lsas hwf maxFaces hmf self faceOf
    obtain ⟨out', e', o'⟩ := multi_spec lsas' hwf' maxFaces hmf self faceOf
    rw [← hlink] at o'
    have heq : ∀ p, p ∈ out ↔ p ∈ out' := by
      rintro ⟨d, nh⟩; rw [o, o']
    refine ⟨out, out', e, e', fun d c => ?_, fun _ => heq⟩
    constructor
    · rintro ⟨nh, hm, h⟩; exact ⟨nh, (heq _).1 hm, h⟩
    · rintro ⟨nh, hm, h⟩; exact ⟨nh, (heq _).2 hm, h⟩

example : ((calculateFromLsdb 1 Witness.a Witness.face Witness.lsas.reverse).map
    (·.map (fun p => (p.1, p.2.cost)))) = some [(Witness.c, 15), (Witness.b, 10)] := by
  decide +kernel

end Nlsr
