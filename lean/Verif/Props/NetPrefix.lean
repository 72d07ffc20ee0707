import Verif.Props.NetForward
import Verif.Props.Router
import Verif.Props.FibHist
/-
C89: packets for a prefix, in a network of routers that run the daemon, from the Name LSAs to the FIBs.
-/
namespace Nlsr
open LS

namespace Fwd
variable {V : Type}

/-- Whichever hops are taken, a packet at `r` comes to a place in `S`, over links that add up to `k`. -/
inductive Inevitable (G : V → V → Int → Prop) (F : V → V → Prop) (S : V → Prop) : V → Int → Prop
  | here {r : V} : S r → Inevitable G F S r 0
  | hop {r : V} {k : Int} (w rest : V → Int) : (∃ n, F r n) → (∀ n, F r n → G r n (w n) ∧ k = w n + rest n) →
      (∀ n, F r n → Inevitable G F S n (rest n)) → Inevitable G F S r k

theorem Inevitable.of {G : V → V → Int → Prop} {F : V → V → Prop} {S : V → Prop} {r : V} {k : Int} (h : ∃ n, F r n)
    (h' : ∀ n, F r n → ∃ w k', G r n w ∧ k = w + k' ∧ Inevitable G F S n k') : Inevitable G F S r k := by
  have : ∀ n, ∃ x : Int × Int, F r n → G r n x.1 ∧ k = x.1 + x.2 ∧ Inevitable G F S n x.2 := by
    intro n
    by_cases hn : F r n
    · obtain ⟨w, k', h1⟩ := h' n hn
      exact ⟨(w, k'), fun _ => h1⟩
    · exact ⟨(0, 0), fun h => absurd h hn⟩
  obtain ⟨f, hf⟩ := Classical.axiomOfChoice this
  exact .hop (fun n => (f n).1) (fun n => (f n).2) h (fun n hn => ⟨(hf n hn).1, (hf n hn).2.1⟩) (fun n hn => (hf n hn).2.2)

end Fwd

/-- What every next hop of an entry is. -/
theorem every_hop (lsas : List AdjAd) (hw : WellFormed lsas) (maxFaces : Nat) (r : Name) (face : Name → Uri)
    {out : List (Name × NextHop)} (ho : calculateFromLsdb maxFaces r face lsas = some out) :
    ∀ e ∈ RTable.build out, ∀ h ∈ e.hops, ∃ (n : Name) (w k : Int), Link lsas r n w ∧
      h.uri = face n ∧ Path (Link lsas) n e.dest k ∧ h.cost = ((w + k : Int) : Rat) := by
  obtain ⟨-, -, c3⟩ := C13_one_entry_per_destination out
  intro e he h hh
  have hm := ((c3 e he).2.1 h hh).1
  by_cases hmf : maxFaces = 1
  · subst hmf
    obtain ⟨out'', e'', g⟩ := C06_next_hop_on_shortest_path lsas hw r face
    rw [ho] at e''
    injection e'' with e''; subst e''
    obtain ⟨n, w, k, b1, b2, b3, b4, b5⟩ := g _ _ hm
    exact ⟨n, w, k, b2, b3, b4.1, b5⟩
  · obtain ⟨out', e', f⟩ := C07_multipath_offers lsas hw maxFaces hmf r face
    rw [ho] at e'
    injection e' with e'; subst e'
    obtain ⟨hd, n, w, k, a1, a2, a3, a4, a5⟩ := (f _ _).1 hm
    exact ⟨n, w, k, a2, by rw [a5], a3.1.mono (fun a b w h => h.1), by rw [a5]⟩

namespace Net
variable {ι : Type} [DecidableEq ι]

/-! ### vocabulary -/

/-- Router `j` advertises `p`, in the Name LSA it stores of itself. -/
def Serves (c : ι → RConf) (N : State ι) (p : Name) (j : ι) : Prop := ∃ x, Announces (N j).r.core.lsdb (c j).lsdb.router p x

/-- Router `i` stores a Name LSA of router `j` with number `k`. -/
def HoldsNames (c : ι → RConf) (N : State ι) (i j : ι) (k : Nat) : Prop :=
  ∃ o ∈ (N i).r.core.lsdb.db, o.lsa.origin = (c j).lsdb.router ∧ o.lsa.type = .name ∧ o.lsa.seq = k

/-- Every router stores the Name LSAs that the others store of themselves. -/
def NamesExchanged (c : ι → RConf) (N : State ι) : Prop := ∀ i j k, HoldsNames c N i j k ↔ HoldsNames c N j j k

/-- `p` is the name of no router and no neighbour (their routes are not taken from the LSDB). -/
structure Plain (c : ι → RConf) (N : State ι) (p : Name) : Prop where
  router : ∀ i, p ≠ (c i).lsdb.router
  nbr : ∀ i, ∀ a ∈ (N i).r.nbr.adjs, a.name ≠ p

/-- Router `i` hands a packet for `p` to router `j`: the FIB lists the face URI of its neighbour `j` for `p`, and
the routing table says of no face listed that it is cheaper. -/
def ForwardsTo (c : ι → RConf) (N : State ι) (p : Name) (i j : ι) : Prop :=
  ∃ a ∈ (N i).r.nbr.adjs, a.name = (c j).lsdb.router ∧ a.uri ∈ (N i).r.fib.faces p ∧
    ∃ k, Reaches (c i).lsdb.router (N i).r p a.uri k ∧
      ∀ v ∈ (N i).r.fib.faces p, ∀ k', Reaches (c i).lsdb.router (N i).r p v k' → k ≤ k'

/-- The routers nearest to `i` that advertise `p` are at distance `k`. -/
def Nearest (c : ι → RConf) (N : State ι) (p : Name) (i : ι) (k : Int) : Prop :=
  (∃ d, Serves c N p d ∧ Path (Up c N) i d k) ∧ ∀ d k', Serves c N p d → Path (Up c N) i d k' → k ≤ k'

section
variable {c : ι → RConf} {N : State ι} {p : Name}

theorem Nearest.unique {i : ι} {k k' : Int} (h : Nearest c N p i k) (h' : Nearest c N p i k') : k = k' := by
  obtain ⟨⟨d, h1, h2⟩, h3⟩ := h
  obtain ⟨⟨d', h1', h2'⟩, h3'⟩ := h'
  have := h3 _ _ h1' h2'
  have := h3' _ _ h1 h2
  omega

theorem up_nonneg (hw : Wired N) : ∀ a b w, Up c N a b w → 0 ≤ w := fun _ _ _ h => Int.le_of_lt (h.pos hw)

theorem Nearest.exists (hw : Wired N) {i d : ι} {k : Int} (hd : Serves c N p d) (hk : Path (Up c N) i d k) :
    ∃ k', k' ≤ k ∧ Nearest c N p i k' := by
  have hn : ∀ d k, Path (Up c N) i d k → 0 ≤ k := fun d k h => Path.nonneg (up_nonneg hw) h
  have : ∀ (m : Nat) (d : ι) (k : Int), Serves c N p d → Path (Up c N) i d k → k.toNat ≤ m → ∃ k', k' ≤ k ∧ Nearest c N p i k' := by
    intro m
    induction m with
    | zero =>
      intro d k hd hk hm
      refine ⟨k, Int.le_refl _, ⟨d, hd, hk⟩, fun d' k' _ hk' => ?_⟩
      have := hn _ _ hk
      have := hn _ _ hk'
      omega
    | succ m ih =>
      intro d k hd hk hm
      by_cases hex : ∃ d' k', Serves c N p d' ∧ Path (Up c N) i d' k' ∧ k' < k
      · obtain ⟨d', k', h1, h2, h3⟩ := hex
        have := hn _ _ h2
        obtain ⟨k2, h4, h5⟩ := ih d' k' h1 h2 (by omega)
        exact ⟨k2, by omega, h5⟩
      · exact ⟨k, Int.le_refl _, ⟨d, hd, hk⟩, fun d' k' h1 h2 => Int.not_lt.1 fun h3 => hex ⟨d', k', h1, h2, h3⟩⟩
  exact this k.toNat d k hd hk (Nat.le_refl _)

/-- Who advertises a prefix is the same everywhere. -/
theorem announces_serves (hs : Sane c) (h : Reachable c N) (hn : NamesExchanged c N) (i j : ι) :
    (∃ x, Announces (N i).r.core.lsdb (c j).lsdb.router p x) ↔ Serves c N p j := by
  have agree : ∀ {a b : ι}, (∀ k, HoldsNames c N a j k → HoldsNames c N b j k) →
      (∃ x, Announces (N a).r.core.lsdb (c j).lsdb.router p x) → ∃ x, Announces (N b).r.core.lsdb (c j).lsdb.router p x := by
    rintro a b hab ⟨x, o, ho, horg, m, hm, hx⟩
    have ht : o.lsa.type = .name := by unfold Lsa.type; rw [hm]; rfl
    obtain ⟨o', ho', h1, h2, h3⟩ := hab _ ⟨o, ho, horg, ht, rfl⟩
    have := C85_agree_partial hs h (.stored a o ho rfl) (.stored b o' ho' rfl) (horg.trans h1.symm) (ht.trans h2.symm) h3.symm
    rw [hm] at this
    cases hc : o'.lsa.content with
    | names m' =>
      rw [hc] at this
      obtain ⟨k, hk⟩ := (this p).1 ⟨x, hx⟩
      exact ⟨k, o', ho', h1, m', hc, hk⟩
    | adj _ => rw [hc] at this; exact this.elim
    | coord _ _ => rw [hc] at this; exact this.elim
  exact ⟨agree (fun k => (hn i j k).1), agree (fun k => (hn i j k).2)⟩

/-- The hops of a router's table in a settled network. -/
theorem Settled.hops (hs : Sane c) (h : Reachable c N) (hq : Settled c N) (hw : Wired N) (i : ι) :
    ∀ e ∈ (N i).r.core.rt.table, ∀ x ∈ e.hops, ∃ d, e.dest = (c d).lsdb.router ∧
      ∃ j w k, (∃ a ∈ (N i).r.nbr.adjs, a.name = (c j).lsdb.router ∧ a.uri = x.uri) ∧ Up c N i j w ∧
        Path (Up c N) j d k ∧ x.cost = ((w + k : Int) : Rat) := by
  have ht := ((h.ninv hs).trusted i).reachable.all
  intro e he x hx
  obtain ⟨d, -, hde, -⟩ := (hq.first hs h hw i).1 e he
  obtain ⟨db, hp, htab⟩ := hq.computed i
  unfold Core.lsTable at htab
  obtain ⟨out, hout, htab⟩ := Option.map_eq_some_iff.1 htab
  have hwf := adjAds_wellFormed ((h.ninv hs).node i).reach.inv hp
  have f := every_hop (Core.adjAds db) hwf _ _ _ hout
  rw [htab] at f
  obtain ⟨n, w, k, g1, g2, g3, g4⟩ := f e he x hx
  obtain ⟨-, j, -, rfl⟩ := Settled.link_routers hs h hp g1
  have hup := (hq.link hs h hw hp i j w).1 g1
  refine ⟨d, hde, j, w, k, ?_, hup, ?_, g4⟩
  · obtain ⟨x', y, ⟨u, a, ha, -, hn, -⟩, -⟩ := hup
    refine ⟨a, ha, hn, ?_⟩
    rw [g2, ht.synced.lsdb]
    have : AdjacencyList.find (N i).r.nbr.adjs (c j).lsdb.router = some a := by
      unfold AdjacencyList.find
      cases hf : (N i).r.nbr.adjs.find? (fun b => b.name == (c j).lsdb.router) with
      | none =>
        have := List.find?_eq_none.1 hf a ha
        simp [hn] at this
      | some b =>
        have h1 := List.mem_of_find?_eq_some hf
        have h2 := List.find?_some hf
        simp only [beq_iff_eq] at h2
        rw [Lsdb.nodup_inj ht.base.nbr.ninv.nodup h1 ha (h2.trans hn.symm)]
    unfold AdjacencyList.getAdjacent
    rw [this]
  · rw [hde] at g3; exact (hq.path hs h hw hp _ _ _).1 g3

/-- What it takes for a face to lead to an advertiser. -/
theorem reaches_path (hs : Sane c) (h : Reachable c N) (hq : Settled c N) (hn : NamesExchanged c N) (hw : Wired N) {i : ι} {u : Uri} {k : Rat}
    (hr : Reaches (c i).lsdb.router (N i).r p u k) : ∃ j w k' d, (∃ a ∈ (N i).r.nbr.adjs, a.name = (c j).lsdb.router ∧ a.uri = u) ∧
      Up c N i j w ∧ Serves c N p d ∧ Path (Up c N) j d k' ∧ k = ((w + k' : Int) : Rat) := by
  obtain ⟨r, hr, hx, e, he, rfl, x, hx', rfl, rfl⟩ := hr
  obtain ⟨d, hde, j, w, k', h1, h2, h3, h4⟩ := hq.hops hs h hw i e he x hx'
  rw [hde] at hx
  exact ⟨j, w, k', d, h1, h2, (announces_serves hs h hn i d).1 hx, h3, h4⟩

theorem best (hs : Sane c) (h : Reachable c N) (hq : Settled c N) (hu : ∀ i, (N i).r.undef = false) (hp : Plain c N p) (i : ι) :
    BestFaces (c i).lsdb.router (N i).r p (c i).maxFaces ((N i).r.fib.faces p) := by
  refine C82_best_faces_partial ((h.ninv hs).trusted i).reachable (hq.mode i) (hu i) p (hp.router i) (hp.nbr i) ?_
  intro o ho e
  obtain ⟨j, h1, -⟩ := C85_source hs h (.stored i o ho rfl)
  exact hp.router j (e.symm.trans h1)

/-- The nearest advertiser is listed, by a face that no other one beats. -/
theorem nearest_reached (hs : Sane c) (h : Reachable c N) (hq : Settled c N) (hn : NamesExchanged c N) (hw : Wired N)
    (hu : ∀ i, (N i).r.undef = false) (hp : Plain c N p) {i : ι} {k : Int} (hk : Nearest c N p i k) (hlim : k < costLimit)
    (hi : ¬ Serves c N p i) :
    ∃ v ∈ (N i).r.fib.faces p, Reaches (c i).lsdb.router (N i).r p v (k : Rat) := by
  have hb := best hs h hq hu hp i
  obtain ⟨⟨d, h1, h2⟩, h3⟩ := hk
  have hdi : d ≠ i := fun e => hi (e ▸ h1)
  obtain ⟨e, he, hde⟩ := (hq.first hs h hw i).2.1 d hdi k h2 hlim
  obtain ⟨d', -, h4, hd, h5, j, w, k', -, -, -, h6, -, h8⟩ := (hq.first hs h hw i).1 e he
  have : d' = d := hs.distinct _ _ (h4.symm.trans hde)
  subst this
  have hk' : w + k' = k := by
    have := h6.2 _ h2
    have := h3 _ _ h1 h6.1
    omega
  have hmem : hd ∈ e.hops := List.mem_of_mem_head? (by rw [h5]; rfl)
  have hreach : Reaches (c i).lsdb.router (N i).r p hd.uri (k : Rat) :=
    ⟨_, fun e => hdi (hs.distinct _ _ e), (announces_serves hs h hn i _).2 h1, e, he, hde, hd, hmem, rfl, by rw [h8, hk']⟩
  by_cases hF : hd.uri ∈ (N i).r.fib.faces p
  · exact ⟨_, hF, hreach⟩
  · obtain ⟨hm, hlen⟩ := hb.full _ _ hreach hF
    cases hfaces : (N i).r.fib.faces p with
    | nil => rw [hfaces] at hlen; exact absurd hlen.symm hm
    | cons v vs =>
      have hv : v ∈ (N i).r.fib.faces p := by rw [hfaces]; exact List.mem_cons_self
      obtain ⟨q, hq1, hq2⟩ := hb.cheap v hv _ _ hreach hF
      refine ⟨v, List.mem_cons_self, ?_⟩
      obtain ⟨j, w, k2, d2, -, g2, g3, g4, rfl⟩ := reaches_path hs h hq hn hw hq1
      have := h3 _ _ g3 ((Path.single g2).trans g4)
      have hle : w + k2 ≤ k := by exact_mod_cast hq2
      have : w + k2 = k := by omega
      rw [← this]; exact hq1

/-- Each hop is to a router that is nearer to an advertiser, by what the link costs. -/
theorem forwards_nearer (hs : Sane c) (h : Reachable c N) (hq : Settled c N) (hn : NamesExchanged c N) (hw : Wired N)
    (hu : ∀ i, (N i).r.undef = false) (hp : Plain c N p) {i j : ι} {k : Int} (hk : Nearest c N p i k) (hlim : k < costLimit)
    (hi : ¬ Serves c N p i) (hf : ForwardsTo c N p i j) : ∃ w k', Up c N i j w ∧ k = w + k' ∧ Nearest c N p j k' := by
  obtain ⟨a, ha, han, haF, x, hx, hmin⟩ := hf
  obtain ⟨v, hv, hv'⟩ := nearest_reached hs h hq hn hw hu hp hk hlim hi
  have hle := hmin v hv _ hv'
  obtain ⟨j', w, k', d, ⟨a', ha', hn', hu'⟩, g2, g3, g4, rfl⟩ := reaches_path hs h hq hn hw hx
  have := Lsdb.nodup_inj (hw.uris i) ha ha' hu'.symm
  subst this
  have : j = j' := hs.distinct _ _ (han.symm.trans hn')
  subst this
  have hle : w + k' ≤ k := by exact_mod_cast hle
  have := hk.2 _ _ g3 ((Path.single g2).trans g4)
  refine ⟨w, k', g2, by omega, ⟨d, g3, g4⟩, fun d2 k2 hd2 hk2 => ?_⟩
  have := hk.2 _ _ hd2 ((Path.single g2).trans hk2)
  omega

theorem forwards_some (hs : Sane c) (h : Reachable c N) (hq : Settled c N) (hn : NamesExchanged c N) (hw : Wired N)
    (hu : ∀ i, (N i).r.undef = false) (hp : Plain c N p) {i : ι} {k : Int} (hk : Nearest c N p i k) (hlim : k < costLimit)
    (hi : ¬ Serves c N p i) : ∃ j, ForwardsTo c N p i j := by
  obtain ⟨v, hv, hv'⟩ := nearest_reached hs h hq hn hw hu hp hk hlim hi
  obtain ⟨j, w, k', d, ⟨a, ha, han, rfl⟩, -⟩ := reaches_path hs h hq hn hw hv'
  refine ⟨j, a, ha, han, hv, _, hv', fun v' _ k2 hk2 => ?_⟩
  obtain ⟨j', w', k3, d', -, g2, g3, g4, rfl⟩ := reaches_path hs h hq hn hw hk2
  exact Rat.intCast_le_intCast.2 (hk.2 _ _ g3 ((Path.single g2).trans g4))

theorem inevitable (hs : Sane c) (h : Reachable c N) (hq : Settled c N) (hn : NamesExchanged c N) (hw : Wired N)
    (hu : ∀ i, (N i).r.undef = false) (hp : Plain c N p) : ∀ (m : Nat) (i : ι) (k : Int), Nearest c N p i k → k < costLimit →
    k.toNat ≤ m → Fwd.Inevitable (Up c N) (ForwardsTo c N p) (Serves c N p) i k := by
  have here : ∀ i k, Nearest c N p i k → Serves c N p i → Fwd.Inevitable (Up c N) (ForwardsTo c N p) (Serves c N p) i k := by
    intro i k hk hi
    have := hk.2 i 0 hi (Path.nil _)
    obtain ⟨⟨d, -, h2⟩, -⟩ := hk
    have := Path.nonneg (up_nonneg hw) h2
    have : k = 0 := by omega
    subst this
    exact .here hi
  intro m
  induction m with
  | zero =>
    intro i k hk hlim hm
    by_cases hi : Serves c N p i
    · exact here i k hk hi
    · obtain ⟨j, hj⟩ := forwards_some hs h hq hn hw hu hp hk hlim hi
      obtain ⟨w, k', h1, h2, h3⟩ := forwards_nearer hs h hq hn hw hu hp hk hlim hi hj
      have := h1.pos hw
      obtain ⟨⟨d, -, h4⟩, -⟩ := h3
      have := Path.nonneg (up_nonneg hw) h4
      omega
  | succ m ih =>
    intro i k hk hlim hm
    by_cases hi : Serves c N p i
    · exact here i k hk hi
    · refine .of (forwards_some hs h hq hn hw hu hp hk hlim hi) fun j hj => ?_
      obtain ⟨w, k', h1, h2, h3⟩ := forwards_nearer hs h hq hn hw hu hp hk hlim hi hj
      have := h1.pos hw
      refine ⟨w, k', h1, h2, ih j k' h3 (by omega) ?_⟩
      obtain ⟨⟨d, -, h4⟩, -⟩ := h3
      have := Path.nonneg (up_nonneg hw) h4
      omega

/-! ### C89 -/

/-- C89: in a network whose routers have nothing left to exchange or compute, packets for a prefix are delivered.
Wherever a packet is from where a router that advertises the prefix can be reached over links that are up (below
the limit), it comes to such a router, to a nearest one, by links that add up to the least possible cost: whichever
of the cheapest faces in the FIB each router on its way takes.  Missing for the full property: that NFD is told
the costs by which the cheapest face is chosen, which is refuted below when there is more than one face, prefixes
that are the name of a router, and what C82 and C86 leave out. -/
theorem C89_delivered_partial (hs : Sane c) (h : Reachable c N) (hq : Settled c N) (hn : NamesExchanged c N) (hw : Wired N)
    (hu : ∀ i, (N i).r.undef = false) (hp : Plain c N p) (i : ι) (d : ι) (hd : Serves c N p d) (k : Int)
    (hk : Path (Up c N) i d k) (hlim : k < costLimit) :
    ∃ k', k' ≤ k ∧ Nearest c N p i k' ∧ Fwd.Inevitable (Up c N) (ForwardsTo c N p) (Serves c N p) i k' := by
  obtain ⟨k', h1, h2⟩ := Nearest.exists hw hd hk
  exact ⟨k', h1, h2, inevitable hs h hq hn hw hu hp _ i k' h2 (by omega) (Nat.le_refl _)⟩

/-- C89: a face is listed for a prefix only if it leads to a router that advertises it; no packet is sent astray. -/
theorem C89_listed (hs : Sane c) (h : Reachable c N) (hq : Settled c N) (hn : NamesExchanged c N) (hw : Wired N)
    (hu : ∀ i, (N i).r.undef = false) (hp : Plain c N p) (i : ι) (u : Uri) (hx : u ∈ (N i).r.fib.faces p) :
    ∃ j w d k, (∃ a ∈ (N i).r.nbr.adjs, a.name = (c j).lsdb.router ∧ a.uri = u) ∧ Up c N i j w ∧ Serves c N p d ∧
      Path (Up c N) j d k := by
  obtain ⟨q, hq'⟩ := (best hs h hq hu hp i).real u hx
  obtain ⟨j, w, k, d, h1, h2, h3, h4, -⟩ := reaches_path hs h hq hn hw hq'
  exact ⟨j, w, d, k, h1, h2, h3, h4⟩

/-- C89: with one face per prefix (max-faces-per-prefix 1) packets go where the only face listed leads to. -/
theorem C89_single (hs : Sane c) (h : Reachable c N) (hq : Settled c N) (hw : Wired N)
    (hu : ∀ i, (N i).r.undef = false) (hp : Plain c N p) (i : ι) (h1 : (c i).maxFaces = 1) :
    (∀ j, ForwardsTo c N p i j ↔ ∃ a ∈ (N i).r.nbr.adjs, a.name = (c j).lsdb.router ∧ a.uri ∈ (N i).r.fib.faces p) ∧
    (∀ j j', ForwardsTo c N p i j → ForwardsTo c N p i j' → j = j') := by
  have hb := best hs h hq hu hp i
  have one : ∀ u ∈ (N i).r.fib.faces p, ∀ v ∈ (N i).r.fib.faces p, u = v := by
    have hl := hb.limit (by rw [h1]; decide)
    rw [h1] at hl
    revert hl
    generalize (N i).r.fib.faces p = l
    intro hl u hu v hv
    match l, hl with
    | [x], _ => rw [List.mem_singleton.1 hu, List.mem_singleton.1 hv]
    | [], _ => cases hu
  refine ⟨fun j => ⟨fun ⟨a, ha, hn, hF, _⟩ => ⟨a, ha, hn, hF⟩, fun ⟨a, ha, hn, hF⟩ => ⟨a, ha, hn, hF, ?_⟩⟩, ?_⟩
  · -- the costs at which the face is offered are whole, so one of them is least
    obtain ⟨q, hq1⟩ := hb.real _ hF
    have hw' : ∀ k, Reaches (c i).lsdb.router (N i).r p a.uri k → ∃ z : Int, 0 ≤ z ∧ k = (z : Rat) := by
      rintro k ⟨r, -, -, e, he, -, x, hx, -, rfl⟩
      obtain ⟨d, -, j, w, k', -, g2, g3, g4⟩ := hq.hops hs h hw i e he x hx
      have := g2.pos hw
      have := Path.nonneg (up_nonneg hw) g3
      exact ⟨w + k', by omega, g4⟩
    have : ∀ (m : Nat) (z : Int), 0 ≤ z → z.toNat ≤ m → Reaches (c i).lsdb.router (N i).r p a.uri (z : Rat) →
        ∃ k, Reaches (c i).lsdb.router (N i).r p a.uri k ∧ ∀ k', Reaches (c i).lsdb.router (N i).r p a.uri k' → k ≤ k' := by
      intro m
      induction m with
      | zero =>
        intro z hz hm hr
        refine ⟨_, hr, fun k' hk' => ?_⟩
        obtain ⟨z', hz', rfl⟩ := hw' k' hk'
        exact Rat.intCast_le_intCast.2 (by omega)
      | succ m ih =>
        intro z hz hm hr
        by_cases hex : ∃ k', Reaches (c i).lsdb.router (N i).r p a.uri k' ∧ ¬ (z : Rat) ≤ k'
        · obtain ⟨k', h2, h3⟩ := hex
          obtain ⟨z', hz', rfl⟩ := hw' k' h2
          rw [Rat.intCast_le_intCast] at h3
          exact ih z' hz' (by omega) h2
        · exact ⟨_, hr, fun k' hk' => Decidable.byContradiction fun h => hex ⟨k', hk', h⟩⟩
    obtain ⟨z, hz, rfl⟩ := hw' q hq1
    obtain ⟨k, h2, h3⟩ := this _ z hz (Nat.le_refl _) hq1
    exact ⟨k, h2, fun v hv k' hk' => h3 k' (one _ hF v hv ▸ hk')⟩
  · rintro j j' ⟨a, ha, hn, hF, -⟩ ⟨a', ha', hn', hF', -⟩
    have := Lsdb.nodup_inj (hw.uris i) ha ha' (one _ hF _ hF')
    subst this
    exact hs.distinct _ _ (hn.symm.trans hn')

end

/-! ### the hypotheses can be met, and the missing part

Three routers, each a neighbour of both others; r3 advertises /p. -/

def exLinkOf (r : Name) (u : Uri) (k : Rat) : Adjacent := { name := r, uri := u, cost := .fin k }

/-- The neighbours of router `i`; `k` is what r2 says the link to r3 costs. -/
def exRing (k : Rat) (i : Fin 3) : AdjacencyList :=
  [[exLinkOf exR2 "udp4://10.0.0.2" 1, exLinkOf exR3 "udp4://10.0.0.3" 5],
   [exLinkOf exR1 "udp4://10.0.0.1" 1, exLinkOf exR3 "udp4://10.0.0.3" k],
   [exLinkOf exR1 "udp4://10.0.0.1" 5, exLinkOf exR2 "udp4://10.0.0.2" 1]].getD i.val []

def exServe (i : Fin 3) : List PrefixInfo := [[], [], [⟨nm ["p"], .fin 0⟩]].getD i.val []

def exRingSite (i : Fin 3) : Site := ⟨Router.init (exConf3 i) none (exRing 1 i) (exServe i) 0, []⟩

def exRingSites : List Site := [exRingSite 0, exRingSite 1, exRingSite 2]

theorem exRingSites_reachable : Reachable exConf3 (ofList exRingSites (exRingSite 0)) := by
  have h := Reachable.start (c := exConf3) (fun _ => none) (exRing 1) exServe (fun _ => 0)
    (fun i => freshB_fresh (by revert i; decide +kernel)) (fun i => wholeB_whole (by revert i; decide +kernel))
    (fun i q hq => by cases hq) (fun i => roomB_room (by revert i; decide +kernel))
  have e : ofList exRingSites (exRingSite 0) = fun i : Fin 3 => ⟨Router.init (exConf3 i) none (exRing 1 i) (exServe i) 0, []⟩ := by
    funext i
    rcases i with ⟨i, hi⟩
    match i, hi with
    | 0, _ => rfl
    | 1, _ => rfl
    | 2, _ => rfl
  rw [e]
  exact h

/-- Time passes, until `t` seconds after the start. -/
def exUntil (dt t : Nat) : Router.Op := .clock (dt * Lsdb.nsPerSec) (t * Lsdb.nsPerSec)

/-- Router `j` learns an LSA of router `i`, which lasts until `e` seconds after the start. -/
def exLearnsTill (e : Nat) (j i : Fin 3) (t : LsaType) (k : Nat) (x : Content) : List (Op (Fin 3)) :=
  [.act j (.core (.lsdb (.sync ((exConf3 i).lsdb.names.lsaUserPrefix t) k))),
   .act i (.core (.lsdb (.interest ((exConf3 i).lsdb.names.lsaInterest t k) 9))),
   .act j (.core (.lsdb (.fetched 0 (some ⟨(exConf3 i).lsdb.router, k, e * Lsdb.nsPerSec, x⟩))))]

/-- All learn the LSAs of the others, which have these numbers. -/
def exLearnAll (e : Nat) (k : Rat) (num : Fin 3 → Nat) : List (Op (Fin 3)) :=
  (List.finRange 3).flatMap fun j => (List.finRange 3).flatMap fun i => if i = j then [] else
    exLearnsTill e j i .adjacency (num i) (.adj (exRing k i)) ++ exLearnsTill e j i .name (num i) (.names (exServe i))

/-- All links come up; after 15 seconds all announce theirs and after 30 seconds they compute their routes. -/
def exRise : List (Op (Fin 3)) :=
  exEach [.nbr (.fetchOk 0 [])] ++
  exBack 0 1 300 ++ exBack 0 2 301 ++ exBack 1 0 300 ++ exBack 1 2 301 ++ exBack 2 0 300 ++ exBack 2 1 301 ++
  exEach [exUntil 15 15, .core (.lsdb .buildTimer)] ++ exLearnAll 3615 1 (fun _ => 1) ++
  exEach [exUntil 15 30, .core (.calcTimer 0 [])]

/-- After half an hour all refresh their LSAs.  After an hour the host of r2 is started again, with 20 instead of 1
for the cost of the link to r3.  All learn of this and compute their routes, and r1's routes for /p are refreshed. -/
def exRaise : List (Op (Fin 3)) :=
  exRise ++ exEach [exUntil 1800 1830, .core (.lsdb (.timer 1)), .core (.lsdb (.timer 3))] ++ exLearnAll 5430 1 (fun _ => 2) ++
  exEach [exUntil 1770 3600] ++ [.restart 1 (exRing 20 1) [] (3600 * Lsdb.nsPerSec), .act 1 (.nbr (.fetchOk 0 []))] ++
  exBack 1 0 302 ++ exBack 1 2 303 ++ exEach [exUntil 15 3615, .core (.lsdb .buildTimer)] ++
  exLearnAll 7215 20 (fun i => if i = 1 then 13 else 2) ++ exEach [exUntil 15 3630, .core (.calcTimer 0 [])] ++
  [.act 0 (.refresh (nm ["p"]))]

def exRisen : List Site := (go false exConf3 (exRingSite 0) exRingSites exRise).getD []
def exRaised : List Site := (go false exConf3 (exRingSite 0) exRingSites exRaise).getD []

theorem exRisen_go : go false exConf3 (exRingSite 0) exRingSites exRise = some exRisen := by
  have h : (go false exConf3 (exRingSite 0) exRingSites exRise).isSome = true := by decide +kernel
  obtain ⟨l, hl⟩ := Option.isSome_iff_exists.1 h
  unfold exRisen
  rw [hl]; rfl

theorem exRaised_go : go false exConf3 (exRingSite 0) exRingSites exRaise = some exRaised := by
  have h : (go false exConf3 (exRingSite 0) exRingSites exRaise).isSome = true := by decide +kernel
  obtain ⟨l, hl⟩ := Option.isSome_iff_exists.1 h
  unfold exRaised
  rw [hl]; rfl

/-- The numbers of the Name LSAs of `j` that `i` stores. -/
def heldNames (c : ι → RConf) (N : State ι) (i j : ι) : List Nat :=
  ((N i).r.core.lsdb.db.filter (fun o => o.lsa.origin == (c j).lsdb.router && o.lsa.type == .name)).map (·.lsa.seq)

theorem namesExchanged_of {n : Nat} {c : Fin n → RConf} {N : State (Fin n)} (h : ∀ i j, heldNames c N i j = heldNames c N j j) :
    NamesExchanged c N := by
  have : ∀ i j k, HoldsNames c N i j k ↔ k ∈ heldNames c N i j := by
    intro i j k
    unfold HoldsNames heldNames
    simp only [List.mem_map, List.mem_filter, Bool.and_eq_true, beq_iff_eq]
    constructor
    · rintro ⟨o, h1, h2, h3, h4⟩; exact ⟨o, ⟨h1, h2, h3⟩, h4⟩
    · rintro ⟨o, ⟨h1, h2, h3⟩, h4⟩; exact ⟨o, h1, h2, h3, h4⟩
  intro i j k
  rw [this, this, h]

/-- `Wired`, computed, for whole costs. -/
theorem wired_int {n : Nat} {N : State (Fin n)}
    (h : ∀ i, ((N i).r.nbr.adjs.map (·.uri)).Nodup ∧
      (N i).r.nbr.adjs.all (fun a => [1, 5, 20].any (fun z : Int => a.cost == .fin (z : Rat))) = true) : Wired N := by
  refine ⟨fun i => (h i).1, fun i a ha => ?_⟩
  have := List.all_eq_true.1 (h i).2 a ha
  obtain ⟨z, hz, he⟩ := List.any_eq_true.1 this
  refine ⟨z, ?_, by simpa using he⟩
  have hpos : ∀ z ∈ ([1, 5, 20] : List Int), 0 < z := by decide
  exact hpos z hz

def isNames (r : Name) (q : PrefixInfo) (o : Obj) : Bool :=
  match o.lsa.content with
  | .names m => o.lsa.origin == r && m.contains q
  | _ => false

theorem announces_of {d : Lsdb} {r p : Name} {x : Ext Rat} (h : d.db.any (isNames r ⟨p, x⟩) = true) : Announces d r p x := by
  obtain ⟨o, ho, hx⟩ := List.any_eq_true.1 h
  unfold isNames at hx
  split at hx
  · rename_i m hm
    simp only [Bool.and_eq_true, beq_iff_eq, List.contains_iff_mem] at hx
    exact ⟨o, ho, hx.1, m, hm, hx.2⟩
  · cases hx

/-- Of the routes that NFD has for `p` at router `i`, having carried out every command, the cheapest is over the
face of neighbour `j`. -/
def Prefers (c : ι → RConf) (N : State ι) (p : Name) (i j : ι) : Prop :=
  ∃ a ∈ (N i).r.nbr.adjs, a.name = (c j).lsdb.router ∧ ∃ r, nfdRoutes (N i).r.fib.log p a.faceId = some r ∧
    ∀ b ∈ (N i).r.nbr.adjs, b.name ≠ a.name → ∀ r' ∈ nfdRoutes (N i).r.fib.log p b.faceId, r.cost < r'.cost

def costAt (N : State ι) (p : Name) (i : ι) (f : Nat) : Option Int := (nfdRoutes (N i).r.fib.log p f).map (·.cost)

theorem prefers_of {c : ι → RConf} {N : State ι} {p : Name} {i j : ι} {f : Nat} {q : Int}
    (h : ∃ a ∈ (N i).r.nbr.adjs, a.name = (c j).lsdb.router ∧ a.faceId = f ∧ costAt N p i f = some q ∧
      ∀ b ∈ (N i).r.nbr.adjs, b.name ≠ a.name → ∀ q' ∈ costAt N p i b.faceId, q < q') : Prefers c N p i j := by
  obtain ⟨a, ha, h1, rfl, h2, h3⟩ := h
  obtain ⟨r, hr, rfl⟩ := Option.map_eq_some_iff.1 h2
  exact ⟨a, ha, h1, r, hr, fun b hb hne r' hr' => h3 b hb hne _ (Option.map_eq_some_iff.2 ⟨r', hr', rfl⟩)⟩

/-- The hypotheses of C89 can be met: r1 reaches r3, which advertises /p, by r2 at cost 2, and directly at cost 5. -/
example : Sane exConf3 ∧ Reachable exConf3 (ofList exRisen (exRingSite 0)) ∧ Settled exConf3 (ofList exRisen (exRingSite 0)) ∧
    NamesExchanged exConf3 (ofList exRisen (exRingSite 0)) ∧ Wired (ofList exRisen (exRingSite 0) : State (Fin 3)) ∧
    (∀ i : Fin 3, (ofList exRisen (exRingSite 0) i).r.undef = false) ∧ Plain exConf3 (ofList exRisen (exRingSite 0)) (nm ["p"]) ∧
    Serves exConf3 (ofList exRisen (exRingSite 0)) (nm ["p"]) 2 ∧ Path (Up exConf3 (ofList exRisen (exRingSite 0))) 0 2 2 ∧
    (ofList exRisen (exRingSite 0) (0 : Fin 3)).r.fib.faces (nm ["p"]) = ["udp4://10.0.0.2", "udp4://10.0.0.3"] := by
  refine ⟨exSane, go_reachable rfl exRisen_go exRingSites_reachable, ⟨exchanged_of (by decide +kernel), fun i => ⟨_, List.Perm.refl _, ?_⟩⟩,
    namesExchanged_of (by decide +kernel), wired_int (by decide +kernel), by decide +kernel, ⟨by decide +kernel, by decide +kernel⟩,
    ⟨.fin 0, ?_⟩, Path.trans (b := (1 : Fin 3)) (k := 1) (k' := 1) (Path.single ⟨1, 1, ⟨"udp4://10.0.0.2", ?_⟩, ⟨"udp4://10.0.0.1", ?_⟩, rfl⟩)
      (Path.single ⟨1, 1, ⟨"udp4://10.0.0.3", ?_⟩, ⟨"udp4://10.0.0.2", ?_⟩, rfl⟩), by decide +kernel⟩
  · revert i; decide +kernel
  · exact announces_of (by decide +kernel)
  all_goals unfold LinkUp; decide +kernel

/-- C89 fails for NFD when there is more than one face for a prefix: the routes by which NFD chooses can point at each
other although every router knows all links and has computed its routes from them.  An FIB entry keeps the lowest cost a face ever had
(src/route/nexthop-list.hpp:56-70, src/route/fib.cpp:73, 126), and the refresh of the entry tells NFD that cost again
(src/route/fib.cpp:324-330).  The operator of r2 raises the cost of the link to r3 from 1 to 20.  r1, whose
link to r3 costs 5, computes that r3 is 5 away directly and 21 away by r2, but with the next refresh it tells NFD
that /p is 2 away by r2.  From then on the cheapest route for /p is over r2 at r1 and over r1 at r2.  (NFD's best-route
strategy does not send a packet back to where it came from: with it the packets of r1 take the way over r2, at cost 21
where 5 is enough.) -/
theorem C89_violated_loop : ∃ (c : Fin 3 → RConf) (N : State (Fin 3)) (p : Name), Sane c ∧ Reachable c N ∧ Settled c N ∧
    NamesExchanged c N ∧ Wired N ∧ (∀ i, (N i).r.undef = false) ∧ Plain c N p ∧
    ∃ i j d w, Serves c N p d ∧ Up c N i d w ∧ Prefers c N p i j ∧ Prefers c N p j i := by
  refine ⟨exConf3, ofList exRaised (exRingSite 0), nm ["p"], exSane, go_reachable rfl exRaised_go exRingSites_reachable,
    ⟨exchanged_of (by decide +kernel), fun i => ⟨_, List.Perm.refl _, ?_⟩⟩,
    namesExchanged_of (by decide +kernel), wired_int (by decide +kernel), by decide +kernel, ⟨by decide +kernel, by decide +kernel⟩,
    0, 1, 2, 5, ⟨.fin 0, ?_⟩, ⟨5, 5, ⟨"udp4://10.0.0.3", ?_⟩, ⟨"udp4://10.0.0.1", ?_⟩, rfl⟩, ?_, ?_⟩
  · revert i; decide +kernel
  · exact announces_of (by decide +kernel)
  · unfold LinkUp; decide +kernel
  · unfold LinkUp; decide +kernel
  · exact prefers_of (f := 300) (q := 2) (by decide +kernel)
  · exact prefers_of (f := 302) (q := 6) (by decide +kernel)

end Net
end Nlsr
