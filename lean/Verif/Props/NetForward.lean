import Verif.Lemmas.Forward
import Verif.Props.Net
import Verif.Props.RouterLinks
import Verif.Props.Converged
/-
C86: forwarding in a network of routers that run the daemon, from the hello protocol to the routing tables.
-/
namespace Nlsr
namespace Net
variable {ι : Type} [DecidableEq ι]

/-- Router `i` stores an Adjacency LSA of router `j` with number `k`. -/
def Holds (c : ι → RConf) (N : State ι) (i j : ι) (k : Nat) : Prop :=
  ∃ o ∈ (N i).r.core.lsdb.db, o.lsa.origin = (c j).lsdb.router ∧ o.lsa.type = .adjacency ∧ o.lsa.seq = k

/-- Nothing is left to be announced or exchanged. -/
structure Exchanged (c : ι → RConf) (N : State ι) : Prop where
  /-- link-state routing -/
  mode : ∀ i, (c i).lsdb.hyp ≠ .on
  retry : ∀ i, (c i).lsdb.retry < 2 ^ 32
  /-- no router has a build of its Adjacency LSA pending -/
  built : ∀ i, (N i).r.core.lsdb.buildDue = none
  /-- every router stores the Adjacency LSAs that the others store of themselves -/
  known : ∀ i j k, Holds c N i j k ↔ Holds c N j j k

/-- Nothing is left to be announced, exchanged or computed. -/
structure Settled (c : ι → RConf) (N : State ι) : Prop extends Exchanged c N where
  /-- every routing table was computed since its router's LSDB changed last -/
  computed : ∀ i, ∃ db, db.Perm (N i).r.core.lsdb.db ∧
    Core.lsTable (c i).core (N i).r.core.lsdb.adjs db = some (N i).r.core.rt.table

/-- What the operators see to: a router's neighbours have different face URIs, and links cost at least 1. -/
structure Wired (N : State ι) : Prop where
  uris : ∀ i, ((N i).r.nbr.adjs.map (·.uri)).Nodup
  costs : ∀ i, ∀ a ∈ (N i).r.nbr.adjs, ∃ z : Int, 0 < z ∧ a.cost = .fin (z : Rat)

/-- Routers `i` and `j` each have the other as an ACTIVE neighbour; the link costs the larger of the two configured
costs. -/
def Up (c : ι → RConf) (N : State ι) (i j : ι) (w : Int) : Prop :=
  ∃ x y : Int, (∃ u, LinkUp (N i).r (c j).lsdb.router u (.fin (x : Rat))) ∧
    (∃ u, LinkUp (N j).r (c i).lsdb.router u (.fin (y : Rat))) ∧ w = max x y

/-- Router `i` hands a packet for router `d` to router `j`: the first next hop of its entry for `d` is the face URI
of its neighbour `j`. -/
def Forwards (c : ι → RConf) (N : State ι) (d i j : ι) : Prop :=
  ∃ e ∈ (N i).r.core.rt.table, e.dest = (c d).lsdb.router ∧ ∃ h, e.hops.head? = some h ∧
    ∃ a ∈ (N i).r.nbr.adjs, a.name = (c j).lsdb.router ∧ a.uri = h.uri

section
variable {c : ι → RConf} {N : State ι}

theorem Up.pos (hw : Wired N) {i j : ι} {w : Int} (h : Up c N i j w) : 0 < w := by
  obtain ⟨x, y, ⟨u, a, ha, -, -, -, hc⟩, -, rfl⟩ := h
  obtain ⟨z, hz, he⟩ := hw.costs i a ha
  rw [he] at hc
  injection hc with hc
  have : z = x := by exact_mod_cast hc
  omega

/-- What a router says of itself in a settled network. -/
theorem Settled.claims (hs : Sane c) (h : Reachable c N) (hq : Settled c N) (i : ι) (n : Name) (u : Uri) (k : Ext Rat) :
    Claims (c i).lsdb.router (N i).r n u k ↔ LinkUp (N i).r n u k :=
  C84_links_partial ((h.ninv hs).trusted i) (hq.mode i) (hq.retry i) (((h.ninv hs).node i).pos .adjacency) (hq.built i) n u k

/-- The links in the Adjacency LSAs that a router holds of another are those that are up there. -/
theorem Settled.advertises (hs : Sane c) (h : Reachable c N) (hq : Settled c N) {i : ι} {db : List Obj}
    (hp : db.Perm (N i).r.core.lsdb.db) (j : ι) (n : Name) (x : Ext Rat) :
    Advertises (Core.adjAds db) (c j).lsdb.router n x ↔ ∃ u, LinkUp (N j).r n u x := by
  -- the two copies of an LSA say the same
  have agree : ∀ {a b : ι} {o o' : Obj} {l l' : AdjacencyList}, o ∈ (N a).r.core.lsdb.db → o' ∈ (N b).r.core.lsdb.db →
      o.lsa.origin = o'.lsa.origin → o.lsa.seq = o'.lsa.seq → o.lsa.content = .adj l → o'.lsa.content = .adj l' →
      ∀ y ∈ l, ∃ y' ∈ l', y'.name = y.name ∧ y'.uri = y.uri ∧ y'.cost = y.cost := by
    intro a b o o' l l' ho ho' h1 h2 h3 h4 y hy
    have := C85_agree_partial hs h (.stored a o ho rfl) (.stored b o' ho' rfl) h1 (by unfold Lsa.type; rw [h3, h4]; rfl) h2
    rw [h3, h4] at this
    have hm := this.mem_iff.1 (List.mem_map_of_mem hy)
    obtain ⟨y', hy', he⟩ := List.mem_map.1 hm
    exact ⟨y', hy', congrArg Prod.fst he, congrArg (fun p => p.2.1) he, congrArg (fun p => p.2.2) he⟩
  have isAdj : ∀ {o : Obj}, o.lsa.type = .adjacency → ∃ l, o.lsa.content = .adj l := by
    intro o ht
    unfold Lsa.type at ht
    cases hc : o.lsa.content with
    | adj l => exact ⟨l, rfl⟩
    | names _ => rw [hc] at ht; cases ht
    | coord _ _ => rw [hc] at ht; cases ht
  constructor
  · rintro ⟨ad, had, horg, hx⟩
    obtain ⟨o, ho, hm⟩ := List.mem_filterMap.1 had
    cases hc : o.lsa.content with
    | names _ => rw [hc] at hm; cases hm
    | coord _ _ => rw [hc] at hm; cases hm
    | adj l =>
      rw [hc] at hm
      injection hm with hm
      subst hm
      obtain ⟨y, hy, he⟩ := List.mem_map.1 hx
      injection he with e1 e2
      have ho' := hp.mem_iff.1 ho
      obtain ⟨o2, g1, g2, g3, g4⟩ := (hq.known i j o.lsa.seq).1 ⟨o, ho', horg, by unfold Lsa.type; rw [hc]; rfl, rfl⟩
      obtain ⟨l2, hl2⟩ := isAdj g3
      obtain ⟨y2, k1, k2, k3, k4⟩ := agree ho' g1 (horg.trans g2.symm) g4.symm hc hl2 y hy
      exact ⟨y2.uri, (hq.claims hs h j n y2.uri x).1 ⟨o2, g1, g2, l2, hl2, y2, k1, k2.trans e1, rfl, k4.trans e2⟩⟩
  · rintro ⟨u, hu⟩
    obtain ⟨o, ho, horg, l, hl, y, hy, e1, e2, e3⟩ := (hq.claims hs h j n u x).2 hu
    obtain ⟨o2, g1, g2, g3, g4⟩ := (hq.known i j o.lsa.seq).2 ⟨o, ho, horg, by unfold Lsa.type; rw [hl]; rfl, rfl⟩
    obtain ⟨l2, hl2⟩ := isAdj g3
    obtain ⟨y2, k1, k2, k3, k4⟩ := agree ho g1 (horg.trans g2.symm) g4.symm hl hl2 y hy
    refine ⟨⟨o2.lsa.origin, l2.map (fun a => (a.name, a.cost))⟩, List.mem_filterMap.2 ⟨o2, hp.mem_iff.2 g1, by rw [hl2]⟩, g2, ?_⟩
    exact List.mem_map.2 ⟨y2, k1, by rw [k2, k4, e1, e3]⟩

/-- Only routers of the network are the origins of LSAs. -/
theorem Settled.origin (hs : Sane c) (h : Reachable c N) {i : ι} {db : List Obj} (hp : db.Perm (N i).r.core.lsdb.db)
    {a b : Name} {x : Ext Rat} (ha : Advertises (Core.adjAds db) a b x) : ∃ j, a = (c j).lsdb.router := by
  obtain ⟨ad, had, rfl, -⟩ := ha
  obtain ⟨o, ho, hm⟩ := List.mem_filterMap.1 had
  cases hc : o.lsa.content with
  | names _ => rw [hc] at hm; cases hm
  | coord _ _ => rw [hc] at hm; cases hm
  | adj l =>
    rw [hc] at hm
    injection hm with hm
    subst hm
    obtain ⟨j, h1, -⟩ := C85_source hs h (.stored i o (hp.mem_iff.1 ho) rfl)
    exact ⟨j, h1⟩

/-- The links that a router computes with are those that are up. -/
theorem Settled.link (hs : Sane c) (h : Reachable c N) (hq : Settled c N) (hw : Wired N) {i : ι} {db : List Obj}
    (hp : db.Perm (N i).r.core.lsdb.db) (a b : ι) (w : Int) :
    Link (Core.adjAds db) (c a).lsdb.router (c b).lsdb.router w ↔ Up c N a b w := by
  have whole : ∀ {j : ι} {n : Name} {u : Uri} {x : Rat}, LinkUp (N j).r n u (.fin x) → ∃ z : Int, 0 < z ∧ x = (z : Rat) := by
    rintro j n u x ⟨b, hb, -, -, -, hc⟩
    obtain ⟨z, hz, he⟩ := hw.costs j b hb
    rw [he] at hc
    injection hc with hc
    exact ⟨z, hz, hc.symm⟩
  constructor
  · rintro ⟨x, y, h1, h2, h3, h4, rfl⟩
    obtain ⟨u, h1⟩ := (hq.advertises hs h hp a _ _).1 h1
    obtain ⟨u', h2⟩ := (hq.advertises hs h hp b _ _).1 h2
    obtain ⟨z, hz, rfl⟩ := whole h1
    obtain ⟨z', hz', rfl⟩ := whole h2
    exact ⟨z, z', ⟨u, h1⟩, ⟨u', h2⟩, by rw [Rat.ceil_intCast, Rat.ceil_intCast]⟩
  · rintro ⟨x, y, ⟨u, h1⟩, ⟨u', h2⟩, rfl⟩
    obtain ⟨z, hz, e⟩ := whole h1
    obtain ⟨z', hz', e'⟩ := whole h2
    have e : x = z := by exact_mod_cast e
    have e' : y = z' := by exact_mod_cast e'
    exact ⟨(x : Rat), (y : Rat), (hq.advertises hs h hp a _ _).2 ⟨u, h1⟩, (hq.advertises hs h hp b _ _).2 ⟨u', h2⟩,
      by rw [Rat.ceil_intCast]; omega, by rw [Rat.ceil_intCast]; omega, by rw [Rat.ceil_intCast, Rat.ceil_intCast]⟩

theorem Settled.link_routers (hs : Sane c) (h : Reachable c N) {i : ι} {db : List Obj} (hp : db.Perm (N i).r.core.lsdb.db)
    {x y : Name} {w : Int} (hl : Link (Core.adjAds db) x y w) : ∃ a b, x = (c a).lsdb.router ∧ y = (c b).lsdb.router := by
  obtain ⟨p, q, h1, h2, -⟩ := hl
  obtain ⟨a, ha⟩ := Settled.origin hs h hp h1
  obtain ⟨b, hb⟩ := Settled.origin hs h hp h2
  exact ⟨a, b, ha, hb⟩

theorem Settled.path (hs : Sane c) (h : Reachable c N) (hq : Settled c N) (hw : Wired N) {i : ι} {db : List Obj}
    (hp : db.Perm (N i).r.core.lsdb.db) (a b : ι) (k : Int) :
    Path (Link (Core.adjAds db)) (c a).lsdb.router (c b).lsdb.router k ↔ Path (Up c N) a b k := by
  constructor
  · intro hpath
    have : ∀ {x y : Name} {k : Int}, Path (Link (Core.adjAds db)) x y k → x = (c a).lsdb.router →
        ∃ b, y = (c b).lsdb.router ∧ Path (Up c N) a b k := by
      intro x y k hpath
      induction hpath with
      | nil => intro e; exact ⟨a, e, .nil _⟩
      | snoc _ e ih =>
        intro hx
        obtain ⟨b, rfl, hb⟩ := ih hx
        obtain ⟨-, b', -, rfl⟩ := Settled.link_routers hs h hp e
        exact ⟨b', rfl, .snoc hb ((hq.link hs h hw hp _ _ _).1 e)⟩
    obtain ⟨b', hb', hk⟩ := this hpath rfl
    rw [hs.distinct _ _ hb']
    exact hk
  · exact Path.map (fun j => (c j).lsdb.router) (fun a b w e => (hq.link hs h hw hp a b w).2 e)

theorem Settled.shortest (hs : Sane c) (h : Reachable c N) (hq : Settled c N) (hw : Wired N) {i : ι} {db : List Obj}
    (hp : db.Perm (N i).r.core.lsdb.db) (a b : ι) (k : Int) :
    Shortest (Link (Core.adjAds db)) (c a).lsdb.router (c b).lsdb.router k ↔ Shortest (Up c N) a b k := by
  unfold Shortest
  rw [hq.path hs h hw hp]
  constructor
  · rintro ⟨h1, h2⟩; exact ⟨h1, fun k' hk' => h2 k' ((hq.path hs h hw hp _ _ _).2 hk')⟩
  · rintro ⟨h1, h2⟩; exact ⟨h1, fun k' hk' => h2 k' ((hq.path hs h hw hp _ _ _).1 hk')⟩

theorem adjAds_wellFormed {c : LConf} {s : Lsdb} (hi : Lsdb.Inv c s) {db : List Obj} (hp : db.Perm s.db) :
    WellFormed (Core.adjAds db) := by
  have hk : (db.map Lsdb.keyOf).Nodup := (hp.map _).nodup_iff.2 hi.keys
  have hn : ∀ o ∈ db, o.lsa.content.norm = o.lsa.content := fun o ho => hi.norm o (hp.mem_iff.1 ho)
  clear hp
  constructor
  · induction db with
    | nil => exact List.nodup_nil
    | cons o db ih =>
      rw [List.map_cons, List.nodup_cons] at hk
      have ih := ih hk.2 (fun o ho => hn o (List.mem_cons_of_mem _ ho))
      cases hc : o.lsa.content with
      | names _ => unfold Core.adjAds; rw [List.filterMap_cons_none (by rw [hc])]; exact ih
      | coord _ _ => unfold Core.adjAds; rw [List.filterMap_cons_none (by rw [hc])]; exact ih
      | adj l =>
        unfold Core.adjAds
        rw [List.filterMap_cons_some (by rw [hc]), List.map_cons, List.nodup_cons]
        refine ⟨fun hm => ?_, ih⟩
        obtain ⟨ad, had, he⟩ := List.mem_map.1 hm
        obtain ⟨o', ho', hm'⟩ := List.mem_filterMap.1 had
        cases hc' : o'.lsa.content with
        | names _ => rw [hc'] at hm'; cases hm'
        | coord _ _ => rw [hc'] at hm'; cases hm'
        | adj l' =>
          rw [hc'] at hm'
          injection hm' with hm'
          subst hm'
          refine hk.1 (List.mem_map.2 ⟨o', ho', ?_⟩)
          unfold Lsdb.keyOf
          have : o'.lsa.origin = o.lsa.origin := he
          rw [this, show o'.lsa.type = o.lsa.type from (by unfold Lsa.type; rw [hc, hc']; rfl)]
  · intro ad had
    obtain ⟨o, ho, hm⟩ := List.mem_filterMap.1 had
    cases hc : o.lsa.content with
    | names _ => rw [hc] at hm; cases hm
    | coord _ _ => rw [hc] at hm; cases hm
    | adj l =>
      rw [hc] at hm
      injection hm with hm
      subst hm
      have := Lsdb.norm_adj.1 (hc ▸ hn o ho)
      rw [List.map_map]
      exact this

/-- The table of a router in a settled network. -/
theorem Settled.first (hs : Sane c) (h : Reachable c N) (hq : Settled c N) (hw : Wired N) (i : ι) :
    (∀ e ∈ (N i).r.core.rt.table, ∃ d, d ≠ i ∧ e.dest = (c d).lsdb.router ∧ ∃ hd, e.hops.head? = some hd ∧
      ∃ j w k, (∃ a ∈ (N i).r.nbr.adjs, a.name = (c j).lsdb.router ∧ a.uri = hd.uri) ∧ Up c N i j w ∧
        Shortest (Up c N) j d k ∧ Shortest (Up c N) i d (w + k) ∧ w + k < costLimit ∧ hd.cost = ((w + k : Int) : Rat)) ∧
    (∀ d, d ≠ i → ∀ k, Path (Up c N) i d k → k < costLimit → ∃ e ∈ (N i).r.core.rt.table, e.dest = (c d).lsdb.router) ∧
    (∀ e ∈ (N i).r.core.rt.table, ∀ e' ∈ (N i).r.core.rt.table, e.dest = e'.dest → e = e') := by
  have ht := ((h.ninv hs).trusted i).reachable.all
  obtain ⟨db, hp, htab⟩ := hq.computed i
  unfold Core.lsTable at htab
  obtain ⟨out, hout, htab⟩ := Option.map_eq_some_iff.1 htab
  have hwf := adjAds_wellFormed ((h.ninv hs).node i).reach.inv hp
  obtain ⟨f1, f2⟩ := first_hop (Core.adjAds db) hwf _ _ _ hout
  rw [htab] at f1 f2
  change (∀ e ∈ (N i).r.core.rt.table, e.dest ≠ (c i).lsdb.router ∧ _) at f1
  change (∀ d, d ≠ (c i).lsdb.router → ∀ k, Path (Link (Core.adjAds db)) (c i).lsdb.router d k → _) at f2
  refine ⟨?_, ?_, ?_⟩
  · intro e he
    obtain ⟨g1, hd, g2, n, w, k, g3, g4, g5, g6, g7, g8⟩ := f1 e he
    obtain ⟨-, j, -, rfl⟩ := Settled.link_routers hs h hp g3
    have hd' : ∃ d, e.dest = (c d).lsdb.router := by
      have : ∀ {x y : Name} {k : Int}, Path (Link (Core.adjAds db)) x y k → (∃ a, x = (c a).lsdb.router) → ∃ b, y = (c b).lsdb.router := by
        intro x y k hpath
        induction hpath with
        | nil => exact id
        | snoc _ e _ =>
          intro _
          obtain ⟨-, b, -, hb⟩ := Settled.link_routers hs h hp e
          exact ⟨b, hb⟩
      exact this g5.1 ⟨j, rfl⟩
    obtain ⟨d, hde⟩ := hd'
    have hup := (hq.link hs h hw hp i j w).1 g3
    refine ⟨d, fun e => g1 (by rw [hde, e]), hde, hd, g2, j, w, k, ?_, hup, ?_, ?_, g7, g8⟩
    · obtain ⟨x, y, ⟨u, a, ha, -, hn, -⟩, -⟩ := hup
      refine ⟨a, ha, hn, ?_⟩
      rw [g4, ht.synced.lsdb]
      have : AdjacencyList.find (N i).r.nbr.adjs (c j).lsdb.router = some a := by
        unfold AdjacencyList.find
        cases hf : (N i).r.nbr.adjs.find? (fun b => b.name == (c j).lsdb.router) with
        | none =>
          have := List.find?_eq_none.1 hf a ha
          simp [hn] at this
        | some b =>
          have h1 := List.mem_of_find?_eq_some hf
          have h2 := List.find?_some hf
          simp only [beq_iff_eq] at h2
          rw [Lsdb.nodup_inj ht.base.nbr.ninv.nodup h1 ha (h2.trans hn.symm)]
      unfold AdjacencyList.getAdjacent
      rw [this]
    · rw [hde] at g5; exact (hq.shortest hs h hw hp _ _ _).1 g5
    · rw [hde] at g6; exact (hq.shortest hs h hw hp _ _ _).1 g6
  · intro d hd k hk hlim
    exact f2 _ (fun e => hd (hs.distinct _ _ e)) k ((hq.path hs h hw hp _ _ _).2 hk) hlim
  · intro e he e' he' hde
    rw [← htab] at he he'
    have hi := build_inv out
    have a := ((hi.2 e).1 he).2
    have b := ((hi.2 e').1 he').2
    cases e; cases e'
    simp only at hde a b
    subst hde
    rw [a, b]

theorem Forwards.unique (hs : Sane c) (h : Reachable c N) (hq : Settled c N) (hw : Wired N) {d i j j' : ι}
    (h1 : Forwards c N d i j) (h2 : Forwards c N d i j') : j = j' := by
  obtain ⟨e, he, hd, x, hx, a, ha, hn, hu⟩ := h1
  obtain ⟨e', he', hd', x', hx', a', ha', hn', hu'⟩ := h2
  have := (hq.first hs h hw i).2.2 e he e' he' (hd.trans hd'.symm)
  subst this
  rw [hx] at hx'
  injection hx' with hx'
  subst hx'
  have := Lsdb.nodup_inj (hw.uris i) ha ha' (hu.trans hu'.symm)
  subst this
  exact hs.distinct _ _ (hn.symm.trans hn')

theorem Forwards.closer (hs : Sane c) (h : Reachable c N) (hq : Settled c N) (hw : Wired N) (d : ι) :
    Fwd.Closer (Up c N) (Forwards c N d) d := by
  intro i j hf
  obtain ⟨e, he, hd, x, hx, a, ha, hn, hu⟩ := hf
  obtain ⟨d', -, h2, y, h3, j', w, k, ⟨a', ha', hn', hu'⟩, h5, h6, h7, -⟩ := (hq.first hs h hw i).1 e he
  have : d' = d := hs.distinct _ _ (h2.symm.trans hd)
  subst this
  rw [hx] at h3
  injection h3 with h3
  subst h3
  have := Lsdb.nodup_inj (hw.uris i) ha ha' (hu.trans hu'.symm)
  subst this
  have : j = j' := hs.distinct _ _ (hn.symm.trans hn')
  subst this
  exact ⟨w, k, h5, h6, h7⟩

/-- C86: a network whose routers have nothing left to exchange or compute forwards along shortest paths of the links
that are really up, whatever happened before: faults, restarts, late or repeated messages.  For all routers: (1) the
first next hop for a destination is the face of one router only; (2) no packet comes back to a router it has left;
(3) a router with an entry delivers: the packet visits routers, none twice, and ends at the destination, and the
links it takes are up and add up to the cost of the entry, the least possible; (4) there is an entry whenever the
destination can be reached over links that are up, below the limit; (5) and no entry for anything else.
Missing for the full property: what `Settled` assumes of the tables, which does not follow from nothing being
pending (C14), links that cost nothing (C81), and what C85 leaves out. -/
theorem C86_forwarding_partial (hs : Sane c) (h : Reachable c N) (hq : Settled c N) (hw : Wired N) (d : ι) :
    (∀ i j j', Forwards c N d i j → Forwards c N d i j' → j = j') ∧
    (∀ i, ¬ Relation.TransGen (Forwards c N d) i i) ∧
    (∀ i, ∀ e ∈ (N i).r.core.rt.table, e.dest = (c d).lsdb.router → ∃ hd js k, e.hops.head? = some hd ∧
      Fwd.Walk (Up c N) (Forwards c N d) d i js k ∧ (i :: js).Nodup ∧ hd.cost = (k : Rat) ∧ Shortest (Up c N) i d k) ∧
    (∀ i, i ≠ d → ∀ k, Path (Up c N) i d k → k < costLimit → ∃ e ∈ (N i).r.core.rt.table, e.dest = (c d).lsdb.router) ∧
    (∀ i, ∀ e ∈ (N i).r.core.rt.table, ∃ d, d ≠ i ∧ e.dest = (c d).lsdb.router ∧ ∃ k, Path (Up c N) i d k) := by
  have hc := Forwards.closer hs h hq hw d
  have hp : ∀ a b w, Up c N a b w → 0 < w := fun a b w hu => hu.pos hw
  have hl := Fwd.loop_free hp hc
  have hprog : ∀ i, i ≠ d → ∀ k, Path (Up c N) i d k → k < costLimit → ∃ j, Forwards c N d i j := by
    intro i hi k hk hlim
    obtain ⟨e, he, hde⟩ := (hq.first hs h hw i).2.1 d (Ne.symm hi) k hk hlim
    obtain ⟨d', -, -, hd, h2, j, w, k', ⟨a, ha, hn, hu⟩, -⟩ := (hq.first hs h hw i).1 e he
    exact ⟨j, e, he, hde, hd, h2, a, ha, hn, hu⟩
  refine ⟨fun i j j' => Forwards.unique hs h hq hw, hl, ?_, fun i hi => (hq.first hs h hw i).2.1 d (Ne.symm hi), ?_⟩
  · intro i e he hde
    obtain ⟨d', -, h1, hd, h2, j, w, k, -, -, -, h6, h7, h8⟩ := (hq.first hs h hw i).1 e he
    have : d' = d := hs.distinct _ _ (h1.symm.trans hde)
    subst this
    obtain ⟨js, hjs⟩ := Fwd.arrives hp hc hprog (w + k).toNat i (w + k) h6 h7 (Nat.le_refl _)
    exact ⟨hd, js, w + k, h2, hjs, (Fwd.walk_nodup hl hjs).2, h8, h6⟩
  · intro i e he
    obtain ⟨d', h0, h1, -, -, -, w, k, -, -, -, h6, -⟩ := (hq.first hs h hw i).1 e he
    exact ⟨d', h0, h1, w + k, h6.1⟩
end

/-! ### the hypotheses can be met, and the missing part -/

/-- The numbers of the Adjacency LSAs of `j` that `i` stores. -/
def held (c : ι → RConf) (N : State ι) (i j : ι) : List Nat :=
  ((N i).r.core.lsdb.db.filter (fun o => o.lsa.origin == (c j).lsdb.router && o.lsa.type == .adjacency)).map (·.lsa.seq)

theorem holds_held (c : ι → RConf) (N : State ι) (i j : ι) (k : Nat) : Holds c N i j k ↔ k ∈ held c N i j := by
  unfold Holds held
  simp only [List.mem_map, List.mem_filter, Bool.and_eq_true, beq_iff_eq]
  constructor
  · rintro ⟨o, h1, h2, h3, h4⟩; exact ⟨o, ⟨h1, h2, h3⟩, h4⟩
  · rintro ⟨o, ⟨h1, h2, h3⟩, h4⟩; exact ⟨o, h1, h2, h3, h4⟩

/-- `Exchanged`, computed. -/
theorem exchanged_of {n : Nat} {c : Fin n → RConf} {N : State (Fin n)}
    (h : ∀ i, (c i).lsdb.hyp ≠ .on ∧ (c i).lsdb.retry < 2 ^ 32 ∧ (N i).r.core.lsdb.buildDue = none ∧
      ∀ j, held c N i j = held c N j j) : Exchanged c N :=
  ⟨fun i => (h i).1, fun i => (h i).2.1, fun i => (h i).2.2.1, fun i j k => by
    rw [holds_held, holds_held, (h i).2.2.2 j]⟩

/-- `Wired`, computed. -/
theorem wired_of {n : Nat} {N : State (Fin n)}
    (h : ∀ i, ((N i).r.nbr.adjs.map (·.uri)).Nodup ∧ (N i).r.nbr.adjs.all (fun a => a.cost == .fin 10) = true) : Wired N := by
  refine ⟨fun i => (h i).1, fun i a ha => ⟨10, by decide, ?_⟩⟩
  have := List.all_eq_true.1 (h i).2 a ha
  rw [beq_iff_eq] at this
  rw [this]
  rfl

/-- The links of r1, r2 and r3 to their neighbours. -/
def exL1 : Adjacent := exLink exR1 "udp4://10.0.0.1"
def exL2 : Adjacent := exLink exR2 "udp4://10.0.0.2"
def exL3 : Adjacent := exLink exR3 "udp4://10.0.0.3"

/-- Every router learns the Adjacency LSAs of the others. -/
def exAll (k1 k2 k3 : Nat) (l1 l2 l3 : List Adjacent) : List (Op (Fin 3)) :=
  exLearns 0 1 .adjacency k2 (.adj l2) ++ exLearns 2 1 .adjacency k2 (.adj l2) ++ exLearns 1 0 .adjacency k1 (.adj l1) ++
  exLearns 2 0 .adjacency k1 (.adj l1) ++ exLearns 0 2 .adjacency k3 (.adj l3) ++ exLearns 1 2 .adjacency k3 (.adj l3)

/-- Every router does this. -/
def exEach (ops : List Router.Op) : List (Op (Fin 3)) := (List.finRange 3).flatMap (fun i => ops.map (.act i))

/-- r1 and r2, and r2 and r3, find each other, all learn of this and compute their routes. -/
def exSettle : List (Op (Fin 3)) :=
  exMeet ++ exAll 1 1 1 [exL2] [exL1, exL3] [exL2] ++ exEach [exPause, .core (.calcTimer 0 [])]

def exSettled : List Site := (go false exConf3 (exSite 0) exSites exSettle).getD []

theorem exSettled_go : go false exConf3 (exSite 0) exSites exSettle = some exSettled := by
  have h : (go false exConf3 (exSite 0) exSites exSettle).isSome = true := by decide +kernel
  obtain ⟨l, hl⟩ := Option.isSome_iff_exists.1 h
  unfold exSettled
  rw [hl]; rfl

/-- The hypotheses of C86 can be met: r1 and r3, which are not neighbours, have routes to each other through r2. -/
example : Sane exConf3 ∧ Reachable exConf3 (ofList exSettled (exSite 0)) ∧ Settled exConf3 (ofList exSettled (exSite 0)) ∧
    Wired (ofList exSettled (exSite 0) : State (Fin 3)) ∧
    Forwards exConf3 (ofList exSettled (exSite 0)) 2 0 1 ∧ Forwards exConf3 (ofList exSettled (exSite 0)) 2 1 2 ∧
    Forwards exConf3 (ofList exSettled (exSite 0)) 0 2 1 := by
  refine ⟨exSane, go_reachable rfl exSettled_go exSites_reachable, ⟨exchanged_of (by decide +kernel), fun i => ⟨_, List.Perm.refl _, ?_⟩⟩,
    wired_of (by decide +kernel), ?_, ?_, ?_⟩
  · revert i; decide +kernel
  all_goals unfold Forwards; decide +kernel

/-! Three routers, each a neighbour of both others. -/

def exTriAdjs (i : Fin 3) : AdjacencyList := [[exL2, exL3], [exL1, exL3], [exL1, exL2]].getD i.val []

def exTriSite (i : Fin 3) : Site := ⟨Router.init (exConf3 i) none (exTriAdjs i) (exNpl i) 0, []⟩

def exTriSites : List Site := [exTriSite 0, exTriSite 1, exTriSite 2]

theorem exTriSites_reachable : Reachable exConf3 (ofList exTriSites (exTriSite 0)) := by
  have h := Reachable.start (c := exConf3) (fun _ => none) exTriAdjs exNpl (fun _ => 0) (fun i => freshB_fresh (by revert i; decide +kernel))
    (fun i => wholeB_whole (by revert i; decide +kernel)) (fun i q hq => by cases hq) (fun i => roomB_room (by revert i; decide +kernel))
  have e : ofList exTriSites (exTriSite 0) = fun i : Fin 3 => ⟨Router.init (exConf3 i) none (exTriAdjs i) (exNpl i) 0, []⟩ := by
    funext i
    rcases i with ⟨i, hi⟩
    match i, hi with
    | 0, _ => rfl
    | 1, _ => rfl
    | 2, _ => rfl
  rw [e]
  exact h

/-- Router `i` is told of a face to `j`, and `j` answers its hello. -/
def exBack (i j : Fin 3) (f : Nat) : List (Op (Fin 3)) :=
  [.nbr (.faceUp (["udp4://10.0.0.1", "udp4://10.0.0.2", "udp4://10.0.0.3"].getD j "") f), .regOk 0, .regOk 0,
   .nbr (.data 0 (exHello i (exConf3 j).lsdb.router)), .nbr (.valid 0)].map (.act i)

/-- All links come up and that between r1 and r3 fails; all compute their routes.  Then that link comes back and the
one between r2 and r3 fails; all announce this and learn of it. -/
def exTurn : List (Op (Fin 3)) :=
  exEach [.nbr (.fetchOk 0 [])] ++
  exBack 0 1 300 ++ exBack 0 2 301 ++ exBack 1 0 300 ++ exBack 1 2 301 ++ exBack 2 0 300 ++ exBack 2 1 301 ++
  [.act 0 (.nbr (.faceDown 301)), .act 2 (.nbr (.faceDown 300))] ++
  exEach [exPause, .core (.lsdb .buildTimer)] ++ exAll 1 1 1 [exL2] [exL1, exL3] [exL2] ++
  exEach ([exPause, .core (.calcTimer 0 [])] ++ List.replicate 4 (.regOk 0)) ++
  exBack 0 2 302 ++ exBack 2 0 302 ++ [.act 1 (.nbr (.faceDown 301)), .act 2 (.nbr (.faceDown 301))] ++
  exEach [exPause, .core (.lsdb .buildTimer)] ++ exAll 2 2 2 [exL2, exL3] [exL1] [exL1]

/-- Before r1 has computed its routes again, its face to r2 goes and comes back.  All learn r1's new Adjacency LSA,
which says the same as the one before, and the others compute their routes. -/
def exBlink : List (Op (Fin 3)) :=
  exTurn ++ [.act 0 (.clock (6 * Lsdb.nsPerSec) 0), .act 0 (.nbr (.faceDown 300))] ++ exBack 0 1 303 ++
  ([.clock (9 * Lsdb.nsPerSec) 0, .core (.calcTimer 0 []), .clock (9 * Lsdb.nsPerSec) 0, .core (.lsdb .buildTimer)].map (.act 0)) ++
  exLearns 1 0 .adjacency 3 (.adj [exL2, exL3]) ++ exLearns 2 0 .adjacency 3 (.adj [exL2, exL3]) ++
  (([1, 2] : List (Fin 3)).flatMap (fun i => [.act i exPause, .act i (.core (.calcTimer 0 []))]))

def exBlinked : List Site := (go false exConf3 (exTriSite 0) exTriSites exBlink).getD []

theorem exBlinked_go : go false exConf3 (exTriSite 0) exTriSites exBlink = some exBlinked := by
  have h : (go false exConf3 (exTriSite 0) exTriSites exBlink).isSome = true := by decide +kernel
  obtain ⟨l, hl⟩ := Option.isSome_iff_exists.1 h
  unfold exBlinked
  rw [hl]; rfl

/-- C86 fails if only the absence of pending work is assumed: packets can go round for ever although every router
knows all links and no calculation, build or fetch is pending anywhere.  A calculation that falls due while an
Adjacency LSA build is scheduled is dropped (src/route/routing-table.cpp:118-121) and the build asks for no new one
if the links are as before (src/lsdb.cpp:322-339).  Of r1, r2 and r3, the link between r1 and r3 replaces the one
between r2 and r3, and the face from r1 to r2 goes and comes back in the 15 seconds before r1 computes its routes.
From then on r2 sends packets for r3 to r1, and r1, which is r3's neighbour, sends them back to r2. -/
theorem C86_violated_loop : ∃ (c : Fin 3 → RConf) (N : State (Fin 3)), Sane c ∧ Reachable c N ∧ Exchanged c N ∧ Wired N ∧
    (∀ i, (N i).r.core.rt.events = [] ∧ (N i).r.core.lsdb.fetches = []) ∧
    ∃ d i j w, Up c N i d w ∧ Forwards c N d i j ∧ Forwards c N d j i := by
  refine ⟨exConf3, ofList exBlinked (exTriSite 0), exSane, go_reachable rfl exBlinked_go exTriSites_reachable,
    exchanged_of (by decide +kernel), wired_of (by decide +kernel), by decide +kernel, 2, 0, 1, 10, ⟨10, 10, ⟨"udp4://10.0.0.3", ?_⟩,
    ⟨"udp4://10.0.0.1", ?_⟩, rfl⟩, ?_, ?_⟩
  · unfold LinkUp; decide +kernel
  · unfold LinkUp; decide +kernel
  · unfold Forwards; decide +kernel
  · unfold Forwards; decide +kernel

end Net
end Nlsr
