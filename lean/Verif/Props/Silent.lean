import Verif.Props.LsdbTimers
import Verif.Props.Calc
import Verif.Lemmas.LsdbChange
import Verif.Props.NetForward
import Verif.Props.LinkState
import Verif.Props.RoutingTable
import Verif.Props.HypForward

/-!
C120: a router that falls silent is forgotten, and not before.

"Silent" is said of what arrives: no fetch brings an LSA of `r`.  The time bound is that of the LSAs that
were stored: none of them was, when it was stored, to live longer than `L` seconds.  Sync updates that name
`r`, failed fetches, LSAs of other routers, calculations and everything else may go on.
-/

namespace Nlsr

open Lsdb
open Npt (lastCmd)

namespace Silent

/-- The step brings an LSA of `r`. -/
def Arrival (r : Name) (op : Lsdb.Op) : Prop := ∃ i l, op = .fetched i (some l) ∧ l.origin = r

/-- An LSA of another router that is stored after a step was stored before and keeps its timer, or it has
just arrived and its timer is its remaining lifetime plus ten seconds. -/
theorem kept_or_new {c : LConf} {s : Lsdb} (h : Lsdb.Reachable c s) (op : Lsdb.Op) {o' : Obj}
    (ho' : o' ∈ (Lsdb.step c s op).db) (hr : o'.lsa.origin ≠ c.router) :
    (o' ∈ s.db ∧ ∀ e ∈ s.events, e.oid = o'.oid → e ∈ (Lsdb.step c s op).events) ∨
    (o' ∉ s.db ∧ Arrival o'.lsa.origin op ∧ ∃ e ∈ (Lsdb.step c s op).events, e.oid = o'.oid ∧
      e.due = s.now + (lifetimeOf c s.sys o'.lsa + 10) * 1000000000) := by
  have hinv := h.inv
  have hinv' := (h.step op).inv
  -- an LSA that has no equal in the old database has arrived
  have harr : (∀ o ∈ s.db, o'.lsa ≠ o.lsa) → Arrival o'.lsa.origin op := by
    intro hne
    cases change_step h op o' ho' with
    | kept o ho he => exact absurd he (hne o ho)
    | refreshed o ho hor h1 => exact absurd (h1.trans hor) hr
    | built l b hb hor ht => exact absurd (ht.origin.trans hor) hr
    | fetched i l l' hop ht h1 => exact ⟨i, l, hop, (ht.origin.trans h1).symm⟩
  by_cases hex : ∃ o ∈ s.db, o.lsa.origin = o'.lsa.origin ∧ o.lsa.type = o'.lsa.type
  · obtain ⟨o, ho, h1, h2⟩ := hex
    rcases C30_other_step h ho (h1 ▸ hr) op with ⟨hk, he⟩ | ⟨-, -, -, -, -, hdb, -⟩ | ⟨o2, ho2, h3, h4, h5, e, he, heo, hdue⟩
    · have : o = o' := hinv'.keyUniq hk ho' (by simp [keyOf, h1, h2])
      subst this
      exact Or.inl ⟨ho, he⟩
    · obtain ⟨h3, h4⟩ := (hdb o').1 ho'
      exact absurd (hinv.keyUniq h3 ho (by simp [keyOf, h1, h2])) h4
    · have : o2 = o' := hinv'.keyUniq ho2 ho' (by simp [keyOf, h1, h2, h3, h4])
      subst this
      have huniq : ∀ p ∈ s.db, o2.lsa ≠ p.lsa := by
        intro p hp hpe
        have : p = o := hinv.keyUniq hp ho (by simp [keyOf, ← hpe, h1, h2])
        subst this
        rw [hpe] at h5
        omega
      exact Or.inr ⟨fun hm => huniq _ hm rfl, harr huniq, e, he, heo, hdue⟩
  · have hnew : ∀ o ∈ s.db, ¬ (o.lsa.origin = o'.lsa.origin ∧ o.lsa.type = o'.lsa.type) :=
      fun o ho hh => hex ⟨o, ho, hh⟩
    have hne : ∀ p ∈ s.db, o'.lsa ≠ p.lsa := fun p hp he => hnew p hp ⟨by rw [he], by rw [he]⟩
    exact Or.inr ⟨fun hm => hne _ hm rfl, harr hne, C30_first_timer h op ho' hr hnew⟩

/-- Every stored LSA of `r` has a timer that is due by `D`. -/
def Due (r : Name) (D : Nat) (s : Lsdb) : Prop :=
  ∀ o ∈ s.db, o.lsa.origin = r → ∃ e ∈ s.events, e.oid = o.oid ∧ e.due ≤ D

/-- Along the run, an LSA of `r` that is stored and was not there before the step expires at most `L` seconds
after it is stored (by this router's system clock). -/
def AtMost (c : CConf) (r : Name) (L : Nat) : Core → List Core.Op → Prop
  | _, [] => True
  | s, op :: ops => (∀ o ∈ (Core.step c s op).lsdb.db, o.lsa.origin = r → o ∉ s.lsdb.db →
      o.lsa.exp ≤ s.lsdb.sys + L * 1000000000) ∧ AtMost c r L (Core.step c s op) ops

/-- Along the run, an LSA of `r` that is stored and was not there before the step expires at least `L` seconds
after it is stored. -/
def AtLeast (c : CConf) (r : Name) (L : Nat) : Core → List Core.Op → Prop
  | _, [] => True
  | s, op :: ops => (∀ o ∈ (Core.step c s op).lsdb.db, o.lsa.origin = r → o ∉ s.lsdb.db →
      s.lsdb.sys + L * 1000000000 ≤ o.lsa.exp) ∧ AtLeast c r L (Core.step c s op) ops

/-- Nothing in the run brings an LSA of `r`. -/
def Quiet (r : Name) (ops : List Core.Op) : Prop :=
  ∀ op ∈ ops, ∀ i l, op = .lsdb (.fetched i (some l)) → l.origin ≠ r

theorem lifetime_le {c : LConf} {sys : Int} {l : Lsa} {L : Nat} (hc : c.refresh ≤ L) (h : l.exp ≤ sys + L * 1000000000) :
    lifetimeOf c sys l ≤ L := by
  unfold lifetimeOf
  split <;> omega

theorem le_lifetime {c : LConf} {sys : Int} {l : Lsa} {L : Nat} (h : sys + L * 1000000000 ≤ l.exp) :
    L ≤ lifetimeOf c sys l := by
  unfold lifetimeOf
  split <;> omega

theorem core_now (c : CConf) (s : Core) (op : Core.Op) : s.lsdb.now ≤ (Core.step c s op).lsdb.now := by
  rw [Core.step_lsdb]
  cases op with
  | lsdb o => exact now_step _ _ _
  | _ => exact Nat.le_refl _

theorem core_now_run (c : CConf) (ops : List Core.Op) : ∀ s, s.lsdb.now ≤ (Core.run c s ops).lsdb.now := by
  induction ops with
  | nil => intro s; exact Nat.le_refl _
  | cons op ops ih => intro s; exact Nat.le_trans (core_now c s op) (ih _)

/-- The deadline is kept by what does not bring an LSA of `r`. -/
theorem due_step {c : CConf} {s : Core} (h : Core.Reachable c s) {r : Name} (hr : r ≠ c.router) {D : Nat}
    (hd : Due r D s.lsdb) (op : Core.Op) (hq : ∀ i l, op = .lsdb (.fetched i (some l)) → l.origin ≠ r) :
    Due r D (Core.step c s op).lsdb := by
  rw [Core.step_lsdb]
  cases op with
  | lsdb o =>
    intro o' ho' hor
    rcases kept_or_new h.lsdb o ho' (by rw [hor]; exact hr) with ⟨h1, h2⟩ | ⟨-, ⟨i, l, hop, hl⟩, -⟩
    · obtain ⟨e, he, heo, hdue⟩ := hd o' h1 hor
      exact ⟨e, h2 e he heo, heo, hdue⟩
    · exact absurd (hl.trans hor) (hq i l (by rw [hop]))
  | _ => exact hd

theorem due_run {c : CConf} {r : Name} (hr : r ≠ c.router) {D : Nat} (ops : List Core.Op) (hq : Quiet r ops) :
    ∀ {s : Core}, Core.Reachable c s → Due r D s.lsdb → Due r D (Core.run c s ops).lsdb := by
  induction ops with
  | nil => intro s _ hd; exact hd
  | cons op ops ih =>
    intro s h hd
    exact ih (fun o ho => hq o (List.mem_cons_of_mem _ ho)) (h.step op) (due_step h hr hd op (hq op (List.mem_cons_self ..)))

/-- After any history in which the LSAs of `r` were given at most `L` seconds, their timers are due within
`L + 10` seconds. -/
theorem due_history {c : CConf} {r : Name} (hr : r ≠ c.router) {L : Nat} (hL : c.lsdb.refresh ≤ L) (ops : List Core.Op) :
    ∀ {s : Core}, Core.Reachable c s → AtMost c r L s ops → Due r (s.lsdb.now + (L + 10) * 1000000000) s.lsdb →
      Due r ((Core.run c s ops).lsdb.now + (L + 10) * 1000000000) (Core.run c s ops).lsdb := by
  induction ops with
  | nil => intro s _ _ hd; exact hd
  | cons op ops ih =>
    intro s h hm hd
    refine ih (h.step op) hm.2 ?_
    have hnow := core_now c s op
    have hnew := hm.1
    intro o' ho' hor
    have hnew := hnew o' ho' hor
    revert ho' hnow hnew
    rw [Core.step_lsdb]
    cases op with
    | lsdb o =>
      intro hnow ho' hnew
      dsimp only at ho' hnow hnew ⊢
      rcases kept_or_new h.lsdb o ho' (by rw [hor]; exact hr) with ⟨h1, h2⟩ | ⟨h1, -, e, he, heo, hdue⟩
      · obtain ⟨e, he, heo, hdue⟩ := hd o' h1 hor
        exact ⟨e, h2 e he heo, heo, by omega⟩
      · have := lifetime_le hL (hnew h1)
        exact ⟨e, he, heo, by omega⟩
    | _ => intro _ ho' _; exact hd o' ho' hor

theorem begin_db (c : CConf) (disk : Option Seqs) (adjs : AdjacencyList) (npl : List PrefixInfo) (sys : Int) :
    ∀ o ∈ (Core.init c disk adjs npl sys).lsdb.db, o.lsa.origin = c.router :=
  fun o ho => (Lsdb.init_db c.lsdb disk adjs npl sys o ho).1

end Silent

open Silent

/-- C120: the daemon has run for any length of time, and of the LSAs of router `r` that it stored none was to
live longer than `L` seconds (`L` being at least the refresh time, which is what an LSA gets that has expired
on arrival).  Then no LSA of `r` arrives for more than `L + 10` seconds, while anything else may happen, and
at that point no LSA timer is overdue.  No LSA of `r` is stored any more, `r` is listed for no prefix, and
for every prefix that no stored LSA accounts for there is no entry and the last command to the FIB, if there
ever was one, was to remove it. -/
theorem C120_forgotten (c : CConf) (disk : Option Seqs) (adjs : AdjacencyList) (npl : List PrefixInfo) (sys : Int)
    (before silence : List Core.Op) (r : Name) (hr : r ≠ c.router) (L : Nat) (hL : c.lsdb.refresh ≤ L)
    (hlife : AtMost c r L (Core.init c disk adjs npl sys) before) (hq : Quiet r silence) :
    let s := Core.run c (Core.init c disk adjs npl sys) before
    let s' := Core.run c s silence
    s.lsdb.now + (L + 10) * 1000000000 < s'.lsdb.now → (∀ e ∈ s'.lsdb.events, s'.lsdb.now ≤ e.due) →
    (∀ o ∈ s'.lsdb.db, o.lsa.origin ≠ r) ∧ (∀ p, ¬ Lists s'.npt p r) ∧
    ∀ p, (∀ q x, ¬ Announces s'.lsdb q p x) → (∀ o ∈ s'.lsdb.db, o.lsa.origin ≠ p) →
      (∀ e ∈ s'.npt.table, e.name ≠ p) ∧ (lastCmd s'.npt.out p = none ∨ lastCmd s'.npt.out p = some (.remove p)) := by
  intro s s' ht hd
  have h0 : Core.Reachable c (Core.init c disk adjs npl sys) := ⟨disk, adjs, npl, sys, [], rfl⟩
  have h1 : Core.Reachable c s := ⟨disk, adjs, npl, sys, before, rfl⟩
  have h2 : Core.Reachable c s' := ⟨disk, adjs, npl, sys, before ++ silence, by
    show List.foldl _ (List.foldl _ _ _) _ = List.foldl _ _ _
    rw [List.foldl_append]⟩
  have hdue := due_run hr silence hq h1 (due_history hr hL before h0 hlife
    (fun o ho hor => absurd (hor.symm.trans (begin_db c disk adjs npl sys o ho)) hr))
  have hdb : ∀ o ∈ s'.lsdb.db, o.lsa.origin ≠ r := by
    intro o ho hor
    obtain ⟨e, he, -, hle⟩ := hdue o ho hor
    have h3 : s'.lsdb.now ≤ s.lsdb.now + (L + 10) * 1000000000 := Nat.le_trans (hd e he) hle
    omega
  refine ⟨hdb, ?_, ?_⟩
  · intro p hl
    obtain ⟨-, hp⟩ := C16_not_own h2 p r hl
    by_cases hpr : p = r
    · subst hpr
      obtain ⟨o, ho, hor⟩ := C16_own_prefix_partial h2 _ hl
      exact hdb o ho hor
    · obtain ⟨x, o, ho, hor, -⟩ := (C16_advertisers h2 p r hr hp hpr).1 hl
      exact hdb o ho hor
  · intro p hp1 hp2
    have hno : ∀ e ∈ s'.npt.table, e.name ≠ p := by
      rintro e he rfl
      obtain ⟨q, hl⟩ := (C16_no_idle_entry h2).2 e he
      obtain ⟨hq1, hq2⟩ := C16_not_own h2 _ q hl
      by_cases hpq : e.name = q
      · subst hpq
        obtain ⟨o, ho, hor⟩ := C16_own_prefix_partial h2 _ hl
        exact hp2 o ho hor
      · obtain ⟨x, hx⟩ := (C16_advertisers h2 _ q hq1 hq2 hpq).1 hl
        exact hp1 q x hx
    exact ⟨hno, h2.follows.fresh.heard.gone p hno⟩

/-- C120, the other half: an LSA of another router is not forgotten early.  Its timer is due at `D` or later;
what arrives of the same router during `ops`, if anything, is to live at least `L` seconds, and `D` is at most
`L + 10` seconds away.  At every time before `D` the LSA, or a newer one of the same router and type, is
stored. -/
theorem C120_kept {c : CConf} {s : Core} (h : Core.Reachable c s) {o : Obj} (ho : o ∈ s.lsdb.db)
    (hr : o.lsa.origin ≠ c.router) {e : Ev} (he : e ∈ s.lsdb.events) (heo : e.oid = o.oid) {D L : Nat} (hD : D ≤ e.due)
    (hDL : D ≤ s.lsdb.now + (L + 10) * 1000000000) (ops : List Core.Op) (hl : AtLeast c o.lsa.origin L s ops)
    (ht : (Core.run c s ops).lsdb.now < D) :
    ∃ o' ∈ (Core.run c s ops).lsdb.db, o'.lsa.origin = o.lsa.origin ∧ o'.lsa.type = o.lsa.type ∧ o.lsa.seq ≤ o'.lsa.seq := by
  induction ops generalizing s o e with
  | nil => exact ⟨o, ho, rfl, rfl, Nat.le_refl _⟩
  | cons op ops ih =>
    have hnow := core_now c s op
    have hend : (Core.step c s op).lsdb.now < D := Nat.lt_of_le_of_lt (core_now_run c ops (Core.step c s op)) ht
    have hs := h.step op
    have hst := Core.step_lsdb c s op
    have go : ∀ (o' : Obj) (e' : Ev), o' ∈ (Core.step c s op).lsdb.db → e' ∈ (Core.step c s op).lsdb.events →
        e'.oid = o'.oid → D ≤ e'.due → o'.lsa.origin = o.lsa.origin → o'.lsa.type = o.lsa.type → o.lsa.seq ≤ o'.lsa.seq →
        ∃ x ∈ (Core.run c s (op :: ops)).lsdb.db, x.lsa.origin = o.lsa.origin ∧ x.lsa.type = o.lsa.type ∧
          o.lsa.seq ≤ x.lsa.seq := by
      intro o' e' ho' he' heo' hD' h1 h2 h3
      obtain ⟨x, hx, k1, k2, k3⟩ := ih hs ho' (by rw [h1]; exact hr) he' heo' hD' (by omega) (by rw [h1]; exact hl.2) ht
      exact ⟨x, hx, k1.trans h1, k2.trans h2, Nat.le_trans h3 k3⟩
    cases op with
    | lsdb lop =>
      dsimp only at hst
      have hnew := hl.1
      rw [hst] at hnew go hnow hend
      rcases C30_other_step h.lsdb ho hr lop with ⟨h1, h2⟩ | ⟨e2, he2, heo2, -, hdue2, -, -⟩ |
        ⟨o2, ho2, h3, h4, h5, e2, he2, heo2, hdue2⟩
      · exact go o e h1 (h2 e he heo) heo hD rfl rfl (Nat.le_refl _)
      · obtain ⟨e3, -, -, huniq⟩ := C30_one_timer h.lsdb ho
        have : e2 = e := (huniq e2 he2 heo2).trans (huniq e he heo).symm
        subst this
        omega
      · have hnot : o2 ∉ s.lsdb.db := by
          intro hm
          have : o2 = o := h.lsdb.inv.keyUniq hm ho (by simp [keyOf, h3, h4])
          subst this
          omega
        have := le_lifetime (c := c.lsdb) (hnew o2 ho2 h3 hnot)
        exact go o2 e2 ho2 he2 heo2 (by omega) h3 h4 (Nat.le_of_lt h5)
    | _ =>
      dsimp only at hst
      rw [hst] at go
      exact go o e ho he heo hD rfl rfl (Nat.le_refl _)

/-- A link that does not touch `r`. -/
def ClearOf (r : Name) (L : Name → Name → Int → Prop) (a b : Name) (w : Int) : Prop := a ≠ r ∧ b ≠ r ∧ L a b w

theorem advertises_perm {db db' : List Obj} (hp : db.Perm db') {a b : Name} {x : Ext Rat} :
    Advertises (Core.adjAds db) a b x ↔ Advertises (Core.adjAds db') a b x := by
  have : ∀ l, l ∈ Core.adjAds db ↔ l ∈ Core.adjAds db' := fun l => (hp.filterMap _).mem_iff
  unfold Advertises
  simp only [this]

theorem link_perm {db db' : List Obj} (hp : db.Perm db') {a b : Name} {w : Int} :
    Link (Core.adjAds db) a b w ↔ Link (Core.adjAds db') a b w := by
  unfold Link
  simp only [advertises_perm hp]

/-- A router with no stored Adjacency LSA is at neither end of a link. -/
theorem link_clear {db : List Obj} {r : Name} (hn : ∀ o ∈ db, o.lsa.origin = r → o.lsa.type ≠ .adjacency) {a b : Name}
    {w : Int} (h : Link (Core.adjAds db) a b w) : a ≠ r ∧ b ≠ r := by
  have key : ∀ a b x, Advertises (Core.adjAds db) a b x → a ≠ r := by
    rintro a b x ⟨l, hl, hla, -⟩ rfl
    obtain ⟨o, ho, hm⟩ := List.mem_filterMap.1 hl
    cases hc : o.lsa.content with
    | names _ => rw [hc] at hm; cases hm
    | coord _ _ => rw [hc] at hm; cases hm
    | adj ads =>
      rw [hc] at hm
      injection hm with hm
      subst hm
      exact hn o ho hla (by unfold Lsa.type; rw [hc]; rfl)
  obtain ⟨x, y, h1, h2, -⟩ := h
  exact ⟨key _ _ _ h1, key _ _ _ h2⟩

theorem path_end {r : Name} {L : Name → Name → Int → Prop} {a b : Name} {k : Int} (h : Path (ClearOf r L) a b k) (ha : a ≠ r) :
    b ≠ r := by
  cases h with
  | nil => exact ha
  | snoc _ hl => exact hl.2.1

/-- C120, routes (link state): once no Adjacency LSA of `r` is stored, the next calculation that runs (no build
of this router's Adjacency LSA being scheduled) leaves no route to `r`, and none that passes through it: every
hop is the face of a linked neighbour other than `r`, and its cost is that of a walk over links that do not
touch `r`.  That a calculation does run is not so: see the counterexample below. -/
theorem C120_routes_partial {c : CConf} {s : Core} (h : Core.Reachable c s) (hh : c.lsdb.hyp ≠ .on) (op : Core.Op)
    (hf : Fires s op) (hb : s.lsdb.buildFlag = false)
    (ho : ∃ o ∈ s.lsdb.db, o.lsa.origin = c.router ∧ o.lsa.type = .adjacency) (r : Name)
    (hn : ∀ o ∈ s.lsdb.db, o.lsa.origin = r → o.lsa.type ≠ .adjacency) :
    ∀ e ∈ (Core.step c s op).rt.table, e.dest ≠ r ∧ ∀ nh ∈ e.hops, ∃ n w k,
      ClearOf r (Link (Core.adjAds s.lsdb.db)) c.router n w ∧
      nh.uri = (AdjacencyList.getAdjacent s.lsdb.adjs n).uri ∧
      Path (ClearOf r (Link (Core.adjAds s.lsdb.db))) n e.dest k ∧ nh.cost = ((w + k : Int) : Rat) := by
  obtain ⟨db, t, hp, ht, hrt, -, -⟩ := C14_runs_partial h hh op hf hb ho
  have hwf := Net.adjAds_wellFormed h.lsdb.inv hp
  have hclear : ∀ a b w, Link (Core.adjAds db) a b w → ClearOf r (Link (Core.adjAds s.lsdb.db)) a b w := by
    intro a b w hl
    have hl := (link_perm hp).1 hl
    obtain ⟨h1, h2⟩ := link_clear hn hl
    exact ⟨h1, h2, hl⟩
  unfold Core.lsTable at ht
  obtain ⟨out, hout, hb'⟩ := Option.map_eq_some_iff.1 ht
  have hops : ∀ d nh, (d, nh) ∈ out → ∃ n w k, ClearOf r (Link (Core.adjAds s.lsdb.db)) c.router n w ∧
      nh.uri = (AdjacencyList.getAdjacent s.lsdb.adjs n).uri ∧
      Path (ClearOf r (Link (Core.adjAds s.lsdb.db))) n d k ∧ nh.cost = ((w + k : Int) : Rat) := by
    intro d nh hm
    by_cases hmf : c.maxFaces = 1
    · obtain ⟨out', e, o1⟩ := C06_next_hop_on_shortest_path (Core.adjAds db) hwf c.router
        (fun n => (AdjacencyList.getAdjacent s.lsdb.adjs n).uri)
      rw [hmf] at hout
      rw [hout] at e
      cases e
      obtain ⟨n, w, k, -, h2, h3, h4, h5⟩ := o1 d nh hm
      exact ⟨n, w, k, hclear _ _ _ h2, h3, h4.1.mono hclear, h5⟩
    · obtain ⟨out', e, o1⟩ := C07_multipath_offers (Core.adjAds db) hwf c.maxFaces hmf c.router
        (fun n => (AdjacencyList.getAdjacent s.lsdb.adjs n).uri)
      rw [hout] at e
      cases e
      obtain ⟨-, n, w, k, -, h2, h3, -, h5⟩ := (o1 d nh).1 hm
      subst h5
      exact ⟨n, w, k, hclear _ _ _ h2, rfl, h3.1.mono (fun a b w hl => hclear _ _ _ hl.1), rfl⟩
  rw [hrt, ← hb']
  intro e he
  have hC := C13_one_entry_per_destination out
  refine ⟨?_, fun nh hnh => hops _ _ ((hC.2.2 e he).2.1 nh hnh).1⟩
  obtain ⟨⟨d, nh⟩, hm, hd⟩ := (hC.2.1 e.dest).1 ⟨e, he, rfl⟩
  obtain ⟨n, w, k, h1, -, h3, -⟩ := hops d nh hm
  rw [← hd]
  exact path_end h3 h1.2.1

theorem coordAds_nodup {db : List Obj} (hk : (db.map Lsdb.keyOf).Nodup) : ((Core.coordAds db).map (·.origin)).Nodup := by
  induction db with
  | nil => exact List.nodup_nil
  | cons o db ih =>
    rw [List.map_cons, List.nodup_cons] at hk
    have ih := ih hk.2
    cases hc : o.lsa.content with
    | names _ => unfold Core.coordAds; rw [List.filterMap_cons_none (by rw [hc])]; exact ih
    | adj _ => unfold Core.coordAds; rw [List.filterMap_cons_none (by rw [hc])]; exact ih
    | coord r as =>
      unfold Core.coordAds
      rw [List.filterMap_cons_some (by rw [hc]), List.map_cons, List.nodup_cons]
      refine ⟨fun hm => ?_, ih⟩
      obtain ⟨ad, had, he⟩ := List.mem_map.1 hm
      obtain ⟨o', ho', hm'⟩ := List.mem_filterMap.1 had
      cases hc' : o'.lsa.content with
      | names _ => rw [hc'] at hm'; cases hm'
      | adj _ => rw [hc'] at hm'; cases hm'
      | coord r' as' =>
        rw [hc'] at hm'
        injection hm' with hm'
        subst hm'
        refine hk.1 (List.mem_map.2 ⟨o', ho', ?_⟩)
        unfold Lsdb.keyOf
        have : o'.lsa.origin = o.lsa.origin := he
        rw [this, show o'.lsa.type = o.lsa.type from (by unfold Lsa.type; rw [hc, hc']; rfl)]

/-- C120, routes (hyperbolic): once no Coordinate LSA of `r` is stored, the next calculation that runs leaves a
route to `r` only if `r` is a neighbour that is not marked down, and no route to another router by `r`'s link:
every hop is the face of a neighbour that is not marked down and that is either the destination itself or not
`r`. -/
theorem C120_hyperbolic_partial {c : CConf} {s : Core} (h : Core.Reachable c s) (hh : c.lsdb.hyp = .on) (op : Core.Op)
    (hf : Fires s op) (hd : ∀ db, db.Perm s.lsdb.db → (Core.hypTable c s.lsdb.adjs db).isSome) (r : Name)
    (hn : ∀ o ∈ s.lsdb.db, o.lsa.origin = r → o.lsa.type ≠ .coordinate) :
    ∀ e ∈ (Core.step c s op).rt.table,
      (e.dest = r → ∃ a ∈ s.lsdb.adjs, a.name = r ∧ a.status ≠ .inactive) ∧
      ∀ nh ∈ e.hops, ∃ a ∈ s.lsdb.adjs, nh.uri = a.uri ∧ a.status ≠ .inactive ∧ (a.name = e.dest ∨ a.name ≠ r) := by
  obtain ⟨db, hp, ht, -, -⟩ := C14_runs_hyperbolic h hh op hf hd
  have hnod := coordAds_nodup ((hp.map _).nodup_iff.2 h.lsdb.inv.keys)
  have hnone : ∀ x ∈ Core.coordAds db, x.origin ≠ r := by
    rintro x hx rfl
    obtain ⟨o, ho, hm⟩ := List.mem_filterMap.1 hx
    cases hc : o.lsa.content with
    | names _ => rw [hc] at hm; cases hm
    | adj _ => rw [hc] at hm; cases hm
    | coord ra as =>
      rw [hc] at hm
      injection hm with hm
      subst hm
      exact hn o (hp.mem_iff.1 ho) rfl (by unfold Lsa.type; rw [hc]; rfl)
  unfold Core.hypTable at ht
  cases hcalc : HR.calculate c.trig c.router s.lsdb.adjs (Core.coordAds db) with
  | none => rw [hcalc] at ht; cases ht
  | some os =>
    rw [hcalc] at ht
    dsimp only at ht
    obtain ⟨adds, hadds, hb⟩ := Option.map_eq_some_iff.1 ht
    have hoff : ∀ d nh, (d, nh) ∈ adds → ∃ a ∈ s.lsdb.adjs, nh.uri = a.uri ∧ a.status ≠ .inactive ∧
        (a.name = d ∨ (a.name ≠ r ∧ d ≠ r)) := by
      intro d nh hm
      obtain ⟨⟨d', u, k⟩, ho, he⟩ := (mapM_some_mem hadds (d, nh)).1 hm
      obtain ⟨nh', hnh, he⟩ := Option.map_eq_some_iff.1 he
      obtain ⟨rfl, rfl⟩ := Prod.mk.inj he
      have hu : nh'.uri = u := by
        unfold HR.Offer.hop at hnh
        dsimp only at hnh
        split at hnh
        · injection hnh with hnh; rw [← hnh]
        · cases hnh
      obtain ⟨a, ha, hau, h1, h2, h3⟩ := (C11_offers _ _ _ _ hnod _ hcalc d' u k).1 ho
      refine ⟨a, ha, hu.trans hau.symm, h1, ?_⟩
      rcases h3 with ⟨h3, -⟩ | ⟨-, -, -, x, hx, y, hy, h4, h5, -⟩
      · exact Or.inl h3.symm
      · exact Or.inr ⟨h4 ▸ hnone x hx, h5 ▸ hnone y hy⟩
    rw [← hb]
    intro e he
    have hC := C13_one_entry_per_destination adds
    refine ⟨fun hr => ?_, fun nh hnh => ?_⟩
    · obtain ⟨⟨d, nh⟩, hm, hd'⟩ := (hC.2.1 e.dest).1 ⟨e, he, rfl⟩
      obtain ⟨a, ha, -, h1, h2⟩ := hoff d nh hm
      rcases h2 with h2 | ⟨-, h2⟩
      · exact ⟨a, ha, (h2.trans hd').trans hr, h1⟩
      · exact absurd (hd'.trans hr) h2
    · obtain ⟨a, ha, h0, h1, h2⟩ := hoff _ _ ((hC.2.2 e he).2.1 nh hnh).1
      exact ⟨a, ha, h0, h1, h2.imp_right And.left⟩

/-! ### examples -/

/-- r2 falls silent: r1 goes on refreshing its own LSAs, r3 sends a refreshed Adjacency LSA, and then the
timers of the LSAs of r2 fire. -/
def exSilence : List Core.Op :=
  [.lsdb (.clock (1900 * Lsdb.nsPerSec) 0), .lsdb (.timer 1), .lsdb (.timer 3)] ++
  exGet "r3" "ADJACENCY" exR3 2 (.adj [exAdj exR1 "udp4://10.0.0.1"]) ++
  [.lsdb (.sync (exUpdate "r2" "NAME") 2), .lsdb (.clock (1750 * Lsdb.nsPerSec) 0), .lsdb (.timer 5), .lsdb (.timer 9)]

instance decAtMost (c : CConf) (r : Name) (L : Nat) : ∀ s ops, Decidable (AtMost c r L s ops)
  | _, [] => .isTrue trivial
  | s, op :: ops => @instDecidableAnd _ _ inferInstance (decAtMost c r L (Core.step c s op) ops)

instance decAtLeast (c : CConf) (r : Name) (L : Nat) : ∀ s ops, Decidable (AtLeast c r L s ops)
  | _, [] => .isTrue trivial
  | s, op :: ops => @instDecidableAnd _ _ inferInstance (decAtLeast c r L (Core.step c s op) ops)

theorem exSilence_quiet : Quiet exR2 exSilence := by
  intro op hop i l he
  subst he
  simp only [exSilence, exGet, List.mem_append, List.mem_cons, List.not_mem_nil, or_false, reduceCtorEq, false_or, or_self,
    Core.Op.lsdb.injEq, Lsdb.Op.fetched.injEq, Option.some.injEq] at hop
  obtain ⟨-, rfl⟩ := hop
  decide +kernel

/-- Non-vacuity of `C120_forgotten`: r2 had announced /p, which was registered; after an hour of silence r2 has
no LSA, /p has no entry and was removed, while r1 and r3 have theirs. -/
example :
    AtMost (exCore .off) exR2 3600 (exBegin .off) exOne ∧ Quiet exR2 exSilence ∧
    (exRun .off exOne).lsdb.now + (3600 + 10) * 1000000000 < (exRun .off (exOne ++ exSilence)).lsdb.now ∧
    (∀ e ∈ (exRun .off (exOne ++ exSilence)).lsdb.events, (exRun .off (exOne ++ exSilence)).lsdb.now ≤ e.due) ∧
    Lists (exRun .off exOne).npt (nm ["p"]) exR2 ∧ Lists (exRun .off exOne).npt exR2 exR2 ∧
    lastCmd (exRun .off (exOne ++ exSilence)).npt.out (nm ["p"]) = some (.remove (nm ["p"])) ∧
    (exRun .off (exOne ++ exSilence)).lsdb.db.map (·.lsa.origin) = [exR1, exR1, exR3] := by
  refine ⟨by decide +kernel, exSilence_quiet, ?_⟩
  unfold Lists
  decide +kernel

/-- Non-vacuity of `C120_kept`: the Adjacency LSA of r2 has a timer due at 3625 s, and 5 s before that it is
still stored. -/
example :
    (∃ o ∈ (exRun .off exOne).lsdb.db, o.lsa.origin = exR2 ∧ o.lsa.type = .adjacency ∧
      ∃ e ∈ (exRun .off exOne).lsdb.events, e.oid = o.oid ∧ 3625000000000 ≤ e.due) ∧
    3625000000000 ≤ (exRun .off exOne).lsdb.now + (3600 + 10) * 1000000000 ∧
    AtLeast (exCore .off) exR2 3600 (exRun .off exOne) (exGet "r2" "NAME" exR2 2 (.names []) ++
      [.lsdb (.clock (3590 * Lsdb.nsPerSec) 0), .lsdb (.timer 5)]) ∧
    (exRun .off (exOne ++ exGet "r2" "NAME" exR2 2 (.names []) ++
      [.lsdb (.clock (3590 * Lsdb.nsPerSec) 0), .lsdb (.timer 5)])).lsdb.now = 3620000000000 := by
  decide +kernel

/-- Non-vacuity of `C120_routes_partial`: if after that a calculation is asked for and runs, the route to r2
goes and the one to r3 stays. -/
example :
    let s := exRun .off (exOne ++ exSilence ++ [.scheduleCalc, exWait])
    s.rt.events.map (fun d => decide (d ≤ s.lsdb.now)) = [true] ∧ s.lsdb.buildFlag = false ∧
    (∃ o ∈ s.lsdb.db, o.lsa.origin = exR1 ∧ o.lsa.type = .adjacency) ∧
    (∀ o ∈ s.lsdb.db, o.lsa.origin = exR2 → o.lsa.type ≠ .adjacency) ∧
    s.rt.table.map (·.dest) = [exR2, exR3] ∧
    (Core.step (exCore .off) s (.calcTimer 0 [])).rt.table.map (·.dest) = [exR3] := by
  decide +kernel

/-- r4's Coordinate LSA is stored and used, and expires; r2 sends a newer one and a calculation runs. -/
def exHypSilence : List Core.Op :=
  exGet "r2" "COORDINATE" exR2 1 (.coord (.fin 1) [.fin 1]) ++ exGet "r4" "COORDINATE" (nm ["net", "site", "r4"]) 1 (.coord (.fin 2) [.fin 1]) ++
  [exWait, .calcTimer 0 [], .lsdb (.clock (3600 * Lsdb.nsPerSec) 0)] ++
  exGet "r2" "COORDINATE" exR2 2 (.coord (.fin 3) [.fin 1]) ++ [exWait, .lsdb (.timer 7)]

/-- Non-vacuity of `C120_hyperbolic_partial`: the route to r4, which was there, goes, and those to the
neighbours stay. -/
example :
    let s := exRun .on exHypSilence
    s.rt.events.map (fun d => decide (d ≤ s.lsdb.now)) = [true] ∧ s.rt.table.map (·.dest) = [exR2, nm ["net", "site", "r4"], exR3] ∧
    (∀ o ∈ s.lsdb.db, o.lsa.origin = nm ["net", "site", "r4"] → o.lsa.type ≠ .coordinate) ∧
    (Core.hypTable (exCore .on) s.lsdb.adjs s.lsdb.db).isSome ∧
    (Core.step (exCore .on) s (.calcTimer 0 [])).rt.table.map (·.dest) = [exR2, exR3] := by
  decide +kernel

/-- Witness: the LSAs of r2 have expired, no timer of any kind is overdue and no calculation or build is
scheduled. -/
def exQuietEnd (s : Core) : Prop :=
  (∀ o ∈ s.lsdb.db, o.lsa.origin ≠ exR2) ∧ (∀ e ∈ s.lsdb.events, s.lsdb.now ≤ e.due) ∧ s.rt.events = [] ∧
    s.lsdb.buildFlag = false

/-- The code: src/route/routing-table.cpp:69-76 does nothing when an LSA of another router is removed
("Don;t do anything on removal, wait for HelloProtocol to confirm and then react").  The LSAs of r2 have
expired, nothing is scheduled, and the routing table still has its route to r2; for a router that is not a
neighbour no hello will ever confirm anything. -/
theorem C120_violated_stale_route :
    ∃ s, Core.Reachable (exCore .off) s ∧ exQuietEnd s ∧ ∃ e ∈ s.rt.table, e.dest = exR2 ∧ e.hops ≠ [] := by
  refine ⟨exRun .off (exOne ++ exSilence), exRun_reachable _ _, ?_⟩
  unfold exQuietEnd
  decide +kernel

end Nlsr
