import Verif.Props.Fib
import Verif.Lemmas.LsdbInv
/- C23-C25, C65-C67: the FIB and NFD over whole histories. -/
namespace Nlsr
open Fib

/-! ### NFD's side -/

/-- A route as NFD holds it. -/
structure NfdRoute where
  cost    : Int
  flags   : Nat
  /-- nanoseconds -/
  expires : Nat
deriving DecidableEq, Repr

/-- NFD's routes, by name and face, when every command takes effect. -/
def nfdStep (R : Name → Nat → Option NfdRoute) : NfdCmd → Name → Nat → Option NfdRoute
  | .register _ n _ fid cost flags exp t => fun m f => if m = n ∧ f = fid then some ⟨cost, flags, t + exp * 1000000000⟩ else R m f
  | .unregister n _ fid => fun m f => if m = n ∧ f = fid then none else R m f
  | .strategy _ _ _ => R

def nfdRoutes (log : List NfdCmd) : Name → Nat → Option NfdRoute := log.foldl nfdStep (fun _ _ => none)

theorem nfdRoutes_append (a b : List NfdCmd) : nfdRoutes (a ++ b) = b.foldl nfdStep (nfdRoutes a) := by
  unfold nfdRoutes; rw [List.foldl_append]

theorem foldl_other {m : Name} (l : List NfdCmd)
    (h : ∀ x ∈ l, ∀ v ∈ nfdView x, ∀ f c fl e, v ≠ .reg m f c fl e ∧ v ≠ .unreg m f) (R : Name → Nat → Option NfdRoute) :
    (l.foldl nfdStep R) m = R m := by
  induction l generalizing R with
  | nil => rfl
  | cons x xs ih =>
    rw [List.foldl_cons, ih (fun y hy => h y (List.mem_cons_of_mem _ hy))]
    have hx := h x List.mem_cons_self
    funext f
    cases x with
    | register r n u fid cost flags exp t =>
      have hm : m ≠ n := by
        rintro rfl
        exact (hx _ (List.mem_singleton.2 rfl) fid cost flags exp).1 rfl
      show (if m = n ∧ f = fid then _ else R m f) = R m f
      rw [if_neg (fun hc => hm hc.1)]
    | unregister n u fid =>
      have hm : m ≠ n := by
        rintro rfl
        exact (hx _ (List.mem_singleton.2 rfl) fid 0 0 0).2 rfl
      show (if m = n ∧ f = fid then _ else R m f) = R m f
      rw [if_neg (fun hc => hm hc.1)]
    | strategy r n s => rfl

theorem regLog_routes (A : AdjacencyList) (now : Nat) (n : Name) (exp flags : Nat) (l : List NextHop) :
    ∀ (r : Nat) (R : Name → Nat → Option NfdRoute) (f : Nat), 0 < f →
    ((∀ h ∈ l, A.faceIdOf h.uri ≠ f) → (regLog A now n exp flags r l).foldl nfdStep R n f = R n f) ∧
    ((∃ h ∈ l, A.faceIdOf h.uri = f) → ∃ h ∈ l, A.faceIdOf h.uri = f ∧
      (regLog A now n exp flags r l).foldl nfdStep R n f = some ⟨h.adj, flags, now + exp * 1000000000⟩) := by
  induction l with
  | nil => intro r R f _; exact ⟨fun _ => rfl, fun ⟨h, hh, _⟩ => (by cases hh)⟩
  | cons x xs ih =>
    intro r R f hf
    unfold regLog
    rw [List.foldl_append]
    generalize hR' : (if 0 < A.faceIdOf x.uri then [NfdCmd.register r n x.uri (A.faceIdOf x.uri) x.adj flags exp now]
      else []).foldl nfdStep R = R'
    have hne : A.faceIdOf x.uri ≠ f → R' n f = R n f := by
      intro hne
      rw [← hR']
      split
      · show (if n = n ∧ f = _ then _ else R n f) = _
        rw [if_neg (fun hc => hne hc.2.symm)]
      · rfl
    have heq : A.faceIdOf x.uri = f → R' n f = some ⟨x.adj, flags, now + exp * 1000000000⟩ := by
      intro he
      rw [← hR', if_pos (he ▸ hf)]
      show (if n = n ∧ f = _ then _ else R n f) = _
      rw [if_pos ⟨rfl, he.symm⟩]
    obtain ⟨h1, h2⟩ := ih (r + 1) R' f hf
    constructor
    · intro h
      rw [h1 (fun g hg => h g (List.mem_cons_of_mem _ hg)), hne (h x List.mem_cons_self)]
    · intro hex
      by_cases hxs : ∃ h ∈ xs, A.faceIdOf h.uri = f
      · obtain ⟨h, hh, h3, h4⟩ := h2 hxs
        exact ⟨h, List.mem_cons_of_mem _ hh, h3, h4⟩
      · obtain ⟨h, hh, h3⟩ := hex
        rcases List.mem_cons.1 hh with rfl | hh
        · refine ⟨h, List.mem_cons_self, h3, ?_⟩
          rw [h1 (fun g hg hc => hxs ⟨g, hg, hc⟩)]
          exact heq h3
        · exact absurd ⟨h, hh, h3⟩ hxs

theorem unregLog_routes (A : AdjacencyList) (n : Name) (l : List NextHop) :
    ∀ (R : Name → Nat → Option NfdRoute) (f : Nat), 0 < f →
    (unregLog A n l).foldl nfdStep R n f = if (∃ h ∈ l, A.faceIdOf h.uri = f) then none else R n f := by
  induction l with
  | nil => intro R f _; simp [unregLog]
  | cons x xs ih =>
    intro R f hf
    have : unregLog A n (x :: xs) = unregLog A n [x] ++ unregLog A n xs := unregLog_append A n [x] xs
    rw [this, List.foldl_append, ih _ f hf]
    have h1 : (unregLog A n [x]).foldl nfdStep R n f = if A.faceIdOf x.uri = f then none else R n f := by
      unfold unregLog
      rw [List.flatMap_singleton]
      split
      · show (if n = n ∧ f = _ then _ else R n f) = _
        by_cases he : A.faceIdOf x.uri = f
        · rw [if_pos ⟨rfl, he.symm⟩, if_pos he]
        · rw [if_neg (fun hc => he hc.2.symm), if_neg he]
      · rw [if_neg (by omega)]; rfl
    rw [h1]
    by_cases hxs : ∃ h ∈ xs, A.faceIdOf h.uri = f
    · obtain ⟨h, hh, h2⟩ := hxs
      rw [if_pos ⟨h, hh, h2⟩, if_pos ⟨h, List.mem_cons_of_mem _ hh, h2⟩]
    · rw [if_neg hxs]
      by_cases he : A.faceIdOf x.uri = f
      · rw [if_pos he, if_pos ⟨x, List.mem_cons_self, he⟩]
      · rw [if_neg he, if_neg]
        rintro ⟨h, hh, h2⟩
        rcases List.mem_cons.1 hh with rfl | hh
        · exact he h2
        · exact hxs ⟨h, hh, h2⟩

/-! ### The FIB and NFD in step -/

/-- Nothing fails at NFD, no face id changes from outside, and `n` is not registered from outside. -/
def Smooth (n : Name) : Op → Prop
  | .regFail _ => False
  | .setFaceId _ _ => False
  | .register m _ _ _ _ => m ≠ n
  | _ => True

/-- Different neighbours have different faces. -/
def FacesDiffer (A : AdjacencyList) : Prop := ∀ a ∈ A, ∀ b ∈ A, 0 < a.faceId → a.faceId = b.faceId → a.uri = b.uri

theorem FacesDiffer.inj {A : AdjacencyList} (h : FacesDiffer A) {u v : Uri} (h0 : 0 < A.faceIdOf u)
    (he : A.faceIdOf u = A.faceIdOf v) : u = v := by
  have key : ∀ w, 0 < A.faceIdOf w → ∃ a ∈ A, a.uri = w ∧ a.faceId = A.faceIdOf w := by
    intro w hw
    unfold AdjacencyList.faceIdOf at hw ⊢
    cases hf : A.findUri w with
    | none => rw [hf] at hw; exact absurd hw (Nat.lt_irrefl 0)
    | some a =>
      unfold AdjacencyList.findUri at hf
      exact ⟨a, List.mem_of_find?_eq_some hf, by simpa using List.find?_some hf, rfl⟩
  obtain ⟨a, h1, h2, h3⟩ := key u h0
  obtain ⟨b, h4, h5, h6⟩ := key v (he ▸ h0)
  rw [← h2, ← h5]
  exact h a h1 b h4 (by rw [h3]; exact h0) (by rw [h3, h6, he])

structure Sync (c : FConf) (A : AdjacencyList) (n : Name) (s : Fib) : Prop where
  adjs : s.adjs = A
  regs : ∀ r ∈ s.regs, r.fid = A.faceIdOf r.uri ∧ 0 < r.fid
  inv : Inv s
  here : ∀ f, 0 < f → ((nfdRoutes s.log n f).isSome = true ↔ ∃ h ∈ hopsAt s n, A.faceIdOf h.uri = f)
  due : ∀ e d fl, s.find n = some e → e.refresh = some (d, fl) → d ≤ s.now + c.refresh * 1000000000 ∧
    ∀ f r, 0 < f → nfdRoutes s.log n f = some r → d + 10 * 1000000000 ≤ r.expires

theorem regReqs_ok (A : AdjacencyList) (n : Name) (exp flags : Nat) (l : List NextHop) :
    ∀ r, ∀ q ∈ regReqs A n exp flags r l, q.fid = A.faceIdOf q.uri ∧ 0 < q.fid := by
  induction l with
  | nil => intro r q hq; cases hq
  | cons x xs ih =>
    intro r q hq
    unfold regReqs at hq
    rcases List.mem_append.1 hq with hq | hq
    · split at hq
      · rw [List.mem_singleton] at hq; subst hq; exact ⟨rfl, ‹_›⟩
      · cases hq
    · exact ih _ q hq

theorem view_regLog_name {A now n exp flags r l m} (hm : m ≠ n) : ∀ x ∈ regLog A now n exp flags r l, ∀ v ∈ nfdView x,
    ∀ f c fl e, v ≠ .reg m f c fl e ∧ v ≠ .unreg m f := by
  intro x hx v hv f c fl e
  have : v ∈ (regLog A now n exp flags r l).flatMap nfdView := List.mem_flatMap.2 ⟨x, hx, hv⟩
  rw [view_regLog, List.mem_map] at this
  obtain ⟨h, _, rfl⟩ := this
  exact ⟨fun hc => (by injection hc with h1; exact hm h1.symm), nofun⟩

theorem view_unregLog_name {A n l m} (hm : m ≠ n) : ∀ x ∈ unregLog A n l, ∀ v ∈ nfdView x,
    ∀ f c fl e, v ≠ .reg m f c fl e ∧ v ≠ .unreg m f := by
  intro x hx v hv f c fl e
  have : v ∈ (unregLog A n l).flatMap nfdView := List.mem_flatMap.2 ⟨x, hx, hv⟩
  rw [view_unregLog, List.mem_map] at this
  obtain ⟨h, _, rfl⟩ := this
  exact ⟨nofun, fun hc => (by injection hc with h1; exact hm h1.symm)⟩

/-- An operation on another name. -/
theorem Sync.eff_other {c A n s s' m e' cmds reqs k} (h : Sync c A n s) (f : Eff s s' m e' cmds reqs k) (hi : Inv s')
    (hm : n ≠ m) (hreq : ∀ q ∈ reqs, q.fid = A.faceIdOf q.uri ∧ 0 < q.fid)
    (hcmd : ∀ x ∈ cmds, ∀ v ∈ nfdView x, ∀ f c fl e, v ≠ .reg n f c fl e ∧ v ≠ .unreg n f) : Sync c A n s' := by
  have hR : nfdRoutes s'.log n = nfdRoutes s.log n := by
    rw [f.log, nfdRoutes_append]; exact foldl_other cmds hcmd _
  refine ⟨f.adjs.trans h.adjs, fun r hr => ?_, hi, ?_, ?_⟩
  · rw [f.regs] at hr
    rcases List.mem_append.1 hr with hr | hr
    · exact h.regs r hr
    · exact hreq r hr
  · rw [hR, hopsAt_congr (f.same n hm)]; exact h.here
  · rw [hR, f.same n hm, f.now]; exact h.due

theorem Sync.still {c A n} {s s' : Fib} (h : Sync c A n s) (ht : s'.table = s.table) (ha : s'.adjs = s.adjs) (hi : Inv s')
    (hreq : ∀ q ∈ s'.regs, q.fid = A.faceIdOf q.uri ∧ 0 < q.fid) (hnow : s.now ≤ s'.now)
    (hR : nfdRoutes s'.log n = nfdRoutes s.log n) : Sync c A n s' := by
  have hf := find_congr ht n
  refine ⟨ha.trans h.adjs, hreq, hi, ?_, ?_⟩
  · rw [hR, hopsAt_congr hf]; exact h.here
  · rw [hR, hf]
    intro e d fl h1 h2
    obtain ⟨h3, h4⟩ := h.due e d fl h1 h2
    exact ⟨by omega, h4⟩

theorem updEntry_due {c : FConf} {s : Fib} {n new flags e d fl} (hn : s.adjs.isNeighbor n = false)
    (he : e = updEntry c s n new flags) (hr : e.refresh = some (d, fl)) :
    (d = s.now + c.refresh * 1000000000 ∧ ∀ o, s.find n = some o → o.refresh = none) ∨
      (∃ o, s.find n = some o ∧ o.refresh = some (d, fl)) := by
  subst he
  unfold updEntry withRefresh at hr
  cases hf : s.find n with
  | none =>
    rw [hf] at hr
    dsimp only at hr
    rw [hn, if_neg (by simp)] at hr
    simp only [Option.getD_none, Option.some.injEq, Prod.mk.injEq] at hr
    exact .inl ⟨hr.1.symm, nofun⟩
  | some o =>
    rw [hf] at hr
    dsimp only at hr
    rw [find_name hf, hn, if_neg (by simp)] at hr
    cases ho : o.refresh with
    | none =>
      rw [ho] at hr
      simp only [Option.getD_none, Option.some.injEq, Prod.mk.injEq] at hr
      exact .inl ⟨hr.1.symm, fun o' h' => by injection h' with h'; rw [← h', ho]⟩
    | some p =>
      rw [ho] at hr
      simp only [Option.getD_some, Option.some.injEq] at hr
      exact .inr ⟨o, rfl, by rw [ho, hr]⟩

theorem Sync.remove {c A n s} (h : Sync c A n s) (hA : A.isNeighbor n = false) (m : Name) :
    Sync c A n (s.remove m) := by
  have hi : Inv (s.remove m) := step_inv (c := c) h.inv (.remove m)
  have f := remove_eff s m
  by_cases hm : n = m
  · subst hm
    rw [h.adjs, hA] at f
    simp only [Bool.false_eq_true, if_false] at f
    refine ⟨f.adjs.trans h.adjs, ?_, hi, ?_, ?_⟩
    · rw [f.regs, List.append_nil]; exact h.regs
    · intro g hg
      have hnil : hopsAt (s.remove n) n = [] := by unfold hopsAt; rw [f.here]
      rw [hnil, f.log, nfdRoutes_append]
      have h0 := h.here g hg
      unfold hopsAt at h0
      cases hf : s.find n with
      | none =>
        rw [hf] at h0
        simpa using h0
      | some e =>
        rw [hf] at h0
        dsimp only at h0 ⊢
        rw [unregLog_routes _ _ _ _ _ hg]
        split
        · simp
        · rename_i hc
          exact (h0.trans (iff_of_false hc (by simp)))
    · rw [f.here]; intro e d fl hc; cases hc
  · refine h.eff_other f hi hm (fun q hq => by cases hq) ?_
    split
    · intro x hx; cases hx
    · cases s.find m with
      | none => intro x hx; cases hx
      | some e => exact view_unregLog_name hm

theorem sync_update {c A n s} (h : Sync c A n s) (hA : A.isNeighbor n = false) (hd : FacesDiffer A) (m : Name)
    (l : NexthopList) (flags : Nat) : Sync c A n (s.update c m l flags) := by
  by_cases hw : hopsToAdd c l = []
  · rw [update_empty c s m l flags hw]; exact h.remove hA m
  have hi : Inv (s.update c m l flags) := step_inv (c := c) h.inv (.update m l flags)
  have f := update_eff c s m l flags hw
  by_cases hm : n = m
  · subst hm
    have hnb : s.adjs.isNeighbor n = false := by rw [h.adjs]; exact hA
    obtain ⟨hu, gone, hg1, hg2⟩ := update_hops (c := c) h.inv n hnb l flags
    rw [hnb] at f
    simp only [Bool.false_eq_true, if_false] at f
    have hA' := h.adjs
    -- what NFD has after the commands
    have hgone : ∀ x ∈ gone, x ∈ hopsAt s n ∧ ∀ y ∈ hopsToAdd c l, y.uri ≠ x.uri := by
      intro x hx
      have := hg1.mem_iff.1 hx
      rw [List.mem_filter] at this
      refine ⟨this.1, fun y hy => ?_⟩
      have := List.all_eq_true.1 this.2 y hy
      simpa using this
    have hgone' : ∀ x ∈ hopsAt s n, (∀ y ∈ hopsToAdd c l, y.uri ≠ x.uri) → x ∈ gone := by
      intro x hx hy
      refine hg1.mem_iff.2 (List.mem_filter.2 ⟨hx, List.all_eq_true.2 fun y hyy => ?_⟩)
      simpa using hy y hyy
    have hR : ∀ g, 0 < g →
        ((∃ x ∈ hopsToAdd c l, A.faceIdOf x.uri = g) →
          ∃ r, nfdRoutes (s.update c n l flags).log n g = some r ∧ r.expires = s.now + (c.refresh + 10) * 1000000000) ∧
        ((∀ x ∈ hopsToAdd c l, A.faceIdOf x.uri ≠ g) → nfdRoutes (s.update c n l flags).log n g = none) := by
      intro g hg
      rw [hg2, nfdRoutes_append, List.foldl_append, unregLog_routes _ _ _ _ _ hg]
      obtain ⟨r1, r2⟩ := regLog_routes s.adjs s.now n (c.refresh + fibGrace) flags (hopsToAdd c l) s.nextRoot (nfdRoutes s.log) g hg
      rw [hA'] at r1 r2 ⊢
      constructor
      · intro hx
        rw [if_neg]
        · obtain ⟨x, _, _, hx2⟩ := r2 hx
          exact ⟨_, hx2, rfl⟩
        · rintro ⟨y, hy, hyg⟩
          obtain ⟨x, hx, hxg⟩ := hx
          exact (hgone y hy).2 x hx (hd.inj (by omega) (by omega))
      · intro hx
        split
        · rfl
        · rename_i hc
          rw [r1 hx]
          have := h.here g hg
          rw [← Option.not_isSome_iff_eq_none, this]
          rintro ⟨y, hy, hyg⟩
          exact hc ⟨y, hgone' y hy (fun x hx' hu => hx x hx' (by rw [hu]; exact hyg)), hyg⟩
    refine ⟨f.adjs.trans h.adjs, ?_, hi, ?_, ?_⟩
    · intro r hr
      rw [f.regs] at hr
      rcases List.mem_append.1 hr with hr | hr
      · exact h.regs r hr
      · rw [hA'] at hr; exact regReqs_ok _ _ _ _ _ _ r hr
    · intro g hg
      have hex : (∃ x ∈ hopsAt (s.update c n l flags) n, A.faceIdOf x.uri = g) ↔ ∃ x ∈ hopsToAdd c l, A.faceIdOf x.uri = g := by
        have : ∀ l : List NextHop, (∃ x ∈ l, A.faceIdOf x.uri = g) ↔ ∃ u ∈ l.map (·.uri), A.faceIdOf u = g := by
          intro l
          constructor
          · rintro ⟨x, h1, h2⟩; exact ⟨x.uri, List.mem_map.2 ⟨x, h1, rfl⟩, h2⟩
          · rintro ⟨u, h1, h2⟩
            obtain ⟨x, h3, h4⟩ := List.mem_map.1 h1
            exact ⟨x, h3, by rw [h4]; exact h2⟩
        rw [this, this]
        exact ⟨fun ⟨u, h1, h2⟩ => ⟨u, hu.mem_iff.1 h1, h2⟩, fun ⟨u, h1, h2⟩ => ⟨u, hu.mem_iff.2 h1, h2⟩⟩
      rw [hex]
      obtain ⟨r1, r2⟩ := hR g hg
      by_cases hx : ∃ x ∈ hopsToAdd c l, A.faceIdOf x.uri = g
      · obtain ⟨r, hr, _⟩ := r1 hx
        exact iff_of_true (by rw [hr]; rfl) hx
      · refine iff_of_false ?_ hx
        rw [r2 (fun x h1 h2 => hx ⟨x, h1, h2⟩)]; simp
    · intro e d fl he hr
      rw [f.here] at he
      injection he with he
      rw [f.now]
      have hdue : d ≤ s.now + c.refresh * 1000000000 := by
        rcases updEntry_due hnb he.symm hr with ⟨h1, _⟩ | ⟨o, h1, h2⟩
        · omega
        · exact (h.due o d fl h1 h2).1
      refine ⟨hdue, fun g r hg hr' => ?_⟩
      obtain ⟨r1, r2⟩ := hR g hg
      by_cases hx : ∃ x ∈ hopsToAdd c l, A.faceIdOf x.uri = g
      · obtain ⟨r3, h3, h4⟩ := r1 hx
        rw [hr'] at h3
        injection h3 with h3
        subst h3
        rw [h4]; omega
      · rw [r2 (fun x h1 h2 => hx ⟨x, h1, h2⟩)] at hr'; cases hr'
  · refine h.eff_other f hi hm ?_ ?_
    · split
      · intro q hq; cases hq
      · rw [h.adjs]; exact regReqs_ok _ _ _ _ _ _
    · split
      · intro x hx; cases hx
      · intro x hx
        rcases List.mem_append.1 hx with hx | hx
        · exact view_regLog_name hm x hx
        · exact view_unregLog_name hm x hx

theorem sync_refresh {c A n s} (h : Sync c A n s) (m : Name) : Sync c A n (s.refresh c m) := by
  by_cases hdd : ∃ e due flags, s.find m = some e ∧ e.refresh = some (due, flags) ∧ due ≤ s.now
  · obtain ⟨e, due, flags, hf, hr, hdue⟩ := hdd
    have f := refresh_eff c s m hf hr hdue
    have hi : Inv (s.refresh c m) := step_inv (c := c) h.inv (.refresh m)
    have hA' := h.adjs
    rw [hA'] at f
    by_cases hm : n = m
    · subst hm
      have hat : hopsAt s n = e.hops := by unfold hopsAt; rw [hf]
      have hat' : hopsAt (s.refresh c n) n = e.hops := by unfold hopsAt; rw [f.here]
      have hR : ∀ g, 0 < g →
          ((∃ x ∈ e.hops, A.faceIdOf x.uri = g) →
            ∃ r, nfdRoutes (s.refresh c n).log n g = some r ∧ r.expires = s.now + (c.refresh + 10) * 1000000000) ∧
          ((∀ x ∈ e.hops, A.faceIdOf x.uri ≠ g) → nfdRoutes (s.refresh c n).log n g = none) := by
        intro g hg
        rw [f.log, nfdRoutes_append]
        obtain ⟨r1, r2⟩ := regLog_routes A s.now n (c.refresh + fibGrace) flags e.hops s.nextRoot (nfdRoutes s.log) g hg
        constructor
        · intro hx
          obtain ⟨x, _, _, hx2⟩ := r2 hx
          exact ⟨_, hx2, rfl⟩
        · intro hx
          rw [r1 hx]
          have := h.here g hg
          rw [← Option.not_isSome_iff_eq_none, this, hat]
          rintro ⟨y, hy, hyg⟩
          exact hx y hy hyg
      refine ⟨f.adjs.trans hA', ?_, hi, ?_, ?_⟩
      · intro r hr
        rw [f.regs] at hr
        rcases List.mem_append.1 hr with hr | hr
        · exact h.regs r hr
        · exact regReqs_ok _ _ _ _ _ _ r hr
      · intro g hg
        rw [hat']
        obtain ⟨r1, r2⟩ := hR g hg
        by_cases hx : ∃ x ∈ e.hops, A.faceIdOf x.uri = g
        · obtain ⟨r, hr, _⟩ := r1 hx
          exact iff_of_true (by rw [hr]; rfl) hx
        · refine iff_of_false ?_ hx
          rw [r2 (fun x h1 h2 => hx ⟨x, h1, h2⟩)]; simp
      · intro e' d fl he hr'
        rw [f.here] at he
        injection he with he
        subst he
        simp only [Option.some.injEq, Prod.mk.injEq] at hr'
        have hdq : d = s.now + c.refresh * 1000000000 := hr'.1.symm
        rw [f.now]
        refine ⟨by omega, fun g r hg hr2 => ?_⟩
        obtain ⟨r1, r2⟩ := hR g hg
        by_cases hx : ∃ x ∈ e.hops, A.faceIdOf x.uri = g
        · obtain ⟨r3, h3, h4⟩ := r1 hx
          rw [hr2] at h3
          injection h3 with h3
          subst h3
          rw [h4]; omega
        · rw [r2 (fun x h1 h2 => hx ⟨x, h1, h2⟩)] at hr2; cases hr2
    · refine h.eff_other f hi hm ?_ ?_
      · exact regReqs_ok _ _ _ _ _ _
      · exact view_regLog_name hm
  · rw [refresh_idle c s m]
    · exact h
    · intro e hf due flags hr
      exact Nat.lt_of_not_le fun hc => hdd ⟨e, due, flags, hf, hr, hc⟩

theorem sync_step {c A n s} (h : Sync c A n s) (hA : A.isNeighbor n = false) (hd : FacesDiffer A) (op : Op) (ho : Smooth n op) :
    Sync c A n (Fib.step c s op) := by
  have hi : Inv (Fib.step c s op) := step_inv h.inv op
  cases op with
  | update m l f => exact sync_update h hA hd m l f
  | remove m => exact h.remove hA m
  | refresh m => exact sync_refresh h m
  | regFail i => exact ho.elim
  | setFaceId m i => exact ho.elim
  | register m u cost exp flags =>
    have hm : n ≠ m := fun hc => ho hc.symm
    have he : Fib.step c s (.register m u cost exp flags) = _ := registerPrefix_eq s m u cost exp flags
    rw [he] at hi ⊢
    refine h.still rfl rfl hi ?_ (Nat.le_refl _) ?_
    · intro q hq
      rcases List.mem_append.1 hq with hq | hq
      · exact h.regs q hq
      · split at hq
        · rw [List.mem_singleton] at hq; subst hq
          rw [h.adjs] at *
          exact ⟨rfl, ‹_›⟩
        · cases hq
    · show nfdRoutes (s.log ++ _) n = _
      rw [nfdRoutes_append]
      refine foldl_other _ ?_ _
      intro x hx v hv f c' fl e
      split at hx
      · rw [List.mem_singleton] at hx; subst hx
        rw [nfdView, List.mem_singleton] at hv; subst hv
        exact ⟨fun hc => (by injection hc with h1; exact hm h1.symm), nofun⟩
      · cases hx
  | setStrategy m st =>
    refine h.still rfl rfl hi h.regs (Nat.le_refl _) ?_
    show nfdRoutes (s.log ++ [.strategy s.nextRoot m st]) n = _
    rw [nfdRoutes_append]; rfl
  | regOk i =>
    show Sync c A n (s.regOk i)
    have hi' : Inv (s.regOk i) := hi
    unfold regOk at hi' ⊢
    cases hr : s.regs[i]? with
    | none => exact h
    | some r =>
      rw [hr] at hi'
      dsimp only at hi' ⊢
      have hmem : r ∈ s.regs := List.mem_of_getElem? hr
      obtain ⟨h1, h2⟩ := h.regs r hmem
      have hsame : s.adjs.setFaceOf r.uri r.fid = s.adjs := by
        rw [h1, h.adjs]
        exact AdjacencyList.setFaceOf_same A r.uri (by omega)
      refine h.still rfl hsame hi' (fun q hq => h.regs q (List.mem_of_mem_eraseIdx hq)) (Nat.le_refl _) rfl
  | stratOk i => exact h.still rfl rfl hi h.regs (Nat.le_refl _) rfl
  | stratFail i =>
    show Sync c A n (s.stratFail i)
    have hi' : Inv (s.stratFail i) := hi
    unfold stratFail at hi' ⊢
    cases hr : s.strats[i]? with
    | none => exact h
    | some r =>
      rw [hr] at hi'
      dsimp only at hi' ⊢
      by_cases hc : r.count < 3
      · rw [if_pos hc] at hi' ⊢
        refine h.still rfl rfl hi' h.regs (Nat.le_refl _) ?_
        show nfdRoutes (s.log ++ [.strategy r.root r.name r.strat]) n = _
        rw [nfdRoutes_append]; rfl
      · rw [if_neg hc] at hi' ⊢
        exact h.still rfl rfl hi' h.regs (Nat.le_refl _) rfl
  | clock dt => exact h.still rfl rfl hi h.regs (Nat.le_add_right _ _) rfl

theorem isNeighbor_false {A : AdjacencyList} {n : Name} : A.isNeighbor n = false ↔ ∀ a ∈ A, a.name ≠ n := by
  unfold AdjacencyList.isNeighbor AdjacencyList.find
  rw [Option.isSome_eq_false_iff, Option.isNone_iff_eq_none, List.find?_eq_none]
  simp

theorem sync_run {c : FConf} {A : AdjacencyList} {n : Name} (hA : ∀ a ∈ A, a.name ≠ n) (hd : FacesDiffer A) (ops : List Op)
    (ho : ∀ op ∈ ops, Smooth n op) : Sync c A n (Fib.run c { adjs := A } ops) := by
  have key : ∀ (ops : List Op) (s : Fib), Sync c A n s → (∀ op ∈ ops, Smooth n op) → Sync c A n (Fib.run c s ops) := by
    intro ops
    induction ops with
    | nil => intro s h _; exact h
    | cons op ops ih =>
      intro s h ho
      exact ih _ (sync_step h (isNeighbor_false.2 hA) hd op (ho op List.mem_cons_self))
        (fun o h' => ho o (List.mem_cons_of_mem _ h'))
  refine key ops _ ⟨rfl, fun r hr => (by cases hr), Fib.Reachable.inv (c := c) ⟨A, [], rfl⟩, ?_, ?_⟩ ho
  · intro f _
    exact iff_of_false (by simp [nfdRoutes]) (by simp [hopsAt, Fib.find])
  · intro e d fl hc; cases hc

/-! ### C23 -/

/-- **C23.** If no command fails and faces keep their ids, then after any history NFD has a route for
(`n`, `f`) exactly when the FIB records, for `n`, a neighbour whose face is `f`; `n` is any name that is
no neighbour's and is not registered from outside. -/
theorem C23_routes (c : FConf) {A : AdjacencyList} {n : Name} (hn : ∀ a ∈ A, a.name ≠ n) (hd : FacesDiffer A) (ops : List Op)
    (ho : ∀ op ∈ ops, Smooth n op) (f : Nat) (hf : 0 < f) :
    let s := Fib.run c { adjs := A } ops
    (nfdRoutes s.log n f).isSome = true ↔ ∃ u ∈ s.faces n, s.adjs.faceIdOf u = f := by
  intro s
  have h : Sync c A n s := sync_run hn hd ops ho
  rw [h.here f hf, h.adjs]
  unfold Fib.faces
  rw [recorded_eq h.inv]
  constructor
  · rintro ⟨x, h1, h2⟩; exact ⟨x.uri, List.mem_map.2 ⟨x, h1, rfl⟩, h2⟩
  · rintro ⟨u, h1, h2⟩
    obtain ⟨x, h3, h4⟩ := List.mem_map.1 h1
    exact ⟨x, h3, by rw [h4]; exact h2⟩

/-! ### C65 -/

/-- **C65.** Routes do not lapse: as long as refresh timers fire less than ten seconds late, every route
the FIB records is still alive in NFD. -/
theorem C65_no_lapse (c : FConf) {A : AdjacencyList} {n : Name} (hn : ∀ a ∈ A, a.name ≠ n) (hd : FacesDiffer A) (ops : List Op)
    (ho : ∀ op ∈ ops, Smooth n op) (f : Nat) (hf : 0 < f) :
    let s := Fib.run c { adjs := A } ops
    (∀ e ∈ s.table, e.name = n → ∀ d fl, e.refresh = some (d, fl) → s.now < d + 10 * 1000000000) →
    (∃ u ∈ s.faces n, s.adjs.faceIdOf u = f) → ∃ r, nfdRoutes s.log n f = some r ∧ s.now < r.expires := by
  intro s hl hu
  have h : Sync c A n s := sync_run hn hd ops ho
  have hs := (C23_routes c hn hd ops ho f hf).2 hu
  obtain ⟨r, hr⟩ := Option.isSome_iff_exists.1 hs
  refine ⟨r, hr, ?_⟩
  -- the entry has a pending refresh
  have hex : ∃ e, s.find n = some e := by
    have := (h.here f hf).1 hs
    unfold hopsAt at this
    cases hfi : s.find n with
    | none => rw [hfi] at this; obtain ⟨_, hc, _⟩ := this; cases hc
    | some e => exact ⟨e, rfl⟩
  obtain ⟨e, he⟩ := hex
  have hre := (h.inv.refresh n e he).2 (by rw [h.adjs]; exact isNeighbor_false.2 hn)
  obtain ⟨⟨d, fl⟩, hre⟩ := Option.isSome_iff_exists.1 hre
  have h1 := (h.due e d fl he hre).2 f r hf hr
  have h2 := hl e (find_mem he) (find_name he) d fl hre
  omega

/-! ### C24 -/

/-- The command is about `n`. -/
def About (n : Name) (x : NfdCmd) : Prop := ∃ v ∈ nfdView x, (∃ f c fl e, v = .reg n f c fl e) ∨ ∃ f, v = .unreg n f

theorem about_register {n r m u f c fl e t} : About n (.register r m u f c fl e t) ↔ m = n := by
  unfold About
  simp [nfdView]

theorem about_unregister {n m u f} : About n (.unregister m u f) ↔ m = n := by
  unfold About
  simp [nfdView]

theorem about_strategy {n r m st} : ¬ About n (.strategy r m st) := by
  unfold About
  simp [nfdView]

theorem about_regLog {A now n exp flags l m x} : ∀ r, x ∈ regLog A now n exp flags r l → About m x → m = n := by
  induction l with
  | nil => intro r hx; cases hx
  | cons y ys ih =>
    intro r hx ha
    unfold regLog at hx
    rcases List.mem_append.1 hx with hx | hx
    · split at hx
      · rw [List.mem_singleton] at hx; subst hx; exact (about_register.1 ha).symm
      · cases hx
    · exact ih _ hx ha

theorem about_unregLog {A n l m x} (hx : x ∈ unregLog A n l) (ha : About m x) : m = n := by
  unfold unregLog at hx
  obtain ⟨h, _, hx⟩ := List.mem_flatMap.1 hx
  split at hx
  · rw [List.mem_singleton] at hx; subst hx; exact (about_unregister.1 ha).symm
  · cases hx

theorem name_regReqs {A n exp flags l} : ∀ r, ∀ q ∈ regReqs A n exp flags r l, q.name = n := by
  induction l with
  | nil => intro r q hq; cases hq
  | cons y ys ih =>
    intro r q hq
    unfold regReqs at hq
    rcases List.mem_append.1 hq with hq | hq
    · split at hq
      · rw [List.mem_singleton] at hq; subst hq; rfl
      · cases hq
    · exact ih _ q hq

structure Untouched (n : Name) (s : Fib) : Prop where
  inv : Inv s
  nb : s.adjs.isNeighbor n = true
  log : ∀ x ∈ s.log, ¬ About n x
  regs : ∀ r ∈ s.regs, r.name ≠ n

theorem untouched_send {n : Name} {s : Fib} (hl : ∀ x ∈ s.log, ¬ About n x) (hr : ∀ r ∈ s.regs, r.name ≠ n) {root m u cost exp flags times}
    (hm : m ≠ n) : (∀ x ∈ (s.send root m u cost exp flags times).log, ¬ About n x) ∧
      ∀ r ∈ (s.send root m u cost exp flags times).regs, r.name ≠ n := by
  unfold Fib.send
  dsimp only
  split
  · constructor
    · intro x hx
      rcases List.mem_append.1 hx with hx | hx
      · exact hl x hx
      · rw [List.mem_singleton] at hx; subst hx; rw [about_register]; exact hm
    · intro x hx
      rcases List.mem_append.1 hx with hx | hx
      · exact hr x hx
      · rw [List.mem_singleton] at hx; subst hx; exact hm
  · exact ⟨hl, hr⟩

theorem untouched_eff {n : Name} {s s' m e' cmds reqs k} (h : Untouched n s) (f : Eff s s' m e' cmds reqs k) (hi : Inv s')
    (h1 : ∀ x ∈ cmds, ¬ About n x) (h2 : ∀ r ∈ reqs, r.name ≠ n) : Untouched n s' := by
  refine ⟨hi, by rw [f.adjs]; exact h.nb, ?_, ?_⟩
  · rw [f.log]; intro x hx
    rcases List.mem_append.1 hx with hx | hx
    · exact h.log x hx
    · exact h1 x hx
  · rw [f.regs]; intro x hx
    rcases List.mem_append.1 hx with hx | hx
    · exact h.regs x hx
    · exact h2 x hx

theorem untouched_step {c : FConf} {n : Name} {s : Fib} (h : Untouched n s) (op : Op) (ho : ∀ u k e f, op ≠ .register n u k e f) :
    Untouched n (Fib.step c s op) := by
  have hi : Inv (Fib.step c s op) := step_inv h.inv op
  have hrem : ∀ m, Untouched n (s.remove m) := by
    intro m
    refine untouched_eff h (remove_eff s m) (step_inv (c := c) h.inv (.remove m)) ?_ (fun r hr => by cases hr)
    split
    · intro x hx; cases hx
    · rename_i hnb
      cases s.find m with
      | none => intro x hx; cases hx
      | some e =>
        intro x hx ha
        have := about_unregLog hx ha
        subst this
        exact hnb h.nb
  cases op with
  | update m l f =>
    show Untouched n (s.update c m l f)
    by_cases hw : hopsToAdd c l = []
    · rw [update_empty c s m l f hw]; exact hrem m
    · refine untouched_eff h (update_eff c s m l f hw) hi ?_ ?_
      · split
        · intro x hx; cases hx
        · rename_i hnb
          intro x hx ha
          rcases List.mem_append.1 hx with hx | hx
          · have := about_regLog _ hx ha; subst this; exact hnb h.nb
          · have := about_unregLog hx ha; subst this; exact hnb h.nb
      · split
        · intro x hx; cases hx
        · rename_i hnb
          intro r hr hc
          have := name_regReqs _ r hr
          exact hnb (by rw [← this, hc]; exact h.nb)
  | remove m => exact hrem m
  | refresh m =>
    show Untouched n (s.refresh c m)
    by_cases hdd : ∃ e due flags, s.find m = some e ∧ e.refresh = some (due, flags) ∧ due ≤ s.now
    · obtain ⟨e, due, flags, hf, hr, hd⟩ := hdd
      have hnb : s.adjs.isNeighbor m = false := (h.inv.refresh m e hf).1 (by rw [hr]; rfl)
      have hm : m ≠ n := by rintro rfl; rw [h.nb] at hnb; cases hnb
      refine untouched_eff h (refresh_eff c s m hf hr hd) hi ?_ ?_
      · intro x hx ha; exact hm (about_regLog _ hx ha).symm
      · intro r hr hc; exact hm ((name_regReqs _ r hr).symm.trans hc)
    · rw [refresh_idle c s m]
      · exact h
      · intro e hf due flags hr
        exact Nat.lt_of_not_le fun hc => hdd ⟨e, due, flags, hf, hr, hc⟩
  | register m u cost exp flags =>
    have hm : m ≠ n := by rintro rfl; exact ho u cost exp flags rfl
    obtain ⟨h1, h2⟩ := untouched_send h.log h.regs (root := s.nextRoot) (u := u) (cost := cost) (exp := exp) (flags := flags)
      (times := 0) hm
    have hA : (Fib.step c s (.register m u cost exp flags)).adjs.map (·.name) = s.adjs.map (·.name) :=
      (step_idle c s (.register m u cost exp flags) nofun nofun nofun).names
    exact ⟨hi, by rw [AdjacencyList.isNeighbor_congr hA]; exact h.nb, h1, h2⟩
  | regFail i =>
    have hA := (step_idle c s (.regFail i) nofun nofun nofun).names
    have key : (∀ x ∈ (s.regFail i).log, ¬ About n x) ∧ ∀ r ∈ (s.regFail i).regs, r.name ≠ n := by
      unfold Fib.regFail
      cases hr : s.regs[i]? with
      | none => exact ⟨h.log, h.regs⟩
      | some r =>
        dsimp only
        have h2 : ∀ q ∈ s.regs.eraseIdx i, q.name ≠ n := fun q hq => h.regs q (List.mem_of_mem_eraseIdx hq)
        split
        · exact untouched_send (s := { s with regs := s.regs.eraseIdx i }) h.log h2 (h.regs r (List.mem_of_getElem? hr))
        · exact ⟨h.log, h2⟩
    exact ⟨hi, by rw [AdjacencyList.isNeighbor_congr hA]; exact h.nb, key.1, key.2⟩
  | regOk i =>
    have hA := (step_idle c s (.regOk i) nofun nofun nofun).names
    have key : (s.regOk i).log = s.log ∧ ∀ r ∈ (s.regOk i).regs, r ∈ s.regs := by
      unfold Fib.regOk
      cases hr : s.regs[i]? with
      | none => exact ⟨rfl, fun _ h => h⟩
      | some r => exact ⟨rfl, fun q hq => List.mem_of_mem_eraseIdx hq⟩
    exact ⟨hi, by rw [AdjacencyList.isNeighbor_congr hA]; exact h.nb, fun x hx => h.log x (key.1 ▸ hx), fun r hr => h.regs r (key.2 r hr)⟩
  | setStrategy m st =>
    refine ⟨hi, h.nb, ?_, h.regs⟩
    intro x hx
    rcases List.mem_append.1 (show x ∈ s.log ++ _ from hx) with hx | hx
    · exact h.log x hx
    · rw [List.mem_singleton] at hx; subst hx; exact about_strategy
  | stratOk i => exact ⟨hi, h.nb, h.log, h.regs⟩
  | stratFail i =>
    have hA := (step_idle c s (.stratFail i) nofun nofun nofun).names
    have key : (∀ x ∈ (s.stratFail i).log, ¬ About n x) ∧ (s.stratFail i).regs = s.regs := by
      unfold Fib.stratFail
      cases hr : s.strats[i]? with
      | none => exact ⟨h.log, rfl⟩
      | some r =>
        dsimp only
        split
        · refine ⟨?_, rfl⟩
          intro x hx
          rcases List.mem_append.1 (show x ∈ s.log ++ _ from hx) with hx | hx
          · exact h.log x hx
          · rw [List.mem_singleton] at hx; subst hx; exact about_strategy
        · exact ⟨h.log, rfl⟩
    exact ⟨hi, by rw [AdjacencyList.isNeighbor_congr hA]; exact h.nb, key.1, fun r hr => h.regs r (key.2 ▸ hr)⟩
  | clock dt => exact ⟨hi, h.nb, h.log, h.regs⟩
  | setFaceId m i =>
    have hA := (step_idle c s (.setFaceId m i) nofun nofun nofun).names
    exact ⟨hi, by rw [AdjacencyList.isNeighbor_congr hA]; exact h.nb, h.log, h.regs⟩

/-- **C24.** No history of updates, removals, refreshes, answers and clock steps sends NFD a registration
or an unregistration for a configured neighbour's own name, unless `registerPrefix` is called for it
directly. -/
theorem C24_neighbors (c : FConf) {A : AdjacencyList} {n : Name} (hn : ∃ a ∈ A, a.name = n) (ops : List Op)
    (ho : ∀ u k e f, Op.register n u k e f ∉ ops) :
    ∀ x ∈ (Fib.run c { adjs := A } ops).log, ∀ f k fl e, NfdView.reg n f k fl e ∉ nfdView x ∧ NfdView.unreg n f ∉ nfdView x := by
  have hnb : A.isNeighbor n = true := by
    cases hb : A.isNeighbor n with
    | true => rfl
    | false => obtain ⟨a, ha, he⟩ := hn; exact absurd he (isNeighbor_false.1 hb a ha)
  have key : ∀ (ops : List Op) (s : Fib), Untouched n s → (∀ u k e f, Op.register n u k e f ∉ ops) →
      Untouched n (Fib.run c s ops) := by
    intro ops
    induction ops with
    | nil => intro s h _; exact h
    | cons op ops ih =>
      intro s h ho
      refine ih _ (untouched_step h op ?_) (fun u k e f hc => ho u k e f (List.mem_cons_of_mem _ hc))
      rintro u k e f rfl
      exact ho u k e f List.mem_cons_self
  have h := key ops { adjs := A } ⟨Fib.Reachable.inv (c := c) ⟨A, [], rfl⟩, hnb, fun x hx => (by cases hx), fun r hr => (by cases hr)⟩ ho
  intro x hx f k fl e
  have := h.log x hx
  exact ⟨fun hc => this ⟨_, hc, .inl ⟨f, k, fl, e, rfl⟩⟩, fun hc => this ⟨_, hc, .inr ⟨f, rfl⟩⟩⟩

/-! ### C25 -/

/-- Not an update or a removal of `n`. -/
def LeavesEntry (n : Name) : Op → Prop
  | .update m _ _ => m ≠ n
  | .remove m => m ≠ n
  | _ => True

theorem hopsAt_step {c : FConf} {s : Fib} {n : Name} {op : Op} (ho : LeavesEntry n op) :
    hopsAt (Fib.step c s op) n = hopsAt s n := by
  have hid : (∀ n l f, op ≠ .update n l f) → (∀ n, op ≠ .remove n) → (∀ n, op ≠ .refresh n) →
      hopsAt (Fib.step c s op) n = hopsAt s n :=
    fun a b d => hopsAt_congr (find_congr (step_idle c s op a b d).table n)
  cases op with
  | update m l f =>
    have hm : n ≠ m := fun hc => ho hc.symm
    refine hopsAt_congr ?_
    show (s.update c m l f).find n = _
    by_cases hw : hopsToAdd c l = []
    · rw [update_empty c s m l f hw]; exact (remove_eff s m).same n hm
    · exact (update_eff c s m l f hw).same n hm
  | remove m => exact hopsAt_congr ((remove_eff s m).same n (fun hc => ho hc.symm))
  | refresh m =>
    show hopsAt (s.refresh c m) n = _
    by_cases hdd : ∃ e due flags, s.find m = some e ∧ e.refresh = some (due, flags) ∧ due ≤ s.now
    · obtain ⟨e, due, flags, hf, hr, hd⟩ := hdd
      have f := refresh_eff c s m hf hr hd
      by_cases hm : n = m
      · subst hm; unfold hopsAt; rw [f.here, hf]
      · exact hopsAt_congr (f.same n hm)
    · rw [refresh_idle c s m]
      intro e hf due flags hr
      exact Nat.lt_of_not_le fun hc => hdd ⟨e, due, flags, hf, hr, hc⟩
  | _ => exact hid nofun nofun nofun

theorem hopsAt_run {c : FConf} {n : Name} : ∀ (ops : List Op) (s : Fib), (∀ op ∈ ops, LeavesEntry n op) →
    hopsAt (Fib.run c s ops) n = hopsAt s n := by
  intro ops
  induction ops with
  | nil => intro s _; rfl
  | cons op ops ih =>
    intro s ho
    show hopsAt (Fib.run c (Fib.step c s op) ops) n = _
    rw [ih _ (fun o h => ho o (List.mem_cons_of_mem _ h)), hopsAt_step (ho op List.mem_cons_self)]

/-- **C25 (part).** A refresh of `n` that is due sends one registration for each of the first `maxFaces`
hops of the latest update of `n`, with that update's cost, if the update raised no cost that was recorded
before it.  Whatever else happens between the update and the refresh makes no difference.  Missing: costs
that were raised, see `C25_violated_raised`. -/
theorem C25_refresh_partial {c : FConf} {s : Fib} (hr : Fib.Reachable c s) {n : Name} (hn : ∀ a ∈ s.adjs, a.name ≠ n)
    (l : NexthopList) (hl : (l.map (·.uri)).Nodup) (flags : Nat)
    (hcost : ∀ o ∈ s.recorded n, ∀ h ∈ firstHops c.maxFaces l, o.uri = h.uri → h.cost < o.cost ∨ (h.cost = o.cost ∧ h.hyp = o.hyp))
    (ops : List Op) (ho : ∀ op ∈ ops, LeavesEntry n op) :
    let s' := Fib.run c (Fib.step c s (.update n l flags)) ops
    ∀ e ∈ s'.table, e.name = n → ∀ d fl, e.refresh = some (d, fl) → d ≤ s'.now →
    ∃ cmds, (Fib.step c s' (.refresh n)).log = s'.log ++ cmds ∧
      (cmds.flatMap nfdView).Perm (((firstHops c.maxFaces l).filter (fun h => decide (0 < s'.adjs.faceIdOf h.uri))).map
        (fun h => .reg n (s'.adjs.faceIdOf h.uri) h.adj fl (c.refresh + 10))) := by
  intro s' e he hen d fl hre hd
  have hi := hr.inv
  have hr' : Fib.Reachable c s' := by
    obtain ⟨A, o, rfl⟩ := hr
    exact ⟨A, o ++ Op.update n l flags :: ops, by simp [s', Fib.run]⟩
  have hf : s'.find n = some e := by rw [← hen]; exact find_of_mem hr'.inv he
  have f := refresh_eff c s' n hf hre hd
  refine ⟨_, f.log, ?_⟩
  rw [view_regLog]
  have hp : (hopsToAdd c l).Perm (firstHops c.maxFaces l) := hopsToAdd_perm c hl
  refine List.Perm.map _ (List.Perm.filter _ (List.Perm.trans ?_ hp))
  have h1 : e.hops = hopsAt s' n := by unfold hopsAt; rw [hf]
  rw [h1, hopsAt_run ops _ ho]
  show (hopsAt (s.update c n l flags) n).Perm _
  by_cases hw : hopsToAdd c l = []
  · rw [update_empty c s n l flags hw, hw]
    have f := remove_eff s n
    rw [isNeighbor_false.2 hn] at f
    unfold hopsAt; rw [f.here]; exact List.Perm.refl _
  · have f := update_eff c s n l flags hw
    have hh : hopsAt (s.update c n l flags) n = (updEntry c s n (hopsToAdd c l) flags).hops := by
      unfold hopsAt; rw [f.here]
    rw [hh, updEntry_hops]
    have hs := hopsToAdd_sorted c l
    cases hf' : s.find n with
    | none => exact addHops_perm hs.nodup
    | some o =>
      dsimp only
      have hos := hi.sorted n o hf'
      have hrec : s.recorded n = o.hops := by rw [recorded_eq hi]; unfold hopsAt; rw [hf']
      rw [hrec] at hcost
      have nd : ∀ {l : List NextHop}, UriSorted l → l.Nodup :=
        fun h => List.Pairwise.of_map _ (fun _ _ hab he => hab (he ▸ rfl)) h.nodup
      refine (List.perm_ext_iff_of_nodup (nd (mergedHops_sorted hos)) (nd hs)).2 (fun x => ?_)
      rw [(merged_spec hos hs.nodup).2]
      constructor
      · rintro (⟨h1, g, hg, hu, hle⟩ | h)
        · rcases hcost x h1 g (hp.mem_iff.1 hg) hu.symm with hlt | ⟨h2, h3⟩
          · exact absurd hle (Rat.not_le.2 hlt)
          · have : x = g := by
              cases x; cases g
              simp_all
            rw [this]; exact hg
        · exact h.1
      · intro hx
        by_cases hex : ∃ g ∈ o.hops, g.uri = x.uri
        · obtain ⟨g, hg, hu⟩ := hex
          rcases hcost g hg x (hp.mem_iff.1 hx) hu with hlt | ⟨h2, h3⟩
          · refine .inr ⟨hx, fun g' hg' hu' => ?_⟩
            have : g' = g := Lsdb.nodup_inj (f := NextHop.uri) hos.nodup hg' hg (hu'.trans hu.symm)
            rw [this]; exact hlt
          · have : x = g := by
              cases x; cases g
              simp_all
            rw [this] at hx ⊢
            exact .inl ⟨hg, g, hx, rfl, Rat.le_refl⟩
        · exact .inr ⟨hx, fun g hg hu => absurd ⟨g, hg, hu⟩ hex⟩

/-! Concrete FIBs. -/

def fibConf : FConf := ⟨2, 3600⟩
def fibAdjs : AdjacencyList := [
  { name := (nm ["b"]), uri := "udp4://b", cost := .fin 10, status := .active, timedOut := 0, faceId := 261 },
  { name := (nm ["c"]), uri := "udp4://c", cost := .fin 20, status := .active, timedOut := 0, faceId := 262 },
  { name := (nm ["d"]), uri := "udp4://d", cost := .fin 30, status := .active, timedOut := 0, faceId := 0 }]

/-- Three updates of one name, a refresh, and an update of another name, all answered by NFD. -/
def fibOps : List Op := [
  .update (nm ["p"]) [⟨"udp4://b", 10, false⟩, ⟨"udp4://c", 25, false⟩] 1, .regOk 0, .clock 1000, .regOk 0,
  .update (nm ["p"]) [⟨"udp4://c", 20, false⟩, ⟨"udp4://d", 40, false⟩] 1,
  .update (nm ["q"]) [⟨"udp4://b", 11, false⟩] 2, .clock (3600 * 1000000000), .refresh (nm ["p"]), .regOk 1]

example : (∀ a ∈ fibAdjs, a.name ≠ nm ["p"]) ∧ FacesDiffer fibAdjs ∧
    (∀ op ∈ fibOps, Smooth (nm ["p"]) op) ∧
    (Fib.run fibConf { adjs := fibAdjs } fibOps).faces (nm ["p"]) = ["udp4://c", "udp4://d"] ∧
    (nfdRoutes (Fib.run fibConf { adjs := fibAdjs } fibOps).log (nm ["p"]) 262) = some ⟨20, 1, 1000 + 7210 * 1000000000⟩ ∧
    (nfdRoutes (Fib.run fibConf { adjs := fibAdjs } fibOps).log (nm ["p"]) 261) = none ∧
    (∀ e ∈ (Fib.run fibConf { adjs := fibAdjs } fibOps).table, e.name = (nm ["p"]) → ∀ d fl, e.refresh = some (d, fl) →
      (Fib.run fibConf { adjs := fibAdjs } fibOps).now < d + 10 * 1000000000) := by
  refine ⟨by decide +kernel, ?_, ?_, by decide +kernel, by decide +kernel, by decide +kernel, ?_⟩
  · unfold FacesDiffer; decide +kernel
  · intro op ho
    simp only [fibOps, List.mem_cons, List.not_mem_nil, or_false] at ho
    rcases ho with rfl | rfl | rfl | rfl | rfl | rfl | rfl | rfl | rfl <;> trivial
  · have h : (Fib.run fibConf { adjs := fibAdjs } fibOps).table.all (fun e => match e.refresh with
        | none => true
        | some p => decide ((Fib.run fibConf { adjs := fibAdjs } fibOps).now < p.1 + 10 * 1000000000)) = true := by decide +kernel
    intro e he _ d fl hr
    have := List.all_eq_true.1 h e he
    rw [hr] at this
    simpa using this

/-- `C22_update` applies to a state in which an update drops one face and adds another. -/
example : ∃ s : Fib, Fib.Reachable fibConf s ∧ (∀ a ∈ s.adjs, a.name ≠ nm ["p"]) ∧ s.faces (nm ["p"]) = ["udp4://b", "udp4://c"] ∧
    (Fib.step fibConf s (.update (nm ["p"]) [⟨"udp4://c", 20, false⟩, ⟨"udp4://d", 40, false⟩, ⟨"udp4://b", 50, false⟩] 1)).faces (nm ["p"])
      = ["udp4://c", "udp4://d"] :=
  ⟨Fib.run fibConf { adjs := fibAdjs } (fibOps.take 4), ⟨_, _, rfl⟩, by decide +kernel, by decide +kernel, by decide +kernel⟩

/-- A neighbour's name can be updated and recorded; nothing is sent for it. -/
example : (∃ a ∈ fibAdjs, a.name = (nm ["b"])) ∧
    (Fib.run fibConf { adjs := fibAdjs } [.update (nm ["b"]) [⟨"udp4://c", 5, false⟩] 1, .update (nm ["q"]) [⟨"udp4://c", 5, false⟩] 1]).faces (nm ["b"])
      = ["udp4://c"] ∧
    (Fib.run fibConf { adjs := fibAdjs } [.update (nm ["b"]) [⟨"udp4://c", 5, false⟩] 1, .update (nm ["q"]) [⟨"udp4://c", 5, false⟩] 1]).log.length
      = 1 := by decide +kernel

/-- **C25 does not hold** when a cost goes up: after updates with cost 10 and then 20, the refresh registers 10. -/
theorem C25_violated_raised : ∃ (c : FConf) (s : Fib) (n : Name) (l : NexthopList) (ops : List Op),
    Fib.Reachable c s ∧ (∀ a ∈ s.adjs, a.name ≠ n) ∧ l = [⟨"udp4://b", 20, false⟩] ∧ (∀ op ∈ ops, LeavesEntry n op) ∧
    (Fib.step c (Fib.run c (Fib.step c s (.update n l 1)) ops) (.refresh n)).log =
      (Fib.run c (Fib.step c s (.update n l 1)) ops).log ++ [.register 2 n "udp4://b" 261 10 1 3610 3600000000000] := by
  refine ⟨fibConf, Fib.run fibConf { adjs := fibAdjs } [.update (nm ["p"]) [⟨"udp4://b", 10, false⟩] 1], (nm ["p"]),
    [⟨"udp4://b", 20, false⟩], [.clock (3600 * 1000000000)], ⟨_, _, rfl⟩, by decide +kernel, rfl, ?_, by decide +kernel⟩
  intro op ho
  rw [List.mem_singleton] at ho; subst ho; trivial

/-- `C25_refresh_partial` applies to an update that lowers one cost, keeps another and drops a face. -/
example : ∃ s : Fib, Fib.Reachable fibConf s ∧ (s.recorded (nm ["p"])).length = 2 ∧
    (∀ o ∈ s.recorded (nm ["p"]), ∀ h ∈ firstHops 2 [⟨"udp4://c", 20, false⟩, ⟨"udp4://b", 10, false⟩], o.uri = h.uri →
      h.cost < o.cost ∨ (h.cost = o.cost ∧ h.hyp = o.hyp)) :=
  ⟨Fib.run fibConf { adjs := fibAdjs } [.update (nm ["p"]) [⟨"udp4://b", 10, false⟩, ⟨"udp4://c", 25, false⟩] 1], ⟨_, _, rfl⟩,
    by decide +kernel, by decide +kernel⟩

/-! ### C66 -/

/-- **C66 (part).** If nothing fails, a name that is removed has no route in NFD until it is updated
again.  Missing: registrations that fail, see `C66_violated_retry`. -/
theorem C66_withdrawn_partial (c : FConf) {A : AdjacencyList} {n : Name} (hn : ∀ a ∈ A, a.name ≠ n) (hd : FacesDiffer A)
    (ops ops' : List Op) (ho : ∀ op ∈ ops ++ ops', Smooth n op) (hu : ∀ op ∈ ops', LeavesEntry n op) (f : Nat) (hf : 0 < f) :
    nfdRoutes (Fib.run c { adjs := A } (ops ++ .remove n :: ops')).log n f = none := by
  have ho' : ∀ op ∈ ops ++ .remove n :: ops', Smooth n op := by
    intro op hop
    rcases List.mem_append.1 hop with h | h
    · exact ho op (List.mem_append_left _ h)
    · rcases List.mem_cons.1 h with rfl | h
      · trivial
      · exact ho op (List.mem_append_right _ h)
  have h := (sync_run (c := c) hn hd _ ho').here f hf
  rw [← Option.not_isSome_iff_eq_none, h]
  have hs : Sync c A n (Fib.run c { adjs := A } ops) := sync_run hn hd ops (fun op hop => ho op (List.mem_append_left _ hop))
  have : hopsAt (Fib.run c { adjs := A } (ops ++ .remove n :: ops')) n = [] := by
    have e : Fib.run c { adjs := A } (ops ++ .remove n :: ops') =
        Fib.run c ((Fib.run c { adjs := A } ops).remove n) ops' := by
      unfold Fib.run; rw [List.foldl_append]; rfl
    rw [e, hopsAt_run ops' _ hu]
    have f := remove_eff (Fib.run c { adjs := A } ops) n
    rw [hs.adjs, isNeighbor_false.2 hn] at f
    unfold hopsAt; rw [f.here]; rfl
  rw [this]
  rintro ⟨_, hc, _⟩
  cases hc

/-- **C66 does not hold** when a registration fails: the retry is sent although the entry is gone, and NFD
ends up with a route the FIB does not record. -/
theorem C66_violated_retry : ∃ (c : FConf) (A : AdjacencyList) (n : Name) (ops : List Op),
    (∀ a ∈ A, a.name ≠ n) ∧ FacesDiffer A ∧
    ops = [.update n [⟨"udp4://b", 10, false⟩] 1, .remove n, .regFail 0, .regOk 0] ∧
    (Fib.run c { adjs := A } ops).faces n = [] ∧
    (nfdRoutes (Fib.run c { adjs := A } ops).log n 261).isSome = true := by
  refine ⟨fibConf, fibAdjs, (nm ["p"]), _, by decide +kernel, ?_, rfl, by decide +kernel, by decide +kernel⟩
  unfold FacesDiffer; decide +kernel

/-! ### C67 -/

theorem flags_step {c : FConf} {s : Fib} {n : Name} (hn : s.adjs.isNeighbor n = false) {flags : Nat} {op : Op}
    (ho : ∀ l f, op = .update n l f → f = flags)
    (h : ∀ e d fl, s.find n = some e → e.refresh = some (d, fl) → fl = flags) :
    ∀ e d fl, (Fib.step c s op).find n = some e → e.refresh = some (d, fl) → fl = flags := by
  have hid : (∀ n l f, op ≠ .update n l f) → (∀ n, op ≠ .remove n) → (∀ n, op ≠ .refresh n) →
      ∀ e d fl, (Fib.step c s op).find n = some e → e.refresh = some (d, fl) → fl = flags := by
    intro a b d
    rw [find_congr (step_idle c s op a b d).table n]; exact h
  have hrem : ∀ m, ∀ e d fl, (s.remove m).find n = some e → e.refresh = some (d, fl) → fl = flags := by
    intro m
    have f := remove_eff s m
    by_cases hm : n = m
    · subst hm
      rw [f.here, hn, if_neg (by simp)]
      intro e d fl hc; cases hc
    · rw [f.same n hm]; exact h
  cases op with
  | update m l f =>
    show ∀ e d fl, (s.update c m l f).find n = some e → _
    by_cases hw : hopsToAdd c l = []
    · rw [update_empty c s m l f hw]; exact hrem m
    · have g := update_eff c s m l f hw
      by_cases hm : n = m
      · subst hm
        have hf := ho l f rfl
        subst hf
        rw [g.here]
        intro e d fl he hr
        injection he with he
        subst he
        unfold updEntry withRefresh at hr
        cases hfi : s.find n with
        | none =>
          rw [hfi] at hr
          dsimp only at hr
          rw [hn, if_neg (by simp)] at hr
          simp only [Option.getD_none, Option.some.injEq, Prod.mk.injEq] at hr
          exact hr.2.symm
        | some o =>
          rw [hfi] at hr
          dsimp only at hr
          rw [find_name hfi, hn, if_neg (by simp)] at hr
          cases ho' : o.refresh with
          | none =>
            rw [ho'] at hr
            simp only [Option.getD_none, Option.some.injEq, Prod.mk.injEq] at hr
            exact hr.2.symm
          | some p =>
            rw [ho'] at hr
            simp only [Option.getD_some, Option.some.injEq] at hr
            exact h o d fl hfi (by rw [ho', hr])
      · rw [g.same n hm]; exact h
  | remove m => exact hrem m
  | refresh m =>
    show ∀ e d fl, (s.refresh c m).find n = some e → _
    by_cases hdd : ∃ e due flags, s.find m = some e ∧ e.refresh = some (due, flags) ∧ due ≤ s.now
    · obtain ⟨e, due, flags', hf, hr, hd⟩ := hdd
      have g := refresh_eff c s m hf hr hd
      by_cases hm : n = m
      · subst hm
        rw [g.here]
        intro e' d fl he hr'
        injection he with he
        subst he
        simp only [Option.some.injEq, Prod.mk.injEq] at hr'
        rw [← hr'.2]
        exact h e due flags' hf hr
      · rw [g.same n hm]; exact h
    · rw [refresh_idle c s m]
      · exact h
      · intro e hf due flags hr
        exact Nat.lt_of_not_le fun hc => hdd ⟨e, due, flags, hf, hr, hc⟩
  | _ => exact hid nofun nofun nofun

/-- **C67 (part).** If every update of `n` carries the same flags, every refresh of `n` registers with
those flags.  Missing: flags that change while the entry exists, see `C67_violated_flags`. -/
theorem C67_flags_partial (c : FConf) {A : AdjacencyList} {n : Name} (hn : ∀ a ∈ A, a.name ≠ n) (flags : Nat) (ops : List Op)
    (ho : ∀ l f, Op.update n l f ∈ ops → f = flags) :
    let s := Fib.run c { adjs := A } ops
    ∃ cmds, (Fib.step c s (.refresh n)).log = s.log ++ cmds ∧
      ∀ x ∈ cmds, ∀ r m u f k fl e t, x = .register r m u f k fl e t → m = n ∧ fl = flags := by
  intro s
  have key : ∀ (ops : List Op) (s : Fib), Inv s → s.adjs.isNeighbor n = false →
      (∀ e d fl, s.find n = some e → e.refresh = some (d, fl) → fl = flags) →
      (∀ l f, Op.update n l f ∈ ops → f = flags) →
      ∀ e d fl, (Fib.run c s ops).find n = some e → e.refresh = some (d, fl) → fl = flags := by
    intro ops
    induction ops with
    | nil => intro s _ _ h _; exact h
    | cons op ops ih =>
      intro s hi hnb h ho
      refine ih _ (step_inv hi op) ?_ (flags_step hnb (fun l f hc => ho l f (hc ▸ List.mem_cons_self)) h)
        (fun l f hc => ho l f (List.mem_cons_of_mem _ hc))
      have : (Fib.step c s op).adjs.map (·.name) = s.adjs.map (·.name) := by
        have hid : (∀ n l f, op ≠ .update n l f) → (∀ n, op ≠ .remove n) → (∀ n, op ≠ .refresh n) →
          (Fib.step c s op).adjs.map (·.name) = s.adjs.map (·.name) := fun a b d => (step_idle c s op a b d).names
        cases op with
        | update m l f =>
          show (s.update c m l f).adjs.map _ = _
          by_cases hw : hopsToAdd c l = []
          · rw [update_empty c s m l f hw, (remove_eff s m).adjs]
          · rw [(update_eff c s m l f hw).adjs]
        | remove m => show (s.remove m).adjs.map _ = _; rw [(remove_eff s m).adjs]
        | refresh m =>
          show (s.refresh c m).adjs.map _ = _
          by_cases hdd : ∃ e due flags, s.find m = some e ∧ e.refresh = some (due, flags) ∧ due ≤ s.now
          · obtain ⟨e, due, flags', hf, hr, hd⟩ := hdd
            rw [(refresh_eff c s m hf hr hd).adjs]
          · rw [refresh_idle c s m]
            intro e hf due flags hr
            exact Nat.lt_of_not_le fun hc => hdd ⟨e, due, flags, hf, hr, hc⟩
        | _ => exact hid nofun nofun nofun
      rw [AdjacencyList.isNeighbor_congr this]; exact hnb
  have hk := key ops { adjs := A } (Fib.Reachable.inv (c := c) ⟨A, [], rfl⟩) (isNeighbor_false.2 hn) (fun e d fl hc => by cases hc) ho
  by_cases hdd : ∃ e due flags, s.find n = some e ∧ e.refresh = some (due, flags) ∧ due ≤ s.now
  · obtain ⟨e, due, flags', hf, hr, hd⟩ := hdd
    refine ⟨_, (refresh_eff c s n hf hr hd).log, ?_⟩
    have hfl := hk e due flags' hf hr
    subst hfl
    have : ∀ (l : List NextHop) (r0 : Nat), ∀ x ∈ regLog s.adjs s.now n (c.refresh + fibGrace) flags' r0 l,
        ∀ r m u f k fl e t, x = .register r m u f k fl e t → m = n ∧ fl = flags' := by
      intro l
      induction l with
      | nil => intro r0 x hx; cases hx
      | cons y ys ih =>
        intro r0 x hx
        unfold regLog at hx
        rcases List.mem_append.1 hx with hx | hx
        · split at hx
          · rw [List.mem_singleton] at hx; subst hx
            intro r m u f k fl e t he
            injection he with _ h2 _ _ _ h6
            exact ⟨h2.symm, h6.symm⟩
          · cases hx
        · exact ih _ x hx
    exact this _ _
  · refine ⟨[], ?_, fun x hx => by cases hx⟩
    show (s.refresh c n).log = _
    rw [refresh_idle c s n]
    · simp
    · intro e hf due flags hr
      exact Nat.lt_of_not_le fun hc => hdd ⟨e, due, flags, hf, hr, hc⟩

example : (∀ a ∈ fibAdjs, a.name ≠ nm ["p"]) ∧ (∀ l f, Op.update (nm ["p"]) l f ∈ fibOps.take 7 → f = 1) ∧
    (Fib.step fibConf (Fib.run fibConf { adjs := fibAdjs } (fibOps.take 7)) (.refresh (nm ["p"]))).log.length =
      (Fib.run fibConf { adjs := fibAdjs } (fibOps.take 7)).log.length + 1 := by
  refine ⟨by decide +kernel, ?_, by decide +kernel⟩
  intro l f h
  have hall : (fibOps.take 7).all (fun op => match op with
    | .update m _ f => decide (m = nm ["p"] → f = 1)
    | _ => true) = true := by decide +kernel
  simpa using List.all_eq_true.1 hall _ h

/-- **C67 does not hold** when the flags change: after updates with flags 2 and then 1, the refresh registers 2. -/
theorem C67_violated_flags : ∃ (c : FConf) (A : AdjacencyList) (n : Name) (l : NexthopList) (s : Fib), (∀ a ∈ A, a.name ≠ n) ∧
    s = Fib.run c { adjs := A } [.update n l 2, .update n l 1, .clock (3600 * 1000000000)] ∧
    (Fib.step c s (.refresh n)).log = s.log ++ [.register 2 n "udp4://b" 261 10 2 3610 3600000000000] := by
  refine ⟨fibConf, fibAdjs, (nm ["p"]), [⟨"udp4://b", 10, false⟩], _, by decide +kernel, rfl, by decide +kernel⟩

end Nlsr
