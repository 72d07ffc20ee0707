import Verif.Props.FibHist
/- The FIB and NFD's routes, from any routes NFD may have and with faces that come and go. -/
namespace Nlsr

/-- NFD's routes by name and face. -/
abbrev Rib := Name → Nat → Option NfdRoute

/-- NFD's routes when it had `b.1` before the commands from the `b.2`-th on. -/
def ribAt (b : Rib × Nat) (log : List NfdCmd) : Rib := (log.drop b.2).foldl nfdStep b.1

theorem ribAt_append {b : Rib × Nat} {l : List NfdCmd} (h : b.2 ≤ l.length) (m : List NfdCmd) :
    ribAt b (l ++ m) = m.foldl nfdStep (ribAt b l) := by
  unfold ribAt
  rw [List.drop_append_of_le_length h, List.foldl_append]

theorem ribAt_here (R : Rib) (l : List NfdCmd) : ribAt (R, l.length) l = R := by
  unfold ribAt; rw [List.drop_length]; rfl

namespace Fib

/-- NFD's routes for `n` are those of the FIB, on the faces the neighbours have; if `F`, all of them. -/
structure Tracks (c : FConf) (n : Name) (F : Prop) (b : Rib × Nat) (s : Fib) : Prop where
  len : b.2 ≤ s.log.length
  inv : Inv s
  other : s.adjs.isNeighbor n = false
  differ : FacesDiffer s.adjs
  sound : ∀ f, 0 < f → (ribAt b s.log n f).isSome = true → ∃ h ∈ hopsAt s n, s.adjs.faceIdOf h.uri = f
  full : F → ∀ f, 0 < f → (∃ h ∈ hopsAt s n, s.adjs.faceIdOf h.uri = f) → (ribAt b s.log n f).isSome = true
  due : ∀ e d fl, s.find n = some e → e.refresh = some (d, fl) → d ≤ s.now + c.refresh * 1000000000 ∧
    ∀ f r, 0 < f → ribAt b s.log n f = some r → d + 10 * 1000000000 ≤ r.expires

namespace Tracks
variable {c : FConf} {n : Name} {F : Prop} {b : Rib × Nat} {s s' : Fib}

theorem weaken (h : Tracks c n F b s) {F' : Prop} (hf : F' → F) : Tracks c n F' b s :=
  ⟨h.len, h.inv, h.other, h.differ, h.sound, fun x => h.full (hf x), h.due⟩

theorem rebase (h : Tracks c n F b s) : Tracks c n F (ribAt b s.log, s.log.length) s := by
  refine ⟨Nat.le_refl _, h.inv, h.other, h.differ, ?_, ?_, ?_⟩
  · rw [ribAt_here]; exact h.sound
  · rw [ribAt_here]; exact h.full
  · rw [ribAt_here]; exact h.due

/-- Faces come and go.  NFD has dropped the routes on the faces `D`. -/
theorem move (h : Tracks c n F b s) (hi : Inv s') (hn : s'.adjs.map (·.name) = s.adjs.map (·.name)) (hd : FacesDiffer s'.adjs)
    (ht : s'.table = s.table) (hl : s'.log = s.log) (hnow : s'.now = s.now)
    {b' : Rib × Nat} (hb : b'.2 ≤ s.log.length) {D : Nat → Prop}
    (hr : ∀ f r, 0 < f → ribAt b' s.log n f = some r → ¬ D f ∧ ribAt b s.log n f = some r)
    (hk : ∀ f, 0 < f → ¬ D f → (ribAt b s.log n f).isSome = true → (ribAt b' s.log n f).isSome = true)
    (hs : ∀ u, 0 < s.adjs.faceIdOf u → ¬ D (s.adjs.faceIdOf u) → s'.adjs.faceIdOf u = s.adjs.faceIdOf u)
    {F' : Prop} (hf : F' → F ∧ ∀ h ∈ hopsAt s n, 0 < s'.adjs.faceIdOf h.uri →
      ¬ D (s'.adjs.faceIdOf h.uri) ∧ s.adjs.faceIdOf h.uri = s'.adjs.faceIdOf h.uri) : Tracks c n F' b' s' := by
  have hfi := find_congr ht n
  have hh : hopsAt s' n = hopsAt s n := hopsAt_congr hfi
  refine ⟨by rw [hl]; exact hb, hi, by rw [AdjacencyList.isNeighbor_congr hn]; exact h.other, hd, ?_, ?_, ?_⟩
  · intro f h0 hx
    rw [hl] at hx
    obtain ⟨r, hx⟩ := Option.isSome_iff_exists.1 hx
    obtain ⟨h1, h2⟩ := hr f r h0 hx
    obtain ⟨x, h3, h4⟩ := h.sound f h0 (by rw [h2]; rfl)
    rw [hh]
    exact ⟨x, h3, (hs x.uri (by omega) (by rw [h4]; exact h1)).trans h4⟩
  · intro hF f h0 hx
    obtain ⟨x, h3, h4⟩ := hx
    rw [hh] at h3
    obtain ⟨h5, h6⟩ := (hf hF).2 x h3 (by omega)
    rw [hl]
    exact hk f h0 (by rw [← h4]; exact h5) (h.full (hf hF).1 f h0 ⟨x, h3, h6.trans h4⟩)
  · intro e d fl h1 h2
    rw [hfi] at h1
    rw [hnow, hl]
    exact ⟨(h.due e d fl h1 h2).1, fun f r h0 hx => (h.due e d fl h1 h2).2 f r h0 (hr f r h0 hx).2⟩

/-- The faces stay. -/
theorem still (h : Tracks c n F b s) (ht : s'.table = s.table) (ha : s'.adjs = s.adjs) (hi : Inv s') (hnow : s.now ≤ s'.now)
    {x : List NfdCmd} (hl : s'.log = s.log ++ x)
    (hx : ∀ y ∈ x, ∀ v ∈ nfdView y, ∀ f c fl e, v ≠ .reg n f c fl e ∧ v ≠ .unreg n f) : Tracks c n F b s' := by
  have hf := find_congr ht n
  have hR : ribAt b s'.log n = ribAt b s.log n := by
    rw [hl, ribAt_append h.len]; exact foldl_other x hx _
  refine ⟨by rw [hl, List.length_append]; have := h.len; omega, hi, by rw [ha]; exact h.other, by rw [ha]; exact h.differ, ?_, ?_, ?_⟩
  · rw [hR, hopsAt_congr hf, ha]; exact h.sound
  · rw [hR, hopsAt_congr hf, ha]; exact h.full
  · rw [hR, hf]
    intro e d fl h1 h2
    obtain ⟨h3, h4⟩ := h.due e d fl h1 h2
    exact ⟨by omega, h4⟩

theorem silent (h : Tracks c n F b s) (ht : s'.table = s.table) (ha : s'.adjs = s.adjs) (hi : Inv s') (hnow : s.now ≤ s'.now)
    (hl : s'.log = s.log) : Tracks c n F b s' :=
  h.still ht ha hi hnow (x := []) (by rw [hl, List.append_nil]) (fun _ hy => by cases hy)

/-- An operation on another name. -/
theorem eff_other {m : Name} {e' : Option FibEntry} {cmds : List NfdCmd} {reqs : List RegReq} {k : Nat}
    (h : Tracks c n F b s) (f : Eff s s' m e' cmds reqs k) (hi : Inv s') (hm : n ≠ m)
    (hcmd : ∀ x ∈ cmds, ∀ v ∈ nfdView x, ∀ f c fl e, v ≠ .reg n f c fl e ∧ v ≠ .unreg n f) : Tracks c n F b s' := by
  have hR : ribAt b s'.log n = ribAt b s.log n := by
    rw [f.log, ribAt_append h.len]; exact foldl_other cmds hcmd _
  refine ⟨by rw [f.log, List.length_append]; have := h.len; omega, hi, by rw [f.adjs]; exact h.other, by rw [f.adjs]; exact h.differ, ?_, ?_, ?_⟩
  · rw [hR, hopsAt_congr (f.same n hm), f.adjs]; exact h.sound
  · rw [hR, hopsAt_congr (f.same n hm), f.adjs]; exact h.full
  · rw [hR, f.same n hm, f.now]; exact h.due

theorem remove (h : Tracks c n F b s) (m : Name) : Tracks c n F b (s.remove m) := by
  have hi : Inv (s.remove m) := step_inv (c := c) h.inv (.remove m)
  have f := remove_eff s m
  by_cases hm : n = m
  · subst hm
    rw [h.other] at f
    simp only [Bool.false_eq_true, if_false] at f
    have hnil : hopsAt (s.remove n) n = [] := by unfold hopsAt; rw [f.here]
    refine ⟨by rw [f.log, List.length_append]; have := h.len; omega, hi, by rw [f.adjs]; exact h.other, by rw [f.adjs]; exact h.differ, ?_, ?_, ?_⟩
    · intro g hg hx
      exfalso
      rw [f.log, ribAt_append h.len] at hx
      have h0 := h.sound g hg
      unfold hopsAt at h0
      cases hf : s.find n with
      | none =>
        rw [hf] at h0 hx
        obtain ⟨_, hc, _⟩ := h0 hx
        cases hc
      | some e =>
        rw [hf] at h0 hx
        dsimp only at h0 hx
        rw [unregLog_routes _ _ _ _ _ hg] at hx
        split at hx
        · cases hx
        · rename_i hc
          exact hc (h0 hx)
    · intro _ g _ hx
      rw [hnil] at hx
      obtain ⟨_, hc, _⟩ := hx
      cases hc
    · rw [f.here]; intro e d fl hc; cases hc
  · refine h.eff_other f hi hm ?_
    split
    · intro x hx; cases hx
    · cases s.find m with
      | none => intro x hx; cases hx
      | some e => exact view_unregLog_name hm

/-- An update of the name with some next hops leaves NFD with all of them. -/
theorem update_full (h : Tracks c n F b s) (l : NexthopList) (flags : Nat) (hw : hopsToAdd c l ≠ []) :
    Tracks c n True b (s.update c n l flags) := by
  have hi : Inv (s.update c n l flags) := step_inv (c := c) h.inv (.update n l flags)
  have f := update_eff c s n l flags hw
  have hnb := h.other
  obtain ⟨hu, gone, hg1, hg2⟩ := update_hops (c := c) h.inv n hnb l flags
  rw [hnb] at f
  simp only [Bool.false_eq_true, if_false] at f
  have hgone : ∀ x ∈ gone, x ∈ hopsAt s n ∧ ∀ y ∈ hopsToAdd c l, y.uri ≠ x.uri := by
    intro x hx
    have := hg1.mem_iff.1 hx
    rw [List.mem_filter] at this
    refine ⟨this.1, fun y hy => ?_⟩
    have := List.all_eq_true.1 this.2 y hy
    simpa using this
  have hgone' : ∀ x ∈ hopsAt s n, (∀ y ∈ hopsToAdd c l, y.uri ≠ x.uri) → x ∈ gone := by
    intro x hx hy
    refine hg1.mem_iff.2 (List.mem_filter.2 ⟨hx, List.all_eq_true.2 fun y hyy => ?_⟩)
    simpa using hy y hyy
  have hR : ∀ g, 0 < g →
      ((∃ x ∈ hopsToAdd c l, s.adjs.faceIdOf x.uri = g) →
        ∃ r, ribAt b (s.update c n l flags).log n g = some r ∧ r.expires = s.now + (c.refresh + 10) * 1000000000) ∧
      ((∀ x ∈ hopsToAdd c l, s.adjs.faceIdOf x.uri ≠ g) → ribAt b (s.update c n l flags).log n g = none) := by
    intro g hg
    rw [hg2, ribAt_append h.len, List.foldl_append, unregLog_routes _ _ _ _ _ hg]
    obtain ⟨r1, r2⟩ := regLog_routes s.adjs s.now n (c.refresh + fibGrace) flags (hopsToAdd c l) s.nextRoot (ribAt b s.log) g hg
    constructor
    · intro hx
      rw [if_neg]
      · obtain ⟨x, _, _, hx2⟩ := r2 hx
        exact ⟨_, hx2, rfl⟩
      · rintro ⟨y, hy, hyg⟩
        obtain ⟨x, hx, hxg⟩ := hx
        exact (hgone y hy).2 x hx (h.differ.inj (by omega) (by omega))
    · intro hx
      split
      · rfl
      · rename_i hc
        rw [r1 hx, ← Option.not_isSome_iff_eq_none]
        intro hs
        obtain ⟨y, hy, hyg⟩ := h.sound g hg hs
        exact hc ⟨y, hgone' y hy (fun x hx' hu => hx x hx' (by rw [hu]; exact hyg)), hyg⟩
  have hex : ∀ g, (∃ x ∈ hopsAt (s.update c n l flags) n, s.adjs.faceIdOf x.uri = g) ↔ ∃ x ∈ hopsToAdd c l, s.adjs.faceIdOf x.uri = g := by
    intro g
    have : ∀ l : List NextHop, (∃ x ∈ l, s.adjs.faceIdOf x.uri = g) ↔ ∃ u ∈ l.map (·.uri), s.adjs.faceIdOf u = g := by
      intro l
      constructor
      · rintro ⟨x, h1, h2⟩; exact ⟨x.uri, List.mem_map.2 ⟨x, h1, rfl⟩, h2⟩
      · rintro ⟨u, h1, h2⟩
        obtain ⟨x, h3, h4⟩ := List.mem_map.1 h1
        exact ⟨x, h3, by rw [h4]; exact h2⟩
    rw [this, this]
    exact ⟨fun ⟨u, h1, h2⟩ => ⟨u, hu.mem_iff.1 h1, h2⟩, fun ⟨u, h1, h2⟩ => ⟨u, hu.mem_iff.2 h1, h2⟩⟩
  refine ⟨by rw [f.log, List.length_append]; have := h.len; omega, hi, by rw [f.adjs]; exact h.other, by rw [f.adjs]; exact h.differ, ?_, ?_, ?_⟩
  · intro g hg hx
    rw [f.adjs, hex]
    obtain ⟨_, r2⟩ := hR g hg
    apply Classical.byContradiction
    intro hc
    rw [r2 (fun x h1 h2 => hc ⟨x, h1, h2⟩)] at hx
    cases hx
  · intro _ g hg hx
    rw [f.adjs, hex] at hx
    obtain ⟨r, hr, _⟩ := (hR g hg).1 hx
    rw [hr]; rfl
  · intro e d fl he hr
    rw [f.here] at he
    injection he with he
    rw [f.now]
    have hdue : d ≤ s.now + c.refresh * 1000000000 := by
      rcases updEntry_due hnb he.symm hr with ⟨h1, _⟩ | ⟨o, h1, h2⟩
      · omega
      · exact (h.due o d fl h1 h2).1
    refine ⟨hdue, fun g r hg hr' => ?_⟩
    obtain ⟨r1, r2⟩ := hR g hg
    by_cases hx : ∃ x ∈ hopsToAdd c l, s.adjs.faceIdOf x.uri = g
    · obtain ⟨r3, h3, h4⟩ := r1 hx
      rw [hr'] at h3
      injection h3 with h3
      subst h3
      rw [h4]; omega
    · rw [r2 (fun x h1 h2 => hx ⟨x, h1, h2⟩)] at hr'; cases hr'

theorem update (h : Tracks c n F b s) (m : Name) (l : NexthopList) (flags : Nat) : Tracks c n F b (s.update c m l flags) := by
  by_cases hw : hopsToAdd c l = []
  · rw [update_empty c s m l flags hw]; exact h.remove m
  by_cases hm : n = m
  · subst hm; exact (h.update_full l flags hw).weaken (fun _ => trivial)
  · have hi : Inv (s.update c m l flags) := step_inv (c := c) h.inv (.update m l flags)
    have f := update_eff c s m l flags hw
    refine h.eff_other f hi hm ?_
    split
    · intro x hx; cases hx
    · intro x hx
      rcases List.mem_append.1 hx with hx | hx
      · exact view_regLog_name hm x hx
      · exact view_unregLog_name hm x hx

/-- A refresh of the name leaves NFD with all its next hops. -/
theorem refresh_full (h : Tracks c n F b s) {e : FibEntry} {due flags : Nat} (hf : s.find n = some e)
    (hr : e.refresh = some (due, flags)) (hdue : due ≤ s.now) : Tracks c n True b (s.refresh c n) := by
  have f := refresh_eff c s n hf hr hdue
  have hi : Inv (s.refresh c n) := step_inv (c := c) h.inv (.refresh n)
  have hat : hopsAt s n = e.hops := by unfold hopsAt; rw [hf]
  have hat' : hopsAt (s.refresh c n) n = e.hops := by unfold hopsAt; rw [f.here]
  have hR : ∀ g, 0 < g →
      ((∃ x ∈ e.hops, s.adjs.faceIdOf x.uri = g) →
        ∃ r, ribAt b (s.refresh c n).log n g = some r ∧ r.expires = s.now + (c.refresh + 10) * 1000000000) ∧
      ((∀ x ∈ e.hops, s.adjs.faceIdOf x.uri ≠ g) → ribAt b (s.refresh c n).log n g = none) := by
    intro g hg
    rw [f.log, ribAt_append h.len]
    obtain ⟨r1, r2⟩ := regLog_routes s.adjs s.now n (c.refresh + fibGrace) flags e.hops s.nextRoot (ribAt b s.log) g hg
    constructor
    · intro hx
      obtain ⟨x, _, _, hx2⟩ := r2 hx
      exact ⟨_, hx2, rfl⟩
    · intro hx
      rw [r1 hx, ← Option.not_isSome_iff_eq_none]
      intro hs
      obtain ⟨y, hy, hyg⟩ := h.sound g hg hs
      rw [hat] at hy
      exact hx y hy hyg
  refine ⟨by rw [f.log, List.length_append]; have := h.len; omega, hi, by rw [f.adjs]; exact h.other, by rw [f.adjs]; exact h.differ, ?_, ?_, ?_⟩
  · intro g hg hx
    rw [hat', f.adjs]
    obtain ⟨_, r2⟩ := hR g hg
    apply Classical.byContradiction
    intro hc
    rw [r2 (fun x h1 h2 => hc ⟨x, h1, h2⟩)] at hx
    cases hx
  · intro _ g hg hx
    rw [hat', f.adjs] at hx
    obtain ⟨r, hr, _⟩ := (hR g hg).1 hx
    rw [hr]; rfl
  · intro e' d fl he hr'
    rw [f.here] at he
    injection he with he
    subst he
    simp only [Option.some.injEq, Prod.mk.injEq] at hr'
    have hdq : d = s.now + c.refresh * 1000000000 := hr'.1.symm
    rw [f.now]
    refine ⟨by omega, fun g r hg hr2 => ?_⟩
    obtain ⟨r1, r2⟩ := hR g hg
    by_cases hx : ∃ x ∈ e.hops, s.adjs.faceIdOf x.uri = g
    · obtain ⟨r3, h3, h4⟩ := r1 hx
      rw [hr2] at h3
      injection h3 with h3
      subst h3
      rw [h4]; omega
    · rw [r2 (fun x h1 h2 => hx ⟨x, h1, h2⟩)] at hr2; cases hr2

theorem refresh (h : Tracks c n F b s) (m : Name) : Tracks c n F b (s.refresh c m) := by
  by_cases hdd : ∃ e due flags, s.find m = some e ∧ e.refresh = some (due, flags) ∧ due ≤ s.now
  · obtain ⟨e, due, flags, hf, hr, hdue⟩ := hdd
    by_cases hm : n = m
    · subst hm; exact (h.refresh_full hf hr hdue).weaken (fun _ => trivial)
    · exact h.eff_other (refresh_eff c s m hf hr hdue) (step_inv (c := c) h.inv (.refresh m)) hm (view_regLog_name hm)
  · rw [refresh_idle c s m]
    · exact h
    · intro e hf due flags hr
      exact Nat.lt_of_not_le fun hc => hdd ⟨e, due, flags, hf, hr, hc⟩

/-- The operations of the FIB that leave the faces alone, when no command fails. -/
def quiet (n : Name) : Op → Prop
  | .regFail _ => False
  | .regOk _ => False
  | .setFaceId _ _ => False
  | .register m _ _ _ _ => m ≠ n
  | _ => True

theorem step (h : Tracks c n F b s) (op : Op) (ho : quiet n op) : Tracks c n F b (Fib.step c s op) := by
  have hi : Inv (Fib.step c s op) := step_inv h.inv op
  cases op with
  | update m l f => exact h.update m l f
  | remove m => exact h.remove m
  | refresh m => exact h.refresh m
  | regFail i => exact ho.elim
  | regOk i => exact ho.elim
  | setFaceId m i => exact ho.elim
  | register m u cost exp flags =>
    have hm : n ≠ m := fun hc => ho hc.symm
    have he : Fib.step c s (.register m u cost exp flags) = _ := registerPrefix_eq s m u cost exp flags
    rw [he] at hi ⊢
    refine h.still rfl rfl hi (Nat.le_refl _) rfl ?_
    intro x hx v hv f c' fl e
    split at hx
    · rw [List.mem_singleton] at hx; subst hx
      rw [nfdView, List.mem_singleton] at hv; subst hv
      exact ⟨fun hc => (by injection hc with h1; exact hm h1.symm), nofun⟩
    · cases hx
  | setStrategy m st =>
    refine h.still rfl rfl hi (Nat.le_refl _) (x := [.strategy s.nextRoot m st]) rfl ?_
    intro y hy v hv
    rw [List.mem_singleton] at hy; subst hy; cases hv
  | stratOk i => exact h.silent rfl rfl hi (Nat.le_refl _) rfl
  | stratFail i =>
    have hi' : Inv (s.stratFail i) := hi
    show Tracks c n F b (s.stratFail i)
    unfold stratFail at hi' ⊢
    cases hr : s.strats[i]? with
    | none => exact h
    | some r =>
      rw [hr] at hi'
      dsimp only at hi' ⊢
      by_cases hc : r.count < 3
      · rw [if_pos hc] at hi' ⊢
        refine h.still rfl rfl hi' (Nat.le_refl _) (x := [.strategy r.root r.name r.strat]) rfl ?_
        intro y hy v hv
        rw [List.mem_singleton] at hy; subst hy; cases hv
      · rw [if_neg hc] at hi' ⊢
        exact h.silent rfl rfl hi' (Nat.le_refl _) rfl
  | clock dt => exact h.silent rfl rfl hi (Nat.le_add_right _ _) rfl

end Tracks
end Fib
end Nlsr
