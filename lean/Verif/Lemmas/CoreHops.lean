import Verif.Lemmas.CoreRun
import Verif.Props.RoutingTable
import Verif.Props.LinkState
/- The routing table as the name prefix table sees it, and where the hops of the pool come from. -/
namespace Nlsr
namespace Npt

theorem rt_readd (s : Npt) (d : Name) (r : Name × Nat) : (s.readd d r).rt = s.rt := by
  unfold readd
  cases s.entry? r.2 with
  | none => rfl
  | some e => exact (calm_addEntry _ _ _ _).rt

theorem rt_readdAll (d : Name) : ∀ (l : List (Name × Nat)) (s : Npt), (l.foldl (fun s r => s.readd d r) s).rt = s.rt := by
  intro l
  induction l with
  | nil => intro s; rfl
  | cons r l ih => intro s; rw [List.foldl_cons, ih, rt_readd]

theorem rt_refreshObj (s : Npt) (pid : Nat) : (s.refreshObj pid).rt = s.rt := by
  unfold refreshObj
  cases s.obj? pid with
  | none => rfl
  | some o =>
    dsimp only
    cases RTable.find s.rt o.dest with
    | none => exact rt_readdAll _ _ _
    | some e =>
      dsimp only
      split
      · rfl
      · exact rt_readdAll _ _ _

theorem rt_updateWithNewRoute (s : Npt) (t : RTable) : (s.updateWithNewRoute t).rt = t := by
  unfold updateWithNewRoute
  generalize (s.objs.filter (·.live)).map (·.pid) = l
  have : ∀ (l : List Nat) (s : Npt), (l.foldl refreshObj s).rt = s.rt := by
    intro l
    induction l with
    | nil => intro s; rfl
    | cons x l ih => intro s; rw [List.foldl_cons, ih, rt_refreshObj]
  exact this l _

/-! ### the hops of the pool all come from announced tables -/

/-- All hops in the pool and in the table are good. -/
structure HopsOk (G : NextHop → Prop) (s : Npt) : Prop where
  pool : ∀ o ∈ s.objs, ∀ h ∈ o.hops, G h
  rt : ∀ e ∈ s.rt, ∀ h ∈ e.hops, G h

theorem rtHops_good {G : NextHop → Prop} {t : RTable} (h : ∀ e ∈ t, ∀ x ∈ e.hops, G x) (d : Name) :
    ∀ x ∈ ((RTable.find t d).map (·.hops)).getD [], G x := by
  cases hf : RTable.find t d with
  | none => intro x hx; simp at hx
  | some e => exact h e (List.mem_of_find?_eq_some hf)

/-- Objects are changed without touching their hops. -/
theorem HopsOk.core {G : NextHop → Prop} {s s' : Npt} (h : HopsOk G s) (hr : s'.rt = s.rt)
    (ho : s'.objs.map (·.hops) = s.objs.map (·.hops)) : HopsOk G s' := by
  refine ⟨?_, by rw [hr]; exact h.rt⟩
  intro o hm
  have : o.hops ∈ s'.objs.map (·.hops) := List.mem_map.2 ⟨o, hm, rfl⟩
  rw [ho] at this
  obtain ⟨x, hx, e⟩ := List.mem_map.1 this
  rw [← e]; exact h.pool x hx

theorem hops_modObj (s : Npt) (pid : Nat) (f : PoolObj → PoolObj) (h : ∀ o, (f o).hops = o.hops) :
    (s.modObj pid f).objs.map (·.hops) = s.objs.map (·.hops) := map_if_eq _ _ _ _ h

theorem HopsOk.ensurePool {G : NextHop → Prop} {s : Npt} (h : HopsOk G s) (d : Name) : HopsOk G (s.ensurePool d).1 := by
  unfold Npt.ensurePool
  cases s.inPool d with
  | some o => exact h
  | none =>
    refine ⟨?_, h.rt⟩
    intro o ho
    rcases List.mem_append.1 ho with h1 | h1
    · exact h.pool o h1
    · rw [List.mem_singleton.1 h1]
      exact rtHops_good h.rt d

theorem objs_ensureEntry (s : Npt) (n : Name) (fl : Nat) : (s.ensureEntry n fl).1.objs = s.objs := by
  unfold ensureEntry
  cases s.byName n with
  | none => rfl
  | some e => dsimp only; split <;> rfl

theorem objs_fibUpdate (s : Npt) (name dest : Name) (l : NexthopList) (fl : Nat) :
    (s.fibUpdate name dest l fl).objs = s.objs := (told_fibUpdate s name dest l fl).objs

theorem HopsOk.addEntry {G : NextHop → Prop} {s : Npt} (h : HopsOk G s) (name dest : Name) (fl : Nat) :
    HopsOk G (s.addEntry name dest fl) := by
  have hr := (calm_addEntry s name dest fl).rt
  have h1 := h.ensurePool dest
  have h1r := (calm_ensurePool s dest).rt
  unfold Npt.addEntry at hr ⊢
  generalize s.ensurePool dest = x1 at *
  obtain ⟨s1, pid⟩ := x1
  dsimp only at hr h1 h1r ⊢
  have h2 := objs_ensureEntry s1 name fl
  generalize s1.ensureEntry name fl = x2 at *
  obtain ⟨s2, eid⟩ := x2
  dsimp only at hr h2 ⊢
  refine HopsOk.core h1 (hr.trans h1r.symm) ?_
  rw [← h2]
  have a1 : (s2.addRte eid pid).objs.map (·.hops) = s2.objs.map (·.hops) := by
    unfold addRte
    cases s2.entry? eid with
    | none => rfl
    | some e =>
      dsimp only
      split
      · rfl
      · exact hops_modObj _ _ _ (fun _ => rfl)
  have a2 : ((s2.addRte eid pid).regen eid).objs = (s2.addRte eid pid).objs := rfl
  have a3 : ∀ s : Npt, (s.tellFib eid name dest).objs = s.objs := fun s => (told_tellFib s eid name dest).objs
  have a4 : ∀ s : Npt, (s.backRef pid name eid).objs.map (·.hops) = s.objs.map (·.hops) :=
    fun s => hops_modObj _ _ _ (fun _ => by split <;> rfl)
  rw [a4, a3, a2, a1]

theorem HopsOk.removeEntry {G : NextHop → Prop} {s : Npt} (h : HopsOk G s) (name dest : Name) :
    HopsOk G (s.removeEntry name dest) := by
  refine HopsOk.core h (calm_removeEntry s name dest).rt ?_
  unfold Npt.removeEntry
  cases s.inPool dest with
  | none => rfl
  | some o =>
    dsimp only
    cases s.byName name with
    | none => rfl
    | some e =>
      dsimp only
      have a1 : (s.removeRte e o.pid).objs.map (·.hops) = s.objs.map (·.hops) := by
        unfold removeRte
        split
        · exact hops_modObj _ _ _ (fun _ => rfl)
        · rfl
      have a2 : ∀ s : Npt, (s.dropUnused o.pid).objs.map (·.hops) = s.objs.map (·.hops) := by
        intro s
        unfold dropUnused
        split
        · exact hops_modObj _ _ _ (fun _ => rfl)
        · rfl
      have a3 : ∀ s : Npt, (s.finishRemove e.eid name dest).objs = s.objs := by
        intro s
        unfold finishRemove
        cases s.entry? e.eid with
        | none => rfl
        | some x =>
          dsimp only
          split
          · rfl
          · exact (objs_fibUpdate _ _ _ _ _).trans rfl
      rw [a3, a2, a1]

theorem HopsOk.readdAll {G : NextHop → Prop} (d : Name) : ∀ (l : List (Name × Nat)) {s : Npt}, HopsOk G s →
    HopsOk G (l.foldl (fun s r => s.readd d r) s) := by
  intro l
  induction l with
  | nil => intro s h; exact h
  | cons r l ih =>
    intro s h
    rw [List.foldl_cons]
    refine ih ?_
    unfold readd
    cases s.entry? r.2 with
    | none => exact h.core rfl rfl
    | some e => exact h.addEntry _ _ _

theorem HopsOk.setHops {G : NextHop → Prop} {s : Npt} (h : HopsOk G s) (pid : Nat) (l : NexthopList) (hl : ∀ x ∈ l, G x) :
    HopsOk G (s.modObj pid (fun o => { o with hops := l })) := by
  refine ⟨?_, h.rt⟩
  intro o ho
  obtain ⟨x, hx, rfl⟩ := mem_modObj.1 ho
  split
  · exact hl
  · exact h.pool x hx

theorem HopsOk.refreshObj {G : NextHop → Prop} {s : Npt} (h : HopsOk G s) (pid : Nat) : HopsOk G (s.refreshObj pid) := by
  unfold Npt.refreshObj
  cases s.obj? pid with
  | none => exact h
  | some o =>
    dsimp only
    cases hf : RTable.find s.rt o.dest with
    | none => exact HopsOk.readdAll _ _ (h.setHops _ _ (by simp))
    | some e =>
      dsimp only
      split
      · exact h
      · exact HopsOk.readdAll _ _ (h.setHops _ _ (h.rt e (List.mem_of_find?_eq_some hf)))

theorem HopsOk.routes {G : NextHop → Prop} {s : Npt} (h : HopsOk G s) {t : RTable} (ht : ∀ e ∈ t, ∀ x ∈ e.hops, G x) :
    HopsOk G (s.updateWithNewRoute t) := by
  unfold updateWithNewRoute
  have h0 : HopsOk G { s with rt := t } := ⟨h.pool, ht⟩
  generalize (s.objs.filter (·.live)).map (·.pid) = l
  generalize ({ s with rt := t } : Npt) = s0 at h0
  induction l generalizing s0 with
  | nil => exact h0
  | cons x l ih => rw [List.foldl_cons]; exact ih _ (h0.refreshObj x)

theorem HopsOk.advertiseAll {G : NextHop → Prop} (own r : Name) : ∀ (l : List PrefixInfo) {s : Npt}, HopsOk G s →
    HopsOk G (l.foldl (advertise own r) s) := by
  intro l
  induction l with
  | nil => intro s h; exact h
  | cons q l ih =>
    intro s h
    rw [List.foldl_cons]
    refine ih ?_
    unfold advertise
    split
    · exact h
    · exact (h.core (s' := s.setCost (r, q.name) q.cost) rfl rfl).addEntry _ _ _

theorem HopsOk.withdrawAll {G : NextHop → Prop} (own r : Name) : ∀ (l : List Name) {s : Npt}, HopsOk G s →
    HopsOk G (l.foldl (withdraw own r) s) := by
  intro l
  induction l with
  | nil => intro s h; exact h
  | cons q l ih =>
    intro s h
    rw [List.foldl_cons]
    refine ih ?_
    unfold withdraw
    split
    · exact h
    · refine HopsOk.removeEntry (h.core ?_ ?_) _ _ <;> unfold eraseCost <;> split <;> rfl

theorem HopsOk.feed {G : NextHop → Prop} {s : Npt} (h : HopsOk G s) (own : Name) (o : Out) : HopsOk G (feed own s o) := by
  cases o with
  | signal k l a r =>
    show HopsOk G (updateFromLsdb own s k l a r)
    unfold updateFromLsdb
    split
    · exact h
    · cases k with
      | installed => exact HopsOk.advertiseAll _ _ _ (h.addEntry _ _ _)
      | updated =>
        dsimp only
        split
        · exact HopsOk.withdrawAll _ _ _ (HopsOk.advertiseAll _ _ _ h)
        · exact h
      | removed => exact HopsOk.withdrawAll _ _ _ (h.removeEntry _ _)
  | _ => exact h

theorem HopsOk.feeds {G : NextHop → Prop} (own : Name) : ∀ (l : List Out) {s : Npt}, HopsOk G s → HopsOk G (l.foldl (Npt.feed own) s) := by
  intro l
  induction l with
  | nil => intro s h; exact h
  | cons o l ih => intro s h; exact ih (h.feed own o)

end Npt

namespace Core
open Npt
open Lsdb (View VS VSs view)

theorem kept_hops (c : CConf) (G : NextHop → Prop) :
    Kept c (fun t => ∀ e ∈ t, ∀ x ∈ e.hops, G x) (fun _ _ n => HopsOk G n) where
  vs h _ := HopsOk.feeds _ _ h
  routes t ht h := h.routes ht
  rehash objs h := by
    unfold Npt.step
    dsimp only
    split
    · rename_i hp
      exact ⟨fun o ho => h.pool o ((List.isPerm_iff.1 hp).mem_iff.1 ho), h.rt⟩
    · exact h
  rehashNames pid names h := h.core rfl (hops_modObj _ _ _ (fun _ => by split <;> rfl))

/-- Link-state tables have whole-number costs. -/
def Whole (h : NextHop) : Prop := h.hyp = false ∧ ∃ z : Int, h.cost = (z : Rat)

theorem lsTable_whole {c : CConf} {adjs : AdjacencyList} {db : List Obj} {t : RTable} (h : lsTable c adjs db = some t) :
    ∀ e ∈ t, ∀ x ∈ e.hops, Whole x := by
  unfold lsTable at h
  obtain ⟨out, h1, h2⟩ := LS.calculate_total (adjAds db) c.maxFaces c.router
    (fun n => (AdjacencyList.getAdjacent adjs n).uri)
  rw [h1] at h
  simp only [Option.map_some, Option.some.injEq] at h
  subst h
  intro e he x hx
  obtain ⟨h3, -⟩ := ((C13_one_entry_per_destination out).2.2 e he).2.1 x hx
  obtain ⟨-, ⟨z, hz, -⟩, hh⟩ := h2 _ _ h3
  exact ⟨hh, z, hz⟩

theorem tables_whole (c : CConf) (h : c.lsdb.hyp ≠ .on) : Tables c (fun t => ∀ e ∈ t, ∀ x ∈ e.hops, Whole x) :=
  ⟨by simp, fun _ _ _ _ ht => lsTable_whole ht, fun hc => absurd hc h⟩

theorem Reachable.whole {c : CConf} {s : Core} (h : Reachable c s) (hh : c.lsdb.hyp ≠ .on) : HopsOk Whole s.npt :=
  (kept_hops c Whole).reachable (tables_whole c hh) (fun _ _ _ _ => ⟨by simp, by simp⟩) h

theorem whole_eq {a b : NextHop} (ha : Whole a) (hb : Whole b) (h : a.eqv b = true) : a = b := by
  obtain ⟨ha1, x, ha2⟩ := ha
  obtain ⟨hb1, y, hb2⟩ := hb
  unfold NextHop.eqv NextHop.adj at h
  rw [ha1, hb1, ha2, hb2] at h
  simp only [Bool.false_eq_true, if_false, Rat.floor_intCast, Bool.and_eq_true, beq_iff_eq] at h
  cases a; cases b
  simp_all

theorem nhListEq_whole : ∀ {a b : List NextHop}, (∀ x ∈ a, Whole x) → (∀ x ∈ b, Whole x) → nhListEq a b = true → a = b := by
  intro a
  induction a with
  | nil =>
    intro b _ _ h
    cases b with
    | nil => rfl
    | cons y b => simp [nhListEq] at h
  | cons x a ih =>
    intro b ha hb h
    cases b with
    | nil => simp [nhListEq] at h
    | cons y b =>
      simp only [nhListEq, List.length_cons, List.zip_cons_cons, List.all_cons, Bool.and_eq_true, beq_iff_eq,
        Nat.add_right_cancel_iff] at h
      rw [whole_eq (ha x (by simp)) (hb y (by simp)) h.2.1,
        ih (b := b) (fun z hz => ha z (by simp [hz])) (fun z hz => hb z (by simp [hz])) (by
          unfold nhListEq
          simp only [Bool.and_eq_true, beq_iff_eq]
          exact ⟨h.1, h.2.2⟩)]

theorem hear_rt (c : CConf) (now : Nat) (p : RtState × Npt) (o : Out) (h : p.2.rt = p.1.table) :
    (hear c now p o).2.rt = (hear c now p o).1.table := by
  cases o with
  | signal k l a r =>
    show (updateFromLsdb c.router (rtHear c now k l p).2 k l a r).rt = (rtHear c now k l p).1.table
    rw [rt_updateFromLsdb]
    have hsch : ∀ r : RtState, (if RtState.wantsCalc c.lsdb.hyp k l.type then r.schedule c now else r).table = r.table := by
      intro r
      split
      · unfold RtState.schedule; split <;> rfl
      · rfl
    unfold rtHear
    dsimp only
    rw [hsch]
    split
    · rw [rt_updateWithNewRoute]; split <;> rfl
    · rw [h]; split <;> rfl
  | _ => exact h

/-- The name prefix table works on the routing table as it is. -/
theorem Reachable.rt {c : CConf} {s : Core} (h : Reachable c s) : s.npt.rt = s.rt.table := by
  refine Reachable.induct (P := fun s => s.npt.rt = s.rt.table) ?_ ?_ h
  · intros; rfl
  · intro s op _ hp
    cases op with
    | lsdb o =>
      show (((Lsdb.step c.lsdb s.lsdb o).log.drop s.lsdb.log.length).foldl (hear c _) (s.rt, s.npt)).2.rt = _
      show _ = (((Lsdb.step c.lsdb s.lsdb o).log.drop s.lsdb.log.length).foldl (hear c (Lsdb.step c.lsdb s.lsdb o).now) (s.rt, s.npt)).1.table
      generalize (Lsdb.step c.lsdb s.lsdb o).log.drop s.lsdb.log.length = l
      have : ∀ (l : List Out) (p : RtState × Npt), p.2.rt = p.1.table →
          (l.foldl (hear c (Lsdb.step c.lsdb s.lsdb o).now) p).2.rt = (l.foldl (hear c (Lsdb.step c.lsdb s.lsdb o).now) p).1.table := by
        intro l
        induction l with
        | nil => intro p h; exact h
        | cons x l ih => intro p h; exact ih _ (hear_rt c _ p x h)
      exact this l (s.rt, s.npt) hp
    | scheduleCalc =>
      show s.npt.rt = (s.rt.schedule c s.lsdb.now).table
      rw [hp]; unfold RtState.schedule; split <;> rfl
    | calcTimer i db =>
      show (calcTimer c s i db).npt.rt = (calcTimer c s i db).rt.table
      unfold calcTimer
      cases s.rt.events[i]? with
      | none => exact hp
      | some d =>
        dsimp only
        split
        · exact hp
        · generalize (if db.isPerm s.lsdb.db then db else s.lsdb.db) = db'
          have h1 : ∀ s : Core, s.npt.rt = s.rt.table → (calcLs c db' s).npt.rt = (calcLs c db' s).rt.table := by
            intro s h; unfold calcLs
            split
            · exact h
            · split
              · exact h
              · cases lsTable c s.lsdb.adjs db' with
                | none => exact h
                | some t => exact rt_updateWithNewRoute _ _
          have h2 : ∀ b, ∀ s : Core, s.npt.rt = s.rt.table → (calcHyp c db' b s).npt.rt = (calcHyp c db' b s).rt.table := by
            intro b s h; unfold calcHyp
            cases hypTable c s.lsdb.adjs db' with
            | none => exact h
            | some t =>
              dsimp only
              split
              · exact h
              · exact rt_updateWithNewRoute _ _
          unfold calculate
          cases c.lsdb.hyp with
          | off => exact h1 _ hp
          | dryRun => exact h2 _ _ (h1 _ hp)
          | on => exact h2 _ _ hp
    | rehash objs =>
      show (s.npt.step c.router (.rehash objs)).rt = _
      unfold Npt.step
      dsimp only
      split
      · exact hp
      · exact hp
    | rehashNames pid names => exact hp

end Core
end Nlsr
