import Verif.Props.Npt
/- C14: scheduling of routing calculations. -/
namespace Nlsr
open Core (Reachable)
open Lsdb (View VS VSs view)

/-- A change of a kind of LSA that this mode's routes depend on: an Adjacency LSA (link-state modes) or a
Coordinate LSA (hyperbolic modes) was installed or its content changed. -/
def Relevant (h : HypState) : Out → Prop
  | .signal .installed l _ _ => (l.type = .adjacency ∧ h ≠ .on) ∨ (l.type = .coordinate ∧ h ≠ .off)
  | .signal .updated l _ _ => (l.type = .adjacency ∧ h ≠ .on) ∨ (l.type = .coordinate ∧ h ≠ .off)
  | _ => False

/-- This operation runs a calculation that is due. -/
def Fires (s : Core) (op : Core.Op) : Prop :=
  ∃ i db d, op = .calcTimer i db ∧ s.rt.events[i]? = some d ∧ d ≤ s.lsdb.now

/-- No calculation runs during these operations. -/
def NoneFires (c : CConf) : Core → List Core.Op → Prop
  | _, [] => True
  | s, op :: ops => ¬ Fires s op ∧ NoneFires c (Core.step c s op) ops

/-! ### lemmas -/

/-- The scheduler holds one calculation iff the flag is set; it is due within the interval. -/
structure CalcInv (c : CConf) (now : Nat) (r : RtState) : Prop where
  one : r.events.length = if r.flag then 1 else 0
  due : ∀ d ∈ r.events, d ≤ now + c.calcInt * Lsdb.nsPerSec

theorem CalcInv.schedule {c : CConf} {now : Nat} {r : RtState} (h : CalcInv c now r) : CalcInv c now (r.schedule c now) := by
  unfold RtState.schedule
  split
  · exact h
  · rename_i hf
    refine ⟨?_, ?_⟩
    · have := h.one
      simp only [hf] at this
      simp [List.length_append, this]
    · intro d hd
      rcases List.mem_append.1 hd with hd | hd
      · exact h.due d hd
      · rw [List.mem_singleton.1 hd]; exact Nat.le_refl _

theorem CalcInv.later {c : CConf} {now now' : Nat} {r : RtState} (h : CalcInv c now r) (hn : now ≤ now') : CalcInv c now' r :=
  ⟨h.one, fun d hd => Nat.le_trans (h.due d hd) (by omega)⟩

theorem CalcInv.of_eq {c : CConf} {now : Nat} {r r' : RtState} (h : CalcInv c now r) (he : r'.events = r.events)
    (hf : r'.flag = r.flag) : CalcInv c now r' := ⟨by rw [he, hf]; exact h.one, by rw [he]; exact h.due⟩

/-- A signal leaves the events alone or schedules. -/
theorem rtHear_events (c : CConf) (now : Nat) (k : ModKind) (l : Lsa) (p : RtState × Npt) :
    ∃ r : RtState, r.events = p.1.events ∧ r.flag = p.1.flag ∧
      (Core.rtHear c now k l p).1 = if RtState.wantsCalc c.lsdb.hyp k l.type then r.schedule c now else r := by
  unfold Core.rtHear
  dsimp only
  refine ⟨_, ?_, ?_, rfl⟩
  · split <;> split <;> rfl
  · split <;> split <;> rfl

theorem wantsCalc_iff (h : HypState) (k : ModKind) (l : Lsa) (a b : List PrefixInfo) :
    RtState.wantsCalc h k l.type = true ↔ Relevant h (.signal k l a b) := by
  unfold RtState.wantsCalc Relevant
  cases k <;> cases ht : l.type <;> cases h <;> simp [ht]

theorem hear_calc (c : CConf) (now : Nat) (p : RtState × Npt) (o : Out) (h : CalcInv c now p.1) :
    CalcInv c now (Core.hear c now p o).1 ∧ (p.1.flag = true → (Core.hear c now p o).1.flag = true ∧
      (Core.hear c now p o).1.events = p.1.events) ∧
      (Relevant c.lsdb.hyp o → (Core.hear c now p o).1.flag = true) := by
  cases o with
  | signal k l a b =>
    show CalcInv c now (Core.rtHear c now k l p).1 ∧ (_ → (Core.rtHear c now k l p).1.flag = true ∧
      (Core.rtHear c now k l p).1.events = _) ∧ (_ → (Core.rtHear c now k l p).1.flag = true)
    obtain ⟨r, he, hf, hr⟩ := rtHear_events c now k l p
    have h0 : CalcInv c now r := h.of_eq he hf
    rw [hr]
    refine ⟨?_, ?_, ?_⟩
    · split
      · exact h0.schedule
      · exact h0
    · intro hp
      rw [← hf] at hp
      split
      · unfold RtState.schedule; rw [if_pos hp]; exact ⟨hp, he⟩
      · exact ⟨hp, he⟩
    · intro hrel
      rw [if_pos ((wantsCalc_iff _ _ _ a b).2 hrel)]
      unfold RtState.schedule
      split
      · assumption
      · rfl
  | _ => exact ⟨h, fun hp => ⟨hp, rfl⟩, fun hr => hr.elim⟩

theorem hears_calc (c : CConf) (now : Nat) : ∀ (outs : List Out) (p : RtState × Npt), CalcInv c now p.1 →
    CalcInv c now (outs.foldl (Core.hear c now) p).1 ∧
      (p.1.flag = true → (outs.foldl (Core.hear c now) p).1.flag = true ∧ (outs.foldl (Core.hear c now) p).1.events = p.1.events) ∧
      ((∃ o ∈ outs, Relevant c.lsdb.hyp o) → (outs.foldl (Core.hear c now) p).1.flag = true) := by
  intro outs
  induction outs with
  | nil => intro p h; exact ⟨h, fun hp => ⟨hp, rfl⟩, by rintro ⟨o, ho, -⟩; simp at ho⟩
  | cons o outs ih =>
    intro p h
    rw [List.foldl_cons]
    obtain ⟨h1, h2, h3⟩ := hear_calc c now p o h
    obtain ⟨k1, k2, k3⟩ := ih _ h1
    refine ⟨k1, fun hp => ⟨(k2 (h2 hp).1).1, (k2 (h2 hp).1).2.trans (h2 hp).2⟩, ?_⟩
    rintro ⟨x, hx, hrel⟩
    rcases List.mem_cons.1 hx with rfl | hx
    · exact (k2 (h3 hrel)).1
    · exact k3 ⟨x, hx, hrel⟩

theorem now_step (c : LConf) (s : Lsdb) (op : Lsdb.Op) : s.now ≤ (Lsdb.step c s op).now := by
  rcases Lsdb.step_one c s op with ⟨eid, rfl⟩ | ⟨dt, sys, rfl⟩ | ⟨s1, s2, f1, hch, f2⟩
  · refine Nat.le_of_eq (Eq.symm ?_)
    show (Lsdb.fire c s eid).now = s.now
    have hr : ∀ s : Lsdb, ∀ o, (Lsdb.refresh c s o).now = s.now := fun _ _ => rfl
    have hx : ∀ s : Lsdb, ∀ l, (Lsdb.expireOrRefresh c s l).now = s.now := by
      intro s l
      unfold Lsdb.expireOrRefresh
      split
      · rfl
      · split
        · split
          · exact hr _ _
          · exact (Lsdb.removeLsa_sig _ _ _).now
        · rfl
    unfold Lsdb.fire
    split
    · rfl
    · split
      · rfl
      · split
        · rfl
        · exact hx _ _
  · exact Nat.le_add_right _ _
  · refine Nat.le_of_eq (Eq.symm ?_)
    rw [f2.now, ← f1.now]
    cases hch with
    | none => rfl
    | install l hn => exact (Lsdb.installLsa_sig _ _ _).now
    | removeOwn h => exact (Lsdb.removeLsa_sig _ _ _).now

theorem calculate_rt (c : CConf) (db : List Obj) (s : Core) :
    (Core.calculate c db s).rt.events = s.rt.events ∧ (Core.calculate c db s).rt.flag = false := by
  have h1 : ∀ s : Core, (Core.calcLs c db s).rt.events = s.rt.events := by
    intro s; unfold Core.calcLs
    split
    · rfl
    · split
      · rfl
      · cases Core.lsTable c s.lsdb.adjs db <;> rfl
  have h2 : ∀ b, ∀ s : Core, (Core.calcHyp c db b s).rt.events = s.rt.events := by
    intro b s; unfold Core.calcHyp
    cases Core.hypTable c s.lsdb.adjs db with
    | none => rfl
    | some t => dsimp only; split <;> rfl
  refine ⟨?_, rfl⟩
  unfold Core.calculate
  cases c.lsdb.hyp with
  | off => exact h1 s
  | dryRun => exact (h2 _ _).trans (h1 s)
  | on => exact h2 _ s

theorem step_calc {c : CConf} {s : Core} (h : CalcInv c s.lsdb.now s.rt) (op : Core.Op) :
    CalcInv c (Core.step c s op).lsdb.now (Core.step c s op).rt ∧
    (¬ Fires s op → s.rt.flag = true → (Core.step c s op).rt.flag = true ∧ (Core.step c s op).rt.events = s.rt.events) ∧
    (¬ Fires s op → (∃ o ∈ (Core.step c s op).lsdb.log.drop s.lsdb.log.length, Relevant c.lsdb.hyp o) →
      (Core.step c s op).rt.flag = true) := by
  have quiet : ∀ s' : Core, s'.lsdb = s.lsdb → s'.rt = s.rt → CalcInv c s'.lsdb.now s'.rt ∧
    (¬ Fires s op → s.rt.flag = true → s'.rt.flag = true ∧ s'.rt.events = s.rt.events) ∧
    (¬ Fires s op → (∃ o ∈ s'.lsdb.log.drop s.lsdb.log.length, Relevant c.lsdb.hyp o) → s'.rt.flag = true) := by
    intro s' e1 e2
    rw [e1, e2]
    exact ⟨h, fun _ hp => ⟨hp, rfl⟩, fun _ hr => by rcases hr with ⟨o, ho, -⟩; simp at ho⟩
  cases op with
  | lsdb o =>
    have := hears_calc c (Lsdb.step c.lsdb s.lsdb o).now ((Lsdb.step c.lsdb s.lsdb o).log.drop s.lsdb.log.length) (s.rt, s.npt)
      (h.later (now_step c.lsdb s.lsdb o))
    exact ⟨this.1, fun _ => this.2.1, fun _ => this.2.2⟩
  | scheduleCalc =>
    show CalcInv c s.lsdb.now (s.rt.schedule c s.lsdb.now) ∧ _
    refine ⟨h.schedule, fun _ hp => ?_, fun _ => ?_⟩
    · show (s.rt.schedule c s.lsdb.now).flag = true ∧ (s.rt.schedule c s.lsdb.now).events = s.rt.events
      unfold RtState.schedule; rw [if_pos hp]; exact ⟨hp, rfl⟩
    · rintro ⟨o, ho, -⟩
      change o ∈ s.lsdb.log.drop s.lsdb.log.length at ho
      simp at ho
  | calcTimer i db =>
    show CalcInv c (Core.calcTimer c s i db).lsdb.now (Core.calcTimer c s i db).rt ∧
      (_ → _ → (Core.calcTimer c s i db).rt.flag = true ∧ (Core.calcTimer c s i db).rt.events = s.rt.events) ∧
      (_ → (∃ o ∈ (Core.calcTimer c s i db).lsdb.log.drop s.lsdb.log.length, _) → (Core.calcTimer c s i db).rt.flag = true)
    unfold Core.calcTimer
    cases he : s.rt.events[i]? with
    | none => exact quiet s rfl rfl
    | some d =>
      dsimp only
      split
      · exact quiet s rfl rfl
      · rename_i hd
        have hf : Fires s (.calcTimer i db) := ⟨i, db, d, rfl, he, by omega⟩
        refine ⟨?_, fun hn => absurd hf hn, fun hn => absurd hf hn⟩
        rw [Core.calculate_lsdb]
        obtain ⟨e1, e2⟩ := calculate_rt c (if db.isPerm s.lsdb.db then db else s.lsdb.db)
          { s with rt := { s.rt with events := s.rt.events.eraseIdx i } }
        refine ⟨?_, ?_⟩
        · rw [e1, e2]
          have h1 := h.one
          have hi : i < s.rt.events.length := by
            rcases List.getElem?_eq_some_iff.1 he with ⟨hi, -⟩; exact hi
          have : s.rt.events.length = 1 := by
            split at h1 <;> omega
          simp only [List.length_eraseIdx]
          split <;> simp <;> omega
        · rw [e1]
          intro x hx
          exact h.due x (List.mem_of_mem_eraseIdx hx)
  | rehash objs => exact quiet _ rfl rfl
  | rehashNames pid names => exact quiet _ rfl rfl

theorem Core.Reachable.calcInv {c : CConf} {s : Core} (h : Reachable c s) : CalcInv c s.lsdb.now s.rt := by
  refine Reachable.induct (P := fun s => CalcInv c s.lsdb.now s.rt) ?_ ?_ h
  · intros; exact ⟨rfl, by simp [Core.init]⟩
  · intro s op _ hp; exact (step_calc hp op).1

/-- Is an Adjacency LSA of this router in the view? -/
def ownIn (c : CConf) (v : View) : Prop := (v c.router .adjacency).isSome = true

theorem hear_own (c : CConf) (now : Nat) {v v' : View} {outs : List Out} (t : VS v outs v') {p : RtState × Npt}
    (h : p.1.ownAdj = true ↔ ownIn c v) : (outs.foldl (Core.hear c now) p).1.ownAdj = true ↔ ownIn c v' := by
  have hsch : ∀ (b : Bool) (r : RtState), (if b then r.schedule c now else r).ownAdj = r.ownAdj := by
    intro b r
    split
    · unfold RtState.schedule; split <;> rfl
    · rfl
  have hset : ∀ (l : Lsa) (x : Option Content), l.origin = c.router ∧ l.type = .adjacency →
      (v.set l.origin l.type x) c.router .adjacency = x := by
    rintro l x ⟨h1, h2⟩; unfold Lsdb.View.set; rw [h1, h2]; simp
  have hoth : ∀ (l : Lsa) (x : Option Content), ¬ (l.origin = c.router ∧ l.type = .adjacency) →
      (v.set l.origin l.type x) c.router .adjacency = v c.router .adjacency := by
    intro l x hk; unfold Lsdb.View.set
    rw [if_neg]
    rintro ⟨h1, h2⟩; exact hk ⟨h1.symm, h2.symm⟩
  have hbool : ∀ l : Lsa, ((l.origin == c.router && l.type == .adjacency) = true) ↔ (l.origin = c.router ∧ l.type = .adjacency) := by
    intro l; simp
  cases t with
  | quiet _ hq => rw [Core.hear_quiet hq]; exact h
  | installed l hv hn =>
    show (Core.rtHear c now .installed l p).1.ownAdj = true ↔ _
    unfold Core.rtHear ownIn
    dsimp only
    rw [hsch]
    by_cases hk : l.origin = c.router ∧ l.type = .adjacency
    · rw [hset l _ hk]; simp [hk.1, hk.2]
    · have : (l.origin == c.router && l.type == .adjacency) = false := by
        rw [Bool.eq_false_iff]; exact fun hc => hk ((hbool l).1 hc)
      rw [hoth l _ hk, this]; exact h
  | updated l old hv ho ht hn hu =>
    show (Core.rtHear c now .updated l p).1.ownAdj = true ↔ _
    unfold Core.rtHear ownIn
    dsimp only
    rw [hsch]
    have e1 : ((l.origin == c.router && l.type == .adjacency) && (ModKind.updated == ModKind.removed)) = false := by
      rw [Bool.and_eq_false_iff]; exact Or.inr rfl
    have e2 : ((l.origin == c.router && l.type == .adjacency) && (ModKind.updated == ModKind.installed)) = false := by
      rw [Bool.and_eq_false_iff]; exact Or.inr rfl
    rw [e1, e2]
    by_cases hk : l.origin = c.router ∧ l.type = .adjacency
    · rw [hset l _ hk]
      have : ownIn c v := by unfold ownIn; rw [← hk.1, ← hk.2, hv]; rfl
      simpa using h.2 this
    · rw [hoth l _ hk]; exact h
  | removed l hv hn =>
    show (Core.rtHear c now .removed l p).1.ownAdj = true ↔ _
    unfold Core.rtHear ownIn
    dsimp only
    rw [hsch]
    by_cases hk : l.origin = c.router ∧ l.type = .adjacency
    · rw [hset l _ hk]; simp [hk.1, hk.2]
    · have : (l.origin == c.router && l.type == .adjacency) = false := by
        rw [Bool.eq_false_iff]; exact fun hc => hk ((hbool l).1 hc)
      rw [hoth l _ hk, this]; exact h

theorem hears_own (c : CConf) (now : Nat) {v v' : View} {outs : List Out} (t : VSs v outs v') : ∀ {p : RtState × Npt},
    (p.1.ownAdj = true ↔ ownIn c v) → ((outs.foldl (Core.hear c now) p).1.ownAdj = true ↔ ownIn c v') := by
  induction t with
  | refl => intro p h; exact h
  | tail h1 h2 ih =>
    intro p h
    rw [List.foldl_append]
    exact hear_own c now h2 (ih h)

theorem calculate_own (c : CConf) (db : List Obj) (s : Core) : (Core.calculate c db s).rt.ownAdj = s.rt.ownAdj := by
  have h1 : ∀ s : Core, (Core.calcLs c db s).rt.ownAdj = s.rt.ownAdj := by
    intro s; unfold Core.calcLs
    split
    · rfl
    · split
      · rfl
      · cases Core.lsTable c s.lsdb.adjs db <;> rfl
  have h2 : ∀ b, ∀ s : Core, (Core.calcHyp c db b s).rt.ownAdj = s.rt.ownAdj := by
    intro b s; unfold Core.calcHyp
    cases Core.hypTable c s.lsdb.adjs db with
    | none => rfl
    | some t => dsimp only; split <;> rfl
  unfold Core.calculate
  cases c.lsdb.hyp with
  | off => exact h1 s
  | dryRun => exact (h2 _ _).trans (h1 s)
  | on => exact h2 _ s

/-- `m_ownAdjLsaExist` says whether this router's Adjacency LSA is stored. -/
theorem Core.Reachable.ownAdj {c : CConf} {s : Core} (h : Reachable c s) :
    s.rt.ownAdj = true ↔ ∃ o ∈ s.lsdb.db, o.lsa.origin = c.router ∧ o.lsa.type = .adjacency := by
  have key : s.rt.ownAdj = true ↔ ownIn c (view s.lsdb) := by
    refine Reachable.induct (P := fun s => s.rt.ownAdj = true ↔ ownIn c (view s.lsdb)) ?_ ?_ h
    · intro disk adjs npl sys
      unfold ownIn
      show false = true ↔ (view (Lsdb.init c.lsdb disk adjs npl sys) c.lsdb.router .adjacency).isSome = true
      rw [Core.init_no_adj]
      simp
    · intro s op hr hp
      cases op with
      | lsdb o =>
        have h1 := Lsdb.vss_step hr.lsdb.inv o
        exact hears_own c (Lsdb.step c.lsdb s.lsdb o).now h1.2 (p := (s.rt, s.npt)) hp
      | scheduleCalc =>
        show (s.rt.schedule c s.lsdb.now).ownAdj = true ↔ ownIn c (view s.lsdb)
        rw [← hp]; unfold RtState.schedule; split <;> exact Iff.rfl
      | calcTimer i db =>
        show (Core.calcTimer c s i db).rt.ownAdj = true ↔ ownIn c (view (Core.calcTimer c s i db).lsdb)
        unfold Core.calcTimer
        cases s.rt.events[i]? with
        | none => exact hp
        | some d =>
          dsimp only
          split
          · exact hp
          · rw [Core.calculate_lsdb, calculate_own]; exact hp
      | rehash objs => exact hp
      | rehashNames pid names => exact hp
  rw [key]
  unfold ownIn view
  constructor
  · intro hs
    cases hf : s.lsdb.find c.router .adjacency with
    | none => rw [hf] at hs; cases hs
    | some o => exact ⟨o, Lsdb.find_some hf⟩
  · rintro ⟨o, ho, h1, h2⟩
    have := Lsdb.find_of_mem h.lsdb.inv ho
    rw [h1, h2] at this
    rw [this]; rfl

/-! ### C14 -/

/-- At most one calculation is in the scheduler, and it is due within the calculation interval. -/
theorem C14_at_most_one {c : CConf} {s : Core} (h : Reachable c s) :
    s.rt.events.length ≤ 1 ∧ ∀ d ∈ s.rt.events, d ≤ s.lsdb.now + c.calcInt * Lsdb.nsPerSec := by
  refine ⟨?_, h.calcInv.due⟩
  have := h.calcInv.one
  split at this <;> omega

/-- A pending calculation stays pending, with the time it is due, until it runs. -/
theorem C14_stays_pending {c : CConf} {s : Core} (h : Reachable c s) (op : Core.Op) (hf : ¬ Fires s op) (d : Nat)
    (hd : s.rt.events = [d]) : (Core.step c s op).rt.events = [d] := by
  have h1 := h.calcInv.one
  rw [hd] at h1
  have : s.rt.flag = true := by
    cases hfl : s.rt.flag with
    | true => rfl
    | false => rw [hfl] at h1; simp at h1
  rw [((step_calc h.calcInv op).2.1 hf this).2, hd]

/-- After an LSA that routes depend on has been installed or changed, a calculation is pending until one
runs: if none has run since, one is pending. -/
theorem C14_change_pending {c : CConf} {s : Core} (h : Reachable c s) (ops : List Core.Op) (hn : NoneFires c s ops)
    (hrel : ∃ o ∈ (Core.run c s ops).lsdb.log.drop s.lsdb.log.length, Relevant c.lsdb.hyp o) :
    ∃ d, (Core.run c s ops).rt.events = [d] ∧ d ≤ (Core.run c s ops).lsdb.now + c.calcInt * Lsdb.nsPerSec := by
  have keep : ∀ (ops : List Core.Op) (s : Core), Reachable c s → NoneFires c s ops → s.rt.flag = true → (Core.run c s ops).rt.flag = true := by
    intro ops
    induction ops with
    | nil => intro s _ _ hf; exact hf
    | cons op ops ih =>
      intro s hr hn hf
      exact ih _ (hr.step op) hn.2 ((step_calc hr.calcInv op).2.1 hn.1 hf).1
  have key : ∀ (ops : List Core.Op) (s : Core), Reachable c s → NoneFires c s ops →
      (∃ o ∈ (Core.run c s ops).lsdb.log.drop s.lsdb.log.length, Relevant c.lsdb.hyp o) → (Core.run c s ops).rt.flag = true := by
    intro ops
    induction ops with
    | nil =>
      rintro s _ _ ⟨o, ho, -⟩
      change o ∈ s.lsdb.log.drop s.lsdb.log.length at ho
      simp at ho
    | cons op ops ih =>
      rintro s hr hn ⟨o, ho, hrel⟩
      by_cases hlate : ∃ o ∈ (Core.run c (Core.step c s op) ops).lsdb.log.drop (Core.step c s op).lsdb.log.length, Relevant c.lsdb.hyp o
      · exact ih _ (hr.step op) hn.2 hlate
      · refine keep ops _ (hr.step op) hn.2 ((step_calc hr.calcInv op).2.2 hn.1 ⟨o, ?_, hrel⟩)
        have hlog : ∀ (s : Core), Reachable c s → ∀ op, ∃ x, (Core.step c s op).lsdb.log = s.lsdb.log ++ x := by
          intro s hr op
          rw [Core.step_lsdb]
          cases op with
          | lsdb o => exact ⟨_, (Lsdb.vss_step hr.lsdb.inv o).1⟩
          | _ => exact ⟨[], by simp⟩
        have hlogs : ∀ (ops : List Core.Op) (s : Core), Reachable c s → ∃ x, (Core.run c s ops).lsdb.log = s.lsdb.log ++ x := by
          intro ops
          induction ops with
          | nil => intro s _; exact ⟨[], by simp [Core.run]⟩
          | cons op ops ih =>
            intro s hr
            obtain ⟨x, hx⟩ := hlog s hr op
            obtain ⟨y, hy⟩ := ih _ (hr.step op)
            exact ⟨x ++ y, by rw [← List.append_assoc, ← hx]; exact hy⟩
        obtain ⟨x, hx⟩ := hlog s hr op
        obtain ⟨y, hy⟩ := hlogs ops _ (hr.step op)
        change o ∈ (Core.run c (Core.step c s op) ops).lsdb.log.drop s.lsdb.log.length at ho
        rw [hy, hx] at ho
        simp only [List.append_assoc, List.drop_left] at ho
        rcases List.mem_append.1 ho with ho | ho
        · rw [hx]; simpa using ho
        · refine absurd ⟨o, ?_, hrel⟩ hlate
          rw [hy]; simpa using ho
  have hrun : ∀ (ops : List Core.Op) (s : Core), Reachable c s → Reachable c (Core.run c s ops) := by
    intro ops
    induction ops with
    | nil => intro s hr; exact hr
    | cons op ops ih => intro s hr; exact ih _ (hr.step op)
  have hfl := key ops s h hn hrel
  have hinv := (hrun ops s h).calcInv
  have h1 := hinv.one
  rw [hfl] at h1
  obtain ⟨d, hd⟩ := List.length_eq_one_iff.1 h1
  exact ⟨d, hd, hinv.due d (by rw [hd]; simp)⟩

/-- When the pending calculation runs in a link-state mode, with no Adjacency LSA build scheduled and this
router's Adjacency LSA stored, the routing table becomes the one computed from the LSDB as it then is, and
the name prefix table has it. -/
theorem C14_runs_partial {c : CConf} {s : Core} (h : Reachable c s) (hh : c.lsdb.hyp ≠ .on) (op : Core.Op) (hf : Fires s op)
    (hb : s.lsdb.buildFlag = false) (ho : ∃ o ∈ s.lsdb.db, o.lsa.origin = c.router ∧ o.lsa.type = .adjacency) :
    ∃ db t, db.Perm s.lsdb.db ∧ Core.lsTable c s.lsdb.adjs db = some t ∧
      (Core.step c s op).rt.table = t ∧ (Core.step c s op).npt.rt = t ∧ (Core.step c s op).rt.events = [] := by
  have hr := h.step op
  have hev := C14_at_most_one h
  obtain ⟨i, db, d, rfl, he, hd⟩ := hf
  have hown := h.ownAdj.2 ho
  have hi : i < s.rt.events.length := (List.getElem?_eq_some_iff.1 he).1
  have hemp : s.rt.events.eraseIdx i = [] := by
    rw [← List.length_eq_zero_iff, List.length_eraseIdx]; split <;> omega
  let db' := if db.isPerm s.lsdb.db then db else s.lsdb.db
  have hperm : db'.Perm s.lsdb.db := by
    show (if db.isPerm s.lsdb.db then db else s.lsdb.db).Perm s.lsdb.db
    split
    · rename_i hp; exact List.isPerm_iff.1 hp
    · exact List.Perm.refl _
  obtain ⟨out, hout, -⟩ := LS.calculate_total (Core.adjAds db') c.maxFaces c.router
    (fun n => (AdjacencyList.getAdjacent s.lsdb.adjs n).uri)
  have ht : Core.lsTable c s.lsdb.adjs db' = some (RTable.build out) := by
    unfold Core.lsTable; rw [hout]; rfl
  have hstep : Core.step c s (.calcTimer i db) =
      Core.calculate c db' { s with rt := { s.rt with events := s.rt.events.eraseIdx i } } := by
    show Core.calcTimer c s i db = _
    unfold Core.calcTimer
    rw [he]
    dsimp only
    rw [if_neg (by omega)]
  have htab : (Core.step c s (.calcTimer i db)).rt.table = RTable.build out := by
    rw [hstep]
    unfold Core.calculate Core.calcLs
    cases hc : c.lsdb.hyp with
    | on => exact absurd hc hh
    | off =>
      dsimp only
      simp only [hb, hown, ht, Bool.false_eq_true, if_false, Bool.not_true]
    | dryRun =>
      dsimp only
      simp only [hb, hown, ht, Bool.false_eq_true, if_false, Bool.not_true]
      unfold Core.calcHyp
      split <;> rfl
  refine ⟨db', _, hperm, ht, htab, by rw [hr.rt]; exact htab, ?_⟩
  rw [hstep, (calculate_rt _ _ _).1]
  exact hemp

/-- Hyperbolic mode: when it runs and no distance is undefined, the table is the one computed from the LSDB
as it then is. -/
theorem C14_runs_hyperbolic {c : CConf} {s : Core} (h : Reachable c s) (hh : c.lsdb.hyp = .on) (op : Core.Op) (hf : Fires s op)
    (hd : ∀ db, db.Perm s.lsdb.db → (Core.hypTable c s.lsdb.adjs db).isSome) :
    ∃ db, db.Perm s.lsdb.db ∧ Core.hypTable c s.lsdb.adjs db = some (Core.step c s op).rt.table ∧
      (Core.step c s op).npt.rt = (Core.step c s op).rt.table ∧ (Core.step c s op).rt.events = [] := by
  have hr := h.step op
  have hev := C14_at_most_one h
  obtain ⟨i, db, d, rfl, he, hdd⟩ := hf
  have hi : i < s.rt.events.length := (List.getElem?_eq_some_iff.1 he).1
  have hemp : s.rt.events.eraseIdx i = [] := by
    rw [← List.length_eq_zero_iff, List.length_eraseIdx]; split <;> omega
  let db' := if db.isPerm s.lsdb.db then db else s.lsdb.db
  have hperm : db'.Perm s.lsdb.db := by
    show (if db.isPerm s.lsdb.db then db else s.lsdb.db).Perm s.lsdb.db
    split
    · rename_i hp; exact List.isPerm_iff.1 hp
    · exact List.Perm.refl _
  have hstep : Core.step c s (.calcTimer i db) =
      Core.calculate c db' { s with rt := { s.rt with events := s.rt.events.eraseIdx i } } := by
    show Core.calcTimer c s i db = _
    unfold Core.calcTimer
    rw [he]
    dsimp only
    rw [if_neg (by omega)]
  obtain ⟨t, ht⟩ := Option.isSome_iff_exists.1 (hd db' hperm)
  have htab : (Core.step c s (.calcTimer i db)).rt.table = t := by
    rw [hstep]
    unfold Core.calculate Core.calcHyp
    rw [hh]
    dsimp only
    rw [ht]
    rfl
  refine ⟨db', hperm, by rw [htab]; exact ht, hr.rt, ?_⟩
  rw [hstep, (calculate_rt _ _ _).1]
  exact hemp

/-- Three changes, the calculation pending and then run: the table has a route to r2 and to r3. -/
def exCalcSome : List Core.Op :=
  [.lsdb .scheduleBuild, exWait, .lsdb .buildTimer] ++
  exGet "r2" "ADJACENCY" exR2 1 (.adj [exAdj exR1 "udp4://10.0.0.1"]) ++
  exGet "r3" "ADJACENCY" exR3 1 (.adj [exAdj exR1 "udp4://10.0.0.1"])

/-- The hypotheses of `C14_change_pending` and `C14_runs_partial` are met. -/
example : (exRun .off exCalcSome).rt.events = [30 * Lsdb.nsPerSec] ∧
    (∃ o ∈ (exRun .off exCalcSome).lsdb.log.drop (exBegin .off).lsdb.log.length, Relevant .off o) ∧
    Fires (exRun .off (exCalcSome ++ [exWait])) (.calcTimer 0 []) ∧
    (exRun .off (exCalcSome ++ [exWait])).lsdb.buildFlag = false ∧
    (∃ o ∈ (exRun .off (exCalcSome ++ [exWait])).lsdb.db, o.lsa.origin = exR1 ∧ o.lsa.type = .adjacency) ∧
    (exRun .off exRoutes).rt.table.map (·.dest) = [exR2, exR3] := by
  refine ⟨by decide +kernel, ?_, ⟨0, [], 30 * Lsdb.nsPerSec, rfl, by decide +kernel, by decide +kernel⟩,
    by decide +kernel, by decide +kernel, by decide +kernel⟩
  have : (∃ o ∈ (exRun .off exCalcSome).lsdb.log.drop (exBegin .off).lsdb.log.length,
      (match o with | .signal .installed l _ _ => decide (l.type = .adjacency) | _ => false) = true) := by decide +kernel
  obtain ⟨o, ho, hh⟩ := this
  refine ⟨o, ho, ?_⟩
  split at hh
  · exact Or.inl ⟨by simpa using hh, nofun⟩
  · cases hh

/-- Hyperbolic mode. -/
example : Fires (exRun .on (exGet "r2" "COORDINATE" exR2 1 (.coord (.fin 1) [.fin 1]) ++ [exWait])) (.calcTimer 0 []) ∧
    (Core.hypTable (exCore .on) (exBegin .on).lsdb.adjs
      (exRun .on (exGet "r2" "COORDINATE" exR2 1 (.coord (.fin 1) [.fin 1]) ++ [exWait])).lsdb.db).isSome :=
  ⟨⟨0, [], 15 * Lsdb.nsPerSec, rfl, by decide +kernel, by decide +kernel⟩, by decide +kernel⟩

/-- r2's Adjacency LSA arrives; before the calculation it asks for is due, a rebuild of the own Adjacency
LSA is scheduled; the calculation then does nothing; the rebuild finds the same adjacencies. -/
def exLost : List Core.Op :=
  [.lsdb .scheduleBuild, exWait, .lsdb .buildTimer, exWait, .calcTimer 0 []] ++
  exGet "r2" "ADJACENCY" exR2 1 (.adj [exAdj exR1 "udp4://10.0.0.1"]) ++
  [.lsdb (.clock (10 * Lsdb.nsPerSec) 0), .lsdb .scheduleBuild, .lsdb (.clock (5 * Lsdb.nsPerSec) 0), .calcTimer 0 [],
   .lsdb (.clock (5 * Lsdb.nsPerSec) 0), .lsdb .buildTimer]

/-- C14 does not hold: a calculation that falls due while an Adjacency LSA build is scheduled is dropped.
If the build then changes nothing, no calculation and no build is pending although the table lacks a
router that is reachable according to the LSDB. -/
theorem C14_violated_lost :
    ∃ s, Reachable (exCore .off) s ∧ s.rt.events = [] ∧ s.lsdb.buildFlag = false ∧ s.lsdb.buildDue = none ∧
      s.rt.table.map (·.dest) = [] ∧
      (Core.lsTable (exCore .off) s.lsdb.adjs s.lsdb.db).map (fun t => t.map (·.dest)) = some [exR2] :=
  ⟨exRun .off exLost, exRun_reachable _ _, by decide +kernel, by decide +kernel, by decide +kernel, by decide +kernel, by decide +kernel⟩

/-- r2's Adjacency LSA is used and then expires. -/
def exGone : List Core.Op :=
  [.lsdb .scheduleBuild, exWait, .lsdb .buildTimer, .lsdb (.sync (exUpdate "r2" "ADJACENCY") 1),
   .lsdb (.fetched 0 (some ⟨exR2, 1, 1000000000, .adj [exAdj exR1 "udp4://10.0.0.1"]⟩)),
   exWait, .calcTimer 0 [], .lsdb (.timer 5)]

/-- C14 does not hold: when another router's Adjacency LSA expires nothing is scheduled, and the route to
that router stays. -/
theorem C14_violated_expiry :
    ∃ s, Reachable (exCore .off) s ∧ s.rt.events = [] ∧ s.lsdb.buildFlag = false ∧ s.lsdb.buildDue = none ∧
      s.rt.table.map (·.dest) = [exR2] ∧
      (Core.lsTable (exCore .off) s.lsdb.adjs s.lsdb.db).map (fun t => t.map (·.dest)) = some [] :=
  ⟨exRun .off exGone, exRun_reachable _ _, by decide +kernel, by decide +kernel, by decide +kernel, by decide +kernel, by decide +kernel⟩

end Nlsr
