import Verif.Lemmas.LsdbEff
/- Fields that only few operations touch: the build schedule, the neighbours, the names, the FIFO. -/
namespace Nlsr
namespace Lsdb

/-- Replies to LSA interests, and exceptions. -/
def Out.isReply : Out → Bool
  | .data .. | .storedData .. | .fault => true
  | _ => false

structure Keep (s s' : Lsdb) : Prop where
  buildFlag : s'.buildFlag = s.buildFlag
  buildDue : s'.buildDue = s.buildDue
  buildCount : s'.buildCount = s.buildCount
  adjs : s'.adjs = s.adjs
  npl : s'.npl = s.npl
  fifo : s'.fifo = s.fifo
  log : Logs (fun o => Out.isReply o = false) s s'

theorem Keep.refl (s : Lsdb) : Keep s s := ⟨rfl, rfl, rfl, rfl, rfl, rfl, Logs.refl s⟩

theorem Keep.trans {a b d : Lsdb} (h : Keep a b) (h' : Keep b d) : Keep a d :=
  ⟨h'.buildFlag.trans h.buildFlag, h'.buildDue.trans h.buildDue, h'.buildCount.trans h.buildCount,
   h'.adjs.trans h.adjs, h'.npl.trans h.npl, h'.fifo.trans h.fifo, h.log.trans h'.log⟩

theorem Keep.after {a b d : Lsdb} (h' : Keep b d) (h : Keep a b) : Keep a d := h.trans h'

theorem Keep.quiet {s s' : Lsdb} (h1 : s'.buildFlag = s.buildFlag) (h2 : s'.buildDue = s.buildDue)
    (h3 : s'.buildCount = s.buildCount) (h4 : s'.adjs = s.adjs) (h5 : s'.npl = s.npl) (h6 : s'.fifo = s.fifo)
    (h7 : s'.log = s.log) : Keep s s' :=
  ⟨h1, h2, h3, h4, h5, h6, [], by simp [h7], by simp⟩

theorem Keep.emit (s : Lsdb) (o : Out) (h : Out.isReply o = false) : Keep s (s.emit o) :=
  ⟨rfl, rfl, rfl, rfl, rfl, rfl, Logs.emit s o h⟩

theorem Sig.keep {s s' : Lsdb} (h : Sig s s') : Keep s s' :=
  ⟨h.buildFlag, h.buildDue, h.buildCount, h.adjs, h.npl, h.fifo,
   h.logs (fun o ho => by cases o <;> simp_all [Out.isSignal, Out.isReply])⟩

theorem announce_keep (s : Lsdb) (t : LsaType) (b : Bool) : Keep s (announce s t b) := by
  unfold announce
  dsimp only
  have h1 : Keep s (persist { s with seqs := s.seqs.set t (inc64 (s.seqs.get t)) }) :=
    (Keep.emit { s with seqs := s.seqs.set t (inc64 (s.seqs.get t)) } (Out.persist _) rfl).after
      (Keep.quiet rfl rfl rfl rfl rfl rfl rfl)
  split
  · exact h1.trans (Keep.emit _ _ rfl)
  · exact h1

theorem buildName_keep (c : LConf) (s : Lsdb) : Keep s (buildName c s) :=
  (announce_keep s _ _).trans (installLsa_sig c _ _).keep

theorem buildCoord_keep (c : LConf) (s : Lsdb) : Keep s (buildCoord c s) :=
  (announce_keep s _ _).trans (installLsa_sig c _ _).keep

theorem buildAdj_keep (c : LConf) (s : Lsdb) : Keep s (buildAdj c s) :=
  (announce_keep s _ _).trans (installLsa_sig c _ _).keep

theorem ownUpdate_keep (c : LConf) (s : Lsdb) (t : LsaType) (k : Nat) : Keep s (ownUpdate c s t k) := by
  unfold ownUpdate
  split
  · exact (buildName_keep c _).after (Keep.quiet rfl rfl rfl rfl rfl rfl rfl)
  · split
    · exact (buildAdj_keep c _).after (Keep.quiet rfl rfl rfl rfl rfl rfl rfl)
    · exact Keep.refl _
  · split
    · exact (buildCoord_keep c _).after (Keep.quiet rfl rfl rfl rfl rfl rfl rfl)
    · exact Keep.refl _
  · exact Keep.refl _

theorem refresh_keep (c : LConf) (s : Lsdb) (o : Obj) : Keep s (refresh c s o) := by
  unfold refresh
  dsimp only
  refine (Keep.emit _ _ rfl).after ((Keep.emit _ _ rfl).after ?_)
  exact Keep.quiet rfl rfl rfl rfl rfl rfl rfl

theorem expireOrRefresh_keep (c : LConf) (s : Lsdb) (l : Lsa) : Keep s (expireOrRefresh c s l) := by
  unfold expireOrRefresh
  split
  · exact Keep.refl _
  · split
    · split
      · exact refresh_keep c _ _
      · exact (removeLsa_sig _ _ _).keep
    · exact Keep.refl _

theorem fire_keep (c : LConf) (s : Lsdb) (eid : Nat) : Keep s (fire c s eid) := by
  unfold fire
  split
  · exact Keep.refl _
  · split
    · exact Keep.refl _
    · split
      · exact Keep.quiet rfl rfl rfl rfl rfl rfl rfl
      · exact (expireOrRefresh_keep c _ _).after (Keep.quiet rfl rfl rfl rfl rfl rfl rfl)

theorem noteSeq_keep {s s1 : Lsdb} {n : Name} {k : Nat} (h : s.noteSeq n k = some s1) : Keep s s1 := by
  unfold noteSeq at h
  split at h
  · cases h; exact Keep.quiet rfl rfl rfl rfl rfl rfl rfl
  · split at h
    · cases h; exact Keep.quiet rfl rfl rfl rfl rfl rfl rfl
    · split at h
      · cases h
      · cases h; exact Keep.refl _

theorem expressInterest_keep (s : Lsdb) (n : Name) (k d : Nat) : Keep s (expressInterest s n k d) := by
  unfold expressInterest
  split
  · exact Keep.refl _
  · rename_i s1 h
    refine (noteSeq_keep h).trans ⟨rfl, rfl, rfl, rfl, rfl, rfl, [_], rfl, ?_⟩
    simp [Out.isReply]

theorem sync_keep (c : LConf) (s : Lsdb) (n : Name) (k : Nat) : Keep s (sync c s n k) := by
  unfold sync
  split
  · unfold processUpdate
    split
    · split
      · exact ownUpdate_keep c s _ _
      · exact Keep.refl _
    · split
      · split
        · exact Keep.refl _
        · exact (expressInterest_keep _ _ _ _).after (Keep.emit s _ rfl)
      · exact Keep.refl _
  · exact Keep.refl _

theorem afterFetch_keep (c : LConf) (s : Lsdb) (f : Fetch) (p : Option Lsa) : Keep s (afterFetch c s f p) := by
  unfold afterFetch
  split
  · exact Keep.refl _
  · rename_i s1 h
    refine (noteSeq_keep h).trans ?_
    dsimp only
    split
    · exact Keep.refl _
    · split
      · exact Keep.refl _
      · unfold installFetched
        split
        · exact Keep.refl _
        · split
          · exact (installLsa_sig c _ _).keep
          · exact Keep.refl _

theorem fetched_keep (c : LConf) (s : Lsdb) (i : Nat) (p : Option Lsa) : Keep s (fetched c s i p) := by
  unfold fetched
  split
  · exact Keep.refl _
  · exact (afterFetch_keep c _ _ _).after (Keep.quiet rfl rfl rfl rfl rfl rfl rfl)

theorem fetchError_keep (c : LConf) (s : Lsdb) (i : Nat) (b : Bool) : Keep s (fetchError c s i b) := by
  unfold fetchError
  split
  · exact Keep.refl _
  · unfold fetchFailed
    split <;> exact Keep.quiet rfl rfl rfl rfl rfl rfl rfl

theorem retryTimer_keep (s : Lsdb) (i : Nat) : Keep s (retryTimer s i) := by
  unfold retryTimer
  split
  · exact Keep.refl _
  · split
    · exact Keep.refl _
    · exact (expressInterest_keep _ _ _ _).after (Keep.quiet rfl rfl rfl rfl rfl rfl rfl)

/-- The operations that touch one of the kept fields or reply. -/
def Op.special : Op → Bool
  | .setAdjs _ | .setNpl _ | .scheduleBuild | .buildTimer | .interest .. | .fifoGone _ => true
  | _ => false

theorem step_keep (c : LConf) (s : Lsdb) (op : Op) (h : Op.special op = false) : Keep s (step c s op) := by
  cases op with
  | clock dt sys => exact Keep.quiet rfl rfl rfl rfl rfl rfl rfl
  | setAdjs l => cases h
  | setNpl l => cases h
  | buildName => exact buildName_keep c s
  | scheduleBuild => cases h
  | buildTimer => cases h
  | timer eid => exact fire_keep c s eid
  | sync n k => exact sync_keep c s n _
  | fetched i p => exact fetched_keep c s i p
  | fetchError i t => exact fetchError_keep c s i t
  | retryTimer i => exact retryTimer_keep s i
  | segment n => exact Keep.quiet rfl rfl rfl rfl rfl rfl rfl
  | segmentGone n => exact Keep.quiet rfl rfl rfl rfl rfl rfl rfl
  | interest n v => cases h
  | fifoGone n => cases h

/-- The build timer: it is consumed or set again, and nothing else that is kept changes. -/
theorem buildAdjLsa_spec (c : LConf) (s : Lsdb) :
    (buildAdjLsa c s).adjs = s.adjs ∧ (buildAdjLsa c s).npl = s.npl ∧ (buildAdjLsa c s).fifo = s.fifo ∧
    Logs (fun o => Out.isReply o = false) s (buildAdjLsa c s) ∧
    (if AdjacencyList.isAdjLsaBuildable s.adjs c.retry then
      (buildAdjLsa c s).buildFlag = false ∧ (buildAdjLsa c s).buildDue = none ∧ (buildAdjLsa c s).buildCount = 0
    else (buildAdjLsa c s).buildFlag = true ∧
      (buildAdjLsa c s).buildDue = some (s.now + c.retry * c.resend * nsPerSec) ∧
      (buildAdjLsa c s).buildCount = s.buildCount) := by
  by_cases hb : AdjacencyList.isAdjLsaBuildable s.adjs c.retry
  · rw [if_pos hb]
    have e : buildAdjLsa c s = buildOrRemove c { s with buildFlag := false, buildDue := none } := by
      unfold buildAdjLsa; dsimp only; rw [if_pos hb]
    rw [e]
    let s0 : Lsdb := { s with buildFlag := false, buildDue := none }
    have hk : ∀ s', Keep s0 s' →
        s'.adjs = s.adjs ∧ s'.npl = s.npl ∧ s'.fifo = s.fifo ∧
        Logs (fun o => Out.isReply o = false) s s' ∧ s'.buildFlag = false ∧ s'.buildDue = none ∧
        s'.buildCount = s.buildCount := by
      intro s' h
      refine ⟨h.adjs, h.npl, h.fifo, ?_, h.buildFlag, h.buildDue, h.buildCount⟩
      obtain ⟨o, h1, h2⟩ := h.log
      exact ⟨o, h1, h2⟩
    unfold buildOrRemove
    by_cases h0 : 0 < s.buildCount
    · rw [if_pos (show 0 < s0.buildCount from h0)]
      dsimp only
      by_cases h1 : 0 < AdjacencyList.numActive s.adjs
      · rw [if_pos h1]
        obtain ⟨a1, a2, a3, a4, a5, a6, a7⟩ := hk _ (buildAdj_keep c s0)
        refine ⟨a1, a2, a3, a4, a5, a6, ?_⟩
        show (buildAdj c s0).buildCount - s.buildCount = 0
        rw [a7]; omega
      · rw [if_neg h1]
        obtain ⟨a1, a2, a3, a4, a5, a6, a7⟩ := hk _ (removeLsa_sig s0 c.router .adjacency).keep
        refine ⟨a1, a2, a3, a4, a5, a6, ?_⟩
        show (removeLsa s0 c.router .adjacency).buildCount - s.buildCount = 0
        rw [a7]; omega
    · rw [if_neg (show ¬ 0 < s0.buildCount from h0)]
      obtain ⟨a1, a2, a3, a4, a5, a6, a7⟩ := hk _ (Keep.refl s0)
      exact ⟨a1, a2, a3, a4, a5, a6, by rw [a7]; omega⟩
  · rw [if_neg hb]
    have e : buildAdjLsa c s =
        { s with buildFlag := true, buildDue := some (s.now + c.retry * c.resend * nsPerSec) } := by
      unfold buildAdjLsa; dsimp only; rw [if_neg hb]
    rw [e]
    exact ⟨rfl, rfl, rfl, ⟨[], by simp, by simp⟩, rfl, rfl, rfl⟩

/-- The schedule: the flag says whether a build is pending, and with hyperbolic routing on none is. -/
structure Sched (c : LConf) (s : Lsdb) : Prop where
  flag : s.buildFlag = s.buildDue.isSome
  on : c.hyp = .on → s.buildDue = none
  count : s.buildDue.isSome = true → 0 < s.buildCount

theorem Sched.keep {c : LConf} {s s' : Lsdb} (h : Sched c s) (k : Keep s s') : Sched c s' :=
  ⟨by rw [k.buildFlag, k.buildDue, h.flag], fun h1 => by rw [k.buildDue, h.on h1],
   fun h1 => by rw [k.buildDue] at h1; rw [k.buildCount]; exact h.count h1⟩

theorem processInterest_build (c : LConf) (s : Lsdb) (n : Name) (v : Nat) :
    ∃ f l, processInterest c s n v = { s with fifo := f, log := l } := by
  have hr : ∀ n t k v, ∃ f l, replyOwn c s n t k v = { s with fifo := f, log := l } := by
    intro n t k v
    unfold replyOwn
    split
    · exact ⟨s.fifo, s.log, rfl⟩
    · split
      · dsimp only
        split
        · exact ⟨_, _, rfl⟩
        · exact ⟨_, s.log, rfl⟩
      · exact ⟨s.fifo, s.log, rfl⟩
  have hs : ∀ n m v, ∃ f l, processStripped c s n m v = { s with fifo := f, log := l } := by
    intro n m v
    unfold processStripped
    split
    · split
      · split
        · exact ⟨s.fifo, _, rfl⟩
        · split
          · exact ⟨s.fifo, s.log, rfl⟩
          · exact hr _ _ _ _
      · exact ⟨s.fifo, _, rfl⟩
    · split
      · exact ⟨s.fifo, _, rfl⟩
      · exact ⟨s.fifo, s.log, rfl⟩
  unfold processInterest
  split
  · split
    · exact ⟨s.fifo, s.log, rfl⟩
    · split
      · split
        · exact ⟨s.fifo, _, rfl⟩
        · exact hs _ _ _
      · exact hs _ _ _
  · exact ⟨s.fifo, s.log, rfl⟩

theorem step_interest (c : LConf) (s : Lsdb) (n : Name) (v : Nat) :
    ∃ f l, step c s (.interest n v) = { s with fifo := f, log := l } := by
  show ∃ f l, (if n.length ≤ maxComponents then processInterest c s n v else s) = _
  split
  · exact processInterest_build c s n v
  · exact ⟨s.fifo, s.log, rfl⟩

theorem step_sched {c : LConf} {s : Lsdb} (h : Sched c s) (op : Op) : Sched c (step c s op) := by
  by_cases hs : Op.special op = false
  · exact h.keep (step_keep c s op hs)
  · cases op with
    | setAdjs l => exact ⟨h.flag, h.on, h.count⟩
    | setNpl l => exact ⟨h.flag, h.on, h.count⟩
    | scheduleBuild =>
      show Sched c (scheduleBuild c s)
      unfold scheduleBuild
      dsimp only
      split
      · exact ⟨h.flag, h.on, fun _ => Nat.succ_pos _⟩
      · rename_i h1
        exact ⟨rfl, fun h2 => absurd h2 h1, fun _ => Nat.succ_pos _⟩
    | buildTimer =>
      show Sched c (buildTimer c s)
      unfold buildTimer
      split
      · exact h
      · rename_i d hd
        split
        · exact h
        · obtain ⟨-, -, -, -, h5⟩ := buildAdjLsa_spec c s
          have hon : c.hyp ≠ .on := fun e => by rw [h.on e] at hd; cases hd
          split at h5
          · exact ⟨by rw [h5.1, h5.2.1]; rfl, fun e => absurd e hon, fun e => by rw [h5.2.1] at e; cases e⟩
          · exact ⟨by rw [h5.1, h5.2.1]; rfl, fun e => absurd e hon,
              fun _ => by rw [h5.2.2]; exact h.count (by rw [hd]; rfl)⟩
    | interest n v =>
      obtain ⟨f, l, e⟩ := step_interest c s n v
      rw [e]; exact ⟨h.flag, h.on, h.count⟩
    | fifoGone n => exact ⟨h.flag, h.on, h.count⟩
    | _ => exact absurd rfl hs

theorem init_keep (c : LConf) (disk : Option Seqs) (adjs : AdjacencyList) (npl : List PrefixInfo) (sys : Int) :
    Keep (boot c disk adjs npl sys) (init c disk adjs npl sys) := by
  unfold init
  dsimp only
  split
  · exact buildName_keep c _
  · exact (buildName_keep c _).trans (buildCoord_keep c _)

theorem run_snoc (c : LConf) (s : Lsdb) (ops : List Op) (op : Op) : run c s (ops ++ [op]) = step c (run c s ops) op := by
  simp [run]

/-- Induction over the steps of a run. -/
theorem Reachable.induct_step {c : LConf} {P : Lsdb → Prop}
    (hinit : ∀ disk adjs npl sys, P (init c disk adjs npl sys))
    (hstep : ∀ s op, Reachable c s → P s → P (Lsdb.step c s op)) {s : Lsdb} (h : Reachable c s) : P s := by
  obtain ⟨disk, adjs, npl, sys, ops, rfl⟩ := h
  have key : ∀ ops : List Op, ∀ s, Reachable c s → P s → P (run c s ops) := by
    intro ops
    induction ops with
    | nil => intro s _ h; exact h
    | cons op ops ih => intro s hr h; exact ih _ (hr.step op) (hstep s op hr h)
  exact key ops _ ⟨disk, adjs, npl, sys, [], rfl⟩ (hinit ..)

theorem Reachable.sched {c : LConf} {s : Lsdb} (h : Reachable c s) : Sched c s := by
  refine Reachable.induct_step (P := Sched c) ?_ ?_ h
  · intro disk adjs npl sys
    exact Sched.keep (s := boot c disk adjs npl sys) ⟨rfl, fun _ => rfl, fun e => by cases e⟩ (init_keep c disk adjs npl sys)
  · intro s op _ hs
    exact step_sched hs op

end Lsdb
end Nlsr
