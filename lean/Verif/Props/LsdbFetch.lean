import Verif.Lemmas.LsdbEff
import Verif.Props.Lsdb
/- C32: fetching of LSAs. -/
namespace Nlsr
namespace Lsdb

def Out.isInterest : Out → Bool
  | .interest .. => true
  | _ => false

/-- Fetching is not affected and no LSA interest is sent. -/
structure NF (s s' : Lsdb) : Prop where
  highest : s'.highest = s.highest
  fetches : s'.fetches = s.fetches
  retries : s'.retries = s.retries
  log : Logs (fun o => Out.isInterest o = false) s s'

theorem NF.refl (s : Lsdb) : NF s s := ⟨rfl, rfl, rfl, Logs.refl s⟩

theorem NF.trans {a b d : Lsdb} (h : NF a b) (h' : NF b d) : NF a d :=
  ⟨h'.highest.trans h.highest, h'.fetches.trans h.fetches, h'.retries.trans h.retries, h.log.trans h'.log⟩

theorem NF.after {a b d : Lsdb} (h' : NF b d) (h : NF a b) : NF a d := h.trans h'

theorem NF.quiet {s s' : Lsdb} (h1 : s'.highest = s.highest) (h2 : s'.fetches = s.fetches)
    (h3 : s'.retries = s.retries) (h4 : s'.log = s.log) : NF s s' :=
  ⟨h1, h2, h3, [], by simp [h4], by simp⟩

theorem NF.emit (s : Lsdb) (o : Out) (h : Out.isInterest o = false) : NF s (s.emit o) :=
  ⟨rfl, rfl, rfl, Logs.emit s o h⟩

theorem Sig.nf {s s' : Lsdb} (h : Sig s s') : NF s s' :=
  ⟨h.highest, h.fetches, h.retries, h.logs (fun o ho => by cases o <;> simp_all [Out.isSignal, Out.isInterest])⟩

theorem announce_nf (s : Lsdb) (t : LsaType) (b : Bool) : NF s (announce s t b) := by
  unfold announce
  dsimp only
  have h1 : NF s (persist { s with seqs := s.seqs.set t (inc64 (s.seqs.get t)) }) :=
    (NF.emit { s with seqs := s.seqs.set t (inc64 (s.seqs.get t)) } (Out.persist _) rfl).after
      (NF.quiet rfl rfl rfl rfl)
  split
  · exact h1.trans (NF.emit _ _ rfl)
  · exact h1

theorem buildName_nf (c : LConf) (s : Lsdb) : NF s (buildName c s) :=
  (announce_nf s _ _).trans (installLsa_sig c _ _).nf

theorem buildCoord_nf (c : LConf) (s : Lsdb) : NF s (buildCoord c s) :=
  (announce_nf s _ _).trans (installLsa_sig c _ _).nf

theorem buildAdj_nf (c : LConf) (s : Lsdb) : NF s (buildAdj c s) :=
  (announce_nf s _ _).trans (installLsa_sig c _ _).nf

theorem buildOrRemove_nf (c : LConf) (s : Lsdb) : NF s (buildOrRemove c s) := by
  unfold buildOrRemove
  split
  · dsimp only
    split
    · exact (buildAdj_nf c s).trans (NF.quiet rfl rfl rfl rfl)
    · exact (removeLsa_sig s _ _).nf.trans (NF.quiet rfl rfl rfl rfl)
  · exact NF.refl _

theorem buildAdjLsa_nf (c : LConf) (s : Lsdb) : NF s (buildAdjLsa c s) := by
  unfold buildAdjLsa
  dsimp only
  split
  · exact (buildOrRemove_nf c _).after (NF.quiet rfl rfl rfl rfl)
  · exact NF.quiet rfl rfl rfl rfl

theorem buildTimer_nf (c : LConf) (s : Lsdb) : NF s (buildTimer c s) := by
  unfold buildTimer
  split
  · exact NF.refl _
  · split
    · exact NF.refl _
    · exact buildAdjLsa_nf c s

theorem ownUpdate_nf (c : LConf) (s : Lsdb) (t : LsaType) (k : Nat) : NF s (ownUpdate c s t k) := by
  unfold ownUpdate
  split
  · exact (buildName_nf c _).after (NF.quiet rfl rfl rfl rfl)
  · split
    · exact (buildAdj_nf c _).after (NF.quiet rfl rfl rfl rfl)
    · exact NF.refl _
  · split
    · exact (buildCoord_nf c _).after (NF.quiet rfl rfl rfl rfl)
    · exact NF.refl _
  · exact NF.refl _

theorem refresh_nf (c : LConf) (s : Lsdb) (o : Obj) : NF s (refresh c s o) := by
  unfold refresh
  dsimp only
  refine (NF.emit _ _ rfl).after ((NF.emit _ _ rfl).after ?_)
  exact NF.quiet rfl rfl rfl rfl

theorem expireOrRefresh_nf (c : LConf) (s : Lsdb) (l : Lsa) : NF s (expireOrRefresh c s l) := by
  unfold expireOrRefresh
  split
  · exact NF.refl _
  · split
    · split
      · exact refresh_nf c s _
      · exact (removeLsa_sig s _ _).nf
    · exact NF.refl _

theorem fire_nf (c : LConf) (s : Lsdb) (eid : Nat) : NF s (fire c s eid) := by
  unfold fire
  split
  · exact NF.refl _
  · split
    · exact NF.refl _
    · split
      · exact NF.quiet rfl rfl rfl rfl
      · exact (expireOrRefresh_nf c _ _).after (NF.quiet rfl rfl rfl rfl)

theorem replyOwn_nf (c : LConf) (s : Lsdb) (n : Name) (t : LsaType) (k v : Nat) : NF s (replyOwn c s n t k v) := by
  unfold replyOwn
  split
  · exact NF.refl _
  · split
    · dsimp only
      split
      · exact (NF.emit _ _ rfl).after (NF.quiet rfl rfl rfl rfl)
      · exact NF.quiet rfl rfl rfl rfl
    · exact NF.refl _

theorem processStripped_nf (c : LConf) (s : Lsdb) (n m : Name) (v : Nat) : NF s (processStripped c s n m v) := by
  unfold processStripped
  split
  · split
    · split
      · exact NF.emit _ _ rfl
      · split
        · exact NF.refl _
        · exact replyOwn_nf _ _ _ _ _ _
    · exact NF.emit _ _ rfl
  · split
    · exact NF.emit _ _ rfl
    · exact NF.refl _

theorem processInterest_nf (c : LConf) (s : Lsdb) (n : Name) (v : Nat) : NF s (processInterest c s n v) := by
  unfold processInterest
  split
  · split
    · exact NF.refl _
    · split
      · split
        · exact NF.emit _ _ rfl
        · exact processStripped_nf _ _ _ _ _
      · exact processStripped_nf _ _ _ _ _
  · exact NF.refl _

/-! ### the map of highest numbers -/

/-- `h ≤ k`, where an absent entry is below everything. -/
def leOpt (h : Option Nat) (k : Nat) : Prop := ∀ x, h = some x → x ≤ k

theorem lookup_setHighest (m : List (Name × Nat)) (n : Name) (k : Nat) (n' : Name) :
    ((setHighest m n k).find? (fun p => p.1 == n')).map (·.2) =
      if n' = n then some k else (m.find? (fun p => p.1 == n')).map (·.2) := by
  unfold setHighest
  by_cases h : n' = n
  · subst h; simp
  · rw [if_neg h]
    have h1 : (n == n') = false := by simpa using fun e => h e.symm
    rw [List.find?_cons_of_neg (by simp [h1])]
    congr 1
    induction m with
    | nil => rfl
    | cons x xs ih =>
      by_cases hx : x.1 = n
      · have h2 : (x.1 == n') = false := by rw [hx]; exact h1
        have h3 : (x.1 == n) = true := by simpa using hx
        simp only [List.filter_cons, h3, Bool.not_true, Bool.false_eq_true, if_false, List.find?_cons, h2]
        exact ih
      · have h3 : (x.1 == n) = false := by simpa using hx
        simp only [List.filter_cons, h3, Bool.not_false, if_true, List.find?_cons]
        split
        · rfl
        · exact ih

/-- `noteSeq` succeeds iff no higher number is known, and then records the number. -/
theorem noteSeq_spec (s : Lsdb) (n : Name) (k : Nat) :
    (∃ s1, s.noteSeq n k = some s1 ∧ leOpt (s.highestOf n) k ∧ s1.highestOf n = some k ∧
      (∀ n', n' ≠ n → s1.highestOf n' = s.highestOf n') ∧ s1.fetches = s.fetches ∧ s1.retries = s.retries ∧
      s1.log = s.log ∧ s1.db = s.db ∧ s1.now = s.now) ∨
    (s.noteSeq n k = none ∧ ∃ h, s.highestOf n = some h ∧ k < h) := by
  have hset : ∀ s1 : Lsdb, s1.highest = setHighest s.highest n k →
      s1.highestOf n = some k ∧ ∀ n', n' ≠ n → s1.highestOf n' = s.highestOf n' := by
    intro s1 h1
    constructor
    · unfold highestOf; rw [h1, lookup_setHighest, if_pos rfl]
    · intro n' hn'
      unfold highestOf; rw [h1, lookup_setHighest, if_neg hn']
  unfold noteSeq
  cases hh : s.highestOf n with
  | none =>
    refine Or.inl ⟨_, rfl, (by intro x hx; cases hx), (hset _ rfl).1, (hset _ rfl).2, rfl, rfl, rfl, rfl, rfl⟩
  | some h =>
    dsimp only
    by_cases h1 : h < k
    · rw [if_pos h1]
      refine Or.inl ⟨_, rfl, ?_, (hset _ rfl).1, (hset _ rfl).2, rfl, rfl, rfl, rfl, rfl⟩
      intro x hx; cases hx; omega
    · rw [if_neg h1]
      by_cases h2 : k < h
      · rw [if_pos h2]; exact Or.inr ⟨rfl, h, rfl, h2⟩
      · rw [if_neg h2]
        refine Or.inl ⟨s, rfl, ?_, ?_, fun _ _ => rfl, rfl, rfl, rfl, rfl, rfl⟩
        · intro x hx; cases hx; omega
        · rw [hh]; congr 1; omega

/-- The effect of a step on fetching. -/
structure FetchStep (s s' : Lsdb) : Prop where
  /-- the highest known numbers do not decrease -/
  mono : ∀ n h, s.highestOf n = some h → ∃ h', s'.highestOf n = some h' ∧ h ≤ h'
  /-- at most one interest is sent, for a number that is the highest known afterwards, in the same
  step as its fetch is started -/
  log : Logs (fun o => Out.isInterest o = false) s s' ∨
    ∃ s0 n k d, Logs (fun o => Out.isInterest o = false) s s0 ∧ s'.log = s0.log ++ [.interest n k] ∧
      s'.highestOf n = some k ∧ leOpt (s.highestOf n) k ∧ s'.fetches = s0.fetches ++ [⟨n, k, d⟩]

theorem NF.fetchStep {s s' : Lsdb} (h : NF s s') : FetchStep s s' := by
  refine ⟨?_, Or.inl h.log⟩
  intro n k hk
  refine ⟨k, ?_, Nat.le_refl _⟩
  unfold highestOf at hk ⊢
  rw [h.highest]; exact hk

theorem noteSeq_mono {s s1 : Lsdb} {n : Name} {k : Nat} (h1 : leOpt (s.highestOf n) k)
    (h2 : s1.highestOf n = some k) (h3 : ∀ n', n' ≠ n → s1.highestOf n' = s.highestOf n') :
    ∀ m h, s.highestOf m = some h → ∃ h', s1.highestOf m = some h' ∧ h ≤ h' := by
  intro m h hm
  by_cases hmn : m = n
  · subst hmn; exact ⟨k, h2, h1 h hm⟩
  · exact ⟨h, by rw [h3 m hmn]; exact hm, Nat.le_refl _⟩

theorem expressInterest_fetchStep (s : Lsdb) (n : Name) (k d : Nat) : FetchStep s (expressInterest s n k d) := by
  rcases noteSeq_spec s n k with ⟨s1, h0, h1, h2, h3, h4, h5, h6, h7, h8⟩ | ⟨h0, -⟩
  · unfold expressInterest
    rw [h0]
    refine ⟨noteSeq_mono h1 h2 h3, Or.inr ⟨s, n, k, d, Logs.refl s, ?_, h2, h1, ?_⟩⟩
    · show s1.log ++ _ = _; rw [h6]
    · show s1.fetches ++ _ = _; rw [h4]
  · unfold expressInterest
    rw [h0]
    exact (NF.refl s).fetchStep

theorem FetchStep.after {a b d : Lsdb} (h : FetchStep b d) (h1 : a.highest = b.highest)
    (h2 : Logs (fun o => Out.isInterest o = false) a b) : FetchStep a d := by
  have he : ∀ n, a.highestOf n = b.highestOf n := by intro n; unfold highestOf; rw [h1]
  refine ⟨?_, ?_⟩
  · intro n x hx; exact h.mono n x (he n ▸ hx)
  · rcases h.log with h3 | ⟨s0, n, k, dd, h3, h4, h5, h6, h7⟩
    · exact Or.inl (h2.trans h3)
    · exact Or.inr ⟨s0, n, k, dd, h2.trans h3, h4, h5, he n ▸ h6, h7⟩

theorem afterFetch_fetchStep (c : LConf) (s : Lsdb) (f : Fetch) (p : Option Lsa) :
    FetchStep s (afterFetch c s f p) := by
  rcases noteSeq_spec s f.lsaName f.seq with ⟨s1, h0, h1, h2, h3, h4, h5, h6, h7, h8⟩ | ⟨h0, -⟩
  · have hm := noteSeq_mono h1 h2 h3
    have hl : ∀ s', NF s1 s' → FetchStep s s' := by
      intro s' h
      refine ⟨?_, Or.inl ?_⟩
      · intro n x hx
        obtain ⟨y, hy, hle⟩ := hm n x hx
        refine ⟨y, ?_, hle⟩
        unfold highestOf at hy ⊢
        rw [h.highest]; exact hy
      · obtain ⟨o, ho, ho'⟩ := h.log
        exact ⟨o, by rw [ho, h6], ho'⟩
    unfold afterFetch
    rw [h0]
    dsimp only
    split
    · exact hl _ (NF.refl _)
    · split
      · exact hl _ (NF.refl _)
      · unfold installFetched
        split
        · exact hl _ (NF.refl _)
        · split
          · exact hl _ (installLsa_sig c _ _).nf
          · exact hl _ (NF.refl _)
  · unfold afterFetch
    rw [h0]
    exact (NF.refl s).fetchStep

theorem step_fetchStep (c : LConf) (s : Lsdb) (op : Op) : FetchStep s (step c s op) := by
  have hq : Logs (fun o => Out.isInterest o = false) s s := Logs.refl s
  cases op with
  | clock dt sys => exact NF.fetchStep (NF.quiet rfl rfl rfl rfl)
  | setAdjs l => exact NF.fetchStep (NF.quiet rfl rfl rfl rfl)
  | setNpl l => exact NF.fetchStep (NF.quiet rfl rfl rfl rfl)
  | buildName => exact (buildName_nf c s).fetchStep
  | scheduleBuild =>
    refine NF.fetchStep ?_
    show NF s (scheduleBuild c s)
    unfold scheduleBuild
    dsimp only
    split <;> exact NF.quiet rfl rfl rfl rfl
  | buildTimer => exact (buildTimer_nf c s).fetchStep
  | timer eid => exact (fire_nf c s eid).fetchStep
  | sync n k =>
    show FetchStep s (sync c s n _)
    unfold sync
    split
    · unfold processUpdate
      split
      · split
        · exact (ownUpdate_nf c s _ _).fetchStep
        · exact (NF.refl s).fetchStep
      · split
        · split
          · exact (NF.refl s).fetchStep
          · exact (expressInterest_fetchStep _ _ _ _).after rfl (Logs.emit s _ rfl)
        · exact (NF.refl s).fetchStep
    · exact (NF.refl s).fetchStep
  | fetched i p =>
    show FetchStep s (fetched c s i p)
    unfold fetched
    split
    · exact (NF.refl s).fetchStep
    · exact (afterFetch_fetchStep c _ _ _).after rfl ⟨[], by simp, by simp⟩
  | fetchError i t =>
    show FetchStep s (fetchError c s i t)
    have : Logs (fun o => Out.isInterest o = false) s (fetchError c s i t) ∧
        (fetchError c s i t).highest = s.highest := by
      unfold fetchError
      split
      · exact ⟨hq, rfl⟩
      · unfold fetchFailed
        split
        · exact ⟨⟨[], by simp, by simp⟩, rfl⟩
        · exact ⟨⟨[], by simp, by simp⟩, rfl⟩
    refine ⟨?_, Or.inl this.1⟩
    intro n x hx
    refine ⟨x, ?_, Nat.le_refl _⟩
    unfold highestOf at hx ⊢
    rw [this.2]; exact hx
  | retryTimer i =>
    show FetchStep s (retryTimer s i)
    unfold retryTimer
    split
    · exact (NF.refl s).fetchStep
    · split
      · exact (NF.refl s).fetchStep
      · exact (expressInterest_fetchStep _ _ _ _).after rfl ⟨[], by simp, by simp⟩
  | segment n => exact NF.fetchStep (NF.quiet rfl rfl rfl rfl)
  | segmentGone n => exact NF.fetchStep (NF.quiet rfl rfl rfl rfl)
  | interest n v =>
    show FetchStep s (if n.length ≤ maxComponents then s.processInterest c n v else s)
    split
    · exact (processInterest_nf c s n v).fetchStep
    · exact (NF.refl s).fetchStep
  | fifoGone n => exact NF.fetchStep (NF.quiet rfl rfl rfl rfl)

end Lsdb
open Lsdb

/-- The highest number known for an LSA name never decreases. -/
theorem C32_highest_monotone (c : LConf) (s : Lsdb) (ops : List Op) (n : Name) (h : Nat)
    (hh : s.highestOf n = some h) : ∃ h', (run c s ops).highestOf n = some h' ∧ h ≤ h' := by
  induction ops generalizing s h with
  | nil => exact ⟨h, hh, Nat.le_refl _⟩
  | cons op ops ih =>
    obtain ⟨h1, h2, h3⟩ := (step_fetchStep c s op).mono n h hh
    obtain ⟨h4, h5, h6⟩ := ih (step c s op) h1 h2
    exact ⟨h4, h5, Nat.le_trans h3 h6⟩

/-- Every LSA interest is for a number at least as high as any known for that LSA name when it is sent;
so over a run the numbers asked for under one name never decrease. -/
theorem C32_interests_ordered {c : LConf} {s : Lsdb} (h : Reachable c s) :
    s.log.Pairwise (fun a b => ∀ n k k', a = .interest n k → b = .interest n k' → k ≤ k') ∧
    ∀ n k, .interest n k ∈ s.log → ∃ x, s.highestOf n = some x ∧ k ≤ x := by
  obtain ⟨disk, adjs, npl, sys, ops, rfl⟩ := h
  have hinit : Logs (fun o => Out.isInterest o = false) (boot c disk adjs npl sys) (init c disk adjs npl sys) := by
    unfold init
    dsimp only
    split
    · exact (buildName_nf c _).log
    · exact ((buildName_nf c _).trans (buildCoord_nf c _)).log
  have hno : ∀ {a b : List Out}, (∀ o ∈ b, Out.isInterest o = false) →
      a.Pairwise (fun a b => ∀ n k k', a = .interest n k → b = .interest n k' → k ≤ k') →
      (a ++ b).Pairwise (fun a b => ∀ n k k', a = .interest n k → b = .interest n k' → k ≤ k') := by
    intro a b hb ha
    rw [List.pairwise_append]
    refine ⟨ha, ?_, ?_⟩
    · refine List.Pairwise.imp_of_mem (R := fun _ _ => True) ?_ ?_
      · intro x y hx hy _ n k k' h1
        have := hb x hx
        rw [h1] at this
        cases this
      · exact List.pairwise_of_forall (fun _ _ => trivial)
    · intro x hx y hy n k k' h1 h2
      have := hb y hy
      rw [h2] at this
      cases this
  have base : (init c disk adjs npl sys).log.Pairwise
        (fun a b => ∀ n k k', a = .interest n k → b = .interest n k' → k ≤ k') ∧
      ∀ n k, .interest n k ∈ (init c disk adjs npl sys).log →
        ∃ x, (init c disk adjs npl sys).highestOf n = some x ∧ k ≤ x := by
    obtain ⟨outs, h1, h2⟩ := hinit
    rw [h1]
    refine ⟨hno h2 (by simp [boot]), ?_⟩
    intro n k hm
    rcases List.mem_append.1 hm with hm | hm
    · simp [boot] at hm
    · have := h2 _ hm; cases this
  generalize init c disk adjs npl sys = s at base
  induction ops generalizing s with
  | nil => exact base
  | cons op ops ih =>
    refine ih (step c s op) ?_
    have hf := step_fetchStep c s op
    obtain ⟨b1, b2⟩ := base
    have hkeep : ∀ n k, .interest n k ∈ s.log → ∃ x, (step c s op).highestOf n = some x ∧ k ≤ x := by
      intro n k hm
      obtain ⟨x, hx, hle⟩ := b2 n k hm
      obtain ⟨y, hy, hle'⟩ := hf.mono n x hx
      exact ⟨y, hy, Nat.le_trans hle hle'⟩
    rcases hf.log with ⟨outs, h1, h2⟩ | ⟨s0, n, k, d, ⟨outs, h1, h2⟩, h3, h4, h5, -⟩
    · rw [h1]
      refine ⟨hno h2 b1, ?_⟩
      intro n k hm
      rcases List.mem_append.1 hm with hm | hm
      · exact hkeep n k hm
      · have := h2 _ hm; cases this
    · rw [h3, h1]
      constructor
      · rw [List.pairwise_append]
        refine ⟨hno h2 b1, by simp, ?_⟩
        intro x hx y hy n' k1 k2 e1 e2
        simp only [List.mem_singleton] at hy
        rw [hy] at e2
        cases e2
        rw [e1] at hx
        rcases List.mem_append.1 hx with hx | hx
        · obtain ⟨z, hz, hle⟩ := b2 _ _ hx
          exact Nat.le_trans hle (h5 z hz)
        · have := h2 _ hx; cases this
      · intro n' k' hm
        rcases List.mem_append.1 hm with hm | hm
        · rcases List.mem_append.1 hm with hm | hm
          · exact hkeep n' k' hm
          · have := h2 _ hm; cases this
        · simp only [List.mem_singleton] at hm
          cases hm
          exact ⟨k, h4, Nat.le_refl _⟩

/-- A failed fetch is scheduled again iff its deadline has not passed and no higher number has become
known; the retry keeps name, number and deadline, and is due at once after a timeout and after the
interest lifetime otherwise.  Nothing else happens. -/
theorem C32_retry (c : LConf) (s : Lsdb) (i : Nat) (timeout : Bool) (f : Fetch) (hf : s.fetches[i]? = some f) :
    (s.now < f.deadline ∧ s.highestOf f.lsaName = some f.seq →
      (step c s (.fetchError i timeout)).retries =
        s.retries ++ [(s.now + if timeout then 0 else c.lifetime * 1000000000, f)]) ∧
    (f.deadline ≤ s.now ∨ (∃ h, s.highestOf f.lsaName = some h ∧ f.seq < h) →
      (step c s (.fetchError i timeout)).retries = s.retries) ∧
    (step c s (.fetchError i timeout)).log = s.log ∧
    (step c s (.fetchError i timeout)).fetches = s.fetches.eraseIdx i := by
  have hstep : step c s (.fetchError i timeout) = fetchFailed c { s with fetches := s.fetches.eraseIdx i } f timeout := by
    show fetchError c s i timeout = _
    unfold fetchError
    rw [hf]
  have hh : ({ s with fetches := s.fetches.eraseIdx i } : Lsdb).highestOf f.lsaName = s.highestOf f.lsaName := rfl
  rw [hstep]
  unfold fetchFailed
  rw [hh]
  refine ⟨?_, ?_, ?_, ?_⟩
  · intro h1
    rw [if_pos h1]
    rfl
  · intro h1
    rw [if_neg]
    rintro ⟨h2, h3⟩
    rcases h1 with h1 | ⟨h, h4, h5⟩
    · exact absurd h2 (Nat.not_lt.2 h1)
    · rw [h3] at h4; cases h4; omega
  · split <;> rfl
  · split <;> rfl

/-- A scheduled retry that is due asks again with the same number, unless a higher one is known by
then; in that case it does nothing but disappear. -/
theorem C32_retry_fires (c : LConf) (s : Lsdb) (i due : Nat) (f : Fetch) (hf : s.retries[i]? = some (due, f))
    (hdue : due ≤ s.now) :
    (step c s (.retryTimer i)).retries = s.retries.eraseIdx i ∧
    ((∃ h, s.highestOf f.lsaName = some h ∧ f.seq < h) →
      (step c s (.retryTimer i)).log = s.log ∧ (step c s (.retryTimer i)).fetches = s.fetches) ∧
    ((∀ h, s.highestOf f.lsaName = some h → h ≤ f.seq) →
      (step c s (.retryTimer i)).log = s.log ++ [.interest f.lsaName f.seq] ∧
      (step c s (.retryTimer i)).fetches = s.fetches ++ [f]) := by
  have hstep : step c s (.retryTimer i) =
      expressInterest { s with retries := s.retries.eraseIdx i } f.lsaName f.seq f.deadline := by
    show retryTimer s i = _
    unfold retryTimer
    rw [hf]
    dsimp only
    rw [if_neg (by omega)]
  have hh : ({ s with retries := s.retries.eraseIdx i } : Lsdb).highestOf f.lsaName = s.highestOf f.lsaName := rfl
  rw [hstep]
  rcases noteSeq_spec { s with retries := s.retries.eraseIdx i } f.lsaName f.seq with
    ⟨s1, h0, h1, h2, h3, h4, h5, h6, h7, h8⟩ | ⟨h0, h1⟩
  · unfold expressInterest
    rw [h0]
    rw [hh] at h1
    refine ⟨h5, ?_, ?_⟩
    · rintro ⟨h, h9, h10⟩
      exact absurd (h1 h h9) (by omega)
    · intro _
      refine ⟨?_, ?_⟩
      · show s1.log ++ _ = _; rw [h6]
      · show s1.fetches ++ _ = _; rw [h4]
  · unfold expressInterest
    rw [h0]
    rw [hh] at h1
    refine ⟨rfl, fun _ => ⟨rfl, rfl⟩, ?_⟩
    intro h2
    obtain ⟨h, h3, h4⟩ := h1
    exact absurd (h2 h h3) (by omega)

/-- Data fetched for a number below the highest known one is dropped: nothing is installed, signalled or
sent. -/
theorem C32_outdated_data (c : LConf) (s : Lsdb) (i : Nat) (p : Option Lsa) (f : Fetch) (h : Nat)
    (hf : s.fetches[i]? = some f) (hh : s.highestOf f.lsaName = some h) (hlt : f.seq < h) :
    (step c s (.fetched i p)).db = s.db ∧ (step c s (.fetched i p)).log = s.log ∧
    (step c s (.fetched i p)).events = s.events := by
  show (fetched c s i p).db = _ ∧ (fetched c s i p).log = _ ∧ (fetched c s i p).events = _
  unfold fetched
  rw [hf]
  dsimp only
  unfold fetchDone
  dsimp only
  generalize hs0 : ({ s with
      storage := List.filter (fun n => !Name.isPrefixOf
        (f.lsaName ++ [Comp.number ((f.seq + 18446744073709551615) % 18446744073709551616)]) n) s.storage
      fetches := s.fetches.eraseIdx i } : Lsdb) = s0
  have hh0 : s0.highestOf f.lsaName = some h := by rw [← hs0]; exact hh
  rcases noteSeq_spec s0 f.lsaName f.seq with ⟨s1, h0, h1, -⟩ | ⟨h0, -⟩
  · exact absurd (h1 h hh0) (by omega)
  · unfold afterFetch
    rw [h0]
    subst hs0
    exact ⟨rfl, rfl, rfl⟩

/-- Data for a higher number that arrives first makes the earlier fetch outdated. -/
def exOutdated : List Op :=
  [.sync (exUpdate "r2" "NAME") 3, .sync (exUpdate "r2" "NAME") 5, .fetchError 0 true,
   .fetched 0 (some ⟨exR2, 5, 9000000000000, .names []⟩)]

/-- Non-vacuity: two fetches of the same LSA name, numbers 3 and 5, the first one outdated; its error
schedules no retry. A failure of the newest one does. -/
example :
    let s := run (exConf .off) (exStart .off) (exOutdated.take 2)
    s.fetches.map (·.seq) = [3, 5] ∧ s.highestOf (exUpdate "r2" "NAME") = some 5 ∧
    (step (exConf .off) s (.fetchError 0 true)).retries = [] ∧
    (step (exConf .off) s (.fetchError 1 false)).retries =
      [(4000000000, ⟨exUpdate "r2" "NAME", 5, 7200000000000⟩)] ∧
    (step (exConf .off) s (.fetched 0 (some ⟨exR2, 3, 9000000000000, .names []⟩))).db = s.db ∧
    (run (exConf .off) (exStart .off) exOutdated).db.map (fun o => (o.lsa.origin, o.lsa.seq)) =
      [(exR1, 1), (exR2, 5)] := by
  decide +kernel

end Nlsr
