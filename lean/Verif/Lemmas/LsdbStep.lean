import Verif.Lemmas.LsdbInv
/- Every step other than a timer makes at most one change to the stored LSAs. -/
namespace Nlsr
namespace Lsdb

/-- A frame that also leaves the clocks alone. -/
structure FrameT (s s' : Lsdb) : Prop extends Frame s s' where
  now : s'.now = s.now
  sys : s'.sys = s.sys

theorem FrameT.refl (s : Lsdb) : FrameT s s := ⟨Frame.refl s, rfl, rfl⟩

theorem FrameT.trans {a b c : Lsdb} (h : FrameT a b) (h' : FrameT b c) : FrameT a c :=
  ⟨h.toFrame.trans h'.toFrame, h'.now.trans h.now, h'.sys.trans h.sys⟩

theorem FrameT.emit (s : Lsdb) (o : Out) (h : Out.isSignal o = false) : FrameT s (s.emit o) :=
  ⟨Frame.emit s o h, rfl, rfl⟩

theorem frameT_quiet {s s' : Lsdb} (h1 : s'.db = s.db) (h2 : s'.dead = s.dead) (h3 : s'.events = s.events)
    (h4 : s'.nextId = s.nextId) (h5 : s'.log = s.log) (h6 : s'.now = s.now) (h7 : s'.sys = s.sys) : FrameT s s' :=
  ⟨frame_quiet h1 h2 h3 h4 h5, h6, h7⟩

theorem announce_frameT (s : Lsdb) (t : LsaType) (b : Bool) : FrameT s (announce s t b) := by
  refine ⟨announce_frame s t b, ?_, ?_⟩ <;> unfold announce persist publish <;> dsimp only <;> split <;> rfl

theorem noteSeq_frameT {s s' : Lsdb} {n : Name} {k : Nat} (h : s.noteSeq n k = some s') : FrameT s s' := by
  refine ⟨noteSeq_frame h, ?_, ?_⟩ <;>
  · unfold noteSeq at h
    split at h
    · cases h; rfl
    · split at h
      · cases h; rfl
      · split at h
        · cases h
        · cases h; rfl

theorem expressInterest_frameT (s : Lsdb) (n : Name) (k d : Nat) : FrameT s (expressInterest s n k d) := by
  refine ⟨expressInterest_frame s n k d, ?_, ?_⟩ <;> unfold expressInterest <;> cases h : s.noteSeq n k with
  | none => rfl
  | some s1 => first | exact (noteSeq_frameT h).now | exact (noteSeq_frameT h).sys

theorem fetchError_frameT (c : LConf) (s : Lsdb) (i : Nat) (b : Bool) : FrameT s (fetchError c s i b) := by
  refine ⟨fetchError_frame c s i b, ?_, ?_⟩ <;> unfold fetchError <;> split <;>
    first | rfl | (unfold fetchFailed; split <;> rfl)

theorem retryTimer_frameT (s : Lsdb) (i : Nat) : FrameT s (retryTimer s i) := by
  refine ⟨retryTimer_frame s i, ?_, ?_⟩ <;> unfold retryTimer <;> split <;>
    first
    | rfl
    | (split
       · rfl
       · first | exact (expressInterest_frameT _ _ _ _).now | exact (expressInterest_frameT _ _ _ _).sys)

theorem replyOwn_time (c : LConf) (s : Lsdb) (n : Name) (t : LsaType) (k v : Nat) :
    (replyOwn c s n t k v).now = s.now ∧ (replyOwn c s n t k v).sys = s.sys := by
  unfold replyOwn
  split
  · exact ⟨rfl, rfl⟩
  · split
    · dsimp only
      split <;> exact ⟨rfl, rfl⟩
    · exact ⟨rfl, rfl⟩

theorem processStripped_time (c : LConf) (s : Lsdb) (n m : Name) (v : Nat) :
    (processStripped c s n m v).now = s.now ∧ (processStripped c s n m v).sys = s.sys := by
  unfold processStripped
  split
  · split
    · split
      · exact ⟨rfl, rfl⟩
      · split
        · exact ⟨rfl, rfl⟩
        · exact replyOwn_time _ _ _ _ _ _
    · exact ⟨rfl, rfl⟩
  · split <;> exact ⟨rfl, rfl⟩

theorem processInterest_frameT (c : LConf) (s : Lsdb) (n : Name) (v : Nat) :
    FrameT s (processInterest c s n v) := by
  have : (processInterest c s n v).now = s.now ∧ (processInterest c s n v).sys = s.sys := by
    unfold processInterest
    split
    · split
      · exact ⟨rfl, rfl⟩
      · split
        · split
          · exact ⟨rfl, rfl⟩
          · exact processStripped_time _ _ _ _ _
        · exact processStripped_time _ _ _ _ _
    · exact ⟨rfl, rfl⟩
  exact ⟨processInterest_frame c s n v, this.1, this.2⟩

/-- A change of the stored LSAs that is not a timer firing; removing is only possible under `rm`. -/
inductive Ch (c : LConf) (rm : Prop) : Lsdb → Lsdb → Prop
  | none (s : Lsdb) : Ch c rm s s
  | install (s : Lsdb) (l : Lsa) (h : l.content.norm = l.content) : Ch c rm s (installLsa c s l)
  | removeOwn (s : Lsdb) (h : rm) : Ch c rm s (removeLsa s c.router .adjacency)

/-- A framed change. -/
def One (c : LConf) (rm : Prop) (s s' : Lsdb) : Prop := ∃ s1 s2, FrameT s s1 ∧ Ch c rm s1 s2 ∧ FrameT s2 s'

theorem One.mono {c : LConf} {rm rm' : Prop} {s s' : Lsdb} (h : One c rm s s') (hi : rm → rm') : One c rm' s s' := by
  obtain ⟨a, b, h1, h2, h3⟩ := h
  refine ⟨a, b, h1, ?_, h3⟩
  cases h2 with
  | none => exact .none _
  | install l hn => exact .install _ l hn
  | removeOwn hr => exact .removeOwn _ (hi hr)

theorem One.frame {c : LConf} {rm : Prop} {s s' : Lsdb} (f : FrameT s s') : One c rm s s' := ⟨s', s', f, .none _, FrameT.refl _⟩

theorem One.refl {c : LConf} {rm : Prop} (s : Lsdb) : One c rm s s := One.frame (FrameT.refl s)

theorem One.ch {c : LConf} {rm : Prop} {s s' : Lsdb} (h : Ch c rm s s') : One c rm s s' := ⟨s, s', FrameT.refl _, h, FrameT.refl _⟩

theorem One.after {c : LConf} {rm : Prop} {s s1 s2 : Lsdb} (h : One c rm s1 s2) (f : FrameT s s1) : One c rm s s2 := by
  obtain ⟨a, b, h1, h2, h3⟩ := h
  exact ⟨a, b, f.trans h1, h2, h3⟩

theorem One.andThen {c : LConf} {rm : Prop} {s s1 s2 : Lsdb} (h : One c rm s s1) (f : FrameT s1 s2) : One c rm s s2 := by
  obtain ⟨a, b, h1, h2, h3⟩ := h
  exact ⟨a, b, h1, h2, h3.trans f⟩

theorem one_buildName (c : LConf) (s : Lsdb) : One c False s (buildName c s) := by
  unfold buildName
  refine One.after (One.ch (.install _ _ ?_)) (announce_frameT s _ _)
  exact norm_names.2 (PrefixMap.ofList_sorted _)

theorem one_buildCoord (c : LConf) (s : Lsdb) : One c False s (buildCoord c s) := by
  unfold buildCoord
  exact One.after (One.ch (.install _ _ rfl)) (announce_frameT s _ _)

theorem one_buildAdj (c : LConf) (s : Lsdb) : One c False s (buildAdj c s) := by
  unfold buildAdj
  refine One.after (One.ch (.install _ _ ?_)) (announce_frameT s _ _)
  exact norm_adj.2 (lsaList_names _)

theorem one_buildAdjLsa (c : LConf) (s : Lsdb) : One c (AdjacencyList.numActive s.adjs = 0) s (buildAdjLsa c s) := by
  unfold buildAdjLsa
  dsimp only
  split
  · refine One.after ?_ (s1 := { s with buildFlag := false, buildDue := none }) (frameT_quiet rfl rfl rfl rfl rfl rfl rfl)
    unfold buildOrRemove
    split
    · dsimp only
      split
      · exact One.andThen ((one_buildAdj c _).mono False.elim) (frameT_quiet rfl rfl rfl rfl rfl rfl rfl)
      · rename_i ha
        exact One.andThen (One.ch (.removeOwn _ (by simpa using ha))) (frameT_quiet rfl rfl rfl rfl rfl rfl rfl)
    · exact One.refl _
  · exact One.frame (frameT_quiet rfl rfl rfl rfl rfl rfl rfl)

theorem one_ownUpdate (c : LConf) (s : Lsdb) (t : LsaType) (k : Nat) : One c False s (ownUpdate c s t k) := by
  unfold ownUpdate
  split
  · exact One.after (one_buildName c _) (frameT_quiet rfl rfl rfl rfl rfl rfl rfl)
  · split
    · exact One.after (one_buildAdj c _) (frameT_quiet rfl rfl rfl rfl rfl rfl rfl)
    · exact One.refl _
  · split
    · exact One.after (one_buildCoord c _) (frameT_quiet rfl rfl rfl rfl rfl rfl rfl)
    · exact One.refl _
  · exact One.refl _

theorem one_processUpdate (c : LConf) (s : Lsdb) (n : Name) (k : Nat) (o : Name) (t : LsaType) :
    One c False s (processUpdate c s n k o t) := by
  unfold processUpdate
  split
  · split
    · exact one_ownUpdate c s t k
    · exact One.refl _
  · split
    · split
      · exact One.refl _
      · exact One.frame ((FrameT.emit _ _ rfl).trans (expressInterest_frameT _ _ _ _))
    · exact One.refl _

theorem one_afterFetch (c : LConf) (s : Lsdb) (f : Fetch) (p : Option Lsa)
    (hp : ∀ l, p = some l → l.content.norm = l.content) : One c False s (afterFetch c s f p) := by
  unfold afterFetch
  cases h : s.noteSeq f.lsaName f.seq with
  | none => exact One.refl _
  | some s1 =>
    have hf := One.frame (c := c) (rm := False) (noteSeq_frameT h)
    dsimp only
    split
    · exact hf
    · split
      · exact hf
      · unfold installFetched
        split
        · exact hf
        · split
          · exact One.after (One.ch (.install _ _ (hp _ rfl))) (noteSeq_frameT h)
          · exact hf

theorem one_fetched (c : LConf) (s : Lsdb) (i : Nat) (p : Option Lsa) : One c False s (fetched c s i p) := by
  unfold fetched
  split
  · exact One.refl _
  · unfold fetchDone
    dsimp only
    refine One.after (one_afterFetch c _ _ _ ?_) (frameT_quiet rfl rfl rfl rfl rfl rfl rfl)
    intro l hl
    simp only [Option.map_eq_some_iff] at hl
    obtain ⟨l', -, rfl⟩ := hl
    exact norm_norm _

/-- A step is a timer firing, the passing of time, or a framed single change. -/
theorem step_one (c : LConf) (s : Lsdb) (op : Op) :
    (∃ eid, op = .timer eid) ∨ (∃ dt sys, op = .clock dt sys) ∨
      One c (op = .buildTimer ∧ AdjacencyList.numActive s.adjs = 0) s (step c s op) := by
  cases op with
  | clock dt sys => exact Or.inr (Or.inl ⟨dt, sys, rfl⟩)
  | setAdjs l => exact Or.inr (Or.inr (One.frame (frameT_quiet rfl rfl rfl rfl rfl rfl rfl)))
  | setNpl l => exact Or.inr (Or.inr (One.frame (frameT_quiet rfl rfl rfl rfl rfl rfl rfl)))
  | buildName => exact Or.inr (Or.inr ((one_buildName c s).mono False.elim))
  | scheduleBuild =>
    refine Or.inr (Or.inr (One.frame ?_))
    show FrameT s (scheduleBuild c s)
    unfold scheduleBuild
    dsimp only
    split
    · exact frameT_quiet rfl rfl rfl rfl rfl rfl rfl
    · exact frameT_quiet rfl rfl rfl rfl rfl rfl rfl
  | buildTimer =>
    refine Or.inr (Or.inr ?_)
    show One c _ s (buildTimer c s)
    unfold buildTimer
    split
    · exact One.refl _
    · split
      · exact One.refl _
      · exact (one_buildAdjLsa c s).mono (fun h => ⟨rfl, h⟩)
  | timer eid => exact Or.inl ⟨eid, rfl⟩
  | sync n k =>
    refine Or.inr (Or.inr ?_)
    show One c _ s (sync c s n _)
    unfold sync
    split
    · exact (one_processUpdate c s _ _ _ _).mono False.elim
    · exact One.refl _
  | fetched i p => exact Or.inr (Or.inr ((one_fetched c s i p).mono False.elim))
  | fetchError i t => exact Or.inr (Or.inr (One.frame (fetchError_frameT c s i t)))
  | retryTimer i => exact Or.inr (Or.inr (One.frame (retryTimer_frameT s i)))
  | segment n => exact Or.inr (Or.inr (One.frame (frameT_quiet rfl rfl rfl rfl rfl rfl rfl)))
  | segmentGone n => exact Or.inr (Or.inr (One.frame (frameT_quiet rfl rfl rfl rfl rfl rfl rfl)))
  | interest n v =>
    refine Or.inr (Or.inr ?_)
    show One c _ s (if n.length ≤ maxComponents then s.processInterest c n v else s)
    split
    · exact One.frame (processInterest_frameT c s n v)
    · exact One.refl _
  | fifoGone n => exact Or.inr (Or.inr (One.frame (frameT_quiet rfl rfl rfl rfl rfl rfl rfl)))

/-- Members of the LSDB after an update of one object. -/
theorem mem_reschedule {c : LConf} {s : Lsdb} {x : Option Nat} (h : InvW c s x) {o o' : Obj} (secs : Nat)
    (ho : o ∈ s.db) (h1 : o'.oid = o.oid) (y : Obj) :
    y ∈ (reschedule s o' secs).db ↔ y = { o' with evt := s.nextId } ∨ (y ∈ s.db ∧ y ≠ o) := by
  show y ∈ setObj s.db { o' with evt := s.nextId } ↔ _
  rw [mem_setObj]
  constructor
  · rintro (⟨rfl, -⟩ | ⟨h5, h6⟩)
    · exact Or.inl rfl
    · refine Or.inr ⟨h5, ?_⟩
      rintro rfl
      exact h6 h1.symm
  · rintro (rfl | ⟨h5, h6⟩)
    · exact Or.inl ⟨rfl, o, ho, h1.symm⟩
    · refine Or.inr ⟨h5, ?_⟩
      intro he
      exact h6 (h.uniq (List.mem_append_left _ h5) (List.mem_append_left _ ho) (he.trans h1))

theorem mem_removeLsa {s : Lsdb} {r : Name} {t : LsaType} (y : Obj) :
    y ∈ (removeLsa s r t).db ↔ y ∈ s.db ∧ ¬ (y.lsa.origin = r ∧ y.lsa.type = t) := by
  unfold removeLsa
  cases hf : s.find r t with
  | none =>
    have := find_none hf
    constructor
    · intro hy; exact ⟨hy, this y hy⟩
    · exact fun hy => hy.1
  | some o =>
    show y ∈ s.db.filter (fun x => !isKey r t x) ↔ _
    rw [List.mem_filter]
    refine and_congr_right fun _ => ?_
    rw [← isKey_iff]
    simp

/-- Installing: what the LSDB contains afterwards. -/
inductive InstallCase (c : LConf) (s : Lsdb) (l : Lsa) : Lsdb → Prop
  | rejected (o : Obj) (hf : s.find l.origin l.type = some o) (h : l.seq ≤ o.lsa.seq) : InstallCase c s l s
  | fresh (hf : s.find l.origin l.type = none) : InstallCase c s l (installNew s l (timeToExpire c s l))
  | newer (o : Obj) (hf : s.find l.origin l.type = some o) (h : o.lsa.seq < l.seq) :
      InstallCase c s l (installUpdate s o l (timeToExpire c s l))

theorem install_cases (c : LConf) (s : Lsdb) (l : Lsa) : InstallCase c s l (installLsa c s l) := by
  unfold installLsa
  dsimp only
  split
  · rename_i hf; exact .fresh hf
  · rename_i o hf
    split
    · rename_i h; exact .newer o hf h
    · rename_i h; exact .rejected o hf (by omega)

theorem installUpdate_db (s : Lsdb) (o : Obj) (l : Lsa) (secs : Nat) :
    (installUpdate s o l secs).db = (reschedule s
      { o with lsa := ⟨o.lsa.origin, l.seq, l.exp, (o.lsa.content.update l.content).content⟩ } secs).db := by
  unfold installUpdate
  dsimp only
  split <;> rfl

theorem installUpdate_events (s : Lsdb) (o : Obj) (l : Lsa) (secs : Nat) :
    (installUpdate s o l secs).events = (reschedule s
      { o with lsa := ⟨o.lsa.origin, l.seq, l.exp, (o.lsa.content.update l.content).content⟩ } secs).events := by
  unfold installUpdate
  dsimp only
  split <;> rfl

theorem mem_installUpdate {c : LConf} {s : Lsdb} (h : Inv c s) {o : Obj} (ho : o ∈ s.db) (l : Lsa) (secs : Nat)
    (y : Obj) : y ∈ (installUpdate s o l secs).db ↔
      y = ⟨o.oid, ⟨o.lsa.origin, l.seq, l.exp, (o.lsa.content.update l.content).content⟩, s.nextId⟩ ∨
      (y ∈ s.db ∧ y ≠ o) := by
  rw [installUpdate_db]
  exact mem_reschedule h (o' := { o with lsa := ⟨o.lsa.origin, l.seq, l.exp, (o.lsa.content.update l.content).content⟩ })
    secs ho rfl y

theorem mem_refresh {c : LConf} {s : Lsdb} {x : Option Nat} (h : InvW c s x) {o : Obj} (ho : o ∈ s.db) (y : Obj) :
    y ∈ (refresh c s o).db ↔
      y = { o with lsa := { o.lsa with seq := inc64 o.lsa.seq, exp := s.expirationPoint c }, evt := s.nextId } ∨
      (y ∈ s.db ∧ y ≠ o) := by
  have := mem_reschedule (s := { s with seqs := s.seqs.set o.lsa.type (inc64 o.lsa.seq) }) (x := x)
    (h.frame (frame_quiet rfl rfl rfl rfl rfl)) (o := o)
    (o' := { o with lsa := { o.lsa with seq := inc64 o.lsa.seq, exp := s.expirationPoint c } }) c.refresh ho rfl y
  exact this

theorem find_iff {c : LConf} {s : Lsdb} {x : Option Nat} (h : InvW c s x) {r : Name} {t : LsaType} {o : Obj} :
    s.find r t = some o ↔ o ∈ s.db ∧ o.lsa.origin = r ∧ o.lsa.type = t := by
  constructor
  · exact find_some
  · rintro ⟨h1, rfl, rfl⟩
    exact find_of_mem h h1

theorem find_none_iff {s : Lsdb} {r : Name} {t : LsaType} :
    s.find r t = none ↔ ∀ o ∈ s.db, ¬ (o.lsa.origin = r ∧ o.lsa.type = t) := by
  constructor
  · exact find_none
  · intro h
    unfold find
    rw [List.find?_eq_none]
    intro o ho hk
    exact h o ho (isKey_iff.1 hk)

/-- Two states agree on a key if their members with that key are the same. -/
theorem find_congr {c : LConf} {s s' : Lsdb} (h' : Inv c s') {r : Name} {t : LsaType}
    (he : ∀ o, o.lsa.origin = r → o.lsa.type = t → (o ∈ s'.db ↔ o ∈ s.db)) : s'.find r t = s.find r t := by
  cases hf : s.find r t with
  | none =>
    rw [find_none_iff] at hf ⊢
    intro o ho hk
    exact hf o ((he o hk.1 hk.2).1 ho) hk
  | some o =>
    obtain ⟨h1, h2, h3⟩ := find_some hf
    exact (find_iff h').2 ⟨(he o h2 h3).2 h1, h2, h3⟩

/-- Induction over the reachable states. -/
theorem Reachable.induct {c : LConf} {P : Lsdb → Prop}
    (hboot : ∀ disk adjs npl sys, P (boot c disk adjs npl sys))
    (hframe : ∀ s s', P s → Frame s s' → P s')
    (hinst : ∀ s l, Inv c s → P s → l.content.norm = l.content → P (installLsa c s l))
    (hrem : ∀ s, Inv c s → P s → P (removeLsa s c.router .adjacency))
    (hfire : ∀ s eid, Inv c s → P s → P (fire c s eid))
    {s : Lsdb} (h : Reachable c s) : P s := by
  obtain ⟨disk, adjs, npl, sys, t⟩ := h.trs
  clear h
  have key : Inv c s ∧ P s := by
    induction t with
    | refl => exact ⟨boot_inv .., hboot ..⟩
    | tail _ h2 ih =>
      refine ⟨tr_inv ih.1 h2, ?_⟩
      cases h2 with
      | frame f => exact hframe _ _ ih.2 f
      | install l hn => exact hinst _ l ih.1 ih.2 hn
      | removeOwn => exact hrem _ ih.1 ih.2
      | fire eid => exact hfire _ eid ih.1 ih.2
  exact key.2

end Lsdb
end Nlsr
