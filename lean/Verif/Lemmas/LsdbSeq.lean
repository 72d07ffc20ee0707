import Verif.Lemmas.LsdbKeep
/- What a step does to the router's own sequence numbers. -/
namespace Nlsr
namespace Lsdb

/-- The stored number of an LSA. -/
def storedAt (s : Lsdb) (r : Name) (t : LsaType) : Option Nat := (s.find r t).map (·.lsa.seq)

theorem storedAt_frame {s s' : Lsdb} (h : s'.db = s.db) (r : Name) (t : LsaType) : storedAt s' r t = storedAt s r t := by
  unfold storedAt find; rw [h]

theorem storedAt_congr {c : LConf} {s s' : Lsdb} (h' : Inv c s') {r : Name} {t : LsaType}
    (he : ∀ o, o.lsa.origin = r → o.lsa.type = t → (o ∈ s'.db ↔ o ∈ s.db)) : storedAt s' r t = storedAt s r t := by
  unfold storedAt; rw [find_congr h' he]

theorem isLsaNew_iff {s : Lsdb} {r : Name} {t : LsaType} {n : Nat} :
    s.isLsaNew r t n = true ↔ ∀ p, storedAt s r t = some p → p < n := by
  unfold isLsaNew storedAt
  cases s.find r t with
  | none => simp
  | some o => simp

theorem storedAt_install {c : LConf} {s : Lsdb} (h : Inv c s) (l : Lsa) (hn : l.content.norm = l.content) :
    (∃ m, storedAt (installLsa c s l) l.origin l.type = some m ∧ l.seq ≤ m ∧
      ((m = l.seq ∧ ∀ p, storedAt s l.origin l.type = some p → p < l.seq) ∨ storedAt s l.origin l.type = some m)) ∧
    ∀ r t, ¬ (r = l.origin ∧ t = l.type) → storedAt (installLsa c s l) r t = storedAt s r t := by
  have hi := install_inv h l hn
  have hc := install_cases c s l
  generalize installLsa c s l = s' at hc hi
  cases hc with
  | rejected o hf hle =>
    refine ⟨⟨o.lsa.seq, ?_, hle, Or.inr ?_⟩, fun _ _ _ => rfl⟩
    all_goals unfold storedAt; rw [hf]; rfl
  | fresh hf =>
    have hmem : ∀ y, y ∈ (installNew s l (timeToExpire c s l)).db ↔ y = ⟨s.nextId, l, s.nextId + 1⟩ ∨ y ∈ s.db := by
      intro y
      show y ∈ s.db ++ [_] ↔ _
      rw [List.mem_append, List.mem_singleton]; exact or_comm
    refine ⟨⟨l.seq, ?_, Nat.le_refl _, Or.inl ⟨rfl, ?_⟩⟩, ?_⟩
    · have : (installNew s l (timeToExpire c s l)).find l.origin l.type = some ⟨s.nextId, l, s.nextId + 1⟩ :=
        (find_iff hi).2 ⟨(hmem _).2 (Or.inl rfl), rfl, rfl⟩
      unfold storedAt; rw [this]; rfl
    · intro p hp; unfold storedAt at hp; rw [hf] at hp; cases hp
    · intro r t hk
      refine storedAt_congr hi ?_
      intro o h1 h2
      rw [hmem]
      constructor
      · rintro (rfl | h3)
        · exact absurd ⟨h1.symm, h2.symm⟩ hk
        · exact h3
      · exact Or.inr
  | newer o hf hlt =>
    obtain ⟨ho, hr, ht⟩ := find_some hf
    have hmem := mem_installUpdate h ho l (timeToExpire c s l)
    refine ⟨⟨l.seq, ?_, Nat.le_refl _, Or.inl ⟨rfl, ?_⟩⟩, ?_⟩
    · have : (installUpdate s o l (timeToExpire c s l)).find l.origin l.type =
          some ⟨o.oid, ⟨o.lsa.origin, l.seq, l.exp, (o.lsa.content.update l.content).content⟩, s.nextId⟩ :=
        (find_iff hi).2 ⟨(hmem _).2 (Or.inl rfl), hr, (Content.update_type _ _).trans ht⟩
      unfold storedAt; rw [this]; rfl
    · intro p hp; unfold storedAt at hp; rw [hf] at hp; cases hp; exact hlt
    · intro r t hk
      refine storedAt_congr hi ?_
      intro y h1 h2
      rw [hmem]
      constructor
      · rintro (rfl | h3)
        · exact absurd ⟨h1.symm.trans hr, h2.symm.trans ((Content.update_type _ _).trans ht)⟩ hk
        · exact h3.1
      · intro hy
        refine Or.inr ⟨hy, ?_⟩
        rintro rfl
        exact hk ⟨h1.symm.trans hr, h2.symm.trans ht⟩

theorem storedAt_refresh {c : LConf} {s : Lsdb} {x : Option Nat} (h : InvW c s x) {o : Obj} (ho : o ∈ s.db)
    (hx : x = none ∨ x = some o.oid) :
    storedAt (refresh c s o) o.lsa.origin o.lsa.type = some (inc64 o.lsa.seq) ∧
    ∀ r t, ¬ (r = o.lsa.origin ∧ t = o.lsa.type) → storedAt (refresh c s o) r t = storedAt s r t := by
  have hi := refresh_inv h ho hx
  have hmem := mem_refresh h ho
  constructor
  · have : (refresh c s o).find o.lsa.origin o.lsa.type = some
        { o with lsa := { o.lsa with seq := inc64 o.lsa.seq, exp := s.expirationPoint c }, evt := s.nextId } :=
      (find_iff hi).2 ⟨(hmem _).2 (Or.inl rfl), rfl, rfl⟩
    unfold storedAt; rw [this]; rfl
  · intro r t hk
    refine storedAt_congr hi ?_
    intro y h1 h2
    rw [hmem]
    constructor
    · rintro (rfl | h3)
      · exact absurd ⟨h1.symm, h2.symm⟩ hk
      · exact h3.1
    · intro hy
      refine Or.inr ⟨hy, ?_⟩
      rintro rfl
      exact hk ⟨h1.symm, h2.symm⟩

theorem storedAt_remove {s : Lsdb} (r : Name) (t : LsaType) :
    storedAt (removeLsa s r t) r t = none ∧
    ∀ r' t', ¬ (r' = r ∧ t' = t) → storedAt (removeLsa s r t) r' t' = storedAt s r' t' := by
  constructor
  · unfold storedAt
    rw [find_none_iff.2]
    · rfl
    · intro o ho; exact ((mem_removeLsa o).1 ho).2
  · intro r' t' hk
    unfold storedAt
    congr 1
    unfold removeLsa
    cases hf : s.find r t with
    | none => rfl
    | some o =>
      show (s.db.filter (fun x => !isKey r t x)).find? (isKey r' t') = s.db.find? (isKey r' t')
      rw [List.find?_filter]
      congr 1
      funext x
      by_cases hx : isKey r' t' x = true
      · have : isKey r t x = false := by
          rw [Bool.eq_false_iff]
          intro h2
          exact hk ⟨(isKey_iff.1 hx).1.symm.trans (isKey_iff.1 h2).1, (isKey_iff.1 hx).2.symm.trans (isKey_iff.1 h2).2⟩
        simp [hx, this]
      · simp [hx]

/-- Outputs concerning the own numbers. -/
def Out.isSeq : Out → Bool
  | .persist .. | .publish .. => true
  | _ => false

/-- Where a newly announced number comes from (it is the successor of `b`). -/
inductive Source (c : LConf) (s : Lsdb) (op : Op) (t : LsaType) (b : Nat) : Prop
  /-- the LSA is built anew: the counter -/
  | build (h : b = s.seqs.get t)
      (hop : (op = .buildName ∧ t = .name) ∨ (op = .buildTimer ∧ t = .adjacency ∧ c.hyp ≠ .on))
  /-- sync reported a number that is higher than the stored one -/
  | adopt (u : Name) (k : Nat) (last : Comp) (hop : op = .sync u k) (hb : b = k % 18446744073709551616)
      (hu : syncOrigin u = some c.router) (hl : u.fromEnd 1 = some last) (ht : LsaType.ofComp last = t)
      (hnew : ∀ p, storedAt s c.router t = some p → p < b)
      (hmode : t = .name ∨ (t = .adjacency ∧ c.hyp = .off) ∨ (t = .coordinate ∧ c.hyp = .on))
  /-- the refresh timer: the stored number -/
  | refresh (eid : Nat) (hop : op = .timer eid) (hb : storedAt s c.router t = some b)

/-- A number is written to disk and announced; `b` is its predecessor. -/
structure Announced (c : LConf) (s s' : Lsdb) (t : LsaType) (b : Nat) : Prop where
  type : t ≠ .base
  seqs : s'.seqs = s.seqs.set t (inc64 b)
  log : ∃ outs, s'.log = s.log ++ .persist s'.seqs :: .publish t (inc64 b) :: outs ∧ ∀ o ∈ outs, Out.isSeq o = false
  own : storedAt s' c.router t = some (inc64 b) ∨
    (∃ m, storedAt s c.router t = some m ∧ storedAt s' c.router t = some m ∧ inc64 b ≤ m)
  rest : ∀ t', t' ≠ t → storedAt s' c.router t' = storedAt s c.router t'

/-- No number is written or announced. -/
structure Quiet (c : LConf) (s : Lsdb) (op : Op) (s' : Lsdb) : Prop where
  seqs : s'.seqs = s.seqs
  log : Logs (fun o => Out.isSeq o = false) s s'
  own : ∀ t, storedAt s' c.router t = storedAt s c.router t ∨
    (t = .adjacency ∧ op = .buildTimer ∧ storedAt s' c.router t = none) ∨
    (∃ i l, op = .fetched i (some l) ∧ l.origin = c.router ∧ l.type = t ∧
      storedAt s' c.router t = some (l.seq % 18446744073709551616) ∧
      ∀ p, storedAt s c.router t = some p → p < l.seq % 18446744073709551616)

inductive SeqStep (c : LConf) (s : Lsdb) (op : Op) (s' : Lsdb) : Prop
  | quiet (h : Quiet c s op s')
  | announced (t : LsaType) (b : Nat) (src : Source c s op t b) (h : Announced c s s' t b)

theorem Seqs.set_set (q : Seqs) (t : LsaType) (a b : Nat) : (q.set t a).set t b = q.set t b := by
  cases t <;> rfl

theorem Seqs.get_set_self (q : Seqs) (t : LsaType) (n : Nat) (h : t ≠ .base) : (q.set t n).get t = n := by
  cases t <;> first | rfl | exact absurd rfl h

theorem Seqs.get_set_ne (q : Seqs) {t t' : LsaType} (n : Nat) (h : t' ≠ t) : (q.set t n).get t' = q.get t' := by
  cases t <;> cases t' <;> first | rfl | exact absurd rfl h

/-- Increase the counter, write, announce, install. -/
theorem announced_build {c : LConf} {s : Lsdb} (hi : Inv c s) (t : LsaType) (b : Nat) (ht : t ≠ .base) (l : Lsa)
    (h1 : l.origin = c.router) (h2 : l.type = t) (h3 : l.seq = inc64 b) (hn : l.content.norm = l.content) :
    Announced c s (installLsa c (announce { s with seqs := s.seqs.set t b } t true) l) t b := by
  have hb : (s.seqs.set t b).get t = b := Seqs.get_set_self _ _ _ ht
  have e := announce_eq { s with seqs := s.seqs.set t b } t true ht
  dsimp only at e
  rw [hb, Seqs.set_set, if_pos rfl] at e
  have hi1 : Inv c (announce { s with seqs := s.seqs.set t b } t true) := by
    rw [e]
    refine hi.frame ⟨rfl, rfl, rfl, rfl, _, rfl, ?_⟩
    simp [Out.isSignal]
  have hsig := installLsa_sig c (announce { s with seqs := s.seqs.set t b } t true) l
  have hst := storedAt_install hi1 l hn
  have hdb : ∀ r t', storedAt (announce { s with seqs := s.seqs.set t b } t true) r t' = storedAt s r t' := by
    intro r t'
    rw [e]; rfl
  have hseq : (installLsa c (announce { s with seqs := s.seqs.set t b } t true) l).seqs = s.seqs.set t (inc64 b) := by
    rw [hsig.seqs, e]
  refine ⟨ht, hseq, ?_, ?_, ?_⟩
  · obtain ⟨o, h4, h5⟩ := hsig.log
    refine ⟨o, ?_, ?_⟩
    · rw [hseq, h4, e]; simp
    · intro x hx
      have := h5 x hx
      cases x <;> simp_all [Out.isSignal, Out.isSeq]
  · obtain ⟨⟨m, h4, h5, h6⟩, -⟩ := hst
    rw [h1, h2] at h4
    rw [h1, h2, h3] at h6
    rcases h6 with ⟨h6, -⟩ | h6
    · exact Or.inl (by rw [h4, h6])
    · exact Or.inr ⟨m, by rw [← hdb]; exact h6, h4, h3 ▸ h5⟩
  · intro t' ht'
    rw [hst.2 c.router t' (by rw [h2]; exact fun hk => ht' hk.2), hdb]

theorem buildName_announced {c : LConf} {s : Lsdb} (hi : Inv c s) (b : Nat) :
    Announced c s (buildName c { s with seqs := s.seqs.set .name b }) .name b :=
  announced_build hi .name b (by simp) _ rfl rfl rfl (norm_names.2 (PrefixMap.ofList_sorted _))

theorem buildCoord_announced {c : LConf} {s : Lsdb} (hi : Inv c s) (hh : c.hyp ≠ .off) (b : Nat) :
    Announced c s (buildCoord c { s with seqs := s.seqs.set .coordinate b }) .coordinate b := by
  have := announced_build hi .coordinate b (by simp)
    ⟨c.router, inc64 b, expirationPoint c s, .coord c.radius c.angles⟩ rfl rfl rfl rfl
  have e : decide (c.hyp ≠ .off) = true := by simpa using hh
  unfold buildCoord
  dsimp only
  rw [e]
  exact this

theorem buildAdj_announced {c : LConf} {s : Lsdb} (hi : Inv c s) (hh : c.hyp ≠ .on) (b : Nat) :
    Announced c s (buildAdj c { s with seqs := s.seqs.set .adjacency b }) .adjacency b := by
  have := announced_build hi .adjacency b (by simp)
    ⟨c.router, inc64 b, expirationPoint c s, .adj (AdjacencyList.lsaList s.adjs)⟩ rfl rfl rfl
    (norm_adj.2 (lsaList_names _))
  have e : decide (c.hyp ≠ .on) = true := by simpa using hh
  unfold buildAdj
  dsimp only
  rw [e]
  exact this

/-- Framing. -/
structure Still (s s' : Lsdb) : Prop where
  db : s'.db = s.db
  seqs : s'.seqs = s.seqs
  log : Logs (fun o => Out.isSeq o = false) s s'

theorem Still.quiet {c : LConf} {s s' : Lsdb} (h : Still s s') (op : Op) : SeqStep c s op s' :=
  .quiet ⟨h.seqs, h.log, fun _ => Or.inl (storedAt_frame h.db _ _)⟩

theorem Still.refl (s : Lsdb) : Still s s := ⟨rfl, rfl, Logs.refl s⟩

theorem Still.trans {a b d : Lsdb} (h : Still a b) (h' : Still b d) : Still a d :=
  ⟨h'.db.trans h.db, h'.seqs.trans h.seqs, h.log.trans h'.log⟩

theorem Still.after {a b d : Lsdb} (h' : Still b d) (h : Still a b) : Still a d := h.trans h'

theorem Still.of {s s' : Lsdb} (h1 : s'.db = s.db) (h2 : s'.seqs = s.seqs) (h3 : s'.log = s.log) : Still s s' :=
  ⟨h1, h2, [], by simp [h3], by simp⟩

theorem Still.mk_quiet {c : LConf} {s s' : Lsdb} {op : Op} (h1 : s'.db = s.db) (h2 : s'.seqs = s.seqs)
    (h3 : s'.log = s.log) : SeqStep c s op s' := (Still.of h1 h2 h3).quiet op

theorem noteSeq_still {s s1 : Lsdb} {n : Name} {k : Nat} (h : s.noteSeq n k = some s1) : Still s s1 := by
  unfold noteSeq at h
  split at h
  · cases h; exact Still.of rfl rfl rfl
  · split at h
    · cases h; exact Still.of rfl rfl rfl
    · split at h
      · cases h
      · cases h; exact Still.refl _

theorem expressInterest_still (s : Lsdb) (n : Name) (k d : Nat) : Still s (expressInterest s n k d) := by
  unfold expressInterest
  split
  · exact Still.refl _
  · rename_i s1 h
    exact (noteSeq_still h).trans ⟨rfl, rfl, [_], rfl, by simp [Out.isSeq]⟩

theorem replyOwn_still (c : LConf) (s : Lsdb) (n : Name) (t : LsaType) (k v : Nat) : Still s (replyOwn c s n t k v) := by
  unfold replyOwn
  split
  · exact Still.refl _
  · split
    · dsimp only
      split
      · exact ⟨rfl, rfl, [_], rfl, by simp [Out.isSeq]⟩
      · exact Still.of rfl rfl rfl
    · exact Still.refl _

theorem processStripped_still (c : LConf) (s : Lsdb) (n m : Name) (v : Nat) : Still s (processStripped c s n m v) := by
  unfold processStripped
  split
  · split
    · split
      · exact ⟨rfl, rfl, [_], rfl, by simp [Out.isSeq]⟩
      · split
        · exact Still.refl _
        · exact replyOwn_still _ _ _ _ _ _
    · exact ⟨rfl, rfl, [_], rfl, by simp [Out.isSeq]⟩
  · split
    · exact ⟨rfl, rfl, [_], rfl, by simp [Out.isSeq]⟩
    · exact Still.refl _

theorem processInterest_still (c : LConf) (s : Lsdb) (n : Name) (v : Nat) : Still s (processInterest c s n v) := by
  unfold processInterest
  split
  · split
    · exact Still.refl _
    · split
      · split
        · exact ⟨rfl, rfl, [_], rfl, by simp [Out.isSeq]⟩
        · exact processStripped_still _ _ _ _ _
      · exact processStripped_still _ _ _ _ _
  · exact Still.refl _

theorem Announced.after {c : LConf} {s s1 s2 s3 : Lsdb} {t : LsaType} {b : Nat} (h : Announced c s1 s2 t b)
    (h1 : s1.db = s.db) (h2 : s1.seqs = s.seqs) (h3 : s1.log = s.log)
    (h4 : s3.db = s2.db) (h5 : s3.seqs = s2.seqs) (h6 : s3.log = s2.log) : Announced c s s3 t b := by
  have e1 : ∀ r t, storedAt s1 r t = storedAt s r t := storedAt_frame h1
  have e2 : ∀ r t, storedAt s3 r t = storedAt s2 r t := storedAt_frame h4
  refine ⟨h.type, by rw [h5, h.seqs, h2], ?_, ?_, ?_⟩
  · obtain ⟨o, h7, h8⟩ := h.log
    exact ⟨o, by rw [h5, h6, h7, h3], h8⟩
  · rw [e2, ← e1]; exact h.own
  · intro t' ht'; rw [e2, ← e1]; exact h.rest t' ht'

theorem refresh_announced {c : LConf} {s : Lsdb} {x : Option Nat} (h : InvW c s x) {o : Obj} (ho : o ∈ s.db)
    (hx : x = none ∨ x = some o.oid) (hr : o.lsa.origin = c.router) :
    Announced c s (refresh c s o) o.lsa.type o.lsa.seq := by
  have hb : o.lsa.type ≠ .base := by
    unfold Lsa.type Content.type
    split <;> simp
  have hst := storedAt_refresh h ho hx
  rw [hr] at hst
  refine ⟨hb, rfl, ⟨[], ?_, by simp⟩, Or.inl hst.1, ?_⟩
  · show ((s.log ++ [Out.persist _]) ++ [Out.publish _ ((s.seqs.set o.lsa.type (inc64 o.lsa.seq)).get o.lsa.type)]) = _
    rw [Seqs.get_set_self _ _ _ hb]
    simp [refresh, reschedule, persist, publish, emit]
  · intro t' ht'
    exact hst.2 c.router t' (fun hk => ht' hk.2)

theorem seqs_set_self (s : Lsdb) (t : LsaType) : { s with seqs := s.seqs.set t (s.seqs.get t) } = s := by
  cases t <;> rfl

theorem step_seq {c : LConf} {s : Lsdb} (h : Reachable c s) (op : Op) : SeqStep c s op (step c s op) := by
  have hi := h.inv
  cases op with
  | clock dt sys => exact Still.mk_quiet rfl rfl rfl
  | setAdjs l => exact Still.mk_quiet rfl rfl rfl
  | setNpl l => exact Still.mk_quiet rfl rfl rfl
  | segment n => exact Still.mk_quiet rfl rfl rfl
  | segmentGone n => exact Still.mk_quiet rfl rfl rfl
  | fifoGone n => exact Still.mk_quiet rfl rfl rfl
  | buildName =>
    refine .announced .name (s.seqs.get .name) (.build rfl (Or.inl ⟨rfl, rfl⟩)) ?_
    have := buildName_announced hi (s.seqs.get .name)
    rw [seqs_set_self] at this
    exact this
  | scheduleBuild =>
    refine Still.quiet ?_ _
    show Still s (scheduleBuild c s)
    unfold scheduleBuild
    dsimp only
    split <;> exact Still.of rfl rfl rfl
  | buildTimer =>
    show SeqStep c s .buildTimer (buildTimer c s)
    unfold buildTimer
    cases hd : s.buildDue with
    | none => exact Still.quiet (Still.refl _) _
    | some d =>
      have hon : c.hyp ≠ .on := fun e => by have := h.sched.on e; rw [hd] at this; cases this
      dsimp only
      split
      · exact Still.quiet (Still.refl _) _
      · unfold buildAdjLsa
        dsimp only
        split
        · unfold buildOrRemove
          dsimp only
          split
          · split
            · refine .announced .adjacency (s.seqs.get .adjacency) (.build rfl (Or.inr ⟨rfl, rfl, hon⟩)) ?_
              have hi0 : Inv c { s with buildFlag := false, buildDue := none } :=
                hi.frame (frame_quiet rfl rfl rfl rfl rfl)
              have := buildAdj_announced hi0 hon (s.seqs.get .adjacency)
              have e := seqs_set_self { s with buildFlag := false, buildDue := none } .adjacency
              dsimp only at e this
              rw [e] at this
              exact this.after rfl rfl rfl rfl rfl rfl
            · have hs := removeLsa_sig { s with buildFlag := false, buildDue := none } c.router .adjacency
              have hrm := storedAt_remove (s := { s with buildFlag := false, buildDue := none }) c.router .adjacency
              refine .quiet ⟨hs.seqs, ?_, ?_⟩
              · exact hs.logs (fun o ho => by cases o <;> simp_all [Out.isSignal, Out.isSeq])
              · intro t
                by_cases ht : t = .adjacency
                · subst ht; exact Or.inr (Or.inl ⟨rfl, rfl, hrm.1⟩)
                · exact Or.inl (hrm.2 c.router t (fun hk => ht hk.2))
          · exact Still.mk_quiet rfl rfl rfl
        · exact Still.mk_quiet rfl rfl rfl
  | timer eid =>
    show SeqStep c s (.timer eid) (fire c s eid)
    have hc := fire_cases hi eid
    generalize fire c s eid = s' at hc
    cases hc with
    | idle => exact Still.quiet (Still.refl _) _
    | own ev o hev he hdue ho hoid hevt hr =>
      have hdi := drop_inv hi (List.mem_append_left _ ho) hev hoid
      rw [he] at hdi
      refine .announced o.lsa.type o.lsa.seq (.refresh eid rfl ?_) ?_
      · unfold storedAt
        rw [(find_iff hi).2 ⟨ho, hr, rfl⟩]; rfl
      · exact (refresh_announced hdi.1 (s := drop s eid) ho (Or.inr rfl) hr).after rfl rfl rfl rfl rfl rfl
    | other ev o hev he hdue ho hoid hevt hr =>
      have hs := removeLsa_sig (drop s eid) o.lsa.origin o.lsa.type
      have hrm := storedAt_remove (s := drop s eid) o.lsa.origin o.lsa.type
      refine .quiet ⟨hs.seqs, ?_, ?_⟩
      · exact hs.logs (fun o ho => by cases o <;> simp_all [Out.isSignal, Out.isSeq])
      · intro t
        exact Or.inl (hrm.2 c.router t (fun hk => hr hk.1.symm))
    | stale ev o hev he hdue ho hoid hr ht => exact Still.mk_quiet rfl rfl rfl
    | hit ev o p hev he hdue ho hoid hr ht hp hpr hpt hseq =>
      have hdi := (drop_inv hi (List.mem_append_right _ ho) hev hoid).1
      have h2 := hdi.weaken (dead_ne_db hdi (s := drop s ev.eid) ho)
      rw [he] at h2
      refine .announced p.lsa.type p.lsa.seq (.refresh eid rfl ?_) ?_
      · unfold storedAt
        rw [(find_iff hi).2 ⟨hp, hpr, rfl⟩]; rfl
      · exact (refresh_announced h2 (s := drop s eid) hp (Or.inl rfl) hpr).after rfl rfl rfl rfl rfl rfl
  | sync n k =>
    show SeqStep c s (.sync n k) (sync c s n (k % 18446744073709551616))
    unfold sync
    split
    · rename_i origin last ho hl
      unfold processUpdate
      split
      · rename_i hor
        subst hor
        split
        · rename_i hnew
          have hnew := isLsaNew_iff.1 hnew
          unfold ownUpdate
          split
          · rename_i ht
            rw [ht] at hnew
            exact .announced .name _ (.adopt n k last rfl rfl ho hl ht hnew (Or.inl rfl)) (buildName_announced hi _)
          · rename_i ht
            rw [ht] at hnew
            split
            · rename_i hm
              exact .announced .adjacency _ (.adopt n k last rfl rfl ho hl ht hnew (Or.inr (Or.inl ⟨rfl, hm⟩)))
                (buildAdj_announced hi (by rw [hm]; simp) _)
            · exact Still.quiet (Still.refl _) _
          · rename_i ht
            rw [ht] at hnew
            split
            · rename_i hm
              exact .announced .coordinate _ (.adopt n k last rfl rfl ho hl ht hnew (Or.inr (Or.inr ⟨rfl, hm⟩)))
                (buildCoord_announced hi (by rw [hm]; simp) _)
            · exact Still.quiet (Still.refl _) _
          · exact Still.quiet (Still.refl _) _
        · exact Still.quiet (Still.refl _) _
      · split
        · split
          · exact Still.quiet (Still.refl _) _
          · refine Still.quiet ?_ _
            exact Still.trans (⟨rfl, rfl, [_], rfl, by simp [Out.isSeq]⟩ : Still s (s.emit _)) (expressInterest_still _ _ _ _)
        · exact Still.quiet (Still.refl _) _
    · exact Still.quiet (Still.refl _) _
  | fetched i p =>
    show SeqStep c s (.fetched i p) (fetched c s i p)
    unfold fetched
    split
    · exact Still.quiet (Still.refl _) _
    · rename_i f hf
      unfold fetchDone
      dsimp only
      generalize hs0 : ({ s with
        fetches := s.fetches.eraseIdx i
        storage := s.storage.filter (fun n => !Name.isPrefixOf (f.lsaName ++ [Comp.number ((f.seq + 18446744073709551615) % 18446744073709551616)]) n) } : Lsdb) = s0
      have h0 : Still s s0 := by rw [← hs0]; exact Still.of rfl rfl rfl
      have hi0 : Inv c s0 := by rw [← hs0]; exact hi.frame (frame_quiet rfl rfl rfl rfl rfl)
      unfold afterFetch
      split
      · exact h0.quiet _
      · rename_i s1 h1
        have h2 := h0.trans (noteSeq_still h1)
        have hi1 : Inv c s1 := hi0.frame (noteSeq_frame h1)
        dsimp only
        split
        · exact h2.quiet _
        · split
          · exact h2.quiet _
          · unfold installFetched
            cases p with
            | none => exact h2.quiet _
            | some l =>
              dsimp only [Option.map]
              have htype : ({ l with seq := l.seq % 18446744073709551616, content := l.content.norm } : Lsa).type = l.type := by
                show l.content.norm.type = l.content.type
                cases l.content <;> rfl
              have hnorm : ({ l with seq := l.seq % 18446744073709551616, content := l.content.norm } : Lsa).content.norm =
                  ({ l with seq := l.seq % 18446744073709551616, content := l.content.norm } : Lsa).content := norm_norm _
              have hor : ({ l with seq := l.seq % 18446744073709551616, content := l.content.norm } : Lsa).origin = l.origin := rfl
              have hsq : ({ l with seq := l.seq % 18446744073709551616, content := l.content.norm } : Lsa).seq =
                  l.seq % 18446744073709551616 := rfl
              generalize ({ l with seq := l.seq % 18446744073709551616, content := l.content.norm } : Lsa) = l' at *
              split
              · have hst := storedAt_install hi1 l' hnorm
                have hsig := installLsa_sig c s1 l'
                refine .quiet ⟨hsig.seqs.trans h2.seqs, ?_, ?_⟩
                · exact h2.log.trans (hsig.logs (fun o ho => by cases o <;> simp_all [Out.isSignal, Out.isSeq]))
                · intro t
                  have e : ∀ r t, storedAt s1 r t = storedAt s r t := storedAt_frame h2.db
                  by_cases hk : c.router = l.origin ∧ t = l.type
                  · obtain ⟨hk1, rfl⟩ := hk
                    obtain ⟨⟨m, a1, a2, a3⟩, -⟩ := hst
                    rw [htype, hor, ← hk1] at a1
                    rw [htype, hor, ← hk1, e] at a3
                    rcases a3 with ⟨a3, a4⟩ | a3
                    · exact Or.inr (Or.inr ⟨i, l, rfl, hk1.symm, rfl, by rw [a1, a3, hsq], by rw [← hsq]; exact a4⟩)
                    · exact Or.inl (by rw [a1, a3])
                  · rw [hst.2 c.router t (by rw [htype, hor]; exact hk), e]
                    exact Or.inl rfl
              · exact h2.quiet _
  | fetchError i t =>
    refine Still.quiet ?_ _
    show Still s (fetchError c s i t)
    unfold fetchError
    split
    · exact Still.refl _
    · unfold fetchFailed
      split <;> exact Still.of rfl rfl rfl
  | retryTimer i =>
    refine Still.quiet ?_ _
    show Still s (retryTimer s i)
    unfold retryTimer
    split
    · exact Still.refl _
    · split
      · exact Still.refl _
      · exact Still.after (expressInterest_still _ _ _ _) (Still.of rfl rfl rfl)
  | interest n v =>
    refine Still.quiet ?_ _
    show Still s (if n.length ≤ maxComponents then processInterest c s n v else s)
    split
    · exact processInterest_still c s n v
    · exact Still.refl _

/-- The constructor announces the NAME LSA and, unless hyperbolic routing is off, the COORDINATE LSA. -/
theorem init_seq (c : LConf) (disk : Option Seqs) (adjs : AdjacencyList) (npl : List PrefixInfo) (sys : Int) :
    let s0 := boot c disk adjs npl sys
    ∃ s1, Announced c s0 s1 .name (s0.seqs.get .name) ∧
      ((c.hyp = .off ∧ init c disk adjs npl sys = s1) ∨
       (c.hyp ≠ .off ∧ Announced c s1 (init c disk adjs npl sys) .coordinate (s0.seqs.get .coordinate))) := by
  intro s0
  have hi : Inv c s0 := boot_inv ..
  have h1 := buildName_announced hi (s0.seqs.get .name)
  rw [seqs_set_self] at h1
  refine ⟨_, h1, ?_⟩
  by_cases hh : c.hyp = .off
  · exact Or.inl ⟨hh, by unfold init; dsimp only; rw [if_pos hh]⟩
  · refine Or.inr ⟨hh, ?_⟩
    have hi1 : Inv c (buildName c s0) := trs_inv hi (trs_buildName c s0)
    have h2 := buildCoord_announced hi1 hh ((buildName c s0).seqs.get .coordinate)
    rw [seqs_set_self] at h2
    have e : (buildName c s0).seqs.get .coordinate = s0.seqs.get .coordinate := by
      rw [h1.seqs]; exact Seqs.get_set_ne _ _ (by simp)
    rw [e] at h2
    unfold init
    dsimp only
    rw [if_neg hh]
    exact h2

end Lsdb
end Nlsr
