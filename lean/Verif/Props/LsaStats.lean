import Verif.Props.Stats
import Verif.Props.LsdbFetch
import Verif.Props.LsdbInterest
/- C76: LSA statistics. -/
namespace Nlsr
namespace Lsdb

/-- An LSA interest whose name's last component, before the number, is this text. -/
def Out.asks (t : String) : Out → Bool
  | .interest n _ => decide (n.getLast? = some (Comp.str t))
  | _ => false

/-- What was sent between two states, next to what was counted. -/
def Sent (s s' : Lsdb) (l : List Packet) : Prop :=
  ∃ outs, s'.log = s.log ++ outs ∧ (outs.filter Out.isInterest).length ≤ l.count .sentLsaInterest ∧
    (outs.filter (Out.asks "ADJACENCY")).length = l.count .sentAdjInterest ∧
    (outs.filter (Out.asks "COORDINATE")).length = l.count .sentCoordInterest ∧
    (outs.filter (Out.asks "NAME")).length = l.count .sentNameInterest

/-- Counters that have nothing to do with interests sent. -/
def Packet.other (p : Packet) : Prop :=
  p ≠ .sentLsaInterest ∧ p ≠ .sentAdjInterest ∧ p ≠ .sentCoordInterest ∧ p ≠ .sentNameInterest

theorem Sent.trans {a b d : Lsdb} {l m : List Packet} (h : Sent a b l) (k : Sent b d m) : Sent a d (l ++ m) := by
  obtain ⟨o, h1, h2, h3, h4, h5⟩ := h
  obtain ⟨o', k1, k2, k3, k4, k5⟩ := k
  refine ⟨o ++ o', by rw [k1, h1, List.append_assoc], ?_, ?_, ?_, ?_⟩ <;>
    rw [List.filter_append, List.length_append, List.count_append] <;> omega

theorem Sent.quiet {s s' : Lsdb} {l : List Packet} (h : Logs (fun o => Out.isInterest o = false) s s')
    (hl : ∀ p ∈ l, Packet.other p) : Sent s s' l := by
  obtain ⟨o, h1, h2⟩ := h
  have hz : ∀ t, o.filter (Out.asks t) = [] := by
    intro t
    apply List.filter_eq_nil_iff.2
    intro x hx
    have := h2 x hx
    cases x <;> simp_all [Out.isInterest, Out.asks]
  have hi : o.filter Out.isInterest = [] := List.filter_eq_nil_iff.2 (fun x hx => by simp [h2 x hx])
  have hn : ∀ p, ¬ Packet.other p → l.count p = 0 := fun p hp => List.count_eq_zero.2 (fun h => hp (hl p h))
  refine ⟨o, h1, by rw [hi]; exact Nat.zero_le _, ?_, ?_, ?_⟩ <;> rw [hz, hn _ (by simp [Packet.other])] <;> rfl

theorem Sent.from {a b d : Lsdb} {l : List Packet} (h : Sent b d l) (hl : b.log = a.log) : Sent a d l := by
  obtain ⟨o, h1, h2⟩ := h
  exact ⟨o, by rw [h1, hl], h2⟩

theorem fromEnd_snoc (n : Name) (x : Comp) : (n ++ [x]).fromEnd 2 = n.getLast? := by
  rcases List.eq_nil_or_concat n with rfl | ⟨m, y, rfl⟩
  · rfl
  · rw [List.concat_eq_append, List.append_assoc, List.singleton_append, Name.fromEnd_append2]
    simp

theorem count_type (a b d p : Packet) (c : Comp) : (countType a b d (LsaType.ofComp c)).count p =
    (if c = Comp.str "ADJACENCY" ∧ p = a then 1 else 0) + (if c = Comp.str "COORDINATE" ∧ p = b then 1 else 0) +
    (if c = Comp.str "NAME" ∧ p = d then 1 else 0) := by
  have n1 : Comp.str "ADJACENCY" ≠ Comp.str "COORDINATE" := by decide +kernel
  have n2 : Comp.str "ADJACENCY" ≠ Comp.str "NAME" := by decide +kernel
  have n3 : Comp.str "COORDINATE" ≠ Comp.str "NAME" := by decide +kernel
  unfold LsaType.ofComp
  by_cases h1 : c = Comp.str "ADJACENCY"
  · subst h1
    simp only [if_true, countType, List.count_singleton, n1, n2, false_and, if_false, true_and, beq_iff_eq, eq_comm (a := p), Nat.add_zero]
  · rw [if_neg h1]
    by_cases h2 : c = Comp.str "COORDINATE"
    · subst h2
      simp only [if_true, countType, List.count_singleton, Ne.symm n1, n3, false_and, if_false, true_and, beq_iff_eq, eq_comm (a := p), Nat.add_zero, Nat.zero_add]
    · rw [if_neg h2]
      by_cases h3 : c = Comp.str "NAME"
      · subst h3
        simp only [if_true, countType, List.count_singleton, Ne.symm n2, Ne.symm n3, false_and, if_false, true_and, beq_iff_eq, eq_comm (a := p), Nat.zero_add]
      · rw [if_neg h3]
        simp [countType, h1, h2, h3]

theorem sent_express (s : Lsdb) (n : Name) (k d : Nat) : Sent s (expressInterest s n k d) (countExpress s n k) := by
  rcases noteSeq_spec s n k with ⟨s1, h0, h1, h2, h3, h4, h5, h6, h7, h8⟩ | ⟨h0, -⟩
  · unfold expressInterest countExpress
    rw [h0, fromEnd_snoc]
    refine ⟨[.interest n k], by show s1.log ++ _ = _; rw [h6], ?_, ?_, ?_, ?_⟩
    · show 1 ≤ _
      rw [List.count_cons_self]
      omega
    all_goals
      cases hn : n.getLast? with
      | none => simp [Out.asks, hn]
      | some x =>
        dsimp only
        rw [List.count_cons, if_neg (by decide), count_type]
        simp only [Out.asks, hn, Option.some.injEq, List.filter_cons, List.filter_nil, decide_eq_true_eq, reduceCtorEq, and_false, if_false, and_true, Nat.zero_add, Nat.add_zero]
        split <;> rfl
  · unfold expressInterest countExpress
    rw [h0]
    exact ⟨[], by simp, by simp, rfl, rfl, rfl⟩

theorem other_type (t : LsaType) (a b d : Packet) (ha : Packet.other a) (hb : Packet.other b) (hd : Packet.other d) :
    ∀ p ∈ countType a b d t, Packet.other p := by
  intro p hp
  cases t with
  | adjacency => rw [List.mem_singleton.1 hp]; exact ha
  | coordinate => rw [List.mem_singleton.1 hp]; exact hb
  | name => rw [List.mem_singleton.1 hp]; exact hd
  | base => simp [countType] at hp

theorem other_reply (c : LConf) (s : Lsdb) (t : LsaType) (k : Nat) : ∀ p ∈ countReply c s t k, Packet.other p := by
  intro p hp
  unfold countReply at hp
  rcases List.mem_append.1 hp with hp | hp
  · exact other_type t _ _ _ (by simp [Packet.other]) (by simp [Packet.other]) (by simp [Packet.other]) p hp
  · split at hp
    · simp at hp
    · split at hp
      · rcases List.mem_append.1 hp with hp | hp
        · exact other_type t _ _ _ (by simp [Packet.other]) (by simp [Packet.other]) (by simp [Packet.other]) p hp
        · rw [List.mem_singleton.1 hp]; simp [Packet.other]
      · simp at hp

theorem other_stripped (c : LConf) (s : Lsdb) (n : Name) : ∀ p ∈ countStripped c s n, Packet.other p := by
  intro p hp
  unfold countStripped at hp
  rcases List.mem_cons.1 hp with rfl | hp
  · simp [Packet.other]
  · split at hp
    · split at hp
      · split at hp
        · simp at hp
        · split at hp
          · simp at hp
          · exact other_reply c s _ _ p hp
      · simp at hp
    · simp at hp

theorem other_interest (c : LConf) (s : Lsdb) (n : Name) : ∀ p ∈ countInterest c s n, Packet.other p := by
  intro p hp
  unfold countInterest at hp
  split at hp
  · split at hp
    · simp at hp
    · split at hp
      · split at hp
        · simp at hp
        · exact other_stripped c s _ p hp
      · exact other_stripped c s _ p hp
  · simp at hp

theorem other_fetched (s : Lsdb) (f : Fetch) (q : Option Lsa) : ∀ p ∈ countFetched s f q, Packet.other p := by
  intro p hp
  unfold countFetched at hp
  rcases List.mem_cons.1 hp with rfl | hp
  · simp [Packet.other]
  · split at hp
    · simp at hp
    · dsimp only at hp
      split at hp
      · simp at hp
      · split at hp
        · simp at hp
        · split at hp
          · exact other_type _ _ _ _ (by simp [Packet.other]) (by simp [Packet.other]) (by simp [Packet.other]) p hp
          · simp at hp

theorem afterFetch_logs (c : LConf) (s : Lsdb) (f : Fetch) (p : Option Lsa) :
    Logs (fun o => Out.isInterest o = false) s (afterFetch c s f p) ∧ (afterFetch c s f p).fetches = s.fetches := by
  rcases noteSeq_spec s f.lsaName f.seq with ⟨s1, h0, h1, h2, h3, h4, h5, h6, h7, h8⟩ | ⟨h0, -⟩
  · have hl : ∀ s', NF s1 s' → Logs (fun o => Out.isInterest o = false) s s' ∧ s'.fetches = s.fetches := by
      intro s' h
      obtain ⟨o, ho, ho'⟩ := h.log
      exact ⟨⟨o, by rw [ho, h6], ho'⟩, by rw [h.fetches, h4]⟩
    unfold afterFetch
    rw [h0]
    dsimp only
    split
    · exact hl _ (NF.refl _)
    · split
      · exact hl _ (NF.refl _)
      · unfold installFetched
        split
        · exact hl _ (NF.refl _)
        · split
          · exact hl _ (installLsa_sig c _ _).nf
          · exact hl _ (NF.refl _)
  · unfold afterFetch
    rw [h0]
    exact ⟨Logs.refl s, rfl⟩

theorem countExpress_congr {s s' : Lsdb} (h : s'.highest = s.highest) (n : Name) (k : Nat) :
    countExpress s' n k = countExpress s n k := by
  have : (s'.noteSeq n k).isSome = (s.noteSeq n k).isSome := by
    unfold noteSeq highestOf
    rw [h]
    split
    · rfl
    · split
      · rfl
      · split <;> rfl
  unfold countExpress
  revert this
  cases s'.noteSeq n k <;> cases s.noteSeq n k <;> simp

theorem sent_step (c : LConf) (s : Lsdb) (op : Op) : Sent s (step c s op) (s.counts c op) := by
  have none : ∀ {s'}, NF s s' → Sent s s' [] := fun h => Sent.quiet h.log (by simp)
  cases op with
  | clock dt sys => exact none (NF.quiet rfl rfl rfl rfl)
  | setAdjs l => exact none (NF.quiet rfl rfl rfl rfl)
  | setNpl l => exact none (NF.quiet rfl rfl rfl rfl)
  | buildName => exact none (buildName_nf c s)
  | scheduleBuild =>
    refine none ?_
    show NF s (scheduleBuild c s)
    unfold scheduleBuild
    dsimp only
    split <;> exact NF.quiet rfl rfl rfl rfl
  | buildTimer => exact none (buildTimer_nf c s)
  | timer eid => exact none (fire_nf c s eid)
  | sync n k =>
    show Sent s (sync c s n _) (countSync c s n _)
    unfold sync countSync
    cases syncOrigin n with
    | none => exact none (NF.refl s)
    | some origin =>
      cases n.fromEnd 1 with
      | none => exact none (NF.refl s)
      | some last =>
        dsimp only
        unfold processUpdate
        by_cases ho : origin = c.router
        · rw [if_pos ho, if_pos ho]
          split
          · exact none (ownUpdate_nf c s _ _)
          · exact none (NF.refl s)
        · rw [if_neg ho, if_neg ho]
          generalize k % 18446744073709551616 = k
          cases s.isLsaNew origin (LsaType.ofComp last) k with
          | false => exact none (NF.refl s)
          | true =>
            simp only [if_true]
            cases notFetched c.hyp (LsaType.ofComp last) k with
            | true => exact none (NF.refl s)
            | false =>
              simp only [Bool.false_eq_true, if_false]
              have h1 := sent_express (s.emit (.newLsa n k origin)) n k (s.now + refreshMax * nsPerSec)
              rw [countExpress_congr (s := s) (s' := _) (by rfl)] at h1
              exact (none (NF.emit s (.newLsa n k origin) rfl)).trans h1
  | fetched i p =>
    show Sent s (fetched c s i p) (counts c s (.fetched i p))
    unfold fetched counts
    dsimp only
    cases s.fetches[i]? with
    | none => exact none (NF.refl s)
    | some f => exact Sent.quiet (afterFetch_logs c _ f _).1 (other_fetched s f p)
  | fetchError i t =>
    refine Sent.quiet (l := []) ?_ (by simp)
    show Logs _ s (fetchError c s i t)
    unfold fetchError
    split
    · exact Logs.refl s
    · unfold fetchFailed
      split <;> exact ⟨[], by simp, by simp⟩
  | retryTimer i =>
    show Sent s (retryTimer s i) (counts c s (.retryTimer i))
    unfold retryTimer counts
    dsimp only
    cases s.retries[i]? with
    | none => exact none (NF.refl s)
    | some f =>
      dsimp only
      split
      · exact none (NF.refl s)
      · have h1 := sent_express { s with retries := s.retries.eraseIdx i } f.2.lsaName f.2.seq f.2.deadline
        rw [countExpress_congr (s := s) (s' := _) (by rfl)] at h1
        exact h1.from rfl
  | segment n => exact none (NF.quiet rfl rfl rfl rfl)
  | segmentGone n => exact none (NF.quiet rfl rfl rfl rfl)
  | interest n v =>
    show Sent s (if n.length ≤ maxComponents then s.processInterest c n v else s)
      (if n.length ≤ maxComponents then s.countInterest c n else [])
    split
    · exact Sent.quiet (processInterest_nf c s n v).log (other_interest c s n)
    · exact none (NF.refl s)
  | fifoGone n => exact none (NF.quiet rfl rfl rfl rfl)

theorem sent_run (c : LConf) (ops : List Op) : ∀ s : Lsdb, Sent s (run c s ops) (countsRun c s ops) := by
  induction ops with
  | nil => exact fun s => Sent.quiet (Logs.refl s) (by simp [countsRun])
  | cons op ops ih => exact fun s => (sent_step c s op).trans (ih _)

/-! The interests sent are being fetched, or were received, or failed. -/

def Op.isFail : Op → Bool
  | .fetchError .. => true
  | _ => false

theorem no_rcv_type (t : LsaType) : (countType .sentAdjInterest .sentCoordInterest .sentNameInterest t).count .rcvLsaData = 0 := by
  cases t <;> rfl

theorem no_rcv_express (s : Lsdb) (n : Name) (k : Nat) : (countExpress s n k).count .rcvLsaData = 0 := by
  unfold countExpress
  rw [List.count_cons, if_neg (by decide)]
  split
  · rfl
  · split
    · exact no_rcv_type _
    · rfl

theorem no_rcv_reply (c : LConf) (s : Lsdb) (t : LsaType) (k : Nat) : (countReply c s t k).count .rcvLsaData = 0 := by
  unfold countReply
  rw [List.count_append]
  split
  · cases t <;> rfl
  · split <;> cases t <;> rfl

theorem no_rcv_stripped (c : LConf) (s : Lsdb) (n : Name) : (countStripped c s n).count .rcvLsaData = 0 := by
  unfold countStripped
  rw [List.count_cons_of_ne (by decide)]
  split
  · split
    · split
      · rfl
      · split
        · rfl
        · exact no_rcv_reply ..
    · rfl
  · rfl

theorem no_rcv_interest (c : LConf) (s : Lsdb) (n : Name) : (countInterest c s n).count .rcvLsaData = 0 := by
  unfold countInterest
  split
  · split
    · rfl
    · split
      · split
        · rfl
        · exact no_rcv_stripped ..
      · exact no_rcv_stripped ..
  · rfl

theorem rcv_fetched (s : Lsdb) (f : Fetch) (p : Option Lsa) : (countFetched s f p).count .rcvLsaData = 1 := by
  unfold countFetched
  rw [List.count_cons_self]
  dsimp only
  split
  · rfl
  · split
    · rfl
    · split
      · rfl
      · split
        · cases LsaType.ofComp _ <;> rfl
        · rfl

/-- Interests sent between two states; `n` of them are neither pending nor received at the end. -/
def Ledger (s s' : Lsdb) (l : List Packet) (n : Nat) : Prop :=
  ∃ outs, s'.log = s.log ++ outs ∧
    s.fetches.length + (outs.filter Out.isInterest).length = s'.fetches.length + l.count .rcvLsaData + n

theorem Ledger.trans {a b d : Lsdb} {l m : List Packet} {x y : Nat} (h : Ledger a b l x) (k : Ledger b d m y) :
    Ledger a d (l ++ m) (x + y) := by
  obtain ⟨o, h1, h2⟩ := h
  obtain ⟨o', k1, k2⟩ := k
  refine ⟨o ++ o', by rw [k1, h1, List.append_assoc], ?_⟩
  rw [List.filter_append, List.length_append, List.count_append]
  omega

theorem NF.ledger {s s' : Lsdb} {l : List Packet} (h : NF s s') (hl : l.count .rcvLsaData = 0) : Ledger s s' l 0 := by
  obtain ⟨o, h1, h2⟩ := h.log
  refine ⟨o, h1, ?_⟩
  rw [List.filter_eq_nil_iff.2 (fun x hx => by simp [h2 x hx]), h.fetches, hl]
  rfl

theorem ledger_express (s : Lsdb) (n : Name) (k d : Nat) : Ledger s (expressInterest s n k d) (countExpress s n k) 0 := by
  rcases noteSeq_spec s n k with ⟨s1, h0, h1, h2, h3, h4, h5, h6, h7, h8⟩ | ⟨h0, -⟩
  · have e := no_rcv_express s n k
    unfold expressInterest
    rw [h0]
    refine ⟨[.interest n k], by show s1.log ++ _ = _; rw [h6], ?_⟩
    rw [e]
    show _ = (s1.fetches ++ _).length + 0 + 0
    rw [h4, List.length_append]
    rfl
  · have e := no_rcv_express s n k
    unfold expressInterest
    rw [h0]
    exact (NF.refl s).ledger e

theorem Ledger.from {a b d : Lsdb} {l : List Packet} {x : Nat} (h : Ledger b d l x) (hl : b.log = a.log)
    (hf : b.fetches = a.fetches) : Ledger a d l x := by
  obtain ⟨o, h1, h2⟩ := h
  exact ⟨o, by rw [h1, hl], by rw [← hf]; exact h2⟩

theorem ledger_step (c : LConf) (s : Lsdb) (op : Op) :
    ∃ n, Ledger s (step c s op) (s.counts c op) n ∧ (Op.isFail op = false → n = 0) := by
  have none : ∀ {s'}, NF s s' → ∃ n, Ledger s s' [] n ∧ (Op.isFail op = false → n = 0) := fun h => ⟨0, h.ledger rfl, fun _ => rfl⟩
  cases op with
  | clock dt sys => exact none (NF.quiet rfl rfl rfl rfl)
  | setAdjs l => exact none (NF.quiet rfl rfl rfl rfl)
  | setNpl l => exact none (NF.quiet rfl rfl rfl rfl)
  | buildName => exact none (buildName_nf c s)
  | scheduleBuild =>
    refine none ?_
    show NF s (scheduleBuild c s)
    unfold scheduleBuild
    dsimp only
    split <;> exact NF.quiet rfl rfl rfl rfl
  | buildTimer => exact none (buildTimer_nf c s)
  | timer eid => exact none (fire_nf c s eid)
  | sync n k =>
    show ∃ x, Ledger s (sync c s n _) (countSync c s n _) x ∧ _
    unfold sync countSync
    cases syncOrigin n with
    | none => exact none (NF.refl s)
    | some origin =>
      cases n.fromEnd 1 with
      | none => exact none (NF.refl s)
      | some last =>
        dsimp only
        unfold processUpdate
        by_cases ho : origin = c.router
        · rw [if_pos ho, if_pos ho]
          split
          · exact none (ownUpdate_nf c s _ _)
          · exact none (NF.refl s)
        · rw [if_neg ho, if_neg ho]
          generalize k % 18446744073709551616 = k
          cases s.isLsaNew origin (LsaType.ofComp last) k with
          | false => exact none (NF.refl s)
          | true =>
            simp only [if_true]
            cases notFetched c.hyp (LsaType.ofComp last) k with
            | true => exact none (NF.refl s)
            | false =>
              simp only [Bool.false_eq_true, if_false]
              have h1 := ledger_express (s.emit (.newLsa n k origin)) n k (s.now + refreshMax * nsPerSec)
              rw [countExpress_congr (s := s) (s' := _) (by rfl)] at h1
              exact ⟨0, ((NF.emit s (.newLsa n k origin) rfl).ledger (l := []) rfl).trans h1, fun _ => rfl⟩
  | fetched i p =>
    show ∃ x, Ledger s (fetched c s i p) (counts c s (.fetched i p)) x ∧ _
    unfold fetched counts
    dsimp only
    cases hf : s.fetches[i]? with
    | none => exact none (NF.refl s)
    | some f =>
      have hi : i < s.fetches.length := by
        rcases Nat.lt_or_ge i s.fetches.length with h | h
        · exact h
        · rw [List.getElem?_eq_none h] at hf; exact absurd hf (by simp)
      refine ⟨0, ?_, fun _ => rfl⟩
      dsimp only
      unfold fetchDone
      dsimp only
      obtain ⟨⟨o, ho, ho'⟩, hq⟩ := afterFetch_logs c { s with fetches := s.fetches.eraseIdx i, storage := _ } f
        (p.map (fun l => { l with seq := l.seq % 18446744073709551616, content := l.content.norm }))
      refine ⟨o, ho, ?_⟩
      rw [List.filter_eq_nil_iff.2 (fun x hx => by simp [ho' x hx]), hq, rcv_fetched]
      dsimp only
      rw [List.length_eraseIdx, if_pos hi]
      simp only [List.length_nil]
      omega
  | fetchError i t =>
    show ∃ x, Ledger s (fetchError c s i t) [] x ∧ _
    unfold fetchError
    cases hf : s.fetches[i]? with
    | none => exact none (NF.refl s)
    | some f =>
      have hi : i < s.fetches.length := by
        rcases Nat.lt_or_ge i s.fetches.length with h | h
        · exact h
        · rw [List.getElem?_eq_none h] at hf; exact absurd hf (by simp)
      refine ⟨1, ?_, fun h => absurd h (by simp [Op.isFail])⟩
      dsimp only
      unfold fetchFailed
      split <;>
      · refine ⟨[], by simp, ?_⟩
        dsimp only
        rw [List.length_eraseIdx, if_pos hi]
        simp only [List.filter_nil, List.length_nil, List.count_nil]
        omega
  | retryTimer i =>
    show ∃ x, Ledger s (retryTimer s i) (counts c s (.retryTimer i)) x ∧ _
    unfold retryTimer counts
    dsimp only
    cases s.retries[i]? with
    | none => exact none (NF.refl s)
    | some f =>
      dsimp only
      split
      · exact none (NF.refl s)
      · have h1 := ledger_express { s with retries := s.retries.eraseIdx i } f.2.lsaName f.2.seq f.2.deadline
        rw [countExpress_congr (s := s) (s' := _) (by rfl)] at h1
        exact ⟨0, h1.from rfl rfl, fun _ => rfl⟩
  | segment n => exact none (NF.quiet rfl rfl rfl rfl)
  | segmentGone n => exact none (NF.quiet rfl rfl rfl rfl)
  | interest n v =>
    show ∃ x, Ledger s (if n.length ≤ maxComponents then s.processInterest c n v else s)
      (if n.length ≤ maxComponents then s.countInterest c n else []) x ∧ _
    split
    · exact ⟨0, (processInterest_nf c s n v).ledger (no_rcv_interest c s n), fun _ => rfl⟩
    · exact none (NF.refl s)
  | fifoGone n => exact none (NF.quiet rfl rfl rfl rfl)

theorem ledger_run (c : LConf) (ops : List Op) : ∀ s : Lsdb,
    ∃ n, Ledger s (run c s ops) (countsRun c s ops) n ∧ ((∀ op ∈ ops, Op.isFail op = false) → n = 0) := by
  induction ops with
  | nil => exact fun s => ⟨0, (NF.refl s).ledger rfl, fun _ => rfl⟩
  | cons op ops ih =>
    intro s
    obtain ⟨n, h1, h2⟩ := ledger_step c s op
    obtain ⟨m, k1, k2⟩ := ih (step c s op)
    refine ⟨n + m, h1.trans k1, fun h => ?_⟩
    rw [h2 (h op (by simp)), k2 (fun o ho => h o (by simp [ho]))]

theorem run_countsRun_append (c : LConf) (s : Lsdb) (a b : List Op) :
    countsRun c s (a ++ b) = countsRun c s a ++ countsRun c (run c s a) b := by
  induction a generalizing s with
  | nil => rfl
  | cons op a ih =>
    show counts c s op ++ countsRun c (step c s op) (a ++ b) = _
    rw [ih, ← List.append_assoc]
    rfl

theorem init_quiet (c : LConf) (disk : Option Seqs) (adjs : AdjacencyList) (npl : List PrefixInfo) (sys : Int) :
    (init c disk adjs npl sys).log.filter Out.isInterest = [] ∧ (∀ t, (init c disk adjs npl sys).log.filter (Out.asks t) = []) ∧
    (init c disk adjs npl sys).fetches = [] := by
  have h : NF (boot c disk adjs npl sys) (init c disk adjs npl sys) := by
    unfold init
    dsimp only
    split
    · exact buildName_nf c _
    · exact (buildName_nf c _).trans (buildCoord_nf c _)
  obtain ⟨o, h1, h2⟩ := h.log
  rw [h1]
  refine ⟨?_, fun t => ?_, h.fetches⟩
  · rw [List.filter_append]
    show [] ++ _ = []
    rw [List.filter_eq_nil_iff.2 (fun x hx => by simp [h2 x hx])]; rfl
  · rw [List.filter_append]
    show [] ++ _ = []
    rw [List.filter_eq_nil_iff.2]; rfl
    intro x hx
    have := h2 x hx
    cases x <;> simp_all [Out.isInterest, Out.asks]

end Lsdb
open Lsdb

/-- C76, first part.  In every run in which no counter overflows, the numbers of LSA interests sent per type are exact, and
the total is at least the number of LSA interests sent.  Missing: the total also counts interests that are not sent
(`C76_violated_not_sent`), and the other counters. -/
theorem C76_sent_interests_partial (c : LConf) (disk : Option Seqs) (adjs : AdjacencyList) (npl : List PrefixInfo) (sys : Int)
    (ops : List Lsdb.Op) (hsmall : ∀ t, (countsRun c (init c disk adjs npl sys) ops).count t < 2 ^ 31) :
    let st := Stats.run ((countsRun c (init c disk adjs npl sys) ops).map .increment)
    let s := run c (init c disk adjs npl sys) ops
    st.get .sentAdjInterest = (s.log.filter (Out.asks "ADJACENCY")).length ∧
    st.get .sentCoordInterest = (s.log.filter (Out.asks "COORDINATE")).length ∧
    st.get .sentNameInterest = (s.log.filter (Out.asks "NAME")).length ∧
    (s.log.filter Out.isInterest).length ≤ st.get .sentLsaInterest := by
  intro st s
  have key : ∀ t, st.get t = _ := fun t => (C64_increments _ hsmall t).1
  obtain ⟨o, h1, h2, h3, h4, h5⟩ := sent_run c ops (init c disk adjs npl sys)
  obtain ⟨q1, q2, -⟩ := init_quiet c disk adjs npl sys
  have e : s.log = (init c disk adjs npl sys).log ++ o := h1
  rw [e, key, key, key, key]
  simp only [List.filter_append, q1, q2, List.nil_append]
  exact ⟨h3.symm, h4.symm, h5.symm, h2⟩

/-- C76, second part.  LSA data received: every interest sent that is not pending any more was received, if no fetch
failed, and in any case not more than that are counted. -/
theorem C76_received_data_partial (c : LConf) (disk : Option Seqs) (adjs : AdjacencyList) (npl : List PrefixInfo) (sys : Int)
    (ops : List Lsdb.Op) (hsmall : ∀ t, (countsRun c (init c disk adjs npl sys) ops).count t < 2 ^ 31) :
    let st := Stats.run ((countsRun c (init c disk adjs npl sys) ops).map .increment)
    let s := run c (init c disk adjs npl sys) ops
    st.get .rcvLsaData + s.fetches.length ≤ (s.log.filter Out.isInterest).length ∧
    ((∀ op ∈ ops, Op.isFail op = false) → st.get .rcvLsaData + s.fetches.length = (s.log.filter Out.isInterest).length) := by
  intro st s
  have key : ∀ t, st.get t = _ := fun t => (C64_increments _ hsmall t).1
  obtain ⟨n, ⟨o, h1, h2⟩, h3⟩ := ledger_run c ops (init c disk adjs npl sys)
  obtain ⟨q1, -, q3⟩ := init_quiet c disk adjs npl sys
  have e : s.log = (init c disk adjs npl sys).log ++ o := h1
  rw [e, key, List.filter_append, q1, List.nil_append]
  have h2' : (o.filter Out.isInterest).length = s.fetches.length + (countsRun c (init c disk adjs npl sys) ops).count .rcvLsaData + n := by
    rw [q3] at h2
    simp only [List.length_nil, Nat.zero_add] at h2
    exact h2
  refine ⟨by omega, fun h => ?_⟩
  have := h3 h
  omega

/-- A Name LSA is asked for, received, asked for again with a higher number that is still pending, and one of the own is
sent. -/
def exStatOps : List Lsdb.Op :=
  [.sync (exUpdate "r2" "NAME") 7, .fetched 0 (some ⟨exR2, 7, 5000000000000, .names []⟩), .sync (exUpdate "r2" "NAME") 8,
   .interest ((exConf .off).names.lsaInterest .name 1) 9]

example : let l := countsRun (exConf .off) (exStart .off) exStatOps
    let s := run (exConf .off) (exStart .off) exStatOps
    l = [.sentLsaInterest, .sentNameInterest, .rcvLsaData, .rcvNameData, .sentLsaInterest, .sentNameInterest,
         .rcvLsaInterest, .rcvNameInterest, .sentNameData, .sentLsaData] ∧
    s.fetches.length = 1 ∧ (s.log.filter Out.isInterest).length = 2 := by
  decide +kernel

def Out.isLsaData : Out → Bool
  | .data _ => true
  | .storedData _ => true
  | _ => false

/-- C76 fails: an interest is counted as sent although a higher number is wanted by then and nothing is sent. -/
theorem C76_violated_not_sent :
    let ops : List Lsdb.Op := [.sync (exUpdate "r2" "NAME") 3, .fetchError 0 true, .sync (exUpdate "r2" "NAME") 5, .retryTimer 0]
    (countsRun (exConf .off) (exStart .off) ops).count .sentLsaInterest = 3 ∧
    ((run (exConf .off) (exStart .off) ops).log.filter Out.isInterest).length = 2 := by
  decide +kernel

/-- C76 fails: an interest answered with a kept segment is not counted as received, and the data is not counted as
sent. -/
theorem C76_violated_kept :
    let s := step (exConf .off) (exStart .off) (.interest ((exConf .off).names.lsaInterest .name 1) 9)
    let n := segName ((exConf .off).names.lsaInterest .name 1) 9 0
    counts (exConf .off) s (.interest n 10) = [] ∧
    ((step (exConf .off) s (.interest n 10)).log.filter Out.isLsaData).length = (s.log.filter Out.isLsaData).length + 1 := by
  decide +kernel

/-- C76 fails: data is counted as sent for a segment number that does not exist, and none is sent. -/
theorem C76_violated_no_segment :
    let n := segName ((exConf .off).names.lsaInterest .name 1) 9 4
    counts (exConf .off) (exStart .off) (.interest n 10) = [.rcvLsaInterest, .rcvNameInterest, .sentNameData, .sentLsaData] ∧
    ((step (exConf .off) (exStart .off) (.interest n 10)).log.filter Out.isLsaData) = [] := by
  decide +kernel

/-- C76 fails: another router's data is sent and not counted. -/
theorem C76_violated_stored :
    let n := exUpdate "r2" "NAME" ++ [Comp.number 3]
    let s := step (exConf .off) (exStart .off) (.segment (segName n 7 0))
    counts (exConf .off) s (.interest n 10) = [.rcvLsaInterest] ∧
    ((step (exConf .off) s (.interest n 10)).log.filter Out.isLsaData).length = (s.log.filter Out.isLsaData).length + 1 := by
  decide +kernel

end Nlsr

