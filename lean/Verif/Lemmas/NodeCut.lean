import Verif.Lemmas.Node
/- An LSDB that is stopped in the middle of an event or of its start. -/
namespace Nlsr
namespace Lsdb

theorem seqs_mono {c : LConf} {q : Seqs} (hq : Roomy q) (hh : c.hyp ≠ .dryRun) (t : LsaType) (ht : Kind c t) :
    q.get t ≤ (Seqs.init c.hyp (some q)).get t := by
  have hp : ∀ t, Seqs.plus10 (q.get t) = q.get t + 10 := fun t => by
    have := hq t
    unfold Seqs.plus10; omega
  have h1 := hp .name
  have h2 := hp .adjacency
  have h3 := hp .coordinate
  unfold Seqs.get at h1 h2 h3
  dsimp only at h1 h2 h3
  unfold Seqs.init Seqs.initB Seqs.initA
  cases hc : c.hyp with
  | dryRun => exact absurd hc hh
  | off =>
    cases t with
    | name => simp [Seqs.get, h1]
    | adjacency => simp [Seqs.get, h2]
    | coordinate => exact absurd hc (ht.2.1 rfl)
    | base => exact absurd rfl ht.2.2
  | on =>
    cases t with
    | name => simp [Seqs.get, h1]
    | coordinate => simp [Seqs.get, h3]
    | adjacency => exact absurd hc (ht.1 rfl)
    | base => exact absurd rfl ht.2.2

theorem Before.of {c : LConf} {q : Seqs} {past : List Out} (hh : c.hyp ≠ .dryRun) (hd : lastPersist past = some q)
    (hm : ∀ d, .data d ∈ past → d.lsa.origin = c.router ∧ d.lsa.seq ≤ q.get d.lsa.type ∧ PlainContent c d.lsa.content)
    (hu : ∀ d d', .data d ∈ past → .data d' ∈ past → d.lsa.type = d'.lsa.type → d.lsa.seq = d'.lsa.seq → d.lsa = d'.lsa)
    (hp : ∀ t k, .publish t k ∈ past → k ≤ q.get t ∧ Kind c t)
    (ht : ∀ d, .data d ∈ past → .publish d.lsa.type d.lsa.seq ∈ past) (hr : Roomy q) : Before c (lastPersist past) past := by
  rw [hd]
  refine ⟨?_, hu, ?_, ht, Roomy.init (by rintro q ⟨⟩; exact hr)⟩
  · intro d h
    obtain ⟨a, b, e⟩ := hm d h
    exact ⟨a, Nat.le_trans b (seqs_mono hr hh _ e.kind), e⟩
  · intro t k h
    obtain ⟨a, b⟩ := hp t k h
    exact ⟨Nat.le_trans a (seqs_mono hr hh _ b), b⟩

theorem lastPersist_take_quiet {l : List Out} (h : ∀ o ∈ l, Out.isSeq o = false) (k : Nat) : lastPersist (l.take k) = none :=
  lastPersist_quiet (fun o ho => h o (List.mem_of_mem_take ho))

theorem lastPersist_publish (t : LsaType) (k : Nat) (l : List Out) : lastPersist (.publish t k :: l) = lastPersist l := rfl

/-- A number was written and announced, and then nothing more of the kind: what the file says after each part of this. -/
theorem lastPersist_take {q : Seqs} {t : LsaType} {n : Nat} {l : List Out} (h : ∀ o ∈ l, Out.isSeq o = false) (k : Nat) :
    lastPersist ((.persist q :: .publish t n :: l).take (k + 1)) = some q := by
  rw [List.take_succ_cons]
  have : lastPersist ((.publish t n :: l).take k) = none := by
    cases k with
    | zero => rfl
    | succ k => rw [List.take_succ_cons, lastPersist_publish]; exact lastPersist_take_quiet h k
  have e : lastPersist (.persist q :: (.publish t n :: l).take k) = lastPersist ([.persist q] ++ (.publish t n :: l).take k) := rfl
  rw [e, lastPersist_append, this]
  rfl

/-- The router is stopped when it has done some of the things that belong to an event. -/
theorem NodeInv.cut {c : LConf} (hnet : Comp.str "LSA" ∉ c.names.network) {s : Lsdb} {past : List Out} (h : NodeInv c s past)
    (hh : c.hyp ≠ .dryRun) (op : Op) (hp : Plain c (past ++ s.log) op) (hroom : Roomy (Lsdb.step c s op).seqs) (k : Nat) :
    Before c (lastPersist (past ++ s.log ++ ((Lsdb.step c s op).log.drop s.log.length).take k))
      (past ++ s.log ++ ((Lsdb.step c s op).log.drop s.log.length).take k) := by
  have h' := h.step hnet op hp hroom
  obtain ⟨hn, -, -⟩ := numbers_step h op hp
  obtain ⟨-, outs, e, hdata⟩ := fifo_step hnet s op
  have ed : (Lsdb.step c s op).log.drop s.log.length = outs := by rw [e]; simp
  rw [ed]
  have sub : ∀ o, o ∈ past ++ s.log ++ outs.take k → o ∈ past ++ (Lsdb.step c s op).log := by
    intro o ho
    rw [e, ← List.append_assoc]
    rcases List.mem_append.1 ho with h1 | h1
    · exact List.mem_append_left _ h1
    · exact List.mem_append_right _ (List.mem_of_mem_take h1)
  have fin : lastPersist (past ++ s.log ++ outs.take k) = some (Lsdb.step c s op).seqs →
      Before c (lastPersist (past ++ s.log ++ outs.take k)) (past ++ s.log ++ outs.take k) := by
    intro hd
    refine Before.of hh hd (fun d hm => h'.made d.lsa (.sent d (sub _ hm) rfl))
      (fun d d' hm hm' => h'.uniq d.lsa d'.lsa (.sent d (sub _ hm) rfl) (.sent d' (sub _ hm') rfl))
      (fun t k hk => h'.pub t k (sub _ hk)) ?_ hroom
    intro d hm
    refine List.mem_append_left _ (h.told d.lsa ?_)
    rcases List.mem_append.1 hm with h1 | h1
    · exact .sent d h1 rfl
    · rcases hdata d (List.mem_of_mem_take h1) with h2 | h2
      · exact .kept d h2 rfl
      · exact .own h2
  cases hn with
  | same h1 h2 =>
    obtain ⟨outs', e', hq⟩ := h2
    cases List.append_cancel_left (e.symm.trans e')
    refine fin ?_
    rw [lastPersist_append, lastPersist_take_quiet hq, h1]
    exact h.disk
  | next t b h0 hb h1 h2 =>
    obtain ⟨outs', e', hq⟩ := h2
    have := List.append_cancel_left (e.symm.trans e')
    subst this
    cases k with
    | zero => simpa using h.before hh
    | succ k =>
      refine fin ?_
      rw [lastPersist_append, lastPersist_take hq]
      rfl

/-- The router is stopped when it has done some of the things that belong to its start. -/
theorem Before.cut {c : LConf} {past : List Out} (h : Before c (lastPersist past) past) (hh : c.hyp ≠ .dryRun)
    (adjs : AdjacencyList) (npl : List PrefixInfo) (sys : Int) (hroom : Roomy (Lsdb.init c (lastPersist past) adjs npl sys).seqs) (k : Nat) :
    Before c (lastPersist (past ++ (Lsdb.init c (lastPersist past) adjs npl sys).log.take k))
      (past ++ (Lsdb.init c (lastPersist past) adjs npl sys).log.take k) := by
  have hk := init_keep c (lastPersist past) adjs npl sys
  obtain ⟨s1, ha, hb⟩ := init_seq c (lastPersist past) adjs npl sys
  generalize hdisk : lastPersist past = disk at *
  have nodata : ∀ d, .data d ∉ (Lsdb.init c disk adjs npl sys).log := by
    intro d hd
    obtain ⟨outs, h1, h2⟩ := hk.log
    rw [h1] at hd
    have := h2 _ hd
    cases this
  generalize Lsdb.init c disk adjs npl sys = s at *
  have n1 : inc64 ((boot c disk adjs npl sys).seqs.get .name) = (Seqs.init c.hyp disk).get .name + 1 :=
    inc64_small (h.room .name)
  have n2 : inc64 ((boot c disk adjs npl sys).seqs.get .coordinate) = (Seqs.init c.hyp disk).get .coordinate + 1 :=
    inc64_small (h.room .coordinate)
  have e0 : (boot c disk adjs npl sys).seqs = Seqs.init c.hyp disk := rfl
  obtain ⟨o1, l1, q1⟩ := ha.log
  have l1 : s1.log = .persist s1.seqs :: .publish .name (inc64 ((boot c disk adjs npl sys).seqs.get .name)) :: o1 := l1
  have g1 : ∀ t, (Seqs.init c.hyp disk).get t ≤ s1.seqs.get t := by
    intro t
    rw [ha.seqs]
    by_cases ht : t = .name
    · subst ht; rw [Seqs.get_set_self _ _ _ (by simp), n1]; omega
    · rw [Seqs.get_set_ne _ _ ht, e0]; exact Nat.le_refl _
  have p1 : ∀ k t n, .publish t n ∈ s1.log.take k → n ≤ s1.seqs.get t ∧ Kind c t := by
    intro k t n hm
    have hm := List.mem_of_mem_take hm
    rw [l1] at hm
    rcases List.mem_cons.1 hm with h6 | h6
    · cases h6
    · rcases List.mem_cons.1 h6 with h7 | h7
      · cases h7
        rw [ha.seqs, Seqs.get_set_self _ _ _ (by simp)]
        exact ⟨Nat.le_refl _, nofun, nofun, nofun⟩
      · have := q1 _ h7; cases this
  have fin : ∀ (q : Seqs) (new : List Out), (∀ o ∈ new, o ∈ s.log) → lastPersist (past ++ new) = some q →
      (∀ t, (Seqs.init c.hyp disk).get t ≤ q.get t) → (∀ t n, .publish t n ∈ new → n ≤ q.get t ∧ Kind c t) → Roomy q →
      Before c (lastPersist (past ++ new)) (past ++ new) := by
    intro q new hnew hd hmono hpub hr
    have old : ∀ d, .data d ∈ past ++ new → .data d ∈ past := by
      intro d hm
      rcases List.mem_append.1 hm with h1 | h1
      · exact h1
      · exact absurd (hnew _ h1) (nodata d)
    refine Before.of hh hd ?_ (fun d d' hm hm' => h.uniq d d' (old d hm) (old d' hm')) ?_ ?_ hr
    · intro d hm
      obtain ⟨a, b, e⟩ := h.made d (old d hm)
      exact ⟨a, Nat.le_trans b (hmono _), e⟩
    · intro t n hm
      rcases List.mem_append.1 hm with h1 | h1
      · obtain ⟨a, b⟩ := h.pub t n h1
        exact ⟨Nat.le_trans a (hmono t), b⟩
      · exact hpub t n h1
    · intro d hm
      exact List.mem_append_left _ (h.told d (old d hm))
  have first : Roomy s1.seqs → (∀ o ∈ s1.log, o ∈ s.log) → ∀ k, Before c (lastPersist (past ++ s1.log.take k)) (past ++ s1.log.take k) := by
    intro hr hs k
    cases k with
    | zero =>
      rw [List.take_zero, List.append_nil, hdisk]
      exact h
    | succ k =>
      refine fin s1.seqs _ (fun o ho => hs o (List.mem_of_mem_take ho)) ?_ g1 (p1 _) hr
      rw [lastPersist_append, l1, lastPersist_take q1]
      rfl
  rcases hb with ⟨-, rfl⟩ | ⟨hoff, hb⟩
  · exact first hroom (fun _ ho => ho) k
  · obtain ⟨o2, l2, q2⟩ := hb.log
    have g2 : ∀ t, s1.seqs.get t ≤ s.seqs.get t := by
      intro t
      rw [hb.seqs]
      by_cases ht : t = .coordinate
      · subst ht
        rw [Seqs.get_set_self _ _ _ (by simp), n2, ha.seqs, Seqs.get_set_ne _ _ (by nofun), e0]
        omega
      · rw [Seqs.get_set_ne _ _ ht]; exact Nat.le_refl _
    have r1 : Roomy s1.seqs := fun t => Nat.lt_of_le_of_lt (g2 t) (hroom t)
    have sub : ∀ o ∈ s1.log, o ∈ s.log := fun o ho => by rw [l2]; exact List.mem_append_left _ ho
    by_cases hl : k ≤ s1.log.length
    · rw [l2, List.take_append_of_le_length hl]
      exact first r1 sub k
    · obtain ⟨j, rfl⟩ : ∃ j, k = s1.log.length + (j + 1) := ⟨k - s1.log.length - 1, by omega⟩
      refine fin s.seqs _ (fun o ho => List.mem_of_mem_take ho) ?_ (fun t => Nat.le_trans (g1 t) (g2 t)) ?_ hroom
      · rw [l2, List.take_length_add_append, ← List.append_assoc, lastPersist_append, lastPersist_take q2]
        rfl
      · intro t n hm
        have hm := List.mem_of_mem_take hm
        rw [l2] at hm
        rcases List.mem_append.1 hm with h5 | h5
        · obtain ⟨a, b⟩ := p1 s1.log.length t n (by rw [List.take_length]; exact h5)
          exact ⟨Nat.le_trans a (g2 t), b⟩
        · rcases List.mem_cons.1 h5 with h6 | h6
          · cases h6
          · rcases List.mem_cons.1 h6 with h7 | h7
            · cases h7
              rw [hb.seqs, Seqs.get_set_self _ _ _ (by simp)]
              exact ⟨Nat.le_refl _, nofun, fun _ => hoff, nofun⟩
            · have := q2 _ h7; cases this

end Lsdb
end Nlsr
