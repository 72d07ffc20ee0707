import Verif.Lemmas.LsdbSeq
import Verif.Props.Lsdb
/- C35, C36, C39, C40: the router's own sequence numbers. -/
namespace Nlsr
open Lsdb

/-! ### C35 -/

/-- A sync report of a number above the stored one makes the router announce the successor of the reported
number at once, written to disk first, and store its LSA under that number: NAME in every mode, ADJACENCY
with hyperbolic routing off, COORDINATE with hyperbolic routing on, for reported numbers below 2^64 - 1. -/
theorem C35_adopt_partial {c : LConf} {s : Lsdb} (h : Reachable c s) (u : Name) (last : Comp) (t : LsaType) (k : Nat)
    (hu : syncOrigin u = some c.router) (hl : u.fromEnd 1 = some last) (ht : LsaType.ofComp last = t)
    (hmode : t = .name ∨ (t = .adjacency ∧ c.hyp = .off) ∨ (t = .coordinate ∧ c.hyp = .on))
    (hnew : ∀ o ∈ s.db, o.lsa.origin = c.router → o.lsa.type = t → o.lsa.seq < k) (hk : k + 1 < 2 ^ 64) :
    (∃ q outs, (step c s (.sync u k)).log = s.log ++ .persist q :: .publish t (k + 1) :: outs ∧ q.get t = k + 1 ∧
      ∀ o ∈ outs, ∀ t' n, o ≠ .publish t' n) ∧
    ∃ o ∈ (step c s (.sync u k)).db, o.lsa.origin = c.router ∧ o.lsa.type = t ∧ o.lsa.seq = k + 1 := by
  have hmod : k % 18446744073709551616 = k := Nat.mod_eq_of_lt (by omega)
  have hinc : inc64 k = k + 1 := by unfold inc64; exact Nat.mod_eq_of_lt (by omega)
  have hnew' : ∀ p, storedAt s c.router t = some p → p < k := by
    intro p hp
    unfold storedAt at hp
    cases hf : s.find c.router t with
    | none => rw [hf] at hp; cases hp
    | some o =>
      rw [hf] at hp; cases hp
      obtain ⟨h1, h2, h3⟩ := find_some hf
      exact hnew o h1 h2 h3
  have ha : Announced c s (step c s (.sync u k)) t k := by
    have e : step c s (.sync u k) = ownUpdate c s t k := by
      show sync c s u (k % 18446744073709551616) = _
      rw [hmod]
      unfold sync
      rw [hu, hl]
      dsimp only
      unfold processUpdate
      rw [if_pos rfl, ht, if_pos (isLsaNew_iff.2 hnew')]
    rw [e]
    rcases hmode with rfl | ⟨rfl, hm⟩ | ⟨rfl, hm⟩
    · exact buildName_announced h.inv k
    · unfold ownUpdate
      dsimp only
      rw [if_pos hm]
      exact buildAdj_announced h.inv (by rw [hm]; simp) k
    · unfold ownUpdate
      dsimp only
      rw [if_pos hm]
      exact buildCoord_announced h.inv (by rw [hm]; simp) k
  constructor
  · obtain ⟨outs, h1, h2⟩ := ha.log
    refine ⟨_, outs, by rw [h1, hinc], ?_, ?_⟩
    · rw [ha.seqs, hinc]; exact Seqs.get_set_self _ _ _ ha.type
    · intro o ho t' n e
      have := h2 o ho
      rw [e] at this
      cases this
  · have hst : storedAt (step c s (.sync u k)) c.router t = some (k + 1) := by
      rcases ha.own with h1 | ⟨m, h1, h2, h3⟩
      · rw [h1, hinc]
      · have := hnew' m h1
        rw [hinc] at h3
        omega
    unfold storedAt at hst
    cases hf : (step c s (.sync u k)).find c.router t with
    | none => rw [hf] at hst; cases hst
    | some o =>
      rw [hf] at hst
      obtain ⟨h1, h2, h3⟩ := find_some hf
      exact ⟨o, h1, h2, h3, by simpa using hst⟩

/-- A sync report that is not above the stored number has no effect on the own LSA. -/
theorem C35_not_newer (c : LConf) (s : Lsdb) (u : Name) (last : Comp) (k : Nat)
    (hu : syncOrigin u = some c.router) (hl : u.fromEnd 1 = some last) (o : Obj) (hk : k < 2 ^ 64)
    (ho : s.find c.router (LsaType.ofComp last) = some o) (hle : k ≤ o.lsa.seq) : step c s (.sync u k) = s := by
  show sync c s u (k % 18446744073709551616) = _
  rw [Nat.mod_eq_of_lt hk]
  unfold sync
  rw [hu, hl]
  dsimp only
  unfold processUpdate
  rw [if_pos rfl, if_neg]
  unfold isLsaNew
  rw [ho]
  simpa using hle

/-- C35 fails in dry-run mode, where both adjacency and coordinate LSAs are used: the reports are ignored. -/
theorem C35_violated_dry_run : ∀ t, t = "ADJACENCY" ∨ t = "COORDINATE" →
    step (exConf .dryRun) (exStart .dryRun) (.sync (exUpdate "r1" t) 100) = exStart .dryRun := by
  rintro t (rfl | rfl)
  all_goals
    have e : ∀ u k origin last, syncOrigin u = some origin → u.fromEnd 1 = some last →
        step (exConf .dryRun) (exStart .dryRun) (.sync u k) =
          processUpdate (exConf .dryRun) (exStart .dryRun) u (k % 18446744073709551616) origin (LsaType.ofComp last) := by
      intro u k origin last h1 h2
      show sync _ _ _ _ = _
      unfold sync
      rw [h1, h2]
  · rw [e _ _ exR1 (Comp.str "ADJACENCY") (by decide +kernel) (by decide +kernel)]
    rw [show LsaType.ofComp (Comp.str "ADJACENCY") = .adjacency by decide +kernel]
    unfold processUpdate
    rw [if_pos (by decide +kernel)]
    split
    · rfl
    · rfl
  · rw [e _ _ exR1 (Comp.str "COORDINATE") (by decide +kernel) (by decide +kernel)]
    rw [show LsaType.ofComp (Comp.str "COORDINATE") = .coordinate by decide +kernel]
    unfold processUpdate
    rw [if_pos (by decide +kernel)]
    split
    · rfl
    · rfl

/-- C35 fails at the largest number: the router announces 0. -/
theorem C35_violated_max :
    let c := exConf .off
    let s := step c (exStart .off) (.sync (exUpdate "r1" "NAME") 18446744073709551615)
    .publish .name 0 ∈ s.log := by
  decide +kernel

example : (∀ o ∈ (exStart .off).db, o.lsa.seq < 100) ∧ syncOrigin (exUpdate "r1" "NAME") = some (exConf .off).router ∧
    (exUpdate "r1" "NAME").fromEnd 1 = some (Comp.str "NAME") ∧ LsaType.ofComp (Comp.str "NAME") = .name := by
  decide +kernel

/-! ### C40 -/

/-- Every announcement of a number comes directly after the state file was replaced by one with that very
number. -/
theorem C40_disk_first {c : LConf} {s : Lsdb} (h : Reachable c s) (pre post : List Out) (t : LsaType) (n : Nat)
    (hl : s.log = pre ++ .publish t n :: post) : ∃ pre' q, pre = pre' ++ [.persist q] ∧ q.get t = n := by
  have ext : ∀ (s s' : Lsdb) (t' : LsaType) (b : Nat), Announced c s s' t' b →
      (∀ pre post t n, s.log = pre ++ .publish t n :: post → ∃ pre' q, pre = pre' ++ [.persist q] ∧ q.get t = n) →
      (∀ pre post t n, s'.log = pre ++ .publish t n :: post → ∃ pre' q, pre = pre' ++ [.persist q] ∧ q.get t = n) := by
    intro s s' t' b ha ih pre post t n hl
    obtain ⟨outs, h1, h2⟩ := ha.log
    rw [h1] at hl
    rcases List.append_eq_append_iff.1 hl with ⟨r, h3, h4⟩ | ⟨r, h3, h4⟩
    · -- the announcement is in the new part
      cases r with
      | nil => simp at h4
      | cons x r =>
        simp only [List.cons_append, List.cons.injEq] at h4
        obtain ⟨rfl, h4⟩ := h4
        cases r with
        | nil =>
          simp only [List.nil_append, List.cons.injEq, Out.publish.injEq] at h4
          obtain ⟨⟨rfl, rfl⟩, -⟩ := h4
          refine ⟨s.log, _, h3, ?_⟩
          rw [ha.seqs]; exact Seqs.get_set_self _ _ _ ha.type
        | cons y r =>
          simp only [List.cons_append, List.cons.injEq] at h4
          have := h2 (.publish t n) (by rw [h4.2]; simp)
          cases this
    · cases r with
      | nil => simp at h4
      | cons x r =>
        simp only [List.cons_append, List.cons.injEq] at h4
        obtain ⟨rfl, -⟩ := h4
        exact ih pre r t n (by rw [h3])
  have key : ∀ pre post t n, s.log = pre ++ .publish t n :: post → ∃ pre' q, pre = pre' ++ [.persist q] ∧ q.get t = n := by
    refine Reachable.induct_step (P := fun s => ∀ pre post t n, s.log = pre ++ .publish t n :: post →
      ∃ pre' q, pre = pre' ++ [.persist q] ∧ q.get t = n) ?_ ?_ h
    · intro disk adjs npl sys
      obtain ⟨s1, h1, h2⟩ := init_seq c disk adjs npl sys
      have h0 := ext _ _ _ _ h1 (by intro pre post t n e; simp [boot] at e)
      rcases h2 with ⟨-, h2⟩ | ⟨-, h2⟩
      · rw [h2]; exact h0
      · exact ext _ _ _ _ h2 h0
    · intro s op hr ih
      cases step_seq hr op with
      | announced t' b _ ha => exact ext _ _ _ _ ha ih
      | quiet hq =>
        intro pre post t n hl
        obtain ⟨outs, h1, h2⟩ := hq.log
        rw [h1] at hl
        rcases List.append_eq_append_iff.1 hl with ⟨r, h3, h4⟩ | ⟨r, h3, h4⟩
        · have := h2 (.publish t n) (by rw [h4]; simp)
          cases this
        · cases r with
          | nil =>
            have := h2 (.publish t n) (by rw [List.nil_append] at h4; rw [← h4]; simp)
            cases this
          | cons x r =>
            simp only [List.cons_append, List.cons.injEq] at h4
            obtain ⟨rfl, -⟩ := h4
            exact ih pre r t n (by rw [h3])
  exact key pre post t n hl

example : ∃ pre post, (exStart .on).log = pre ++ .publish .coordinate 1 :: post :=
  ⟨[.persist ⟨1, 0, 0⟩, .publish .name 1, .signal .installed ⟨exR1, 1, 3600000000000,
      .names (PrefixMap.ofList [⟨nm ["a"], .fin 5⟩])⟩ [] [], .persist ⟨1, 0, 1⟩],
    (exStart .on).log.drop 5, by decide +kernel⟩

/-! ### C36 and C39: the numbers only grow -/

/-- The numbers announced for a type, in order. -/
def published (t : LsaType) (log : List Out) : List Nat :=
  log.filterMap (fun o => match o with
    | .publish t' n => if t' = t then some n else none
    | _ => none)

/-- The state file after these outputs. -/
def diskAfter (d : Option Seqs) (log : List Out) : Option Seqs :=
  log.foldl (fun d o => match o with
    | .persist q => some q
    | _ => d) d

theorem published_append (t : LsaType) (a b : List Out) : published t (a ++ b) = published t a ++ published t b := by
  simp [published]

/-- Monitor of a log: `lo` is the last number announced, `cur` the number on disk. -/
def chk (t : LsaType) (st : Nat × Nat) : Out → Option (Nat × Nat)
  | .persist q => if st.1 ≤ q.get t then some (st.1, q.get t) else none
  | .publish t' n => if t' = t then (if st.1 < n ∧ n ≤ st.2 then some (n, st.2) else none) else some st
  | _ => some st

def dget (t : LsaType) (d : Option Seqs) : Nat := (d.map (·.get t)).getD 0

theorem chk_cons {t : LsaType} {st r : Nat × Nat} {o : Out} {l : List Out} (h : (o :: l).foldlM (chk t) st = some r) :
    ∃ st', chk t st o = some st' ∧ l.foldlM (chk t) st' = some r := by
  rw [List.foldlM_cons] at h
  cases hc : chk t st o with
  | none => rw [hc] at h; cases h
  | some st' => rw [hc] at h; exact ⟨st', rfl, h⟩

/-- What the monitor knows in the end. -/
theorem chk_end {t : LsaType} : ∀ (l : List Out) (lo : Nat) (d : Option Seqs) (r : Nat × Nat),
    l.foldlM (chk t) (lo, dget t d) = some r → lo ≤ dget t d →
    r.2 = dget t (diskAfter d l) ∧ r.1 ≤ r.2 ∧ lo ≤ r.1 ∧
    (published t l).Pairwise (· < ·) ∧ (∀ n ∈ published t l, lo < n ∧ n ≤ r.1)
  | [], lo, d, r, h, hle => by
    simp only [List.foldlM_nil, Option.pure_def, Option.some.injEq] at h
    subst h
    exact ⟨rfl, hle, Nat.le_refl _, by simp [published], by simp [published]⟩
  | o :: l, lo, d, r, h, hle => by
    obtain ⟨st, h1, h2⟩ := chk_cons h
    cases o with
    | persist q =>
      simp only [chk] at h1
      split at h1
      · rename_i h3
        cases h1
        exact chk_end l lo (some q) r h2 h3
      · cases h1
    | publish t' n =>
      simp only [chk] at h1
      by_cases ht : t' = t
      · rw [if_pos ht] at h1
        split at h1
        · rename_i h3
          cases h1
          obtain ⟨a1, a2, a3, a4, a5⟩ := chk_end l n d r h2 h3.2
          have e : published t (.publish t' n :: l) = n :: published t l := by simp [published, ht]
          refine ⟨a1, a2, Nat.le_trans (Nat.le_of_lt h3.1) a3, ?_, ?_⟩
          · rw [e, List.pairwise_cons]
            exact ⟨fun x hx => (a5 x hx).1, a4⟩
          · rw [e]
            intro x hx
            rcases List.mem_cons.1 hx with rfl | hx
            · exact ⟨h3.1, a3⟩
            · exact ⟨Nat.lt_trans h3.1 (a5 x hx).1, (a5 x hx).2⟩
        · cases h1
      · rw [if_neg ht] at h1
        cases h1
        have e : published t (.publish t' n :: l) = published t l := by simp [published, ht]
        rw [e]
        exact chk_end l lo d r h2 hle
    | signal _ _ _ _ => cases h1; exact chk_end l lo d r h2 hle
    | newLsa _ _ _ => cases h1; exact chk_end l lo d r h2 hle
    | interest _ _ => cases h1; exact chk_end l lo d r h2 hle
    | data _ => cases h1; exact chk_end l lo d r h2 hle
    | storedData _ => cases h1; exact chk_end l lo d r h2 hle
    | fault => cases h1; exact chk_end l lo d r h2 hle

/-- The last announced number is the one before or in the log. -/
theorem chk_lo {t : LsaType} : ∀ (l : List Out) (st r : Nat × Nat), l.foldlM (chk t) st = some r →
    r.1 = st.1 ∨ r.1 ∈ published t l := by
  intro l
  induction l with
  | nil =>
    intro st r e
    simp only [List.foldlM_nil, Option.pure_def, Option.some.injEq] at e
    subst e; exact Or.inl rfl
  | cons o l ih =>
    intro st r e
    obtain ⟨st', e1, e2⟩ := chk_cons e
    have hsub : ∀ n, n ∈ published t l → n ∈ published t (o :: l) := by
      intro n hn
      have : published t (o :: l) = published t [o] ++ published t l := published_append t [o] l
      rw [this]; exact List.mem_append_right _ hn
    rcases ih st' r e2 with h | h
    · cases o with
      | persist q =>
        simp only [chk] at e1
        split at e1
        · cases e1; exact Or.inl h
        · cases e1
      | publish t' n =>
        simp only [chk] at e1
        by_cases ht : t' = t
        · rw [if_pos ht] at e1
          split at e1
          · cases e1
            right
            rw [h]
            simp [published, ht]
          · cases e1
        · rw [if_neg ht] at e1
          cases e1; exact Or.inl h
      | _ => cases e1; exact Or.inl h
    · exact Or.inr (hsub _ h)

theorem chk_append {t : LsaType} {st : Nat × Nat} {a b : List Out} :
    (a ++ b).foldlM (chk t) st = (a.foldlM (chk t) st).bind (fun st' => b.foldlM (chk t) st') := by
  rw [List.foldlM_append]; rfl

theorem chk_quiet {t : LsaType} : ∀ (l : List Out) (st : Nat × Nat), (∀ o ∈ l, Out.isSeq o = false) →
    l.foldlM (chk t) st = some st
  | [], st, _ => rfl
  | o :: l, st, h => by
    rw [List.foldlM_cons]
    have h1 := h o (by simp)
    have : chk t st o = some st := by
      cases o <;> first | rfl | cases h1
    rw [this]
    exact chk_quiet l st (fun o ho => h o (by simp [ho]))

/-- The state of the numbers of type `t` during a run; `lo` is the last one announced. -/
structure Num (c : LConf) (t : LsaType) (st0 : Nat × Nat) (s : Lsdb) (lo : Nat) : Prop where
  log : ∃ cur, s.log.foldlM (chk t) st0 = some (lo, cur)
  counter : lo ≤ s.seqs.get t
  bound : s.seqs.get t < 2 ^ 64
  stored : ∀ p, storedAt s c.router t = some p → lo ≤ p ∧ p < 2 ^ 64

theorem inc64_lt {b : Nat} (h : b < 2 ^ 64) (h0 : inc64 b ≠ 0) : inc64 b = b + 1 := by
  unfold inc64 at *
  by_cases hb : b + 1 < 18446744073709551616
  · exact Nat.mod_eq_of_lt hb
  · have : b + 1 = 18446744073709551616 := by omega
    rw [this] at h0
    exact absurd (by decide) h0

theorem inc64_bound (b : Nat) : inc64 b < 2 ^ 64 := Nat.mod_lt _ (by decide)

/-- Announcing keeps the state, if a number of this type grows and does not wrap. -/
theorem Num.announced {c : LConf} {t : LsaType} {st0 : Nat × Nat} {s s' : Lsdb} {lo : Nat} (h : Num c t st0 s lo)
    {t' : LsaType} {b : Nat} (ha : Announced c s s' t' b) (hb : t' = t → lo ≤ b ∧ b < 2 ^ 64)
    (h0 : 0 ∉ published t s'.log) :
    ∃ lo', Num c t st0 s' lo' ∧ (t' = t → storedAt s' c.router t ≠ none) ∧ (t' ≠ t → lo' = lo) := by
  obtain ⟨cur, hl⟩ := h.log
  obtain ⟨outs, h1, h2⟩ := ha.log
  by_cases ht : t' = t
  · subst ht
    obtain ⟨hb1, hb2⟩ := hb rfl
    have hn0 : inc64 b ≠ 0 := by
      intro e
      apply h0
      rw [h1, e]
      simp [published]
    have hinc := inc64_lt hb2 hn0
    have hget : s'.seqs.get t' = inc64 b := by rw [ha.seqs]; exact Seqs.get_set_self _ _ _ ha.type
    refine ⟨inc64 b, ⟨⟨inc64 b, ?_⟩, ?_, ?_, ?_⟩, ?_, fun e => absurd rfl e⟩
    · rw [h1, chk_append, hl]
      show (Out.persist s'.seqs :: Out.publish t' (inc64 b) :: outs).foldlM (chk t') (lo, cur) = _
      rw [List.foldlM_cons]
      have e1 : chk t' (lo, cur) (.persist s'.seqs) = some (lo, inc64 b) := by
        simp only [chk]; rw [hget, if_pos (by omega)]
      rw [e1]
      show (Out.publish t' (inc64 b) :: outs).foldlM (chk t') (lo, inc64 b) = _
      rw [List.foldlM_cons]
      have e2 : chk t' (lo, inc64 b) (.publish t' (inc64 b)) = some (inc64 b, inc64 b) := by
        simp only [chk, if_true]; rw [if_pos (by omega)]
      rw [e2]
      exact chk_quiet outs _ h2
    · rw [hget]; exact Nat.le_refl _
    · rw [hget]; exact inc64_bound b
    · intro p hp
      rcases ha.own with h3 | ⟨m, h3, h4, h5⟩
      · rw [h3] at hp; cases hp; exact ⟨Nat.le_refl _, inc64_bound b⟩
      · rw [h4] at hp; cases hp; exact ⟨h5, (h.stored _ h3).2⟩
    · rcases ha.own with h3 | ⟨m, h3, h4, h5⟩
      · rw [h3]; simp
      · rw [h4]; simp
  · have hget : s'.seqs.get t = s.seqs.get t := by rw [ha.seqs]; exact Seqs.get_set_ne _ _ (Ne.symm ht)
    refine ⟨lo, ⟨⟨s.seqs.get t, ?_⟩, by rw [hget]; exact h.counter, by rw [hget]; exact h.bound, ?_⟩,
      fun e => absurd e ht, fun _ => rfl⟩
    · rw [h1, chk_append, hl]
      show (Out.persist s'.seqs :: Out.publish t' (inc64 b) :: outs).foldlM (chk t) (lo, cur) = _
      rw [List.foldlM_cons]
      have e1 : chk t (lo, cur) (.persist s'.seqs) = some (lo, s.seqs.get t) := by
        simp only [chk]; rw [hget, if_pos h.counter]
      rw [e1]
      show (Out.publish t' (inc64 b) :: outs).foldlM (chk t) (lo, s.seqs.get t) = _
      rw [List.foldlM_cons]
      have e2 : chk t (lo, s.seqs.get t) (.publish t' (inc64 b)) = some (lo, s.seqs.get t) := by
        simp only [chk]; rw [if_neg ht]
      rw [e2]
      exact chk_quiet outs _ h2
    · intro p hp
      rw [ha.rest t (Ne.symm ht)] at hp
      exact h.stored p hp

/-- The numbers about the own adjacency LSA that come from the network are not out of date: no report of a
number lower than one already announced, and no fetched adjacency LSA claims to be this router's. -/
def FreshOp (c : LConf) (lo : Nat) (op : Op) : Prop :=
  (∀ u k last, op = .sync u k → syncOrigin u = some c.router → u.fromEnd 1 = some last →
    LsaType.ofComp last = .adjacency → lo ≤ k % 18446744073709551616) ∧
  (∀ i l, op = .fetched i (some l) → l.origin = c.router → l.type ≠ .adjacency)

theorem Num.step {c : LConf} {t : LsaType} {st0 : Nat × Nat} {s : Lsdb} {lo : Nat} (h : Num c t st0 s lo)
    (hr : Reachable c s) (op : Op) (h0 : 0 ∉ published t (Lsdb.step c s op).log)
    (hnone : t ≠ .adjacency → storedAt s c.router t = none → lo = 0)
    (hfresh : t = .adjacency → FreshOp c lo op) :
    ∃ lo', Num c t st0 (Lsdb.step c s op) lo' ∧
      (t ≠ .adjacency → storedAt (Lsdb.step c s op) c.router t = none → lo' = 0) := by
  cases step_seq hr op with
  | quiet hq =>
    refine ⟨lo, ⟨?_, by rw [hq.seqs]; exact h.counter, by rw [hq.seqs]; exact h.bound, ?_⟩, ?_⟩
    · obtain ⟨cur, hl⟩ := h.log
      obtain ⟨outs, h1, h2⟩ := hq.log
      exact ⟨cur, by rw [h1, chk_append, hl]; exact chk_quiet outs _ h2⟩
    · intro p hp
      rcases hq.own t with h1 | ⟨-, -, h1⟩ | ⟨i, l, h1, h2, h3, h4, h5⟩
      · rw [h1] at hp; exact h.stored p hp
      · rw [h1] at hp; cases hp
      · rw [h4] at hp
        cases hp
        refine ⟨?_, Nat.mod_lt _ (by decide)⟩
        by_cases ht : t = .adjacency
        · exact absurd (h3.trans ht) ((hfresh ht).2 i l h1 h2)
        · cases hs : storedAt s c.router t with
          | none => rw [hnone ht hs]; exact Nat.zero_le _
          | some q =>
            have := h5 q hs
            have := (h.stored q hs).1
            omega
    · intro ht hn
      rcases hq.own t with h1 | ⟨h1, -, -⟩ | ⟨i, l, h1, h2, h3, h4, h5⟩
      · exact hnone ht (h1 ▸ hn)
      · exact absurd h1 ht
      · rw [h4] at hn; cases hn
  | announced t' b src ha =>
    have hb : t' = t → lo ≤ b ∧ b < 2 ^ 64 := by
      rintro rfl
      cases src with
      | build hb _ => rw [hb]; exact ⟨h.counter, h.bound⟩
      | adopt u k last hop hb hu hl ht hnew hmode =>
        refine ⟨?_, by rw [hb]; exact Nat.mod_lt _ (by decide)⟩
        by_cases hta : t' = .adjacency
        · rw [hb]; exact (hfresh hta).1 u k last hop hu hl (ht.trans hta)
        · cases hs : storedAt s c.router t' with
          | none => rw [hnone hta hs]; exact Nat.zero_le _
          | some q =>
            have := hnew q hs
            have := (h.stored q hs).1
            omega
      | refresh eid _ hb => exact h.stored b hb
    obtain ⟨lo', h1, h2, h3⟩ := h.announced ha hb h0
    refine ⟨lo', h1, ?_⟩
    intro hta hn
    by_cases ht : t' = t
    · exact absurd hn (h2 ht)
    · rw [h3 ht]
      exact hnone hta (by rw [← ha.rest t (Ne.symm ht)]; exact hn)

theorem step_log_prefix {c : LConf} {s : Lsdb} (hr : Reachable c s) (op : Op) :
    ∃ outs, (Lsdb.step c s op).log = s.log ++ outs := by
  cases step_seq hr op with
  | quiet hq => obtain ⟨o, h, -⟩ := hq.log; exact ⟨o, h⟩
  | announced t b _ ha => obtain ⟨o, h, -⟩ := ha.log; exact ⟨_, h⟩

theorem run_log_prefix {c : LConf} (ops : List Op) : ∀ {s : Lsdb}, Reachable c s →
    ∃ outs, (Lsdb.run c s ops).log = s.log ++ outs := by
  induction ops with
  | nil => intro s _; exact ⟨[], by simp [run]⟩
  | cons op ops ih =>
    intro s hr
    obtain ⟨o1, h1⟩ := step_log_prefix hr op
    obtain ⟨o2, h2⟩ := ih (hr.step op)
    refine ⟨o1 ++ o2, ?_⟩
    show (Lsdb.run c (Lsdb.step c s op) ops).log = _
    rw [h2, h1, List.append_assoc]

/-- Every report along a run is fresh with respect to what has been announced before, in the runs before
(`past`) and in this one. -/
def FreshRun (c : LConf) (past : List Out) (s : Lsdb) : List Op → Prop
  | [] => True
  | op :: ops =>
    (∀ u k last, op = .sync u k → syncOrigin u = some c.router → u.fromEnd 1 = some last →
      LsaType.ofComp last = .adjacency →
      ∀ n ∈ published .adjacency (past ++ s.log), n ≤ k % 18446744073709551616) ∧
    (∀ i l, op = .fetched i (some l) → l.origin = c.router → l.type ≠ .adjacency) ∧
    FreshRun c past (Lsdb.step c s op) ops

theorem Num.run {c : LConf} {t : LsaType} {st0 : Nat × Nat} {past : List Out}
    (hst : st0.1 = 0 ∨ st0.1 ∈ published t past) (ops : List Op) :
    ∀ {s : Lsdb} {lo : Nat}, Num c t st0 s lo → (lo = st0.1 ∨ lo ∈ published t s.log) → Reachable c s →
    0 ∉ published t (Lsdb.run c s ops).log →
    (t ≠ .adjacency → storedAt s c.router t = none → lo = 0) → (t = .adjacency → FreshRun c past s ops) →
    ∃ lo', Num c t st0 (Lsdb.run c s ops) lo' := by
  induction ops with
  | nil => intro s lo h _ _ _ _ _; exact ⟨lo, h⟩
  | cons op ops ih =>
    intro s lo h hlo hr h0 hn hf
    have h0' : 0 ∉ published t (Lsdb.step c s op).log := by
      obtain ⟨o, ho⟩ := run_log_prefix ops (hr.step op)
      have h0 : 0 ∉ published t (Lsdb.run c (Lsdb.step c s op) ops).log := h0
      rw [ho, published_append] at h0
      exact fun hm => h0 (List.mem_append_left _ hm)
    have hmem : lo = 0 ∨ lo ∈ published t (past ++ s.log) := by
      rw [published_append]
      rcases hlo with hlo | hlo
      · rw [hlo]; exact hst.imp id (List.mem_append_left _)
      · exact Or.inr (List.mem_append_right _ hlo)
    obtain ⟨lo', h1, h2⟩ := h.step hr op h0' hn (by
      intro ht
      subst ht
      have hf := hf rfl
      refine ⟨?_, hf.2.1⟩
      intro u k last e1 e2 e3 e4
      rcases hmem with hm | hm
      · omega
      · exact hf.1 u k last e1 e2 e3 e4 lo hm)
    refine ih h1 ?_ (hr.step op) h0 h2 (fun ht => (hf ht).2.2)
    obtain ⟨cur, hl⟩ := h1.log
    exact chk_lo _ _ _ hl

/-- From the start of the daemon. -/
theorem Num.init {c : LConf} {t : LsaType} {lo0 cur0 : Nat} (disk : Option Seqs) (adjs : AdjacencyList)
    (npl : List PrefixInfo) (sys : Int) (hlo : lo0 ≤ (Seqs.init c.hyp disk).get t)
    (h0 : 0 ∉ published t (Lsdb.init c disk adjs npl sys).log)
    (hz : t ≠ .adjacency → ¬ (t = .name ∨ (t = .coordinate ∧ c.hyp ≠ .off)) → lo0 = 0) :
    ∃ lo, Num c t (lo0, cur0) (Lsdb.init c disk adjs npl sys) lo ∧
      (t ≠ .adjacency → storedAt (Lsdb.init c disk adjs npl sys) c.router t = none → lo = 0) := by
  have hb : ∀ t, (Seqs.init c.hyp disk).get t < 2 ^ 64 := by
    intro t
    cases disk with
    | none => cases t <;> simp [Seqs.init, Seqs.get]
    | some d =>
      have hp : ∀ n, Seqs.plus10 n < 2 ^ 64 := fun n => Nat.mod_lt _ (by decide)
      show (Seqs.initB c.hyp (Seqs.initA c.hyp d)).get t < 2 ^ 64
      unfold Seqs.initB Seqs.initA
      cases c.hyp <;> cases t <;> simp [Seqs.get] <;> first | exact hp _ | decide
  have hboot : Num c t (lo0, cur0) (boot c disk adjs npl sys) lo0 := by
    refine ⟨⟨cur0, rfl⟩, hlo, hb t, ?_⟩
    intro p hp
    simp [storedAt, boot, find] at hp
  obtain ⟨s1, h1, h2⟩ := init_seq c disk adjs npl sys
  have hpre : ∃ outs, (Lsdb.init c disk adjs npl sys).log = s1.log ++ outs := by
    rcases h2 with ⟨-, h2⟩ | ⟨-, h2⟩
    · exact ⟨[], by rw [h2]; simp⟩
    · obtain ⟨o, h3, -⟩ := h2.log; exact ⟨_, h3⟩
  have h01 : 0 ∉ published t s1.log := by
    obtain ⟨o, ho⟩ := hpre
    rw [ho, published_append] at h0
    exact fun hm => h0 (List.mem_append_left _ hm)
  obtain ⟨lo1, h3, h4, h5⟩ := hboot.announced h1 (by rintro rfl; exact ⟨hlo, hb _⟩) h01
  rcases h2 with ⟨hoff, h2⟩ | ⟨hoff, h2⟩
  · rw [h2]
    refine ⟨lo1, h3, ?_⟩
    intro ht hn
    by_cases htn : t = .name
    · subst htn; exact absurd hn (h4 rfl)
    · rw [h5 (Ne.symm htn)]
      exact hz ht (by rintro (h | ⟨-, h⟩); exact htn h; exact h hoff)
  · have hcor : t = .coordinate → lo1 = lo0 := by
      rintro rfl; exact h5 (by simp)
    obtain ⟨lo2, h6, h7, h8⟩ := h3.announced h2 (by rintro rfl; rw [hcor rfl]; exact ⟨hlo, hb _⟩) h0
    refine ⟨lo2, h6, ?_⟩
    intro ht hn
    by_cases htc : t = .coordinate
    · subst htc; exact absurd hn (h7 rfl)
    · rw [h8 (Ne.symm htc)]
      by_cases htn : t = .name
      · subst htn
        rw [h2.rest .name (by simp)] at hn
        exact absurd hn (h4 rfl)
      · rw [h5 (Ne.symm htn)]
        exact hz ht (by rintro (h | ⟨h, -⟩); exact htn h; exact htc h)

/-- A whole run, from the start of the daemon. -/
theorem Num.whole {c : LConf} {t : LsaType} {lo0 cur0 : Nat} (past : List Out) (disk : Option Seqs)
    (adjs : AdjacencyList) (npl : List PrefixInfo) (sys : Int) (ops : List Op)
    (hlo : lo0 ≤ (Seqs.init c.hyp disk).get t) (hst : lo0 = 0 ∨ lo0 ∈ published t past)
    (h0 : 0 ∉ published t (Lsdb.run c (Lsdb.init c disk adjs npl sys) ops).log)
    (hz : t ≠ .adjacency → ¬ (t = .name ∨ (t = .coordinate ∧ c.hyp ≠ .off)) → lo0 = 0)
    (hf : t = .adjacency → FreshRun c past (Lsdb.init c disk adjs npl sys) ops) :
    ∃ lo, Num c t (lo0, cur0) (Lsdb.run c (Lsdb.init c disk adjs npl sys) ops) lo := by
  have hr0 : Reachable c (Lsdb.init c disk adjs npl sys) := ⟨disk, adjs, npl, sys, [], rfl⟩
  have h0i : 0 ∉ published t (Lsdb.init c disk adjs npl sys).log := by
    obtain ⟨o, ho⟩ := run_log_prefix ops hr0
    rw [ho, published_append] at h0
    exact fun hm => h0 (List.mem_append_left _ hm)
  obtain ⟨lo, h1, h2⟩ := Num.init (c := c) (t := t) (lo0 := lo0) (cur0 := cur0) disk adjs npl sys hlo h0i hz
  obtain ⟨cur, hl⟩ := h1.log
  exact Num.run (past := past) hst ops h1 (chk_lo _ _ _ hl) hr0 h0 h2 hf

/-- During a run the numbers announced for the NAME and the COORDINATE LSA strictly increase, whatever the
operations, unless the number wraps around and 0 is announced. -/
theorem C36_name_coordinate_partial {c : LConf} {s : Lsdb} (h : Reachable c s) (t : LsaType)
    (ht : t = .name ∨ t = .coordinate) (h0 : 0 ∉ published t s.log) : (published t s.log).Pairwise (· < ·) := by
  obtain ⟨disk, adjs, npl, sys, ops, rfl⟩ := h
  have hta : t ≠ .adjacency := by rcases ht with rfl | rfl <;> simp
  obtain ⟨lo, h1⟩ := Num.whole (c := c) (t := t) (lo0 := 0) (cur0 := dget t disk) [] disk adjs npl sys ops
    (Nat.zero_le _) (Or.inl rfl) h0 (fun _ _ => rfl) (fun e => absurd e hta)
  obtain ⟨cur, hl⟩ := h1.log
  exact (chk_end _ 0 disk _ hl (Nat.zero_le _)).2.2.2.1

/-- The same for the ADJACENCY LSA, if no sync report of its number is lower than a number announced before,
and no fetched adjacency LSA carries this router's name. -/
theorem C36_adjacency_partial (c : LConf) (disk : Option Seqs) (adjs : AdjacencyList) (npl : List PrefixInfo)
    (sys : Int) (ops : List Op) (hf : FreshRun c [] (Lsdb.init c disk adjs npl sys) ops)
    (h0 : 0 ∉ published .adjacency (run c (Lsdb.init c disk adjs npl sys) ops).log) :
    (published .adjacency (run c (Lsdb.init c disk adjs npl sys) ops).log).Pairwise (· < ·) := by
  obtain ⟨lo, h1⟩ := Num.whole (c := c) (t := .adjacency) (lo0 := 0) (cur0 := dget .adjacency disk) [] disk adjs npl sys
    ops (Nat.zero_le _) (Or.inl rfl) h0 (fun e => absurd rfl e) (fun _ => hf)
  obtain ⟨cur, hl⟩ := h1.log
  exact (chk_end _ 0 disk _ hl (Nat.zero_le _)).2.2.2.1

/-- Two builds of the adjacency LSA, then the neighbour fails and the LSA is removed. -/
def exBuilds : List Op :=
  [.scheduleBuild, .clock 100000000000 0, .buildTimer,
   .scheduleBuild, .clock 100000000000 0, .buildTimer,
   .setAdjs [exNeighbor .inactive], .scheduleBuild, .clock 100000000000 0, .buildTimer]

/-- C36 fails for the ADJACENCY LSA: once the own LSA has been removed because no neighbour is active, a
sync report of an old number makes the router announce a number again. -/
theorem C36_violated_stale_report :
    published .adjacency (run (exConf .off) (exStart .off)
      (exBuilds ++ [.sync (exUpdate "r1" "ADJACENCY") 1])).log = [1, 2, 2] := by
  decide +kernel

example : 0 ∉ published .name (run (exConf .off) (exStart .off) [.buildName, .buildName]).log ∧
    (published .name (run (exConf .off) (exStart .off) [.buildName, .buildName]).log).length = 3 := by
  decide +kernel

example : published .adjacency (run (exConf .off) (exStart .off)
    (exBuilds ++ [.sync (exUpdate "r1" "ADJACENCY") 5])).log = [1, 2, 6] := by decide +kernel

/-- The freshness hypothesis holds for a report of the latest number. -/
example : FreshRun (exConf .off) [] (run (exConf .off) (exStart .off) exBuilds)
    [.sync (exUpdate "r1" "ADJACENCY") 2] := by
  refine ⟨?_, ?_, trivial⟩
  · intro u k last e _ _ _
    cases e
    decide +kernel
  · intro i l e; cases e

/-! ### C39: crashes and restarts -/

/-- One life of the daemon: it starts, `ops` happen, and it is killed after the first `cut` outputs. -/
structure Session where
  adjs : AdjacencyList
  npl  : List PrefixInfo
  sys  : Int
  ops  : List Op
  cut  : Nat

/-- Everything the session would have put out. -/
def Session.full (c : LConf) (d : Option Seqs) (σ : Session) : List Out :=
  (run c (Lsdb.init c d σ.adjs σ.npl σ.sys) σ.ops).log

/-- What it did put out before the crash. -/
def Session.log (c : LConf) (d : Option Seqs) (σ : Session) : List Out := (σ.full c d).take σ.cut

/-- The outputs of all sessions; each starts from the state file the one before has left. -/
def history (c : LConf) : Option Seqs → List Session → List Out
  | _, [] => []
  | d, σ :: σs => σ.log c d ++ history c (diskAfter d (σ.log c d)) σs

/-- No counter reaches 2^64: neither by single steps nor by the 10 added at a restart. -/
def NoWrap (c : LConf) (t : LsaType) : Option Seqs → List Session → Prop
  | _, [] => True
  | d, σ :: σs => dget t d + 10 < 2 ^ 64 ∧ 0 ∉ published t (σ.full c d) ∧ NoWrap c t (diskAfter d (σ.log c d)) σs

/-- In every session the reports about the own adjacency LSA are not lower than a number announced before. -/
def FreshSessions (c : LConf) : List Out → Option Seqs → List Session → Prop
  | _, _, [] => True
  | past, d, σ :: σs => FreshRun c past (Lsdb.init c d σ.adjs σ.npl σ.sys) σ.ops ∧
      FreshSessions c (past ++ σ.log c d) (diskAfter d (σ.log c d)) σs

theorem sessions_ok {c : LConf} {t : LsaType}
    (ht : t = .name ∨ (t = .coordinate ∧ c.hyp = .on) ∨ (t = .adjacency ∧ c.hyp = .off)) :
    ∀ (σs : List Session) (past : List Out) (d : Option Seqs) (lo : Nat), lo ≤ dget t d →
    (lo = 0 ∨ lo ∈ published t past) → NoWrap c t d σs → (t = .adjacency → FreshSessions c past d σs) →
    ∃ r, (history c d σs).foldlM (chk t) (lo, dget t d) = some r
  | [], past, d, lo, _, _, _, _ => ⟨_, rfl⟩
  | σ :: σs, past, d, lo, hle, hlo, hw, hf => by
    obtain ⟨hw1, hw2, hw3⟩ := hw
    have hcount : lo ≤ (Seqs.init c.hyp d).get t := by
      cases d with
      | none => have : lo = 0 := by simpa [dget] using hle
                omega
      | some q =>
        have hw1' : q.get t + 10 < 18446744073709551616 := hw1
        have hle' : lo ≤ q.get t := hle
        have : (Seqs.init c.hyp (some q)).get t = q.get t + 10 := by
          rcases ht with rfl | ⟨rfl, hm⟩ | ⟨rfl, hm⟩
          · have : Seqs.plus10 q.name = q.name + 10 := Nat.mod_eq_of_lt hw1'
            show (Seqs.initB c.hyp (Seqs.initA c.hyp q)).name = q.name + 10
            unfold Seqs.initB Seqs.initA
            cases c.hyp <;> simp [this]
          · have : Seqs.plus10 q.cor = q.cor + 10 := Nat.mod_eq_of_lt hw1'
            show (Seqs.initB c.hyp (Seqs.initA c.hyp q)).cor = q.cor + 10
            unfold Seqs.initB Seqs.initA
            rw [hm]; simp [this]
          · have : Seqs.plus10 q.adj = q.adj + 10 := Nat.mod_eq_of_lt hw1'
            show (Seqs.initB c.hyp (Seqs.initA c.hyp q)).adj = q.adj + 10
            unfold Seqs.initB Seqs.initA
            rw [hm]; simp [this]
        omega
    obtain ⟨lo1, h1⟩ := Num.whole (c := c) (t := t) (lo0 := lo) (cur0 := dget t d) past d σ.adjs σ.npl σ.sys σ.ops
      hcount hlo hw2
      (fun h1 h2 => absurd (by
        rcases ht with ht | ⟨ht, hm⟩ | ⟨ht, hm⟩
        · exact Or.inl ht
        · exact Or.inr ⟨ht, by rw [hm]; simp⟩
        · exact absurd ht h1) h2)
      (fun e => (hf e).1)
    obtain ⟨cur, hl⟩ := h1.log
    have hl' : (σ.full c d).foldlM (chk t) (lo, dget t d) = some (lo1, cur) := hl
    rw [← List.take_append_drop σ.cut (σ.full c d), chk_append] at hl'
    cases hm : ((σ.full c d).take σ.cut).foldlM (chk t) (lo, dget t d) with
    | none => rw [hm] at hl'; cases hl'
    | some r =>
      obtain ⟨a1, a2, a3, a4, a5⟩ := chk_end _ lo d r hm hle
      have a1' : r.2 = dget t (diskAfter d (σ.log c d)) := a1
      have hr1 : r.1 = 0 ∨ r.1 ∈ published t (past ++ σ.log c d) := by
        rw [published_append]
        rcases chk_lo _ _ _ hm with h2 | h2
        · rw [h2]; exact hlo.imp id (List.mem_append_left _)
        · exact Or.inr (List.mem_append_right _ h2)
      obtain ⟨r', h3⟩ := sessions_ok ht σs (past ++ σ.log c d) (diskAfter d (σ.log c d)) r.1 (by rw [← a1']; exact a2) hr1
        hw3 (fun e => (hf e).2)
      refine ⟨r', ?_⟩
      show (σ.log c d ++ history c _ σs).foldlM _ _ = _
      rw [chk_append]
      have hm' : (σ.log c d).foldlM (chk t) (lo, dget t d) = some r := hm
      rw [hm']
      show (history c _ σs).foldlM (chk t) r = _
      have er : r = (r.1, dget t (diskAfter d (σ.log c d))) := by rw [← a1']
      rw [er]
      exact h3

/-- Over any number of crashes, each at any point, and restarts, the announced NAME numbers strictly
increase, in every hyperbolic mode; so do the COORDINATE numbers with hyperbolic routing on. -/
theorem C39_no_reuse_partial (c : LConf) (t : LsaType) (ht : t = .name ∨ (t = .coordinate ∧ c.hyp = .on))
    (d : Option Seqs) (σs : List Session) (hw : NoWrap c t d σs) :
    (published t (history c d σs)).Pairwise (· < ·) := by
  have ht' : t = .name ∨ (t = .coordinate ∧ c.hyp = .on) ∨ (t = .adjacency ∧ c.hyp = .off) := by
    rcases ht with h | h
    · exact Or.inl h
    · exact Or.inr (Or.inl h)
  have hta : t ≠ .adjacency := by rcases ht with rfl | ⟨rfl, -⟩ <;> simp
  obtain ⟨r, hr⟩ := sessions_ok ht' σs [] d 0 (Nat.zero_le _) (Or.inl rfl) hw (fun e => absurd e hta)
  exact (chk_end _ 0 d r hr (Nat.zero_le _)).2.2.2.1

/-- The ADJACENCY numbers do too with hyperbolic routing off, if no sync report is out of date. -/
theorem C39_adjacency_partial (c : LConf) (hm : c.hyp = .off) (d : Option Seqs) (σs : List Session)
    (hw : NoWrap c .adjacency d σs) (hf : FreshSessions c [] d σs) :
    (published .adjacency (history c d σs)).Pairwise (· < ·) := by
  obtain ⟨r, hr⟩ := sessions_ok (t := .adjacency) (Or.inr (Or.inr ⟨rfl, hm⟩)) σs [] d 0 (Nat.zero_le _) (Or.inl rfl) hw
    (fun _ => hf)
  exact (chk_end _ 0 d r hr (Nat.zero_le _)).2.2.2.1

/-- A session with one adjacency build. -/
def exSession (ops : List Op) : Session where
  adjs := [exNeighbor .active]
  npl := [⟨nm ["a"], .fin 5⟩]
  sys := 0
  ops := ops
  cut := 1000

def exBuild : List Op := [.scheduleBuild, .clock 100000000000 0, .buildTimer]

/-- C39 fails in dry-run mode: a restart resets the adjacency number to 0 and the coordinate number to 10. -/
theorem C39_violated_dry_run :
    published .adjacency (history (exConf .dryRun) none [exSession exBuild, exSession exBuild]) = [1, 1] ∧
    published .coordinate (history (exConf .dryRun) none [exSession [], exSession [], exSession []]) = [1, 11, 11] := by
  decide +kernel

/-- C39 fails for adjacency LSAs if a peer that missed the last numbers reports an old one after the
restart. -/
theorem C39_violated_stale_report :
    published .adjacency (history (exConf .off) none
      [exSession (exBuild ++ exBuild), exSession [.sync (exUpdate "r1" "ADJACENCY") 1]]) = [1, 2, 2] := by
  decide +kernel

/-- Three sessions, the second killed between the write and the announcement of its first number. -/
example : NoWrap (exConf .off) .name none [exSession [.buildName], { exSession [] with cut := 1 }, exSession []] ∧
    published .name (history (exConf .off) none [exSession [.buildName], { exSession [] with cut := 1 }, exSession []]) =
      [1, 2, 24] := by
  refine ⟨⟨?_, ?_, ?_, ?_, ?_, ?_, trivial⟩, ?_⟩ <;> decide +kernel

end Nlsr
