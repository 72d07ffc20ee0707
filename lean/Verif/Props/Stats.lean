import Verif.Model.Stats
import Verif.Props.HelloLedger
/- C64, C75, C76: packet statistics. -/
namespace Nlsr

/-- Increments of `t` after the last reset. -/
def sinceReset (ops : List Stats.Op) (t : Packet) : Nat :=
  (ops.reverse.takeWhile (fun op => !(op == .reset))).count (.increment t)

namespace Stats

theorem find_set (m : List (Packet × Nat)) (t u : Packet) (n : Nat) :
    find (set m t n) u = if u = t then some n else find m u := by
  induction m with
  | nil =>
    by_cases h : u = t
    · subst h; simp [set, find]
    · rw [if_neg h]; simp [set, find, Ne.symm h]
  | cons p ps ih =>
    rw [set]
    by_cases hp : p.1 = t
    · rw [if_pos hp]
      by_cases h : u = t
      · subst h; simp [find]
      · rw [if_neg h]
        simp [find, Ne.symm h, hp]
    · rw [if_neg hp]
      by_cases h : p.1 = u
      · rw [if_neg (by rintro rfl; exact hp h)]
        simp [find, h]
      · have e : ∀ l, find (p :: l) u = find l u := by intro l; simp [find, h]
        rw [e, e, ih]

theorem get_increment {s : Stats} {t : Packet} (h : s.get t + 1 < 2 ^ 31) (u : Packet) :
    (s.increment t).get u = if u = t then s.get t + 1 else s.get u := by
  unfold increment
  rw [if_pos h]
  unfold get
  dsimp only
  rw [find_set]
  split <;> rfl

theorem get_reset (s : Stats) (u : Packet) : s.resetAll.get u = 0 := by
  unfold get resetAll find
  dsimp only
  rw [List.find?_map, Option.map_map]
  cases s.counter.find? ((fun p : Packet × Nat => decide (p.1 = u)) ∘ fun p => (p.1, 0)) with
  | none => rfl
  | some p => rfl

theorem run_snoc (ops : List Op) (op : Op) : run (ops ++ [op]) = step (run ops) op := by
  unfold run
  rw [List.foldl_append]
  rfl

end Stats

theorem sinceReset_increment (ops : List Stats.Op) (t u : Packet) :
    sinceReset (ops ++ [.increment t]) u = sinceReset ops u + if u = t then 1 else 0 := by
  unfold sinceReset
  rw [List.reverse_append, List.reverse_singleton, List.singleton_append, List.takeWhile_cons]
  rw [if_pos (by rfl), List.count_cons]
  congr 1
  by_cases h : u = t
  · subst h; simp
  · rw [if_neg h, if_neg]
    simp only [beq_iff_eq, Stats.Op.increment.injEq]
    exact Ne.symm h

theorem sinceReset_reset (ops : List Stats.Op) (u : Packet) : sinceReset (ops ++ [.reset]) u = 0 := by
  unfold sinceReset
  rw [List.reverse_append, List.reverse_singleton, List.singleton_append, List.takeWhile_cons]
  rfl

theorem snoc_ind {α : Type} {P : List α → Prop} (h0 : P []) (h1 : ∀ l a, P l → P (l ++ [a])) (l : List α) : P l := by
  have : ∀ l : List α, P l.reverse := by
    intro l
    induction l with
    | nil => exact h0
    | cons a l ih => rw [List.reverse_cons]; exact h1 _ _ ih
  have := this l.reverse
  rwa [List.reverse_reverse] at this

/-- C64, as long as no counter ever reaches 2^31: after any increments and resets each counter is the number of its
increments since the last reset.  Missing: larger counts (`C64_violated_overflow`). -/
theorem C64_counts_partial (ops : List Stats.Op)
    (hsmall : ∀ pre, pre <+: ops → ∀ t, sinceReset pre t < 2 ^ 31) :
    (Stats.run ops).undef = false ∧ ∀ t, (Stats.run ops).get t = sinceReset ops t := by
  induction ops using snoc_ind with
  | h0 => exact ⟨rfl, fun _ => rfl⟩
  | h1 ops op ih =>
    obtain ⟨h1, h2⟩ := ih (fun pre hp => hsmall pre (hp.trans (List.prefix_append _ _)))
    rw [Stats.run_snoc]
    cases op with
    | increment t =>
      have hlt : (Stats.run ops).get t + 1 < 2 ^ 31 := by
        have := hsmall _ (List.prefix_refl _) t
        rw [sinceReset_increment, if_pos rfl] at this
        rw [h2]; exact this
      constructor
      · show ((Stats.run ops).increment t).undef = false
        unfold Stats.increment
        rw [if_pos hlt]
        exact h1
      · intro u
        rw [sinceReset_increment]
        show ((Stats.run ops).increment t).get u = _
        rw [Stats.get_increment hlt, h2, h2]
        by_cases h : u = t
        · subst h; rw [if_pos rfl, if_pos rfl]
        · rw [if_neg h, if_neg h]; rfl
    | reset =>
      exact ⟨h1, fun u => by rw [sinceReset_reset]; exact Stats.get_reset _ u⟩

example : sinceReset [.increment .sentLsaData, .reset, .increment .sentLsaData, .increment .rcvLsaData, .increment .sentLsaData]
    .sentLsaData = 2 := by decide

/-- Only increments: the bound is on the whole list. -/
theorem C64_increments (l : List Packet) (hsmall : ∀ t, l.count t < 2 ^ 31) (t : Packet) :
    (Stats.run (l.map .increment)).get t = l.count t ∧ (Stats.run (l.map .increment)).undef = false := by
  have key : ∀ (l : List Packet) t, sinceReset (l.map .increment) t = l.count t := by
    intro l t
    induction l using snoc_ind with
    | h0 => rfl
    | h1 l a ih =>
      rw [List.map_append, List.map_cons, List.map_nil, sinceReset_increment, ih, List.count_append, List.count_singleton]
      congr 1
      by_cases h : t = a
      · subst h; simp
      · rw [if_neg h, if_neg]; simpa using Ne.symm h
  obtain ⟨h1, h2⟩ := C64_counts_partial (l.map .increment) (by
    intro pre hp u
    obtain ⟨q, hq⟩ := hp
    obtain ⟨a, b, rfl, rfl, rfl⟩ := List.map_eq_append_iff.1 hq.symm
    rw [key]
    exact Nat.lt_of_le_of_lt (List.Sublist.count_le u (List.sublist_append_left a b)) (hsmall u))
  exact ⟨by rw [h2, key], h1⟩

/-- C64 fails for long runs: the 2^31st packet takes the `int` counter past its largest value. -/
theorem C64_violated_overflow (t : Packet) : (Stats.run (List.replicate (2 ^ 31) (.increment t))).undef = true := by
  have e : List.replicate (2 ^ 31) (Stats.Op.increment t) = (List.replicate (2 ^ 31 - 1) t).map .increment ++ [.increment t] := by
    rw [List.map_replicate, ← List.replicate_succ']
  rw [e, Stats.run_snoc]
  have h := (C64_increments (List.replicate (2 ^ 31 - 1) t) (by
    intro u
    rw [List.count_replicate]
    split <;> decide) t).1
  show (Stats.increment _ t).undef = true
  unfold Stats.increment
  rw [h, List.count_replicate_self, if_neg (by decide)]

/-! C75: hello packets. -/

def NOut.isInterest : NOut → Bool
  | .interest _ => true
  | _ => false

def NOut.isData : NOut → Bool
  | .data _ => true
  | _ => false

def NEvent.isValid : NEvent → Bool
  | .valid _ => true
  | _ => false

namespace Nbr

/-- `s'` has seen what `l` counts more than `s`. -/
def Grow (s s' : Nbr) (l : List Packet) : Prop :=
  ∃ o e, s'.out = s.out ++ o ∧ s'.hist = s.hist ++ e ∧ (o.filter NOut.isInterest).length = l.count .sentHelloInterest ∧
    (o.filter NOut.isData).length = l.count .sentHelloData ∧ (e.filter NEvent.isValid).length = l.count .rcvHelloData

theorem Grow.refl (s : Nbr) : Grow s s [] := ⟨[], [], by simp, by simp, rfl, rfl, rfl⟩

theorem Grow.of_eq {s s' : Nbr} (ho : s'.out = s.out) (he : s'.hist = s.hist) : Grow s s' [] :=
  ⟨[], [], by simp [ho], by simp [he], rfl, rfl, rfl⟩

theorem Grow.trans {a b d : Nbr} {l m : List Packet} (h : Grow a b l) (k : Grow b d m) : Grow a d (l ++ m) := by
  obtain ⟨o, e, h1, h2, h3, h4, h5⟩ := h
  obtain ⟨o', e', k1, k2, k3, k4, k5⟩ := k
  refine ⟨o ++ o', e ++ e', by rw [k1, h1, List.append_assoc], by rw [k2, h2, List.append_assoc], ?_, ?_, ?_⟩ <;>
    rw [List.filter_append, List.length_append, List.count_append] <;> omega

/-- From a state with the same output. -/
theorem Grow.from {a b d : Nbr} {l : List Packet} (h : Grow b d l) (ho : b.out = a.out) (he : b.hist = a.hist) : Grow a d l := by
  obtain ⟨o, e, h1, h2, h3⟩ := h
  exact ⟨o, e, by rw [h1, ho], by rw [h2, he], h3⟩

theorem grow_express (c : NConf) (s : Nbr) (n : Name) : Grow s (s.express c n) [.sentHelloInterest] :=
  ⟨[.interest n], [], rfl, by simp [express], rfl, rfl, rfl⟩

theorem grow_rebuild (c : NConf) (s : Nbr) : Grow s (s.rebuild c) [] := by
  refine ⟨[if c.hyp = .on then .calc else .build], [], rfl, by simp [rebuild, emit], ?_, ?_, rfl⟩ <;> split <;> rfl

theorem grow_sendHello (c : NConf) (s : Nbr) (n : Name) : Grow s (s.sendHello c n) (s.countSend n) := by
  unfold sendHello countSend
  cases AdjacencyList.find s.adjs n with
  | none => exact Grow.refl s
  | some a =>
    dsimp only
    by_cases h : a.faceId ≠ 0
    · rw [if_pos h, if_pos h]
      exact ⟨[.interest _], [], rfl, by simp [express], rfl, rfl, rfl⟩
    · rw [if_neg h, if_neg h]
      exact Grow.of_eq rfl rfl

theorem grow_interest (c : NConf) (s : Nbr) (n : Name) (v : Comp) : Grow s (s.interest c n v) (s.countInterest c n) := by
  unfold interest countInterest
  by_cases h1 : (!Name.isPrefixOf (c.router ++ [nlsrComp, infoComp]) n) = true
  · rw [if_pos h1, if_pos h1]; exact Grow.refl s
  · rw [if_neg h1, if_neg h1]
    have r : ∀ {s' l}, Grow s s' l → Grow s s' (.rcvHelloInterest :: l) := by
      intro s' l h
      obtain ⟨o, e, h⟩ := h
      exact ⟨o, e, by simpa using h⟩
    apply r
    by_cases h2 : Name.fromEnd n 2 ≠ some infoComp
    · rw [if_pos h2, if_pos h2]; exact Grow.refl s
    · rw [if_neg h2, if_neg h2]
      cases Name.fromEnd n 1 with
      | none => exact Grow.refl s
      | some x =>
        dsimp only
        cases nameFromValue c x.val with
        | none => exact Grow.of_eq rfl rfl
        | some m =>
          dsimp only
          cases AdjacencyList.find s.adjs m with
          | none => exact Grow.refl s
          | some a =>
            dsimp only
            have g : Grow s (s.emit (.data (n ++ [v]))) [.sentHelloData] := ⟨[.data _], [], rfl, by simp [emit], rfl, rfl, rfl⟩
            by_cases h3 : a.status = .inactive ∧ a.faceId ≠ 0
            · rw [if_pos h3, if_pos h3]
              exact g.trans (grow_express c _ _)
            · rw [if_neg h3, if_neg h3]
              exact g

theorem grow_lost (c : NConf) (s : Nbr) (n : Name) : Grow s (s.lost c n) (s.countLost c n) := by
  have g : Grow s { s with hist := s.hist ++ [.lost n] } [] := ⟨[], [.lost n], by simp, rfl, rfl, rfl, rfl⟩
  unfold lost countLost
  dsimp only
  by_cases h1 : Name.fromEnd n 2 ≠ some infoComp
  · rw [if_pos h1, if_pos h1]; exact g
  · rw [if_neg h1, if_neg h1]
    split
    · exact g.trans ((grow_express c _ _).from rfl rfl)
    · split
      · exact g.trans ((grow_rebuild c _).from rfl rfl)
      · exact g

theorem grow_outs {s s' : Nbr} {o : List NOut} {e : List NEvent} (ho : s'.out = s.out ++ o) (he : s'.hist = s.hist ++ e)
    (h1 : ∀ x ∈ o, x.isInterest = false ∧ x.isData = false) (h2 : ∀ x ∈ e, x.isValid = false) : Grow s s' [] := by
  refine ⟨o, e, ho, he, ?_, ?_, ?_⟩
  · rw [List.filter_eq_nil_iff.2 (fun x hx => by simp [(h1 x hx).1])]; rfl
  · rw [List.filter_eq_nil_iff.2 (fun x hx => by simp [(h1 x hx).2])]; rfl
  · rw [List.filter_eq_nil_iff.2 (fun x hx => by simp [h2 x hx])]; rfl

theorem grow_validated (c : NConf) (s : Nbr) (d : Name) : Grow s (s.validated c d) [.rcvHelloData] := by
  have g : Grow s { s with hist := s.hist ++ [.valid d] } [.rcvHelloData] := ⟨[], [.valid d], by simp, rfl, rfl, rfl, rfl⟩
  unfold validated
  dsimp only
  split
  · split
    · refine g.trans (m := []) (grow_outs (o := [if c.hyp = .on then .calc else .build, .initial (Name.getPrefix d (-4))])
        (e := []) ?_ (by simp [rebuild, emit]) ?_ (by simp))
      · simp [rebuild, emit]
      · intro x hx
        simp only [List.mem_cons, List.not_mem_nil, or_false] at hx
        rcases hx with rfl | rfl
        · split <;> exact ⟨rfl, rfl⟩
        · exact ⟨rfl, rfl⟩
    · exact g
  · exact g

theorem useDataset_outs (c : NConf) (faces : List (Uri × Nat)) (l : AdjacencyList) :
    ∀ x ∈ (useDataset c faces l).2, x.isInterest = false ∧ x.isData = false := by
  induction l with
  | nil => intro x hx; simp [useDataset] at hx
  | cons a as ih =>
    intro x hx
    unfold useDataset at hx
    rcases List.mem_append.1 hx with hx | hx
    · obtain ⟨l, hl, hx⟩ := List.mem_flatten.1 hx
      rw [List.eq_of_mem_replicate hl] at hx
      rcases List.mem_cons.1 hx with rfl | hx
      · exact ⟨rfl, rfl⟩
      · rw [List.mem_singleton.1 hx]; exact ⟨rfl, rfl⟩
    · exact ih x hx

theorem grow_step (c : NConf) (s : Nbr) (op : Op) : Grow s (step c s op) (s.counts c op) := by
  unfold step counts
  by_cases hd : s.dead = true
  · rw [if_pos hd, if_pos hd]; exact Grow.refl s
  · rw [if_neg hd, if_neg hd]
    unfold stepOp
    cases op with
    | registered n => exact grow_sendHello c s n
    | helloTimer i =>
      dsimp only
      unfold helloTimer
      cases s.timers[i]? with
      | none => exact Grow.refl s
      | some p =>
        dsimp only
        split
        · exact Grow.refl s
        · exact (grow_sendHello c _ _).from rfl rfl
    | interest n v => exact grow_interest c s n v
    | timeout i =>
      dsimp only
      unfold timeout
      cases s.waiting[i]? with
      | none => exact Grow.refl s
      | some p =>
        dsimp only
        split
        · exact Grow.refl s
        · exact (grow_lost c _ _).from rfl rfl
    | nack i =>
      dsimp only
      unfold nack
      split
      · exact Grow.refl s
      · exact Grow.of_eq rfl rfl
    | nackTimer i =>
      dsimp only
      unfold nackTimer
      cases s.nacked[i]? with
      | none => exact Grow.refl s
      | some p =>
        dsimp only
        split
        · exact Grow.refl s
        · exact (grow_lost c _ _).from rfl rfl
    | data i d =>
      dsimp only
      unfold data
      split
      · exact Grow.refl s
      · split
        · exact Grow.of_eq rfl rfl
        · exact Grow.refl s
    | valid i =>
      dsimp only
      unfold valid
      cases s.validating[i]? with
      | none => exact Grow.refl s
      | some d => exact (grow_validated c _ d).from rfl rfl
    | invalid i => exact Grow.of_eq rfl rfl
    | faceDown fid =>
      have g : Grow s { s with hist := s.hist ++ [.faceDown fid] } [] := grow_outs (o := []) (by simp) rfl (by simp) (by simp [NEvent.isValid])
      dsimp only
      unfold faceDown
      dsimp only
      split
      · exact g
      · split
        · exact g.trans ((grow_rebuild c _).from rfl rfl)
        · exact g
    | faceUp uri fid =>
      have g : Grow s { s with hist := s.hist ++ [.faceUp uri fid] } [] := grow_outs (o := []) (by simp) rfl (by simp) (by simp [NEvent.isValid])
      dsimp only
      unfold faceUp
      dsimp only
      split
      · exact g
      · rename_i a _
        split
        · refine g.trans (m := []) (grow_outs (o := [.register a.name a.uri a.linkCost, .register c.lsaPrefix a.uri a.linkCost])
            (e := []) ?_ (by simp [registerAdj, emit]) ?_ (by simp))
          · simp [registerAdj, emit, Adjacent.linkCost]
          · intro x hx
            simp only [List.mem_cons, List.not_mem_nil, or_false] at hx
            rcases hx with rfl | rfl <;> exact ⟨rfl, rfl⟩
        · exact g
    | fetchOk i faces =>
      dsimp only
      unfold fetchOk
      split
      · exact Grow.refl s
      · refine grow_outs (o := (useDataset c faces s.adjs).2 ++ [.nextFetch]) (e := [.dataset faces]) ?_ rfl ?_ (by simp [NEvent.isValid])
        · simp [scheduleFetch]
        · intro x hx
          rcases List.mem_append.1 hx with hx | hx
          · exact useDataset_outs c faces _ x hx
          · rw [List.mem_singleton.1 hx]; exact ⟨rfl, rfl⟩
    | fetchFail i =>
      dsimp only
      unfold fetchFail
      split
      · exact Grow.refl s
      · dsimp only
        split
        · exact grow_outs (o := [.fetch]) (e := []) rfl (by simp) (by simp [NOut.isInterest, NOut.isData]) (by simp)
        · exact grow_outs (o := [.nextFetch]) (e := []) rfl (by simp [scheduleFetch]) (by simp [NOut.isInterest, NOut.isData]) (by simp)
    | fetchTimer i =>
      dsimp only
      unfold fetchTimer
      split
      · exact Grow.refl s
      · split
        · exact Grow.refl s
        · exact grow_outs (o := [.fetch]) (e := []) rfl (by simp) (by simp [NOut.isInterest, NOut.isData]) (by simp)
    | newLsa origin =>
      dsimp only
      unfold newLsa
      split
      · exact Grow.refl s
      · refine grow_outs (e := []) rfl (by simp) ?_ (by simp)
        intro x hx
        obtain ⟨n, _, rfl⟩ := List.mem_map.1 hx
        exact ⟨rfl, rfl⟩
    | regFace u fid => exact ⟨[], [.regFace u fid], by simp [regFace], rfl, rfl, rfl, rfl⟩
    | clock dt => exact Grow.of_eq rfl rfl

theorem grow_run (c : NConf) (ops : List Op) : ∀ s : Nbr, Grow s (run c s ops) (countsRun c s ops) := by
  induction ops with
  | nil => exact fun s => Grow.refl s
  | cons op ops ih => exact fun s => (grow_step c s op).trans (ih _)

/-- A hello interest under this router's hello prefix. -/
def isHello (c : NConf) : Op → Bool
  | .interest n _ => Name.isPrefixOf (c.router ++ [Comp.str "nlsr", Comp.str "INFO"]) n
  | _ => false

theorem rcv_counts (c : NConf) (s : Nbr) (op : Op) (hd : s.dead = false) :
    (s.counts c op).count .rcvHelloInterest = if isHello c op then 1 else 0 := by
  have hs : ∀ (s : Nbr) n, (s.countSend n).count .rcvHelloInterest = 0 := by
    intro s n
    unfold countSend
    split
    · rfl
    · split <;> rfl
  have hl : ∀ (s : Nbr) n, (s.countLost c n).count .rcvHelloInterest = 0 := by
    intro s n
    unfold countLost
    split
    · rfl
    · dsimp only; split <;> rfl
  unfold counts
  rw [if_neg (by simp [hd])]
  cases op <;> dsimp only [isHello] <;> (try rfl)
  · exact hs _ _
  · split
    · rfl
    · split
      · rfl
      · exact hs _ _
  · rename_i n v
    show _ = if Name.isPrefixOf (c.router ++ [nlsrComp, infoComp]) n = true then 1 else 0
    unfold countInterest
    by_cases h : Name.isPrefixOf (c.router ++ [nlsrComp, infoComp]) n = true
    · rw [if_neg (by simp [h]), if_pos h]
      simp only [List.count_cons]
      rw [show (Packet.rcvHelloInterest == .rcvHelloInterest) = true from rfl, if_pos rfl]
      suffices ∀ l : List Packet, Packet.rcvHelloInterest ∉ l → l.count .rcvHelloInterest + 1 = 1 by
        apply this
        split
        · simp
        · split
          · simp
          · split
            · simp
            · split
              · simp
              · split <;> simp
      intro l hl
      rw [List.count_eq_zero.2 hl]
    · rw [if_pos (by simp [h]), if_neg h]; rfl
  · split
    · rfl
    · split
      · rfl
      · exact hl _ _
  · split
    · rfl
    · split
      · rfl
      · exact hl _ _
  · split <;> rfl

theorem rcv_run (c : NConf) (ops : List Op) : ∀ s : Nbr, (run c s ops).dead = false →
    (countsRun c s ops).count .rcvHelloInterest = (ops.filter (isHello c)).length := by
  induction ops with
  | nil => intro s _; rfl
  | cons op ops ih =>
    intro s hd
    have hs : s.dead = false := by
      cases h : s.dead with
      | false => rfl
      | true =>
        have : ∀ (ops : List Op) (s : Nbr), s.dead = true → (run c s ops).dead = true := by
          intro ops
          induction ops with
          | nil => exact fun _ h => h
          | cons op ops ih =>
            intro s h
            show (run c (step c s op) ops).dead = true
            apply ih
            unfold step
            rw [if_pos h]; exact h
        rw [this (op :: ops) s h] at hd
        exact absurd hd (by decide)
    rw [countsRun, List.count_append, rcv_counts c s op hs, ih _ hd, List.filter_cons]
    split <;> simp <;> omega

end Nbr

/-- C75: in every run in which no counter overflows, the hello statistics are the numbers of hello interests and hello
data sent and of hello data validated; and, as long as the daemon lives, of hello interests received. -/
theorem C75_hello (c : NConf) (adjs : AdjacencyList) (ops : List Nbr.Op)
    (hsmall : ∀ t, (Nbr.countsRun c (Nbr.init c adjs) ops).count t < 2 ^ 31) :
    let st := Stats.run ((Nbr.countsRun c (Nbr.init c adjs) ops).map .increment)
    let s := Nbr.run c (Nbr.init c adjs) ops
    st.get .sentHelloInterest = (s.out.filter NOut.isInterest).length ∧
    st.get .sentHelloData = (s.out.filter NOut.isData).length ∧
    st.get .rcvHelloData = (s.hist.filter NEvent.isValid).length ∧
    (s.dead = false → st.get .rcvHelloInterest = (ops.filter (Nbr.isHello c)).length) := by
  intro st s
  have key : ∀ t, st.get t = _ := fun t => (C64_increments _ hsmall t).1
  obtain ⟨o, e, h1, h2, h3, h4, h5⟩ := Nbr.grow_run c ops (Nbr.init c adjs)
  refine ⟨?_, ?_, ?_, fun hd => ?_⟩
  · rw [key, ← h3]
    show _ = ((Nbr.run c (Nbr.init c adjs) ops).out.filter _).length
    rw [h1, List.filter_append, List.length_append]
    exact (Nat.zero_add _).symm
  · rw [key, ← h4]
    show _ = ((Nbr.run c (Nbr.init c adjs) ops).out.filter _).length
    rw [h1, List.filter_append, List.length_append]
    exact (Nat.zero_add _).symm
  · rw [key, ← h5]
    show _ = ((Nbr.run c (Nbr.init c adjs) ops).hist.filter _).length
    rw [h2, List.filter_append, List.length_append]
    exact (Nat.zero_add _).symm
  · rw [key]
    exact Nbr.rcv_run c ops _ hd

/-- A hello is sent, answered and validated; a hello of `b` is answered; later hellos are lost. -/
example :
    let ops := HelloWitness.upOps ++ [.interest (Nbr.helloOf { HelloWitness.conf with router := nm ["net", "b"] } (nm ["net", "a"])) (Comp.str "v")] ++
      HelloWitness.downOps
    let l := Nbr.countsRun HelloWitness.conf (Nbr.init HelloWitness.conf HelloWitness.adjs) ops
    l = [.sentHelloInterest, .rcvHelloData, .rcvHelloInterest, .sentHelloData, .sentHelloInterest, .sentHelloInterest, .sentHelloInterest] ∧
    (Nbr.run HelloWitness.conf (Nbr.init HelloWitness.conf HelloWitness.adjs) ops).dead = false := by
  decide +kernel

end Nlsr
