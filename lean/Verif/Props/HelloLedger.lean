import Verif.Props.Hello
/- C41, C42: where losses and replies come from, and concrete executions. -/
namespace Nlsr
namespace Nbr
open AdjacencyList

theorem countP_eraseIdx {α : Type} (q : α → Bool) : ∀ (l : List α) (i : Nat) (p : α), l[i]? = some p →
    l.countP q = (l.eraseIdx i).countP q + (if q p then 1 else 0)
  | [], i, p, h => by simp at h
  | a :: as, 0, p, h => by
    simp at h
    subst h
    rw [List.eraseIdx_cons_zero, List.countP_cons]
  | a :: as, i + 1, p, h => by
    have h' : as[i]? = some p := by simpa using h
    rw [List.eraseIdx_cons_succ, List.countP_cons, List.countP_cons, countP_eraseIdx q as i p h']
    omega

def isFor (x : Name) (w : Name × Nat) : Bool := decide (w.1 = x)

/-- Interests `x` waiting, nacked or lost, and `k` more, are at most those sent. -/
def Led (k : Nat) (x : Name) (s : Nbr) : Prop :=
  s.waiting.countP (isFor x) + s.nacked.countP (isFor x) + s.hist.count (.lost x) + k ≤ s.out.count (.interest x)

theorem Led.mono {k x} {s s' : Nbr} (h : Led k x s) (h1 : s'.waiting.countP (isFor x) ≤ s.waiting.countP (isFor x))
    (h2 : s'.nacked = s.nacked) (h3 : s'.hist.count (.lost x) = s.hist.count (.lost x))
    (h4 : ∃ o, s'.out = s.out ++ o) : Led k x s' := by
  obtain ⟨o, ho⟩ := h4
  unfold Led at h ⊢
  rw [h2, h3, ho, List.count_append]
  omega

theorem Led.express {c : NConf} {k x} {s : Nbr} (h : Led k x s) (y : Name) : Led k x (s.express c y) := by
  unfold Led Nbr.express at *
  dsimp only
  rw [List.countP_append, List.count_append, List.countP_singleton, List.count_singleton]
  have e : (isFor x (y, s.now + c.resend * nsPerSec)) = (NOut.interest y == NOut.interest x) := by
    unfold isFor
    by_cases hxy : y = x
    · subst hxy; simp
    · have : ¬ (NOut.interest y = NOut.interest x) := fun e => hxy (by injection e)
      simp [hxy, this]
  rw [e]
  split <;> omega

theorem Led.sendHello {c : NConf} {k x} {s : Nbr} (h : Led k x s) (n : Name) : Led k x (s.sendHello c n) := by
  unfold Nbr.sendHello
  split
  · exact h
  · dsimp only
    split
    · exact (h.express _).mono (Nat.le_refl _) rfl rfl ⟨[], by rw [List.append_nil]⟩
    · exact h.mono (Nat.le_refl _) rfl rfl ⟨[], by rw [List.append_nil]⟩

theorem Led.lost {c : NConf} {x name} {s : Nbr} (h : Led (if name = x then 1 else 0) x s) : Led 0 x (lost c s name) := by
  have h1 : Led 0 x { s with hist := s.hist ++ [NEvent.lost name] } := by
    unfold Led at h ⊢
    dsimp only
    rw [List.count_append, List.count_singleton]
    have e : (NEvent.lost name == NEvent.lost x) = decide (name = x) := by
      by_cases hxy : name = x
      · subst hxy; simp
      · have : ¬ (NEvent.lost name = NEvent.lost x) := fun e => hxy (by injection e)
        simp [hxy, this]
    rw [e]
    by_cases hx : name = x
    · simp only [hx, if_true, decide_true] at h ⊢; omega
    · simp only [hx, if_false, decide_false] at h ⊢; simpa using h
  unfold Nbr.lost
  dsimp only
  split
  · exact h1
  · have h2 : ∀ a, Led 0 x { s with hist := s.hist ++ [NEvent.lost name], adjs := a } := fun a => h1
    split
    · exact (h2 _).express _
    · split
      · exact (h2 _).mono (Nat.le_refl _) rfl rfl ⟨_, rfl⟩
      · exact h2 _

theorem Led.step {c : NConf} {x : Name} {s : Nbr} (h : Led 0 x s) (op : Op) : Led 0 x (Nbr.step c s op) := by
  have idle : ∀ {s' : Nbr}, s'.waiting = s.waiting → s'.nacked = s.nacked → s'.hist = s.hist → (∃ o, s'.out = s.out ++ o) → Led 0 x s' := by
    intro s' h1 h2 h3 h4
    exact h.mono (by rw [h1]; exact Nat.le_refl _) h2 (by rw [h3]) h4
  have event : ∀ {s' : Nbr} (e : NEvent), e ≠ .lost x → s'.waiting = s.waiting → s'.nacked = s.nacked →
      s'.hist = s.hist ++ [e] → (∃ o, s'.out = s.out ++ o) → Led 0 x s' := by
    intro s' e he h1 h2 h3 h4
    refine h.mono (by rw [h1]; exact Nat.le_refl _) h2 ?_ h4
    rw [h3, List.count_append, List.count_singleton, if_neg (by simpa using he), Nat.add_zero]
  unfold Nbr.step
  split
  · exact h
  · cases op with
    | registered n => exact h.sendHello n
    | helloTimer i =>
      show Led 0 x (helloTimer c s i)
      unfold helloTimer
      split
      · exact h
      · split
        · exact h
        · exact Led.sendHello (s := { s with timers := s.timers.eraseIdx i }) h _
    | interest n v =>
      show Led 0 x (interest c s n v)
      unfold interest
      split
      · exact h
      · split
        · exact h
        · split
          · exact h
          · split
            · exact h
            · split
              · exact h
              · dsimp only
                have h1 : Led 0 x (s.emit (.data (n ++ [v]))) := idle rfl rfl rfl ⟨_, rfl⟩
                split
                · exact h1.express _
                · exact h1
    | timeout i =>
      show Led 0 x (timeout c s i)
      unfold timeout
      cases hw : s.waiting[i]? with
      | none => exact h
      | some p =>
        obtain ⟨name, due⟩ := p
        dsimp only
        split
        · exact h
        · refine Led.lost ?_
          have := countP_eraseIdx (isFor x) _ _ _ hw
          unfold Led at h ⊢
          dsimp only
          have e : isFor x (name, due) = decide (name = x) := rfl
          rw [e] at this
          by_cases hx : name = x
          · simp only [hx, decide_true, if_true] at this ⊢; omega
          · rw [decide_eq_false hx, if_neg (by nofun)] at this
            rw [if_neg hx]
            omega
    | nack i =>
      show Led 0 x (nack c s i)
      unfold nack
      cases hw : s.waiting[i]? with
      | none => exact h
      | some p =>
        obtain ⟨name, due⟩ := p
        have := countP_eraseIdx (isFor x) _ _ _ hw
        unfold Led at h ⊢
        dsimp only
        rw [List.countP_append, List.countP_singleton]
        have e : ∀ t, isFor x (name, t) = decide (name = x) := fun _ => rfl
        rw [e] at this ⊢
        omega
    | nackTimer i =>
      show Led 0 x (nackTimer c s i)
      unfold nackTimer
      cases hw : s.nacked[i]? with
      | none => exact h
      | some p =>
        obtain ⟨name, due⟩ := p
        dsimp only
        split
        · exact h
        · refine Led.lost ?_
          have := countP_eraseIdx (isFor x) _ _ _ hw
          unfold Led at h ⊢
          dsimp only
          have e : isFor x (name, due) = decide (name = x) := rfl
          rw [e] at this
          by_cases hx : name = x
          · simp only [hx, decide_true, if_true] at this ⊢; omega
          · rw [decide_eq_false hx, if_neg (by nofun)] at this
            rw [if_neg hx]
            omega
    | data i d =>
      show Led 0 x (data s i d)
      unfold data
      cases hw : s.waiting[i]? with
      | none => exact h
      | some p =>
        dsimp only
        split
        · have := countP_eraseIdx (isFor x) _ _ _ hw
          exact h.mono (by dsimp only; omega) rfl rfl ⟨[], by rw [List.append_nil]⟩
        · exact h
    | valid i =>
      show Led 0 x (valid c s i)
      unfold valid
      cases hw : s.validating[i]? with
      | none => exact h
      | some d =>
        dsimp only
        obtain ⟨hh, hs⟩ := validated_spec c { s with validating := s.validating.eraseIdx i } d
        have hout : ∃ o, (validated c { s with validating := s.validating.eraseIdx i } d).out = s.out ++ o := by
          split at hs
          · have h2 := hs.2
            split at h2
            · exact ⟨[], by rw [h2, List.append_nil]⟩
            · split at h2
              · exact ⟨[], by rw [h2, List.append_nil]⟩
              · exact ⟨_, h2⟩
          · exact ⟨[], by rw [hs.2, List.append_nil]⟩
        refine event (.valid d) (by nofun) ?_ ?_ hh hout
        · unfold validated; dsimp only; split
          · split <;> rfl
          · rfl
        · unfold validated; dsimp only; split
          · split <;> rfl
          · rfl
    | invalid i => exact h
    | faceDown fid =>
      show Led 0 x (faceDown c s fid)
      unfold faceDown
      dsimp only
      split
      · exact event (.faceDown fid) (by nofun) rfl rfl rfl ⟨[], by rw [List.append_nil]⟩
      · split
        · exact event (.faceDown fid) (by nofun) rfl rfl rfl ⟨_, rfl⟩
        · exact event (.faceDown fid) (by nofun) rfl rfl rfl ⟨[], by rw [List.append_nil]⟩
    | faceUp uri fid =>
      show Led 0 x (faceUp c s uri fid)
      unfold faceUp
      dsimp only
      split
      · exact event (.faceUp uri fid) (by nofun) rfl rfl rfl ⟨[], by rw [List.append_nil]⟩
      · split
        · rename_i a _ _
          refine event (.faceUp uri fid) (by nofun) rfl rfl rfl
            ⟨[.register a.name a.uri a.linkCost, .register c.lsaPrefix a.uri a.linkCost], ?_⟩
          show (s.out ++ [_]) ++ [_] = _
          rw [List.append_assoc]; rfl
        · exact event (.faceUp uri fid) (by nofun) rfl rfl rfl ⟨[], by rw [List.append_nil]⟩
    | fetchOk i faces =>
      show Led 0 x (fetchOk c s i faces)
      unfold fetchOk
      split
      · exact h
      · refine event (.dataset faces) (by nofun) rfl rfl rfl ⟨(useDataset c faces s.adjs).2 ++ [.nextFetch], ?_⟩
        show (s.out ++ (useDataset c faces s.adjs).2) ++ [_] = _
        rw [List.append_assoc]
    | fetchFail i =>
      show Led 0 x (fetchFail c s i)
      unfold fetchFail
      split
      · exact h
      · dsimp only
        split
        · exact idle rfl rfl rfl ⟨_, rfl⟩
        · exact idle rfl rfl rfl ⟨_, rfl⟩
    | fetchTimer i =>
      show Led 0 x (fetchTimer s i)
      unfold fetchTimer
      split
      · exact h
      · split
        · exact h
        · exact idle rfl rfl rfl ⟨_, rfl⟩
    | newLsa o =>
      show Led 0 x (newLsa s o)
      unfold newLsa
      split
      · exact h
      · exact idle rfl rfl rfl ⟨_, rfl⟩
    | regFace u fid => exact event (.regFace u fid) (by nofun) rfl rfl rfl ⟨[], by rw [List.append_nil]; rfl⟩
    | clock dt => exact h

theorem Reachable.led {c : NConf} {s : Nbr} (h : Reachable c s) (x : Name) : Led 0 x s := by
  refine Reachable.induct (P := Led 0 x) ?_ ?_ h
  · intro adjs _
    unfold Led init
    simp
  · intro s op _ hl
    exact hl.step op

theorem step_validating {c : NConf} {s : Nbr} (op : Op) {d : Name} (hd : d ∈ (Nbr.step c s op).validating) :
    d ∈ s.validating ∨ ∃ w ∈ s.waiting, w.1 <+: d := by
  unfold Nbr.step at hd
  split at hd
  · exact Or.inl hd
  · have hs : ∀ (s : Nbr) n, (sendHello c s n).validating = s.validating := by
      intro s n
      unfold sendHello
      split
      · rfl
      · dsimp only; split <;> rfl
    have hl : ∀ (s : Nbr) n, (lost c s n).validating = s.validating := by
      intro s n
      unfold lost
      dsimp only
      split
      · rfl
      · split
        · rfl
        · split <;> rfl
    cases op with
    | registered n => left; rw [← hs s n]; exact hd
    | helloTimer i =>
      left
      change d ∈ (helloTimer c s i).validating at hd
      unfold helloTimer at hd
      split at hd
      · exact hd
      · split at hd
        · exact hd
        · rw [hs] at hd; exact hd
    | interest n v =>
      left
      change d ∈ (interest c s n v).validating at hd
      have : (interest c s n v).validating = s.validating := by
        unfold interest
        split
        · rfl
        · split
          · rfl
          · split
            · rfl
            · split
              · rfl
              · split
                · rfl
                · dsimp only; split <;> rfl
      rw [this] at hd; exact hd
    | timeout i =>
      left
      change d ∈ (timeout c s i).validating at hd
      unfold timeout at hd
      split at hd
      · exact hd
      · split at hd
        · exact hd
        · rw [hl] at hd; exact hd
    | nack i =>
      left
      change d ∈ (nack c s i).validating at hd
      unfold nack at hd
      split at hd <;> exact hd
    | nackTimer i =>
      left
      change d ∈ (nackTimer c s i).validating at hd
      unfold nackTimer at hd
      split at hd
      · exact hd
      · split at hd
        · exact hd
        · rw [hl] at hd; exact hd
    | data i d' =>
      change d ∈ (data s i d').validating at hd
      unfold data at hd
      cases hw : s.waiting[i]? with
      | none => rw [hw] at hd; exact Or.inl hd
      | some p =>
        rw [hw] at hd
        dsimp only at hd
        split at hd
        · rename_i hc
          rw [Bool.and_eq_true] at hc
          rcases List.mem_append.1 hd with hd | hd
          · exact Or.inl hd
          · rw [List.mem_singleton] at hd
            exact Or.inr ⟨p, List.mem_of_getElem? hw, hd ▸ List.isPrefixOf_iff_prefix.1 hc.1⟩
        · exact Or.inl hd
    | valid i =>
      left
      change d ∈ (valid c s i).validating at hd
      unfold valid at hd
      split at hd
      · exact hd
      · unfold validated at hd
        dsimp only at hd
        split at hd
        · split at hd <;> exact mem_eraseIdx hd
        · exact mem_eraseIdx hd
    | invalid i => exact Or.inl (mem_eraseIdx hd)
    | faceDown fid =>
      left
      change d ∈ (faceDown c s fid).validating at hd
      unfold faceDown at hd
      dsimp only at hd
      split at hd
      · exact hd
      · split at hd <;> exact hd
    | faceUp u fid =>
      left
      change d ∈ (faceUp c s u fid).validating at hd
      unfold faceUp at hd
      dsimp only at hd
      split at hd
      · exact hd
      · split at hd <;> exact hd
    | fetchOk i faces =>
      left
      change d ∈ (fetchOk c s i faces).validating at hd
      unfold fetchOk at hd
      split at hd <;> exact hd
    | fetchFail i =>
      left
      change d ∈ (fetchFail c s i).validating at hd
      unfold fetchFail at hd
      split at hd
      · exact hd
      · dsimp only at hd
        split at hd <;> exact hd
    | fetchTimer i =>
      left
      change d ∈ (fetchTimer s i).validating at hd
      unfold fetchTimer at hd
      split at hd
      · exact hd
      · split at hd <;> exact hd
    | newLsa o =>
      left
      change d ∈ (newLsa s o).validating at hd
      unfold newLsa at hd
      split at hd <;> exact hd
    | regFace u fid => exact Or.inl hd
    | clock dt => exact Or.inl hd

/-- Data being validated, or validated, answers an interest that was sent to a neighbour. -/
def Answered (c : NConf) (s : Nbr) : Prop :=
  ∀ d, (d ∈ s.validating ∨ .valid d ∈ s.hist) →
    ∃ m ∈ s.adjs.map (·.name), NOut.interest (helloOf c m) ∈ s.out ∧ helloOf c m <+: d ∧ d.length ≤ 8800

theorem step_hist {c : NConf} {s : Nbr} (hi : NInv c s) (op : Op) {d : Name} (hd : NEvent.valid d ∈ (Nbr.step c s op).hist) :
    .valid d ∈ s.hist ∨ d ∈ s.validating := by
  have hstep := step_is c s op
  generalize Nbr.step c s op = s' at hstep hd
  have one : ∀ e, s'.hist = s.hist ++ [e] → e ≠ .valid d → NEvent.valid d ∈ s.hist := by
    intro e he hne
    rw [he] at hd
    rcases List.mem_append.1 hd with hd | hd
    · exact hd
    · rw [List.mem_singleton] at hd
      exact absurd hd.symm hne
  cases hstep with
  | quiet q => rw [q.hist] at hd; exact Or.inl hd
  | lost s0 name h0 hw hop =>
    left
    have : (Nbr.lost c s0 name).hist = s.hist ++ [.lost name] := by
      unfold Nbr.lost
      dsimp only
      rw [← h0.2.1]
      split
      · rfl
      · split
        · rfl
        · split <;> rfl
    exact one _ this (by nofun)
  | valid s0 d' h0 hd' =>
    have hh := (validated_spec c s0 d').1
    rw [h0.2.1] at hh
    by_cases e : d' = d
    · right; rw [← e]; exact hd'
    · left; exact one _ hh (fun h => e (by injection h))
  | down fid => left; exact one _ (faceDown_spec c s hi.nodup fid).1 (by nofun)
  | up uri fid => left; exact one _ (faceUp_spec c s hi.nodup uri fid).1 (by nofun)
  | reg uri fid => left; exact one _ (regFace_spec s hi.nodup uri fid).1 (by nofun)
  | dataset i faces s0 h0 => left; exact one (.dataset faces) rfl (by nofun)

theorem Reachable.answered {c : NConf} (hr : c.retry < 4294967296) {s : Nbr} (h : Reachable c s) : Answered c s := by
  refine Reachable.induct (P := Answered c) ?_ ?_ h
  · rintro adjs _ d (hd | hd) <;> cases hd
  · intro s op hre hA d hd
    have hi := hre.ninv
    obtain ⟨o, ho, _⟩ := step_status hr hi op
    have hk := (step_keep hi op).names
    have old : ∀ d, d ∈ s.validating ∨ NEvent.valid d ∈ s.hist →
        ∃ m ∈ (Nbr.step c s op).adjs.map (·.name), NOut.interest (helloOf c m) ∈ (Nbr.step c s op).out ∧ helloOf c m <+: d ∧ d.length ≤ 8800 := by
      intro d hd
      obtain ⟨m, h1, h2, h3⟩ := hA d hd
      rw [hk, ho]
      exact ⟨m, h1, List.mem_append_left _ h2, h3⟩
    rcases hd with hd | hd
    · rcases step_validating op hd with hd' | ⟨w, hw, hp⟩
      · exact old d (Or.inl hd')
      · obtain ⟨m, hm, e⟩ := hi.waiting w hw
        rw [hk, ho]
        refine ⟨m, hm, List.mem_append_left _ ?_, ?_, ((hi.keep (step_keep hi op)).valid d hd).2⟩
        · have hl := hre.led w.1
          unfold Led at hl
          have : 0 < s.waiting.countP (isFor w.1) := List.countP_pos_iff.2 ⟨w, hw, by simp [isFor]⟩
          have : 0 < s.out.count (.interest w.1) := by omega
          have := List.count_pos_iff.1 this
          rw [e] at this
          exact this
        · rw [helloOf_eq, ← e]; exact hp
    · rcases step_hist hi op hd with hd' | hd'
      · exact old d (Or.inr hd')
      · exact old d (Or.inl hd')

end Nbr

open Nbr AdjacencyList

/-- C41: no loss is counted twice or made up: at any time, the losses of an interest, and the ones still out, are at most
the times it was sent. -/
theorem C41_losses {c : NConf} {s : Nbr} (h : Nbr.Reachable c s) (n : Name) :
    s.hist.count (.lost (helloOf c n)) + s.waiting.countP (fun w => decide (w.1 = helloOf c n)) ≤
      s.out.count (.interest (helloOf c n)) := by
  have := h.led (helloOf c n)
  unfold Led at this
  have e : isFor (helloOf c n) = fun w => decide (w.1 = helloOf c n) := rfl
  rw [e] at this
  omega

/-- C42: a validated reply answers a hello interest that was sent to some neighbour `m`, and it can bring up no other
neighbour than `m`, except one whose own name starts with `/<m>/nlsr/INFO`. -/
theorem C42_sender {c : NConf} (hr : c.retry < 4294967296) {s : Nbr} (h : Nbr.Reachable c s) (d : Name)
    (hd : .valid d ∈ s.hist) :
    ∃ m ∈ s.adjs.map (·.name), NOut.interest (helloOf c m) ∈ s.out ∧ helloOf c m <+: d ∧
      ∀ n, IsReplyOf n d → n = m ∨ m ++ [Comp.str "nlsr", Comp.str "INFO"] <+: n := by
  obtain ⟨m, hm, h1, h2, h3⟩ := h.answered hr d (Or.inr hd)
  refine ⟨m, hm, h1, h2, ?_⟩
  rintro n ⟨hl, hp, hi⟩
  obtain ⟨t, rfl⟩ := h2
  have hlen : m.length + 3 + t.length = n.length + 4 := by
    rw [List.length_append, helloOf_eq, helloName_length] at hl
    omega
  have hget : ∀ i, (helloOf c m ++ t)[m.length + i]? = ([Comp.str "nlsr", Comp.str "INFO", ⟨8, Tlv.encName c.router⟩] ++ t)[i]? := by
    intro i
    unfold helloOf
    rw [List.append_assoc, List.getElem?_append_right (by omega)]
    congr 1
    omega
  rcases Nat.lt_or_ge n.length m.length with hlt | hge
  · exfalso
    have e : n.length + 1 = m.length + 0 := by omega
    rw [e, hget] at hi
    have : (Comp.str "nlsr") = Comp.str "INFO" := by simpa using hi
    exact absurd this (by decide +kernel)
  · rcases Nat.lt_or_ge n.length (m.length + 2) with hlt | hge2
    · rcases Nat.lt_or_ge n.length (m.length + 1) with hlt1 | hge1
      · left
        have hln : n.length = m.length := by omega
        have hmp : m <+: helloOf c m ++ t := ⟨[Comp.str "nlsr", Comp.str "INFO", ⟨8, Tlv.encName c.router⟩] ++ t, by unfold helloOf; rw [List.append_assoc]⟩
        have := List.prefix_of_prefix_length_le hp hmp (by omega)
        exact this.eq_of_length hln
      · exfalso
        have e : n.length + 1 = m.length + 2 := by omega
        rw [e, hget] at hi
        have hi' : (⟨8, Tlv.encName c.router⟩ : Comp) = Comp.str "INFO" := by simpa using hi
        injection hi' with _ hv
        have hh := congrArg (fun l => l.head?) hv
        have e1 : (Tlv.encName c.router).head? = some 7 := by
          unfold Tlv.encName Tlv.block Tlv.encVar
          rw [if_pos (by decide)]
          rfl
        rw [e1] at hh
        exact absurd hh (by decide +kernel)
    · right
      have hmp : m ++ [Comp.str "nlsr", Comp.str "INFO"] <+: helloOf c m ++ t :=
        ⟨[⟨8, Tlv.encName c.router⟩] ++ t, by unfold helloOf; simp⟩
      exact List.prefix_of_prefix_length_le hmp hp (by simp; omega)

/-! ### A concrete execution -/

namespace HelloWitness
def conf : NConf :=
  { router := nm ["net", "a"], hyp := .off, retry := 3, resend := 1, interval := 60, lsaPrefix := nm ["localhop", "net", "LSA"],
    syncPrefix := nm ["localhop", "net", "sync"], tries := 3, fetchInt := 3600, nameTlv := fun t => t == 7 }
def adjs : AdjacencyList :=
  [{ name := nm ["net", "b"], uri := "udp4://b", cost := .fin 10 }, { name := nm ["net", "c"], uri := "udp4://c", cost := .fin 25 }]
def reply : Name := helloOf conf (nm ["net", "b"]) ++ [Comp.str "v"]
/-- The face of `b` comes up, a hello is sent and answered, and then three are lost. -/
def upOps : List Nbr.Op :=
  [.faceUp "udp4://b" 256, .registered (nm ["net", "b"]), .data 0 reply, .valid 0]
def downOps : List Nbr.Op :=
  [.clock 60000000000, .helloTimer 0, .clock 1000000000, .timeout 0, .clock 1000000000, .nack 0, .clock 2000000000, .nackTimer 0, .clock 1000000000]
end HelloWitness

open HelloWitness in
theorem hello_fresh : Nbr.Fresh adjs :=
  ⟨by decide +kernel, by decide +kernel, by decide +kernel⟩

open HelloWitness in
theorem hello_up : Nbr.Reachable conf (Nbr.run conf (Nbr.init conf adjs) upOps) := ⟨adjs, upOps, hello_fresh, rfl⟩

/-- `b` is up after its reply, and stays up over two losses; the third takes it down and asks for one build. -/
example :
    let s0 := Nbr.run HelloWitness.conf (Nbr.init HelloWitness.conf HelloWitness.adjs) HelloWitness.upOps
    let s1 := Nbr.run HelloWitness.conf s0 HelloWitness.downOps
    let s2 := Nbr.step HelloWitness.conf s1 (.timeout 0)
    getStatus s0.adjs (nm ["net", "b"]) = .active ∧ getStatus s0.adjs (nm ["net", "c"]) = .inactive ∧
    s0.out.filter isRebuild = [.build] ∧
    getStatus s1.adjs (nm ["net", "b"]) = .active ∧ missed HelloWitness.conf (nm ["net", "b"]) s1.hist = 2 ∧
    getStatus s2.adjs (nm ["net", "b"]) = .inactive ∧ missed HelloWitness.conf (nm ["net", "b"]) s2.hist = 3 ∧
    s2.hist = s1.hist ++ [.lost (helloOf HelloWitness.conf (nm ["net", "b"]))] ∧ s2.out = s1.out ++ [.build] := by
  decide +kernel

/-- The reply is one of `b` and of nobody else. -/
example : IsReplyOf (nm ["net", "b"]) HelloWitness.reply ∧ ¬ IsReplyOf (nm ["net", "c"]) HelloWitness.reply := by
  decide +kernel

end Nlsr
