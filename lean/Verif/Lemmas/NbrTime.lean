import Verif.Lemmas.NbrInv
/- The timers and pending interests of the neighbour component: what each step adds and takes away. -/
namespace Nlsr
namespace Nbr
open AdjacencyList

theorem mem_or_erased {α : Type} {l : List α} {w : α} (h : w ∈ l) (i : Nat) : w ∈ l.eraseIdx i ∨ l[i]? = some w := by
  induction l generalizing i with
  | nil => cases h
  | cons a as ih =>
    cases i with
    | zero =>
      rcases List.mem_cons.1 h with rfl | h
      · exact Or.inr rfl
      · exact Or.inl h
    | succ i =>
      rcases List.mem_cons.1 h with rfl | h
      · exact Or.inl List.mem_cons_self
      · rcases ih h i with h | h
        · exact Or.inl (List.mem_cons_of_mem _ h)
        · exact Or.inr h

/-- Nothing is taken from the timers, the waiting interests and the nacked ones; what is added is due after the hello
interval, the timeout, and twice the timeout. -/
structure OutGrows (c : NConf) (s s' : Nbr) : Prop where
  now      : s'.now = s.now
  timers   : ∀ w ∈ s.timers, w ∈ s'.timers
  waiting  : ∀ w ∈ s.waiting, w ∈ s'.waiting
  nacked   : ∀ w ∈ s.nacked, w ∈ s'.nacked
  timers'  : ∀ w ∈ s'.timers, w ∈ s.timers ∨ w.2 = s.now + c.interval * nsPerSec
  waiting' : ∀ w ∈ s'.waiting, w ∈ s.waiting ∨ w.2 = s.now + c.resend * nsPerSec
  nacked'  : ∀ w ∈ s'.nacked, w ∈ s.nacked ∨ w.2 = s.now + 2 * c.resend * nsPerSec

theorem grow_same {c : NConf} {s s' : Nbr} (h0 : s'.now = s.now) (h1 : s'.timers = s.timers) (h2 : s'.waiting = s.waiting)
    (h3 : s'.nacked = s.nacked) : OutGrows c s s' := by
  refine ⟨h0, ?_, ?_, ?_, ?_, ?_, ?_⟩
  · intro w h; rw [h1]; exact h
  · intro w h; rw [h2]; exact h
  · intro w h; rw [h3]; exact h
  · intro w h; rw [h1] at h; exact Or.inl h
  · intro w h; rw [h2] at h; exact Or.inl h
  · intro w h; rw [h3] at h; exact Or.inl h

theorem OutGrows.refl (c : NConf) (s : Nbr) : OutGrows c s s := grow_same rfl rfl rfl rfl

theorem OutGrows.trans {c : NConf} {s s' s'' : Nbr} (h : OutGrows c s s') (h' : OutGrows c s' s'') : OutGrows c s s'' := by
  refine ⟨h'.now.trans h.now, fun w x => h'.timers w (h.timers w x), fun w x => h'.waiting w (h.waiting w x),
    fun w x => h'.nacked w (h.nacked w x), ?_, ?_, ?_⟩
  · intro w x
    rcases h'.timers' w x with x | x
    · exact h.timers' w x
    · rw [h.now] at x; exact Or.inr x
  · intro w x
    rcases h'.waiting' w x with x | x
    · exact h.waiting' w x
    · rw [h.now] at x; exact Or.inr x
  · intro w x
    rcases h'.nacked' w x with x | x
    · exact h.nacked' w x
    · rw [h.now] at x; exact Or.inr x

theorem express_grow (c : NConf) (s : Nbr) (n : Name) : OutGrows c s (s.express c n) := by
  refine ⟨rfl, fun _ h => h, fun _ h => List.mem_append_left _ h, fun _ h => h, fun _ h => Or.inl h, ?_, fun _ h => Or.inl h⟩
  intro w h
  rcases List.mem_append.1 h with h | h
  · exact Or.inl h
  · rw [List.mem_singleton] at h; rw [h]; exact Or.inr rfl

theorem emit_grow (c : NConf) (s : Nbr) (o : NOut) : OutGrows c s (s.emit o) := grow_same rfl rfl rfl rfl

theorem sendHello_grow (c : NConf) (s : Nbr) (n : Name) : OutGrows c s (s.sendHello c n) := by
  unfold sendHello
  split
  · exact OutGrows.refl c s
  · rename_i a _
    dsimp only
    have h : OutGrows c s (if a.faceId ≠ 0 then s.express c (helloName c a.name) else s) := by
      split
      · exact express_grow ..
      · exact OutGrows.refl c s
    refine h.trans ⟨rfl, fun _ h => List.mem_append_left _ h, fun _ h => h, fun _ h => h, ?_, fun _ h => Or.inl h, fun _ h => Or.inl h⟩
    intro w x
    rcases List.mem_append.1 x with x | x
    · exact Or.inl x
    · rw [List.mem_singleton] at x; rw [x]; exact Or.inr rfl

theorem interest_grow (c : NConf) (s : Nbr) (n : Name) (v : Comp) : OutGrows c s (s.interest c n v) := by
  unfold interest
  split
  · exact OutGrows.refl c s
  · split
    · exact OutGrows.refl c s
    · split
      · exact OutGrows.refl c s
      · split
        · exact grow_same rfl rfl rfl rfl
        · split
          · exact OutGrows.refl c s
          · dsimp only
            split
            · exact (emit_grow c s _).trans (express_grow ..)
            · exact emit_grow c s _

theorem lost_grow (c : NConf) (s : Nbr) (name : Name) : OutGrows c s (lost c s name) := by
  unfold lost
  dsimp only
  split
  · exact grow_same rfl rfl rfl rfl
  · split
    · exact OutGrows.trans (s' := { s with hist := s.hist ++ [.lost name], adjs := incTimedOut s.adjs (Name.getPrefix name (-3)) })
        (grow_same rfl rfl rfl rfl) (express_grow ..)
    · split
      · exact grow_same rfl rfl rfl rfl
      · exact grow_same rfl rfl rfl rfl

theorem validated_grow (c : NConf) (s : Nbr) (d : Name) : OutGrows c s (validated c s d) := by
  unfold validated
  dsimp only
  split
  · split <;> exact grow_same rfl rfl rfl rfl
  · exact grow_same rfl rfl rfl rfl

/-- One step: nothing is taken from the timers and pending interests, or one of them is, in one of the ways there are. -/
inductive Takes (c : NConf) (s : Nbr) : Op → Nbr → Prop
  | none {op s'} (h : OutGrows c s s') : Takes c s op s'
  | timer (i : Nat) (m : Name) (due : Nat) (h : s.timers[i]? = some (m, due)) (hd : due ≤ s.now) :
      Takes c s (.helloTimer i) (sendHello c { s with timers := s.timers.eraseIdx i } m)
  | timeout (i : Nat) (m : Name) (due : Nat) (h : s.waiting[i]? = some (m, due)) (hd : due ≤ s.now) :
      Takes c s (.timeout i) (lost c { s with waiting := s.waiting.eraseIdx i } m)
  | nack (i : Nat) (m : Name) (due : Nat) (h : s.waiting[i]? = some (m, due)) :
      Takes c s (.nack i) { s with waiting := s.waiting.eraseIdx i, nacked := s.nacked ++ [(m, s.now + 2 * c.resend * nsPerSec)] }
  | nackTimer (i : Nat) (m : Name) (due : Nat) (h : s.nacked[i]? = some (m, due)) (hd : due ≤ s.now) :
      Takes c s (.nackTimer i) (lost c { s with nacked := s.nacked.eraseIdx i } m)
  | data (i : Nat) (m : Name) (due : Nat) (d : Name) (h : s.waiting[i]? = some (m, due)) :
      Takes c s (.data i d) { s with waiting := s.waiting.eraseIdx i, validating := s.validating ++ [d] }
  | clock (dt : Nat) : Takes c s (.clock dt) { s with now := s.now + dt }

theorem step_takes (c : NConf) (s : Nbr) (op : Op) : Takes c s op (step c s op) := by
  unfold step
  split
  · exact .none (OutGrows.refl c s)
  · cases op with
    | registered n => exact .none (sendHello_grow ..)
    | helloTimer i =>
      show Takes c s _ (helloTimer c s i)
      unfold helloTimer
      cases h : s.timers[i]? with
      | none => exact .none (OutGrows.refl c s)
      | some p =>
        obtain ⟨m, due⟩ := p
        dsimp only
        split
        · exact .none (OutGrows.refl c s)
        · exact .timer i m due h (by omega)
    | interest n v => exact .none (interest_grow ..)
    | timeout i =>
      show Takes c s _ (Nbr.timeout c s i)
      unfold Nbr.timeout
      cases h : s.waiting[i]? with
      | none => exact .none (OutGrows.refl c s)
      | some p =>
        obtain ⟨m, due⟩ := p
        dsimp only
        split
        · exact .none (OutGrows.refl c s)
        · exact .timeout i m due h (by omega)
    | nack i =>
      show Takes c s _ (Nbr.nack c s i)
      unfold Nbr.nack
      cases h : s.waiting[i]? with
      | none => exact .none (OutGrows.refl c s)
      | some p => exact .nack i p.1 p.2 h
    | nackTimer i =>
      show Takes c s _ (Nbr.nackTimer c s i)
      unfold Nbr.nackTimer
      cases h : s.nacked[i]? with
      | none => exact .none (OutGrows.refl c s)
      | some p =>
        obtain ⟨m, due⟩ := p
        dsimp only
        split
        · exact .none (OutGrows.refl c s)
        · exact .nackTimer i m due h (by omega)
    | data i d =>
      show Takes c s _ (Nbr.data s i d)
      unfold Nbr.data
      cases h : s.waiting[i]? with
      | none => exact .none (OutGrows.refl c s)
      | some p =>
        obtain ⟨m, due⟩ := p
        dsimp only
        split
        · exact .data i m due d h
        · exact .none (OutGrows.refl c s)
    | valid i =>
      show Takes c s _ (Nbr.valid c s i)
      unfold Nbr.valid
      split
      · exact .none (OutGrows.refl c s)
      · exact .none (OutGrows.trans (s' := { s with validating := s.validating.eraseIdx i }) (grow_same rfl rfl rfl rfl) (validated_grow ..))
    | invalid i => exact .none (grow_same rfl rfl rfl rfl)
    | faceDown fid =>
      show Takes c s _ (faceDown c s fid)
      unfold faceDown
      dsimp only
      split
      · exact .none (grow_same rfl rfl rfl rfl)
      · split <;> exact .none (grow_same rfl rfl rfl rfl)
    | faceUp u fid =>
      show Takes c s _ (faceUp c s u fid)
      unfold faceUp
      dsimp only
      split
      · exact .none (grow_same rfl rfl rfl rfl)
      · split <;> exact .none (grow_same rfl rfl rfl rfl)
    | fetchOk i faces =>
      show Takes c s _ (fetchOk c s i faces)
      unfold fetchOk
      split <;> exact .none (grow_same rfl rfl rfl rfl)
    | fetchFail i =>
      show Takes c s _ (fetchFail c s i)
      unfold fetchFail
      split
      · exact .none (grow_same rfl rfl rfl rfl)
      · dsimp only; split <;> exact .none (grow_same rfl rfl rfl rfl)
    | fetchTimer i =>
      show Takes c s _ (fetchTimer s i)
      unfold fetchTimer
      split
      · exact .none (grow_same rfl rfl rfl rfl)
      · split <;> exact .none (grow_same rfl rfl rfl rfl)
    | newLsa o =>
      show Takes c s _ (newLsa s o)
      unfold newLsa
      split <;> exact .none (grow_same rfl rfl rfl rfl)
    | regFace u fid => exact .none (grow_same rfl rfl rfl rfl)
    | clock dt => exact .clock dt

/-- Timers are due within the hello interval. -/
theorem Reachable.soon {c : NConf} {s : Nbr} (h : Reachable c s) : ∀ w ∈ s.timers, w.2 ≤ s.now + c.interval * nsPerSec := by
  refine Reachable.induct (P := fun s => ∀ w ∈ s.timers, w.2 ≤ s.now + c.interval * nsPerSec) ?_ ?_ h
  · intro adjs _ w hw; cases hw
  · intro s op _ ih w hw
    have key : ∀ (s0 s' : Nbr), (∀ w ∈ s0.timers, w ∈ s.timers) → s0.now = s.now → OutGrows c s0 s' → w ∈ s'.timers →
        w.2 ≤ s'.now + c.interval * nsPerSec := by
      intro s0 s' h1 h2 hg hw
      rw [hg.now, h2]
      rcases hg.timers' w hw with x | x
      · exact ih w (h1 w x)
      · rw [h2] at x; omega
    have ht := step_takes c s op
    generalize Nbr.step c s op = s' at ht hw ⊢
    cases ht with
    | none hg => exact key s _ (fun _ h => h) rfl hg hw
    | timer i m due h hd => exact key { s with timers := s.timers.eraseIdx i } _ (fun w hw => mem_eraseIdx hw) rfl (sendHello_grow ..) hw
    | timeout i m due h hd => exact key { s with waiting := s.waiting.eraseIdx i } _ (fun _ h => h) rfl (lost_grow ..) hw
    | nack i m due h => exact ih w hw
    | nackTimer i m due h hd => exact key { s with nacked := s.nacked.eraseIdx i } _ (fun _ h => h) rfl (lost_grow ..) hw
    | data i m due d h => exact ih w hw
    | clock dt =>
      have := ih w hw
      show w.2 ≤ s.now + dt + _
      omega

/-- No timer is late and no pending interest has outlived its time. -/
def OnTime (s : Nbr) : Prop :=
  (∀ w ∈ s.timers, s.now ≤ w.2) ∧ (∀ w ∈ s.waiting, s.now ≤ w.2) ∧ ∀ w ∈ s.nacked, s.now ≤ w.2

theorem OnTime.grow {c : NConf} {s s' : Nbr} (h : OnTime s) (hg : OutGrows c s s') : OnTime s' := by
  refine ⟨?_, ?_, ?_⟩
  · intro w hw
    rw [hg.now]
    rcases hg.timers' w hw with x | x
    · exact h.1 w x
    · omega
  · intro w hw
    rw [hg.now]
    rcases hg.waiting' w hw with x | x
    · exact h.2.1 w x
    · omega
  · intro w hw
    rw [hg.now]
    rcases hg.nacked' w hw with x | x
    · exact h.2.2 w x
    · omega

theorem OnTime.step {c : NConf} {s : Nbr} (h : OnTime s) (op : Op) (hc : ∀ dt, op = .clock dt → OnTime { s with now := s.now + dt }) :
    OnTime (Nbr.step c s op) := by
  have ht := step_takes c s op
  generalize Nbr.step c s op = s' at ht ⊢
  cases ht with
  | none hg => exact h.grow hg
  | timer i m due hi hd =>
    exact OnTime.grow (s := { s with timers := s.timers.eraseIdx i })
      ⟨fun w hw => h.1 w (mem_eraseIdx hw), h.2.1, h.2.2⟩ (sendHello_grow ..)
  | timeout i m due hi hd =>
    exact OnTime.grow (s := { s with waiting := s.waiting.eraseIdx i })
      ⟨h.1, fun w hw => h.2.1 w (mem_eraseIdx hw), h.2.2⟩ (lost_grow ..)
  | nack i m due hi =>
    refine ⟨h.1, fun w hw => h.2.1 w (mem_eraseIdx hw), ?_⟩
    intro w hw
    rcases List.mem_append.1 hw with hw | hw
    · exact h.2.2 w hw
    · rw [List.mem_singleton] at hw; rw [hw]; show s.now ≤ s.now + _; omega
  | nackTimer i m due hi hd =>
    exact OnTime.grow (s := { s with nacked := s.nacked.eraseIdx i })
      ⟨h.1, h.2.1, fun w hw => h.2.2 w (mem_eraseIdx hw)⟩ (lost_grow ..)
  | data i m due d hi => exact ⟨h.1, fun w hw => h.2.1 w (mem_eraseIdx hw), h.2.2⟩
  | clock dt => exact hc dt rfl

end Nbr
end Nlsr
