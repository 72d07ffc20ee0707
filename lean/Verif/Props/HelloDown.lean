import Verif.Lemmas.NbrTime
import Verif.Props.HelloName
/- C90: a neighbour that falls silent is marked down in bounded time. -/
namespace Nlsr
namespace Nbr
open AdjacencyList

/-- `P` holds of each operation of the run, in the state it meets. -/
def Always (c : NConf) (P : Nbr → Op → Prop) : Nbr → List Op → Prop
  | _, [] => True
  | s, op :: ops => P s op ∧ Always c P (Nbr.step c s op) ops

/-- Nothing is heard of neighbour `n`: no data comes for its hello interests, and no reply of it passes validation. -/
def Silent (c : NConf) (n : Name) (s : Nbr) : Op → Prop
  | .data i _ => s.waiting[i]?.map (·.1) ≠ some (helloOf c n)
  | .valid i => ∀ d ∈ s.validating[i]?, ¬ IsReplyOf n d
  | _ => True

/-- The event loop does not lag: time does not pass the moment a timer is due or an interest expires. -/
def Punctual (s : Nbr) : Op → Prop
  | .clock dt => OnTime { s with now := s.now + dt }
  | _ => True

/-- NFD gives faces ids other than 0. -/
def RealFaces : Op → Prop
  | .faceUp _ fid => fid ≠ 0
  | .regFace _ fid => fid ≠ 0
  | _ => True

/-- No hello interest of `n` is nacked. -/
def NotNacked (c : NConf) (n : Name) (s : Nbr) : Op → Prop
  | .nack i => s.waiting[i]?.map (·.1) ≠ some (helloOf c n)
  | _ => True

theorem _root_.Nlsr.Adjacent.active_modify {l : AdjacencyList} {m n : Name} {f : Adjacent → Adjacent} [Adjacent.Keeps f] {a' : Adjacent}
    (hf : find (modify l m f) n = some a') : (n = m ∧ ∃ a, find l n = some a ∧ a' = f a) ∨ (n ≠ m ∧ find l n = some a') := by
  rw [find_modify] at hf
  split at hf
  · rename_i h
    cases hy : find l n with
    | none => rw [hy] at hf; cases hf
    | some b =>
      rw [hy] at hf
      exact Or.inl ⟨h, b, rfl, (Option.some.inj hf).symm⟩
  · rename_i h; exact Or.inr ⟨h, hf⟩

theorem matchFaces_face {a : Adjacent} (faces : List (Uri × Nat)) (h : a.faceId ≠ 0) : (matchFaces a faces).1 = a := by
  induction faces with
  | nil => rfl
  | cons f fs ih =>
    unfold matchFaces
    rw [if_neg (fun x => h x.1)]
    exact ih

/-- A neighbour that is up after a step in which it was not heard of was up before, with no more losses. -/
theorem active_before {c : NConf} {s : Nbr} (hr : Reachable c s) (hrr : c.retry < 4294967296) {n : Name} {op : Op}
    (hsil : Silent c n s op) (hreal : RealFaces op) {a' : Adjacent} (hf : find (Nbr.step c s op).adjs n = some a')
    (ha : a'.status = .active) :
    ∃ a, find s.adjs n = some a ∧ a.status = .active ∧ a.timedOut ≤ a'.timedOut ∧ (a.faceId ≠ 0 → a'.faceId ≠ 0) := by
  have hi := hr.ninv
  have hvalid : ∀ i, op = .valid i → ∀ d, s.validating[i]? = some d → ¬ IsReplyOf n d := by
    intro i e; rw [e] at hsil; exact hsil
  have hstep := step_is c s op
  generalize hs' : Nbr.step c s op = s' at hstep hf
  cases hstep with
  | quiet q => rw [q.adjs] at hf; exact ⟨a', hf, ha, Nat.le_refl _, id⟩
  | lost s0 name h0 hw hop =>
    have hx : IsHello c s name := by
      rcases hw with ⟨d, hw⟩ | ⟨d, hw⟩
      · exact hi.waiting _ hw
      · exact hi.nacked _ hw
    obtain ⟨m, hm, rfl⟩ := hx
    obtain ⟨-, hs⟩ := lost_spec c s0 (hi.small m hm) hrr
    rw [h0.1] at hs
    cases hfm : find s.adjs m with
    | none => rw [hfm] at hs; rw [hs.1] at hf; exact ⟨a', hf, ha, Nat.le_refl _, id⟩
    | some b =>
      rw [hfm] at hs
      dsimp only at hs
      have bump : find (modify s.adjs m Adjacent.bump) n = some a' →
          ∃ a, find s.adjs n = some a ∧ a.status = .active ∧ a.timedOut ≤ a'.timedOut ∧ (a.faceId ≠ 0 → a'.faceId ≠ 0) := by
        intro hx
        rcases Adjacent.active_modify hx with ⟨_, a, h1, rfl⟩ | ⟨_, h1⟩
        · exact ⟨a, h1, ha, Nat.le_succ _, id⟩
        · exact ⟨a', h1, ha, Nat.le_refl _, id⟩
      split at hs
      · rw [hs.1] at hf; exact bump hf
      · split at hs
        · rw [hs.1] at hf
          rcases Adjacent.active_modify hf with ⟨_, a, h1, rfl⟩ | ⟨_, h1⟩
          · cases ha
          · exact ⟨a', h1, ha, Nat.le_refl _, id⟩
        · rw [hs.1] at hf; exact bump hf
  | @valid i s0 d h0 hd =>
    obtain ⟨hh, hs⟩ := validated_spec c s0 d
    rw [h0.1] at hs
    split at hs
    · rename_i hd3
      rw [hs.1] at hf
      rcases Adjacent.active_modify hf with ⟨e, a, h1, rfl⟩ | ⟨_, h1⟩
      · exfalso
        have hl := (hi.valid d hd).2
        have hrep : IsReplyOf n d := (isReplyOf_iff hl n).2 ⟨short_reply hi hd hd3, hd3, e.symm⟩
        -- the data validated is the one at index `i`
        have : s.validating[i]? = some d := by
          cases hv : s.validating[i]? with
          | none =>
            exfalso
            have e1 : Nbr.step c s (.valid i) = s := by
              unfold Nbr.step
              split
              · rfl
              · show Nbr.valid c s i = s
                unfold Nbr.valid; rw [hv]
            rw [e1] at hs'
            have := congrArg Nbr.hist hs'
            rw [hh, h0.2.1] at this
            exact absurd (congrArg List.length this) (by simp)
          | some d' =>
            by_cases hdead : s.dead = true
            · exfalso
              have e1 : Nbr.step c s (.valid i) = s := by unfold Nbr.step; rw [if_pos hdead]
              rw [e1] at hs'
              have := congrArg Nbr.hist hs'
              rw [hh, h0.2.1] at this
              exact absurd (congrArg List.length this) (by simp)
            · have e1 : Nbr.step c s (.valid i) = validated c { s with validating := s.validating.eraseIdx i } d' := by
                unfold Nbr.step
                rw [if_neg hdead]
                show Nbr.valid c s i = _
                unfold Nbr.valid; rw [hv]
              rw [e1] at hs'
              have := congrArg Nbr.hist hs'
              rw [hh, h0.2.1, (validated_spec c _ d').1] at this
              have := List.append_cancel_left this
              injection this with this
              injection this with this
              rw [this]
        exact hvalid i rfl d this hrep
      · exact ⟨a', h1, ha, Nat.le_refl _, id⟩
    · rw [hs.1] at hf; exact ⟨a', hf, ha, Nat.le_refl _, id⟩
  | down fid =>
    obtain ⟨-, hs⟩ := faceDown_spec c s hi.nodup fid
    cases hfm : findFace s.adjs fid with
    | none => rw [hfm] at hs; rw [hs.1] at hf; exact ⟨a', hf, ha, Nat.le_refl _, id⟩
    | some b =>
      rw [hfm] at hs
      dsimp only at hs
      split at hs
      · rw [hs.1] at hf
        rcases Adjacent.active_modify hf with ⟨_, a, h1, rfl⟩ | ⟨_, h1⟩
        · cases ha
        · exact ⟨a', h1, ha, Nat.le_refl _, id⟩
      · rename_i hna
        rw [hs.1] at hf
        rcases Adjacent.active_modify hf with ⟨e, a, h1, rfl⟩ | ⟨_, h1⟩
        · exfalso
          have hb : b ∈ s.adjs := List.mem_of_find?_eq_some hfm
          have := mem_find hi.nodup hb
          rw [← e, h1] at this
          obtain rfl := Option.some.inj this
          exact hna ha
        · exact ⟨a', h1, ha, Nat.le_refl _, id⟩
  | up uri fid =>
    obtain ⟨-, hs⟩ := faceUp_spec c s hi.nodup uri fid
    cases hfm : findUri s.adjs uri with
    | none => rw [hfm] at hs; rw [hs.1] at hf; exact ⟨a', hf, ha, Nat.le_refl _, id⟩
    | some b =>
      rw [hfm] at hs
      dsimp only at hs
      split at hs
      · rw [hs.1] at hf
        rcases Adjacent.active_modify hf with ⟨_, a, h1, rfl⟩ | ⟨_, h1⟩
        · exact ⟨a, h1, ha, Nat.le_refl _, fun _ => hreal⟩
        · exact ⟨a', h1, ha, Nat.le_refl _, id⟩
      · rw [hs.1] at hf; exact ⟨a', hf, ha, Nat.le_refl _, id⟩
  | reg uri fid =>
    obtain ⟨-, -, hs⟩ := regFace_spec s hi.nodup uri fid
    cases hfm : findUri s.adjs uri with
    | none => rw [hfm] at hs; rw [hs] at hf; exact ⟨a', hf, ha, Nat.le_refl _, id⟩
    | some b =>
      rw [hfm] at hs
      rw [hs] at hf
      rcases Adjacent.active_modify hf with ⟨_, a, h1, rfl⟩ | ⟨_, h1⟩
      · exact ⟨a, h1, ha, Nat.le_refl _, fun _ => hreal⟩
      · exact ⟨a', h1, ha, Nat.le_refl _, id⟩
  | dataset i faces s0 h0 =>
    have hf' : find (useDataset c faces s.adjs).1 n = some a' := hf
    rw [useDataset_adjs, find_map _ _ _ (fun a => (matchFaces_same a faces).1)] at hf'
    cases hy : find s.adjs n with
    | none => rw [hy] at hf'; cases hf'
    | some b =>
      rw [hy] at hf'
      obtain rfl := Option.some.inj hf'
      have := matchFaces_same b faces
      refine ⟨b, rfl, this.2.2.1 ▸ ha, Nat.le_of_eq this.2.2.2.1.symm, ?_⟩
      intro hb
      show (matchFaces b faces).1.faceId ≠ 0
      rw [matchFaces_face faces hb]
      exact hb

/-- Seconds in nanoseconds. -/
def ns (t : Nat) : Nat := t * nsPerSec

/-- Something is under way that will count as a loss of `n` or ask for its hello, early enough: with `τ` for each hello
asked for, the last loss is counted by `T`. -/
def Pending (c : NConf) (n : Name) (τ T : Nat) (k : Nat) (s : Nbr) : Prop :=
  (∃ due, (n, due) ∈ s.timers ∧ due + τ * max c.retry 1 ≤ T) ∨
  (∃ due, (helloName c n, due) ∈ s.waiting ∧ due + (τ - ns c.resend) + τ * (max c.retry 1 - 1 - k) ≤ T) ∨
  (∃ due, (helloName c n, due) ∈ s.nacked ∧ due + τ * (max c.retry 1 - 1 - k) ≤ T)

theorem Pending.mono {c : NConf} {n : Name} {τ T k k' : Nat} {s s' : Nbr} (h : Pending c n τ T k s) (hk : k ≤ k')
    (h1 : ∀ w ∈ s.timers, w ∈ s'.timers) (h2 : ∀ w ∈ s.waiting, w ∈ s'.waiting) (h3 : ∀ w ∈ s.nacked, w ∈ s'.nacked) :
    Pending c n τ T k' s' := by
  have hle : τ * (max c.retry 1 - 1 - k') ≤ τ * (max c.retry 1 - 1 - k) := Nat.mul_le_mul_left _ (by omega)
  rcases h with ⟨d, hd, h⟩ | ⟨d, hd, h⟩ | ⟨d, hd, h⟩
  · exact Or.inl ⟨d, h1 _ hd, h⟩
  · exact Or.inr (Or.inl ⟨d, h2 _ hd, by omega⟩)
  · exact Or.inr (Or.inr ⟨d, h3 _ hd, by omega⟩)

/-- A hello interest of `n` sent now is in time if the next loss is counted at the latest at `t`. -/
theorem Pending.sent {c : NConf} {n : Name} {τ T k : Nat} {s : Nbr} (hτ : ns c.resend ≤ τ) (hk : k < max c.retry 1)
    (hw : (helloName c n, s.now + c.resend * nsPerSec) ∈ s.waiting) (ht : s.now + τ * (max c.retry 1 - k) ≤ T) :
    Pending c n τ T k s := by
  refine Or.inr (Or.inl ⟨_, hw, ?_⟩)
  have e : max c.retry 1 - k = (max c.retry 1 - 1 - k) + 1 := by omega
  rw [e, Nat.mul_add, Nat.mul_one] at ht
  unfold ns at hτ ⊢
  omega

/-- If a neighbour that is up lost a hello, and still is up, then the next hello is sent at once. -/
theorem lost_again {c : NConf} {s s0 : Nbr} (hr : Reachable c s) (hrr : c.retry < 4294967296) (h0 : s0.adjs = s.adjs)
    {n : Name} (hm : n ∈ s.adjs.map (·.name)) {a' : Adjacent} (hf : find (lost c s0 (helloName c n)).adjs n = some a')
    (ha : a'.status = .active) : ∃ a, find s.adjs n = some a ∧ a'.timedOut = a.timedOut + 1 ∧
      (helloName c n, s0.now + c.resend * nsPerSec) ∈ (lost c s0 (helloName c n)).waiting := by
  have hi := hr.ninv
  obtain ⟨-, hs⟩ := lost_spec c s0 (hi.small n hm) hrr
  rw [h0] at hs
  have hcount := hr.counts hrr
  cases hfm : find s.adjs n with
  | none => exact absurd hm ((find_none_iff _ _).1 hfm)
  | some a =>
    rw [hfm] at hs
    dsimp only at hs
    by_cases hlt : (a.timedOut + 1) % 4294967296 < c.retry
    · rw [if_pos hlt] at hs
      rw [hs.1] at hf
      rcases Adjacent.active_modify hf with ⟨_, b, h1, rfl⟩ | ⟨h, _⟩
      · rw [hfm] at h1
        obtain rfl := Option.some.inj h1
        refine ⟨a, rfl, rfl, ?_⟩
        unfold lost
        dsimp only
        rw [if_neg (not_not_intro (helloName_fromEnd c n)), helloName_prefix c (hi.small n hm)]
        have h2 : (getTimedOut (incTimedOut s0.adjs n) n % 4294967296).toNat = (a.timedOut + 1) % 4294967296 := by
          have hf' : find (incTimedOut s0.adjs n) n = some { a with timedOut := a.timedOut + 1 } := by
            unfold incTimedOut
            rw [h0, modify_find_eq, hfm]
            · rfl
            · exact fun _ => rfl
          unfold getTimedOut; rw [hf']
          show (((a.timedOut + 1 : Nat) : Int) % 4294967296).toNat = _
          omega
        rw [h2, if_pos hlt]
        exact List.mem_append_right _ List.mem_cons_self
      · exact absurd rfl h
    · rw [if_neg hlt] at hs
      exfalso
      split at hs
      · rw [hs.1] at hf
        rcases Adjacent.active_modify hf with ⟨_, b, h1, rfl⟩ | ⟨h, _⟩
        · cases ha
        · exact h rfl
      · rename_i hna
        rw [hs.1] at hf
        rcases Adjacent.active_modify hf with ⟨_, b, h1, rfl⟩ | ⟨h, _⟩
        · rw [hfm] at h1
          obtain rfl := Option.some.inj h1
          exact hna ha
        · exact h rfl

/-- While `n` is up, it has a face, and its going down is under way. -/
def Doomed (c : NConf) (n : Name) (τ T : Nat) (s : Nbr) : Prop :=
  ∀ a, find s.adjs n = some a → a.status = .active → a.faceId ≠ 0 ∧ Pending c n τ T a.timedOut s

theorem Doomed.step {c : NConf} {n : Name} {τ T : Nat} {s : Nbr} (hr : Reachable c s) (hrr : c.retry < 4294967296)
    (hτ : ns c.resend ≤ τ) (h : Doomed c n τ T s) (hon : OnTime s) {op : Op} (hsil : Silent c n s op) (hreal : RealFaces op)
    (hnack : 3 * ns c.resend ≤ τ ∨ NotNacked c n s op) : Doomed c n τ T (Nbr.step c s op) := by
  intro a' hf ha
  obtain ⟨a, hfa, haa, hle, hface⟩ := active_before hr hrr hsil hreal hf ha
  obtain ⟨hfid, hp⟩ := h a hfa haa
  refine ⟨hface hfid, ?_⟩
  have hc' := ((hr.step op).counts hrr n a' hf ha).2
  have hm : n ∈ s.adjs.map (·.name) := mem_names_of_find hfa
  have hle' : τ * (max c.retry 1 - 1 - a'.timedOut) ≤ τ * (max c.retry 1 - 1 - a.timedOut) := Nat.mul_le_mul_left _ (by omega)
  have ht := step_takes c s op
  generalize Nbr.step c s op = s' at ht hf
  cases ht with
  | none hg => exact hp.mono hle hg.timers hg.waiting hg.nacked
  | timer i m due hi hd =>
    have hg := sendHello_grow c { s with timers := s.timers.eraseIdx i } m
    rcases hp with ⟨d, hx, hd'⟩ | hp
    · rcases mem_or_erased hx i with hx | hx
      · exact Or.inl ⟨d, hg.timers _ hx, hd'⟩
      · rw [hi] at hx
        injection hx with hx
        injection hx with hx1 hx2
        subst hx1 hx2
        have hnow := hon.1 _ (List.mem_of_getElem? hi)
        dsimp only at hnow
        refine Pending.sent hτ hc' ?_ ?_
        · rw [hg.now]
          unfold sendHello
          dsimp only
          rw [hfa]
          dsimp only
          rw [if_pos hfid, find_name hfa]
          exact List.mem_append_right _ List.mem_cons_self
        · rw [hg.now]
          show s.now + _ ≤ T
          have : τ * (max c.retry 1 - a'.timedOut) ≤ τ * max c.retry 1 := Nat.mul_le_mul_left _ (by omega)
          omega
    · rcases hp with ⟨d, hx, hd'⟩ | ⟨d, hx, hd'⟩
      · exact Or.inr (Or.inl ⟨d, hg.waiting _ hx, by omega⟩)
      · exact Or.inr (Or.inr ⟨d, hg.nacked _ hx, by omega⟩)
  | timeout i m due hi hd =>
    have hg := lost_grow c { s with waiting := s.waiting.eraseIdx i } m
    rcases hp with ⟨d, hx, hd'⟩ | ⟨d, hx, hd'⟩ | ⟨d, hx, hd'⟩
    · exact Or.inl ⟨d, hg.timers _ hx, hd'⟩
    · rcases mem_or_erased hx i with hx | hx
      · exact Or.inr (Or.inl ⟨d, hg.waiting _ hx, by omega⟩)
      · rw [hi] at hx
        injection hx with hx
        injection hx with hx1 hx2
        subst hx1 hx2
        have hnow := hon.2.1 _ (List.mem_of_getElem? hi)
        dsimp only at hnow
        obtain ⟨b, hb, he, hwt⟩ := lost_again hr hrr (s0 := { s with waiting := s.waiting.eraseIdx i }) rfl hm hf ha
        rw [hfa] at hb
        obtain rfl := Option.some.inj hb
        refine Pending.sent hτ hc' (by rw [hg.now]; exact hwt) ?_
        rw [hg.now]
        show s.now + _ ≤ T
        have e : max c.retry 1 - a'.timedOut = max c.retry 1 - 1 - a.timedOut := by omega
        rw [e]
        omega
    · exact Or.inr (Or.inr ⟨d, hg.nacked _ hx, by omega⟩)
  | nack i m due hi =>
    rcases hp with ⟨d, hx, hd'⟩ | ⟨d, hx, hd'⟩ | ⟨d, hx, hd'⟩
    · exact Or.inl ⟨d, hx, hd'⟩
    · rcases mem_or_erased hx i with hx | hx
      · exact Or.inr (Or.inl ⟨d, hx, by omega⟩)
      · rcases hnack with h3 | h3
        · rw [hi] at hx
          injection hx with hx
          injection hx with hx1 hx2
          subst hx1 hx2
          have hnow := hon.2.1 _ (List.mem_of_getElem? hi)
          dsimp only at hnow
          refine Or.inr (Or.inr ⟨_, List.mem_append_right _ List.mem_cons_self, ?_⟩)
          have e : 2 * c.resend * nsPerSec = 2 * ns c.resend := by unfold ns; rw [Nat.mul_assoc]
          rw [e]
          omega
        · exact absurd (congrArg (Option.map Prod.fst) hx) h3
    · exact Or.inr (Or.inr ⟨d, List.mem_append_left _ hx, by omega⟩)
  | nackTimer i m due hi hd =>
    have hg := lost_grow c { s with nacked := s.nacked.eraseIdx i } m
    rcases hp with ⟨d, hx, hd'⟩ | ⟨d, hx, hd'⟩ | ⟨d, hx, hd'⟩
    · exact Or.inl ⟨d, hg.timers _ hx, hd'⟩
    · exact Or.inr (Or.inl ⟨d, hg.waiting _ hx, by omega⟩)
    · rcases mem_or_erased hx i with hx | hx
      · exact Or.inr (Or.inr ⟨d, hg.nacked _ hx, by omega⟩)
      · rw [hi] at hx
        injection hx with hx
        injection hx with hx1 hx2
        subst hx1 hx2
        have hnow := hon.2.2 _ (List.mem_of_getElem? hi)
        dsimp only at hnow
        obtain ⟨b, hb, he, hwt⟩ := lost_again hr hrr (s0 := { s with nacked := s.nacked.eraseIdx i }) rfl hm hf ha
        rw [hfa] at hb
        obtain rfl := Option.some.inj hb
        refine Pending.sent hτ hc' (by rw [hg.now]; exact hwt) ?_
        rw [hg.now]
        show s.now + _ ≤ T
        have e : max c.retry 1 - a'.timedOut = max c.retry 1 - 1 - a.timedOut := by omega
        rw [e]
        omega
  | data i m due d hi =>
    rcases hp with ⟨d, hx, hd'⟩ | ⟨d, hx, hd'⟩ | ⟨d, hx, hd'⟩
    · exact Or.inl ⟨d, hx, hd'⟩
    · rcases mem_or_erased hx i with hx | hx
      · exact Or.inr (Or.inl ⟨d, hx, by omega⟩)
      · exact absurd (congrArg (Option.map Prod.fst) hx) hsil
    · exact Or.inr (Or.inr ⟨d, hx, by omega⟩)
  | clock dt => exact hp.mono hle (fun _ h => h) (fun _ h => h) (fun _ h => h)

/-- The run of a silent neighbour: while it is up, the time is not over. -/
theorem silent_run {c : NConf} {n : Name} {τ T : Nat} (hrr : c.retry < 4294967296) (hτ : ns c.resend ≤ τ) (ops : List Op) :
    ∀ s : Nbr, Reachable c s → OnTime s → Doomed c n τ T s → Always c (Silent c n) s ops → Always c Punctual s ops →
      (∀ op ∈ ops, RealFaces op) → (3 * ns c.resend ≤ τ ∨ Always c (NotNacked c n) s ops) →
      Reachable c (run c s ops) ∧ OnTime (run c s ops) ∧ Doomed c n τ T (run c s ops) := by
  induction ops with
  | nil => intro s h1 h2 h3 _ _ _ _; exact ⟨h1, h2, h3⟩
  | cons op ops ih =>
    intro s h1 h2 h3 h4 h5 h6 h7
    refine ih (Nbr.step c s op) (h1.step op) (h2.step op ?_)
      (h3.step h1 hrr hτ h2 h4.1 (h6 op List.mem_cons_self) (h7.imp id (·.1))) h4.2 h5.2
      (fun o ho => h6 o (List.mem_cons_of_mem _ ho)) (h7.imp id (·.2))
    intro dt e
    have := h5.1
    rw [e] at this
    exact this

theorem Doomed.time {c : NConf} {n : Name} {τ T : Nat} {s : Nbr} (h : Doomed c n τ T s) (hon : OnTime s)
    (hs : getStatus s.adjs n = .active) : s.now ≤ T := by
  unfold getStatus at hs
  cases hf : find s.adjs n with
  | none => rw [hf] at hs; cases hs
  | some a =>
    rw [hf] at hs
    rcases (h a hf hs).2 with ⟨d, hd, hx⟩ | ⟨d, hd, hx⟩ | ⟨d, hd, hx⟩
    · have := hon.1 _ hd; dsimp only at this; omega
    · have := hon.2.1 _ hd; dsimp only at this; omega
    · have := hon.2.2 _ hd; dsimp only at this; omega

theorem down_core {c : NConf} (hrr : c.retry < 4294967296) {s : Nbr} (hr : Reachable c s) (hon : OnTime s) {n : Name} {a : Adjacent}
    (hf : find s.adjs n = some a) (hface : a.faceId ≠ 0) (hloop : ∃ due, (n, due) ∈ s.timers) {ops : List Op}
    (hsil : Always c (Silent c n) s ops) (hpun : Always c Punctual s ops) (hreal : ∀ op ∈ ops, RealFaces op) {τ : Nat}
    (hτ : ns c.resend ≤ τ) (hn : 3 * ns c.resend ≤ τ ∨ Always c (NotNacked c n) s ops)
    (ht : s.now + ns c.interval + τ * max c.retry 1 < (run c s ops).now) : getStatus (run c s ops).adjs n ≠ .active := by
  have hdoom : Doomed c n τ (s.now + ns c.interval + τ * max c.retry 1) s := by
    intro b hb _
    rw [hf] at hb
    obtain rfl := Option.some.inj hb
    refine ⟨hface, Or.inl ?_⟩
    obtain ⟨d, hd⟩ := hloop
    have := hr.soon _ hd
    dsimp only at this
    exact ⟨d, hd, by unfold ns; omega⟩
  obtain ⟨h1, h2, h3⟩ := silent_run hrr hτ ops s hr hon hdoom hsil hpun hreal hn
  intro h
  have := h3.time h2 h
  omega

/-! ### Neighbours that stay up for ever -/

/-- Nothing is heard of the face of `n`, and no registration of its prefix succeeds. -/
def NoNews (n : Name) (s : Nbr) : Op → Prop
  | .registered m => m ≠ n
  | .faceDown fid => ∀ a, find s.adjs n = some a → a.faceId ≠ fid
  | .faceUp u _ => ∀ a, find s.adjs n = some a → a.uri ≠ u
  | .regFace u _ => ∀ a, find s.adjs n = some a → a.uri ≠ u
  | .fetchOk _ faces => ∀ a, find s.adjs n = some a → ∀ f ∈ faces, f.1 ≠ a.uri
  | _ => True

/-- `n` is up, no hello interest of it is pending, and none will be sent: it has no face, or no timer. -/
structure Stuck (c : NConf) (n : Name) (s : Nbr) : Prop where
  up      : ∃ a, find s.adjs n = some a ∧ a.status = .active ∧ (a.faceId = 0 ∨ ∀ w ∈ s.timers, w.1 ≠ n)
  waiting : ∀ w ∈ s.waiting, w.1 ≠ helloName c n
  nacked  : ∀ w ∈ s.nacked, w.1 ≠ helloName c n

theorem Stuck.same {c : NConf} {n : Name} {s s' : Nbr} (h : Stuck c n s) (h1 : s'.adjs = s.adjs) (h2 : ∀ w ∈ s'.timers, w ∈ s.timers)
    (h3 : ∀ w ∈ s'.waiting, w ∈ s.waiting) (h4 : ∀ w ∈ s'.nacked, w ∈ s.nacked) : Stuck c n s' := by
  refine ⟨?_, fun w hw => h.waiting w (h3 w hw), fun w hw => h.nacked w (h4 w hw)⟩
  obtain ⟨a, ha, hb, hc⟩ := h.up
  exact ⟨a, h1 ▸ ha, hb, hc.imp id (fun hc w hw => hc w (h2 w hw))⟩

theorem Stuck.lost {c : NConf} (hrr : c.retry < 4294967296) {n m : Name} {s : Nbr} (h : Stuck c n s) (hm : m.length < 2 ^ 63) (hne : m ≠ n) :
    Stuck c n (lost c s (helloName c m)) := by
  have hs := (lost_spec c s hm hrr).2
  have hg := lost_grow c s (helloName c m)
  have hmod : ∀ (f : Adjacent → Adjacent) [Adjacent.Keeps f], find (modify s.adjs m f) n = find s.adjs n := by
    intro f _
    rw [find_modify, if_neg (fun e => hne e.symm)]
  have hadj : find (Nbr.lost c s (helloName c m)).adjs n = find s.adjs n := by
    cases hfm : find s.adjs m with
    | none => rw [hfm] at hs; rw [hs.1]
    | some a =>
      rw [hfm] at hs
      dsimp only at hs
      split at hs
      · rw [hs.1, hmod]
      · split at hs
        · rw [hs.1, hmod]
        · rw [hs.1, hmod]
  have hw : ∀ w ∈ (Nbr.lost c s (helloName c m)).waiting, w ∈ s.waiting ∨ w.1 = helloName c m := by
    intro w
    unfold Nbr.lost
    dsimp only
    rw [if_neg (not_not_intro (helloName_fromEnd c m)), helloName_prefix c hm]
    split
    · intro hw
      rcases List.mem_append.1 hw with hw | hw
      · exact Or.inl hw
      · rw [List.mem_singleton] at hw; rw [hw]; exact Or.inr rfl
    · split
      · exact fun h => Or.inl h
      · exact fun h => Or.inl h
  have ht : (Nbr.lost c s (helloName c m)).timers = s.timers ∧ (Nbr.lost c s (helloName c m)).nacked = s.nacked := by
    unfold Nbr.lost
    dsimp only
    split
    · exact ⟨rfl, rfl⟩
    · split
      · exact ⟨rfl, rfl⟩
      · split <;> exact ⟨rfl, rfl⟩
  obtain ⟨a, h1, h2, h3⟩ := h.up
  refine ⟨⟨a, hadj.trans h1, h2, ht.1.symm ▸ h3⟩, ?_, ht.2.symm ▸ h.nacked⟩
  intro w hx
  rcases hw w hx with hx | hx
  · exact h.waiting w hx
  · rw [hx]; exact fun e => hne (helloName_inj c e)

theorem Stuck.sendHello {c : NConf} {n m : Name} {s : Nbr} (h : Stuck c n s) (hm : m = n → ∀ a, find s.adjs n = some a → a.faceId = 0) :
    Stuck c n (s.sendHello c m) := by
  unfold Nbr.sendHello
  cases hf : find s.adjs m with
  | none => exact h
  | some b =>
    dsimp only
    obtain ⟨a, h1, h2, h3⟩ := h.up
    have hup : ∀ (s' : Nbr), s'.adjs = s.adjs → s'.timers = s.timers ++ [(m, s.now + c.interval * nsPerSec)] →
        ∃ a, find s'.adjs n = some a ∧ a.status = .active ∧ (a.faceId = 0 ∨ ∀ w ∈ s'.timers, w.1 ≠ n) := by
      intro s' e1 e2
      refine ⟨a, by rw [e1]; exact h1, h2, ?_⟩
      by_cases hmn : m = n
      · exact Or.inl (hm hmn a h1)
      · refine h3.imp id (fun h3 w hw => ?_)
        rw [e2] at hw
        rcases List.mem_append.1 hw with hw | hw
        · exact h3 w hw
        · rw [List.mem_singleton] at hw; rw [hw]; exact hmn
    split
    · rename_i hfid
      refine ⟨hup _ rfl rfl, ?_, h.nacked⟩
      intro w hw
      rcases List.mem_append.1 hw with hw | hw
      · exact h.waiting w hw
      · rw [List.mem_singleton] at hw
        rw [hw, find_name hf]
        intro e
        have := helloName_inj c e
        subst this
        rw [h1] at hf
        obtain rfl := Option.some.inj hf
        exact hfid (hm rfl _ h1)
    · exact ⟨hup _ rfl rfl, h.waiting, h.nacked⟩

theorem Stuck.adjs {c : NConf} {n : Name} {s s' : Nbr} (h : Stuck c n s) (h1 : find s'.adjs n = find s.adjs n) (h2 : s'.timers = s.timers)
    (h3 : s'.waiting = s.waiting) (h4 : s'.nacked = s.nacked) : Stuck c n s' := by
  obtain ⟨a, ha, hb, hc⟩ := h.up
  exact ⟨⟨a, h1.trans ha, hb, h2.symm ▸ hc⟩, h3.symm ▸ h.waiting, h4.symm ▸ h.nacked⟩

theorem Stuck.step {c : NConf} (hrr : c.retry < 4294967296) {n : Name} {s : Nbr} (hr : Reachable c s) (h : Stuck c n s) {op : Op}
    (hop : NoNews n s op) : Stuck c n (Nbr.step c s op) := by
  have hi := hr.ninv
  have hlost : ∀ (s0 : Nbr) (name : Name), Stuck c n s0 → IsHello c s name → name ≠ helloName c n → Stuck c n (Nbr.lost c s0 name) := by
    intro s0 name h0 hx hne
    obtain ⟨m, hm, rfl⟩ := hx
    exact h0.lost hrr (hi.small m hm) (fun e => hne (by rw [e]))
  unfold Nbr.step
  split
  · exact h
  · cases op with
    | registered m => exact h.sendHello (fun e => absurd e hop)
    | helloTimer i =>
      show Stuck c n (Nbr.helloTimer c s i)
      unfold Nbr.helloTimer
      cases ht : s.timers[i]? with
      | none => exact h
      | some p =>
        obtain ⟨m, due⟩ := p
        dsimp only
        split
        · exact h
        · refine Stuck.sendHello (s := { s with timers := s.timers.eraseIdx i })
            (h.same rfl (fun w hw => mem_eraseIdx hw) (fun _ h => h) (fun _ h => h)) ?_
          intro e b hb
          obtain ⟨a, h1, h2, h3⟩ := h.up
          have hb : find s.adjs n = some b := hb
          rw [h1] at hb
          obtain rfl := Option.some.inj hb
          rcases h3 with h3 | h3
          · exact h3
          · exact absurd e (h3 _ (List.mem_of_getElem? ht))
    | interest name v =>
      show Stuck c n (Nbr.interest c s name v)
      unfold Nbr.interest
      split
      · exact h
      · split
        · exact h
        · split
          · exact h
          · split
            · exact h.same rfl (fun _ h => h) (fun _ h => h) (fun _ h => h)
            · split
              · exact h
              · rename_i m _ b hf
                dsimp only
                split
                · rename_i hin
                  obtain ⟨a, h1, h2, h3⟩ := h.up
                  refine ⟨⟨a, h1, h2, h3⟩, ?_, h.nacked⟩
                  intro w hw
                  rcases List.mem_append.1 hw with hw | hw
                  · exact h.waiting w hw
                  · rw [List.mem_singleton] at hw
                    rw [hw]
                    intro e
                    have := helloName_inj c e
                    subst this
                    rw [h1] at hf
                    obtain rfl := Option.some.inj hf
                    rw [h2] at hin
                    cases hin.1
                · exact h.same rfl (fun _ h => h) (fun _ h => h) (fun _ h => h)
    | timeout i =>
      show Stuck c n (Nbr.timeout c s i)
      unfold Nbr.timeout
      cases ht : s.waiting[i]? with
      | none => exact h
      | some p =>
        obtain ⟨m, due⟩ := p
        dsimp only
        split
        · exact h
        · exact hlost _ m (h.same rfl (fun _ h => h) (fun w hw => mem_eraseIdx hw) (fun _ h => h))
            (hi.waiting _ (List.mem_of_getElem? ht)) (h.waiting _ (List.mem_of_getElem? ht))
    | nack i =>
      show Stuck c n (Nbr.nack c s i)
      unfold Nbr.nack
      cases ht : s.waiting[i]? with
      | none => exact h
      | some p =>
        obtain ⟨m, due⟩ := p
        dsimp only
        refine ⟨h.up, fun w hw => h.waiting w (mem_eraseIdx hw), ?_⟩
        intro w hw
        rcases List.mem_append.1 hw with hw | hw
        · exact h.nacked w hw
        · rw [List.mem_singleton] at hw; rw [hw]; exact h.waiting (m, due) (List.mem_of_getElem? ht)
    | nackTimer i =>
      show Stuck c n (Nbr.nackTimer c s i)
      unfold Nbr.nackTimer
      cases ht : s.nacked[i]? with
      | none => exact h
      | some p =>
        obtain ⟨m, due⟩ := p
        dsimp only
        split
        · exact h
        · exact hlost _ m (h.same rfl (fun _ h => h) (fun _ h => h) (fun w hw => mem_eraseIdx hw))
            (hi.nacked _ (List.mem_of_getElem? ht)) (h.nacked _ (List.mem_of_getElem? ht))
    | data i d =>
      show Stuck c n (Nbr.data s i d)
      unfold Nbr.data
      split
      · exact h
      · split
        · exact h.same rfl (fun _ h => h) (fun w hw => mem_eraseIdx hw) (fun _ h => h)
        · exact h
    | valid i =>
      show Stuck c n (Nbr.valid c s i)
      unfold Nbr.valid
      split
      · exact h
      · rename_i d hd
        have h0 : Stuck c n { s with validating := s.validating.eraseIdx i } :=
          h.same rfl (fun _ h => h) (fun _ h => h) (fun _ h => h)
        have hq : (validated c { s with validating := s.validating.eraseIdx i } d).timers = s.timers ∧
            (validated c { s with validating := s.validating.eraseIdx i } d).waiting = s.waiting ∧
            (validated c { s with validating := s.validating.eraseIdx i } d).nacked = s.nacked := by
          unfold validated
          dsimp only
          split
          · split <;> exact ⟨rfl, rfl, rfl⟩
          · exact ⟨rfl, rfl, rfl⟩
        have hs := (validated_spec c { s with validating := s.validating.eraseIdx i } d).2
        split at hs
        · obtain ⟨a, h1, h2, h3⟩ := h.up
          have hfa : find (validated c { s with validating := s.validating.eraseIdx i } d).adjs n =
              if n = Name.getPrefix d (-4) then some (Adjacent.up a) else some a := by
            rw [hs.1, find_modify]
            show (if _ then Option.map _ (find s.adjs n) else find s.adjs n) = _
            rw [h1]; rfl
          refine ⟨?_, hq.2.1.symm ▸ h.waiting, hq.2.2.symm ▸ h.nacked⟩
          rw [hfa, hq.1]
          split
          · exact ⟨_, rfl, rfl, h3⟩
          · exact ⟨_, rfl, h2, h3⟩
        · exact h.adjs (by rw [hs.1]) hq.1 hq.2.1 hq.2.2
    | invalid i => exact h.same rfl (fun _ h => h) (fun _ h => h) (fun _ h => h)
    | faceDown fid =>
      have hs := (faceDown_spec c s hi.nodup fid).2
      have hq : (faceDown c s fid).timers = s.timers ∧ (faceDown c s fid).waiting = s.waiting ∧ (faceDown c s fid).nacked = s.nacked := by
        unfold faceDown
        dsimp only
        split
        · exact ⟨rfl, rfl, rfl⟩
        · split <;> exact ⟨rfl, rfl, rfl⟩
      refine h.adjs (s' := faceDown c s fid) ?_ hq.1 hq.2.1 hq.2.2
      cases hfm : findFace s.adjs fid with
      | none => rw [hfm] at hs; rw [hs.1]
      | some b =>
        rw [hfm] at hs
        dsimp only at hs
        have hb : b ∈ s.adjs := List.mem_of_find?_eq_some hfm
        have hne : n ≠ b.name := by
          intro e
          have := mem_find hi.nodup hb
          rw [← e] at this
          exact hop b this (by simpa using List.find?_some hfm)
        split at hs
        · rw [hs.1, find_modify, if_neg hne]
        · rw [hs.1, find_modify, if_neg hne]
    | faceUp u fid =>
      have hs := (faceUp_spec c s hi.nodup u fid).2
      have hq : (faceUp c s u fid).timers = s.timers ∧ (faceUp c s u fid).waiting = s.waiting ∧ (faceUp c s u fid).nacked = s.nacked := by
        unfold faceUp
        dsimp only
        split
        · exact ⟨rfl, rfl, rfl⟩
        · split <;> exact ⟨rfl, rfl, rfl⟩
      refine h.adjs (s' := faceUp c s u fid) ?_ hq.1 hq.2.1 hq.2.2
      cases hfm : findUri s.adjs u with
      | none => rw [hfm] at hs; rw [hs.1]
      | some b =>
        rw [hfm] at hs
        dsimp only at hs
        have hb : b ∈ s.adjs := List.mem_of_find?_eq_some hfm
        have hne : n ≠ b.name := by
          intro e
          have := mem_find hi.nodup hb
          rw [← e] at this
          exact hop b this (by simpa using List.find?_some hfm)
        split at hs
        · rw [hs.1, find_modify, if_neg hne]
        · rw [hs.1]
    | regFace u fid =>
      have hs := (regFace_spec s hi.nodup u fid).2.2
      refine h.adjs (s' := regFace s u fid) ?_ rfl rfl rfl
      cases hfm : findUri s.adjs u with
      | none => rw [hfm] at hs; rw [hs]
      | some b =>
        rw [hfm] at hs
        have hb : b ∈ s.adjs := List.mem_of_find?_eq_some hfm
        have hne : n ≠ b.name := by
          intro e
          have := mem_find hi.nodup hb
          rw [← e] at this
          exact hop b this (by simpa using List.find?_some hfm)
        rw [hs, find_modify, if_neg hne]
    | fetchOk i faces =>
      show Stuck c n (fetchOk c s i faces)
      unfold fetchOk
      split
      · exact h
      · refine h.adjs ?_ rfl rfl rfl
        show find (useDataset c faces s.adjs).1 n = _
        rw [useDataset_adjs, find_map _ _ _ (fun a => (matchFaces_same a faces).1)]
        cases hy : find s.adjs n with
        | none => rfl
        | some b =>
          have hno := hop b hy
          have : ∀ fs : List (Uri × Nat), (∀ f ∈ fs, f.1 ≠ b.uri) → (matchFaces b fs).1 = b := by
            intro fs
            induction fs with
            | nil => intro _; rfl
            | cons f fs ih =>
              intro hx
              unfold matchFaces
              rw [if_neg (fun e => hx f List.mem_cons_self e.2.symm)]
              exact ih (fun g hg => hx g (List.mem_cons_of_mem _ hg))
          exact congrArg some (this faces hno)
    | fetchFail i =>
      show Stuck c n (fetchFail c s i)
      unfold fetchFail
      split
      · exact h
      · dsimp only
        split <;> exact h.same rfl (fun _ h => h) (fun _ h => h) (fun _ h => h)
    | fetchTimer i =>
      show Stuck c n (fetchTimer s i)
      unfold fetchTimer
      split
      · exact h
      · split
        · exact h
        · exact h.same rfl (fun _ h => h) (fun _ h => h) (fun _ h => h)
    | newLsa o =>
      show Stuck c n (newLsa s o)
      unfold newLsa
      split
      · exact h
      · exact h.same rfl (fun _ h => h) (fun _ h => h) (fun _ h => h)
    | clock dt => exact h.same rfl (fun _ h => h) (fun _ h => h) (fun _ h => h)

theorem Stuck.run {c : NConf} (hrr : c.retry < 4294967296) {n : Name} (ops : List Op) : ∀ s : Nbr, Reachable c s → Stuck c n s →
    Always c (NoNews n) s ops → getStatus (Nbr.run c s ops).adjs n = .active := by
  induction ops with
  | nil =>
    intro s _ h _
    obtain ⟨a, h1, h2, _⟩ := h.up
    show getStatus s.adjs n = _
    unfold getStatus; rw [h1]; exact h2
  | cons op ops ih => intro s hr h hop; exact ih _ (hr.step op) (h.step hrr hr hop.1) hop.2

/-! ### Replies that fail validation -/

/-- The state between two hellos of the only neighbour with a loop; `I` is the hello interval. -/
structure Idle (I : Nat) (n : Name) (s : Nbr) : Prop where
  dead    : s.dead = false
  up      : ∃ a, find s.adjs n = some a ∧ a.status = .active ∧ a.faceId ≠ 0
  timers  : s.timers = [(n, s.now + I)]
  waiting : s.waiting = []
  nacked  : s.nacked = []
  validating : s.validating = []

/-- One hello interval: the hello is sent, data comes for it, and the data fails validation. -/
def badRound (c : NConf) (I : Nat) (n : Name) : List Op :=
  [.clock I, .helloTimer 0, .data 0 (helloName c n ++ [Comp.str "v"]), .invalid 0]

theorem step_live {c : NConf} {s : Nbr} (op : Op) (h : s.dead = false) : Nbr.step c s op = stepOp c s op := by
  unfold Nbr.step
  rw [if_neg (by rw [h]; nofun)]

theorem sendHello_face {c : NConf} {s : Nbr} {n : Name} {a : Adjacent} (h1 : find s.adjs n = some a) (h3 : a.faceId ≠ 0) :
    (s.sendHello c n).timers = s.timers ++ [(n, s.now + c.interval * nsPerSec)] ∧
    (s.sendHello c n).waiting = s.waiting ++ [(helloName c n, s.now + c.resend * nsPerSec)] ∧
    (s.sendHello c n).adjs = s.adjs ∧ (s.sendHello c n).now = s.now ∧ (s.sendHello c n).nacked = s.nacked ∧
    (s.sendHello c n).validating = s.validating ∧ (s.sendHello c n).hist = s.hist ∧ (s.sendHello c n).dead = s.dead := by
  unfold sendHello
  rw [h1]
  dsimp only
  rw [if_pos h3, find_name h1]
  exact ⟨rfl, rfl, rfl, rfl, rfl, rfl, rfl, rfl⟩

theorem Idle.round {c : NConf} {I : Nat} (hI : c.interval * nsPerSec = I) {n : Name} (hn : n.length < 8000) {s : Nbr} (h : Idle I n s) :
    Idle I n (run c s (badRound c I n)) ∧ (run c s (badRound c I n)).now = s.now + I ∧
    Always c Punctual s (badRound c I n) ∧ (run c s (badRound c I n)).hist = s.hist := by
  obtain ⟨a, h1, h2, h3⟩ := h.up
  have hpre : (Name.isPrefixOf (helloName c n) (helloName c n ++ [Comp.str "v"]) &&
      decide ((helloName c n ++ [Comp.str "v"]).length ≤ 8800)) = true := by
    rw [Bool.and_eq_true, decide_eq_true_eq]
    refine ⟨List.isPrefixOf_iff_prefix.2 ⟨_, rfl⟩, ?_⟩
    rw [List.length_append, helloName_length]
    simp only [List.length_singleton]
    omega
  generalize hd : helloName c n ++ [Comp.str "v"] = d at hpre
  have e0 : badRound c I n = [.clock I, .helloTimer 0, .data 0 d, .invalid 0] := by unfold badRound; rw [hd]
  rw [e0]
  obtain ⟨s1, hs1⟩ : ∃ s1 : Nbr, s1 = { s with now := s.now + I } := ⟨_, rfl⟩
  have e1 : Nbr.step c s (.clock I) = s1 := by rw [step_live _ h.dead, hs1]; rfl
  obtain ⟨s1', hs1'⟩ : ∃ s1' : Nbr, s1' = { s1 with timers := [] } := ⟨_, rfl⟩
  have ht1 : s1.timers = [(n, s1.now)] := by rw [hs1]; exact h.timers
  have hd1 : s1.dead = false := by rw [hs1]; exact h.dead
  have e2 : Nbr.step c s1 (.helloTimer 0) = sendHello c s1' n := by
    rw [step_live _ hd1]
    show helloTimer c s1 0 = _
    unfold helloTimer
    rw [ht1, hs1']
    dsimp only [List.getElem?_cons_zero]
    rw [if_neg (Nat.lt_irrefl _)]
    rfl
  have hf1 : find s1'.adjs n = some a := by rw [hs1', hs1]; exact h1
  obtain ⟨q1, q2, q3, q4, q5, q6, q7, q8⟩ := sendHello_face (c := c) hf1 h3
  rw [hI] at q1
  generalize c.resend * nsPerSec = R at q2
  generalize hs2 : sendHello c s1' n = s2 at e2 q1 q2 q3 q4 q5 q6 q7 q8
  have hn1 : s1'.now = s.now + I := by rw [hs1', hs1]
  have hw2 : s2.waiting = [(helloName c n, s.now + I + R)] := by
    rw [q2, hn1, hs1', hs1]
    show s.waiting ++ _ = _
    rw [h.waiting]; rfl
  have hd2 : s2.dead = false := by rw [q8, hs1']; exact hd1
  obtain ⟨s3, hs3⟩ : ∃ s3 : Nbr, s3 = { s2 with waiting := [], validating := s2.validating ++ [d] } := ⟨_, rfl⟩
  have e3 : Nbr.step c s2 (.data 0 d) = s3 := by
    rw [step_live _ hd2]
    show Nbr.data s2 0 d = _
    unfold Nbr.data
    rw [hw2, hs3]
    dsimp only [List.getElem?_cons_zero]
    rw [if_pos hpre]
    rfl
  have hv2 : s2.validating = [] := by rw [q6, hs1', hs1]; exact h.validating
  have hd3 : s3.dead = false := by rw [hs3]; exact hd2
  have e4 : Nbr.step c s3 (.invalid 0) = { s3 with validating := [] } := by
    rw [step_live _ hd3]
    show invalid s3 0 = _
    unfold invalid
    have : s3.validating = [d] := by rw [hs3]; show s2.validating ++ [d] = _; rw [hv2]; rfl
    rw [this]
    rfl
  have erun : run c s [.clock I, .helloTimer 0, .data 0 d, .invalid 0] = { s3 with validating := [] } := by
    show Nbr.step c (Nbr.step c (Nbr.step c (Nbr.step c s (.clock I)) (.helloTimer 0)) (.data 0 d)) (.invalid 0) = _
    rw [e1, e2, e3, e4]
  have hnow : s3.now = s.now + I := by rw [hs3]; show s2.now = _; rw [q4, hn1]
  rw [erun]
  refine ⟨⟨hd3, ⟨a, ?_, h2, h3⟩, ?_, ?_, ?_, rfl⟩, hnow, ?_, ?_⟩
  · show find s3.adjs n = _
    rw [hs3]; show find s2.adjs n = _; rw [q3]; exact hf1
  · show s3.timers = [(n, s3.now + I)]
    rw [hnow, hs3]; show s2.timers = _
    rw [q1, hn1, hs1']; rfl
  · show s3.waiting = []
    rw [hs3]
  · show s3.nacked = []
    rw [hs3]; show s2.nacked = []; rw [q5, hs1', hs1]; exact h.nacked
  · simp only [Always, Punctual, and_true]
    refine ⟨?_, ?_, ?_⟩
    · show ∀ w ∈ s.timers, s.now + I ≤ w.2
      rw [h.timers]
      intro w hw
      rw [List.mem_singleton] at hw
      rw [hw]
      exact Nat.le_refl _
    · show ∀ w ∈ s.waiting, s.now + I ≤ w.2
      rw [h.waiting]; intro w hw; cases hw
    · show ∀ w ∈ s.nacked, s.now + I ≤ w.2
      rw [h.nacked]; intro w hw; cases hw
  · show s3.hist = s.hist
    rw [hs3]; show s2.hist = _; rw [q7, hs1', hs1]

theorem always_append {c : NConf} {P : Nbr → Op → Prop} (l l' : List Op) : ∀ s, Always c P s l → Always c P (run c s l) l' →
    Always c P s (l ++ l') := by
  induction l with
  | nil => intro s _ h; exact h
  | cons op l ih => intro s h h'; exact ⟨h.1, ih _ h.2 h'⟩

theorem Idle.rounds {c : NConf} {I : Nat} (hI : c.interval * nsPerSec = I) {n : Name} (hn : n.length < 8000) (k : Nat) : ∀ s : Nbr, Idle I n s →
    ∃ ops, Idle I n (run c s ops) ∧ (run c s ops).now = s.now + k * I ∧ Always c Punctual s ops ∧
      (run c s ops).hist = s.hist := by
  induction k with
  | zero => intro s h; exact ⟨[], h, by rw [Nat.zero_mul]; rfl, trivial, rfl⟩
  | succ k ih =>
    intro s h
    obtain ⟨h1, h2, h3, h4⟩ := h.round hI hn
    obtain ⟨ops, h5, h6, h7, h8⟩ := ih _ h1
    refine ⟨badRound c I n ++ ops, ?_⟩
    have e : run c s (badRound c I n ++ ops) = run c (run c s (badRound c I n)) ops := by unfold run; rw [List.foldl_append]
    rw [e]
    refine ⟨h5, ?_, always_append _ _ s h3 h7, h8.trans h4⟩
    rw [h6, h2, Nat.succ_mul]
    omega

end Nbr

open Nbr AdjacencyList

/-! ### When a hello counts as lost -/

/-- C41: a hello interest that was nacked counts as lost when twice the hello timeout has passed since the nack, not
before; `j` is where it is kept until then. -/
theorem C41_nack {c : NConf} {s : Nbr} (hd : s.dead = false) {i due : Nat} {name : Name} (hw : s.waiting[i]? = some (name, due)) (dt : Nat) :
    let j := s.nacked.length
    let s' := Nbr.step c (Nbr.step c s (.nack i)) (.clock dt)
    let s'' := Nbr.step c s' (.nackTimer j)
    s'.hist = s.hist ∧ (dt < ns (2 * c.resend) → s'' = s') ∧ (ns (2 * c.resend) ≤ dt → s''.hist = s.hist ++ [.lost name]) := by
  dsimp only
  have e1 : Nbr.step c s (.nack i) =
      { s with waiting := s.waiting.eraseIdx i, nacked := s.nacked ++ [(name, s.now + ns (2 * c.resend))] } := by
    rw [step_live _ hd]
    show Nbr.nack c s i = _
    unfold Nbr.nack
    rw [hw]
    rfl
  rw [e1]
  generalize ns (2 * c.resend) = R
  rw [step_live (.clock dt) (by exact hd), step_live (.nackTimer _) (by exact hd)]
  have e2 : ∀ s0 : Nbr, s0.nacked[s.nacked.length]? = some (name, s.now + R) → s0.now = s.now + dt →
      stepOp c s0 (.nackTimer s.nacked.length) = if dt < R then s0 else Nbr.lost c { s0 with nacked := s0.nacked.eraseIdx s.nacked.length } name := by
    intro s0 h1 h2
    show Nbr.nackTimer c s0 _ = _
    unfold Nbr.nackTimer
    rw [h1]
    dsimp only
    by_cases hlt : dt < R
    · rw [if_pos (by omega), if_pos hlt]
    · rw [if_neg (by omega), if_neg hlt]
  rw [e2 _ (by
    show (s.nacked ++ [_])[s.nacked.length]? = _
    rw [List.getElem?_append_right (Nat.le_refl _), Nat.sub_self]; rfl) rfl]
  refine ⟨rfl, ?_, ?_⟩
  · intro h; rw [if_pos h]
  · intro h
    rw [if_neg (by omega)]
    unfold Nbr.lost
    dsimp only
    split
    · rfl
    · split
      · rfl
      · split <;> rfl

/-- C41: a hello interest counts as lost when the hello timeout has passed since it was sent, not before. -/
theorem C41_timeout {c : NConf} {s : Nbr} (hd : s.dead = false) (n : Name) {a : Adjacent} (hf : find s.adjs n = some a) (hface : a.faceId ≠ 0)
    (dt : Nat) :
    let s' := Nbr.step c (Nbr.step c s (.registered n)) (.clock dt)
    let s'' := Nbr.step c s' (.timeout s.waiting.length)
    s'.hist = s.hist ∧ (dt < ns c.resend → s'' = s') ∧ (ns c.resend ≤ dt → s''.hist = s.hist ++ [.lost (helloOf c n)]) := by
  dsimp only
  have e1 : Nbr.step c s (.registered n) = s.sendHello c n := by rw [step_live _ hd]; rfl
  rw [e1]
  obtain ⟨-, q2, -, q4, -, -, q7, q8⟩ := sendHello_face (c := c) hf hface
  generalize s.sendHello c n = s1 at q2 q4 q7 q8
  rw [show c.resend * nsPerSec = ns c.resend from rfl] at q2
  generalize ns c.resend = R at q2
  rw [step_live (.clock dt) (by rw [q8]; exact hd), step_live (.timeout _) (by
    show s1.dead = false
    rw [q8]; exact hd)]
  have e2 : ∀ s0 : Nbr, s0.waiting[s.waiting.length]? = some (helloName c n, s.now + R) → s0.now = s.now + dt →
      stepOp c s0 (.timeout s.waiting.length) = if dt < R then s0 else
        Nbr.lost c { s0 with waiting := s0.waiting.eraseIdx s.waiting.length } (helloName c n) := by
    intro s0 h1 h2
    show Nbr.timeout c s0 _ = _
    unfold Nbr.timeout
    rw [h1]
    dsimp only
    by_cases hlt : dt < R
    · rw [if_pos (by omega), if_pos hlt]
    · rw [if_neg (by omega), if_neg hlt]
  rw [e2 _ (by
    show s1.waiting[s.waiting.length]? = _
    rw [q2, List.getElem?_append_right (Nat.le_refl _), Nat.sub_self]; rfl) (by show s1.now + dt = _; rw [q4])]
  refine ⟨q7, ?_, ?_⟩
  · intro h; rw [if_pos h]
  · intro h
    rw [if_neg (by omega), ← q7]
    unfold Nbr.lost
    dsimp only
    split
    · rfl
    · split
      · rfl
      · split <;> rfl

/-- Both apply to `b` when its face is up: the hello sent at once times out, or is nacked. -/
example :
    let s := Nbr.run HelloWitness.conf (Nbr.init HelloWitness.conf HelloWitness.adjs) [.faceUp "udp4://b" 256]
    let s1 := Nbr.step HelloWitness.conf s (.registered (nm ["net", "b"]))
    s.dead = false ∧ (∀ a ∈ find s.adjs (nm ["net", "b"]), a.faceId ≠ 0) ∧ (find s.adjs (nm ["net", "b"])).isSome ∧
    s1.waiting[0]? = some (helloOf HelloWitness.conf (nm ["net", "b"]), 1000000000) ∧
    (Nbr.run HelloWitness.conf s1 [.nack 0, .clock 1999999999, .nackTimer 0]).hist = s1.hist ∧
    (Nbr.run HelloWitness.conf s1 [.nack 0, .clock 2000000000, .nackTimer 0]).hist =
      s1.hist ++ [.lost (helloOf HelloWitness.conf (nm ["net", "b"]))] := by
  decide +kernel

/-! ### C90 -/

/-- C90 as far as it holds: if nothing more is heard of a neighbour that has a face and is asked for hellos regularly, and
the event loop does not lag, then after one hello interval and three times the hello timeout for each retry it is not
ACTIVE, whatever else happens meanwhile. -/
theorem C90_down_partial {c : NConf} (hrr : c.retry < 4294967296) {s : Nbr} (hr : Nbr.Reachable c s) (hon : OnTime s) {n : Name}
    {a : Adjacent} (hf : find s.adjs n = some a) (hface : a.faceId ≠ 0) (hloop : ∃ due, (n, due) ∈ s.timers) {ops : List Nbr.Op}
    (hsil : Always c (Silent c n) s ops) (hpun : Always c Punctual s ops) (hreal : ∀ op ∈ ops, RealFaces op)
    (ht : s.now + ns (c.interval + 3 * c.resend * max c.retry 1) < (Nbr.run c s ops).now) :
    getStatus (Nbr.run c s ops).adjs n ≠ .active := by
  refine down_core hrr hr hon hf hface hloop hsil hpun hreal (τ := 3 * ns c.resend) (by omega) (Or.inl (Nat.le_refl _)) ?_
  refine Nat.lt_of_le_of_lt (Nat.le_of_eq ?_) ht
  unfold ns
  generalize nsPerSec = k
  rw [Nat.add_mul, Nat.add_assoc]
  congr 2
  rw [← Nat.mul_assoc, Nat.mul_right_comm]

/-- C90 with the bound that applies when no hello is nacked: one hello interval and the hello timeout for each retry. -/
theorem C90_down_timeouts_partial {c : NConf} (hrr : c.retry < 4294967296) {s : Nbr} (hr : Nbr.Reachable c s) (hon : OnTime s) {n : Name}
    {a : Adjacent} (hf : find s.adjs n = some a) (hface : a.faceId ≠ 0) (hloop : ∃ due, (n, due) ∈ s.timers) {ops : List Nbr.Op}
    (hsil : Always c (Silent c n) s ops) (hpun : Always c Punctual s ops) (hreal : ∀ op ∈ ops, RealFaces op)
    (hnack : Always c (NotNacked c n) s ops)
    (ht : s.now + ns (c.interval + c.resend * max c.retry 1) < (Nbr.run c s ops).now) :
    getStatus (Nbr.run c s ops).adjs n ≠ .active := by
  refine down_core hrr hr hon hf hface hloop hsil hpun hreal (τ := ns c.resend) (Nat.le_refl _) (Or.inr hnack) ?_
  refine Nat.lt_of_le_of_lt (Nat.le_of_eq ?_) ht
  unfold ns
  generalize nsPerSec = k
  rw [Nat.add_mul, Nat.add_assoc]
  congr 2
  rw [Nat.mul_right_comm]

instance alwaysDec {c : NConf} {P : Nbr → Nbr.Op → Prop} [∀ s op, Decidable (P s op)] : ∀ s ops, Decidable (Always c P s ops)
  | _, [] => isTrue trivial
  | s, op :: ops => @instDecidableAnd _ _ _ (alwaysDec (Nbr.step c s op) ops)

instance (s : Nbr) : Decidable (OnTime s) := by unfold OnTime; infer_instance
instance (c : NConf) (n : Name) (s : Nbr) (op : Nbr.Op) : Decidable (Silent c n s op) := by unfold Silent; split <;> infer_instance
instance (s : Nbr) (op : Nbr.Op) : Decidable (Punctual s op) := by unfold Punctual; split <;> infer_instance
instance (op : Nbr.Op) : Decidable (RealFaces op) := by unfold RealFaces; split <;> infer_instance
instance (c : NConf) (n : Name) (s : Nbr) (op : Nbr.Op) : Decidable (NotNacked c n s op) := by unfold NotNacked; split <;> infer_instance

namespace HelloWitness
/-- After the hello interval three hellos in a row time out. -/
def silence : List Nbr.Op :=
  [.clock 60000000000, .helloTimer 0, .clock 1000000000, .timeout 0, .clock 1000000000, .timeout 0, .clock 1000000000, .timeout 0, .clock 1]
/-- The face goes down while the reply is validated. -/
def lateOps : List Nbr.Op :=
  [.faceUp "udp4://b" 256, .registered (nm ["net", "b"]), .data 0 reply, .faceDown 256, .valid 0]
/-- The registration fails, but the neighbour's own hello is answered with one, which is replied to. -/
def unregisteredOps : List Nbr.Op :=
  [.faceUp "udp4://b" 256, .interest (helloOf { conf with router := nm ["net", "b"] } (nm ["net", "a"])) (Comp.str "v"), .data 0 reply, .valid 0]
end HelloWitness

/-- The hypotheses of both theorems hold of `b`, up with a face and a timer, and the run in which three hellos time out:
it is up until just before the end, and the bound of the second theorem is passed by one nanosecond. -/
example :
    let s := Nbr.run HelloWitness.conf (Nbr.init HelloWitness.conf HelloWitness.adjs) HelloWitness.upOps
    let b := nm ["net", "b"]
    OnTime s ∧ getStatus s.adjs b = .active ∧ (∀ a ∈ find s.adjs b, a.faceId ≠ 0) ∧ (∃ due ∈ s.timers.map (·.2), (b, due) ∈ s.timers) ∧
    Always HelloWitness.conf (Silent HelloWitness.conf b) s HelloWitness.silence ∧
    Always HelloWitness.conf Punctual s HelloWitness.silence ∧
    Always HelloWitness.conf (NotNacked HelloWitness.conf b) s HelloWitness.silence ∧ (∀ op ∈ HelloWitness.silence, RealFaces op) ∧
    (Nbr.run HelloWitness.conf s HelloWitness.silence).now =
      s.now + ns (HelloWitness.conf.interval + HelloWitness.conf.resend * max HelloWitness.conf.retry 1) + 1 ∧
    getStatus (Nbr.run HelloWitness.conf s (HelloWitness.silence.take 7)).adjs b = .active ∧
    getStatus (Nbr.run HelloWitness.conf s HelloWitness.silence).adjs b = .inactive := by
  decide +kernel

theorem hello_late : Nbr.Reachable HelloWitness.conf
    (Nbr.run HelloWitness.conf (Nbr.init HelloWitness.conf HelloWitness.adjs) HelloWitness.lateOps) :=
  ⟨HelloWitness.adjs, HelloWitness.lateOps, hello_fresh, rfl⟩

theorem hello_unregistered : Nbr.Reachable HelloWitness.conf
    (Nbr.run HelloWitness.conf (Nbr.init HelloWitness.conf HelloWitness.adjs) HelloWitness.unregisteredOps) :=
  ⟨HelloWitness.adjs, HelloWitness.unregisteredOps, hello_fresh, rfl⟩

/-- C90 is violated: a reply that is validated after the neighbour's face went down marks it ACTIVE; no hello is sent to
it then, and it stays ACTIVE as long as its face does not come up again, whatever else happens and however long it takes. -/
theorem C90_violated_late : ∃ (c : NConf) (s : Nbr) (n : Name), Nbr.Reachable c s ∧ OnTime s ∧ s.validating = [] ∧
    (∃ a, find s.adjs n = some a ∧ a.status = .active ∧ a.faceId = 0) ∧
    ∀ ops, Always c (NoNews n) s ops → getStatus (Nbr.run c s ops).adjs n = .active := by
  refine ⟨HelloWitness.conf, Nbr.run HelloWitness.conf (Nbr.init HelloWitness.conf HelloWitness.adjs) HelloWitness.lateOps,
    nm ["net", "b"], hello_late, by decide +kernel, by decide +kernel,
    ⟨{ name := nm ["net", "b"], uri := "udp4://b", cost := .fin 10, status := .active }, by decide +kernel⟩, ?_⟩
  intro ops
  refine Stuck.run (by decide +kernel) ops _ hello_late
    ⟨⟨{ name := nm ["net", "b"], uri := "udp4://b", cost := .fin 10, status := .active }, by decide +kernel, rfl, Or.inl rfl⟩, ?_, ?_⟩
  · decide +kernel
  · decide +kernel

/-- C90 is violated: a neighbour whose prefix could not be registered, but whose own hello was answered with one that it
replied to, is ACTIVE with a face, and is never asked for a hello again: it stays ACTIVE for ever, until its face or its
prefix is heard of. -/
theorem C90_violated_unregistered : ∃ (c : NConf) (s : Nbr) (n : Name), Nbr.Reachable c s ∧ OnTime s ∧ s.validating = [] ∧
    (∃ a, find s.adjs n = some a ∧ a.status = .active ∧ a.faceId = 256) ∧ s.timers = [] ∧ s.waiting = [] ∧
    ∀ ops, Always c (NoNews n) s ops → getStatus (Nbr.run c s ops).adjs n = .active := by
  refine ⟨HelloWitness.conf, Nbr.run HelloWitness.conf (Nbr.init HelloWitness.conf HelloWitness.adjs) HelloWitness.unregisteredOps,
    nm ["net", "b"], hello_unregistered, by decide +kernel, by decide +kernel,
    ⟨{ name := nm ["net", "b"], uri := "udp4://b", cost := .fin 10, status := .active, faceId := 256 }, by decide +kernel⟩,
    by decide +kernel, by decide +kernel, ?_⟩
  intro ops
  refine Stuck.run (by decide +kernel) ops _ hello_unregistered
    ⟨⟨{ name := nm ["net", "b"], uri := "udp4://b", cost := .fin 10, status := .active, faceId := 256 }, by decide +kernel, rfl, Or.inr ?_⟩, ?_, ?_⟩
  · decide +kernel
  · decide +kernel
  · decide +kernel

/-- C90 is violated: data that fails validation counts neither as a reply nor as a loss.  A neighbour whose data always
fails validation (or anybody who sends data for its hello interests) is ACTIVE for as long as one likes, though not one
reply was validated in that time, in an event loop that does not lag. -/
theorem C90_violated_invalid : ∃ (c : NConf) (s : Nbr) (n : Name), Nbr.Reachable c s ∧ OnTime s ∧ s.validating = [] ∧
    (∃ a, find s.adjs n = some a ∧ a.faceId = 256) ∧ (∃ due, (n, due) ∈ s.timers) ∧
    ∀ t, ∃ ops, Always c Punctual s ops ∧ t ≤ (Nbr.run c s ops).now ∧ (Nbr.run c s ops).hist = s.hist ∧
      getStatus (Nbr.run c s ops).adjs n = .active := by
  refine ⟨HelloWitness.conf, Nbr.run HelloWitness.conf (Nbr.init HelloWitness.conf HelloWitness.adjs) HelloWitness.upOps,
    nm ["net", "b"], hello_up, by decide +kernel, by decide +kernel,
    ⟨{ name := nm ["net", "b"], uri := "udp4://b", cost := .fin 10, status := .active, faceId := 256 }, by decide +kernel⟩,
    ⟨60000000000, by decide +kernel⟩, ?_⟩
  intro t
  have hidle : Idle 60000000000 (nm ["net", "b"])
      (Nbr.run HelloWitness.conf (Nbr.init HelloWitness.conf HelloWitness.adjs) HelloWitness.upOps) :=
    ⟨by decide +kernel, ⟨{ name := nm ["net", "b"], uri := "udp4://b", cost := .fin 10, status := .active, faceId := 256 }, by decide +kernel⟩,
      by decide +kernel, by decide +kernel, by decide +kernel, by decide +kernel⟩
  obtain ⟨ops, h1, h2, h3, h4⟩ := Idle.rounds (c := HelloWitness.conf) (n := nm ["net", "b"]) (by decide +kernel) (by decide +kernel) t _ hidle
  refine ⟨ops, h3, ?_, h4, ?_⟩
  · rw [h2]
    omega
  · obtain ⟨a, ha, hb, _⟩ := h1.up
    unfold getStatus; rw [ha]; exact hb

end Nlsr
