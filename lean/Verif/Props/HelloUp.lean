import Verif.Props.HelloDown
/- C124: a neighbour that answers its hellos is marked ACTIVE in bounded time, and stays so. -/
namespace Nlsr
namespace Nbr
open AdjacencyList

/-- Neighbour `n` answers: a hello interest for it is not nacked and does not expire, the data that comes for one carries
its name and one more component, such data does not fail validation, and the face to `n` is not destroyed. -/
def Answers (c : NConf) (n : Name) (s : Nbr) : Op → Prop
  | .timeout i => ∀ w ∈ s.waiting[i]?, w.1 = helloOf c n → s.now < w.2
  | .nackTimer i => ∀ w ∈ s.nacked[i]?, w.1 = helloOf c n → s.now < w.2
  | .nack i => s.waiting[i]?.map (·.1) ≠ some (helloOf c n)
  | .data i d => s.waiting[i]?.map (·.1) = some (helloOf c n) → d.dropLast = helloOf c n
  | .invalid i => ∀ d ∈ s.validating[i]?, d.dropLast ≠ helloOf c n
  | .faceDown fid => ∀ a ∈ find s.adjs n, a.faceId ≠ fid
  | _ => True

/-- A reply of `n` is being validated. -/
def InValidation (c : NConf) (n : Name) (s : Nbr) : Prop := ∃ d ∈ s.validating, d.dropLast = helloOf c n

theorem lost_other {c : NConf} {s : Nbr} {m n : Name} (hm : m.length < 2 ^ 63) (hrr : c.retry < 4294967296) (hne : m ≠ n) :
    find (Nbr.lost c s (helloName c m)).adjs n = find s.adjs n := by
  have hs := (lost_spec c s hm hrr).2
  have hmod : ∀ (f : Adjacent → Adjacent) [Adjacent.Keeps f], find (modify s.adjs m f) n = find s.adjs n := by
    intro f _
    rw [find_modify, if_neg (fun e => hne e.symm)]
  cases hfm : find s.adjs m with
  | none => rw [hfm] at hs; rw [hs.1]
  | some a =>
    rw [hfm] at hs
    dsimp only at hs
    split at hs
    · rw [hs.1, hmod]
    · split at hs
      · rw [hs.1, hmod]
      · rw [hs.1, hmod]

/-- A neighbour with a face keeps one, and stays up if it is, while it answers. -/
theorem answers_keeps {c : NConf} {s : Nbr} (hr : Reachable c s) (hrr : c.retry < 4294967296) {n : Name} {op : Op}
    (hans : Answers c n s op) (hreal : RealFaces op) {a : Adjacent} (hf : find s.adjs n = some a) (hfid : a.faceId ≠ 0) :
    ∃ a', find (Nbr.step c s op).adjs n = some a' ∧ a'.faceId ≠ 0 ∧ (a.status = .active → a'.status = .active) := by
  have hi := hr.ninv
  have same : ∀ s' : Nbr, find s'.adjs n = find s.adjs n →
      ∃ a', find s'.adjs n = some a' ∧ a'.faceId ≠ 0 ∧ (a.status = .active → a'.status = .active) :=
    fun s' e => ⟨a, e.trans hf, hfid, id⟩
  have wf : ∀ (s' : Nbr) (m : Name) (fid : Nat), fid ≠ 0 → s'.adjs = modify s.adjs m (Adjacent.withFace fid) →
      ∃ a', find s'.adjs n = some a' ∧ a'.faceId ≠ 0 ∧ (a.status = .active → a'.status = .active) := by
    intro s' m fid h0 e
    rw [e, find_modify, hf]
    split
    · exact ⟨_, rfl, h0, id⟩
    · exact ⟨_, rfl, hfid, id⟩
  by_cases hdead : s.dead = true
  · have e : Nbr.step c s op = s := by unfold Nbr.step; rw [if_pos hdead]
    rw [e]; exact same s rfl
  by_cases ho1 : ∃ i, op = .timeout i
  · obtain ⟨i, rfl⟩ := ho1
    rw [step_live _ (by simpa using hdead)]
    show ∃ a', find (Nbr.timeout c s i).adjs n = some a' ∧ _
    unfold Nbr.timeout
    cases hw : s.waiting[i]? with
    | none => exact same s rfl
    | some w =>
      obtain ⟨x, due⟩ := w
      dsimp only
      split
      · exact same s rfl
      · rename_i hlt
        obtain ⟨m, hm, rfl⟩ := hi.waiting _ (List.mem_of_getElem? hw)
        refine same _ (lost_other (hi.small m hm) hrr ?_)
        intro e
        subst e
        exact hlt (hans _ hw rfl)
  by_cases ho2 : ∃ i, op = .nackTimer i
  · obtain ⟨i, rfl⟩ := ho2
    rw [step_live _ (by simpa using hdead)]
    show ∃ a', find (Nbr.nackTimer c s i).adjs n = some a' ∧ _
    unfold Nbr.nackTimer
    cases hw : s.nacked[i]? with
    | none => exact same s rfl
    | some w =>
      obtain ⟨x, due⟩ := w
      dsimp only
      split
      · exact same s rfl
      · rename_i hlt
        obtain ⟨m, hm, rfl⟩ := hi.nacked _ (List.mem_of_getElem? hw)
        refine same _ (lost_other (hi.small m hm) hrr ?_)
        intro e
        subst e
        exact hlt (hans _ hw rfl)
  have hstep := step_is c s op
  generalize Nbr.step c s op = s' at hstep
  cases hstep with
  | quiet q => exact same s' (by rw [q.adjs])
  | lost s0 name h0 hw hop => exact absurd hop (fun h => h.elim ho1 ho2)
  | valid s0 d h0 hd =>
    have hs := (validated_spec c s0 d).2
    rw [h0.1] at hs
    split at hs
    · rw [hs.1, find_modify, hf]
      split
      · exact ⟨_, rfl, hfid, fun _ => rfl⟩
      · exact ⟨_, rfl, hfid, id⟩
    · exact same _ (by rw [hs.1])
  | down fid =>
    have hs := (faceDown_spec c s hi.nodup fid).2
    cases hfm : findFace s.adjs fid with
    | none => rw [hfm] at hs; exact same _ (by rw [hs.1])
    | some b =>
      rw [hfm] at hs
      dsimp only at hs
      have hb : b ∈ s.adjs := List.mem_of_find?_eq_some hfm
      have hne : n ≠ b.name := by
        intro e
        have := mem_find hi.nodup hb
        rw [← e] at this
        exact hans b this (by simpa using List.find?_some hfm)
      split at hs
      · exact same _ (by rw [hs.1, find_modify, if_neg hne])
      · exact same _ (by rw [hs.1, find_modify, if_neg hne])
  | up u fid =>
    have hs := (faceUp_spec c s hi.nodup u fid).2
    cases hfm : findUri s.adjs u with
    | none => rw [hfm] at hs; exact same _ (by rw [hs.1])
    | some b =>
      rw [hfm] at hs
      dsimp only at hs
      split at hs
      · exact wf _ _ fid hreal hs.1
      · exact same _ (by rw [hs.1])
  | reg u fid =>
    have hs := (regFace_spec s hi.nodup u fid).2.2
    cases hfm : findUri s.adjs u with
    | none => rw [hfm] at hs; exact same _ (by rw [hs])
    | some b => rw [hfm] at hs; exact wf _ _ fid hreal hs
  | dataset i faces s0 h0 =>
    refine same _ ?_
    show find (useDataset c faces s.adjs).1 n = _
    rw [useDataset_adjs, find_map _ _ _ (fun a => (matchFaces_same a faces).1), hf]
    exact congrArg some (matchFaces_face faces hfid)

/-- Data being validated stays so until it is found valid or invalid. -/
theorem validating_keeps {c : NConf} {s : Nbr} {op : Op} (h1 : ∀ i, op ≠ .valid i) (h2 : ∀ i, op ≠ .invalid i) {d : Name}
    (hd : d ∈ s.validating) : d ∈ (Nbr.step c s op).validating := by
  have hlost : ∀ (s0 : Nbr) (x : Name), (Nbr.lost c s0 x).validating = s0.validating := by
    intro s0 x
    unfold Nbr.lost
    dsimp only
    split
    · rfl
    · split
      · rfl
      · split <;> rfl
  have hsend : ∀ (s0 : Nbr) (x : Name), (Nbr.sendHello c s0 x).validating = s0.validating := by
    intro s0 x
    unfold Nbr.sendHello
    split
    · rfl
    · dsimp only; split <;> rfl
  unfold Nbr.step
  split
  · exact hd
  · cases op with
    | valid i => exact absurd rfl (h1 i)
    | invalid i => exact absurd rfl (h2 i)
    | registered m => show d ∈ (Nbr.sendHello c s m).validating; rw [hsend]; exact hd
    | helloTimer i =>
      show d ∈ (Nbr.helloTimer c s i).validating
      unfold Nbr.helloTimer
      split
      · exact hd
      · split
        · exact hd
        · rw [hsend]; exact hd
    | interest name v =>
      show d ∈ (Nbr.interest c s name v).validating
      unfold Nbr.interest
      split
      · exact hd
      · split
        · exact hd
        · split
          · exact hd
          · split
            · exact hd
            · split
              · exact hd
              · dsimp only; split <;> exact hd
    | timeout i =>
      show d ∈ (Nbr.timeout c s i).validating
      unfold Nbr.timeout
      split
      · exact hd
      · split
        · exact hd
        · rw [hlost]; exact hd
    | nack i =>
      show d ∈ (Nbr.nack c s i).validating
      unfold Nbr.nack
      split <;> exact hd
    | nackTimer i =>
      show d ∈ (Nbr.nackTimer c s i).validating
      unfold Nbr.nackTimer
      split
      · exact hd
      · split
        · exact hd
        · rw [hlost]; exact hd
    | data i x =>
      show d ∈ (Nbr.data s i x).validating
      unfold Nbr.data
      split
      · exact hd
      · split
        · exact List.mem_append_left _ hd
        · exact hd
    | faceDown fid =>
      show d ∈ (Nbr.faceDown c s fid).validating
      unfold Nbr.faceDown
      dsimp only
      split
      · exact hd
      · split <;> exact hd
    | faceUp u fid =>
      show d ∈ (Nbr.faceUp c s u fid).validating
      unfold Nbr.faceUp
      dsimp only
      split
      · exact hd
      · split <;> exact hd
    | regFace u fid => exact hd
    | fetchOk i faces =>
      show d ∈ (Nbr.fetchOk c s i faces).validating
      unfold Nbr.fetchOk
      split <;> exact hd
    | fetchFail i =>
      show d ∈ (Nbr.fetchFail c s i).validating
      unfold Nbr.fetchFail
      split
      · exact hd
      · dsimp only; split <;> exact hd
    | fetchTimer i =>
      show d ∈ (Nbr.fetchTimer s i).validating
      unfold Nbr.fetchTimer
      split
      · exact hd
      · split <;> exact hd
    | newLsa o =>
      show d ∈ (Nbr.newLsa s o).validating
      unfold Nbr.newLsa
      split <;> exact hd
    | clock dt => exact hd

/-- A reply of `n` that passes validation marks it up. -/
theorem reply_ups {c : NConf} {s : Nbr} {n d : Name} (hd : d.dropLast = helloOf c n) (hl : d.length ≤ 8800) {a : Adjacent}
    (hf : find s.adjs n = some a) : find (Nbr.validated c s d).adjs n = some (Adjacent.up a) := by
  have hne : d ≠ [] := by
    intro e
    rw [e] at hd
    have := congrArg List.length hd
    simp [helloOf] at this
  have e : d = n ++ [nlsrComp, infoComp, ⟨8, Tlv.encName c.router⟩, d.getLast hne] := by
    have := (List.dropLast_concat_getLast hne).symm
    rw [hd] at this
    refine this.trans ?_
    simp [helloOf, nlsrComp, infoComp]
  generalize d.getLast hne = v at e
  have hlen : d.length = n.length + 4 := by rw [e]; simp
  have hp : Name.getPrefix d (-4) = n := by
    have := Name.getPrefix_neg (n := d) 4 (by omega) (by omega) (by omega)
    have e4 : (-((4 : Nat) : Int)) = -4 := by omega
    rw [e4] at this
    rw [this, hlen, Nat.add_sub_cancel, e, List.take_left']
    rfl
  have h3 : Name.fromEnd d 3 = some infoComp :=
    ((data_shape hl).2 ⟨nlsrComp, ⟨8, Tlv.encName c.router⟩, v, by rw [hp]; exact e⟩).1
  have hs := (validated_spec c s d).2
  rw [if_pos h3] at hs
  rw [hs.1, hp, find_modify, if_pos rfl, hf]
  rfl

/-- `n` has a face, and is up or on the way there. -/
def Rising (c : NConf) (n : Name) (T : Nat) (s : Nbr) : Prop :=
  ∃ a, find s.adjs n = some a ∧ a.faceId ≠ 0 ∧
    (a.status = .active ∨ (∃ due, (n, due) ∈ s.timers ∧ due ≤ T) ∨
      (∃ due, (helloName c n, due) ∈ s.waiting ∧ due ≤ T + ns c.resend) ∨ InValidation c n s)

theorem Rising.step {c : NConf} {n : Name} {T : Nat} {s : Nbr} (hr : Reachable c s) (hrr : c.retry < 4294967296)
    (h : Rising c n T s) (hon : OnTime s) {op : Op} (hans : Answers c n s op) (hreal : RealFaces op) :
    Rising c n T (Nbr.step c s op) := by
  obtain ⟨a, hf, hfid, hp⟩ := h
  obtain ⟨a', hf', hfid', hst⟩ := answers_keeps hr hrr hans hreal hf hfid
  refine ⟨a', hf', hfid', ?_⟩
  rcases hp with hp | hp | hp | hp
  · exact Or.inl (hst hp)
  · refine Or.inr ?_
    obtain ⟨due, hx, hle⟩ := hp
    have ht := step_takes c s op
    generalize Nbr.step c s op = s' at ht
    cases ht with
    | none hg => exact Or.inl ⟨due, hg.timers _ hx, hle⟩
    | timer i m d hi hd =>
      have hg := sendHello_grow c { s with timers := s.timers.eraseIdx i } m
      rcases mem_or_erased hx i with hx | hx
      · exact Or.inl ⟨due, hg.timers _ hx, hle⟩
      · rw [hi] at hx
        injection hx with hx
        injection hx with hx1 hx2
        subst hx1 hx2
        refine Or.inr (Or.inl ⟨s.now + c.resend * nsPerSec, ?_, ?_⟩)
        · have := sendHello_face (c := c) (s := { s with timers := s.timers.eraseIdx i }) hf hfid
          rw [this.2.1]
          exact List.mem_append_right _ List.mem_cons_self
        · have := hon.1 _ (List.mem_of_getElem? hi)
          dsimp only at this
          unfold ns
          omega
    | timeout i m d hi hd => exact Or.inl ⟨due, (lost_grow c { s with waiting := s.waiting.eraseIdx i } m).timers _ hx, hle⟩
    | nack i m d hi => exact Or.inl ⟨due, hx, hle⟩
    | nackTimer i m d hi hd => exact Or.inl ⟨due, (lost_grow c { s with nacked := s.nacked.eraseIdx i } m).timers _ hx, hle⟩
    | data i m d x hi => exact Or.inl ⟨due, hx, hle⟩
    | clock dt => exact Or.inl ⟨due, hx, hle⟩
  · refine Or.inr (Or.inr ?_)
    obtain ⟨due, hx, hle⟩ := hp
    have ht := step_takes c s op
    generalize Nbr.step c s op = s' at ht
    cases ht with
    | none hg => exact Or.inl ⟨due, hg.waiting _ hx, hle⟩
    | timer i m d hi hd =>
      exact Or.inl ⟨due, (sendHello_grow c { s with timers := s.timers.eraseIdx i } m).waiting _ hx, hle⟩
    | timeout i m d hi hd =>
      have hg := lost_grow c { s with waiting := s.waiting.eraseIdx i } m
      rcases mem_or_erased hx i with hx | hx
      · exact Or.inl ⟨due, hg.waiting _ hx, hle⟩
      · rw [hi] at hx
        injection hx with hx
        injection hx with hx1 hx2
        have := hans _ hi hx1
        dsimp only at this
        omega
    | nack i m d hi =>
      rcases mem_or_erased hx i with hx | hx
      · exact Or.inl ⟨due, hx, hle⟩
      · exact absurd (congrArg (Option.map Prod.fst) hx) hans
    | nackTimer i m d hi hd => exact Or.inl ⟨due, (lost_grow c { s with nacked := s.nacked.eraseIdx i } m).waiting _ hx, hle⟩
    | data i m d x hi =>
      rcases mem_or_erased hx i with hx | hx
      · exact Or.inl ⟨due, hx, hle⟩
      · exact Or.inr ⟨x, List.mem_append_right _ List.mem_cons_self, hans (congrArg (Option.map Prod.fst) hx)⟩
    | clock dt => exact Or.inl ⟨due, hx, hle⟩
  · obtain ⟨d, hd, he⟩ := hp
    by_cases hv : ∃ i, op = .valid i
    · obtain ⟨i, rfl⟩ := hv
      by_cases hdead : s.dead = true
      · have e : Nbr.step c s (.valid i) = s := by unfold Nbr.step; rw [if_pos hdead]
        rw [e]; exact Or.inr (Or.inr (Or.inr ⟨d, hd, he⟩))
      · have e : Nbr.step c s (.valid i) = Nbr.valid c s i := step_live _ (by simpa using hdead)
        rw [e] at hf' ⊢
        unfold Nbr.valid at hf' ⊢
        cases hx : s.validating[i]? with
        | none => exact Or.inr (Or.inr (Or.inr ⟨d, hd, he⟩))
        | some x =>
          rw [hx] at hf'
          dsimp only at hf' ⊢
          rcases mem_or_erased hd i with hd' | hd'
          · refine Or.inr (Or.inr (Or.inr ⟨d, ?_, he⟩))
            have : (Nbr.validated c { s with validating := s.validating.eraseIdx i } x).validating = s.validating.eraseIdx i := by
              unfold Nbr.validated
              dsimp only
              split
              · split <;> rfl
              · rfl
            rw [this]; exact hd'
          · rw [hx] at hd'
            obtain rfl := Option.some.inj hd'
            have := reply_ups (s := { s with validating := s.validating.eraseIdx i }) he (hr.ninv.valid _ hd).2 hf
            rw [this] at hf'
            obtain rfl := Option.some.inj hf'
            exact Or.inl rfl
    · by_cases hn : ∃ i, op = .invalid i
      · obtain ⟨i, rfl⟩ := hn
        refine Or.inr (Or.inr (Or.inr ⟨d, ?_, he⟩))
        unfold Nbr.step
        split
        · exact hd
        · rcases mem_or_erased hd i with hd' | hd'
          · exact hd'
          · exact absurd he (hans d hd')
      · exact Or.inr (Or.inr (Or.inr ⟨d, validating_keeps (fun i e => hv ⟨i, e⟩) (fun i e => hn ⟨i, e⟩) hd, he⟩))

theorem rising_run {c : NConf} {n : Name} {T : Nat} (hrr : c.retry < 4294967296) (ops : List Op) :
    ∀ s : Nbr, Reachable c s → OnTime s → Rising c n T s → Always c (Answers c n) s ops → Always c Punctual s ops →
      (∀ op ∈ ops, RealFaces op) → OnTime (run c s ops) ∧ Rising c n T (run c s ops) := by
  induction ops with
  | nil => intro s _ h2 h3 _ _ _; exact ⟨h2, h3⟩
  | cons op ops ih =>
    intro s h1 h2 h3 h4 h5 h6
    refine ih (Nbr.step c s op) (h1.step op) (h2.step op ?_) (h3.step h1 hrr h2 h4.1 (h6 op List.mem_cons_self)) h4.2 h5.2
      (fun o ho => h6 o (List.mem_cons_of_mem _ ho))
    intro dt e
    have := h5.1
    rw [e] at this
    exact this

end Nbr
open AdjacencyList Nbr

/-! ### C124 -/

/-- C124: if a neighbour that has a face and is asked for hellos regularly answers them, and the event loop does not lag,
then after one hello interval and one hello timeout it is ACTIVE or a reply of it is being validated, whatever else
happens meanwhile. -/
theorem C124_up {c : NConf} (hrr : c.retry < 4294967296) {s : Nbr} (hr : Nbr.Reachable c s) (hon : OnTime s) {n : Name}
    {a : Adjacent} (hf : find s.adjs n = some a) (hface : a.faceId ≠ 0) (hloop : ∃ due, (n, due) ∈ s.timers) {ops : List Nbr.Op}
    (hans : Always c (Answers c n) s ops) (hpun : Always c Punctual s ops) (hreal : ∀ op ∈ ops, RealFaces op)
    (ht : s.now + ns (c.interval + c.resend) < (Nbr.run c s ops).now) :
    getStatus (Nbr.run c s ops).adjs n = .active ∨ InValidation c n (Nbr.run c s ops) := by
  obtain ⟨due, hd⟩ := hloop
  have hsoon := hr.soon _ hd
  dsimp only at hsoon
  obtain ⟨h1, b, h2, -, h3⟩ := rising_run (T := s.now + c.interval * nsPerSec) hrr ops s hr hon
    ⟨a, hf, hface, Or.inr (Or.inl ⟨due, hd, hsoon⟩)⟩ hans hpun hreal
  have e : ns (c.interval + c.resend) = c.interval * nsPerSec + ns c.resend := by unfold ns; exact Nat.add_mul ..
  rw [e] at ht
  rcases h3 with h3 | ⟨w, hw, hle⟩ | ⟨w, hw, hle⟩ | h3
  · left; unfold getStatus; rw [h2]; exact h3
  · have := h1.1 _ hw; dsimp only at this; omega
  · have := h1.2.1 _ hw; dsimp only at this; omega
  · exact Or.inr h3

/-- C124, once up: a neighbour that is ACTIVE and has a face is ACTIVE after any run in which it answers, however long and
whatever the event loop's delays. -/
theorem C124_stays {c : NConf} (hrr : c.retry < 4294967296) {n : Name} (ops : List Nbr.Op) : ∀ {s : Nbr}, Nbr.Reachable c s →
    ∀ {a : Adjacent}, find s.adjs n = some a → a.faceId ≠ 0 → a.status = .active → Always c (Answers c n) s ops →
    (∀ op ∈ ops, RealFaces op) → getStatus (Nbr.run c s ops).adjs n = .active := by
  induction ops with
  | nil =>
    intro s _ a hf _ hs _ _
    show getStatus s.adjs n = _
    unfold getStatus; rw [hf]; exact hs
  | cons op ops ih =>
    intro s hr a hf hfid hs hans hreal
    obtain ⟨a', h1, h2, h3⟩ := answers_keeps hr hrr hans.1 (hreal op List.mem_cons_self) hf hfid
    exact ih (hr.step op) h1 h2 (h3 hs) hans.2 (fun o ho => hreal o (List.mem_cons_of_mem _ ho))

/-- C124, the reply: the moment a reply of a neighbour passes validation the neighbour is ACTIVE and its losses are forgotten. -/
theorem C124_reply {c : NConf} {s : Nbr} (hr : Nbr.Reachable c s) (hl : s.dead = false) {n d : Name} {i : Nat}
    (hd : s.validating[i]? = some d) (he : d.dropLast = helloOf c n) {a : Adjacent} (hf : find s.adjs n = some a) :
    getStatus (Nbr.step c s (.valid i)).adjs n = .active ∧ getTimedOut (Nbr.step c s (.valid i)).adjs n = 0 := by
  have e : Nbr.step c s (.valid i) = Nbr.validated c { s with validating := s.validating.eraseIdx i } d := by
    rw [step_live _ hl]
    show Nbr.valid c s i = _
    unfold Nbr.valid; rw [hd]
  have := reply_ups (s := { s with validating := s.validating.eraseIdx i }) he (hr.ninv.valid _ (List.mem_of_getElem? hd)).2 hf
  rw [← e] at this
  unfold getStatus getTimedOut
  rw [this]
  exact ⟨rfl, rfl⟩

instance (c : NConf) (n : Name) (s : Nbr) (op : Nbr.Op) : Decidable (Answers c n s op) := by unfold Answers; split <;> infer_instance

namespace HelloWitness
/-- The face of `b` is up and its hello loop runs, but its first three hellos are lost. -/
def stillDown : List Nbr.Op :=
  [.faceUp "udp4://b" 256, .registered (nm ["net", "b"]), .clock 1000000000, .timeout 0, .clock 1000000000, .timeout 0, .clock 1000000000,
   .timeout 0]
/-- `b` answers the next hello at the last moment. -/
def answered : List Nbr.Op :=
  [.clock 57000000000, .helloTimer 0, .clock 1000000000, .timeout 0, .data 0 reply, .valid 0, .clock 3000000001]
/-- The next hello is answered as well. -/
def answeredAgain : List Nbr.Op :=
  [.clock 55999999999, .helloTimer 0, .data 0 reply, .valid 0, .clock 5000000000]
end HelloWitness

/-- The hypotheses of the first two theorems hold of `b`, down with a face and a timer after three losses: it answers the
next hello, whose reply is validated, and is up, and still so after the one that follows; the bound of the first theorem
is passed by one nanosecond.  Had the hello expired just before the reply came, the neighbour would not be up. -/
example :
    let c := HelloWitness.conf
    let s := Nbr.run c (Nbr.init c HelloWitness.adjs) HelloWitness.stillDown
    let b := nm ["net", "b"]
    let ops := HelloWitness.answered.eraseIdx 3
    let s2 := Nbr.run c s ops
    OnTime s ∧ getStatus s.adjs b = .inactive ∧ (∀ a ∈ find s.adjs b, a.faceId ≠ 0) ∧ (find s.adjs b).isSome ∧
    (∃ due ∈ s.timers.map (·.2), (b, due) ∈ s.timers) ∧
    Always c (Answers c b) s ops ∧ Always c Punctual s ops ∧ (∀ op ∈ ops, RealFaces op) ∧
    s2.now = s.now + ns (c.interval + c.resend) + 1 ∧
    (Nbr.run c s (ops.take 4)).validating[0]? = some HelloWitness.reply ∧ HelloWitness.reply.dropLast = helloOf c b ∧
    getStatus (Nbr.run c s (ops.take 4)).adjs b = .inactive ∧ getTimedOut (Nbr.run c s (ops.take 4)).adjs b = 3 ∧
    getStatus s2.adjs b = .active ∧ s2.dead = false ∧ Always c (Answers c b) s2 HelloWitness.answeredAgain ∧
    getStatus (Nbr.run c s2 HelloWitness.answeredAgain).adjs b = .active ∧
    getStatus (Nbr.run c s HelloWitness.answered).adjs b = .inactive := by
  decide +kernel
