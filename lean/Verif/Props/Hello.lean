import Verif.Lemmas.NbrInv
/- C41-C43: the hello protocol. -/
namespace Nlsr
namespace Nbr
open AdjacencyList

/-- `d` is the name of a hello data of neighbour `n`: `/<n>/<any>/INFO/<any>/<any>`. -/
def IsReplyOf (n d : Name) : Prop := d.length = n.length + 4 ∧ n <+: d ∧ d[n.length + 1]? = some (Comp.str "INFO")

instance (n d : Name) : Decidable (IsReplyOf n d) := by unfold IsReplyOf; infer_instance

/-- The hello interest of neighbour `n`: `/<n>/nlsr/INFO/<router>`. -/
def helloOf (c : NConf) (n : Name) : Name := n ++ [Comp.str "nlsr", Comp.str "INFO", ⟨8, Tlv.encName c.router⟩]

def isReply (n : Name) : NEvent → Bool
  | .valid d => decide (IsReplyOf n d)
  | _ => false

/-- The hello interests of `n` lost since its last validated reply. -/
def missed (c : NConf) (n : Name) (hist : List NEvent) : Nat :=
  (hist.reverse.takeWhile (fun e => !isReply n e)).countP (fun e => decide (e = .lost (helloOf c n)))

theorem missed_snoc (c : NConf) (n : Name) (hist : List NEvent) (e : NEvent) :
    missed c n (hist ++ [e]) =
      if isReply n e then 0 else missed c n hist + (if e = .lost (helloOf c n) then 1 else 0) := by
  unfold missed
  rw [List.reverse_append, List.reverse_singleton, List.singleton_append, List.takeWhile_cons]
  cases isReply n e with
  | true => rfl
  | false =>
    simp only [Bool.not_false, if_true, List.countP_cons, decide_eq_true_eq]
    rfl

theorem isReplyOf_iff {d : Name} (hl : d.length ≤ 8800) (n : Name) :
    IsReplyOf n d ↔ (4 ≤ d.length ∧ Name.fromEnd d 3 = some infoComp ∧ Name.getPrefix d (-4) = n) := by
  have hp : 4 ≤ d.length → Name.getPrefix d (-4) = d.take (d.length - 4) := by
    intro h
    have := Name.getPrefix_neg (n := d) 4 (by omega) h (by omega)
    have e : (-((4 : Nat) : Int)) = -4 := by omega
    rwa [e] at this
  constructor
  · rintro ⟨h1, h2, h3⟩
    refine ⟨by omega, ?_, ?_⟩
    · unfold Name.fromEnd
      rw [if_pos (by omega)]
      have e : d.length - 3 = n.length + 1 := by omega
      rw [e]; exact h3
    · rw [hp (by omega)]
      have e : d.length - 4 = n.length := by omega
      rw [e]
      obtain ⟨t, rfl⟩ := h2
      rw [List.take_left]
  · rintro ⟨h1, h2, h3⟩
    rw [hp h1] at h3
    have hlen : n.length = d.length - 4 := by rw [← h3, List.length_take]; omega
    refine ⟨by omega, h3 ▸ List.take_prefix .., ?_⟩
    unfold Name.fromEnd at h2
    rw [if_pos (by omega)] at h2
    have e : n.length + 1 = d.length - 3 := by omega
    rw [e]; exact h2

/-- A data name with INFO third from the end belongs to one neighbour only, if it has four components. -/
theorem short_reply {c : NConf} {s : Nbr} (h : NInv c s) {d : Name} (hd : d ∈ s.validating)
    (hf : Name.fromEnd d 3 = some infoComp) : 4 ≤ d.length := by
  obtain ⟨⟨x, ⟨m, _, rfl⟩, hp⟩, _⟩ := h.valid d hd
  have hlen : m.length + 3 ≤ d.length := by
    have := hp.length_le
    rwa [helloName_length] at this
  by_cases h4 : 4 ≤ d.length
  · exact h4
  · have hm : m = [] := List.eq_nil_of_length_eq_zero (by omega)
    subst hm
    obtain ⟨t, rfl⟩ := hp
    have ht : t = [] := by
      apply List.eq_nil_of_length_eq_zero
      rw [List.length_append, helloName_length] at h4
      omega
    subst ht
    rw [List.append_nil] at hf
    exact absurd hf (by simp [helloName, Name.fromEnd, nlsrComp, infoComp]; decide +kernel)

/-! ### The counters -/

/-- A neighbour that is up has its counter equal to the losses since its last reply, and below the limit. -/
def Counts (c : NConf) (s : Nbr) : Prop :=
  ∀ n a, find s.adjs n = some a → a.status = .active →
    a.timedOut = missed c n s.hist ∧ a.timedOut < max c.retry 1

theorem Counts.event {c : NConf} {s s' : Nbr} {e : NEvent} (h : Counts c s) (hh : s'.hist = s.hist ++ [e])
    (he : ∀ n, isReply n e = false ∧ e ≠ .lost (helloOf c n))
    (ha : ∀ n a', find s'.adjs n = some a' → a'.status = .active →
      ∃ a, find s.adjs n = some a ∧ a.status = .active ∧ a.timedOut = a'.timedOut) : Counts c s' := by
  intro n a' hf hs
  obtain ⟨a, h1, h2, h3⟩ := ha n a' hf hs
  obtain ⟨h4, h5⟩ := h n a h1 h2
  rw [hh, missed_snoc, (he n).1, if_neg (he n).2, ← h3]
  exact ⟨h4, h5⟩

theorem helloOf_eq (c : NConf) (n : Name) : helloOf c n = helloName c n := rfl

theorem Counts.step {c : NConf} (hr : c.retry < 4294967296) {s : Nbr} (hi : NInv c s) (h : Counts c s) (op : Op) :
    Counts c (Nbr.step c s op) := by
  have hstep := step_is c s op
  generalize Nbr.step c s op = s' at hstep ⊢
  cases hstep with
  | quiet q =>
    intro n a hf hs
    rw [q.adjs] at hf
    rw [q.hist]
    exact h n a hf hs
  | lost s0 name h0 hw hop =>
    have hx : IsHello c s name := by
      rcases hw with ⟨d, hw⟩ | ⟨d, hw⟩
      · exact hi.waiting _ hw
      · exact hi.nacked _ hw
    obtain ⟨m, hm, rfl⟩ := hx
    obtain ⟨hh, hs⟩ := lost_spec c s0 (hi.small m hm) hr
    rw [h0.1, h0.2.2] at hs
    rw [h0.2.1] at hh
    intro n a' hf ha'
    rw [hh, missed_snoc]
    have e1 : isReply n (.lost (helloName c m)) = false := rfl
    rw [e1]
    by_cases hnm : n = m
    · subst hnm
      cases hfm : find s.adjs n with
      | none =>
        rw [hfm] at hs
        rw [hs.1, hfm] at hf; cases hf
      | some a =>
        rw [hfm] at hs
        dsimp only at hs
        rw [if_neg (by nofun), if_pos (by rw [helloOf_eq])]
        split at hs
        · rename_i hlt
          rw [hs.1, find_modify, if_pos rfl, hfm] at hf
          obtain rfl := Option.some.inj hf
          obtain ⟨h1, h2⟩ := h n a hfm ha'
          refine ⟨by rw [← h1]; rfl, ?_⟩
          show a.timedOut + 1 < _
          rw [Nat.mod_eq_of_lt (by omega)] at hlt
          omega
        · split at hs
          · rw [hs.1, find_modify, if_pos rfl, hfm] at hf
            obtain rfl := Option.some.inj hf
            cases ha'
          · rename_i hna
            rw [hs.1, find_modify, if_pos rfl, hfm] at hf
            obtain rfl := Option.some.inj hf
            exact absurd ha' hna
    · rw [if_neg (by nofun), if_neg (by
        intro e
        injection e with e
        exact hnm (helloName_inj c e).symm), Nat.add_zero]
      have hf' : find s.adjs n = some a' := by
        cases hfm : find s.adjs m with
        | none => rw [hfm] at hs; rw [hs.1] at hf; exact hf
        | some a =>
          rw [hfm] at hs
          dsimp only at hs
          split at hs
          · rw [hs.1, find_modify, if_neg hnm] at hf; exact hf
          · split at hs
            · rw [hs.1, find_modify, if_neg hnm] at hf; exact hf
            · rw [hs.1, find_modify, if_neg hnm] at hf; exact hf
      exact h n a' hf' ha'
  | valid s0 d h0 hd =>
    obtain ⟨hh, hs⟩ := validated_spec c s0 d
    rw [h0.1, h0.2.2] at hs
    rw [h0.2.1] at hh
    have hl := (hi.valid d hd).2
    intro n a' hf ha'
    rw [hh, missed_snoc]
    have e2 : NEvent.valid d ≠ .lost (helloOf c n) := by nofun
    rw [if_neg e2]
    by_cases hn : IsReplyOf n d
    · have e1 : isReply n (.valid d) = true := decide_eq_true hn
      rw [e1, if_pos rfl]
      obtain ⟨_, h3, h4⟩ := (isReplyOf_iff hl n).1 hn
      rw [if_pos h3, h4] at hs
      rw [hs.1, find_modify, if_pos rfl] at hf
      cases hfn : find s.adjs n with
      | none => rw [hfn] at hf; cases hf
      | some a =>
        rw [hfn] at hf
        obtain rfl := Option.some.inj hf
        exact ⟨rfl, by show 0 < max c.retry 1; omega⟩
    · have e1 : isReply n (.valid d) = false := decide_eq_false hn
      rw [e1, if_neg (by nofun), Nat.add_zero]
      have hf' : find s.adjs n = some a' := by
        split at hs
        · rename_i hd3
          have hne : n ≠ Name.getPrefix d (-4) := by
            intro e
            exact hn ((isReplyOf_iff hl n).2 ⟨short_reply hi hd hd3, hd3, e.symm⟩)
          rw [hs.1, find_modify, if_neg hne] at hf
          exact hf
        · rw [hs.1] at hf; exact hf
      exact h n a' hf' ha'
  | down fid =>
    obtain ⟨hh, hs⟩ := faceDown_spec c s hi.nodup fid
    refine h.event hh (fun n => ⟨rfl, by nofun⟩) ?_
    intro n a' hf ha'
    cases hfm : findFace s.adjs fid with
    | none => rw [hfm] at hs; rw [hs.1] at hf; exact ⟨a', hf, ha', rfl⟩
    | some a =>
      rw [hfm] at hs
      dsimp only at hs
      have key : ∀ (f : Adjacent → Adjacent) [Adjacent.Keeps f],
          (∀ a, find s.adjs n = some a → (f a).status = .active → a.status = .active ∧ (f a).timedOut = a.timedOut) →
          find (modify s.adjs a.name f) n = some a' → ∃ a, find s.adjs n = some a ∧ a.status = .active ∧ a.timedOut = a'.timedOut := by
        intro f _ hfs hx
        rw [find_modify] at hx
        split at hx
        · cases hy : find s.adjs n with
          | none => rw [hy] at hx; cases hx
          | some b =>
            rw [hy] at hx
            obtain rfl := Option.some.inj hx
            obtain ⟨h1, h2⟩ := hfs b hy ha'
            exact ⟨b, rfl, h1, h2.symm⟩
        · exact ⟨a', hx, ha', rfl⟩
      split at hs
      · rw [hs.1] at hf
        exact key (Adjacent.lose c.retry) (by intro a _ h; cases h) hf
      · rw [hs.1] at hf
        exact key (Adjacent.withFace 0) (fun a _ h => ⟨h, rfl⟩) hf
  | up uri fid =>
    obtain ⟨hh, hs⟩ := faceUp_spec c s hi.nodup uri fid
    refine h.event hh (fun n => ⟨rfl, by nofun⟩) ?_
    intro n a' hf ha'
    cases hfm : findUri s.adjs uri with
    | none => rw [hfm] at hs; rw [hs.1] at hf; exact ⟨a', hf, ha', rfl⟩
    | some a =>
      rw [hfm] at hs
      dsimp only at hs
      split at hs
      · rw [hs.1, find_modify] at hf
        split at hf
        · cases hy : find s.adjs n with
          | none => rw [hy] at hf; cases hf
          | some b =>
            rw [hy] at hf
            obtain rfl := Option.some.inj hf
            exact ⟨b, rfl, ha', rfl⟩
        · exact ⟨a', hf, ha', rfl⟩
      · rw [hs.1] at hf; exact ⟨a', hf, ha', rfl⟩
  | reg uri fid =>
    obtain ⟨hh, -, hs⟩ := regFace_spec s hi.nodup uri fid
    refine h.event hh (fun n => ⟨rfl, by nofun⟩) ?_
    intro n a' hf ha'
    cases hfm : findUri s.adjs uri with
    | none => rw [hfm] at hs; rw [hs] at hf; exact ⟨a', hf, ha', rfl⟩
    | some a =>
      rw [hfm] at hs
      rw [hs, find_modify] at hf
      split at hf
      · cases hy : find s.adjs n with
        | none => rw [hy] at hf; cases hf
        | some b =>
          rw [hy] at hf
          obtain rfl := Option.some.inj hf
          exact ⟨b, rfl, ha', rfl⟩
      · exact ⟨a', hf, ha', rfl⟩
  | dataset i faces s0 h0 =>
    refine h.event (e := .dataset faces) rfl (fun n => ⟨rfl, by nofun⟩) ?_
    intro n a' hf ha'
    have hf' : find (useDataset c faces s.adjs).1 n = some a' := hf
    rw [useDataset_adjs, find_map _ _ _ (fun a => (matchFaces_same a faces).1)] at hf'
    cases hy : find s.adjs n with
    | none => rw [hy] at hf'; cases hf'
    | some b =>
      rw [hy] at hf'
      obtain rfl := Option.some.inj hf'
      have := matchFaces_same b faces
      exact ⟨b, rfl, this.2.2.1 ▸ ha', this.2.2.2.1.symm⟩

theorem Reachable.counts {c : NConf} (hr : c.retry < 4294967296) {s : Nbr} (h : Reachable c s) : Counts c s := by
  refine Reachable.induct (P := Counts c) ?_ ?_ h
  · intro adjs hf n a ha hs
    have := (init_mem hf (find_mem ha)).1
    rw [this] at hs; cases hs
  · intro s op hr' hc
    exact hc.step hr hr'.ninv op

/-- Rebuild requests. -/
def isRebuild : NOut → Bool
  | .build | .calc => true
  | _ => false

theorem minor_rebuild {o : List NOut} (h : ∀ x ∈ o, x.minor = true) : o.filter isRebuild = [] := by
  rw [List.filter_eq_nil_iff]
  intro x hx
  have := h x hx
  cases x <;> first | (intro h; cases h; done) | cases this

theorem getStatus_modify (l : AdjacencyList) (m n : Name) (f : Adjacent → Adjacent) [Adjacent.Keeps f] :
    getStatus (modify l m f) n = if n = m then (match find l n with | none => .unknown | some a => (f a).status)
      else getStatus l n := by
  unfold getStatus
  rw [find_modify]
  by_cases h : n = m
  · rw [if_pos h, if_pos h]; cases find l n <;> rfl
  · rw [if_neg h, if_neg h]

/-- The full account of one step in terms of statuses, history and rebuild requests. -/
theorem step_status {c : NConf} (hr : c.retry < 4294967296) {s : Nbr} (hi : NInv c s) (op : Op) :
    (∃ o, (Nbr.step c s op).out = s.out ++ o ∧
      (((∀ n, getStatus (Nbr.step c s op).adjs n = getStatus s.adjs n) ∧ o.filter isRebuild = []) ∨
       (∃ n, o.filter isRebuild = [if c.hyp = .on then .calc else .build] ∧
          (∀ m, m ≠ n → getStatus (Nbr.step c s op).adjs m = getStatus s.adjs m) ∧
          ((getStatus s.adjs n = .active ∧ getStatus (Nbr.step c s op).adjs n = .inactive ∧
              (((Nbr.step c s op).hist = s.hist ++ [.lost (helloOf c n)] ∧
                ∃ a, find s.adjs n = some a ∧ c.retry ≤ (a.timedOut + 1) % 4294967296) ∨
               ∃ fid a, op = .faceDown fid ∧ findFace s.adjs fid = some a ∧ a.name = n)) ∨
           (getStatus s.adjs n ≠ .active ∧ getStatus (Nbr.step c s op).adjs n = .active ∧
              ∃ d ∈ s.validating, (Nbr.step c s op).hist = s.hist ++ [.valid d] ∧ IsReplyOf n d))))) := by
  have hstep := step_is c s op
  generalize Nbr.step c s op = s' at hstep ⊢
  cases hstep with
  | quiet q =>
    obtain ⟨o, ho, hm⟩ := q.out
    exact ⟨o, ho, Or.inl ⟨fun n => by rw [q.adjs], minor_rebuild hm⟩⟩
  | lost s0 name h0 hw hop =>
    have hx : IsHello c s name := by
      rcases hw with ⟨d, hw⟩ | ⟨d, hw⟩
      · exact hi.waiting _ hw
      · exact hi.nacked _ hw
    obtain ⟨m, hm, rfl⟩ := hx
    obtain ⟨hh, hs⟩ := lost_spec c s0 (hi.small m hm) hr
    rw [h0.1, h0.2.2] at hs
    rw [h0.2.1] at hh
    cases hfm : find s.adjs m with
    | none =>
      rw [hfm] at hs
      exact ⟨[], by rw [hs.2, List.append_nil], Or.inl ⟨fun n => by rw [hs.1], rfl⟩⟩
    | some a =>
      rw [hfm] at hs
      dsimp only at hs
      have hsame : ∀ n, getStatus (modify s.adjs m Adjacent.bump) n = getStatus s.adjs n := by
        intro n
        rw [getStatus_modify]
        split
        · rename_i e
          subst e
          unfold getStatus
          rw [hfm]; rfl
        · rfl
      split at hs
      · exact ⟨_, hs.2, Or.inl ⟨fun n => by rw [hs.1, hsame], rfl⟩⟩
      · rename_i hc
        split at hs
        · rename_i ha
          refine ⟨_, hs.2, Or.inr ⟨m, ?_, ?_, Or.inl ⟨?_, ?_, Or.inl ⟨hh, a, hfm, Nat.le_of_not_lt hc⟩⟩⟩⟩
          · split <;> rfl
          · intro n hn
            rw [hs.1, getStatus_modify, if_neg hn]
          · unfold getStatus; rw [hfm]; exact ha
          · rw [hs.1, getStatus_modify, if_pos rfl, hfm]; rfl
        · exact ⟨[], by rw [hs.2, List.append_nil], Or.inl ⟨fun n => by rw [hs.1, hsame], rfl⟩⟩
  | valid s0 d h0 hd =>
    obtain ⟨hh, hs⟩ := validated_spec c s0 d
    rw [h0.1, h0.2.2] at hs
    rw [h0.2.1] at hh
    have hl := (hi.valid d hd).2
    split at hs
    · rename_i h3
      have hrep : IsReplyOf (Name.getPrefix d (-4)) d := (isReplyOf_iff hl _).2 ⟨short_reply hi hd h3, h3, rfl⟩
      generalize Name.getPrefix d (-4) = m at hs hrep
      cases hfm : find s.adjs m with
      | none =>
        rw [hfm] at hs
        refine ⟨[], by rw [hs.2, List.append_nil], Or.inl ⟨fun n => ?_, rfl⟩⟩
        rw [hs.1, find_none_modify hfm]
      | some a =>
        rw [hfm] at hs
        dsimp only at hs
        have hst : getStatus s.adjs m = a.status := by unfold getStatus; rw [hfm]
        obtain ⟨hs1, hs2⟩ := hs
        split at hs2
        · rename_i ha
          refine ⟨[], by rw [hs2, List.append_nil], Or.inl ⟨fun n => ?_, rfl⟩⟩
          rw [hs1, getStatus_modify]
          split
          · rename_i e
            subst e
            rw [hst, hfm, ha]; rfl
          · rfl
        · rename_i ha
          refine ⟨_, hs2, Or.inr ⟨m, ?_, ?_, Or.inr ⟨by rw [hst]; exact ha, ?_, d, hd, hh, hrep⟩⟩⟩
          · split <;> rfl
          · intro n hn
            rw [hs1, getStatus_modify, if_neg hn]
          · rw [hs1, getStatus_modify, if_pos rfl, hfm]; rfl
    · exact ⟨[], by rw [hs.2, List.append_nil], Or.inl ⟨fun n => by rw [hs.1], rfl⟩⟩
  | down fid =>
    obtain ⟨hh, hs⟩ := faceDown_spec c s hi.nodup fid
    cases hfm : findFace s.adjs fid with
    | none =>
      rw [hfm] at hs
      exact ⟨[], by rw [hs.2, List.append_nil], Or.inl ⟨fun n => by rw [hs.1], rfl⟩⟩
    | some a =>
      rw [hfm] at hs
      dsimp only at hs
      have hfa : find s.adjs a.name = some a := mem_find hi.nodup (List.mem_of_find?_eq_some hfm)
      split at hs
      · rename_i ha
        refine ⟨_, hs.2, Or.inr ⟨a.name, ?_, ?_, Or.inl ⟨?_, ?_, Or.inr ⟨fid, a, rfl, hfm, rfl⟩⟩⟩⟩
        · split <;> rfl
        · intro n hn
          rw [hs.1, getStatus_modify, if_neg hn]
        · unfold getStatus; rw [hfa]; exact ha
        · rw [hs.1, getStatus_modify, if_pos rfl, hfa]; rfl
      · refine ⟨[], by rw [hs.2, List.append_nil], Or.inl ⟨fun n => ?_, rfl⟩⟩
        rw [hs.1, getStatus_modify]
        split
        · rename_i e
          subst e
          unfold getStatus
          rw [hfa]; rfl
        · rfl
  | up uri fid =>
    obtain ⟨hh, hs⟩ := faceUp_spec c s hi.nodup uri fid
    cases hfm : findUri s.adjs uri with
    | none =>
      rw [hfm] at hs
      exact ⟨[], by rw [hs.2, List.append_nil], Or.inl ⟨fun n => by rw [hs.1], rfl⟩⟩
    | some a =>
      rw [hfm] at hs
      dsimp only at hs
      have hfa : find s.adjs a.name = some a := mem_find hi.nodup (List.mem_of_find?_eq_some hfm)
      split at hs
      · refine ⟨_, hs.2, Or.inl ⟨fun n => ?_, rfl⟩⟩
        rw [hs.1, getStatus_modify]
        split
        · rename_i e
          subst e
          unfold getStatus
          rw [hfa]; rfl
        · rfl
      · exact ⟨[], by rw [hs.2, List.append_nil], Or.inl ⟨fun n => by rw [hs.1], rfl⟩⟩
  | reg uri fid =>
    obtain ⟨hh, ho, hs⟩ := regFace_spec s hi.nodup uri fid
    refine ⟨[], by rw [ho, List.append_nil], Or.inl ⟨fun n => ?_, rfl⟩⟩
    cases hfm : findUri s.adjs uri with
    | none => rw [hfm] at hs; rw [hs]
    | some a =>
      rw [hfm] at hs
      have hfa : find s.adjs a.name = some a := mem_find hi.nodup (List.mem_of_find?_eq_some hfm)
      rw [hs, getStatus_modify]
      split
      · rename_i e
        subst e
        unfold getStatus
        rw [hfa]; rfl
      · rfl
  | dataset i faces s0 h0 =>
    refine ⟨(useDataset c faces s.adjs).2 ++ [.nextFetch], ?_, Or.inl ⟨?_, ?_⟩⟩
    · show (s.out ++ (useDataset c faces s.adjs).2) ++ [NOut.nextFetch] = _
      rw [List.append_assoc]
    · intro n
      show getStatus (useDataset c faces s.adjs).1 n = _
      rw [useDataset_adjs]
      unfold getStatus
      rw [find_map _ _ _ (fun a => (matchFaces_same a faces).1)]
      cases find s.adjs n with
      | none => rfl
      | some a => exact (matchFaces_same a faces).2.2.1
    · rw [List.filter_append, List.append_eq_nil_iff]
      refine ⟨?_, rfl⟩
      rw [List.filter_eq_nil_iff]
      intro x hx
      obtain ⟨n, u, k, rfl⟩ := useDataset_out c faces s.adjs x hx
      nofun

end Nbr

open Nbr AdjacencyList

/-- C41: while no face is destroyed, a neighbour that is up goes down exactly when a hello interest of its own is lost
and, with it, at least hello-retries of them have been lost since its last validated reply.  Nothing else takes it
down. -/
theorem C41_down {c : NConf} (hr : c.retry < 4294967296) {s : Nbr} (h : Nbr.Reachable c s) (op : Nbr.Op)
    (hop : ∀ fid, op ≠ .faceDown fid) (n : Name) (hn : getStatus s.adjs n = .active) :
    getStatus (Nbr.step c s op).adjs n =
      if (Nbr.step c s op).hist = s.hist ++ [.lost (helloOf c n)] ∧ c.retry ≤ missed c n (Nbr.step c s op).hist
      then .inactive else .active := by
  have hi := h.ninv
  have hcnt := h.counts hr
  have hcnt' := (h.step op).counts hr
  obtain ⟨a, hfa, ha⟩ : ∃ a, find s.adjs n = some a ∧ a.status = .active := by
    unfold getStatus at hn
    cases hf : find s.adjs n with
    | none => rw [hf] at hn; cases hn
    | some a => rw [hf] at hn; exact ⟨a, rfl, hn⟩
  obtain ⟨h1, h2⟩ := hcnt n a hfa ha
  obtain ⟨o, _, hc⟩ := step_status hr hi op
  have stay : getStatus (Nbr.step c s op).adjs n = .active →
      ¬ ((Nbr.step c s op).hist = s.hist ++ [.lost (helloOf c n)] ∧ c.retry ≤ missed c n (Nbr.step c s op).hist) := by
    rintro hs ⟨hh, hm⟩
    unfold getStatus at hs
    cases hf : find (Nbr.step c s op).adjs n with
    | none => rw [hf] at hs; cases hs
    | some a' =>
      rw [hf] at hs
      obtain ⟨h3, h4⟩ := hcnt' n a' hf hs
      have hpos : missed c n (Nbr.step c s op).hist = missed c n s.hist + 1 := by
        rw [hh, missed_snoc, if_neg (by nofun), if_pos rfl]
      omega
  rcases hc with ⟨hsame, _⟩ | ⟨m, _, hne, hc⟩
  · rw [if_neg (stay (by rw [hsame, hn])), hsame, hn]
  · by_cases hmn : n = m
    · subst hmn
      rcases hc with ⟨_, hina, hc⟩ | ⟨hna, _⟩
      · rcases hc with ⟨hh, a', hfa', hle⟩ | ⟨fid, _, e, _⟩
        · rw [hfa] at hfa'
          obtain rfl := Option.some.inj hfa'
          rw [hina, if_pos]
          refine ⟨hh, ?_⟩
          rw [hh, missed_snoc, if_neg (by nofun), if_pos rfl, ← h1]
          exact Nat.le_trans hle (Nat.mod_le ..)
        · exact absurd e (hop fid)
      · exact absurd hn hna
    · rw [if_neg (stay (by rw [hne n hmn, hn])), hne n hmn, hn]

/-- C41: a neighbour that is down is not changed by losses at all. -/
theorem C41_inactive {c : NConf} (hr : c.retry < 4294967296) {s : Nbr} (h : Nbr.Reachable c s) (op : Nbr.Op) (n x : Name)
    (hn : getStatus s.adjs n = .inactive) (hx : (Nbr.step c s op).hist = s.hist ++ [.lost x]) :
    getStatus (Nbr.step c s op).adjs n = .inactive := by
  obtain ⟨o, _, hc⟩ := step_status hr h.ninv op
  rcases hc with ⟨hsame, _⟩ | ⟨m, _, hne, hc⟩
  · rw [hsame, hn]
  · by_cases hmn : n = m
    · subst hmn
      rcases hc with ⟨ha, _⟩ | ⟨_, _, d, _, hh, _⟩
      · rw [hn] at ha; cases ha
      · rw [hx] at hh
        have := List.append_cancel_left hh
        injection this with e
        cases e
    · rw [hne n hmn, hn]

/-- C42: a neighbour comes up only by a validated hello data of its own. -/
theorem C42_up {c : NConf} (hr : c.retry < 4294967296) {s : Nbr} (h : Nbr.Reachable c s) (op : Nbr.Op) (n : Name)
    (hn : getStatus s.adjs n ≠ .active) (hn' : getStatus (Nbr.step c s op).adjs n = .active) :
    ∃ d, (Nbr.step c s op).hist = s.hist ++ [.valid d] ∧ IsReplyOf n d := by
  obtain ⟨o, _, hc⟩ := step_status hr h.ninv op
  rcases hc with ⟨hsame, _⟩ | ⟨m, _, hne, hc⟩
  · rw [hsame] at hn'; exact absurd hn' hn
  · by_cases hmn : n = m
    · subst hmn
      rcases hc with ⟨_, hina, _⟩ | ⟨_, _, d, _, hh, hrep⟩
      · rw [hina] at hn'; cases hn'
      · exact ⟨d, hh, hrep⟩
    · rw [hne n hmn] at hn'; exact absurd hn' hn

/-- C42: a validated hello data of a neighbour brings it up with count 0; every other neighbour, and every neighbour if
the data belongs to none, is exactly as before. -/
theorem C42_valid {c : NConf} {s : Nbr} (h : Nbr.Reachable c s) (op : Nbr.Op) (d : Name)
    (hd : (Nbr.step c s op).hist = s.hist ++ [.valid d]) (n : Name) :
    find (Nbr.step c s op).adjs n =
      if IsReplyOf n d then (find s.adjs n).map (fun a => { a with status := .active, timedOut := 0 }) else find s.adjs n := by
  have hi := h.ninv
  have hstep := step_is c s op
  generalize Nbr.step c s op = s' at hstep hd ⊢
  have snoc : ∀ e, s'.hist = s.hist ++ [e] → e = .valid d := by
    intro e he
    rw [hd] at he
    have := List.append_cancel_left he
    injection this with e
    exact e.symm
  cases hstep with
  | quiet q => rw [q.hist] at hd; exact absurd (congrArg List.length hd) (by simp)
  | lost s0 name h0 hw hop =>
    have : (Nbr.lost c s0 name).hist = s.hist ++ [.lost name] := by
      unfold Nbr.lost
      dsimp only
      rw [← h0.2.1]
      split
      · rfl
      · split
        · rfl
        · split <;> rfl
    cases snoc _ this
  | valid s0 d' h0 hd' =>
    obtain ⟨hh, hs⟩ := validated_spec c s0 d'
    rw [h0.1] at hs
    rw [h0.2.1] at hh
    injection snoc _ hh with e
    subst e
    have hl := (hi.valid d' hd').2
    by_cases hrep : IsReplyOf n d'
    · obtain ⟨_, h3, h4⟩ := (isReplyOf_iff hl n).1 hrep
      rw [if_pos h3, h4] at hs
      rw [if_pos hrep, hs.1, find_modify, if_pos rfl]
      rfl
    · rw [if_neg hrep]
      split at hs
      · rename_i h3
        rw [hs.1, find_modify, if_neg]
        intro e
        exact hrep ((isReplyOf_iff hl n).2 ⟨short_reply hi hd' h3, h3, e.symm⟩)
      · rw [hs.1]
  | down fid => cases snoc _ (faceDown_spec c s hi.nodup fid).1
  | up uri fid => cases snoc _ (faceUp_spec c s hi.nodup uri fid).1
  | reg uri fid => cases snoc _ (regFace_spec s hi.nodup uri fid).1
  | dataset i faces s0 h0 => cases snoc (.dataset faces) rfl

/-- C43: in every step, exactly one rebuild request is made if some neighbour's status changes (and then only one
neighbour's does), and none if none changes.  The request is a route calculation in hyperbolic mode, else an
adjacency LSA build. -/
theorem C43_rebuild {c : NConf} (hr : c.retry < 4294967296) {s : Nbr} (h : Nbr.Reachable c s) (op : Nbr.Op) :
    ∃ o, (Nbr.step c s op).out = s.out ++ o ∧
      (((∀ n, getStatus (Nbr.step c s op).adjs n = getStatus s.adjs n) ∧ o.filter isRebuild = []) ∨
       ((∃ n, getStatus (Nbr.step c s op).adjs n ≠ getStatus s.adjs n ∧
           ∀ m, m ≠ n → getStatus (Nbr.step c s op).adjs m = getStatus s.adjs m) ∧
        o.filter isRebuild = [if c.hyp = .on then .calc else .build])) := by
  obtain ⟨o, ho, hc⟩ := step_status hr h.ninv op
  refine ⟨o, ho, ?_⟩
  rcases hc with hs | ⟨n, hf, hne, hc⟩
  · exact Or.inl hs
  · refine Or.inr ⟨⟨n, ?_, hne⟩, hf⟩
    rcases hc with ⟨h1, h2, _⟩ | ⟨h1, h2, _⟩
    · rw [h1, h2]; nofun
    · rw [h2]; exact fun e => h1 e.symm

end Nlsr
