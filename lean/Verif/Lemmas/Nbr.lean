import Verif.Model.Nbr
import Verif.Props.Adjacency
import Verif.Lemmas.Names
import Verif.Lemmas.LsdbInv
/- What each operation of the neighbour component does. -/
namespace Nlsr
namespace Adjacent
/-- The changes made to a neighbour. -/
def bump (a : Adjacent) : Adjacent := { a with timedOut := a.timedOut + 1 }
def bumpDown (a : Adjacent) : Adjacent := { a with timedOut := a.timedOut + 1, status := .inactive }
def up (a : Adjacent) : Adjacent := { a with status := .active, timedOut := 0 }
def lose (retry : Nat) (a : Adjacent) : Adjacent := { a with faceId := 0, status := .inactive, timedOut := retry }
def withFace (fid : Nat) (a : Adjacent) : Adjacent := { a with faceId := fid }

/-- `f` leaves the name alone. -/
class Keeps (f : Adjacent → Adjacent) : Prop where
  name : ∀ a, (f a).name = a.name

instance : Keeps bump := ⟨fun _ => rfl⟩
instance : Keeps bumpDown := ⟨fun _ => rfl⟩
instance : Keeps up := ⟨fun _ => rfl⟩
instance (r : Nat) : Keeps (lose r) := ⟨fun _ => rfl⟩
instance (fid : Nat) : Keeps (withFace fid) := ⟨fun _ => rfl⟩
end Adjacent

namespace AdjacencyList

theorem find_modify (l : AdjacencyList) (m n : Name) (f : Adjacent → Adjacent) [hf : Adjacent.Keeps f] :
    find (modify l m f) n = if n = m then (find l n).map f else find l n := by
  by_cases h : n = m
  · rw [if_pos h, h, modify_find_eq _ _ _ hf.name]
  · rw [if_neg h, modify_find_ne _ h _ hf.name]

theorem modify_modify (l : AdjacencyList) (n : Name) (f g : Adjacent → Adjacent) (hf : ∀ a, (f a).name = a.name) :
    modify (modify l n f) n g = modify l n (fun a => g (f a)) := by
  induction l with
  | nil => rfl
  | cons a as ih =>
    by_cases h : (a.name == n) = true
    · rw [modify, if_pos h, modify, if_pos (by rw [hf]; exact h), modify, if_pos h]
    · rw [modify, if_neg h, modify, if_neg h, ih, modify, if_neg h]

theorem find_name {l : AdjacencyList} {n : Name} {a : Adjacent} (h : find l n = some a) : a.name = n := by
  have := List.find?_some h
  simpa using this

theorem find_mem {l : AdjacencyList} {n : Name} {a : Adjacent} (h : find l n = some a) : a ∈ l := List.mem_of_find?_eq_some h

theorem find_map (l : AdjacencyList) (n : Name) (g : Adjacent → Adjacent) (hg : ∀ a, (g a).name = a.name) :
    find (l.map g) n = (find l n).map g := by
  induction l with
  | nil => rfl
  | cons a as ih =>
    unfold find at ih ⊢
    rw [List.map_cons, List.find?_cons, List.find?_cons, hg]
    cases a.name == n with
    | true => rfl
    | false => exact ih

theorem find_none_modify {l : AdjacencyList} {n : Name} (h : find l n = none) (f : Adjacent → Adjacent) : modify l n f = l := by
  induction l with
  | nil => rfl
  | cons a as ih =>
    unfold find at h
    rw [List.find?_cons] at h
    cases hb : (a.name == n) with
    | true => rw [hb] at h; cases h
    | false =>
      rw [hb] at h
      rw [modify, if_neg (by rw [hb]; nofun), ih h]

theorem mem_find {l : AdjacencyList} (hn : (l.map (·.name)).Nodup) {a : Adjacent} (ha : a ∈ l) : find l a.name = some a := by
  induction l with
  | nil => cases ha
  | cons b bs ih =>
    rw [List.map_cons, List.nodup_cons] at hn
    unfold find
    rw [List.find?_cons]
    rcases List.mem_cons.1 ha with rfl | hb
    · rw [beq_self_eq_true]
    · have : (b.name == a.name) = false := by
        cases hx : (b.name == a.name) with
        | false => rfl
        | true =>
          have : b.name = a.name := by simpa using hx
          exact absurd (this ▸ List.mem_map_of_mem hb) hn.1
      rw [this]
      exact ih hn.2 hb

theorem modifyFace_eq {l : AdjacencyList} (hn : (l.map (·.name)).Nodup) {fid : Nat} {a : Adjacent}
    (h : findFace l fid = some a) (f : Adjacent → Adjacent) : modifyFace l fid f = modify l a.name f := by
  induction l with
  | nil => cases h
  | cons b bs ih =>
    have hn' := hn
    rw [List.map_cons, List.nodup_cons] at hn
    unfold findFace at h
    rw [List.find?_cons] at h
    cases hb : (b.faceId == fid) with
    | true =>
      rw [hb] at h
      obtain rfl : b = a := by simpa using h
      rw [modifyFace, if_pos hb, modify, if_pos (by simp)]
    | false =>
      rw [hb] at h
      have ha : a ∈ bs := List.mem_of_find?_eq_some h
      have hne : ¬ (b.name == a.name) = true := by
        intro hx
        have : b.name = a.name := by simpa using hx
        exact hn.1 (this ▸ List.mem_map_of_mem ha)
      rw [modifyFace, if_neg (by rw [hb]; nofun), modify, if_neg hne, ih hn.2 h]

theorem setFaceOf_eq {l : AdjacencyList} (hn : (l.map (·.name)).Nodup) {u : Uri} {a : Adjacent}
    (h : findUri l u = some a) (fid : Nat) : setFaceOf l u fid = modify l a.name (Adjacent.withFace fid) := by
  induction l with
  | nil => cases h
  | cons b bs ih =>
    rw [List.map_cons, List.nodup_cons] at hn
    unfold findUri at h
    rw [List.find?_cons] at h
    cases hb : (b.uri == u) with
    | true =>
      rw [hb] at h
      obtain rfl : b = a := by simpa using h
      rw [setFaceOf, if_pos hb, modify, if_pos (by simp)]; rfl
    | false =>
      rw [hb] at h
      have ha : a ∈ bs := List.mem_of_find?_eq_some h
      have hne : ¬ (b.name == a.name) = true := by
        intro hx
        have : b.name = a.name := by simpa using hx
        exact hn.1 (this ▸ List.mem_map_of_mem ha)
      rw [setFaceOf, if_neg (by rw [hb]; nofun), modify, if_neg hne, ih hn.2 h]

end AdjacencyList

namespace Nbr
open AdjacencyList

/-- Outputs other than rebuild requests, first-hello signals and registrations. -/
def _root_.Nlsr.NOut.minor : NOut → Bool
  | .build | .calc | .initial _ | .register .. => false
  | _ => true

/-- Nothing about the neighbours changes. -/
structure Quiet (s s' : Nbr) : Prop where
  adjs : s'.adjs = s.adjs
  hist : s'.hist = s.hist
  out  : ∃ o, s'.out = s.out ++ o ∧ ∀ x ∈ o, x.minor = true

theorem Quiet.refl (s : Nbr) : Quiet s s := ⟨rfl, rfl, [], by simp, by simp⟩

theorem Quiet.trans {a b c : Nbr} (h : Quiet a b) (h' : Quiet b c) : Quiet a c := by
  obtain ⟨o, e, m⟩ := h.out
  obtain ⟨o', e', m'⟩ := h'.out
  refine ⟨h'.adjs.trans h.adjs, h'.hist.trans h.hist, o ++ o', by rw [e', e, List.append_assoc], ?_⟩
  intro x hx
  rcases List.mem_append.1 hx with hx | hx
  · exact m x hx
  · exact m' x hx

theorem quiet_of {s s' : Nbr} (h1 : s'.adjs = s.adjs) (h2 : s'.hist = s.hist) (h3 : s'.out = s.out) : Quiet s s' :=
  ⟨h1, h2, [], by rw [h3, List.append_nil], by simp⟩

theorem quiet_one {s s' : Nbr} (h1 : s'.adjs = s.adjs) (h2 : s'.hist = s.hist) (x : NOut) (h3 : s'.out = s.out ++ [x])
    (hx : x.minor = true) : Quiet s s' :=
  ⟨h1, h2, [x], h3, by intro y hy; rw [List.mem_singleton] at hy; rw [hy]; exact hx⟩

theorem express_quiet (c : NConf) (s : Nbr) (n : Name) : Quiet s (s.express c n) :=
  quiet_one rfl rfl _ rfl rfl

theorem sendHello_quiet (c : NConf) (s : Nbr) (n : Name) : Quiet s (s.sendHello c n) := by
  unfold sendHello
  split
  · exact Quiet.refl s
  · dsimp only
    refine Quiet.trans (b := if _ then _ else _) ?_ (quiet_of rfl rfl rfl)
    split
    · exact express_quiet ..
    · exact Quiet.refl s

theorem helloTimer_quiet (c : NConf) (s : Nbr) (i : Nat) : Quiet s (s.helloTimer c i) := by
  unfold helloTimer
  split
  · exact Quiet.refl s
  · split
    · exact Quiet.refl s
    · exact Quiet.trans (b := { s with timers := s.timers.eraseIdx i }) (quiet_of rfl rfl rfl) (sendHello_quiet ..)

theorem interest_quiet (c : NConf) (s : Nbr) (n : Name) (v : Comp) : Quiet s (s.interest c n v) := by
  unfold interest
  split
  · exact Quiet.refl s
  · split
    · exact Quiet.refl s
    · split
      · exact Quiet.refl s
      · split
        · exact quiet_of rfl rfl rfl
        · split
          · exact Quiet.refl s
          · dsimp only
            have h : Quiet s (s.emit (.data (n ++ [v]))) := quiet_one rfl rfl _ rfl rfl
            split
            · exact h.trans (express_quiet ..)
            · exact h

/-- The whole effect of one step on the neighbours: nothing, a lost interest, a validated reply, or a face event.
`s0` is `s` with some waiting entry taken out. -/
inductive StepIs (c : NConf) (s : Nbr) : Op → Nbr → Prop
  | quiet {op s'} (h : Quiet s s') : StepIs c s op s'
  | lost {op} (s0 : Nbr) (name : Name) (h0 : s0.adjs = s.adjs ∧ s0.hist = s.hist ∧ s0.out = s.out)
      (hw : (∃ d, (name, d) ∈ s.waiting) ∨ ∃ d, (name, d) ∈ s.nacked)
      (hop : (∃ i, op = .timeout i) ∨ ∃ i, op = .nackTimer i) : StepIs c s op (lost c s0 name)
  | valid {i} (s0 : Nbr) (d : Name) (h0 : s0.adjs = s.adjs ∧ s0.hist = s.hist ∧ s0.out = s.out)
      (hd : d ∈ s.validating) : StepIs c s (.valid i) (validated c s0 d)
  | down (fid : Nat) : StepIs c s (.faceDown fid) (s.faceDown c fid)
  | up (uri : Uri) (fid : Nat) : StepIs c s (.faceUp uri fid) (s.faceUp c uri fid)
  | reg (uri : Uri) (fid : Nat) : StepIs c s (.regFace uri fid) (s.regFace uri fid)
  | dataset (i : Nat) (faces : List (Uri × Nat)) (s0 : Nbr) (h0 : s0.adjs = s.adjs ∧ s0.hist = s.hist ∧ s0.out = s.out) :
      StepIs c s (.fetchOk i faces)
        (scheduleFetch c { s0 with adjs := (useDataset c faces s.adjs).1, out := s.out ++ (useDataset c faces s.adjs).2,
                                   hist := s.hist ++ [.dataset faces] })

theorem step_is (c : NConf) (s : Nbr) (op : Op) : StepIs c s op (step c s op) := by
  unfold step
  split
  · exact .quiet (Quiet.refl s)
  · cases op with
    | registered n => exact .quiet (sendHello_quiet ..)
    | helloTimer i => exact .quiet (helloTimer_quiet ..)
    | interest n v => exact .quiet (interest_quiet ..)
    | timeout i =>
      show StepIs c s _ (timeout c s i)
      unfold timeout
      cases h : s.waiting[i]? with
      | none => exact .quiet (Quiet.refl s)
      | some p =>
        obtain ⟨name, due⟩ := p
        dsimp only
        split
        · exact .quiet (Quiet.refl s)
        · exact .lost { s with waiting := s.waiting.eraseIdx i } name ⟨rfl, rfl, rfl⟩ (Or.inl ⟨due, List.mem_of_getElem? h⟩) (Or.inl ⟨i, rfl⟩)
    | nack i =>
      show StepIs c s _ (nack c s i)
      unfold nack
      split
      · exact .quiet (Quiet.refl s)
      · exact .quiet (quiet_of rfl rfl rfl)
    | nackTimer i =>
      show StepIs c s _ (nackTimer c s i)
      unfold nackTimer
      cases h : s.nacked[i]? with
      | none => exact .quiet (Quiet.refl s)
      | some p =>
        obtain ⟨name, due⟩ := p
        dsimp only
        split
        · exact .quiet (Quiet.refl s)
        · exact .lost { s with nacked := s.nacked.eraseIdx i } name ⟨rfl, rfl, rfl⟩ (Or.inr ⟨due, List.mem_of_getElem? h⟩) (Or.inr ⟨i, rfl⟩)
    | data i d =>
      show StepIs c s _ (data s i d)
      unfold data
      split
      · exact .quiet (Quiet.refl s)
      · split
        · exact .quiet (quiet_of rfl rfl rfl)
        · exact .quiet (Quiet.refl s)
    | valid i =>
      show StepIs c s _ (valid c s i)
      unfold valid
      cases h : s.validating[i]? with
      | none => exact .quiet (Quiet.refl s)
      | some d => exact .valid { s with validating := s.validating.eraseIdx i } d ⟨rfl, rfl, rfl⟩ (List.mem_of_getElem? h)
    | invalid i => exact .quiet (quiet_of rfl rfl rfl)
    | faceDown fid => exact .down fid
    | faceUp uri fid => exact .up uri fid
    | fetchOk i faces =>
      show StepIs c s _ (fetchOk c s i faces)
      unfold fetchOk
      split
      · exact .quiet (Quiet.refl s)
      · exact .dataset i faces { s with fetches := s.fetches.eraseIdx i } ⟨rfl, rfl, rfl⟩
    | fetchFail i =>
      show StepIs c s _ (fetchFail c s i)
      unfold fetchFail
      split
      · exact .quiet (Quiet.refl s)
      · dsimp only
        split
        · exact .quiet (quiet_one rfl rfl _ rfl rfl)
        · exact .quiet (quiet_one rfl rfl _ rfl rfl)
    | fetchTimer i =>
      show StepIs c s _ (fetchTimer s i)
      unfold fetchTimer
      split
      · exact .quiet (Quiet.refl s)
      · split
        · exact .quiet (Quiet.refl s)
        · exact .quiet (quiet_one rfl rfl _ rfl rfl)
    | newLsa o =>
      show StepIs c s _ (newLsa s o)
      unfold newLsa
      split
      · exact .quiet (Quiet.refl s)
      · refine .quiet ⟨rfl, rfl, _, rfl, ?_⟩
        intro x hx
        obtain ⟨n, _, rfl⟩ := List.mem_map.1 hx
        rfl
    | regFace uri fid => exact .reg uri fid
    | clock dt => exact .quiet (quiet_of rfl rfl rfl)

/-! ### Names -/

theorem helloName_length (c : NConf) (m : Name) : (helloName c m).length = m.length + 3 := by simp [helloName]

theorem helloName_fromEnd (c : NConf) (m : Name) : Name.fromEnd (helloName c m) 2 = some infoComp := by
  unfold Name.fromEnd
  rw [if_pos (by rw [helloName_length]; omega), helloName_length]
  simp [helloName]

theorem helloName_prefix (c : NConf) {m : Name} (h : m.length < 2 ^ 63) : Name.getPrefix (helloName c m) (-3) = m := by
  have := Name.getPrefix_neg (n := helloName c m) 3 (by omega) (by rw [helloName_length]; omega)
    (by rw [helloName_length]; omega)
  have e : (-((3 : Nat) : Int)) = -3 := by omega
  rw [e] at this
  rw [this, helloName_length]
  simp [helloName]

theorem helloName_inj (c : NConf) {m n : Name} (h : helloName c m = helloName c n) : m = n :=
  List.append_cancel_right h

/-- The shape of a hello data's name. -/
theorem data_shape {d : Name} (hl : d.length ≤ 8800) :
    (Name.fromEnd d 3 = some infoComp ∧ 4 ≤ d.length) ↔
      ∃ a b v, d = Name.getPrefix d (-4) ++ [a, infoComp, b, v] := by
  have hp : 4 ≤ d.length → Name.getPrefix d (-4) = d.take (d.length - 4) := by
    intro h
    have := Name.getPrefix_neg (n := d) 4 (by omega) h (by omega)
    have e : (-((4 : Nat) : Int)) = -4 := by omega
    rwa [e] at this
  constructor
  · rintro ⟨h, h4⟩
    rw [hp h4]
    have hd : (d.drop (d.length - 4)).length = 4 := by rw [List.length_drop]; omega
    match hx : d.drop (d.length - 4), hd with
    | [a, i, b, v], _ =>
      have e : d = d.take (d.length - 4) ++ [a, i, b, v] := by rw [← hx, List.take_append_drop]
      have : i = infoComp := by
        unfold Name.fromEnd at h
        rw [if_pos (by omega)] at h
        have h2 : (d.drop (d.length - 4))[1]? = some i := by rw [hx]; rfl
        rw [List.getElem?_drop] at h2
        have e3 : d.length - 4 + 1 = d.length - 3 := by omega
        rw [e3, h] at h2
        exact (Option.some.inj h2).symm
      exact ⟨a, b, v, this ▸ e⟩
  · rintro ⟨a, b, v, e⟩
    have hl4 : 4 ≤ d.length := by
      have := congrArg List.length e
      simp at this
      omega
    refine ⟨?_, hl4⟩
    rw [hp hl4] at e
    unfold Name.fromEnd
    rw [if_pos (by omega)]
    have h2 : (d.drop (d.length - 4)) = [a, infoComp, b, v] := by
      have e1 : d = d.take (d.length - 4) ++ d.drop (d.length - 4) := (List.take_append_drop ..).symm
      exact List.append_cancel_left (e1.symm.trans e)
    have h3 : (d.drop (d.length - 4))[1]? = some infoComp := by rw [h2]; rfl
    rw [List.getElem?_drop] at h3
    have e3 : d.length - 4 + 1 = d.length - 3 := by omega
    rwa [e3] at h3

/-! ### Lost interests and validated replies -/

/-- What a lost hello interest of neighbour `m` does. -/
theorem lost_spec (c : NConf) (s : Nbr) {m : Name} (hm : m.length < 2 ^ 63) (hr : c.retry < 4294967296) :
    (lost c s (helloName c m)).hist = s.hist ++ [.lost (helloName c m)] ∧
    match find s.adjs m with
    | none => (lost c s (helloName c m)).adjs = s.adjs ∧ (lost c s (helloName c m)).out = s.out
    | some a =>
      if (a.timedOut + 1) % 4294967296 < c.retry then
        (lost c s (helloName c m)).adjs = modify s.adjs m Adjacent.bump ∧
        (lost c s (helloName c m)).out = s.out ++ [.interest (helloName c m)]
      else if a.status = .active then
        (lost c s (helloName c m)).adjs =
          modify s.adjs m Adjacent.bumpDown ∧
        (lost c s (helloName c m)).out = s.out ++ [if c.hyp = .on then .calc else .build]
      else
        (lost c s (helloName c m)).adjs = modify s.adjs m Adjacent.bump ∧
        (lost c s (helloName c m)).out = s.out := by
  have key : lost c s (helloName c m) =
      (let s := { s with hist := s.hist ++ [NEvent.lost (helloName c m)] }
       let s := { s with adjs := incTimedOut s.adjs m }
       let status := getStatus s.adjs m
       let count := (getTimedOut s.adjs m % 4294967296).toNat
       if count < c.retry then s.express c (helloName c m)
       else if status = .active then rebuild c { s with adjs := setStatus s.adjs m .inactive }
       else s) := by
    unfold lost
    dsimp only
    rw [if_neg (not_not_intro (helloName_fromEnd c m)), helloName_prefix c hm]
  rw [key]
  dsimp only
  cases hf : find s.adjs m with
  | none =>
    have h1 : incTimedOut s.adjs m = s.adjs := find_none_modify hf _
    rw [h1]
    have h2 : getTimedOut s.adjs m = -1 := by unfold getTimedOut; rw [hf]
    have h3 : getStatus s.adjs m = .unknown := by unfold getStatus; rw [hf]
    rw [h2, h3, if_neg (by
      have : ((-1 : Int) % 4294967296).toNat = 4294967295 := by decide
      rw [this]; omega), if_neg (by nofun)]
    exact ⟨rfl, rfl, rfl⟩
  | some a =>
    have hf' : find (incTimedOut s.adjs m) m = some { a with timedOut := a.timedOut + 1 } := by
      unfold incTimedOut
      rw [modify_find_eq, hf]
      · rfl
      · exact fun _ => rfl
    have h2 : (getTimedOut (incTimedOut s.adjs m) m % 4294967296).toNat = (a.timedOut + 1) % 4294967296 := by
      unfold getTimedOut; rw [hf']
      show (((a.timedOut + 1 : Nat) : Int) % 4294967296).toNat = _
      omega
    have h3 : getStatus (incTimedOut s.adjs m) m = a.status := by unfold getStatus; rw [hf']
    rw [h2, h3]
    dsimp only
    by_cases hc : (a.timedOut + 1) % 4294967296 < c.retry
    · rw [if_pos hc, if_pos hc]
      exact ⟨rfl, rfl, rfl⟩
    · rw [if_neg hc, if_neg hc]
      by_cases ha : a.status = .active
      · rw [if_pos ha, if_pos ha]
        refine ⟨rfl, ?_, rfl⟩
        show setStatus (incTimedOut s.adjs m) m .inactive = _
        unfold setStatus incTimedOut
        rw [modify_modify]
        · rfl
        · exact fun _ => rfl
      · rw [if_neg ha, if_neg ha]
        exact ⟨rfl, rfl, rfl⟩

/-- What a validated hello data does. -/
theorem validated_spec (c : NConf) (s : Nbr) (d : Name) :
    (validated c s d).hist = s.hist ++ [.valid d] ∧
    if Name.fromEnd d 3 = some infoComp then
      (validated c s d).adjs =
          modify s.adjs (Name.getPrefix d (-4)) Adjacent.up ∧
      match find s.adjs (Name.getPrefix d (-4)) with
      | none => (validated c s d).out = s.out
      | some a =>
        if a.status = .active then (validated c s d).out = s.out
        else (validated c s d).out = s.out ++ [if c.hyp = .on then .calc else .build, .initial (Name.getPrefix d (-4))]
    else (validated c s d).adjs = s.adjs ∧ (validated c s d).out = s.out := by
  unfold validated
  dsimp only
  by_cases h : Name.fromEnd d 3 = some infoComp
  · rw [if_pos h, if_pos h]
    generalize Name.getPrefix d (-4) = n
    have hadj : setTimedOut (setStatus s.adjs n .active) n 0 =
        modify s.adjs n Adjacent.up := by
      unfold setTimedOut setStatus
      rw [modify_modify]
      · rfl
      · exact fun _ => rfl
    rw [hadj]
    cases hf : find s.adjs n with
    | none =>
      have : getStatus s.adjs n = .unknown := by unfold getStatus; rw [hf]
      have h' : getStatus (modify s.adjs n Adjacent.up) n = .unknown := by
        rw [find_none_modify hf, this]
      rw [this, h', if_neg (fun h => h rfl)]
      exact ⟨rfl, rfl, rfl⟩
    | some a =>
      have : getStatus s.adjs n = a.status := by unfold getStatus; rw [hf]
      have h' : getStatus (modify s.adjs n Adjacent.up) n = .active := by
        unfold getStatus
        rw [modify_find_eq, hf]
        · rfl
        · exact fun _ => rfl
      rw [this, h']
      dsimp only
      by_cases ha : a.status = .active
      · rw [if_neg (not_not_intro ha), if_pos ha]
        exact ⟨rfl, rfl, rfl⟩
      · rw [if_pos ha, if_neg ha]
        refine ⟨rfl, rfl, ?_⟩
        show (s.out ++ [_]) ++ [_] = _
        rw [List.append_assoc]; rfl
  · rw [if_neg h, if_neg h]
    exact ⟨rfl, rfl, rfl⟩

/-! ### Face events -/

theorem faceDown_spec (c : NConf) (s : Nbr) (hn : (s.adjs.map (·.name)).Nodup) (fid : Nat) :
    (faceDown c s fid).hist = s.hist ++ [.faceDown fid] ∧
    match findFace s.adjs fid with
    | none => (faceDown c s fid).adjs = s.adjs ∧ (faceDown c s fid).out = s.out
    | some a =>
      if a.status = .active then
        (faceDown c s fid).adjs =
          modify s.adjs a.name (Adjacent.lose c.retry) ∧
        (faceDown c s fid).out = s.out ++ [if c.hyp = .on then .calc else .build]
      else (faceDown c s fid).adjs = modify s.adjs a.name (Adjacent.withFace 0) ∧
        (faceDown c s fid).out = s.out := by
  unfold faceDown
  dsimp only
  cases hf : findFace s.adjs fid with
  | none => exact ⟨rfl, rfl, rfl⟩
  | some a =>
    dsimp only
    rw [modifyFace_eq hn hf, modifyFace_eq hn hf]
    by_cases ha : a.status = .active
    · rw [if_pos ha, if_pos ha]; exact ⟨rfl, rfl, rfl⟩
    · rw [if_neg ha, if_neg ha]; exact ⟨rfl, rfl, rfl⟩

theorem faceUp_spec (c : NConf) (s : Nbr) (hn : (s.adjs.map (·.name)).Nodup) (uri : Uri) (fid : Nat) :
    (faceUp c s uri fid).hist = s.hist ++ [.faceUp uri fid] ∧
    match findUri s.adjs uri with
    | none => (faceUp c s uri fid).adjs = s.adjs ∧ (faceUp c s uri fid).out = s.out
    | some a =>
      if a.faceId = 0 ∨ a.faceId ≠ fid then
        (faceUp c s uri fid).adjs = modify s.adjs a.name (Adjacent.withFace fid) ∧
        (faceUp c s uri fid).out = s.out ++ [.register a.name a.uri a.linkCost, .register c.lsaPrefix a.uri a.linkCost]
      else (faceUp c s uri fid).adjs = s.adjs ∧ (faceUp c s uri fid).out = s.out := by
  unfold faceUp
  dsimp only
  cases hf : findUri s.adjs uri with
  | none => exact ⟨rfl, rfl, rfl⟩
  | some a =>
    dsimp only
    rw [setFaceOf_eq hn hf]
    by_cases ha : a.faceId = 0 ∨ a.faceId ≠ fid
    · rw [if_pos ha, if_pos ha]
      refine ⟨rfl, rfl, ?_⟩
      show (s.out ++ [_]) ++ [_] = _
      rw [List.append_assoc]; rfl
    · rw [if_neg ha, if_neg ha]; exact ⟨rfl, rfl, rfl⟩

theorem regFace_spec (s : Nbr) (hn : (s.adjs.map (·.name)).Nodup) (uri : Uri) (fid : Nat) :
    (regFace s uri fid).hist = s.hist ++ [.regFace uri fid] ∧ (regFace s uri fid).out = s.out ∧
    match findUri s.adjs uri with
    | none => (regFace s uri fid).adjs = s.adjs
    | some a => (regFace s uri fid).adjs = modify s.adjs a.name (Adjacent.withFace fid) := by
  refine ⟨rfl, rfl, ?_⟩
  cases hf : findUri s.adjs uri with
  | none =>
    show setFaceOf s.adjs uri fid = s.adjs
    have h := List.find?_eq_none.1 hf
    revert h
    generalize s.adjs = l
    intro h
    induction l with
    | nil => rfl
    | cons a as ih =>
      unfold setFaceOf
      rw [if_neg (h a List.mem_cons_self), ih (fun b hb => h b (List.mem_cons_of_mem _ hb))]
  | some a => exact setFaceOf_eq hn hf fid

theorem matchFaces_same (a : Adjacent) (faces : List (Uri × Nat)) :
    (matchFaces a faces).1.name = a.name ∧ (matchFaces a faces).1.uri = a.uri ∧ (matchFaces a faces).1.status = a.status ∧
      (matchFaces a faces).1.timedOut = a.timedOut ∧ (matchFaces a faces).1.cost = a.cost := by
  induction faces generalizing a with
  | nil => exact ⟨rfl, rfl, rfl, rfl, rfl⟩
  | cons f fs ih =>
    unfold matchFaces
    split
    · exact ih _
    · exact ih _

theorem useDataset_adjs (c : NConf) (faces : List (Uri × Nat)) (l : AdjacencyList) :
    (useDataset c faces l).1 = l.map (fun a => (matchFaces a faces).1) := by
  induction l with
  | nil => rfl
  | cons a as ih => unfold useDataset; dsimp only; rw [ih]; rfl

theorem useDataset_out (c : NConf) (faces : List (Uri × Nat)) (l : AdjacencyList) :
    ∀ x ∈ (useDataset c faces l).2, ∃ n u k, x = NOut.register n u k := by
  induction l with
  | nil => intro x hx; cases hx
  | cons a as ih =>
    intro x hx
    unfold useDataset at hx
    dsimp only at hx
    rcases List.mem_append.1 hx with hx | hx
    · obtain ⟨y, hy, hxy⟩ := List.mem_flatten.1 hx
      rw [List.mem_replicate] at hy
      rw [hy.2] at hxy
      rcases List.mem_cons.1 hxy with rfl | hxy
      · exact ⟨_, _, _, rfl⟩
      · rw [List.mem_singleton] at hxy
        exact ⟨_, _, _, hxy⟩
    · exact ih x hx

end Nbr
end Nlsr
