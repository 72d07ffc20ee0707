import Verif.Lemmas.Nbr
/- Invariants of the neighbour component over all executions. -/
namespace Nlsr
namespace Nbr
open AdjacencyList

/-- The neighbours as the configuration gives them: distinct names of bounded length, down, without faces. -/
structure Fresh (adjs : AdjacencyList) : Prop where
  names : (adjs.map (·.name)).Nodup
  small : ∀ a ∈ adjs, a.name.length < 2 ^ 63
  down  : ∀ a ∈ adjs, a.status = .inactive ∧ a.timedOut = 0 ∧ a.faceId = 0

/-- A state of some execution. -/
def Reachable (c : NConf) (s : Nbr) : Prop := ∃ adjs ops, Fresh adjs ∧ s = run c (init c adjs) ops

theorem Reachable.step {c : NConf} {s : Nbr} (h : Reachable c s) (op : Op) : Reachable c (Nbr.step c s op) := by
  obtain ⟨adjs, ops, hf, rfl⟩ := h
  exact ⟨adjs, ops ++ [op], hf, by unfold run; rw [List.foldl_append]; rfl⟩

theorem Reachable.induct {c : NConf} {P : Nbr → Prop} (hinit : ∀ adjs, Fresh adjs → P (init c adjs))
    (hstep : ∀ s op, Reachable c s → P s → P (Nbr.step c s op)) {s : Nbr} (h : Reachable c s) : P s := by
  obtain ⟨adjs, ops, hf, rfl⟩ := h
  suffices h : ∀ ops s, Reachable c s → P s → P (run c s ops) from h ops _ ⟨adjs, [], hf, rfl⟩ (hinit adjs hf)
  intro ops
  induction ops with
  | nil => intro s _ hp; exact hp
  | cons op ops ih => intro s hr hp; exact ih _ (hr.step op) (hstep s op hr hp)

/-! ### Names of neighbours, interests and data -/

/-- `name` is a hello interest of a neighbour. -/
def IsHello (c : NConf) (s : Nbr) (name : Name) : Prop := ∃ m ∈ s.adjs.map (·.name), name = helloName c m

structure NInv (c : NConf) (s : Nbr) : Prop where
  nodup   : (s.adjs.map (·.name)).Nodup
  small   : ∀ m ∈ s.adjs.map (·.name), m.length < 2 ^ 63
  waiting : ∀ w ∈ s.waiting, IsHello c s w.1
  nacked  : ∀ w ∈ s.nacked, IsHello c s w.1
  valid   : ∀ d ∈ s.validating, (∃ x, IsHello c s x ∧ x <+: d) ∧ d.length ≤ 8800

/-- Same names, and nothing new among the interests and data but hello interests. -/
structure Keep (c : NConf) (s s' : Nbr) : Prop where
  names   : s'.adjs.map (·.name) = s.adjs.map (·.name)
  waiting : ∀ w ∈ s'.waiting, w ∈ s.waiting ∨ IsHello c s w.1
  nacked  : ∀ w ∈ s'.nacked, w ∈ s.nacked ∨ IsHello c s w.1
  valid   : ∀ d ∈ s'.validating, d ∈ s.validating ∨ ((∃ x, IsHello c s x ∧ x <+: d) ∧ d.length ≤ 8800)

theorem Keep.refl (c : NConf) (s : Nbr) : Keep c s s :=
  ⟨rfl, fun _ h => Or.inl h, fun _ h => Or.inl h, fun _ h => Or.inl h⟩

theorem IsHello.keep {c : NConf} {s s' : Nbr} (h : s'.adjs.map (·.name) = s.adjs.map (·.name)) {n : Name} :
    IsHello c s' n ↔ IsHello c s n := by unfold IsHello; rw [h]

theorem Keep.trans {c : NConf} {s s' s'' : Nbr} (h : Keep c s s') (h' : Keep c s' s'') : Keep c s s'' := by
  refine ⟨h'.names.trans h.names, ?_, ?_, ?_⟩
  · intro w hw
    rcases h'.waiting w hw with hw | hw
    · exact h.waiting w hw
    · exact Or.inr ((IsHello.keep h.names).1 hw)
  · intro w hw
    rcases h'.nacked w hw with hw | hw
    · exact h.nacked w hw
    · exact Or.inr ((IsHello.keep h.names).1 hw)
  · intro d hd
    rcases h'.valid d hd with hd | ⟨⟨x, hx, hp⟩, hl⟩
    · exact h.valid d hd
    · exact Or.inr ⟨⟨x, (IsHello.keep h.names).1 hx, hp⟩, hl⟩

theorem NInv.keep {c : NConf} {s s' : Nbr} (h : NInv c s) (k : Keep c s s') : NInv c s' := by
  refine ⟨k.names ▸ h.nodup, k.names ▸ h.small, ?_, ?_, ?_⟩
  · intro w hw
    rw [IsHello.keep k.names]
    exact (k.waiting w hw).elim (h.waiting w) id
  · intro w hw
    rw [IsHello.keep k.names]
    exact (k.nacked w hw).elim (h.nacked w) id
  · intro d hd
    rcases k.valid d hd with hd | ⟨⟨x, hx, hp⟩, hl⟩
    · obtain ⟨⟨x, hx, hp⟩, hl⟩ := h.valid d hd
      exact ⟨⟨x, (IsHello.keep k.names).2 hx, hp⟩, hl⟩
    · exact ⟨⟨x, (IsHello.keep k.names).2 hx, hp⟩, hl⟩

theorem keep_of {c : NConf} {s s' : Nbr} (h1 : s'.adjs.map (·.name) = s.adjs.map (·.name))
    (h2 : ∀ w ∈ s'.waiting, w ∈ s.waiting) (h3 : ∀ w ∈ s'.nacked, w ∈ s.nacked)
    (h4 : ∀ d ∈ s'.validating, d ∈ s.validating) : Keep c s s' :=
  ⟨h1, fun w h => Or.inl (h2 w h), fun w h => Or.inl (h3 w h), fun w h => Or.inl (h4 w h)⟩

theorem mem_names_of_find {l : AdjacencyList} {n : Name} {a : Adjacent} (h : find l n = some a) :
    n ∈ l.map (·.name) := List.mem_map.2 ⟨a, find_mem h, find_name h⟩

theorem express_keep {c : NConf} {s : Nbr} {m : Name} (h : m ∈ s.adjs.map (·.name)) :
    Keep c s (s.express c (helloName c m)) := by
  refine ⟨rfl, ?_, fun _ h => Or.inl h, fun _ h => Or.inl h⟩
  intro w hw
  rcases List.mem_append.1 hw with hw | hw
  · exact Or.inl hw
  · rw [List.mem_singleton] at hw
    rw [hw]
    exact Or.inr ⟨m, h, rfl⟩

theorem emit_keep (c : NConf) (s : Nbr) (o : NOut) : Keep c s (s.emit o) :=
  keep_of rfl (fun _ h => h) (fun _ h => h) (fun _ h => h)

theorem sendHello_keep (c : NConf) (s : Nbr) (n : Name) : Keep c s (s.sendHello c n) := by
  unfold sendHello
  cases hf : find s.adjs n with
  | none => exact Keep.refl c s
  | some a =>
    dsimp only
    refine Keep.trans (s' := if a.faceId ≠ 0 then s.express c (helloName c a.name) else s) ?_
      (keep_of rfl (fun _ h => h) (fun _ h => h) (fun _ h => h))
    split
    · exact express_keep (List.mem_map_of_mem (find_mem hf))
    · exact Keep.refl c s

theorem lost_keep (c : NConf) (s : Nbr) {m : Name} (hm : m ∈ s.adjs.map (·.name)) (hs : m.length < 2 ^ 63) :
    Keep c s (lost c s (helloName c m)) := by
  unfold lost
  dsimp only
  rw [if_neg (not_not_intro (helloName_fromEnd c m)), helloName_prefix c hs]
  have hn : (incTimedOut s.adjs m).map (·.name) = s.adjs.map (·.name) := by
    unfold incTimedOut; exact modify_names _ _ _ (fun _ => rfl)
  have h1 : Keep c s { s with hist := s.hist ++ [NEvent.lost (helloName c m)], adjs := incTimedOut s.adjs m } :=
    keep_of hn (fun _ h => h) (fun _ h => h) (fun _ h => h)
  split
  · exact h1.trans (express_keep (by rw [hn]; exact hm))
  · split
    · refine h1.trans (keep_of ?_ (fun _ h => h) (fun _ h => h) (fun _ h => h))
      show (setStatus (incTimedOut s.adjs m) m .inactive).map (·.name) = (incTimedOut s.adjs m).map (·.name)
      unfold setStatus; exact modify_names _ _ _ (fun _ => rfl)
    · exact h1

theorem validated_keep (c : NConf) (s : Nbr) (d : Name) : Keep c s (validated c s d) := by
  have h := (validated_spec c s d).2
  have key : (validated c s d).adjs.map (·.name) = s.adjs.map (·.name) := by
    split at h
    · rw [h.1]; exact modify_names _ _ _ (fun _ => rfl)
    · rw [h.1]
  unfold validated at key ⊢
  dsimp only at key ⊢
  split
  · rename_i hc
    rw [if_pos hc] at key
    split
    · rename_i hd
      rw [if_pos hd] at key
      exact keep_of key (fun _ h => h) (fun _ h => h) (fun _ h => h)
    · rename_i hd
      rw [if_neg hd] at key
      exact keep_of key (fun _ h => h) (fun _ h => h) (fun _ h => h)
  · exact keep_of rfl (fun _ h => h) (fun _ h => h) (fun _ h => h)

theorem modifyFace_names (l : AdjacencyList) (fid : Nat) (f : Adjacent → Adjacent) (hf : ∀ a, (f a).name = a.name) :
    (modifyFace l fid f).map (·.name) = l.map (·.name) := by
  induction l with
  | nil => rfl
  | cons a as ih =>
    unfold modifyFace
    split
    · simp [hf]
    · simp [ih]

theorem setFaceOf_names' (l : AdjacencyList) (u : Uri) (id : Nat) : (setFaceOf l u id).map (·.name) = l.map (·.name) := by
  induction l with
  | nil => rfl
  | cons a as ih =>
    unfold setFaceOf
    split
    · rfl
    · simp only [List.map_cons, ih]

theorem faceDown_keep (c : NConf) (s : Nbr) (fid : Nat) : Keep c s (faceDown c s fid) := by
  unfold faceDown
  dsimp only
  split
  · exact keep_of rfl (fun _ h => h) (fun _ h => h) (fun _ h => h)
  · split
    · exact keep_of (modifyFace_names _ _ _ (fun _ => rfl)) (fun _ h => h) (fun _ h => h) (fun _ h => h)
    · exact keep_of (modifyFace_names _ _ _ (fun _ => rfl)) (fun _ h => h) (fun _ h => h) (fun _ h => h)

theorem faceUp_keep (c : NConf) (s : Nbr) (u : Uri) (fid : Nat) : Keep c s (faceUp c s u fid) := by
  unfold faceUp
  dsimp only
  split
  · exact keep_of rfl (fun _ h => h) (fun _ h => h) (fun _ h => h)
  · split
    · exact keep_of (setFaceOf_names' _ _ _) (fun _ h => h) (fun _ h => h) (fun _ h => h)
    · exact keep_of rfl (fun _ h => h) (fun _ h => h) (fun _ h => h)

theorem useDataset_names (c : NConf) (faces : List (Uri × Nat)) (l : AdjacencyList) :
    (useDataset c faces l).1.map (·.name) = l.map (·.name) := by
  rw [useDataset_adjs, List.map_map]
  exact List.map_congr_left (fun a _ => (matchFaces_same a faces).1)

theorem mem_eraseIdx {α : Type} {l : List α} {i : Nat} {x : α} (h : x ∈ l.eraseIdx i) : x ∈ l := List.mem_of_mem_eraseIdx h

theorem step_keep {c : NConf} {s : Nbr} (h : NInv c s) (op : Op) : Keep c s (Nbr.step c s op) := by
  unfold Nbr.step
  split
  · exact Keep.refl c s
  · cases op with
    | registered n => exact sendHello_keep ..
    | helloTimer i =>
      show Keep c s (helloTimer c s i)
      unfold helloTimer
      split
      · exact Keep.refl c s
      · split
        · exact Keep.refl c s
        · exact Keep.trans (s' := { s with timers := s.timers.eraseIdx i })
            (keep_of rfl (fun _ h => h) (fun _ h => h) (fun _ h => h)) (sendHello_keep ..)
    | interest n v =>
      show Keep c s (interest c s n v)
      unfold interest
      split
      · exact Keep.refl c s
      · split
        · exact Keep.refl c s
        · split
          · exact Keep.refl c s
          · split
            · exact keep_of rfl (fun _ h => h) (fun _ h => h) (fun _ h => h)
            · rename_i m _
              cases hf : find s.adjs m with
              | none => exact Keep.refl c s
              | some a =>
                dsimp only
                split
                · exact (emit_keep c s _).trans (express_keep (mem_names_of_find hf))
                · exact emit_keep c s _
    | timeout i =>
      show Keep c s (timeout c s i)
      unfold timeout
      cases hw : s.waiting[i]? with
      | none => exact Keep.refl c s
      | some p =>
        obtain ⟨name, due⟩ := p
        dsimp only
        split
        · exact Keep.refl c s
        · obtain ⟨m, hm, e⟩ := h.waiting _ (List.mem_of_getElem? hw)
          dsimp only at e
          subst e
          exact Keep.trans (s' := { s with waiting := s.waiting.eraseIdx i })
            (keep_of rfl (fun _ h => mem_eraseIdx h) (fun _ h => h) (fun _ h => h)) (lost_keep c _ hm (h.small m hm))
    | nack i =>
      show Keep c s (nack c s i)
      unfold nack
      cases hw : s.waiting[i]? with
      | none => exact Keep.refl c s
      | some p =>
        refine ⟨rfl, fun _ h => Or.inl (mem_eraseIdx h), ?_, fun _ h => Or.inl h⟩
        intro w hw'
        rcases List.mem_append.1 hw' with hw' | hw'
        · exact Or.inl hw'
        · rw [List.mem_singleton] at hw'
          rw [hw']
          exact Or.inr (h.waiting p (List.mem_of_getElem? hw))
    | nackTimer i =>
      show Keep c s (nackTimer c s i)
      unfold nackTimer
      cases hw : s.nacked[i]? with
      | none => exact Keep.refl c s
      | some p =>
        obtain ⟨name, due⟩ := p
        dsimp only
        split
        · exact Keep.refl c s
        · obtain ⟨m, hm, e⟩ := h.nacked _ (List.mem_of_getElem? hw)
          dsimp only at e
          subst e
          exact Keep.trans (s' := { s with nacked := s.nacked.eraseIdx i })
            (keep_of rfl (fun _ h => h) (fun _ h => mem_eraseIdx h) (fun _ h => h)) (lost_keep c _ hm (h.small m hm))
    | data i d =>
      show Keep c s (data s i d)
      unfold data
      cases hw : s.waiting[i]? with
      | none => exact Keep.refl c s
      | some p =>
        dsimp only
        split
        · rename_i hc
          rw [Bool.and_eq_true, decide_eq_true_eq] at hc
          refine ⟨rfl, fun _ h => Or.inl (mem_eraseIdx h), fun _ h => Or.inl h, ?_⟩
          intro w hw'
          rcases List.mem_append.1 hw' with hw' | hw'
          · exact Or.inl hw'
          · rw [List.mem_singleton] at hw'
            rw [hw']
            refine Or.inr ⟨⟨p.1, h.waiting _ (List.mem_of_getElem? hw), ?_⟩, hc.2⟩
            exact List.isPrefixOf_iff_prefix.1 hc.1
        · exact Keep.refl c s
    | valid i =>
      show Keep c s (valid c s i)
      unfold valid
      split
      · exact Keep.refl c s
      · exact Keep.trans (s' := { s with validating := s.validating.eraseIdx i })
          (keep_of rfl (fun _ h => h) (fun _ h => h) (fun _ h => mem_eraseIdx h)) (validated_keep c _ _)
    | invalid i => exact keep_of rfl (fun _ h => h) (fun _ h => h) (fun _ h => mem_eraseIdx h)
    | faceDown fid => exact faceDown_keep ..
    | faceUp uri fid => exact faceUp_keep ..
    | fetchOk i faces =>
      show Keep c s (fetchOk c s i faces)
      unfold fetchOk
      split
      · exact Keep.refl c s
      · exact keep_of (useDataset_names ..) (fun _ h => h) (fun _ h => h) (fun _ h => h)
    | fetchFail i =>
      show Keep c s (fetchFail c s i)
      unfold fetchFail
      split
      · exact Keep.refl c s
      · dsimp only
        split
        · exact keep_of rfl (fun _ h => h) (fun _ h => h) (fun _ h => h)
        · exact keep_of rfl (fun _ h => h) (fun _ h => h) (fun _ h => h)
    | fetchTimer i =>
      show Keep c s (fetchTimer s i)
      unfold fetchTimer
      split
      · exact Keep.refl c s
      · split
        · exact Keep.refl c s
        · exact keep_of rfl (fun _ h => h) (fun _ h => h) (fun _ h => h)
    | newLsa o =>
      show Keep c s (newLsa s o)
      unfold newLsa
      split
      · exact Keep.refl c s
      · exact keep_of rfl (fun _ h => h) (fun _ h => h) (fun _ h => h)
    | regFace u fid => exact keep_of (setFaceOf_names' _ _ _) (fun _ h => h) (fun _ h => h) (fun _ h => h)
    | clock dt => exact keep_of rfl (fun _ h => h) (fun _ h => h) (fun _ h => h)

theorem init_adjs (c : NConf) (adjs : AdjacencyList) :
    (init c adjs).adjs.map (fun a => (a.name, a.uri, a.status, a.timedOut, a.faceId)) =
      adjs.map (fun a => (a.name, a.uri, a.status, a.timedOut, a.faceId)) := by
  unfold init
  dsimp only
  split
  · rw [List.map_map]; rfl
  · rfl

theorem init_mem {c : NConf} {adjs : AdjacencyList} (hf : Fresh adjs) {a : Adjacent} (ha : a ∈ (init c adjs).adjs) :
    a.status = .inactive ∧ a.timedOut = 0 ∧ a.faceId = 0 ∧ a.name.length < 2 ^ 63 := by
  have : (a.name, a.uri, a.status, a.timedOut, a.faceId) ∈
      (init c adjs).adjs.map (fun a => (a.name, a.uri, a.status, a.timedOut, a.faceId)) :=
    List.mem_map.2 ⟨a, ha, rfl⟩
  rw [init_adjs] at this
  obtain ⟨b, hb, e⟩ := List.mem_map.1 this
  injection e with e1 e
  injection e with e2 e
  injection e with e3 e
  injection e with e4 e5
  rw [← e1, ← e3, ← e4, ← e5]
  exact ⟨(hf.down b hb).1, (hf.down b hb).2.1, (hf.down b hb).2.2, hf.small b hb⟩

theorem init_names (c : NConf) (adjs : AdjacencyList) : (init c adjs).adjs.map (·.name) = adjs.map (·.name) := by
  have := congrArg (List.map Prod.fst) (init_adjs c adjs)
  rw [List.map_map, List.map_map] at this
  exact this

theorem Reachable.ninv {c : NConf} {s : Nbr} (h : Reachable c s) : NInv c s := by
  refine Reachable.induct (P := NInv c) ?_ ?_ h
  · intro adjs hf
    refine ⟨by rw [init_names]; exact hf.names, ?_, (by intro w hw; cases hw), (by intro w hw; cases hw), (by intro w hw; cases hw)⟩
    intro m hm
    obtain ⟨a, ha, rfl⟩ := List.mem_map.1 hm
    exact (init_mem hf ha).2.2.2
  · intro s op _ hi
    exact hi.keep (step_keep hi op)

end Nbr
end Nlsr
