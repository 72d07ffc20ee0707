import Verif.Lemmas.FibRun
/- Invariants of the FIB over all executions. -/
namespace Nlsr
namespace AdjacencyList

theorem isNeighbor_congr {l l' : AdjacencyList} (h : l'.map (·.name) = l.map (·.name)) (n : Name) :
    isNeighbor l' n = isNeighbor l n := by
  have key : ∀ l : AdjacencyList, isNeighbor l n = (l.map (·.name)).any (fun m => m == n) := by
    intro l
    unfold isNeighbor find
    induction l with
    | nil => rfl
    | cons a as ih =>
      rw [List.find?_cons, List.map_cons, List.any_cons]
      cases hb : (a.name == n) with
      | true => rfl
      | false => rw [Bool.false_or]; exact ih
  rw [key, key, h]

theorem setFaceOf_names (l : AdjacencyList) (u : Uri) (id : Nat) : (setFaceOf l u id).map (·.name) = l.map (·.name) := by
  induction l with
  | nil => rfl
  | cons a as ih =>
    unfold setFaceOf
    split
    · rfl
    · simp only [List.map_cons, ih]

theorem modify_names (l : AdjacencyList) (n : Name) (f : Adjacent → Adjacent) (hf : ∀ a, (f a).name = a.name) :
    (modify l n f).map (·.name) = l.map (·.name) := by
  induction l with
  | nil => rfl
  | cons a as ih =>
    unfold modify
    split
    · simp [hf]
    · simp only [List.map_cons, ih]

/-- Writing the face id that is there already changes nothing. -/
theorem setFaceOf_same (l : AdjacencyList) (u : Uri) (h : 0 < faceIdOf l u) : setFaceOf l u (faceIdOf l u) = l := by
  induction l with
  | nil => rfl
  | cons a as ih =>
    unfold setFaceOf
    cases hb : (a.uri == u) with
    | true =>
      rw [if_pos rfl]
      have : faceIdOf (a :: as) u = a.faceId := by unfold faceIdOf findUri; rw [List.find?_cons, hb]
      rw [this]
    | false =>
      rw [if_neg (by simp)]
      have : faceIdOf (a :: as) u = faceIdOf as u := by unfold faceIdOf findUri; rw [List.find?_cons, hb]
      rw [this] at h ⊢
      rw [ih h]

end AdjacencyList

namespace Fib

/-- States the FIB can be in. -/
def Reachable (c : FConf) (s : Fib) : Prop := ∃ adjs ops, s = run c { adjs := adjs } ops

theorem Reachable.step {c : FConf} {s : Fib} (h : Reachable c s) (op : Op) : Reachable c (Fib.step c s op) := by
  obtain ⟨a, ops, rfl⟩ := h
  exact ⟨a, ops ++ [op], by simp [run]⟩

theorem Reachable.induct {c : FConf} {P : Fib → Prop} (hinit : ∀ adjs, P { adjs := adjs })
    (hstep : ∀ s op, Reachable c s → P s → P (Fib.step c s op)) {s : Fib} (h : Reachable c s) : P s := by
  obtain ⟨a, ops, rfl⟩ := h
  have key : ∀ (ops : List Op) (s : Fib), Reachable c s → P s → P (run c s ops) := by
    intro ops
    induction ops with
    | nil => intro s _ h; exact h
    | cons op ops ih => intro s hr h; exact ih _ (hr.step op) (hstep s op hr h)
  exact key ops _ ⟨a, [], rfl⟩ (hinit a)

/-- What an operation other than `update`, `remove` and `refresh` leaves alone. -/
structure Idle (s s' : Fib) : Prop where
  table : s'.table = s.table
  names : s'.adjs.map (·.name) = s.adjs.map (·.name)
  now : s.now ≤ s'.now

theorem send_idle (s : Fib) (root : Nat) (n : Name) (u : Uri) (cost : Int) (exp flags times : Nat) :
    Idle s (s.send root n u cost exp flags times) := by
  unfold send
  dsimp only
  split <;> exact ⟨rfl, rfl, Nat.le_refl _⟩

theorem step_idle (c : FConf) (s : Fib) (op : Op) (h1 : ∀ n l f, op ≠ .update n l f) (h2 : ∀ n, op ≠ .remove n)
    (h3 : ∀ n, op ≠ .refresh n) : Idle s (Fib.step c s op) := by
  cases op with
  | update n l f => exact absurd rfl (h1 n l f)
  | remove n => exact absurd rfl (h2 n)
  | refresh n => exact absurd rfl (h3 n)
  | register n u cost exp flags =>
    show Idle s (s.registerPrefix n u cost exp flags)
    rw [registerPrefix_eq]; exact ⟨rfl, rfl, Nat.le_refl _⟩
  | setStrategy n st => exact ⟨rfl, rfl, Nat.le_refl _⟩
  | regOk i =>
    show Idle s (s.regOk i)
    unfold regOk
    split
    · exact ⟨rfl, rfl, Nat.le_refl _⟩
    · exact ⟨rfl, AdjacencyList.setFaceOf_names _ _ _, Nat.le_refl _⟩
  | regFail i =>
    show Idle s (s.regFail i)
    unfold regFail
    split
    · exact ⟨rfl, rfl, Nat.le_refl _⟩
    · dsimp only
      split
      · have := send_idle { s with regs := s.regs.eraseIdx i } ‹RegReq›.root ‹RegReq›.name ‹RegReq›.uri ‹RegReq›.cost
          ‹RegReq›.exp ‹RegReq›.flags (‹RegReq›.times + 1)
        exact ⟨this.table, this.names, this.now⟩
      · exact ⟨rfl, rfl, Nat.le_refl _⟩
  | stratOk i => exact ⟨rfl, rfl, Nat.le_refl _⟩
  | stratFail i =>
    show Idle s (s.stratFail i)
    unfold stratFail
    split
    · exact ⟨rfl, rfl, Nat.le_refl _⟩
    · dsimp only
      split <;> exact ⟨rfl, rfl, Nat.le_refl _⟩
  | clock dt => exact ⟨rfl, rfl, Nat.le_add_right _ _⟩
  | setFaceId n id =>
    exact ⟨rfl, AdjacencyList.modify_names _ _ (fun a => { a with faceId := id }) (fun _ => rfl), Nat.le_refl _⟩

/-- What is always true of the table. -/
structure Inv (s : Fib) : Prop where
  names : (s.table.map (·.name)).Nodup
  sorted : ∀ n e, s.find n = some e → UriSorted e.hops
  refresh : ∀ n e, s.find n = some e → (e.refresh.isSome = true ↔ s.adjs.isNeighbor n = false)

theorem Inv.idle {s s' : Fib} (h : Inv s) (i : Idle s s') : Inv s' := by
  refine ⟨by rw [i.table]; exact h.names, fun n e hf => ?_, fun n e hf => ?_⟩
  · rw [find_congr i.table] at hf; exact h.sorted n e hf
  · rw [find_congr i.table] at hf
    rw [AdjacencyList.isNeighbor_congr i.names]; exact h.refresh n e hf

theorem Inv.eff {s s' : Fib} {n e' cmds reqs k} (h : Inv s) (f : Eff s s' n e' cmds reqs k)
    (h1 : ∀ e, e' = some e → UriSorted e.hops)
    (h2 : ∀ e, e' = some e → (e.refresh.isSome = true ↔ s.adjs.isNeighbor n = false)) : Inv s' := by
  refine ⟨f.names h.names, fun m e hf => ?_, fun m e hf => ?_⟩
  · by_cases hm : m = n
    · subst hm; rw [f.here] at hf; exact h1 e hf
    · rw [f.same m hm] at hf; exact h.sorted m e hf
  · rw [f.adjs]
    by_cases hm : m = n
    · subst hm; rw [f.here] at hf; exact h2 e hf
    · rw [f.same m hm] at hf; exact h.refresh m e hf

theorem updEntry_name (c : FConf) (s : Fib) (n : Name) (new : List NextHop) (flags : Nat) :
    (updEntry c s n new flags).name = n := by
  unfold updEntry withRefresh
  cases hf : s.find n with
  | none => dsimp only; split <;> rfl
  | some e =>
    have := find_name hf
    dsimp only; split <;> exact this

theorem updEntry_hops (c : FConf) (s : Fib) (n : Name) (new : List NextHop) (flags : Nat) :
    (updEntry c s n new flags).hops = match s.find n with
      | none => addHops [] new
      | some e => mergedHops e.hops new := by
  unfold updEntry withRefresh
  cases s.find n <;> dsimp only <;> split <;> rfl

theorem updEntry_refresh (c : FConf) {s : Fib} (h : Inv s) (n : Name) (new : List NextHop) (flags : Nat) :
    (updEntry c s n new flags).refresh.isSome = true ↔ s.adjs.isNeighbor n = false := by
  unfold updEntry withRefresh
  cases hf : s.find n with
  | none =>
    dsimp only
    cases s.adjs.isNeighbor n <;> simp
  | some e =>
    dsimp only
    have := h.refresh n e hf
    rw [find_name hf]
    cases hn : s.adjs.isNeighbor n with
    | true => rw [if_pos rfl]; rw [hn] at this; exact this
    | false => simp

theorem mergedHops_sorted {old new : List NextHop} (ho : UriSorted old) : UriSorted (mergedHops old new) := by
  unfold mergedHops
  have : ∀ (r l : List NextHop), UriSorted l → UriSorted (r.foldl removeNextHop l) := by
    intro r
    induction r with
    | nil => intro l h; exact h
    | cons x xs ih => intro l h; exact ih _ (removeNextHop_sorted h x)
  exact this _ _ (addHops_sorted ho _)

theorem step_inv {c : FConf} {s : Fib} (h : Inv s) (op : Op) : Inv (Fib.step c s op) := by
  have hrem : ∀ n, Inv (s.remove n) := by
    intro n
    refine h.eff (remove_eff s n) ?_ ?_
    · intro e he
      split at he
      · exact h.sorted n e he
      · cases he
    · intro e he
      split at he
      · exact h.refresh n e he
      · cases he
  cases op with
  | update n l f =>
    show Inv (s.update c n l f)
    by_cases hw : hopsToAdd c l = []
    · rw [update_empty c s n l f hw]; exact hrem n
    · refine h.eff (update_eff c s n l f hw) ?_ ?_
      · rintro e ⟨⟩
        rw [updEntry_hops]
        cases hf : s.find n with
        | none => exact addHops_sorted List.Pairwise.nil _
        | some e => exact mergedHops_sorted (h.sorted n e hf)
      · rintro e ⟨⟩
        exact updEntry_refresh c h n _ f
  | remove n => exact hrem n
  | refresh n =>
    show Inv (s.refresh c n)
    by_cases hd : ∃ e due flags, s.find n = some e ∧ e.refresh = some (due, flags) ∧ due ≤ s.now
    · obtain ⟨e, due, flags, hf, hr, hd⟩ := hd
      refine h.eff (refresh_eff c s n hf hr hd) ?_ ?_
      · rintro e' ⟨⟩; exact h.sorted n e hf
      · rintro e' ⟨⟩
        have := h.refresh n e hf
        rw [hr] at this
        simpa using this
    · rw [refresh_idle c s n]
      · exact h
      · intro e hf due flags hr
        exact Nat.lt_of_not_le fun hc => hd ⟨e, due, flags, hf, hr, hc⟩
  | _ => exact h.idle (step_idle c s _ nofun nofun nofun)

theorem Reachable.inv {c : FConf} {s : Fib} (h : Reachable c s) : Inv s :=
  Reachable.induct (P := Inv) (fun adjs => ⟨List.Pairwise.nil, fun _ _ hf => (by cases hf), fun _ _ hf => (by cases hf)⟩)
    (fun _ op _ hs => step_inv hs op) h

theorem find_of_mem {s : Fib} (h : Inv s) {e : FibEntry} (he : e ∈ s.table) : s.find e.name = some e := by
  unfold find
  have hn := h.names
  generalize s.table = l at he hn
  induction l with
  | nil => cases he
  | cons x xs ih =>
    rw [List.map_cons, List.nodup_cons] at hn
    rw [List.find?_cons]
    rcases List.mem_cons.1 he with rfl | he
    · simp
    · have : (x.name == e.name) = false := by
        simpa using fun hx => hn.1 (List.mem_map.2 ⟨e, he, hx.symm⟩)
      rw [this]
      exact ih he hn.2

end Fib
end Nlsr
