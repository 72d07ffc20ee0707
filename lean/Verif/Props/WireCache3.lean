import Verif.Props.WireCache
/-
C80: what an LSA kept in the LSDB is after a later one has been installed over it.
-/
namespace Nlsr
open Tlv Wire

theorem foldl_insertAdj_new : ∀ (l m : List WAdj), ((m ++ l).map (·.name)).Nodup → l.foldl insertAdj m = m ++ l := by
  intro l
  induction l with
  | nil => intro m _; simp
  | cons a l ih =>
    intro m h
    have h1 : insertAdj m a = m ++ [a] := by
      unfold insertAdj
      rw [if_neg]
      intro hany
      obtain ⟨x, hx, e⟩ := List.any_eq_true.1 hany
      rw [List.map_append, List.nodup_append] at h
      exact h.2.2 _ (List.mem_map_of_mem hx) a.name (by simp) (by simpa using e)
    rw [List.foldl_cons, h1, ih (m ++ [a]) (by simpa using h)]
    simp

theorem foldl_change_val {α β : Type} (f : β → α → α) (l : List β) : ∀ s : Cached α,
    (l.foldl (fun s x => s.change (f x)) s).val = l.foldl (fun v x => f x v) s.val := by
  induction l with
  | nil => exact fun _ => rfl
  | cons x l ih => exact fun s => ih _

theorem mem_insertPrefix {p x : WPrefix} : ∀ {l : List WPrefix}, x ∈ insertPrefix l p → x = p ∨ x ∈ l
  | [], h => Or.inl (List.mem_singleton.1 h)
  | q :: qs, h => by
    unfold insertPrefix at h
    split at h
    · rcases List.mem_cons.1 h with h | h
      · exact Or.inl h
      · exact Or.inr h
    · split at h
      · rcases List.mem_cons.1 h with h | h
        · exact Or.inr (h ▸ List.mem_cons_self ..)
        · rcases mem_insertPrefix h with h | h
          · exact Or.inl h
          · exact Or.inr (List.mem_cons_of_mem _ h)
      · rcases List.mem_cons.1 h with h | h
        · exact Or.inl h
        · exact Or.inr (List.mem_cons_of_mem _ h)

theorem insertPrefix_new (p : WPrefix) : ∀ l : List WPrefix, p ∈ insertPrefix l p
  | [] => List.mem_singleton.2 rfl
  | q :: qs => by
    unfold insertPrefix
    split
    · exact List.mem_cons_self ..
    · split
      · exact List.mem_cons_of_mem _ (insertPrefix_new p qs)
      · exact List.mem_cons_self ..

theorem insertPrefix_old {p x : WPrefix} (hn : x.name ≠ p.name) : ∀ {l : List WPrefix}, x ∈ l → x ∈ insertPrefix l p
  | q :: qs, h => by
    unfold insertPrefix
    split
    · exact List.mem_cons_of_mem _ h
    · rename_i h1
      split
      · rcases List.mem_cons.1 h with h | h
        · exact h ▸ List.mem_cons_self ..
        · exact List.mem_cons_of_mem _ (insertPrefix_old hn h)
      · rename_i h2
        rcases List.mem_cons.1 h with h | h
        · subst h
          rcases Name.lt_or_gt hn with h | h <;> contradiction
        · exact List.mem_cons_of_mem _ h

/-- **C80**, what a held LSA is: after a refresh the number is one more; after a later LSA of the same router has been
installed over it, it has that one's number and time, exactly its neighbours with their costs, exactly its coordinates, and exactly its
names - where the cost of a name that was there before stays what it was (`C28_violated_name_cost`).  The comparisons
have to say "same" only of LSAs that are, up to the order of neighbours (those of the code do not quite: `C46`). -/
theorem C80_content (C : Codec) :
    (∀ (same) (s : HeldLsa WAdjLsa) (o : WAdjLsa), (∀ a b, same a b = true → a.Perm b) → (o.adjs.map (·.name)).Nodup →
      let v := (s.step (adjMethods same) (encAdjLsa C) (.later o)).obj.val
      v.base = ⟨s.obj.val.base.origin, o.base.seq, o.base.exp⟩ ∧ v.adjs.Perm o.adjs) ∧
    (∀ (same) (s : HeldLsa WCoordLsa) (o : WCoordLsa), (∀ a b, same a b = true → a.radius = b.radius ∧ a.angles = b.angles) →
      (s.step (coordMethods same) (encCoordLsa C) (.later o)).obj.val =
        ⟨⟨s.obj.val.base.origin, o.base.seq, o.base.exp⟩, o.radius, o.angles⟩) ∧
    (∀ (s : HeldLsa WNameLsa) (o : WNameLsa),
      let v := (s.step nameMethods (encNameLsa C) (.later o)).obj.val
      v.base = ⟨s.obj.val.base.origin, o.base.seq, o.base.exp⟩ ∧
      (∀ n, n ∈ v.names.map (·.name) ↔ n ∈ o.names.map (·.name)) ∧
      ∀ p ∈ v.names, p ∈ s.obj.val.names ∨ p ∈ o.names ∧ p.name ∉ s.obj.val.names.map (·.name)) ∧
    (∀ (same same') (s : HeldLsa WAdjLsa) (s' : HeldLsa WNameLsa) (s'' : HeldLsa WCoordLsa) (t : Int),
      (s.step (adjMethods same) (encAdjLsa C) (.refresh t)).obj.val =
        { s.obj.val with base := ⟨s.obj.val.base.origin, (s.obj.val.base.seq + 1) % 2 ^ 64, t⟩ } ∧
      (s'.step nameMethods (encNameLsa C) (.refresh t)).obj.val =
        { s'.obj.val with base := ⟨s'.obj.val.base.origin, (s'.obj.val.base.seq + 1) % 2 ^ 64, t⟩ } ∧
      (s''.step (coordMethods same') (encCoordLsa C) (.refresh t)).obj.val =
        { s''.obj.val with base := ⟨s''.obj.val.base.origin, (s''.obj.val.base.seq + 1) % 2 ^ 64, t⟩ }) := by
  refine ⟨fun same s o hs hn => ?_, fun same s o hs => ?_, fun s o => ?_, fun _ _ _ _ _ _ => ⟨rfl, rfl, rfl⟩⟩
  · intro v
    have ev : v = (if same s.obj.val.adjs o.adjs then _ else _ : Cached WAdjLsa).val := rfl
    rw [ev]
    split
    · rename_i e
      exact ⟨rfl, hs _ _ e⟩
    · rw [foldl_change_val (fun a (l : WAdjLsa) => { l with adjs := insertAdj l.adjs a })]
      have key : ∀ (l : List WAdj) (v : WAdjLsa), l.foldl (fun v a => { v with adjs := insertAdj v.adjs a }) v =
          { v with adjs := l.foldl insertAdj v.adjs } := by
        intro l
        induction l with
        | nil => exact fun _ => rfl
        | cons a l ih => exact fun v => ih _
      rw [key]
      refine ⟨rfl, ?_⟩
      show (o.adjs.foldl insertAdj []).Perm _
      rw [foldl_insertAdj_new _ [] (by simpa using hn)]
      exact List.Perm.refl _
  · show (if same _ o then _ else _ : Cached WCoordLsa).val = _
    split
    · rename_i e
      obtain ⟨h1, h2⟩ := hs _ _ e
      rw [← h1, ← h2]
      rfl
    · rfl
  · let add := o.names.filter (fun p => !(s.obj.val.names.map (·.name)).contains p.name)
    let del := s.obj.val.names.filter (fun p => !(o.names.map (·.name)).contains p.name)
    have k1 : ∀ (l : List WPrefix) (v : WNameLsa), l.foldl (fun v p => { v with names := insertPrefix v.names p }) v =
        { v with names := l.foldl insertPrefix v.names } := by
      intro l
      induction l with
      | nil => exact fun _ => rfl
      | cons a l ih => exact fun v => ih _
    have k2 : ∀ (l : List WPrefix) (v : WNameLsa),
        l.foldl (fun v p => { v with names := v.names.filter (fun q => !(q.name == p.name)) }) v =
        { v with names := v.names.filter (fun q => !(l.map (·.name)).contains q.name) } := by
      intro l
      induction l with
      | nil => intro v; cases v; simpa using (List.filter_eq_self.2 (by simp)).symm
      | cons a l ih =>
        intro v
        rw [List.foldl_cons, ih]
        dsimp only
        rw [List.filter_filter]
        congr 1
        apply List.filter_congr
        intro q _
        rw [List.map_cons, List.contains_cons, Bool.not_or, Bool.and_comm]
    have hv : (s.step nameMethods (encNameLsa C) (.later o)).obj.val =
        ⟨⟨s.obj.val.base.origin, o.base.seq, o.base.exp⟩,
          (add.foldl insertPrefix s.obj.val.names).filter (fun q => !(del.map (·.name)).contains q.name)⟩ := by
      show (List.foldl (fun (s : Cached WNameLsa) (p : WPrefix) => s.change (fun l => { l with names := l.names.filter (fun q => !(q.name == p.name)) }))
        (List.foldl (fun (s : Cached WNameLsa) (p : WPrefix) => s.change (fun l => { l with names := insertPrefix l.names p })) _ add) del).val = _
      rw [foldl_change_val (fun (p : WPrefix) (l : WNameLsa) => { l with names := l.names.filter (fun q => !(q.name == p.name)) }), k2,
        foldl_change_val (fun (p : WPrefix) (l : WNameLsa) => { l with names := insertPrefix l.names p }), k1]
      rfl
    have hold : ∀ (l : List WPrefix) (v : List WPrefix) (x : WPrefix), x ∈ v → x.name ∉ l.map (·.name) → x ∈ l.foldl insertPrefix v := by
      intro l
      induction l with
      | nil => exact fun _ _ h _ => h
      | cons a l ih =>
        intro v x hx hn
        exact ih _ x (insertPrefix_old (fun e => hn (by rw [e]; simp)) hx) (fun hm => hn (List.mem_cons_of_mem _ hm))
    have hname : ∀ (l : List WPrefix) (v : List WPrefix) (n : Name), n ∈ (v.map (·.name)) ∨ n ∈ l.map (·.name) →
        n ∈ (l.foldl insertPrefix v).map (·.name) := by
      intro l
      induction l with
      | nil => intro v n h; exact h.resolve_right (by simp)
      | cons a l ih =>
        intro v n h
        by_cases hna : n = a.name
        · exact ih _ n (Or.inl (List.mem_map.2 ⟨a, insertPrefix_new a v, hna.symm⟩))
        · refine ih _ n ?_
          rcases h with h | h
          · obtain ⟨x, hx, rfl⟩ := List.mem_map.1 h
            exact Or.inl (List.mem_map_of_mem (insertPrefix_old hna hx))
          · rcases List.mem_cons.1 h with h | h
            · exact absurd h hna
            · exact Or.inr h
    have hnew : ∀ (l : List WPrefix) (v : List WPrefix) (x : WPrefix), x ∈ l.foldl insertPrefix v → x ∈ v ∨ x ∈ l := by
      intro l
      induction l with
      | nil => exact fun _ _ h => Or.inl h
      | cons a l ih =>
        intro v x hx
        rcases ih _ x hx with h | h
        · rcases mem_insertPrefix h with h | h
          · exact Or.inr (h ▸ List.mem_cons_self ..)
          · exact Or.inl h
        · exact Or.inr (List.mem_cons_of_mem _ h)
    have hadd : ∀ x, x ∈ add ↔ x ∈ o.names ∧ x.name ∉ s.obj.val.names.map (·.name) := by
      intro x
      show x ∈ o.names.filter _ ↔ _
      rw [List.mem_filter]
      simp
    have hdel : ∀ n, n ∈ del.map (·.name) ↔ n ∈ s.obj.val.names.map (·.name) ∧ n ∉ o.names.map (·.name) := by
      intro n
      show n ∈ (s.obj.val.names.filter _).map _ ↔ _
      simp only [List.mem_map, List.mem_filter]
      constructor
      · rintro ⟨x, ⟨hx, h⟩, rfl⟩
        exact ⟨⟨x, hx, rfl⟩, by simpa using h⟩
      · rintro ⟨⟨x, hx, rfl⟩, h⟩
        exact ⟨x, ⟨hx, by simpa using h⟩, rfl⟩
    intro v
    have ev : v = _ := hv
    rw [ev]
    refine ⟨rfl, fun n => ?_, fun p hp => ?_⟩
    · dsimp only
      constructor
      · intro h
        obtain ⟨x, hx, rfl⟩ := List.mem_map.1 h
        obtain ⟨hx, hd⟩ := List.mem_filter.1 hx
        have hd : x.name ∉ del.map (·.name) := by simpa using hd
        rcases hnew _ _ _ hx with h | h
        · exact Decidable.byContradiction (fun hno => hd ((hdel _).2 ⟨List.mem_map_of_mem h, hno⟩))
        · exact List.mem_map_of_mem ((hadd x).1 h).1
      · intro h
        have h1 : n ∈ (add.foldl insertPrefix s.obj.val.names).map (·.name) := by
          refine hname _ _ _ ?_
          by_cases hs : n ∈ s.obj.val.names.map (·.name)
          · exact Or.inl hs
          · obtain ⟨x, hx, rfl⟩ := List.mem_map.1 h
            exact Or.inr (List.mem_map_of_mem ((hadd x).2 ⟨hx, hs⟩))
        obtain ⟨x, hx, rfl⟩ := List.mem_map.1 h1
        refine List.mem_map_of_mem (List.mem_filter.2 ⟨hx, ?_⟩)
        have : x.name ∉ del.map (·.name) := fun hm => ((hdel _).1 hm).2 h
        simpa using this
    · obtain ⟨hp, -⟩ := List.mem_filter.1 hp
      rcases hnew _ _ _ hp with h | h
      · exact Or.inl h
      · exact Or.inr ((hadd p).1 h)

example :
    let s := HeldLsa.run nameMethods (encNameLsa toyCodec) { obj := ⟨⟨⟨nm ["r1"], 1, 12⟩, [⟨nm ["a"], 1⟩, ⟨nm ["b"], 2⟩]⟩, none⟩ }
      [.encode, .later ⟨⟨nm ["r1"], 4, 20⟩, [⟨nm ["b"], 9⟩, ⟨nm ["c"], 3⟩]⟩]
    s.obj.val = ⟨⟨nm ["r1"], 4, 20⟩, [⟨nm ["b"], 2⟩, ⟨nm ["c"], 3⟩]⟩ := by decide +kernel

example :
    let o : WAdjLsa := ⟨⟨nm ["r1"], 4, 20⟩, [⟨nm ["r3"], [], 7⟩, ⟨nm ["r2"], [], 9⟩]⟩
    let s := HeldLsa.step (adjMethods (fun a b => a == b)) (encAdjLsa toyCodec) { obj := ⟨⟨⟨nm ["r1"], 1, 12⟩, [⟨nm ["r2"], [], 9⟩]⟩, none⟩ } (.later o)
    (o.adjs.map (·.name)).Nodup ∧ s.obj.val = o := by decide +kernel

end Nlsr
