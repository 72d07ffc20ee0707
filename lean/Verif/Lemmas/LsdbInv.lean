import Verif.Lemmas.Lsdb
/- The invariant of the LSDB's objects and timers. -/
namespace Nlsr
namespace Lsdb

def keyOf (o : Obj) : Name × LsaType := (o.lsa.origin, o.lsa.type)

/-- Objects and timers.  `x` is the object (if any) whose timer has just been taken off the queue. -/
structure InvW (c : LConf) (s : Lsdb) (x : Option Nat) : Prop where
  keys : (s.db.map keyOf).Nodup
  oids : ((s.db ++ s.dead).map (·.oid)).Nodup
  evts : ((s.db ++ s.dead).map (·.evt)).Nodup
  oidlt : ∀ o ∈ s.db ++ s.dead, o.oid < s.nextId
  evtlt : ∀ o ∈ s.db ++ s.dead, o.evt < s.nextId
  eids : (s.events.map (·.eid)).Nodup
  eidlt : ∀ e ∈ s.events, e.eid < s.nextId
  owned : ∀ e ∈ s.events, ∃ o ∈ s.db ++ s.dead, o.oid = e.oid ∧ o.evt = e.eid
  live : ∀ o ∈ s.db, x ≠ some o.oid → ∃ e ∈ s.events, e.eid = o.evt ∧ e.oid = o.oid
  deadOwn : ∀ e ∈ s.events, ∀ o ∈ s.dead, o.oid = e.oid → o.lsa.origin = c.router ∧ o.lsa.type = .adjacency
  norm : ∀ o ∈ s.db, o.lsa.content.norm = o.lsa.content

abbrev Inv (c : LConf) (s : Lsdb) : Prop := InvW c s none

theorem nodup_inj {α β : Type} {f : α → β} : ∀ {l : List α}, (l.map f).Nodup → ∀ {a b : α}, a ∈ l → b ∈ l →
    f a = f b → a = b
  | [], _, _, _, ha, _, _ => by simp at ha
  | x :: xs, h, a, b, ha, hb, he => by
    rw [List.map_cons, List.nodup_cons] at h
    rcases List.mem_cons.1 ha with ha1 | ha1 <;> rcases List.mem_cons.1 hb with hb1 | hb1
    · exact ha1.trans hb1.symm
    · subst ha1; exact absurd (he ▸ List.mem_map_of_mem hb1) h.1
    · subst hb1; exact absurd (he ▸ List.mem_map_of_mem ha1) h.1
    · exact nodup_inj h.2 ha1 hb1 he

theorem nodup_of_map {α β : Type} (f : α → β) {l : List α} (h : (l.map f).Nodup) : l.Nodup := by
  induction l with
  | nil => simp
  | cons x xs ih =>
    rw [List.map_cons, List.nodup_cons] at h
    rw [List.nodup_cons]
    exact ⟨fun hm => h.1 (List.mem_map_of_mem hm), ih h.2⟩

theorem nodup_map_of {α β : Type} {f : α → β} {l : List α} (hn : l.Nodup)
    (h : ∀ a ∈ l, ∀ b ∈ l, f a = f b → a = b) : (l.map f).Nodup := by
  induction l with
  | nil => simp
  | cons x xs ih =>
    rw [List.nodup_cons] at hn
    rw [List.map_cons, List.nodup_cons]
    refine ⟨?_, ih hn.2 (fun a ha b hb => h a (by simp [ha]) b (by simp [hb]))⟩
    intro hm
    obtain ⟨y, hy, hyx⟩ := List.mem_map.1 hm
    have := h y (by simp [hy]) x (by simp) hyx
    exact hn.1 (this ▸ hy)

theorem InvW.uniq {c : LConf} {s : Lsdb} {x : Option Nat} (h : InvW c s x) {o o' : Obj}
    (ho : o ∈ s.db ++ s.dead) (ho' : o' ∈ s.db ++ s.dead) (he : o.oid = o'.oid) : o = o' :=
  nodup_inj h.oids ho ho' he

theorem InvW.keyUniq {c : LConf} {s : Lsdb} {x : Option Nat} (h : InvW c s x) {o o' : Obj}
    (ho : o ∈ s.db) (ho' : o' ∈ s.db) (he : keyOf o = keyOf o') : o = o' :=
  nodup_inj h.keys ho ho' he

theorem mem_setObj {db : List Obj} {o x : Obj} :
    x ∈ setObj db o ↔ (x = o ∧ ∃ y ∈ db, y.oid = o.oid) ∨ (x ∈ db ∧ x.oid ≠ o.oid) := by
  unfold setObj
  rw [List.mem_map]
  constructor
  · rintro ⟨y, hy, h⟩
    by_cases hyo : y.oid = o.oid
    · rw [if_pos (by simpa using hyo)] at h
      exact Or.inl ⟨h.symm, y, hy, hyo⟩
    · rw [if_neg (by simpa using hyo)] at h
      exact Or.inr ⟨h ▸ hy, h ▸ hyo⟩
  · rintro (⟨rfl, y, hy, hyo⟩ | ⟨hx, hne⟩)
    · exact ⟨y, hy, by rw [if_pos (by simpa using hyo)]⟩
    · exact ⟨x, hx, by rw [if_neg (by simpa using hne)]⟩

theorem map_setObj {β : Type} (f : Obj → β) (db : List Obj) (o : Obj)
    (h : ∀ y ∈ db, y.oid = o.oid → f y = f o) : (setObj db o).map f = db.map f := by
  unfold setObj
  rw [List.map_map]
  apply List.map_congr_left
  intro y hy
  simp only [Function.comp]
  split
  · rename_i he
    exact (h y hy (by simpa using he)).symm
  · rfl

theorem InvW.frame {c : LConf} {s s' : Lsdb} {x : Option Nat} (h : InvW c s x) (f : Frame s s') :
    InvW c s' x := by
  obtain ⟨a, b, d, e, -⟩ := f
  exact ⟨by rw [a]; exact h.keys, by rw [a, b]; exact h.oids, by rw [a, b]; exact h.evts, by rw [a, b, e]; exact h.oidlt,
    by rw [a, b, e]; exact h.evtlt, by rw [d]; exact h.eids, by rw [d, e]; exact h.eidlt,
    by rw [a, b, d]; exact h.owned, by rw [a, d]; exact h.live, by rw [b, d]; exact h.deadOwn,
    by rw [a]; exact h.norm⟩

theorem reschedule_inv {c : LConf} {s : Lsdb} {x : Option Nat} (h : InvW c s x) {o o' : Obj} (secs : Nat)
    (ho : o ∈ s.db) (hx : x = none ∨ x = some o.oid) (h1 : o'.oid = o.oid) (h2 : o'.evt = o.evt)
    (h3 : keyOf o' = keyOf o) (h4 : o'.lsa.content.norm = o'.lsa.content) :
    Inv c (reschedule s o' secs) := by
  have hoA : o ∈ s.db ++ s.dead := List.mem_append_left _ ho
  have huniq : ∀ y ∈ s.db, y.oid = o.oid → y = o := fun y hy he =>
    h.uniq (List.mem_append_left _ hy) hoA he
  let o2 : Obj := { o' with evt := s.nextId }
  have hmem : ∀ y, y ∈ setObj s.db o2 ↔ y = o2 ∨ (y ∈ s.db ∧ y.oid ≠ o.oid) := by
    intro y
    rw [mem_setObj]
    constructor
    · rintro (⟨rfl, -⟩ | ⟨h5, h6⟩)
      · exact Or.inl rfl
      · exact Or.inr ⟨h5, by simpa [o2, h1] using h6⟩
    · rintro (rfl | ⟨h5, h6⟩)
      · exact Or.inl ⟨rfl, o, ho, by simp [o2, h1]⟩
      · exact Or.inr ⟨h5, by simpa [o2, h1] using h6⟩
  have hne_dead : ∀ y ∈ s.dead, y.oid ≠ o.oid := by
    intro y hy he
    have := h.oids
    rw [List.map_append, List.nodup_append] at this
    exact this.2.2 o.oid (List.mem_map_of_mem ho) y.oid (List.mem_map_of_mem hy) he.symm
  have hmemA : ∀ y, y ∈ setObj s.db o2 ++ s.dead ↔ y = o2 ∨ (y ∈ s.db ++ s.dead ∧ y.oid ≠ o.oid) := by
    intro y
    rw [List.mem_append, hmem, List.mem_append]
    constructor
    · rintro ((h5 | ⟨h5, h6⟩) | h5)
      · exact Or.inl h5
      · exact Or.inr ⟨Or.inl h5, h6⟩
      · exact Or.inr ⟨Or.inr h5, hne_dead y h5⟩
    · rintro (h5 | ⟨h5 | h5, h6⟩)
      · exact Or.inl (Or.inl h5)
      · exact Or.inl (Or.inr ⟨h5, h6⟩)
      · exact Or.inr h5
  have hevt : ∀ y ∈ s.db ++ s.dead, y.oid ≠ o.oid → y.evt ≠ o.evt := by
    intro y hy hne he
    exact hne (by rw [nodup_inj h.evts hy hoA he])
  have hkeys : (setObj s.db o2).map keyOf = s.db.map keyOf :=
    map_setObj _ _ _ (fun y hy he => by rw [huniq y hy (by simpa [o2, h1] using he)]; exact h3.symm)
  have hoidm : (setObj s.db o2).map (·.oid) = s.db.map (·.oid) :=
    map_setObj _ _ _ (fun y hy he => he)
  refine ⟨?_, ?_, ?_, ?_, ?_, ?_, ?_, ?_, ?_, ?_, ?_⟩
  · show ((setObj s.db o2).map keyOf).Nodup
    rw [hkeys]; exact h.keys
  · show ((setObj s.db o2 ++ s.dead).map (·.oid)).Nodup
    rw [List.map_append, hoidm, ← List.map_append]; exact h.oids
  · show ((setObj s.db o2 ++ s.dead).map (·.evt)).Nodup
    have hn : (setObj s.db o2 ++ s.dead).Nodup := by
      apply nodup_of_map (·.oid)
      rw [List.map_append, hoidm, ← List.map_append]; exact h.oids
    refine nodup_map_of hn ?_
    intro y hy z hz he
    rcases (hmemA y).1 hy with rfl | ⟨hy1, hy2⟩ <;> rcases (hmemA z).1 hz with rfl | ⟨hz1, hz2⟩
    · rfl
    · have := h.evtlt z hz1
      simp only [o2] at he
      omega
    · have := h.evtlt y hy1
      simp only [o2] at he
      omega
    · exact nodup_inj h.evts hy1 hz1 he
  · intro y hy
    show y.oid < s.nextId + 1
    rcases (hmemA y).1 hy with rfl | ⟨hy1, -⟩
    · have := h.oidlt o hoA
      simp only [o2, h1]; omega
    · have := h.oidlt y hy1; omega
  · intro y hy
    show y.evt < s.nextId + 1
    rcases (hmemA y).1 hy with rfl | ⟨hy1, -⟩
    · simp only [o2]; omega
    · have := h.evtlt y hy1; omega
  · show ((s.events.filter (fun e => !(e.eid == o'.evt)) ++
        [(⟨s.nextId, s.now + timerDelay secs, o'.oid⟩ : Ev)]).map (·.eid)).Nodup
    rw [List.map_append, List.nodup_append]
    refine ⟨(List.filter_sublist.map _).nodup h.eids, by simp, ?_⟩
    intro a ha b hb
    simp only [List.map_cons, List.map_nil, List.mem_singleton] at hb
    obtain ⟨e, he, rfl⟩ := List.mem_map.1 ha
    have := h.eidlt e (List.mem_filter.1 he).1
    omega
  · intro e he
    show e.eid < s.nextId + 1
    rcases List.mem_append.1 he with he | he
    · have := h.eidlt e (List.mem_filter.1 he).1; omega
    · simp only [List.mem_singleton] at he
      subst he; simp
  · intro e he
    rcases List.mem_append.1 he with he | he
    · rw [List.mem_filter] at he
      obtain ⟨he1, he2⟩ := he
      have hne : e.eid ≠ o.evt := by simpa [h2] using he2
      obtain ⟨y, hy, hy1, hy2⟩ := h.owned e he1
      refine ⟨y, (hmemA y).2 (Or.inr ⟨hy, ?_⟩), hy1, hy2⟩
      intro hyo
      have : y = o := h.uniq hy hoA hyo
      subst this
      exact hne hy2.symm
    · simp only [List.mem_singleton] at he
      subst he
      exact ⟨o2, (hmemA o2).2 (Or.inl rfl), rfl, rfl⟩
  · intro y hy _
    rcases (hmem y).1 hy with rfl | ⟨hy1, hy2⟩
    · exact ⟨⟨s.nextId, s.now + timerDelay secs, o'.oid⟩, List.mem_append_right _ (by simp), rfl, rfl⟩
    · have hxn : x ≠ some y.oid := by
        rcases hx with rfl | rfl
        · simp
        · intro hh; exact hy2 (by simpa using hh.symm)
      obtain ⟨e, he, he1, he2⟩ := h.live y hy1 hxn
      refine ⟨e, List.mem_append_left _ (List.mem_filter.2 ⟨he, ?_⟩), he1, he2⟩
      have := hevt y (List.mem_append_left _ hy1) hy2
      rw [h2, he1]
      simpa using this
  · intro e he y hy hyo
    rcases List.mem_append.1 he with he | he
    · exact h.deadOwn e (List.mem_filter.1 he).1 y hy hyo
    · simp only [List.mem_singleton] at he
      subst he
      exact absurd hyo (by simpa [h1] using hne_dead y hy)
  · intro y hy
    rcases (hmem y).1 hy with rfl | ⟨hy1, -⟩
    · exact h4
    · exact h.norm y hy1

theorem installNew_inv {c : LConf} {s : Lsdb} (h : Inv c s) (l : Lsa) (secs : Nat)
    (hnone : s.find l.origin l.type = none) (hn : l.content.norm = l.content) :
    Inv c (installNew s l secs) := by
  have hfn := find_none hnone
  let o2 : Obj := ⟨s.nextId, l, s.nextId + 1⟩
  have hmemA : ∀ y, y ∈ (s.db ++ [o2]) ++ s.dead ↔ y = o2 ∨ y ∈ s.db ++ s.dead := by
    intro y
    simp only [List.mem_append, List.mem_singleton]
    constructor
    · rintro ((h1 | h1) | h1)
      · exact Or.inr (Or.inl h1)
      · exact Or.inl h1
      · exact Or.inr (Or.inr h1)
    · rintro (h1 | h1 | h1)
      · exact Or.inl (Or.inr h1)
      · exact Or.inl (Or.inl h1)
      · exact Or.inr h1
  have hperm : ((s.db ++ [o2]) ++ s.dead).Perm (o2 :: (s.db ++ s.dead)) := by
    rw [List.append_assoc]
    exact List.perm_middle
  refine ⟨?_, ?_, ?_, ?_, ?_, ?_, ?_, ?_, ?_, ?_, ?_⟩
  · show ((s.db ++ [o2]).map keyOf).Nodup
    rw [List.map_append, List.nodup_append]
    refine ⟨h.keys, by simp, ?_⟩
    intro a ha b hb
    simp only [List.map_cons, List.map_nil, List.mem_singleton] at hb
    obtain ⟨y, hy, rfl⟩ := List.mem_map.1 ha
    intro he
    rw [hb] at he
    simp only [keyOf, o2, Prod.mk.injEq] at he
    exact hfn y hy he
  · show (((s.db ++ [o2]) ++ s.dead).map (·.oid)).Nodup
    rw [(hperm.map _).nodup_iff, List.map_cons, List.nodup_cons]
    refine ⟨?_, h.oids⟩
    intro hm
    obtain ⟨y, hy, hyo⟩ := List.mem_map.1 hm
    have := h.oidlt y hy
    simp only [o2] at hyo
    omega
  · show (((s.db ++ [o2]) ++ s.dead).map (·.evt)).Nodup
    rw [(hperm.map _).nodup_iff, List.map_cons, List.nodup_cons]
    refine ⟨?_, h.evts⟩
    intro hm
    obtain ⟨y, hy, hyo⟩ := List.mem_map.1 hm
    have := h.evtlt y hy
    simp only [o2] at hyo
    omega
  · intro y hy
    show y.oid < s.nextId + 2
    rcases (hmemA y).1 hy with rfl | hy1
    · simp only [o2]; omega
    · have := h.oidlt y hy1; omega
  · intro y hy
    show y.evt < s.nextId + 2
    rcases (hmemA y).1 hy with rfl | hy1
    · simp only [o2]; omega
    · have := h.evtlt y hy1; omega
  · show ((s.events ++ [(⟨s.nextId + 1, s.now + timerDelay secs, s.nextId⟩ : Ev)]).map (·.eid)).Nodup
    rw [List.map_append, List.nodup_append]
    refine ⟨h.eids, by simp, ?_⟩
    intro a ha b hb
    simp only [List.map_cons, List.map_nil, List.mem_singleton] at hb
    obtain ⟨e, he, rfl⟩ := List.mem_map.1 ha
    have := h.eidlt e he
    omega
  · intro e he
    show e.eid < s.nextId + 2
    rcases List.mem_append.1 he with he | he
    · have := h.eidlt e he; omega
    · simp only [List.mem_singleton] at he
      subst he; simp
  · intro e he
    rcases List.mem_append.1 he with he | he
    · obtain ⟨y, hy, hy1, hy2⟩ := h.owned e he
      exact ⟨y, (hmemA y).2 (Or.inr hy), hy1, hy2⟩
    · simp only [List.mem_singleton] at he
      subst he
      exact ⟨o2, (hmemA o2).2 (Or.inl rfl), rfl, rfl⟩
  · intro y hy hx
    rcases List.mem_append.1 hy with hy | hy
    · obtain ⟨e, he, he1⟩ := h.live y hy hx
      exact ⟨e, List.mem_append_left _ he, he1⟩
    · simp only [List.mem_singleton] at hy
      subst hy
      exact ⟨⟨s.nextId + 1, s.now + timerDelay secs, s.nextId⟩, List.mem_append_right _ (by simp), rfl, rfl⟩
  · intro e he y hy hyo
    rcases List.mem_append.1 he with he | he
    · exact h.deadOwn e he y hy hyo
    · simp only [List.mem_singleton] at he
      subst he
      have := h.oidlt y (List.mem_append_right _ hy)
      simp only at hyo
      omega
  · intro y hy
    rcases List.mem_append.1 hy with hy | hy
    · exact h.norm y hy
    · simp only [List.mem_singleton] at hy
      subst hy
      exact hn

theorem removeLsa_inv {c : LConf} {s : Lsdb} {x : Option Nat} (h : InvW c s x) (r : Name) (t : LsaType)
    (hx : ∀ o, s.find r t = some o → x = none ∨ x = some o.oid)
    (hn : s.find r t = none → x = none)
    (hev : ∀ o, s.find r t = some o → ∀ e ∈ s.events, e.oid = o.oid →
      o.lsa.origin = c.router ∧ o.lsa.type = .adjacency) :
    Inv c (removeLsa s r t) := by
  unfold removeLsa
  cases hf : s.find r t with
  | none => rw [hn hf] at h; exact h
  | some o =>
    obtain ⟨hodb, hor, hot⟩ := find_some hf
    have hmem : ∀ y, y ∈ s.db.filter (fun x => !isKey r t x) ↔ y ∈ s.db ∧ y ≠ o := by
      intro y
      rw [List.mem_filter]
      constructor
      · rintro ⟨h1, h2⟩
        refine ⟨h1, ?_⟩
        rintro rfl
        rw [isKey_iff.2 ⟨hor, hot⟩] at h2
        simp at h2
      · rintro ⟨h1, h2⟩
        refine ⟨h1, ?_⟩
        cases hk : isKey r t y with
        | false => rfl
        | true =>
          obtain ⟨h3, h4⟩ := isKey_iff.1 hk
          exact absurd (h.keyUniq h1 hodb (by simp [keyOf, h3, h4, hor, hot])) h2
    have hdbn : s.db.Nodup := nodup_of_map keyOf h.keys
    have hperm1 : (s.db).Perm (o :: s.db.filter (fun x => !isKey r t x)) := by
      refine (List.perm_ext_iff_of_nodup hdbn ?_).2 ?_
      · rw [List.nodup_cons]
        exact ⟨fun hm => ((hmem o).1 hm).2 rfl, hdbn.filter _⟩
      · intro y
        rw [List.mem_cons, hmem]
        constructor
        · intro hy
          by_cases he : y = o
          · exact Or.inl he
          · exact Or.inr ⟨hy, he⟩
        · rintro (rfl | ⟨h1, -⟩)
          · exact hodb
          · exact h1
    have hperm : (s.db.filter (fun x => !isKey r t x) ++ (o :: s.dead)).Perm (s.db ++ s.dead) := by
      refine List.perm_middle.trans ?_
      exact (hperm1.symm.append_right s.dead)
    have hmemA : ∀ y, y ∈ s.db.filter (fun x => !isKey r t x) ++ (o :: s.dead) ↔ y ∈ s.db ++ s.dead :=
      fun y => hperm.mem_iff
    refine ⟨?_, ?_, ?_, ?_, ?_, ?_, ?_, ?_, ?_, ?_, ?_⟩
    · exact (List.filter_sublist.map _).nodup h.keys
    · exact (hperm.map _).nodup_iff.2 h.oids
    · exact (hperm.map _).nodup_iff.2 h.evts
    · exact fun y hy => h.oidlt y ((hmemA y).1 hy)
    · exact fun y hy => h.evtlt y ((hmemA y).1 hy)
    · exact h.eids
    · exact h.eidlt
    · intro e he
      obtain ⟨y, hy, hy1⟩ := h.owned e he
      exact ⟨y, (hmemA y).2 hy, hy1⟩
    · intro y hy _
      obtain ⟨h1, h2⟩ := (hmem y).1 hy
      refine h.live y h1 ?_
      rcases hx o hf with rfl | rfl
      · simp
      · intro hh
        exact h2 (h.uniq (List.mem_append_left _ h1) (List.mem_append_left _ hodb) (by simpa using hh.symm))
    · intro e he y hy hyo
      rcases List.mem_cons.1 hy with rfl | hy
      · exact hev y hf e he hyo.symm
      · exact h.deadOwn e he y hy hyo
    · intro y hy
      exact h.norm y ((hmem y).1 hy).1

theorem norm_adj {l : AdjacencyList} : (Content.adj l).norm = .adj l ↔ (l.map (·.name)).Nodup := by
  simp only [Content.norm, Content.adj.injEq]
  constructor
  · intro h; rw [← h]; exact adj_ofList_names l
  · exact adj_ofList_nodup l

theorem norm_names {l : PrefixMap} : (Content.names l).norm = .names l ↔ PrefixMap.Sorted l := by
  simp only [Content.norm, Content.names.injEq]
  constructor
  · intro h; rw [← h]; exact PrefixMap.ofList_sorted l
  · exact PrefixMap.ofList_of_sorted

theorem update_norm {a b : Content} (ha : a.norm = a) (hb : b.norm = b) :
    (a.update b).content.norm = (a.update b).content := by
  cases a with
  | adj l =>
    cases b with
    | adj l' =>
      simp only [Content.update, updateAdj]
      split
      · exact ha
      · exact norm_adj.2 (adj_ofList_names l')
    | coord _ _ => exact ha
    | names _ => exact ha
  | coord r as =>
    cases b with
    | adj _ => exact ha
    | coord r' as' => simp only [Content.update, updateCoord]; split <;> rfl
    | names _ => exact ha
  | names l =>
    cases b with
    | adj _ => exact ha
    | coord _ _ => exact ha
    | names l' =>
      simp only [Content.update, updateNames]
      exact norm_names.2 (PrefixMap.foldl_erase_sorted _ (PrefixMap.foldl_insert_sorted _ (norm_names.1 ha)))

theorem installUpdate_inv {c : LConf} {s : Lsdb} (h : Inv c s) {o : Obj} {l : Lsa} (secs : Nat)
    (hf : s.find l.origin l.type = some o) (hn : l.content.norm = l.content) :
    Inv c (installUpdate s o l secs) := by
  obtain ⟨ho, h1, h2⟩ := find_some hf
  have hr : Inv c (reschedule s { o with lsa := ⟨o.lsa.origin, l.seq, l.exp, (o.lsa.content.update l.content).content⟩ } secs) := by
    refine reschedule_inv h secs ho (Or.inl rfl) rfl rfl ?_ ?_
    · simp only [keyOf, Lsa.type, Content.update_type]
    · exact update_norm (h.norm o ho) hn
  unfold installUpdate
  dsimp only
  split
  · exact ⟨hr.keys, hr.oids, hr.evts, hr.oidlt, hr.evtlt, hr.eids, hr.eidlt, hr.owned, hr.live, hr.deadOwn, hr.norm⟩
  · exact hr

theorem install_inv {c : LConf} {s : Lsdb} (h : Inv c s) (l : Lsa) (hn : l.content.norm = l.content) :
    Inv c (installLsa c s l) := by
  unfold installLsa
  dsimp only
  split
  · rename_i hf
    exact installNew_inv h l _ hf hn
  · rename_i o hf
    split
    · exact installUpdate_inv h _ hf hn
    · exact h

/-- The queue without one event. -/
def drop (s : Lsdb) (eid : Nat) : Lsdb := { s with events := s.events.filter (fun e => !(e.eid == eid)) }

theorem drop_inv {c : LConf} {s : Lsdb} (h : Inv c s) {o : Obj} {ev : Ev} (ho : o ∈ s.db ++ s.dead)
    (hev : ev ∈ s.events) (hoid : o.oid = ev.oid) :
    InvW c (drop s ev.eid) (some o.oid) ∧ ∀ e ∈ (drop s ev.eid).events, e.oid ≠ o.oid := by
  have howner : ∀ e ∈ s.events, e.oid = o.oid → e.eid = ev.eid := by
    intro e he he1
    obtain ⟨y, hy, hy1, hy2⟩ := h.owned e he
    obtain ⟨z, hz, hz1, hz2⟩ := h.owned ev hev
    have h1 : y = o := h.uniq hy ho (hy1.trans he1)
    have h2 : z = o := h.uniq hz ho (hz1.trans hoid.symm)
    rw [← hy2, ← hz2, h1, h2]
  refine ⟨⟨h.keys, h.oids, h.evts, h.oidlt, h.evtlt, ?_, ?_, ?_, ?_, ?_, h.norm⟩, ?_⟩
  · exact (List.filter_sublist.map _).nodup h.eids
  · exact fun e he => h.eidlt e (List.mem_filter.1 he).1
  · exact fun e he => h.owned e (List.mem_filter.1 he).1
  · intro y hy hne
    obtain ⟨e, he, he1, he2⟩ := h.live y hy (by simp)
    refine ⟨e, List.mem_filter.2 ⟨he, ?_⟩, he1, he2⟩
    simp only [Bool.not_eq_eq_eq_not, Bool.not_true, beq_eq_false_iff_ne]
    intro hee
    have : e = ev := nodup_inj h.eids he hev hee
    subst this
    exact hne (by rw [← he2, hoid])
  · exact fun e he => h.deadOwn e (List.mem_filter.1 he).1
  · intro e he hh
    obtain ⟨he1, he2⟩ := List.mem_filter.1 he
    have := howner e he1 hh
    simp [this] at he2

/-- What a timer firing does. -/
inductive FireCase (c : LConf) (s : Lsdb) (eid : Nat) : Lsdb → Prop
  /-- not pending or not due -/
  | idle : FireCase c s eid s
  /-- the timer of a stored own LSA -/
  | own (ev : Ev) (o : Obj) (hev : ev ∈ s.events) (he : ev.eid = eid) (hdue : ev.due ≤ s.now)
      (ho : o ∈ s.db) (hoid : o.oid = ev.oid) (hevt : o.evt = eid) (hr : o.lsa.origin = c.router) :
      FireCase c s eid (refresh c (drop s eid) o)
  /-- the timer of a stored LSA of another router -/
  | other (ev : Ev) (o : Obj) (hev : ev ∈ s.events) (he : ev.eid = eid) (hdue : ev.due ≤ s.now)
      (ho : o ∈ s.db) (hoid : o.oid = ev.oid) (hevt : o.evt = eid) (hr : o.lsa.origin ≠ c.router) :
      FireCase c s eid (removeLsa (drop s eid) o.lsa.origin o.lsa.type)
  /-- left-over timer of a removed own adjacency LSA, without effect -/
  | stale (ev : Ev) (o : Obj) (hev : ev ∈ s.events) (he : ev.eid = eid) (hdue : ev.due ≤ s.now)
      (ho : o ∈ s.dead) (hoid : o.oid = ev.oid) (hr : o.lsa.origin = c.router)
      (ht : o.lsa.type = .adjacency) : FireCase c s eid (drop s eid)
  /-- left-over timer of a removed own adjacency LSA that hits a stored one with the same number -/
  | hit (ev : Ev) (o p : Obj) (hev : ev ∈ s.events) (he : ev.eid = eid) (hdue : ev.due ≤ s.now)
      (ho : o ∈ s.dead) (hoid : o.oid = ev.oid) (hr : o.lsa.origin = c.router)
      (ht : o.lsa.type = .adjacency) (hp : p ∈ s.db) (hpr : p.lsa.origin = c.router)
      (hpt : p.lsa.type = .adjacency) (hseq : p.lsa.seq = o.lsa.seq) :
      FireCase c s eid (refresh c (drop s eid) p)

theorem find_of_mem {c : LConf} {s : Lsdb} {x : Option Nat} (h : InvW c s x) {o : Obj} (ho : o ∈ s.db) :
    s.find o.lsa.origin o.lsa.type = some o := by
  cases hf : s.find o.lsa.origin o.lsa.type with
  | none => exact absurd ⟨rfl, rfl⟩ (find_none hf o ho)
  | some p =>
    obtain ⟨hp, h1, h2⟩ := find_some hf
    rw [h.keyUniq hp ho (by simp [keyOf, h1, h2])]

theorem fire_cases {c : LConf} {s : Lsdb} (h : Inv c s) (eid : Nat) : FireCase c s eid (fire c s eid) := by
  unfold fire
  cases hfe : s.events.find? (fun e => e.eid == eid) with
  | none => exact .idle
  | some ev =>
    have hev := List.mem_of_find?_eq_some hfe
    have he : ev.eid = eid := by simpa using List.find?_some hfe
    dsimp only
    split
    · exact .idle
    · rename_i hdue
      have hdue : ev.due ≤ s.now := by omega
      obtain ⟨w, hw, hw1, hw2⟩ := h.owned ev hev
      cases hfo : (s.db ++ s.dead).find? (fun o => o.oid == ev.oid) with
      | none =>
        rw [List.find?_eq_none] at hfo
        exact absurd (by simpa using hw1) (hfo w hw)
      | some o =>
        have ho := List.mem_of_find?_eq_some hfo
        have hoid : o.oid = ev.oid := by simpa using List.find?_some hfo
        have hwo : w = o := h.uniq hw ho (hw1.trans hoid.symm)
        subst hwo
        dsimp only
        show FireCase c s eid (expireOrRefresh c (drop s eid) w.lsa)
        have hfd : ∀ r t, (drop s eid).find r t = s.find r t := fun _ _ => rfl
        unfold expireOrRefresh
        rw [hfd]
        rcases List.mem_append.1 ho with hdb | hdd
        · rw [find_of_mem h hdb]
          dsimp only
          rw [if_pos rfl]
          split
          · rename_i hr
            exact .own ev w hev he hdue hdb hoid (hw2.trans he) hr
          · rename_i hr
            exact .other ev w hev he hdue hdb hoid (hw2.trans he) hr
        · obtain ⟨hr, ht⟩ := h.deadOwn ev hev w hdd hoid
          cases hf : s.find w.lsa.origin w.lsa.type with
          | none => exact .stale ev w hev he hdue hdd hoid hr ht
          | some p =>
            obtain ⟨hp, hp1, hp2⟩ := find_some hf
            dsimp only
            split
            · rename_i hseq
              rw [if_pos (hp1.trans hr)]
              exact .hit ev w p hev he hdue hdd hoid hr ht hp (hp1.trans hr) (hp2.trans ht) hseq
            · exact .stale ev w hev he hdue hdd hoid hr ht

theorem refresh_inv {c : LConf} {s : Lsdb} {x : Option Nat} (h : InvW c s x) {o : Obj} (ho : o ∈ s.db)
    (hx : x = none ∨ x = some o.oid) : Inv c (refresh c s o) := by
  unfold refresh
  dsimp only
  have hr : Inv c (reschedule { s with seqs := s.seqs.set o.lsa.type (inc64 o.lsa.seq) }
      { o with lsa := { o.lsa with seq := inc64 o.lsa.seq, exp := s.expirationPoint c } } c.refresh) := by
    refine reschedule_inv (s := { s with seqs := s.seqs.set o.lsa.type (inc64 o.lsa.seq) }) (x := x)
      (h.frame (frame_quiet rfl rfl rfl rfl rfl)) _ ho hx rfl rfl rfl (h.norm o ho)
  exact hr.frame ⟨rfl, rfl, rfl, rfl, QuietLog.trans (QuietLog.one _ _ rfl) (QuietLog.one _ _ rfl)⟩

theorem InvW.weaken {c : LConf} {s : Lsdb} {x : Option Nat} (h : InvW c s x) (hx : ∀ o ∈ s.db, x ≠ some o.oid) :
    Inv c s :=
  ⟨h.keys, h.oids, h.evts, h.oidlt, h.evtlt, h.eids, h.eidlt, h.owned, fun o ho _ => h.live o ho (hx o ho),
    h.deadOwn, h.norm⟩

theorem dead_ne_db {c : LConf} {s : Lsdb} {x : Option Nat} (h : InvW c s x) {o : Obj} (ho : o ∈ s.dead) :
    ∀ y ∈ s.db, some o.oid ≠ some y.oid := by
  intro y hy he
  have := h.oids
  rw [List.map_append, List.nodup_append] at this
  exact this.2.2 y.oid (List.mem_map_of_mem hy) o.oid (List.mem_map_of_mem ho) (by simpa using he.symm)

theorem fire_inv {c : LConf} {s : Lsdb} (h : Inv c s) (eid : Nat) : Inv c (fire c s eid) := by
  have hc := fire_cases h eid
  generalize fire c s eid = s' at hc
  cases hc with
  | idle => exact h
  | own ev o hev he hdue ho hoid hevt hr =>
    subst he
    obtain ⟨h1, -⟩ := drop_inv h (List.mem_append_left _ ho) hev hoid
    exact refresh_inv h1 (s := drop s ev.eid) ho (Or.inr rfl)
  | other ev o hev he hdue ho hoid hevt hr =>
    subst he
    obtain ⟨h1, h2⟩ := drop_inv h (List.mem_append_left _ ho) hev hoid
    have hf : (drop s ev.eid).find o.lsa.origin o.lsa.type = some o := find_of_mem h1 ho
    refine removeLsa_inv h1 _ _ ?_ ?_ ?_
    · intro p hp; rw [hf] at hp; cases hp; exact Or.inr rfl
    · intro hn; rw [hf] at hn; cases hn
    · intro p hp e he1 he2; rw [hf] at hp; cases hp; exact absurd he2 (h2 e he1)
  | stale ev o hev he hdue ho hoid hr ht =>
    subst he
    obtain ⟨h1, -⟩ := drop_inv h (List.mem_append_right _ ho) hev hoid
    exact h1.weaken (dead_ne_db h1 (s := drop s ev.eid) ho)
  | hit ev o p hev he hdue ho hoid hr ht hp hpr hpt hseq =>
    subst he
    obtain ⟨h1, -⟩ := drop_inv h (List.mem_append_right _ ho) hev hoid
    have h2 := h1.weaken (dead_ne_db h1 (s := drop s ev.eid) ho)
    exact refresh_inv h2 (s := drop s ev.eid) hp (Or.inl rfl)

theorem tr_inv {c : LConf} {s s' : Lsdb} (h : Inv c s) (t : Tr c s s') : Inv c s' := by
  cases t with
  | frame f => exact h.frame f
  | install l hn => exact install_inv h l hn
  | removeOwn =>
    refine removeLsa_inv h _ _ (fun _ _ => Or.inl rfl) (fun _ => rfl) ?_
    intro o ho e he _
    exact (find_some ho).2
  | fire eid => exact fire_inv h eid

theorem trs_inv {c : LConf} {s s' : Lsdb} (h : Inv c s) (t : Trs c s s') : Inv c s' := by
  induction t with
  | refl => exact h
  | tail _ h2 ih => exact tr_inv ih h2

theorem boot_inv (c : LConf) (disk : Option Seqs) (adjs : AdjacencyList) (npl : List PrefixInfo) (sys : Int) :
    Inv c (boot c disk adjs npl sys) := by
  constructor <;> simp [boot]

theorem Reachable.inv {c : LConf} {s : Lsdb} (h : Reachable c s) : Inv c s := by
  obtain ⟨disk, adjs, npl, sys, t⟩ := h.trs
  exact trs_inv (boot_inv c disk adjs npl sys) t

end Lsdb
end Nlsr
