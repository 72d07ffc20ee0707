import Verif.Props.Npt
/- C88: the flags of the routes the name prefix table hands to the FIB. -/
namespace Nlsr
open Npt

/-- The FIB is told that nothing is left of the prefix. -/
def Clears (n : Name) (c : FibCmd) : Prop := c = .remove n ∨ ∃ f, c = .update n [] f

/-- The prefix was last given routes with the capture flag, and was not cleared since. -/
def Captured (out : List FibCmd) (n : Name) : Prop :=
  ∃ pre h post, out = pre ++ .update n h capture :: post ∧ h ≠ [] ∧ ∀ c ∈ post, ¬ Clears n c

/-- Child-inherit, or capture for a name of `R`. -/
def FlagOk (R : Name → Prop) (n : Name) (f : Nat) : Prop := f = childInherit ∨ (f = capture ∧ R n)

namespace Npt

theorem captured_snoc {out : List FibCmd} {c : FibCmd} {n : Name} (h : Captured (out ++ [c]) n) :
    (Captured out n ∧ ¬ Clears n c) ∨ ∃ l, l ≠ [] ∧ c = .update n l capture := by
  obtain ⟨pre, l, post, e, hl, hp⟩ := h
  rcases List.eq_nil_or_concat post with rfl | ⟨post, d, rfl⟩
  · have : out = pre ∧ [c] = [FibCmd.update n l capture] := List.append_inj' e rfl
    injection this.2 with h1
    exact Or.inr ⟨l, hl, h1⟩
  · have : out ++ [c] = (pre ++ .update n l capture :: post) ++ [d] := by rw [e]; simp
    obtain ⟨h1, h2⟩ := List.append_inj' this rfl
    injection h2 with h2
    subst h2
    refine Or.inl ⟨⟨pre, l, post, h1, hl, fun x hx => hp x (by simp [hx])⟩, hp c (by simp)⟩

/-- Flags of the table and of the calls. -/
structure Flagged (R : Name → Prop) (s : Npt) : Prop where
  eids : (s.table.map (·.eid)).Nodup
  names : (s.table.map (·.name)).Nodup
  lt : ∀ e ∈ s.table, e.eid < s.nextId
  table : ∀ e ∈ s.table, FlagOk R e.name e.flags
  out : ∀ n l f, .update n l f ∈ s.out → FlagOk R n f
  hot : ∀ n, Captured s.out n → ∃ e ∈ s.table, e.name = n ∧ e.flags = capture ∧ e.nhl ≠ []
  steady : ∀ n pre h mid h' post, s.out = pre ++ .update n h capture :: (mid ++ .update n h' childInherit :: post) →
    h ≠ [] → ∃ c ∈ mid, Clears n c

theorem _root_.Nlsr.FlagOk.mono {R R' : Name → Prop} (hR : ∀ n, R n → R' n) {n : Name} {f : Nat} (h : FlagOk R n f) : FlagOk R' n f :=
  h.imp id (fun h => ⟨h.1, hR n h.2⟩)

theorem Flagged.mono {R R' : Name → Prop} (hR : ∀ n, R n → R' n) {s : Npt} (h : Flagged R s) : Flagged R' s :=
  ⟨h.eids, h.names, h.lt, fun e he => (h.table e he).mono hR, fun n l f hm => (h.out n l f hm).mono hR, h.hot, h.steady⟩

theorem Flagged.same {R : Name → Prop} {s s' : Npt} (h : Flagged R s) (h1 : s'.table = s.table) (h2 : s'.out = s.out)
    (h3 : s.nextId ≤ s'.nextId) : Flagged R s' :=
  ⟨by rw [h1]; exact h.eids, by rw [h1]; exact h.names, by rw [h1]; exact fun e he => Nat.lt_of_lt_of_le (h.lt e he) h3,
   by rw [h1]; exact h.table, by rw [h2]; exact h.out, by rw [h1, h2]; exact h.hot, by rw [h2]; exact h.steady⟩

theorem tells_update {c : FibCmd} {name n : Name} {l h : NexthopList} {v : Ext Rat} {f fl : Nat} (ht : Tells c name l v fl)
    (hc : c = .update n h f) : n = name ∧ f = fl := by
  rcases ht with ⟨-, rfl⟩ | rfl
  · cases hc
  · unfold updCmd at hc
    split at hc
    · injection hc with a b d; exact ⟨a.symm, d.symm⟩
    · split at hc
      · injection hc with a b d; exact ⟨a.symm, d.symm⟩
      · cases hc

theorem tells_clears {c : FibCmd} {name : Name} {v : Ext Rat} {fl : Nat} (ht : Tells c name [] v fl) : Clears name c := by
  rcases ht with ⟨-, rfl⟩ | rfl
  · exact Or.inl rfl
  · exact Or.inr ⟨fl, rfl⟩

/-- One more call, about one prefix. -/
theorem Flagged.tell {R : Name → Prop} {s s' : Npt} (h : Flagged R s) {c : FibCmd} {name : Name}
    (eids : (s'.table.map (·.eid)).Nodup) (names : (s'.table.map (·.name)).Nodup) (lt : ∀ e ∈ s'.table, e.eid < s'.nextId)
    (ho : s'.out = s.out ++ [c]) (hoth : Others name s s')
    (hc : (c = .remove name ∧ ∀ e ∈ s'.table, e.name ≠ name) ∨
      ∃ e ∈ s'.table, e.name = name ∧ FlagOk R name e.flags ∧ (∃ v, Tells c name e.nhl v e.flags) ∧
        (Captured s.out name → e.flags = capture)) : Flagged R s' := by
  have uniq : ∀ e ∈ s'.table, ∀ e' ∈ s'.table, e.name = e'.name → e = e' := fun e he e' he' hn =>
    Lsdb.nodup_inj names he he' hn
  have cname : cmdName c = name := by
    rcases hc with ⟨rfl, -⟩ | ⟨e, -, -, -, ⟨v, ht⟩, -⟩
    · rfl
    · exact ht.name
  refine ⟨eids, names, lt, ?_, ?_, ?_, ?_⟩
  · intro e he
    by_cases hn : e.name = name
    · rcases hc with ⟨-, hno⟩ | ⟨e', he', hn', hf, -⟩
      · exact absurd hn (hno e he)
      · rw [uniq e he e' he' (hn.trans hn'.symm), hn']; exact hf
    · exact h.table e ((hoth e hn).1 he)
  · intro n l f hm
    rw [ho] at hm
    rcases List.mem_append.1 hm with hm | hm
    · exact h.out n l f hm
    · have hm := List.mem_singleton.1 hm
      rcases hc with ⟨rfl, -⟩ | ⟨e', he', hn', hf, ⟨v, ht⟩, -⟩
      · cases hm
      · obtain ⟨rfl, rfl⟩ := tells_update ht hm.symm
        exact hf
  · intro n hn
    rw [ho] at hn
    by_cases hnn : n = name
    · subst hnn
      rcases hc with ⟨rfl, -⟩ | ⟨e', he', hn', hf, ⟨v, ht⟩, hcap⟩
      · rcases captured_snoc hn with ⟨-, h2⟩ | ⟨l, -, h2⟩
        · exact absurd (Or.inl rfl) h2
        · cases h2
      · refine ⟨e', he', hn', ?_⟩
        rcases captured_snoc hn with ⟨h1, h2⟩ | ⟨l, h1, h2⟩
        · refine ⟨hcap h1, fun he => h2 ?_⟩
          rw [he] at ht
          exact tells_clears ht
        · refine ⟨(tells_update ht h2).2.symm, fun he => h1 ?_⟩
          rw [he] at ht
          rcases tells_clears ht with h3 | ⟨f, h3⟩
          · rw [h2] at h3; cases h3
          · rw [h2] at h3; injection h3
    · rcases captured_snoc hn with ⟨h1, -⟩ | ⟨l, -, h2⟩
      · obtain ⟨e, he, h3, h4⟩ := h.hot n h1
        exact ⟨e, (hoth e (by rw [h3]; exact hnn)).2 he, h3, h4⟩
      · rw [h2] at cname; exact absurd cname hnn
  · intro n pre l mid l' post e hl
    rw [ho] at e
    rcases List.eq_nil_or_concat post with rfl | ⟨post, d, rfl⟩
    · have : s.out ++ [c] = (pre ++ .update n l capture :: mid) ++ [.update n l' childInherit] := by rw [e]; simp
      obtain ⟨h1, h2⟩ := List.append_inj' this rfl
      injection h2 with h2
      refine Classical.byContradiction fun hno => ?_
      have hcap : Captured s.out n := ⟨pre, l, mid, h1, hl, fun x hx hcl => hno ⟨x, hx, hcl⟩⟩
      rcases hc with ⟨rfl, -⟩ | ⟨e', he', hn', hf, ⟨v, ht⟩, hcp⟩
      · cases h2
      · obtain ⟨rfl, h4⟩ := tells_update ht h2
        rw [hcp hcap] at h4
        exact absurd h4 (by decide)
    · have : s.out ++ [c] = (pre ++ .update n l capture :: (mid ++ .update n l' childInherit :: post)) ++ [d] := by
        rw [e]; simp
      exact h.steady n pre l mid l' post (List.append_inj' this rfl).1 hl

/-- What `regen`, `addRte` and the calls of the FIB leave alone. -/
def tcore (s : Npt) : List (Nat × Name × Nat) := s.table.map (fun e => (e.eid, e.name, e.flags))

theorem tcore_modEntry (s : Npt) (eid : Nat) (f : NptEntry → NptEntry)
    (h : ∀ e, ((f e).eid, (f e).name, (f e).flags) = (e.eid, e.name, e.flags)) : tcore (s.modEntry eid f) = tcore s :=
  map_if_eq (fun e : NptEntry => (e.eid, e.name, e.flags)) _ _ _ h

theorem tcore_mem {s s' : Npt} (h : tcore s' = tcore s) {e : NptEntry} (he : e ∈ s'.table) :
    ∃ e0 ∈ s.table, e0.eid = e.eid ∧ e0.name = e.name ∧ e0.flags = e.flags := by
  have : (e.eid, e.name, e.flags) ∈ tcore s' := List.mem_map.2 ⟨e, he, rfl⟩
  rw [h] at this
  obtain ⟨e0, h0, h1⟩ := List.mem_map.1 this
  simp only [Prod.mk.injEq] at h1
  exact ⟨e0, h0, h1.1, h1.2.1, h1.2.2⟩

theorem tcore_eids {s s' : Npt} (h : tcore s' = tcore s) : s'.table.map (·.eid) = s.table.map (·.eid) :=
  map_proj (fun x : Nat × Name × Nat => x.1) h

theorem tcore_names {s s' : Npt} (h : tcore s' = tcore s) : s'.table.map (·.name) = s.table.map (·.name) :=
  map_proj (fun x : Nat × Name × Nat => x.2.1) h

theorem table_fibUpdate (s : Npt) (name dest : Name) (l : NexthopList) (fl : Nat) :
    (s.fibUpdate name dest l fl).table = s.table ∧ (s.fibUpdate name dest l fl).nextId = s.nextId := by
  have h := shape_fibUpdate s name dest l fl
  exact ⟨(told_fibUpdate s name dest l fl).table, h.nextId⟩

/-- The rest of `addEntry`, after the prefix entry was found or made. -/
theorem tellEntry {s : Npt} {e : NptEntry} (he : e ∈ s.table) (hd : (s.table.map (·.eid)).Nodup) (pid : Nat) (dest : Name) :
    let s' := (((s.addRte e.eid pid).regen e.eid).tellFib e.eid e.name dest).backRef pid e.name e.eid
    ∃ c v e', s'.out = s.out ++ [c] ∧ tcore s' = tcore s ∧ s'.nextId = s.nextId ∧ Others e.name s s' ∧
      e' ∈ s'.table ∧ e'.name = e.name ∧ e'.flags = e.flags ∧ Tells c e.name e'.nhl v e'.flags := by
  dsimp only
  have huniq : ∀ x ∈ s.table, x.eid = e.eid → x = e := fun x hx hxe => Lsdb.nodup_inj hd hx he hxe
  have a : tcore (s.addRte e.eid pid) = tcore s ∧ (s.addRte e.eid pid).out = s.out ∧
      (s.addRte e.eid pid).nextId = s.nextId ∧ Others e.name s (s.addRte e.eid pid) := by
    unfold addRte
    split
    · exact ⟨rfl, rfl, rfl, Others.refl _ _⟩
    · split
      · exact ⟨rfl, rfl, rfl, Others.refl _ _⟩
      · refine ⟨?_, rfl, rfl, ?_⟩
        · exact tcore_modEntry (s.modObj pid _) e.eid _ (fun _ => rfl)
        · refine others_modEntry (s := s.modObj pid (fun o => { o with use := o.use + 1 })) ?_
          intro x hx hxe
          have := huniq x hx hxe
          subst this
          exact ⟨rfl, rfl⟩
  generalize s.addRte e.eid pid = s1 at a ⊢
  obtain ⟨a1, a2, a3, a4⟩ := a
  have hd1 : (s1.table.map (·.eid)).Nodup := by rw [tcore_eids a1]; exact hd
  have b : tcore (s1.regen e.eid) = tcore s1 ∧ (s1.regen e.eid).out = s1.out ∧
      (s1.regen e.eid).nextId = s1.nextId ∧ Others e.name s1 (s1.regen e.eid) := by
    refine ⟨tcore_modEntry _ _ _ (fun _ => rfl), rfl, rfl, others_modEntry ?_⟩
    intro x hx hxe
    obtain ⟨x0, h0, h1, h2, -⟩ := tcore_mem a1 hx
    have := huniq x0 h0 (h1.trans hxe)
    subst this
    exact ⟨h2.symm, h2.symm⟩
  generalize s1.regen e.eid = s2 at b ⊢
  obtain ⟨b1, b2, b3, b4⟩ := b
  have c0 : tcore s2 = tcore s := b1.trans a1
  have hd2 : (s2.table.map (·.eid)).Nodup := by rw [tcore_eids c0]; exact hd
  obtain ⟨e', he', h1, h2, h3⟩ := tcore_mem c0.symm he
  have hent : s2.entry? e.eid = some e' := by
    rw [← h1]
    exact find_uniq hd2 he'
  have key : ∃ c v, (s2.tellFib e.eid e.name dest).out = s2.out ++ [c] ∧ (s2.tellFib e.eid e.name dest).table = s2.table ∧
      (s2.tellFib e.eid e.name dest).nextId = s2.nextId ∧ Tells c e.name e'.nhl v e'.flags := by
    unfold tellFib
    rw [hent]
    dsimp only
    split
    · refine ⟨_, _, fibUpdate_out _ _ _ _ _, (table_fibUpdate _ _ _ _ _).1, (table_fibUpdate _ _ _ _ _).2, Or.inr rfl⟩
    · rename_i hz
      refine ⟨.remove e.name, .fin 0, rfl, rfl, rfl, Or.inl ⟨?_, rfl⟩⟩
      cases hnh : e'.nhl with
      | nil => rfl
      | cons => rw [hnh] at hz; simp at hz
  obtain ⟨c, v, k1, k2, k3, k4⟩ := key
  generalize s2.tellFib e.eid e.name dest = s3 at k1 k2 k3 ⊢
  refine ⟨c, v, e', ?_, ?_, ?_, ?_, ?_, h2, h3, k4⟩
  · show s3.out = _
    rw [k1, b2, a2]
  · show s3.table.map _ = _
    rw [k2]; exact c0
  · show s3.nextId = _
    rw [k3, b3, a3]
  · intro x hx
    show x ∈ s3.table ↔ _
    rw [k2]
    exact (b4 x hx).trans (a4 x hx)
  · show e' ∈ s3.table
    rw [k2]; exact he'

/-- The flags an entry has after `addEntry`. -/
def flagsAfter (s : Npt) (name : Name) (fl : Nat) : Nat :=
  match s.byName name with
  | some e => if e.flags ≠ fl ∧ e.nhl.length = 0 then fl else e.flags
  | none => childInherit

theorem addEntry_flags {R : Name → Prop} {s : Npt} (h : Flagged R s) (name dest : Name) (fl : Nat) (hf : FlagOk R name fl) :
    Flagged R (s.addEntry name dest fl) ∧
    ∃ e ∈ (s.addEntry name dest fl).table, e.name = name ∧ e.flags = flagsAfter s name fl := by
  unfold addEntry
  have a : (s.ensurePool dest).1.table = s.table ∧ (s.ensurePool dest).1.out = s.out ∧
      s.nextId ≤ (s.ensurePool dest).1.nextId := by
    unfold ensurePool
    split
    · exact ⟨rfl, rfl, Nat.le_refl _⟩
    · exact ⟨rfl, rfl, Nat.le_succ _⟩
  generalize s.ensurePool dest = x1 at a ⊢
  obtain ⟨s1, pid⟩ := x1
  dsimp only at a ⊢
  have h1 : Flagged R s1 := h.same a.1 a.2.1 a.2.2
  have hfa : flagsAfter s name fl = flagsAfter s1 name fl := by unfold flagsAfter byName; rw [a.1]
  rw [hfa]
  clear hfa a h
  -- the entry
  have b : ∃ e ∈ (s1.ensureEntry name fl).1.table, e.eid = (s1.ensureEntry name fl).2 ∧ e.name = name ∧
      e.flags = flagsAfter s1 name fl ∧ (s1.ensureEntry name fl).1.out = s1.out ∧
      Others name s1 (s1.ensureEntry name fl).1 ∧ ((s1.ensureEntry name fl).1.table.map (·.eid)).Nodup ∧
      ((s1.ensureEntry name fl).1.table.map (·.name)).Nodup ∧
      ∀ e ∈ (s1.ensureEntry name fl).1.table, e.eid < (s1.ensureEntry name fl).1.nextId := by
    unfold ensureEntry flagsAfter
    cases hb : s1.byName name with
    | some w =>
      obtain ⟨hw, hwn⟩ := find_byName hb
      dsimp only
      split
      · refine ⟨{ w with flags := fl }, mem_modEntry.2 ⟨w, hw, by rw [if_pos (by simp)]⟩, rfl, hwn, rfl, rfl, ?_, ?_, ?_, ?_⟩
        · refine others_modEntry ?_
          intro x hx hxe
          have := Lsdb.nodup_inj h1.eids hx hw hxe
          subst this
          exact ⟨hwn, hwn⟩
        · rw [modEntry_eids]
          · exact h1.eids
          · exact fun _ => rfl
        · rw [modEntry_names]
          · exact h1.names
          · exact fun _ => rfl
        · intro x hx
          obtain ⟨y, hy, e⟩ := mem_modEntry.1 hx
          have : x.eid = y.eid := by rw [e]; split <;> rfl
          rw [this]
          exact h1.lt y hy
      · exact ⟨w, hw, rfl, hwn, rfl, rfl, Others.refl _ _, h1.eids, h1.names, h1.lt⟩
    | none =>
      have hno := byName_none hb
      refine ⟨⟨s1.nextId, name, childInherit, [], []⟩, List.mem_append_right _ List.mem_cons_self, rfl, rfl, rfl, rfl, ?_, ?_, ?_, ?_⟩
      · intro x hx
        show x ∈ s1.table ++ _ ↔ _
        rw [List.mem_append, List.mem_singleton]
        constructor
        · rintro (h | rfl)
          · exact h
          · exact absurd rfl hx
        · exact Or.inl
      · show ((s1.table ++ [(⟨s1.nextId, name, childInherit, [], []⟩ : NptEntry)]).map (·.eid)).Nodup
        rw [List.map_append, List.nodup_append]
        refine ⟨h1.eids, by simp, ?_⟩
        intro x hx y hy
        obtain ⟨e, he, rfl⟩ := List.mem_map.1 hx
        have hy : y = s1.nextId := by simpa using hy
        have := h1.lt e he
        omega
      · show ((s1.table ++ [(⟨s1.nextId, name, childInherit, [], []⟩ : NptEntry)]).map (·.name)).Nodup
        rw [List.map_append, List.nodup_append]
        refine ⟨h1.names, by simp, ?_⟩
        intro x hx y hy
        obtain ⟨e, he, rfl⟩ := List.mem_map.1 hx
        have hy : y = name := by simpa using hy
        rw [hy]
        exact hno e he
      · intro x hx
        rcases List.mem_append.1 hx with hx | hx
        · exact Nat.lt_succ_of_lt (h1.lt x hx)
        · rw [List.mem_singleton.1 hx]; exact Nat.lt_succ_self _
  generalize s1.ensureEntry name fl = x2 at b ⊢
  obtain ⟨s2, eid⟩ := x2
  dsimp only at b ⊢
  obtain ⟨e, he, rfl, rfl, hfl, hout, hoth, hde, hdn, hlt⟩ := b
  obtain ⟨c, v, e', t1, t2, t3, t4, t5, t6, t7, t8⟩ := tellEntry he hde pid dest
  generalize (((s2.addRte e.eid pid).regen e.eid).tellFib e.eid e.name dest).backRef pid e.name e.eid = s3 at t1 t2 t3 t4 t5 ⊢
  refine ⟨?_, e', t5, t6, t7.trans hfl⟩
  refine h1.tell (c := c) (name := e.name) ?_ ?_ ?_ (by rw [t1, hout]) ?_ (Or.inr ⟨e', t5, t6, ?_, ⟨v, t8⟩, ?_⟩)
  · rw [tcore_eids t2]; exact hde
  · rw [tcore_names t2]; exact hdn
  · intro x hx
    obtain ⟨y, hy, h2, -⟩ := tcore_mem t2 hx
    rw [← h2, t3]
    exact hlt y hy
  · exact hoth.trans t4
  · rw [t7, hfl]
    unfold flagsAfter
    split
    · rename_i w hw
      obtain ⟨hw1, hw2⟩ := find_byName hw
      split
      · exact hf
      · rw [← hw2]; exact h1.table w hw1
    · exact Or.inl rfl
  · intro hc
    obtain ⟨w, hw, hwn, hwf, hwh⟩ := h1.hot _ hc
    rw [t7, hfl]
    unfold flagsAfter
    have hb : s1.byName e.name = some w := by
      cases hb : s1.byName e.name with
      | none => exact absurd hwn (byName_none hb w hw)
      | some w' =>
        obtain ⟨h2, h3⟩ := find_byName hb
        rw [Lsdb.nodup_inj h1.names h2 hw (h3.trans hwn.symm)]
    rw [hb]
    dsimp only
    rw [if_neg]
    · exact hwf
    · rintro ⟨-, hz⟩
      exact hwh (List.length_eq_zero_iff.1 hz)

theorem removeEntry_flags {R : Name → Prop} {s : Npt} (h : Flagged R s) (name dest : Name) : Flagged R (s.removeEntry name dest) := by
  unfold removeEntry
  split
  · exact h
  · rename_i o ho
    split
    · exact h
    · rename_i e hb
      obtain ⟨he, rfl⟩ := find_byName hb
      have a : tcore (s.removeRte e o.pid) = tcore s ∧ (s.removeRte e o.pid).out = s.out ∧
          (s.removeRte e o.pid).nextId = s.nextId ∧ Others e.name s (s.removeRte e o.pid) := by
        unfold removeRte
        split
        · refine ⟨?_, rfl, rfl, ?_⟩
          · exact tcore_modEntry (s.modObj o.pid _) e.eid _ (fun _ => rfl)
          · refine others_modEntry (s := s.modObj o.pid
              (fun o => { o with use := o.use - 1, names := o.names.filter (fun p => !(p.1 == e.name)) })) ?_
            intro x hx hxe
            have := Lsdb.nodup_inj h.eids hx he hxe
            subst this
            exact ⟨rfl, rfl⟩
        · exact ⟨rfl, rfl, rfl, Others.refl _ _⟩
      generalize s.removeRte e o.pid = s1 at a ⊢
      obtain ⟨a1, a2, a3, a4⟩ := a
      have b : (s1.dropUnused o.pid).table = s1.table ∧ (s1.dropUnused o.pid).out = s1.out ∧
          (s1.dropUnused o.pid).nextId = s1.nextId := by
        unfold dropUnused
        split <;> exact ⟨rfl, rfl, rfl⟩
      generalize s1.dropUnused o.pid = s2 at b ⊢
      obtain ⟨b1, b2, b3⟩ := b
      have c0 : tcore s2 = tcore s := by
        rw [← a1]; unfold tcore; rw [b1]
      have hoth : Others e.name s s2 := fun x hx => by rw [b1]; exact a4 x hx
      have hde : (s2.table.map (·.eid)).Nodup := by rw [tcore_eids c0]; exact h.eids
      have hdn : (s2.table.map (·.name)).Nodup := by rw [tcore_names c0]; exact h.names
      have hlt : ∀ x ∈ s2.table, x.eid < s2.nextId := by
        intro x hx
        obtain ⟨y, hy, h2, -⟩ := tcore_mem c0 hx
        rw [← h2, b3, a3]
        exact h.lt y hy
      obtain ⟨e', he', h1, h2, h3⟩ := tcore_mem c0.symm he
      have hent : s2.entry? e.eid = some e' := by
        rw [← h1]; exact find_uniq hde he'
      unfold finishRemove
      rw [hent]
      dsimp only
      split
      · refine h.tell (c := .remove e.name) (name := e.name) ?_ ?_ ?_ ?_ ?_ (Or.inl ⟨rfl, ?_⟩)
        · exact (List.Sublist.map _ List.filter_sublist).nodup hde
        · exact (List.Sublist.map _ List.filter_sublist).nodup hdn
        · intro x hx
          exact hlt x (List.mem_filter.1 hx).1
        · show s2.out ++ _ = _
          rw [b2, a2]
        · intro x hx
          refine Iff.trans ?_ (hoth x hx)
          show x ∈ s2.table.filter _ ↔ _
          rw [List.mem_filter]
          refine ⟨fun h => h.1, fun hm => ⟨hm, ?_⟩⟩
          simp only [Bool.not_eq_true', beq_eq_false_iff_ne]
          intro hxe
          have := Lsdb.nodup_inj hde hm he' (hxe.trans h1.symm)
          subst this
          exact hx h2
        · intro x hx hxn
          have hx : x ∈ s2.table.filter (fun x => !(x.eid == e.eid)) := hx
          rw [List.mem_filter] at hx
          have := Lsdb.nodup_inj hdn hx.1 he' (hxn.trans h2.symm)
          subst this
          have := hx.2
          simp [h1] at this
      · have hr : tcore (s2.regen e.eid) = tcore s2 := tcore_modEntry _ _ _ (fun _ => rfl)
        have hro : Others e.name s2 (s2.regen e.eid) := by
          refine others_modEntry ?_
          intro x hx hxe
          have := Lsdb.nodup_inj hde hx he' (hxe.trans h1.symm)
          subst this
          exact ⟨h2, h2⟩
        have hmem : ({ e' with nhl := s2.merge e'.rtes } : NptEntry) ∈ (s2.regen e.eid).table :=
          mem_modEntry.2 ⟨e', he', by rw [if_pos (by simp [h1])]⟩
        obtain ⟨t1, t2⟩ := table_fibUpdate (s2.regen e.eid) e.name dest (s2.merge e'.rtes) e'.flags
        refine h.tell (c := updCmd e.name (s2.merge e'.rtes) ((s2.regen e.eid).costValue (dest, e.name)) e'.flags)
          (name := e.name) ?_ ?_ ?_ ?_ ?_ (Or.inr ⟨{ e' with nhl := s2.merge e'.rtes }, ?_, h2, ?_, ⟨_, Or.inr rfl⟩, ?_⟩)
        · rw [t1, tcore_eids hr]; exact hde
        · rw [t1, tcore_names hr]; exact hdn
        · intro x hx
          rw [t1] at hx
          obtain ⟨y, hy, h4, -⟩ := tcore_mem hr hx
          rw [t2, ← h4]
          exact hlt y hy
        · rw [fibUpdate_out]
          show s2.out ++ _ = _
          rw [b2, a2]
        · intro x hx
          rw [t1]
          exact (hro x hx).trans (hoth x hx)
        · rw [t1]; exact hmem
        · show FlagOk R e.name e'.flags
          rw [h3]; exact h.table e he
        · intro hc
          obtain ⟨w, hw, hwn, hwf, -⟩ := h.hot _ hc
          have := Lsdb.nodup_inj h.names hw he hwn
          subst this
          show e'.flags = _
          rw [h3]; exact hwf

theorem readd_flags {R : Name → Prop} {s : Npt} (h : Flagged R s) (dest : Name) (r : Name × Nat) : Flagged R (s.readd dest r) := by
  unfold readd
  split
  · exact h.same rfl rfl (Nat.le_refl _)
  · rename_i e he
    exact (addEntry_flags h e.name dest e.flags (h.table e (find_entry he).1)).1

theorem readds_flags {R : Name → Prop} (dest : Name) : ∀ (l : List (Name × Nat)) {s : Npt}, Flagged R s →
    Flagged R (l.foldl (fun s r => s.readd dest r) s)
  | [], _, h => h
  | r :: l, _, h => readds_flags dest l (readd_flags h dest r)

theorem routes_flags {R : Name → Prop} {s : Npt} (h : Flagged R s) (t : RTable) : Flagged R (s.updateWithNewRoute t) := by
  have one : ∀ {s : Npt} (pid : Nat), Flagged R s → Flagged R (s.refreshObj pid) := by
    intro s pid h
    unfold refreshObj
    split
    · exact h
    · split
      · split
        · exact h
        · exact readds_flags _ _ (h.same rfl rfl (Nat.le_refl _))
      · exact readds_flags _ _ (h.same rfl rfl (Nat.le_refl _))
  have all : ∀ (l : List Nat) {s : Npt}, Flagged R s → Flagged R (l.foldl refreshObj s) := by
    intro l
    induction l with
    | nil => exact fun h => h
    | cons x l ih => exact fun h => ih (one x h)
  exact all _ (h.same rfl rfl (Nat.le_refl _))

theorem advertises_flags {R : Name → Prop} (own r : Name) : ∀ (l : List PrefixInfo) {s : Npt}, Flagged R s →
    Flagged R (l.foldl (advertise own r) s)
  | [], _, h => h
  | p :: l, s, h => by
    refine advertises_flags own r l ?_
    unfold advertise
    split
    · exact h
    · refine (addEntry_flags (h.same ?_ ?_ ?_) _ _ _ (Or.inl rfl)).1 <;> first | rfl | exact Nat.le_refl _

theorem withdraws_flags {R : Name → Prop} (own r : Name) : ∀ (l : List Name) {s : Npt}, Flagged R s →
    Flagged R (l.foldl (withdraw own r) s)
  | [], _, h => h
  | p :: l, s, h => by
    refine withdraws_flags own r l ?_
    unfold withdraw
    split
    · exact h
    · refine removeEntry_flags (h.same ?_ ?_ ?_) _ _ <;> unfold eraseCost <;> split <;> first | rfl | exact Nat.le_refl _

theorem signal_flags {R : Name → Prop} {s : Npt} (h : Flagged R s) (own : Name) (k : ModKind) (l : Lsa)
    (adds removes : List PrefixInfo) (hR : k = .installed → own ≠ l.origin → R l.origin) :
    Flagged R (updateFromLsdb own s k l adds removes) := by
  unfold updateFromLsdb
  split
  · exact h
  · rename_i ho
    cases k with
    | installed => exact advertises_flags _ _ _ (addEntry_flags h _ _ _ (Or.inr ⟨rfl, hR rfl ho⟩)).1
    | updated =>
      dsimp only
      split
      · exact withdraws_flags _ _ _ (advertises_flags _ _ _ h)
      · exact h
    | removed => exact withdraws_flags _ _ _ (removeEntry_flags h _ _)

end Npt

/-- An LSA of another router, `n`, was installed. -/
def Known (own : Name) (log : List Out) (n : Name) : Prop :=
  n ≠ own ∧ ∃ l a b, Out.signal .installed l a b ∈ log ∧ l.origin = n

theorem kept_flagged (c : CConf) : Core.Kept c (fun _ => True) (fun log _ n => Npt.Flagged (Known c.router log) n) where
  vs := by
    intro log v v' n outs h t
    have h : Npt.Flagged (Known c.router (log ++ outs)) n :=
      h.mono fun n ⟨h1, l, a, b, h2, h3⟩ => ⟨h1, l, a, b, List.mem_append_left _ h2, h3⟩
    cases t with
    | quiet _ hq => rw [feed_quiet hq]; exact h
    | installed l hv hn =>
      exact signal_flags h c.router .installed l [] [] fun _ ho => ⟨fun e => ho e.symm, l, [], [], by simp, rfl⟩
    | updated l x hv ho ht hn hu => exact signal_flags h c.router .updated l _ _ (by simp)
    | removed l hv hn => exact signal_flags h c.router .removed l [] [] (by simp)
  routes t _ h := routes_flags h t
  rehash objs h := by
    show Npt.Flagged _ (if _ then _ else _)
    split
    · exact h.same rfl rfl (Nat.le_refl _)
    · exact h
  rehashNames pid names h := h.same rfl rfl (Nat.le_refl _)

theorem flagged_reachable {c : CConf} {s : Core} (h : Core.Reachable c s) :
    Npt.Flagged (Known c.router s.lsdb.log) s.npt :=
  (kept_flagged c).reachable (Core.tables_all c)
    (fun _ _ _ _ => ⟨by simp, by simp, by nofun, by nofun, by nofun, by
      rintro n ⟨pre, h, post, e, -⟩
      simp at e, by
      intro n pre h mid h' post e
      simp at e⟩) h

/-- Routes are handed to the FIB with the child-inherit flag, or with the capture flag if the prefix is the name of a
router of which an LSA was installed. -/
theorem C88_flags {c : CConf} {s : Core} (h : Core.Reachable c s) (n : Name) (l : NexthopList) (f : Nat)
    (hm : .update n l f ∈ s.npt.out) :
    f = childInherit ∨ (f = capture ∧ n ≠ c.router ∧ ∃ l a b, Out.signal .installed l a b ∈ s.lsdb.log ∧ l.origin = n) :=
  (flagged_reachable h).out n l f hm

/-- The capture flag is not taken back while the prefix has routes: between routes with this flag and later ones with
the child-inherit flag the prefix is cleared. -/
theorem C88_not_downgraded {c : CConf} {s : Core} (h : Core.Reachable c s) (n : Name) (pre mid post : List FibCmd)
    (l l' : NexthopList)
    (ho : s.npt.out = pre ++ .update n l capture :: (mid ++ .update n l' childInherit :: post)) (hl : l ≠ []) :
    .remove n ∈ mid ∨ ∃ f, .update n [] f ∈ mid := by
  obtain ⟨x, hx, rfl | ⟨f, rfl⟩⟩ := (flagged_reachable h).steady n pre l mid l' post ho hl
  · exact Or.inl hx
  · exact Or.inr ⟨f, hx⟩

/-- The flags of an entry with next hops are those of the last routes handed to the FIB. -/
theorem C88_told {c : CConf} {s : Core} (h : Core.Reachable c s) (e : NptEntry) (he : e ∈ s.npt.table) (hn : e.nhl ≠ []) :
    (∃ l, lastCmd s.npt.out e.name = some (.update e.name l e.flags)) ∨
    lastCmd s.npt.out e.name = some (.updateBad e.name) := by
  obtain ⟨x, v, h1, h2⟩ := h.follows.fresh.heard.entry e he
  rcases h2 with ⟨h2, -⟩ | rfl
  · exact absurd h2 hn
  · unfold updCmd at h1
    split at h1
    · exact Or.inl ⟨_, h1⟩
    · split at h1
      · exact Or.inl ⟨_, h1⟩
      · exact Or.inr h1

theorem captured_advertises {own r : Name} {x : Name} : ∀ (l : List PrefixInfo) {s : Npt}, Fresh s → (∀ p ∈ l, p.name ≠ x) →
    (∃ e ∈ s.table, e.name = x ∧ e.flags = capture) →
    ∃ e ∈ (l.foldl (advertise own r) s).table, e.name = x ∧ e.flags = capture
  | [], _, _, _, h => h
  | p :: l, s, hs, hl, h => by
    rw [List.foldl_cons]
    have hp := hl p (by simp)
    by_cases ho : p.name = own
    · rw [advertise_own ho]
      exact captured_advertises l hs (fun q hq => hl q (by simp [hq])) h
    · have hs1 : Fresh ((s.setCost (r, p.name) p.cost).addEntry p.name r childInherit) := (hs.setCost _ _).addEntry _ _ _
      rw [advertise_other ho]
      refine captured_advertises l hs1 (fun q hq => hl q (by simp [hq])) ?_
      obtain ⟨e, he, h1, h2⟩ := h
      refine ⟨e, ((addEntry_table (hs.setCost (r, p.name) p.cost).inv p.name r childInherit).1 e ?_).2 he, h1, h2⟩
      rw [h1]; exact fun hc => hp hc.symm

/-- The name of a router gets the capture flag if one of its LSAs is installed when the name is in the table already
and has no next hops, and the LSA does not advertise that name as a prefix.  (Missing: the other cases, see
`C88_violated`.) -/
theorem C88_capture_partial {c : CConf} {s : Core} (h : Core.Reachable c s) (l : Lsa) (hl : l.origin ≠ c.router)
    (he : ∃ e ∈ s.npt.table, e.name = l.origin ∧ e.nhl = []) (hn : ∀ p ∈ lsaNames l, p.name ≠ l.origin) :
    ∃ e ∈ (updateFromLsdb c.router s.npt .installed l [] []).table, e.name = l.origin ∧ e.flags = capture := by
  unfold updateFromLsdb
  rw [if_neg (fun e => hl e.symm)]
  dsimp only
  refine captured_advertises _ (h.follows.fresh.addEntry _ _ _) hn ?_
  obtain ⟨e, he, h1, h2⟩ := he
  have hf := flagged_reachable h
  obtain ⟨e', he', h3, h4⟩ := (addEntry_flags (hf.mono (R' := fun _ => True) fun _ _ => trivial) l.origin l.origin capture
    (Or.inr ⟨rfl, trivial⟩)).2
  refine ⟨e', he', h3, ?_⟩
  rw [h4]
  unfold flagsAfter
  have hb : s.npt.byName l.origin = some e := by
    cases hb : s.npt.byName l.origin with
    | none => exact absurd h1 (byName_none hb e he)
    | some w =>
      obtain ⟨a, b⟩ := find_byName hb
      rw [Lsdb.nodup_inj hf.names a he (b.trans h1.symm)]
  rw [hb]
  dsimp only
  split
  · rfl
  · rename_i hc
    refine Classical.byContradiction fun hne => hc ⟨hne, by rw [h2]; rfl⟩

/-- Adjacency LSA and Name LSA of r2 before the first calculation. -/
def exEarly : List Core.Op :=
  [.lsdb .scheduleBuild, exWait, .lsdb .buildTimer] ++
  exGet "r2" "ADJACENCY" exR2 1 (.adj [exAdj exR1 "udp4://10.0.0.1"]) ++
  exGet "r2" "NAME" exR2 1 (.names [⟨nm ["p"], .fin 5⟩]) ++ [exWait, .calcTimer 0 []]

/-- Non-vacuity: r2 gets the capture flag, its prefix the child-inherit flag. -/
example : lastCmd (exRun .off exEarly).npt.out exR2 = some (.update exR2 [⟨"udp4://10.0.0.2", 10, false⟩] capture) ∧
    lastCmd (exRun .off exEarly).npt.out (nm ["p"]) = some (.update (nm ["p"]) [⟨"udp4://10.0.0.2", 15, false⟩] childInherit) := by
  decide +kernel

/-- Then the LSAs of r2 expire, and its Adjacency LSA comes again. -/
def exLater : List Core.Op :=
  exEarly ++ [.lsdb (.clock (3700 * Lsdb.nsPerSec) 3700000000000)] ++ (List.range 20).map (fun i => .lsdb (.timer i)) ++
  exGet "r2" "ADJACENCY" exR2 2 (.adj [exAdj exR1 "udp4://10.0.0.1"]) ++ [exWait, .calcTimer 0 []]

/-- Non-vacuity of `C88_not_downgraded`: the capture flag is gone, but the prefix was cleared before. -/
example : (exRun .off exLater).npt.out.filter (fun c => cmdName c == exR2) =
    [.remove exR2, .remove exR2, .update exR2 [⟨"udp4://10.0.0.2", 10, false⟩] capture, .remove exR2,
     .update exR2 [⟨"udp4://10.0.0.2", 10, false⟩] childInherit] := by
  decide +kernel

/-- Non-vacuity of `C88_capture_partial`: after the first LSA of r2 its name is in the table, without next hops. -/
example : ∃ e ∈ (exRun .off (exEarly.take 5)).npt.table, e.name = exR2 ∧ e.nhl = [] := by decide +kernel

/-- A name that is new in the table gets the child-inherit flag whatever flag was asked for (line 175), and keeps it as
long as it has next hops.  So if routes are calculated before the second LSA of a router comes, the routes to the router
never get the capture flag that they are meant to have: here r2's Adjacency LSA came first, then the calculation, then
its Name LSA. -/
theorem C88_violated : ∃ s, Core.Reachable (exCore .off) s ∧
    (∃ o ∈ s.lsdb.db, o.lsa.origin = exR2 ∧ o.lsa.type = .adjacency) ∧ (∃ o ∈ s.lsdb.db, o.lsa.origin = exR2 ∧ o.lsa.type = .name) ∧
    lastCmd s.npt.out exR2 = some (.update exR2 [⟨"udp4://10.0.0.2", 10, false⟩] childInherit) ∧
    ∀ l, .update exR2 l capture ∉ s.npt.out := by
  refine ⟨exRun .off exOne, exRun_reachable _ _, by decide +kernel, by decide +kernel, by decide +kernel, ?_⟩
  have h : (exRun .off exOne).npt.out.all (fun c => match c with | .update _ _ f => f == childInherit | _ => true) = true := by
    decide +kernel
  intro l hm
  have := List.all_eq_true.1 h _ hm
  simp [childInherit, capture] at this

end Nlsr
