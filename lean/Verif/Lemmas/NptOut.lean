import Verif.Lemmas.NptRun
/- The last FIB command for each prefix, and updates with new routes. -/
namespace Nlsr
namespace Npt
open Lsdb (nodup_inj nodup_of_map nodup_map_of)

def cmdName : FibCmd → Name
  | .update n _ _ => n
  | .remove n => n
  | .updateBad n => n

/-- The last command sent for a prefix. -/
def lastCmd (out : List FibCmd) (p : Name) : Option FibCmd := (out.filter (fun c => cmdName c == p)).getLast?

theorem lastCmd_snoc (out : List FibCmd) (c : FibCmd) (p : Name) :
    lastCmd (out ++ [c]) p = if cmdName c = p then some c else lastCmd out p := by
  unfold lastCmd
  rw [List.filter_append]
  by_cases h : cmdName c = p
  · simp [h]
  · simp [h]

/-- The call made by `fibUpdate`. -/
def updCmd (name : Name) (l : NexthopList) (v : Ext Rat) (fl : Nat) : FibCmd :=
  if l.isEmpty then .update name [] fl
  else match adjusted v l with
    | some l => .update name l fl
    | none => .updateBad name

/-- A command that leaves the FIB with the hops `l`, each `v` more expensive. -/
def Tells (c : FibCmd) (name : Name) (l : NexthopList) (v : Ext Rat) (fl : Nat) : Prop :=
  (l = [] ∧ c = .remove name) ∨ c = updCmd name l v fl

theorem cmdName_updCmd (name : Name) (l : NexthopList) (v : Ext Rat) (fl : Nat) : cmdName (updCmd name l v fl) = name := by
  unfold updCmd
  split
  · rfl
  · split <;> rfl

theorem Tells.name {c : FibCmd} {name : Name} {l : NexthopList} {v : Ext Rat} {fl : Nat} (h : Tells c name l v fl) :
    cmdName c = name := by
  rcases h with ⟨-, rfl⟩ | rfl
  · rfl
  · exact cmdName_updCmd _ _ _ _

theorem touch_out (s : Npt) (k : Name × Name) : (s.touchCost k).out = s.out := by
  unfold touchCost; split <;> rfl

theorem fibUpdate_out (s : Npt) (name dest : Name) (l : NexthopList) (fl : Nat) :
    (s.fibUpdate name dest l fl).out = s.out ++ [updCmd name l (s.costValue (dest, name)) fl] := by
  unfold fibUpdate updCmd
  split
  · rfl
  · cases h : adjusted (s.costValue (dest, name)) l with
    | some l' =>
      show (s.touchCost _).out ++ _ = _
      rw [touch_out]
    | none =>
      show (s.touchCost _).out ++ _ = _
      rw [touch_out]

/-- The last command for `p` reflects its next hops and the cost `v`. -/
def LastOk (s : Npt) (p : Name) (v : Ext Rat) : Prop :=
  ∀ e ∈ s.table, e.name = p → ∃ c, lastCmd s.out p = some c ∧ Tells c p e.nhl v e.flags

/-- The FIB was told of every prefix: the hops of those with an entry, with some cost, and that the others are gone. -/
structure Heard (s : Npt) : Prop where
  entry : ∀ e ∈ s.table, ∃ c v, lastCmd s.out e.name = some c ∧ Tells c e.name e.nhl v e.flags
  gone : ∀ p, (∀ e ∈ s.table, e.name ≠ p) → lastCmd s.out p = none ∨ lastCmd s.out p = some (.remove p)

theorem Heard.same {s s' : Npt} (h : Heard s) (ht : s'.table = s.table) (ho : s'.out = s.out) : Heard s' :=
  ⟨by rw [ht, ho]; exact h.entry, by rw [ht, ho]; exact h.gone⟩

/-- Entries with other names are the same. -/
def Others (name : Name) (s s' : Npt) : Prop := ∀ e, e.name ≠ name → (e ∈ s'.table ↔ e ∈ s.table)

theorem Others.refl (name : Name) (s : Npt) : Others name s s := fun _ _ => Iff.rfl

theorem Others.trans {name : Name} {a b c : Npt} (h : Others name a b) (h' : Others name b c) : Others name a c :=
  fun e he => (h' e he).trans (h e he)

theorem others_of {name : Name} {s s' : Npt} (h : s'.table = s.table) : Others name s s' := fun e _ => by rw [h]

theorem others_modEntry {s : Npt} {name : Name} {eid : Nat} {f : NptEntry → NptEntry}
    (h : ∀ e ∈ s.table, e.eid = eid → e.name = name ∧ (f e).name = name) : Others name s (s.modEntry eid f) := by
  intro e hne
  rw [mem_modEntry]
  constructor
  · rintro ⟨x, hx, he⟩
    split at he
    · rename_i hx'
      rw [he] at hne
      exact absurd (h x hx (by simpa using hx')).2 hne
    · rw [he]; exact hx
  · intro he
    refine ⟨e, he, ?_⟩
    rw [if_neg]
    intro hc
    exact hne (h e he (by simpa using hc)).1

theorem addEntry_table {s : Npt} (hi : Inv s) (name dest : Name) (fl : Nat) :
    Others name s (s.addEntry name dest fl) ∧
    (∀ e ∈ s.table, ∃ e' ∈ (s.addEntry name dest fl).table, e'.eid = e.eid ∧ e'.name = e.name) ∧
    (∀ p v, p ≠ name → LastOk s p v → LastOk (s.addEntry name dest fl) p v) ∧
    LastOk (s.addEntry name dest fl) name (s.costValue (dest, name)) := by
  obtain ⟨i1, -, o, ho, hop, hol, hod⟩ := ensurePool_spec hi dest
  have k0 : (s.ensurePool dest).1.table = s.table ∧ (s.ensurePool dest).1.out = s.out ∧
      (s.ensurePool dest).1.costs = s.costs := by
    unfold ensurePool; split <;> exact ⟨rfl, rfl, rfl⟩
  unfold addEntry
  generalize s.ensurePool dest = x1 at *
  obtain ⟨s1, pid⟩ := x1
  dsimp only at i1 ho hop k0 ⊢
  obtain ⟨i2, -, g3, e, he, hee, hen⟩ := ensureEntry_spec i1 name fl
  have k1 : Others name s1 (s1.ensureEntry name fl).1 ∧ (s1.ensureEntry name fl).1.out = s1.out ∧
      (s1.ensureEntry name fl).1.costs = s1.costs ∧
      (∀ e ∈ s1.table, ∃ e' ∈ (s1.ensureEntry name fl).1.table, e'.eid = e.eid ∧ e'.name = e.name) := by
    unfold ensureEntry
    split
    · rename_i w hw
      obtain ⟨hw1, hw2⟩ := find_byName hw
      dsimp only
      split
      · refine ⟨others_modEntry ?_, rfl, rfl, ?_⟩
        · intro x hx hxe
          have := i1.entryUniq hx hw1 hxe
          subst this
          exact ⟨hw2, hw2⟩
        · intro x hx
          refine ⟨_, mem_modEntry.2 ⟨x, hx, rfl⟩, ?_⟩
          split <;> exact ⟨rfl, rfl⟩
      · exact ⟨Others.refl _ _, rfl, rfl, fun x hx => ⟨x, hx, rfl, rfl⟩⟩
    · refine ⟨?_, rfl, rfl, fun x hx => ⟨x, List.mem_append_left _ hx, rfl, rfl⟩⟩
      intro x hx
      show x ∈ s1.table ++ [_] ↔ _
      rw [List.mem_append, List.mem_singleton]
      constructor
      · rintro (h | rfl)
        · exact h
        · exact absurd rfl hx
      · exact Or.inl
  generalize s1.ensureEntry name fl = x2 at *
  obtain ⟨s2, eid⟩ := x2
  dsimp only at i2 g3 he hee k1 ⊢
  subst hop
  subst hee
  obtain ⟨i3, -, e', he', k3, k4, k5⟩ := addRte_spec i2 he (g3 ▸ ho) hol
  have k2 : Others name s2 (s2.addRte e.eid o.pid) ∧ (s2.addRte e.eid o.pid).out = s2.out ∧
      (s2.addRte e.eid o.pid).costs = s2.costs ∧
      (∀ x ∈ s2.table, ∃ y ∈ (s2.addRte e.eid o.pid).table, y.eid = x.eid ∧ y.name = x.name) := by
    unfold addRte
    rw [i2.entry he]
    dsimp only
    split
    · exact ⟨Others.refl _ _, rfl, rfl, fun x hx => ⟨x, hx, rfl, rfl⟩⟩
    · refine ⟨?_, rfl, rfl, ?_⟩
      · refine Others.trans (b := s2.modObj o.pid (fun o => { o with use := o.use + 1 })) (others_of rfl) (others_modEntry ?_)
        intro x hx hxe
        have := i2.entryUniq hx he hxe
        subst this
        exact ⟨hen, hen⟩
      · intro x hx
        refine ⟨_, mem_modEntry.2 ⟨x, hx, rfl⟩, ?_⟩
        split <;> exact ⟨rfl, rfl⟩
  generalize s2.addRte e.eid o.pid = s3 at *
  have hen' : e'.name = name := k4.trans hen
  have k6 : Others name s3 (s3.regen e.eid) ∧ (s3.regen e.eid).out = s3.out ∧ (s3.regen e.eid).costs = s3.costs ∧
      (∀ x ∈ s3.table, ∃ y ∈ (s3.regen e.eid).table, y.eid = x.eid ∧ y.name = x.name) := by
    refine ⟨others_modEntry ?_, rfl, rfl, ?_⟩
    · intro x hx hxe
      have := i3.entryUniq hx he' (hxe.trans k3.symm)
      subst this
      exact ⟨hen', hen'⟩
    · intro x hx
      refine ⟨_, mem_modEntry.2 ⟨x, hx, rfl⟩, ?_⟩
      split <;> exact ⟨rfl, rfl⟩
  have i4 : InvX (s3.regen e.eid) none none (some (o.pid, e.eid)) := (shape_regen s3 e.eid).inv i3
  have he4 : ∃ y ∈ (s3.regen e.eid).table, y.eid = e.eid ∧ y.name = name := by
    obtain ⟨y, hy, h1, h2⟩ := k6.2.2.2 e' he'
    exact ⟨y, hy, h1.trans k3, h2.trans hen'⟩
  generalize s3.regen e.eid = s4 at *
  obtain ⟨y, hy, hye, hyn⟩ := he4
  have ht := told_tellFib s4 e.eid name dest
  have hcost : s4.costs = s.costs := k6.2.2.1.trans (k2.2.2.1.trans (k1.2.2.1.trans k0.2.2))
  have hval : s4.costValue (dest, name) = s.costValue (dest, name) := by unfold costValue costOf; rw [hcost]
  have hout : ∃ c, (s4.tellFib e.eid name dest).out = s4.out ++ [c] ∧
      Tells c name y.nhl (s.costValue (dest, name)) y.flags := by
    unfold tellFib
    rw [← hye, i4.entry hy]
    dsimp only
    split
    · exact ⟨_, fibUpdate_out _ _ _ _ _, Or.inr (by rw [hval])⟩
    · rename_i h0
      refine ⟨_, rfl, Or.inl ⟨?_, rfl⟩⟩
      exact List.length_eq_zero_iff.1 (by omega)
  obtain ⟨c, hout, hc⟩ := hout
  have hs : s4.out = s.out := k6.2.1.trans (k2.2.1.trans (k1.2.1.trans k0.2.1))
  have htab : ((s4.tellFib e.eid name dest).backRef o.pid name e.eid).table = s4.table := ht.table
  have hout' : ((s4.tellFib e.eid name dest).backRef o.pid name e.eid).out = s.out ++ [c] := by
    rw [← hs]; exact hout
  generalize (s4.tellFib e.eid name dest).backRef o.pid name e.eid = s5 at *
  have hoth : Others name s s5 := by
    refine Others.trans (others_of k0.1) (k1.1.trans (k2.1.trans (k6.1.trans (others_of htab))))
  refine ⟨hoth, ?_, ?_, ?_⟩
  · intro x hx
    obtain ⟨x1, hx1, a1, b1⟩ := k1.2.2.2 x (k0.1 ▸ hx)
    obtain ⟨x2, hx2, a2, b2⟩ := k2.2.2.2 x1 hx1
    obtain ⟨x3, hx3, a3, b3⟩ := k6.2.2.2 x2 hx2
    exact ⟨x3, htab ▸ hx3, a3.trans (a2.trans a1), b3.trans (b2.trans b1)⟩
  · intro p v hp hl w hw hwn
    obtain ⟨c', h1, h2⟩ := hl w ((hoth w (by rw [hwn]; exact hp)).1 hw) hwn
    refine ⟨c', ?_, h2⟩
    rw [hout', lastCmd_snoc, if_neg (by rw [hc.name]; exact fun h => hp h.symm)]
    exact h1
  · intro w hw hwn
    rw [htab] at hw
    have : w = y := nodup_inj i4.tnames hw hy (hwn.trans hyn.symm)
    subst this
    refine ⟨c, ?_, hc⟩
    rw [hout', lastCmd_snoc, if_pos hc.name]

theorem removeEntry_table {s : Npt} (hi : Inv s) (name dest : Name) :
    Others name s (s.removeEntry name dest) ∧
    (∀ p v, p ≠ name → LastOk s p v → LastOk (s.removeEntry name dest) p v) ∧
    ((s.inPool dest).isSome → LastOk (s.removeEntry name dest) name (s.costValue (dest, name))) ∧
    (s.inPool dest = none → s.removeEntry name dest = s) := by
  unfold removeEntry
  cases hf : s.inPool dest with
  | none => exact ⟨Others.refl _ _, fun _ _ _ h => h, by simp, fun _ => rfl⟩
  | some o =>
    dsimp only
    cases hn : s.byName name with
    | none =>
      refine ⟨Others.refl _ _, fun _ _ _ h => h, ?_, by simp⟩
      intro _ e he hen
      exact absurd hen (byName_none hn e he)
    | some e =>
      dsimp only
      obtain ⟨ho, hl, hd⟩ := find_inPool hf
      obtain ⟨he, hen⟩ := find_byName hn
      obtain ⟨i1, -, ⟨e', he', h3, h4⟩, o', ho', h5, h6⟩ := removeRte_spec hi he ho hl
      have c1 : Others name s (s.removeRte e o.pid) ∧ (s.removeRte e o.pid).out = s.out ∧
          (s.removeRte e o.pid).costs = s.costs := by
        unfold removeRte
        split
        · refine ⟨?_, rfl, rfl⟩
          refine Others.trans (b := s.modObj o.pid (fun o => { o with use := o.use - 1, names := o.names.filter (fun p => !(p.1 == e.name)) }))
            (others_of rfl) (others_modEntry ?_)
          intro x hx hxe
          have := hi.entryUniq hx he hxe
          subst this
          exact ⟨hen, hen⟩
        · exact ⟨Others.refl _ _, rfl, rfl⟩
      obtain ⟨c1, c2, c3⟩ := c1
      generalize s.removeRte e o.pid = s1 at *
      rw [← h5] at i1 ⊢
      obtain ⟨i2, -, g3⟩ := dropUnused_spec i1 ho' h6
      have d1 : (s1.dropUnused o'.pid).out = s1.out ∧ (s1.dropUnused o'.pid).costs = s1.costs := by
        unfold dropUnused; split <;> exact ⟨rfl, rfl⟩
      generalize s1.dropUnused o'.pid = s2 at *
      rw [← h3] at i2 ⊢
      have he2 : e' ∈ s2.table := g3 ▸ he'
      have hen2 : e'.name = name := h4.trans hen
      have hval : s2.costValue (dest, name) = s.costValue (dest, name) := by
        unfold costValue costOf; rw [d1.2, c3]
      have hso : s2.out = s.out := d1.1.trans c2
      have key : ∀ s5 : Npt, Others name s2 s5 → ∀ c, s5.out = s2.out ++ [c] → cmdName c = name →
          Others name s s5 ∧ (∀ p v, p ≠ name → LastOk s p v → LastOk s5 p v) := by
        intro s5 h1 c h2 h3
        have hoth : Others name s s5 := c1.trans ((others_of g3).trans h1)
        refine ⟨hoth, ?_⟩
        intro p v hp hl w hw hwn
        obtain ⟨c', k1, k2⟩ := hl w ((hoth w (by rw [hwn]; exact hp)).1 hw) hwn
        refine ⟨c', ?_, k2⟩
        rw [h2, lastCmd_snoc, if_neg (by rw [h3]; exact fun h => hp h.symm), hso]
        exact k1
      unfold finishRemove
      rw [i2.entry he2]
      dsimp only
      split
      · obtain ⟨k1, k2⟩ := key ({ s2 with table := s2.table.filter (fun x => !(x.eid == e'.eid)) }.emit (.remove name))
          (by
            intro x hx
            show x ∈ s2.table.filter _ ↔ _
            rw [List.mem_filter]
            constructor
            · exact And.left
            · intro h
              refine ⟨h, ?_⟩
              have : x.eid ≠ e'.eid := fun hc => hx (by rw [i2.entryUniq h he2 hc, hen2])
              simpa using this) (.remove name) rfl rfl
        refine ⟨k1, k2, ?_, by simp⟩
        intro _ w hw hwn
        exfalso
        have : w ∈ s2.table ∧ w.eid ≠ e'.eid := by
          have : w ∈ s2.table.filter (fun x => !(x.eid == e'.eid)) := hw
          rw [List.mem_filter] at this
          simpa using this
        exact this.2 (by rw [nodup_inj i2.tnames this.1 he2 (hwn.trans hen2.symm)])
      · have ht := told_fibUpdate (s2.regen e'.eid) name dest (s2.merge e'.rtes) e'.flags
        have hout := fibUpdate_out (s2.regen e'.eid) name dest (s2.merge e'.rtes) e'.flags
        have hv : (s2.regen e'.eid).costValue (dest, name) = s.costValue (dest, name) := hval
        rw [hv] at hout
        have hreg : Others name s2 (s2.regen e'.eid) := by
          refine others_modEntry ?_
          intro x hx hxe
          have := i2.entryUniq hx he2 hxe
          subst this
          exact ⟨hen2, hen2⟩
        have hname := cmdName_updCmd name (s2.merge e'.rtes) (s.costValue (dest, name)) e'.flags
        obtain ⟨k1, k2⟩ := key _ (hreg.trans (others_of ht.table)) _ hout hname
        refine ⟨k1, k2, ?_, by simp⟩
        intro _ w hw hwn
        rw [ht.table] at hw
        obtain ⟨x, hx, hw'⟩ := mem_modEntry.1 hw
        have hxe : x = e' := by
          refine nodup_inj i2.tnames hx he2 ?_
          rw [hen2, ← hwn, hw']
          split <;> rfl
        subst hxe
        rw [if_pos (by simp)] at hw'
        refine ⟨_, by rw [hout, lastCmd_snoc, if_pos hname], Or.inr ?_⟩
        rw [hw']

theorem addEntry_out (s : Npt) (name dest : Name) (fl : Nat) (p : Name) (hp : p ≠ name) :
    lastCmd (s.addEntry name dest fl).out p = lastCmd s.out p := by
  unfold addEntry
  have k0 : (s.ensurePool dest).1.out = s.out := by unfold ensurePool; split <;> rfl
  generalize s.ensurePool dest = x1 at *
  obtain ⟨s1, pid⟩ := x1
  dsimp only at k0 ⊢
  have k1 : (s1.ensureEntry name fl).1.out = s1.out := by
    unfold ensureEntry
    split
    · dsimp only; split <;> rfl
    · rfl
  generalize s1.ensureEntry name fl = x2 at *
  obtain ⟨s2, eid⟩ := x2
  dsimp only at k1 ⊢
  have k2 : (s2.addRte eid pid).out = s2.out := by
    unfold addRte
    split
    · rfl
    · split <;> rfl
  rw [← k0, ← k1, ← k2]
  generalize s2.addRte eid pid = s3
  show lastCmd ((s3.regen eid).tellFib eid name dest).out p = lastCmd (s3.regen eid).out p
  generalize s3.regen eid = s4
  unfold tellFib
  split
  · rfl
  · split
    · rw [fibUpdate_out, lastCmd_snoc, if_neg]
      rw [cmdName_updCmd]; exact fun h => hp h.symm
    · show lastCmd (s4.out ++ [_]) p = _
      rw [lastCmd_snoc, if_neg]
      exact fun h => hp h.symm

theorem Heard.addEntry {s : Npt} (h : Heard s) (hi : Inv s) (name dest : Name) (fl : Nat) : Heard (s.addEntry name dest fl) := by
  obtain ⟨h1, h2, h3, h4⟩ := addEntry_table hi name dest fl
  have hex : ∃ e ∈ (s.addEntry name dest fl).table, e.name = name := by
    obtain ⟨e, he, hn, -⟩ := ((addEntry_spec hi name dest fl).2 name dest).2 (Or.inr ⟨rfl, rfl⟩)
    exact ⟨e, he, hn⟩
  refine ⟨fun e he => ?_, fun p hp => ?_⟩
  · by_cases hn : e.name = name
    · obtain ⟨c, a, b⟩ := h4 e he hn
      rw [hn]; exact ⟨c, _, a, b⟩
    · obtain ⟨c, v, a, b⟩ := h.entry e ((h1 e hn).1 he)
      exact ⟨c, v, (addEntry_out s name dest fl _ hn).trans a, b⟩
  · have hpn : p ≠ name := by
      rintro rfl
      obtain ⟨e, he, hn⟩ := hex
      exact hp e he hn
    rw [addEntry_out s name dest fl p hpn]
    refine h.gone p fun e he hn => ?_
    obtain ⟨e', he', -, hn'⟩ := h2 e he
    exact hp e' he' (hn'.trans hn)

theorem Heard.removeEntry {s : Npt} (h : Heard s) (hi : Inv s) (name dest : Name) : Heard (s.removeEntry name dest) := by
  obtain ⟨h1, -, h3, h4⟩ := removeEntry_table hi name dest
  have hout : (s.removeEntry name dest = s) ∨
      ∃ c, (s.removeEntry name dest).out = s.out ++ [c] ∧ cmdName c = name ∧
        ((∀ e ∈ (s.removeEntry name dest).table, e.name ≠ name) → c = .remove name) := by
    unfold Npt.removeEntry
    cases hf : s.inPool dest with
    | none => exact Or.inl rfl
    | some o =>
      dsimp only
      cases hn : s.byName name with
      | none => exact Or.inl rfl
      | some e =>
        dsimp only
        obtain ⟨ho, hl, hd⟩ := find_inPool hf
        obtain ⟨he, hen⟩ := find_byName hn
        obtain ⟨i1, -, ⟨e', he', h3, h4⟩, o', ho', h5, h6⟩ := removeRte_spec hi he ho hl
        have c2 : (s.removeRte e o.pid).out = s.out := by unfold removeRte; split <;> rfl
        generalize s.removeRte e o.pid = s1 at *
        rw [← h5] at i1 ⊢
        obtain ⟨i2, -, g3⟩ := dropUnused_spec i1 ho' h6
        have d1 : (s1.dropUnused o'.pid).out = s1.out := by unfold dropUnused; split <;> rfl
        generalize s1.dropUnused o'.pid = s2 at *
        rw [← h3] at i2 ⊢
        have he2 : e' ∈ s2.table := g3 ▸ he'
        have hen2 : e'.name = name := h4.trans hen
        right
        unfold finishRemove
        rw [i2.entry he2]
        dsimp only
        split
        · refine ⟨.remove name, ?_, rfl, fun _ => rfl⟩
          show s2.out ++ _ = _
          rw [d1, c2]
        · refine ⟨_, ?_, cmdName_updCmd name (s2.merge e'.rtes) ((s2.regen e'.eid).costValue (dest, name)) e'.flags, ?_⟩
          · rw [fibUpdate_out]
            show s2.out ++ _ = _
            rw [d1, c2]
          · intro hc
            exfalso
            have ht := (told_fibUpdate (s2.regen e'.eid) name dest (s2.merge e'.rtes) e'.flags).table
            rw [ht] at hc
            refine hc _ (mem_modEntry.2 ⟨e', he2, rfl⟩) ?_
            split <;> exact hen2
  rcases hout with e | ⟨c, ho, hc, hr⟩
  · rw [e]; exact h
  · have hpool : (s.inPool dest).isSome := by
      cases hf : s.inPool dest with
      | some o => rfl
      | none =>
        rw [h4 hf] at ho
        have := congrArg List.length ho
        rw [List.length_append] at this
        simp at this
    refine ⟨fun e he => ?_, fun p hp => ?_⟩
    · by_cases hn : e.name = name
      · obtain ⟨c, a, b⟩ := h3 hpool e he hn
        rw [hn]; exact ⟨c, _, a, b⟩
      · obtain ⟨c', v, a, b⟩ := h.entry e ((h1 e hn).1 he)
        refine ⟨c', v, ?_, b⟩
        rw [ho, lastCmd_snoc, if_neg (by rw [hc]; exact fun h => hn h.symm)]
        exact a
    · rw [ho, lastCmd_snoc]
      by_cases hpn : p = name
      · subst hpn
        rw [if_pos hc, hr hp]; exact Or.inr rfl
      · rw [if_neg (by rw [hc]; exact fun h => hpn h.symm)]
        exact h.gone p fun e he hn => hp e ((h1 e (by rw [hn]; exact hpn)).2 he) hn

/-- `addEntry` for a destination in the pool leaves the pool's destinations and hops alone. -/
theorem addEntry_pcore {s : Npt} (name dest : Name) (fl : Nat) (h : (s.inPool dest).isSome) :
    pcore (s.addEntry name dest fl) = pcore s := by
  unfold addEntry
  have h0 : (s.ensurePool dest).1 = s := by
    unfold ensurePool
    cases hf : s.inPool dest with
    | none => rw [hf] at h; simp at h
    | some o => rfl
  generalize s.ensurePool dest = x1 at *
  obtain ⟨s1, pid⟩ := x1
  dsimp only at h0 ⊢
  subst h0
  have h1 : (s1.ensureEntry name fl).1.objs = s1.objs := by
    unfold ensureEntry
    split
    · dsimp only; split <;> rfl
    · rfl
  generalize s1.ensureEntry name fl = x2 at *
  obtain ⟨s2, eid⟩ := x2
  dsimp only at h1 ⊢
  have h2 : pcore (s2.addRte eid pid) = pcore s2 := by
    unfold addRte
    split
    · rfl
    · split
      · rfl
      · exact pcore_modObj s2 pid _ (fun _ => ⟨rfl, rfl, rfl, rfl⟩)
  generalize s2.addRte eid pid = s3 at *
  have h3 : ((s3.regen eid).tellFib eid name dest).objs = s3.objs := (told_tellFib _ _ _ _).objs
  have h4 : pcore (((s3.regen eid).tellFib eid name dest).backRef pid name eid) =
      pcore ((s3.regen eid).tellFib eid name dest) :=
    pcore_modObj _ pid _ (fun o => by split <;> exact ⟨rfl, rfl, rfl, rfl⟩)
  rw [h4]
  unfold pcore at h2 ⊢
  rw [h3, h2, h1]

/-! ### new routes -/

/-- What new routes leave alone. -/
structure Keeps (s s' : Npt) : Prop where
  inv : Inv s'
  has : ∀ p r, Has s' p r ↔ Has s p r
  calm : Calm s s'
  dests : s'.objs.map (fun o => (o.pid, o.live, o.dest)) = s.objs.map (fun o => (o.pid, o.live, o.dest))
  last : ∀ p v, (∀ r, Has s p r → s.costValue (r, p) = v) → LastOk s p v → LastOk s' p v
  old : ∀ e ∈ s.table, ∃ e' ∈ s'.table, e'.eid = e.eid ∧ e'.name = e.name
  heard : Heard s → Heard s'

theorem Keeps.refl {s : Npt} (h : Inv s) : Keeps s s :=
  ⟨h, fun _ _ => Iff.rfl, Calm.refl s, rfl, fun _ _ _ h => h, fun e he => ⟨e, he, rfl, rfl⟩, id⟩

theorem Keeps.trans {a b c : Npt} (h : Keeps a b) (h' : Keeps b c) : Keeps a c := by
  refine ⟨h'.inv, fun p r => (h'.has p r).trans (h.has p r), h.calm.trans h'.calm, h'.dests.trans h.dests, ?_, ?_, fun x => h'.heard (h.heard x)⟩
  · intro p v hv hl
    refine h'.last p v ?_ (h.last p v hv hl)
    intro r hr
    rw [h.calm.vals]; exact hv r ((h.has p r).1 hr)
  · intro e he
    obtain ⟨e1, h1, a1, b1⟩ := h.old e he
    obtain ⟨e2, h2, a2, b2⟩ := h'.old e1 h1
    exact ⟨e2, h2, a2.trans a1, b2.trans b1⟩

theorem inPool_of_has {s : Npt} {p d : Name} (h : Has s p d) : (s.inPool d).isSome := by
  cases hf : s.inPool d with
  | some o => rfl
  | none =>
    obtain ⟨e, -, -, o, ho, hl, hd, -⟩ := h
    exact absurd hd (inPool_none hf o ho hl)

theorem readd_keeps {s : Npt} (hi : Inv s) {dest : Name} {r : Name × Nat}
    (hr : ∃ e ∈ s.table, e.eid = r.2 ∧ e.name = r.1) (hh : Has s r.1 dest) {X : Name → Prop} (hx : NhlX s X) :
    Keeps s (s.readd dest r) ∧ NhlX (s.readd dest r) (fun n => X n ∧ n ≠ r.1) ∧ pcore (s.readd dest r) = pcore s := by
  obtain ⟨e, he, h1, h2⟩ := hr
  unfold readd
  rw [← h1, hi.entry he, ← h2]
  rw [← h2] at hh
  dsimp only
  have hsp := addEntry_spec hi e.name dest e.flags
  have htb := addEntry_table hi e.name dest e.flags
  have hp := addEntry_pcore e.name dest e.flags (inPool_of_has hh)
  have hn := (addEntry_hops hi e.name dest e.flags (Y := fun _ => True) hx (fun _ _ _ h => absurd trivial h)).1
  refine ⟨⟨hsp.1, ?_, calm_addEntry _ _ _ _, ?_, ?_, htb.2.1, fun x => x.addEntry hi _ _ _⟩, hn, hp⟩
  · intro p r'
    rw [hsp.2]
    constructor
    · rintro (h | ⟨rfl, rfl⟩)
      · exact h
      · exact hh
    · exact Or.inl
  · exact map_proj (fun x : Nat × Bool × Name × NexthopList => (x.1, x.2.1, x.2.2.1)) hp
  · intro p v hv hl
    by_cases hpn : p = e.name
    · subst hpn
      rw [← hv dest hh]
      exact htb.2.2.2
    · exact htb.2.2.1 p v hpn hl

theorem readdAll {dest : Name} : ∀ (l : List (Name × Nat)) {s : Npt} (_ : Inv s)
    (_ : ∀ r ∈ l, ∃ e ∈ s.table, e.eid = r.2 ∧ e.name = r.1) (_ : ∀ r ∈ l, Has s r.1 dest)
    {X : Name → Prop} (_ : NhlX s X),
    Keeps s (l.foldl (fun s r => s.readd dest r) s) ∧
    NhlX (l.foldl (fun s r => s.readd dest r) s) (fun n => X n ∧ ∀ r ∈ l, n ≠ r.1) ∧
    pcore (l.foldl (fun s r => s.readd dest r) s) = pcore s
  | [], s, hi, _, _, X, hx => ⟨Keeps.refl hi, hx.mono (fun _ h => ⟨h, by simp⟩), rfl⟩
  | r :: l, s, hi, h1, h2, X, hx => by
    obtain ⟨k1, k2, k3⟩ := readd_keeps hi (h1 r (by simp)) (h2 r (by simp)) hx
    rw [List.foldl_cons]
    obtain ⟨g1, g2, g3⟩ := readdAll l (s := s.readd dest r) k1.inv
      (fun q hq => by
        obtain ⟨e, he, a, b⟩ := h1 q (by simp [hq])
        obtain ⟨e', he', a', b'⟩ := k1.old e he
        exact ⟨e', he', a'.trans a, b'.trans b⟩)
      (fun q hq => (k1.has _ _).2 (h2 q (by simp [hq]))) k2
    refine ⟨k1.trans g1, g2.mono ?_, g3.trans k3⟩
    rintro n ⟨⟨a, b⟩, c⟩
    refine ⟨a, ?_⟩
    intro q hq
    rcases List.mem_cons.1 hq with rfl | hq
    · exact b
    · exact c q hq

theorem RtX.ofCore {s s' : Npt} {Y : Nat → Prop} (h : RtX s Y) (hr : s'.rt = s.rt) (hc : pcore s' = pcore s) :
    RtX s' Y := h.same hr hc

/-- Changing the hops of one pool object and adding its names again. -/
theorem setHops_keeps {s : Npt} (hi : Inv s) {o : PoolObj} (ho : o ∈ s.objs) (hl : o.live = true)
    (hops : NexthopList) (hn : NhlX s (fun _ => False)) {Y : Nat → Prop} (hr : RtX s Y)
    (heq : nhListEq hops (rtHops s.rt o.dest) = true) :
    let s' := o.names.foldl (fun s r => s.readd o.dest r) (s.modObj o.pid (fun o => { o with hops := hops }))
    Keeps s s' ∧ NhlX s' (fun _ => False) ∧ RtX s' (fun q => Y q ∧ q ≠ o.pid) := by
  have hsh : Shape s (s.modObj o.pid (fun o => { o with hops := hops })) :=
    ⟨map_if_eq (fun o : PoolObj => (o.pid, o.live, o.dest, o.use, o.names)) _ _ _ (fun _ => rfl), rfl, rfl⟩
  have k0 : Keeps s (s.modObj o.pid (fun o => { o with hops := hops })) := by
    refine ⟨hsh.inv hi, hsh.has, calm_of rfl rfl rfl, ?_, fun p v _ h => h, fun e he => ⟨e, he, rfl, rfl⟩, fun x => x.same rfl rfl⟩
    exact map_if_eq (fun o : PoolObj => (o.pid, o.live, o.dest)) _ _ _ (fun _ => rfl)
  have hr1 : RtX (s.modObj o.pid (fun o => { o with hops := hops })) (fun q => Y q ∧ q ≠ o.pid) := by
    intro y hy hly hY
    obtain ⟨x, hx, h⟩ := mem_modObj.1 hy
    split at h
    · rename_i hx'
      have : x = o := hi.objUniq hx ho (by simpa using hx')
      subst this
      rw [h]; exact heq
    · rename_i hx'
      have hx' : ¬ x.pid = o.pid := by simpa using hx'
      rw [h]; rw [h] at hly hY
      exact hr x hx hly (fun hc => hY ⟨hc, hx'⟩)
  have hn1 : NhlX (s.modObj o.pid (fun o => { o with hops := hops })) (fun n => ∃ r ∈ o.names, r.1 = n) := by
    intro e he hx
    rw [hn e he (by simp)]
    refine (merge_congr fun p hp => ?_).symm
    have hpo : p ≠ o.pid := by
      rintro rfl
      exact hx ⟨_, hi.forth o ho hl e he hp (by simp), rfl⟩
    have key : ∀ l : List PoolObj, (l.map (fun x => if x.pid == o.pid then { x with hops := hops } else x)).find?
        (fun o => o.pid == p) = l.find? (fun o => o.pid == p) := by
      intro l
      induction l with
      | nil => rfl
      | cons x xs ih =>
        rw [List.map_cons, List.find?_cons, List.find?_cons]
        by_cases hxo : x.pid = o.pid
        · have h1 : (x.pid == p) = false := by simpa [hxo] using fun h => hpo h.symm
          have h2 : ((if x.pid == o.pid then { x with hops := hops } else x : PoolObj).pid == p) = false := by
            rw [if_pos (by simpa using hxo)]; exact h1
          rw [h1, h2]; exact ih
        · rw [if_neg (by simpa using hxo), ih]
    unfold hopsOf obj?
    have : (s.modObj o.pid (fun o => { o with hops := hops })).objs.find? (fun o => o.pid == p) =
        s.objs.find? (fun o => o.pid == p) := key s.objs
    rw [this]
  dsimp only
  obtain ⟨g1, g2, g3⟩ := readdAll (dest := o.dest) o.names k0.inv
    (fun r hr => by
      obtain ⟨e, he, h1, h2, -⟩ := hi.back o ho hl r hr
      exact ⟨e, he, h1, h2⟩)
    (fun r hr => by
      obtain ⟨e, he, h1, h2, h3⟩ := hi.back o ho hl r hr
      exact (k0.has _ _).2 ⟨e, he, h2, o, ho, hl, rfl, h3⟩) hn1
  refine ⟨k0.trans g1, g2.mono ?_, hr1.same ?_ g3⟩
  · rintro n ⟨⟨r, hr, rfl⟩, h⟩
    exact h r hr rfl
  · exact g1.calm.rt

theorem refreshObj_keeps {s : Npt} (hi : Inv s) (pid : Nat) (hlive : ∀ o ∈ s.objs, o.pid = pid → o.live = true)
    (hn : NhlX s (fun _ => False)) {Y : Nat → Prop} (hr : RtX s Y) :
    Keeps s (s.refreshObj pid) ∧ NhlX (s.refreshObj pid) (fun _ => False) ∧
    RtX (s.refreshObj pid) (fun q => Y q ∧ q ≠ pid) := by
  unfold refreshObj
  cases hf : s.obj? pid with
  | none =>
    refine ⟨Keeps.refl hi, hn, ?_⟩
    intro o ho hl hy
    refine hr o ho hl (fun hc => hy ⟨hc, ?_⟩)
    rintro rfl
    rw [hi.obj ho] at hf
    cases hf
  | some o =>
    obtain ⟨ho, rfl⟩ := find_obj hf
    have hl := hlive o ho rfl
    dsimp only
    cases hfr : RTable.find s.rt o.dest with
    | some e =>
      have he : rtHops s.rt o.dest = e.hops := by unfold rtHops; rw [hfr]; rfl
      dsimp only
      split
      · rename_i heq
        refine ⟨Keeps.refl hi, hn, ?_⟩
        intro x hx hlx hy
        by_cases hxo : x.pid = o.pid
        · have := hi.objUniq hx ho hxo
          subst this
          rw [he]; exact heq
        · exact hr x hx hlx (fun hc => hy ⟨hc, hxo⟩)
      · exact setHops_keeps hi ho hl e.hops hn hr (by rw [he]; exact nhListEq_refl _)
    | none =>
      have he : rtHops s.rt o.dest = [] := by unfold rtHops; rw [hfr]; rfl
      exact setHops_keeps hi ho hl [] hn hr (by rw [he]; rfl)

theorem refreshAll : ∀ (l : List Nat) {s : Npt} (_ : Inv s)
    (_ : ∀ o ∈ s.objs, o.pid ∈ l → o.live = true) (_ : NhlX s (fun _ => False)) {Y : Nat → Prop} (_ : RtX s Y),
    Keeps s (l.foldl refreshObj s) ∧ NhlX (l.foldl refreshObj s) (fun _ => False) ∧
    RtX (l.foldl refreshObj s) (fun q => Y q ∧ q ∉ l)
  | [], s, hi, _, hn, Y, hr => ⟨Keeps.refl hi, hn, hr.mono (fun _ h => ⟨h, by simp⟩)⟩
  | pid :: l, s, hi, hlive, hn, Y, hr => by
    obtain ⟨k1, k2, k3⟩ := refreshObj_keeps hi pid (fun o ho h => hlive o ho (by simp [h])) hn hr
    rw [List.foldl_cons]
    obtain ⟨g1, g2, g3⟩ := refreshAll l (s := s.refreshObj pid) k1.inv (by
      intro o ho hol
      have : (o.pid, o.live, o.dest) ∈ (s.refreshObj pid).objs.map (fun o => (o.pid, o.live, o.dest)) :=
        List.mem_map.2 ⟨o, ho, rfl⟩
      rw [k1.dests] at this
      obtain ⟨x, hx, he⟩ := List.mem_map.1 this
      simp only [Prod.mk.injEq] at he
      rw [← he.2.1]
      exact hlive x hx (by rw [he.1]; simp [hol])) k2 k3
    refine ⟨k1.trans g1, g2, g3.mono ?_⟩
    rintro q ⟨⟨a, b⟩, c⟩
    exact ⟨a, by simp [b, c]⟩

/-- `updateWithNewRoute`: same advertisers, no fault, every entry up to date with the new table. -/
theorem updateWithNewRoute_spec {s : Npt} (hi : Inv s) (hn : NhlX s (fun _ => False)) (t : RTable) :
    Keeps { s with rt := t } (s.updateWithNewRoute t) ∧ NhlX (s.updateWithNewRoute t) (fun _ => False) ∧
    RtX (s.updateWithNewRoute t) (fun _ => False) := by
  have hsh : Shape s { s with rt := t } := ⟨rfl, rfl, rfl⟩
  obtain ⟨g1, g2, g3⟩ := refreshAll ((s.objs.filter (·.live)).map (·.pid)) (s := { s with rt := t }) (hsh.inv hi)
    (by
      intro o ho hp
      obtain ⟨x, hx, hxp⟩ := List.mem_map.1 hp
      rw [List.mem_filter] at hx
      rw [← hi.objUniq hx.1 ho hxp]
      exact hx.2) hn (Y := fun _ => True) (fun _ _ _ h => absurd trivial h)
  refine ⟨g1, g2, ?_⟩
  intro o ho hl hc
  have : (o.pid, o.live, o.dest) ∈ (s.updateWithNewRoute t).objs.map (fun o => (o.pid, o.live, o.dest)) :=
    List.mem_map.2 ⟨o, ho, rfl⟩
  have hd : (s.updateWithNewRoute t).objs.map (fun o => (o.pid, o.live, o.dest)) =
      s.objs.map (fun o => (o.pid, o.live, o.dest)) := g1.dests
  rw [hd] at this
  obtain ⟨x, hx, he⟩ := List.mem_map.1 this
  simp only [Prod.mk.injEq] at he
  refine g3 o ho hl (fun h => h.2 ?_)
  refine List.mem_map.2 ⟨x, List.mem_filter.2 ⟨hx, ?_⟩, he.1⟩
  rw [he.2.1]; exact hl

end Npt
end Nlsr
