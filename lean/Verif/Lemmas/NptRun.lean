import Verif.Lemmas.Npt
/- What the operations of the name prefix table do to next hops, costs and the fault flag. -/
namespace Nlsr
namespace Npt
open Lsdb (nodup_inj nodup_of_map nodup_map_of)

/-- The routing table's hops for a destination. -/
def rtHops (t : RTable) (d : Name) : NexthopList := ((RTable.find t d).map (·.hops)).getD []

/-- Next-hop lists are up to date except for the names in `X`. -/
def NhlX (s : Npt) (X : Name → Prop) : Prop := ∀ e ∈ s.table, ¬ X e.name → e.nhl = s.merge e.rtes

/-- Pool objects agree with the routing table except those in `Y`. -/
def RtX (s : Npt) (Y : Nat → Prop) : Prop :=
  ∀ o ∈ s.objs, o.live = true → ¬ Y o.pid → nhListEq o.hops (rtHops s.rt o.dest) = true

theorem nhListEq_refl (l : List NextHop) : nhListEq l l = true := by
  unfold nhListEq
  simp only [beq_self_eq_true, Bool.true_and, List.all_eq_true]
  intro p hp
  have : ∀ (l : List NextHop) (p : NextHop × NextHop), p ∈ l.zip l → p.1 = p.2 := by
    intro l
    induction l with
    | nil => intro p hp; simp at hp
    | cons x xs ih =>
      intro p hp
      rw [List.zip_cons_cons, List.mem_cons] at hp
      rcases hp with rfl | h
      · rfl
      · exact ih p h
  rw [this l p hp]
  simp [NextHop.eqv]

/-! ### hops of pool objects -/

def hcore (s : Npt) : List (Nat × NexthopList) := s.objs.map (fun o => (o.pid, o.hops))

def pcore (s : Npt) : List (Nat × Bool × Name × NexthopList) := s.objs.map (fun o => (o.pid, o.live, o.dest, o.hops))

theorem hcore_of_pcore {s s' : Npt} (h : pcore s' = pcore s) : hcore s' = hcore s :=
  map_proj (fun x : Nat × Bool × Name × NexthopList => (x.1, x.2.2.2)) h

theorem hopsOf_eq (s : Npt) (pid : Nat) :
    s.hopsOf pid = (((hcore s).find? (fun x => x.1 == pid)).map (·.2)).getD [] := by
  unfold hopsOf obj? hcore
  rw [List.find?_map]
  have : ((fun x : Nat × NexthopList => x.1 == pid) ∘ fun o : PoolObj => (o.pid, o.hops)) = fun o => o.pid == pid := rfl
  rw [this]
  cases s.objs.find? (fun o => o.pid == pid) <;> rfl

theorem hopsOf_congr {s s' : Npt} (h : hcore s' = hcore s) (pid : Nat) : s'.hopsOf pid = s.hopsOf pid := by
  rw [hopsOf_eq, hopsOf_eq, h]

theorem merge_congr {s s' : Npt} {l : List Nat} (h : ∀ p ∈ l, s'.hopsOf p = s.hopsOf p) : s'.merge l = s.merge l := by
  unfold merge
  have : l.flatMap s'.hopsOf = l.flatMap s.hopsOf := by
    induction l with
    | nil => rfl
    | cons x xs ih =>
      rw [List.flatMap_cons, List.flatMap_cons, h x (by simp), ih (fun p hp => h p (by simp [hp]))]
  rw [this]

theorem merge_core {s s' : Npt} (h : hcore s' = hcore s) (l : List Nat) : s'.merge l = s.merge l :=
  merge_congr fun p _ => hopsOf_congr h p

theorem NhlX.same {s s' : Npt} {X : Name → Prop} (h : NhlX s X) (ht : s'.table = s.table) (hc : hcore s' = hcore s) :
    NhlX s' X := by
  intro e he hx
  rw [merge_core hc]
  exact h e (ht ▸ he) hx

theorem NhlX.mono {s : Npt} {X X' : Name → Prop} (h : NhlX s X) (hi : ∀ n, X n → X' n) : NhlX s X' :=
  fun e he hx => h e he (fun hc => hx (hi _ hc))

theorem RtX.mono {s : Npt} {X X' : Nat → Prop} (h : RtX s X) (hi : ∀ n, X n → X' n) : RtX s X' :=
  fun e he hl hx => h e he hl (fun hc => hx (hi _ hc))

theorem RtX.same {s s' : Npt} {Y : Nat → Prop} (h : RtX s Y) (hr : s'.rt = s.rt) (hc : pcore s' = pcore s) :
    RtX s' Y := by
  intro o ho hl hy
  have : (o.pid, o.live, o.dest, o.hops) ∈ pcore s' := List.mem_map.2 ⟨o, ho, rfl⟩
  rw [hc] at this
  obtain ⟨x, hx, he⟩ := List.mem_map.1 this
  simp only [Prod.mk.injEq] at he
  obtain ⟨h1, h2, h3, h4⟩ := he
  rw [hr, ← h3, ← h4]
  exact h x hx (h2.trans hl) (h1 ▸ hy)

theorem pcore_modObj (s : Npt) (pid : Nat) (f : PoolObj → PoolObj)
    (h : ∀ o, (f o).pid = o.pid ∧ (f o).live = o.live ∧ (f o).dest = o.dest ∧ (f o).hops = o.hops) :
    pcore (s.modObj pid f) = pcore s :=
  map_if_eq (fun o : PoolObj => (o.pid, o.live, o.dest, o.hops)) _ _ _
    (fun o => by simp [(h o).1, (h o).2.1, (h o).2.2.1, (h o).2.2.2])

/-! ### the FIB calls change nothing but costs and output -/

/-- Everything but costs and output is the same; costs are only added. -/
structure Told (s s' : Npt) : Prop where
  objs : s'.objs = s.objs
  table : s'.table = s.table
  nextId : s'.nextId = s.nextId
  rt : s'.rt = s.rt
  fault : s'.fault = s.fault
  costs : ∀ k v, s.costOf k = some v → s'.costOf k = some v
  vals : ∀ k, s'.costValue k = s.costValue k

theorem Told.refl (s : Npt) : Told s s := ⟨rfl, rfl, rfl, rfl, rfl, fun _ _ h => h, fun _ => rfl⟩

theorem Told.trans {a b c : Npt} (h : Told a b) (h' : Told b c) : Told a c :=
  ⟨h'.objs.trans h.objs, h'.table.trans h.table, h'.nextId.trans h.nextId, h'.rt.trans h.rt, h'.fault.trans h.fault,
   fun k v hk => h'.costs k v (h.costs k v hk), fun k => (h'.vals k).trans (h.vals k)⟩

theorem told_emit (s : Npt) (c : FibCmd) : Told s (s.emit c) := ⟨rfl, rfl, rfl, rfl, rfl, fun _ _ h => h, fun _ => rfl⟩

theorem costOf_setCost (s : Npt) (k k' : Name × Name) (v : Ext Rat) :
    (s.setCost k v).costOf k' = if k' = k then some v else s.costOf k' := by
  unfold costOf setCost
  dsimp only
  rw [List.find?_cons]
  by_cases h : k' = k
  · subst h; simp
  · have h' : ¬ k = k' := fun e => h e.symm
    simp only [h, if_false, beq_eq_false_iff_ne.2 h']
    rw [List.find?_filter]
    congr 2
    funext p
    by_cases hp : p.1 = k'
    · simp [hp, h]
    · simp [hp]

theorem costOf_eraseCost (s : Npt) (k k' : Name × Name) :
    (s.eraseCost k).costOf k' = if k' = k then none else s.costOf k' := by
  unfold eraseCost
  split
  · rename_i h
    show s.costOf k' = _
    by_cases h' : k' = k
    · rw [h', h]; simp
    · simp [h']
  · show ((s.costs.filter (fun p => !(p.1 == k))).find? (fun p => p.1 == k')).map (·.2) = _
    rw [List.find?_filter]
    by_cases h : k' = k
    · subst h
      have : (fun a : (Name × Name) × Ext Rat => (decide ((!a.1 == k') = true ∧ (a.1 == k') = true))) = fun _ => false := by
        funext a
        cases (a.1 == k') <;> simp
      rw [this]; simp
    · simp only [h, if_false]
      unfold costOf
      congr 2
      funext p
      by_cases hp : p.1 = k'
      · simp [hp, h]
      · simp [hp]

theorem told_touch (s : Npt) (k : Name × Name) : Told s (s.touchCost k) := by
  unfold touchCost
  split
  · rename_i h
    refine ⟨rfl, rfl, rfl, rfl, rfl, ?_, ?_⟩
    · intro k' v hv
      rw [costOf_setCost]
      split
      · rename_i hk; rw [hk, h] at hv; cases hv
      · exact hv
    · intro k'
      unfold costValue
      rw [costOf_setCost]
      split
      · rename_i hk; rw [hk, h]; rfl
      · rfl
  · exact Told.refl s

theorem told_fibUpdate (s : Npt) (name dest : Name) (l : NexthopList) (fl : Nat) :
    Told s (s.fibUpdate name dest l fl) := by
  unfold fibUpdate
  split
  · exact told_emit _ _
  · split <;> exact (told_touch s _).trans (told_emit _ _)

theorem told_tellFib (s : Npt) (eid : Nat) (name dest : Name) : Told s (s.tellFib eid name dest) := by
  unfold tellFib
  split
  · exact Told.refl s
  · split
    · exact told_fibUpdate _ _ _ _ _
    · exact told_emit _ _

/-! ### addEntry -/

/-- What `addEntry` and `removeEntry` never do: fault, change the routing table, or change a cost. -/
structure Calm (s s' : Npt) : Prop where
  rt : s'.rt = s.rt
  fault : s'.fault = s.fault
  costs : ∀ k v, s.costOf k = some v → s'.costOf k = some v
  vals : ∀ k, s'.costValue k = s.costValue k

theorem Calm.refl (s : Npt) : Calm s s := ⟨rfl, rfl, fun _ _ h => h, fun _ => rfl⟩

theorem Calm.trans {a b c : Npt} (h : Calm a b) (h' : Calm b c) : Calm a c :=
  ⟨h'.rt.trans h.rt, h'.fault.trans h.fault, fun k v hk => h'.costs k v (h.costs k v hk),
   fun k => (h'.vals k).trans (h.vals k)⟩

theorem Told.calm {s s' : Npt} (h : Told s s') : Calm s s' := ⟨h.rt, h.fault, h.costs, h.vals⟩

theorem calm_of {s s' : Npt} (h1 : s'.rt = s.rt) (h2 : s'.fault = s.fault) (h3 : s'.costs = s.costs) : Calm s s' := by
  refine ⟨h1, h2, ?_, ?_⟩
  · intro k v h; unfold costOf; rw [h3]; exact h
  · intro k; unfold costValue costOf; rw [h3]

theorem calm_ensurePool (s : Npt) (d : Name) : Calm s (s.ensurePool d).1 := by
  unfold ensurePool
  split <;> exact calm_of rfl rfl rfl

theorem calm_ensureEntry (s : Npt) (n : Name) (fl : Nat) : Calm s (s.ensureEntry n fl).1 := by
  unfold ensureEntry
  split
  · dsimp only
    split <;> exact calm_of rfl rfl rfl
  · exact calm_of rfl rfl rfl

theorem calm_addRte (s : Npt) (eid pid : Nat) : Calm s (s.addRte eid pid) := by
  unfold addRte
  split
  · exact Calm.refl s
  · split <;> exact calm_of rfl rfl rfl

theorem calm_addEntry (s : Npt) (name dest : Name) (fl : Nat) : Calm s (s.addEntry name dest fl) := by
  unfold addEntry
  refine (calm_ensurePool s dest).trans ?_
  generalize s.ensurePool dest = x1
  obtain ⟨s1, pid⟩ := x1
  dsimp only
  refine (calm_ensureEntry s1 name fl).trans ?_
  generalize s1.ensureEntry name fl = x2
  obtain ⟨s2, eid⟩ := x2
  dsimp only
  refine (calm_addRte s2 eid pid).trans ?_
  generalize s2.addRte eid pid = s3
  have h1 : Calm s3 (s3.regen eid) := calm_of rfl rfl rfl
  refine h1.trans ((told_tellFib _ eid name dest).calm.trans ?_)
  exact calm_of rfl rfl rfl

theorem calm_removeEntry (s : Npt) (name dest : Name) : Calm s (s.removeEntry name dest) := by
  unfold removeEntry
  split
  · exact Calm.refl s
  · split
    · exact Calm.refl s
    · rename_i o _ _ e _
      have h1 : Calm s (s.removeRte e o.pid) := by
        unfold removeRte; split <;> exact calm_of rfl rfl rfl
      refine h1.trans ?_
      generalize s.removeRte e o.pid = s1
      have h2 : Calm s1 (s1.dropUnused o.pid) := by
        unfold dropUnused; split <;> exact calm_of rfl rfl rfl
      refine h2.trans ?_
      generalize s1.dropUnused o.pid = s2
      unfold finishRemove
      split
      · exact Calm.refl _
      · split
        · exact calm_of rfl rfl rfl
        · have h3 : Calm s2 (s2.regen e.eid) := calm_of rfl rfl rfl
          exact h3.trans (told_fibUpdate _ _ _ _ _).calm

/-- Pool objects after `addEntry`: those before and possibly a new one, in step with the routing table. -/
theorem ensurePool_hops {s : Npt} (hi : Inv s) (dest : Name) {X : Name → Prop} {Y : Nat → Prop}
    (h1 : NhlX s X) (h2 : RtX s Y) :
    NhlX (s.ensurePool dest).1 X ∧ RtX (s.ensurePool dest).1 Y := by
  unfold ensurePool
  split
  · exact ⟨h1, h2⟩
  · dsimp only
    refine ⟨?_, ?_⟩
    · intro e he hx
      rw [h1 e he hx]
      refine (merge_congr fun p hp => ?_).symm
      obtain ⟨o, ho, hop, -⟩ := hi.rlive e he p hp
      unfold hopsOf obj?
      rw [List.find?_append]
      have : (s.objs.find? (fun o => o.pid == p)) = some o := by rw [← hop]; exact hi.obj ho
      rw [this]; rfl
    · intro o ho hl hy
      rcases List.mem_append.1 ho with h | h
      · exact h2 o h hl hy
      · rw [List.mem_singleton.1 h]
        exact nhListEq_refl _

theorem ensureEntry_hops {s : Npt} {fo : Option Nat} (_hi : InvX s none fo none) (name : Name) (fl : Nat)
    {X : Name → Prop} {Y : Nat → Prop} (h1 : NhlX s X) (h2 : RtX s Y) :
    NhlX (s.ensureEntry name fl).1 X ∧ RtX (s.ensureEntry name fl).1 Y := by
  unfold ensureEntry
  split
  · dsimp only
    split
    · refine ⟨?_, h2⟩
      intro e he hx
      obtain ⟨x, hx', h⟩ := mem_modEntry.1 he
      split at h
      · rw [h]; rw [h] at hx; exact h1 x hx' hx
      · rw [h]; rw [h] at hx; exact h1 x hx' hx
    · exact ⟨h1, h2⟩
  · refine ⟨?_, h2⟩
    intro e he hx
    rcases List.mem_append.1 he with h | h
    · exact h1 e h hx
    · rw [List.mem_singleton.1 h]; rfl

theorem addEntry_hops {s : Npt} (hi : Inv s) (name dest : Name) (fl : Nat) {X : Name → Prop} {Y : Nat → Prop}
    (h1 : NhlX s X) (h2 : RtX s Y) :
    NhlX (s.addEntry name dest fl) (fun n => X n ∧ n ≠ name) ∧ RtX (s.addEntry name dest fl) Y := by
  obtain ⟨i1, -, o, ho, hop, hol, hod⟩ := ensurePool_spec hi dest
  obtain ⟨a1, a2⟩ := ensurePool_hops hi dest h1 h2
  unfold addEntry
  generalize s.ensurePool dest = x1 at *
  obtain ⟨s1, pid⟩ := x1
  dsimp only at i1 ho hop a1 a2 ⊢
  obtain ⟨i2, -, g3, e, he, hee, hen⟩ := ensureEntry_spec i1 name fl
  obtain ⟨b1, b2⟩ := ensureEntry_hops i1 name fl a1 a2
  generalize s1.ensureEntry name fl = x2 at *
  obtain ⟨s2, eid⟩ := x2
  dsimp only at i2 g3 he hee b1 b2 ⊢
  subst hop
  subst hee
  obtain ⟨i3, -, -⟩ := addRte_spec i2 he (g3 ▸ ho) hol
  have c1 : NhlX (s2.addRte e.eid o.pid) (fun n => X n ∨ n = name) ∧ RtX (s2.addRte e.eid o.pid) Y ∧
      ∀ y ∈ (s2.addRte e.eid o.pid).table, y.eid = e.eid ↔ y.name = name := by
    unfold addRte
    rw [i2.entry he]
    dsimp only
    split
    · refine ⟨b1.mono fun _ h => Or.inl h, b2, ?_⟩
      intro y hy
      constructor
      · intro h; rw [i2.entryUniq hy he h, hen]
      · intro h; rw [nodup_inj i2.tnames hy he (h.trans hen.symm)]
    · have hpc : pcore ((s2.modObj o.pid (fun o => { o with use := o.use + 1 })).modEntry e.eid
          (fun e => { e with rtes := e.rtes ++ [o.pid] })) = pcore s2 :=
        pcore_modObj s2 o.pid _ (fun _ => ⟨rfl, rfl, rfl, rfl⟩)
      refine ⟨?_, b2.same rfl hpc, ?_⟩
      · intro y hy hx
        rw [merge_core (hcore_of_pcore hpc)]
        obtain ⟨x, hx', h⟩ := mem_modEntry.1 hy
        split at h
        · rename_i hxe
          exfalso
          apply hx
          right
          rw [h]
          show x.name = name
          rw [i2.entryUniq hx' he (by simpa using hxe), hen]
        · rw [h]; rw [h] at hx
          exact b1 x hx' (fun hc => hx (Or.inl hc))
      · intro y hy
        obtain ⟨x, hx', h⟩ := mem_modEntry.1 hy
        have h3 : y.eid = x.eid ∧ y.name = x.name := by rw [h]; split <;> exact ⟨rfl, rfl⟩
        rw [h3.1, h3.2]
        constructor
        · intro h; rw [i2.entryUniq hx' he h, hen]
        · intro h; rw [nodup_inj i2.tnames hx' he (h.trans hen.symm)]
  obtain ⟨c1, c2, c3⟩ := c1
  generalize s2.addRte e.eid o.pid = s3 at *
  have d1 : NhlX (s3.regen e.eid) (fun n => X n ∧ n ≠ name) := by
    intro y hy hx
    show y.nhl = s3.merge y.rtes
    obtain ⟨x, hx', h⟩ := mem_modEntry.1 hy
    have h3 := c3 x hx'
    split at h
    · rw [h]
    · rename_i hne
      have hne : ¬ x.eid = e.eid := by simpa using hne
      rw [h]; rw [h] at hx
      have hxn : x.name ≠ name := fun hc => hne (h3.2 hc)
      refine c1 x hx' ?_
      rintro (hc | hc)
      · exact hx ⟨hc, hxn⟩
      · exact hxn hc
  have d2 : RtX (s3.regen e.eid) Y := c2
  generalize s3.regen e.eid = s4 at *
  have ht := told_tellFib s4 e.eid name dest
  have hp : pcore (s4.tellFib e.eid name dest) = pcore s4 := by unfold pcore; rw [ht.objs]
  have e1 := d1.same ht.table (hcore_of_pcore hp)
  have e2 := d2.same ht.rt hp
  generalize s4.tellFib e.eid name dest = s5 at *
  have hp : pcore (s5.backRef o.pid name e.eid) = pcore s5 :=
    pcore_modObj s5 o.pid _ (fun o => by split <;> exact ⟨rfl, rfl, rfl, rfl⟩)
  exact ⟨e1.same rfl (hcore_of_pcore hp), e2.same rfl hp⟩

theorem removeEntry_hops {s : Npt} (hi : Inv s) (name dest : Name) {X : Name → Prop} {Y : Nat → Prop}
    (h1 : NhlX s X) (h2 : RtX s Y) :
    NhlX (s.removeEntry name dest) X ∧ RtX (s.removeEntry name dest) Y := by
  unfold removeEntry
  cases hf : s.inPool dest with
  | none => exact ⟨h1, h2⟩
  | some o =>
    dsimp only
    cases hn : s.byName name with
    | none => exact ⟨h1, h2⟩
    | some e =>
      dsimp only
      obtain ⟨ho, hl, hd⟩ := find_inPool hf
      obtain ⟨he, hen⟩ := find_byName hn
      obtain ⟨i1, -, ⟨e', he', h3, h4⟩, o', ho', h5, h6⟩ := removeRte_spec hi he ho hl
      have c1 : NhlX (s.removeRte e o.pid) (fun n => X n ∨ n = name) ∧ RtX (s.removeRte e o.pid) Y := by
        unfold removeRte
        split
        · have hpc : pcore ((s.modObj o.pid (fun o => { o with use := o.use - 1, names := o.names.filter (fun p => !(p.1 == e.name)) })).modEntry
              e.eid (fun e => { e with rtes := e.rtes.erase o.pid })) = pcore s :=
            pcore_modObj s o.pid _ (fun _ => ⟨rfl, rfl, rfl, rfl⟩)
          refine ⟨?_, h2.same rfl hpc⟩
          intro y hy hx
          rw [merge_core (hcore_of_pcore hpc)]
          obtain ⟨x, hx', h⟩ := mem_modEntry.1 hy
          split at h
          · rename_i hxe
            exfalso
            apply hx
            right
            rw [h]
            show x.name = name
            rw [hi.entryUniq hx' he (by simpa using hxe), hen]
          · rw [h]; rw [h] at hx
            exact h1 x hx' (fun hc => hx (Or.inl hc))
        · exact ⟨h1.mono fun _ h => Or.inl h, h2⟩
      obtain ⟨c1, c2⟩ := c1
      generalize s.removeRte e o.pid = s1 at *
      rw [← h5] at i1 ⊢
      obtain ⟨i2, -, g3⟩ := dropUnused_spec i1 ho' h6
      have c3 : NhlX (s1.dropUnused o'.pid) (fun n => X n ∨ n = name) ∧ RtX (s1.dropUnused o'.pid) Y := by
        unfold dropUnused
        split
        · refine ⟨?_, ?_⟩
          · refine c1.same rfl ?_
            exact map_if_eq (fun o : PoolObj => (o.pid, o.hops)) _ _ _ (fun _ => rfl)
          · intro y hy hly hY
            obtain ⟨x, hx, h⟩ := mem_modObj.1 hy
            split at h
            · rw [h] at hly; cases hly
            · rw [h]; rw [h] at hly hY; exact c2 x hx hly hY
        · exact ⟨c1, c2⟩
      obtain ⟨c3, c4⟩ := c3
      generalize s1.dropUnused o'.pid = s2 at *
      rw [← h3] at i2 ⊢
      have he2 : e' ∈ s2.table := g3 ▸ he'
      unfold finishRemove
      rw [i2.entry he2]
      dsimp only
      have huniq : ∀ x ∈ s2.table, x.eid = e'.eid ↔ x.name = name := by
        intro x hx
        constructor
        · intro h; rw [i2.entryUniq hx he2 h, h4, hen]
        · intro h; rw [nodup_inj i2.tnames hx he2 (by rw [h, h4, hen])]
      split
      · refine ⟨?_, c4⟩
        intro y hy hx
        have hy' : y ∈ s2.table ∧ y.eid ≠ e'.eid := by
          have : y ∈ s2.table.filter (fun x => !(x.eid == e'.eid)) := hy
          rw [List.mem_filter] at this
          simpa using this
        refine c3 y hy'.1 ?_
        rintro (hc | hc)
        · exact hx hc
        · exact hy'.2 ((huniq y hy'.1).2 hc)
      · have d1 : NhlX (s2.regen e'.eid) X := by
          intro y hy hx
          show y.nhl = s2.merge y.rtes
          obtain ⟨x, hx', h⟩ := mem_modEntry.1 hy
          split at h
          · rw [h]
          · rename_i hne
            have hne : ¬ x.eid = e'.eid := by simpa using hne
            rw [h]; rw [h] at hx
            refine c3 x hx' ?_
            rintro (hc | hc)
            · exact hx hc
            · exact hne ((huniq x hx').2 hc)
        have d2 : RtX (s2.regen e'.eid) Y := c4
        have ht := told_fibUpdate (s2.regen e'.eid) name dest (s2.merge e'.rtes) e'.flags
        have hp : pcore ((s2.regen e'.eid).fibUpdate name dest (s2.merge e'.rtes) e'.flags) = pcore (s2.regen e'.eid) := by
          unfold pcore; rw [ht.objs]
        exact ⟨d1.same ht.table (hcore_of_pcore hp), d2.same ht.rt hp⟩

end Npt
end Nlsr
