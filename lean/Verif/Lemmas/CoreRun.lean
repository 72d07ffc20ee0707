import Verif.Lemmas.Core
/- The invariant of the composed state. -/
namespace Nlsr
namespace Npt
open Lsdb (View VS VSs nodup_inj)

/-! ### iteration order -/

/-- The same objects up to the order of their back references. -/
theorem rehash_core {own : Name} {v : View} {n n' : Npt} (h : Follows own v n) (ht : n'.table = n.table)
    (hc : n'.costs = n.costs) (hr : n'.rt = n.rt) (hf : n'.fault = n.fault) (hid : n'.nextId = n.nextId)
    (hout : n'.out = n.out)
    (hp : (n'.objs.map (·.pid)).Nodup)
    (h1 : ∀ o ∈ n'.objs, ∃ x ∈ n.objs, o.pid = x.pid ∧ o.live = x.live ∧ o.dest = x.dest ∧ o.hops = x.hops ∧
      o.use = x.use ∧ o.names.Perm x.names)
    (h2 : ∀ x ∈ n.objs, ∃ o ∈ n'.objs, o.pid = x.pid ∧ o.live = x.live ∧ o.dest = x.dest ∧ o.hops = x.hops ∧
      o.use = x.use ∧ o.names.Perm x.names) : Follows own v n' := by
  have hi := h.fresh.inv
  have hu : ∀ p, users n' p = users n p := by intro p; unfold users; rw [ht]
  have hinv : Inv n' := by
    constructor
    · exact hp
    · rw [ht]; exact hi.eids
    · rw [ht]; exact hi.tnames
    · intro o ho
      obtain ⟨x, hx, e1, -⟩ := h1 o ho
      rw [e1, hid]; exact hi.pidlt x hx
    · rw [ht, hid]; exact hi.eidlt
    · intro o ho o' ho' hl hl' hd
      obtain ⟨x, hx, e1, e2, e3, -⟩ := h1 o ho
      obtain ⟨x', hx', f1, f2, f3, -⟩ := h1 o' ho'
      have : x = x' := hi.dests x hx x' hx' (e2 ▸ hl) (f2 ▸ hl') (by rw [← e3, ← f3]; exact hd)
      exact nodup_inj hp ho ho' (by rw [e1, f1, this])
    · rw [ht]; exact hi.rnodup
    · rw [ht]
      intro e he p hpe
      obtain ⟨x, hx, e1, e2⟩ := hi.rlive e he p hpe
      obtain ⟨o, ho, f1, f2, -⟩ := h2 x hx
      exact ⟨o, ho, f1.trans e1, f2.trans e2⟩
    · rw [ht]; exact hi.rne
    · intro o ho hl
      obtain ⟨x, hx, e1, e2, -, -, e5, -⟩ := h1 o ho
      rw [hu, e5, e1]; exact hi.use x hx (e2 ▸ hl)
    · intro o ho hl hne
      obtain ⟨x, hx, e1, e2, -, -, e5, -⟩ := h1 o ho
      rw [e5]; exact hi.usepos x hx (e2 ▸ hl) (by simp)
    · intro o ho hl
      obtain ⟨x, hx, e1, e2, -, -, -, e6⟩ := h1 o ho
      exact ((e6.map _).nodup_iff).2 (hi.bnodup x hx (e2 ▸ hl))
    · intro o ho hl r hr
      obtain ⟨x, hx, e1, e2, -, -, -, e6⟩ := h1 o ho
      rw [ht, e1]
      exact hi.back x hx (e2 ▸ hl) r (e6.mem_iff.1 hr)
    · intro o ho hl e he hpe hb
      obtain ⟨x, hx, e1, e2, -, -, -, e6⟩ := h1 o ho
      rw [ht] at he
      exact e6.mem_iff.2 (hi.forth x hx (e2 ▸ hl) e he (e1 ▸ hpe) (by simp))
  have hops : ∀ p, n'.hopsOf p = n.hopsOf p := by
    intro p
    unfold hopsOf
    cases hf : n.obj? p with
    | some x =>
      obtain ⟨hx, rfl⟩ := find_obj hf
      obtain ⟨o, ho, e1, -, -, e4, -⟩ := h2 x hx
      rw [← e1, hinv.obj ho]
      exact e4
    | none =>
      cases hf' : n'.obj? p with
      | none => rfl
      | some o =>
        obtain ⟨ho, rfl⟩ := find_obj hf'
        obtain ⟨x, hx, e1, -⟩ := h1 o ho
        rw [e1, hi.obj hx] at hf; cases hf
  have hhas : ∀ p r, Has n' p r ↔ Has n p r := by
    intro p r
    unfold Has
    rw [ht]
    constructor
    · rintro ⟨e, he, hn, o, ho, h3, h4, h5⟩
      obtain ⟨x, hx, e1, e2, e3, -⟩ := h1 o ho
      exact ⟨e, he, hn, x, hx, e2 ▸ h3, e3 ▸ h4, e1 ▸ h5⟩
    · rintro ⟨e, he, hn, x, hx, h3, h4, h5⟩
      obtain ⟨o, ho, e1, e2, e3, -⟩ := h2 x hx
      exact ⟨e, he, hn, o, ho, e2.trans h3, e3.trans h4, e1 ▸ h5⟩
  have hcost : ∀ k, n'.costOf k = n.costOf k := by intro k; unfold costOf; rw [hc]
  refine ⟨⟨hinv, hf.trans h.fresh.fault, ?_, ?_, h.fresh.heard.same ht hout⟩, ?_, ?_, ?_, ?_⟩
  · intro e he hx
    rw [ht] at he
    rw [h.fresh.nhl e he hx]
    exact (merge_congr (fun p _ => hops p)).symm
  · intro o ho hl hy
    obtain ⟨x, hx, e1, e2, e3, e4, -⟩ := h1 o ho
    rw [e4, e3, hr]
    exact h.fresh.rtx x hx (e2 ▸ hl) (by simp)
  · intro p r hpr; exact h.foreign p r ((hhas p r).1 hpr)
  · intro p r hr hp hpr; rw [hhas]; exact h.adv p r hr hp hpr
  · intro r hr; exact h.self r ((hhas r r).1 hr)
  · intro p r x hr hp hx; rw [hcost]; exact h.cost p r x hr hp hx

theorem Follows.rehash {own : Name} {v : View} {n : Npt} (h : Follows own v n) (objs : List PoolObj) :
    Follows own v (n.step own (.rehash objs)) := by
  show Follows own v (if objs.isPerm n.objs then { n with objs := objs } else n)
  split
  · rename_i hp
    have hp : objs.Perm n.objs := List.isPerm_iff.1 hp
    refine rehash_core (n' := { n with objs := objs }) h rfl rfl rfl rfl rfl rfl ?_ ?_ ?_
    · exact ((hp.map _).nodup_iff).2 h.fresh.inv.pids
    · intro o ho
      exact ⟨o, hp.mem_iff.1 ho, rfl, rfl, rfl, rfl, rfl, List.Perm.refl _⟩
    · intro o ho
      exact ⟨o, hp.mem_iff.2 ho, rfl, rfl, rfl, rfl, rfl, List.Perm.refl _⟩
  · exact h

theorem Follows.rehashNames {own : Name} {v : View} {n : Npt} (h : Follows own v n) (pid : Nat)
    (names : List (Name × Nat)) : Follows own v (n.step own (.rehashNames pid names)) := by
  have key : ∀ o : PoolObj,
      (if names.isPerm o.names then { o with names := names } else o).pid = o.pid ∧
      (if names.isPerm o.names then { o with names := names } else o).live = o.live ∧
      (if names.isPerm o.names then { o with names := names } else o).dest = o.dest ∧
      (if names.isPerm o.names then { o with names := names } else o).hops = o.hops ∧
      (if names.isPerm o.names then { o with names := names } else o).use = o.use ∧
      (if names.isPerm o.names then { o with names := names } else o).names.Perm o.names := by
    intro o
    split
    · rename_i hp
      exact ⟨rfl, rfl, rfl, rfl, rfl, List.isPerm_iff.1 hp⟩
    · exact ⟨rfl, rfl, rfl, rfl, rfl, List.Perm.refl _⟩
  show Follows own v (n.modObj pid _)
  refine rehash_core h rfl rfl rfl rfl rfl rfl ?_ ?_ ?_
  · rw [modObj_pids _ _ _ (fun o => (key o).1)]
    exact h.fresh.inv.pids
  · intro o ho
    rw [mem_modObj] at ho
    obtain ⟨x, hx, rfl⟩ := ho
    refine ⟨x, hx, ?_⟩
    split
    · exact key x
    · exact ⟨rfl, rfl, rfl, rfl, rfl, List.Perm.refl _⟩
  · intro x hx
    refine ⟨_, mem_modObj.2 ⟨x, hx, rfl⟩, ?_⟩
    split
    · exact key x
    · exact ⟨rfl, rfl, rfl, rfl, rfl, List.Perm.refl _⟩

theorem init_follows (own : Name) (v : View) (h : ∀ r t, r ≠ own → v r t = none) : Follows own v {} := by
  have hno : ∀ p r, ¬ Has ({} : Npt) p r := by rintro p r ⟨e, he, -⟩; simp at he
  refine ⟨⟨init_inv, rfl, ?_, ?_, ⟨by nofun, fun _ _ => Or.inl rfl⟩⟩, ?_, ?_, ?_, ?_⟩
  · intro e he; simp at he
  · intro e he; simp at he
  · intro p r hp; exact absurd hp (hno p r)
  · intro p r hr hp hpr
    have : advOf v r p = none := by unfold advOf; rw [h r _ hr]
    rw [this]
    simp [hno p r]
  · intro r hr; exact absurd hr (hno r r)
  · intro p r x hr hp hx
    have : advOf v r p = none := by unfold advOf; rw [h r _ hr]
    rw [this] at hx; cases hx

/-! ### signals do not change the routing table -/

theorem rt_advertiseAll (own r : Name) : ∀ (l : List PrefixInfo) (s : Npt), (l.foldl (advertise own r) s).rt = s.rt := by
  intro l
  induction l with
  | nil => intro s; rfl
  | cons q l ih =>
    intro s
    rw [List.foldl_cons, ih]
    unfold advertise
    split
    · rfl
    · exact (calm_addEntry _ _ _ _).rt

theorem rt_withdrawAll (own r : Name) : ∀ (l : List Name) (s : Npt), (l.foldl (withdraw own r) s).rt = s.rt := by
  intro l
  induction l with
  | nil => intro s; rfl
  | cons q l ih =>
    intro s
    rw [List.foldl_cons, ih]
    unfold withdraw
    split
    · rfl
    · refine (calm_removeEntry _ _ _).rt.trans ?_
      unfold eraseCost; split <;> rfl

theorem rt_updateFromLsdb (own : Name) (s : Npt) (k : ModKind) (l : Lsa) (a r : List PrefixInfo) :
    (updateFromLsdb own s k l a r).rt = s.rt := by
  unfold updateFromLsdb
  split
  · rfl
  · cases k with
    | installed => exact (rt_advertiseAll _ _ _ _).trans (calm_addEntry _ _ _ _).rt
    | updated =>
      dsimp only
      split
      · rw [rt_withdrawAll, rt_advertiseAll]
      · rfl
    | removed => exact (rt_withdrawAll _ _ _ _).trans (calm_removeEntry _ _ _).rt

end Npt

namespace Core
open Npt
open Lsdb (View VS VSs view)

/-- States the daemon can be in. -/
def Reachable (c : CConf) (s : Core) : Prop :=
  ∃ disk adjs npl sys ops, s = run c (init c disk adjs npl sys) ops

theorem Reachable.init (c : CConf) (disk adjs npl sys) : Reachable c (init c disk adjs npl sys) :=
  ⟨disk, adjs, npl, sys, [], rfl⟩

theorem Reachable.step {c : CConf} {s : Core} (h : Reachable c s) (op : Op) : Reachable c (Core.step c s op) := by
  obtain ⟨d, a, n, y, ops, rfl⟩ := h
  exact ⟨d, a, n, y, ops ++ [op], by unfold run; rw [List.foldl_append]; rfl⟩

theorem Reachable.induct {c : CConf} {P : Core → Prop}
    (hinit : ∀ disk adjs npl sys, P (Core.init c disk adjs npl sys))
    (hstep : ∀ s op, Reachable c s → P s → P (Core.step c s op)) {s : Core} (h : Reachable c s) : P s := by
  obtain ⟨d, a, n, y, ops, rfl⟩ := h
  have key : ∀ ops : List Op, ∀ s, Reachable c s → P s → P (run c s ops) := by
    intro ops
    induction ops with
    | nil => intro s _ hp; exact hp
    | cons o os ih => intro s hr hp; exact ih _ (hr.step o) (hstep s o hr hp)
  exact key ops _ (Reachable.init c d a n y) (hinit d a n y)

theorem calculate_lsdb (c : CConf) (db : List Obj) (s : Core) : (calculate c db s).lsdb = s.lsdb := by
  have h1 : ∀ s, (calcLs c db s).lsdb = s.lsdb := by
    intro s; unfold calcLs
    split
    · rfl
    · split
      · rfl
      · cases lsTable c s.lsdb.adjs db <;> rfl
  have h2 : ∀ b s, (calcHyp c db b s).lsdb = s.lsdb := by
    intro b s; unfold calcHyp
    cases hypTable c s.lsdb.adjs db with
    | none => rfl
    | some t => dsimp only; split <;> rfl
  unfold calculate
  cases c.lsdb.hyp with
  | off => exact h1 s
  | dryRun => exact (h2 _ _).trans (h1 s)
  | on => exact h2 _ s

theorem step_lsdb (c : CConf) (s : Core) (op : Op) :
    (Core.step c s op).lsdb = (match op with | .lsdb o => Lsdb.step c.lsdb s.lsdb o | _ => s.lsdb) := by
  cases op with
  | lsdb o => rfl
  | scheduleCalc => rfl
  | calcTimer i db =>
    show (calcTimer c s i db).lsdb = _
    unfold calcTimer
    cases s.rt.events[i]? with
    | none => rfl
    | some d =>
      dsimp only
      split
      · rfl
      · exact calculate_lsdb _ _ _
  | rehash objs => rfl
  | rehashNames pid names => rfl

theorem Reachable.lsdb {c : CConf} {s : Core} (h : Reachable c s) : Lsdb.Reachable c.lsdb s.lsdb := by
  refine Reachable.induct (P := fun s => Lsdb.Reachable c.lsdb s.lsdb) ?_ ?_ h
  · intro disk adjs npl sys
    exact ⟨disk, adjs, npl, sys, [], rfl⟩
  · intro s op _ hp
    rw [step_lsdb]
    cases op with
    | lsdb o => exact hp.step o
    | _ => exact hp

/-- A property of the LSDB's log, the view and the name prefix table kept by signals and by new routes
satisfying `T`. -/
structure Kept (c : CConf) (T : RTable → Prop) (P : List Out → View → Npt → Prop) : Prop where
  vs : ∀ {log v v' n outs}, P log v n → VS v outs v' → P (log ++ outs) v' (outs.foldl (feed c.router) n)
  routes : ∀ {log v n} t, T t → P log v n → P log v (n.updateWithNewRoute t)
  rehash : ∀ {log v n} objs, P log v n → P log v (n.step c.router (.rehash objs))
  rehashNames : ∀ {log v n} pid names, P log v n → P log v (n.step c.router (.rehashNames pid names))

/-- Every table the calculators can produce satisfies `T`. -/
structure Tables (c : CConf) (T : RTable → Prop) : Prop where
  empty : T []
  ls : c.lsdb.hyp ≠ .on → ∀ adjs db t, lsTable c adjs db = some t → T t
  hyp : c.lsdb.hyp = .on → ∀ adjs db t, hypTable c adjs db = some t → T t

theorem rtHear_npt (c : CConf) (now : Nat) (k : ModKind) (l : Lsa) (p : RtState × Npt) :
    (rtHear c now k l p).2 = p.2 ∨ (rtHear c now k l p).2 = p.2.updateWithNewRoute [] := by
  unfold rtHear
  dsimp only
  split
  · exact Or.inr rfl
  · exact Or.inl rfl

theorem hear_quiet {c : CConf} {now : Nat} {outs : List Out} (h : ∀ o ∈ outs, Lsdb.Out.isSignal o = false)
    (p : RtState × Npt) : outs.foldl (hear c now) p = p := by
  induction outs generalizing p with
  | nil => rfl
  | cons o os ih =>
    rw [List.foldl_cons]
    have h1 := h o (by simp)
    have : hear c now p o = p := by
      cases o with
      | signal k l a r => cases h1
      | _ => rfl
    rw [this]
    exact ih (fun o ho => h o (by simp [ho])) p

theorem vs_shape {v v' : View} {outs : List Out} (t : VS v outs v') :
    (v' = v ∧ ∀ o ∈ outs, Lsdb.Out.isSignal o = false) ∨ ∃ k l a r, outs = [.signal k l a r] := by
  cases t with
  | quiet _ hq => exact Or.inl ⟨rfl, hq⟩
  | installed l hv hn => exact Or.inr ⟨_, _, _, _, rfl⟩
  | updated l old hv ho ht hn hu => exact Or.inr ⟨_, _, _, _, rfl⟩
  | removed l hv hn => exact Or.inr ⟨_, _, _, _, rfl⟩

theorem vs_log {v v' : View} {outs outs' : List Out} (t : VS v outs v') (h : outs = outs') : VS v outs' v' := h ▸ t

theorem Kept.hear {c : CConf} {T : RTable → Prop} {P : List Out → View → Npt → Prop} (k : Kept c T P) (hT : Tables c T)
    {now : Nat} {log : List Out} {v v' : View} {outs : List Out}
    (t : VS v outs v') {p : RtState × Npt} (h : P log v p.2) : P (log ++ outs) v' (outs.foldl (hear c now) p).2 := by
  rcases vs_shape t with ⟨rfl, hq⟩ | ⟨kd, l, a, r, rfl⟩
  · rw [hear_quiet hq]
    have := k.vs h t
    rwa [feed_quiet hq] at this
  · have hp : P log v (rtHear c now kd l p).2 := by
      rcases rtHear_npt c now kd l p with e | e
      · rw [e]; exact h
      · rw [e]; exact k.routes _ hT.empty h
    exact k.vs hp t

theorem Kept.hears {c : CConf} {T : RTable → Prop} {P : List Out → View → Npt → Prop} (k : Kept c T P) (hT : Tables c T)
    {now : Nat} {log : List Out} {v v' : View} {outs : List Out}
    (t : VSs v outs v') : ∀ {p : RtState × Npt}, P log v p.2 → P (log ++ outs) v' (outs.foldl (Core.hear c now) p).2 := by
  induction t with
  | refl => intro p h; simpa using h
  | @tail _ _ _ _ h1 h2 ih =>
    intro p h
    rw [List.foldl_append, ← List.append_assoc]
    exact k.hear hT h2 (ih h)

theorem Kept.calc {c : CConf} {T : RTable → Prop} {P : List Out → View → Npt → Prop} (k : Kept c T P) (hT : Tables c T)
    (db : List Obj) {s : Core}
    (h : P s.lsdb.log (view s.lsdb) s.npt) : P s.lsdb.log (view s.lsdb) (calculate c db s).npt := by
  have h1 : c.lsdb.hyp ≠ .on → ∀ s l v, P l v s.npt → P l v (calcLs c db s).npt := by
    intro hh s l v h; unfold calcLs
    split
    · exact h
    · split
      · exact h
      · cases ht : lsTable c s.lsdb.adjs db with
        | none => exact h
        | some t => exact k.routes t (hT.ls hh _ _ _ ht) h
  unfold calculate
  cases hh : c.lsdb.hyp with
  | off => exact h1 (by rw [hh]; simp) s _ _ h
  | dryRun =>
    have h2 : ∀ s l v, P l v s.npt → P l v (calcHyp c db true s).npt := by
      intro s l v h; unfold calcHyp
      cases hypTable c s.lsdb.adjs db with
      | none => exact h
      | some t => exact h
    exact h2 _ _ _ (h1 (by rw [hh]; simp) s _ _ h)
  | on =>
    show P _ _ (calcHyp c db false s).npt
    unfold calcHyp
    cases ht : hypTable c s.lsdb.adjs db with
    | none => exact h
    | some t => exact k.routes t (hT.hyp hh _ _ _ ht) h

theorem Kept.step {c : CConf} {T : RTable → Prop} {P : List Out → View → Npt → Prop} (k : Kept c T P) (hT : Tables c T)
    {s : Core} (hr : Reachable c s) (op : Op)
    (h : P s.lsdb.log (view s.lsdb) s.npt) :
    P (Core.step c s op).lsdb.log (view (Core.step c s op).lsdb) (Core.step c s op).npt := by
  cases op with
  | lsdb o =>
    have h1 := Lsdb.vss_step hr.lsdb.inv o
    have h2 := k.hears hT (now := (Lsdb.step c.lsdb s.lsdb o).now) h1.2 (p := (s.rt, s.npt)) h
    rw [← h1.1] at h2
    exact h2
  | scheduleCalc => exact h
  | calcTimer i db =>
    rw [step_lsdb]
    show P _ _ (calcTimer c s i db).npt
    unfold calcTimer
    cases s.rt.events[i]? with
    | none => exact h
    | some d =>
      dsimp only
      split
      · exact h
      · exact k.calc hT _ (s := { s with rt := { s.rt with events := s.rt.events.eraseIdx i } }) h
  | rehash objs => exact k.rehash objs h
  | rehashNames pid names => exact k.rehashNames pid names h

theorem tables_all (c : CConf) : Tables c (fun _ => True) := ⟨trivial, fun _ _ _ _ _ => trivial, fun _ _ _ _ _ => trivial⟩

/-- A kept property holds in every reachable state if it holds at the start. -/
theorem Kept.reachable {c : CConf} {T : RTable → Prop} {P : List Out → View → Npt → Prop} (k : Kept c T P) (hT : Tables c T)
    (hinit : ∀ disk adjs npl sys, P (Lsdb.init c.lsdb disk adjs npl sys).log (view (Lsdb.init c.lsdb disk adjs npl sys)) {})
    {s : Core} (h : Reachable c s) : P s.lsdb.log (view s.lsdb) s.npt := by
  refine Reachable.induct (P := fun s => P s.lsdb.log (view s.lsdb) s.npt) ?_ ?_ h
  · intro disk adjs npl sys
    exact hinit disk adjs npl sys
  · intro s op hr hp
    exact k.step hT hr op hp

/-- Only LSAs of router `r0`, and no Adjacency LSA. -/
def OnlyOf (r0 : Name) (s : Lsdb) : Prop := ∀ o ∈ s.db, o.lsa.origin = r0 ∧ o.lsa.type ≠ .adjacency

theorem onlyOf_install {c : LConf} {s : Lsdb} {r0 : Name} (hi : Lsdb.Inv c s) (h : OnlyOf r0 s) (l : Lsa)
    (hl : l.origin = r0) (ht : l.type ≠ .adjacency) : OnlyOf r0 (Lsdb.installLsa c s l) := by
  have hc := Lsdb.install_cases c s l
  generalize Lsdb.installLsa c s l = s' at hc
  cases hc with
  | rejected o hf hle => exact h
  | fresh hf =>
    intro o ho
    rcases List.mem_append.1 ho with h1 | h1
    · exact h o h1
    · rw [List.mem_singleton.1 h1]; exact ⟨hl, ht⟩
  | newer o hf hlt =>
    obtain ⟨ho, h1, h2⟩ := Lsdb.find_some hf
    intro p hp
    rcases (Lsdb.mem_installUpdate hi ho l _ p).1 hp with rfl | h1
    · refine ⟨(h o ho).1, ?_⟩
      show (o.lsa.content.update l.content).content.type ≠ _
      rw [Lsdb.Content.update_type]; exact (h o ho).2
    · exact h p h1.1

theorem onlyOf_frame {s s' : Lsdb} {r0 : Name} (h : OnlyOf r0 s) (f : Lsdb.Frame s s') : OnlyOf r0 s' := by
  intro o ho; rw [f.db] at ho; exact h o ho

theorem init_onlyOf (c : LConf) (disk adjs npl sys) : OnlyOf c.router (Lsdb.init c disk adjs npl sys) := by
  have hb := Lsdb.boot_inv c disk adjs npl sys
  have h0 : OnlyOf c.router (Lsdb.boot c disk adjs npl sys) := by intro o ho; simp [Lsdb.boot] at ho
  have h1 : OnlyOf c.router (Lsdb.buildName c (Lsdb.boot c disk adjs npl sys)) := by
    unfold Lsdb.buildName
    exact onlyOf_install (hb.frame (Lsdb.announce_frame _ _ _)) (onlyOf_frame h0 (Lsdb.announce_frame _ _ _)) _ rfl nofun
  have hi1 := Lsdb.trs_inv hb (Lsdb.trs_buildName c (Lsdb.boot c disk adjs npl sys))
  unfold Lsdb.init
  dsimp only
  split
  · exact h1
  · unfold Lsdb.buildCoord
    exact onlyOf_install (hi1.frame (Lsdb.announce_frame _ _ _)) (onlyOf_frame h1 (Lsdb.announce_frame _ _ _)) _ rfl nofun

/-- The view of the LSDB at the start has only the router's own LSAs. -/
theorem init_view (c : LConf) (disk adjs npl sys) (r : Name) (t : LsaType) (hr : r ≠ c.router) :
    view (Lsdb.init c disk adjs npl sys) r t = none := by
  unfold view
  cases hf : (Lsdb.init c disk adjs npl sys).find r t with
  | none => rfl
  | some o =>
    obtain ⟨ho, hor, -⟩ := Lsdb.find_some hf
    exact absurd (hor.symm.trans (init_onlyOf c disk adjs npl sys o ho).1) hr

theorem init_no_adj (c : LConf) (disk adjs npl sys) (r : Name) : view (Lsdb.init c disk adjs npl sys) r .adjacency = none := by
  unfold view
  cases hf : (Lsdb.init c disk adjs npl sys).find r .adjacency with
  | none => rfl
  | some o =>
    obtain ⟨ho, -, ht⟩ := Lsdb.find_some hf
    exact absurd ht (init_onlyOf c disk adjs npl sys o ho).2

theorem kept_follows (c : CConf) : Kept c (fun _ => True) (fun _ => Follows c.router) where
  vs h t := h.vs t
  routes t _ h := h.routes t
  rehash objs h := h.rehash objs
  rehashNames pid names h := h.rehashNames pid names

theorem Reachable.follows {c : CConf} {s : Core} (h : Reachable c s) : Follows c.router (view s.lsdb) s.npt :=
  (kept_follows c).reachable (tables_all c)
    (fun disk adjs npl sys => init_follows _ _ (fun r t hr => init_view c.lsdb disk adjs npl sys r t hr)) h

end Core
end Nlsr
