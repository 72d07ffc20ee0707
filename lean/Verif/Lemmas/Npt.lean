import Verif.Model.Npt
import Verif.Lemmas.LsdbInv
import Verif.Props.NexthopList
/- The invariant of the name prefix table. -/
namespace Nlsr
namespace Npt
open Lsdb (nodup_inj nodup_of_map nodup_map_of)

/-- Prefix `p` has the advertiser `r`. -/
def Has (s : Npt) (p r : Name) : Prop :=
  ∃ e ∈ s.table, e.name = p ∧ ∃ o ∈ s.objs, o.live = true ∧ o.dest = r ∧ o.pid ∈ e.rtes

/-- Entries that refer to a pool object. -/
def users (s : Npt) (pid : Nat) : List NptEntry := s.table.filter (fun e => decide (pid ∈ e.rtes))

/-- Structural invariant; `fe` is an entry that may have no destination, `fo` a pool object that may be
unused, `fb` an object and an entry whose back reference is not there yet. -/
structure InvX (s : Npt) (fe fo : Option Nat) (fb : Option (Nat × Nat)) : Prop where
  pids : (s.objs.map (·.pid)).Nodup
  eids : (s.table.map (·.eid)).Nodup
  tnames : (s.table.map (·.name)).Nodup
  pidlt : ∀ o ∈ s.objs, o.pid < s.nextId
  eidlt : ∀ e ∈ s.table, e.eid < s.nextId
  dests : ∀ o ∈ s.objs, ∀ o' ∈ s.objs, o.live = true → o'.live = true → o.dest = o'.dest → o = o'
  rnodup : ∀ e ∈ s.table, e.rtes.Nodup
  rlive : ∀ e ∈ s.table, ∀ p ∈ e.rtes, ∃ o ∈ s.objs, o.pid = p ∧ o.live = true
  rne : ∀ e ∈ s.table, fe ≠ some e.eid → e.rtes ≠ []
  use : ∀ o ∈ s.objs, o.live = true → o.use = (users s o.pid).length
  usepos : ∀ o ∈ s.objs, o.live = true → fo ≠ some o.pid → 0 < o.use
  bnodup : ∀ o ∈ s.objs, o.live = true → (o.names.map (·.1)).Nodup
  back : ∀ o ∈ s.objs, o.live = true → ∀ r ∈ o.names, ∃ e ∈ s.table, e.eid = r.2 ∧ e.name = r.1 ∧ o.pid ∈ e.rtes
  forth : ∀ o ∈ s.objs, o.live = true → ∀ e ∈ s.table, o.pid ∈ e.rtes → fb ≠ some (o.pid, e.eid) → (e.name, e.eid) ∈ o.names

abbrev Inv (s : Npt) : Prop := InvX s none none none

theorem init_inv : Inv {} := by
  constructor <;> simp

theorem find_obj {s : Npt} {pid : Nat} {o : PoolObj} (h : s.obj? pid = some o) : o ∈ s.objs ∧ o.pid = pid :=
  ⟨List.mem_of_find?_eq_some h, by simpa using List.find?_some h⟩

theorem find_entry {s : Npt} {eid : Nat} {e : NptEntry} (h : s.entry? eid = some e) : e ∈ s.table ∧ e.eid = eid :=
  ⟨List.mem_of_find?_eq_some h, by simpa using List.find?_some h⟩

theorem find_byName {s : Npt} {n : Name} {e : NptEntry} (h : s.byName n = some e) : e ∈ s.table ∧ e.name = n :=
  ⟨List.mem_of_find?_eq_some h, by simpa using List.find?_some h⟩

theorem find_inPool {s : Npt} {d : Name} {o : PoolObj} (h : s.inPool d = some o) :
    o ∈ s.objs ∧ o.live = true ∧ o.dest = d := by
  have := List.find?_some h
  simp only [Bool.and_eq_true, beq_iff_eq] at this
  exact ⟨List.mem_of_find?_eq_some h, this.1, this.2⟩

theorem byName_none {s : Npt} {n : Name} (h : s.byName n = none) : ∀ e ∈ s.table, e.name ≠ n := by
  intro e he hn
  have := List.find?_eq_none.1 h e he
  simp [hn] at this

theorem inPool_none {s : Npt} {d : Name} (h : s.inPool d = none) : ∀ o ∈ s.objs, o.live = true → o.dest ≠ d := by
  intro o ho hl hn
  have := List.find?_eq_none.1 h o ho
  simp [hn, hl] at this

theorem find_uniq {α : Type} {f : α → Nat} {l : List α} (hn : (l.map f).Nodup) {a : α} (ha : a ∈ l) :
    l.find? (fun x => f x == f a) = some a := by
  cases h : l.find? (fun x => f x == f a) with
  | none =>
    have := List.find?_eq_none.1 h a ha
    simp at this
  | some b =>
    have h1 : f b = f a := by simpa using List.find?_some h
    rw [nodup_inj hn (List.mem_of_find?_eq_some h) ha h1]

theorem InvX.obj {s : Npt} {fe fo fb} (h : InvX s fe fo fb) {o : PoolObj} (ho : o ∈ s.objs) : s.obj? o.pid = some o :=
  find_uniq h.pids ho

theorem InvX.entry {s : Npt} {fe fo fb} (h : InvX s fe fo fb) {e : NptEntry} (he : e ∈ s.table) :
    s.entry? e.eid = some e := find_uniq h.eids he

theorem InvX.objUniq {s : Npt} {fe fo fb} (h : InvX s fe fo fb) {o o' : PoolObj} (ho : o ∈ s.objs) (ho' : o' ∈ s.objs)
    (he : o.pid = o'.pid) : o = o' := nodup_inj h.pids ho ho' he

theorem InvX.entryUniq {s : Npt} {fe fo fb} (h : InvX s fe fo fb) {e e' : NptEntry} (ho : e ∈ s.table)
    (ho' : e' ∈ s.table) (he : e.eid = e'.eid) : e = e' := nodup_inj h.eids ho ho' he

theorem InvX.weaken {s : Npt} (h : Inv s) (fe fo fb) : InvX s fe fo fb :=
  ⟨h.pids, h.eids, h.tnames, h.pidlt, h.eidlt, h.dests, h.rnodup, h.rlive, fun e he _ => h.rne e he (by simp),
   h.use, fun o ho hl _ => h.usepos o ho hl (by simp), h.bnodup, h.back,
   fun o ho hl e he hp _ => h.forth o ho hl e he hp (by simp)⟩

/-! ### modifications -/

theorem mem_modObj {s : Npt} {pid : Nat} {f : PoolObj → PoolObj} {o : PoolObj} :
    o ∈ (s.modObj pid f).objs ↔ ∃ x ∈ s.objs, o = if x.pid == pid then f x else x := by
  show o ∈ s.objs.map _ ↔ _
  rw [List.mem_map]
  constructor
  · rintro ⟨x, hx, rfl⟩; exact ⟨x, hx, rfl⟩
  · rintro ⟨x, hx, rfl⟩; exact ⟨x, hx, rfl⟩

theorem mem_modEntry {s : Npt} {eid : Nat} {f : NptEntry → NptEntry} {e : NptEntry} :
    e ∈ (s.modEntry eid f).table ↔ ∃ x ∈ s.table, e = if x.eid == eid then f x else x := by
  show e ∈ s.table.map _ ↔ _
  rw [List.mem_map]
  constructor
  · rintro ⟨x, hx, rfl⟩; exact ⟨x, hx, rfl⟩
  · rintro ⟨x, hx, rfl⟩; exact ⟨x, hx, rfl⟩

theorem map_if_eq {α β : Type} (g : α → β) (l : List α) (c : α → Bool) (f : α → α) (h : ∀ a, g (f a) = g a) :
    (l.map (fun a => if c a then f a else a)).map g = l.map g := by
  rw [List.map_map]
  refine List.map_congr_left fun a _ => ?_
  show g (if c a then f a else a) = g a
  split
  · exact h a
  · rfl

theorem modObj_pids (s : Npt) (pid : Nat) (f : PoolObj → PoolObj) (h : ∀ o, (f o).pid = o.pid) :
    (s.modObj pid f).objs.map (·.pid) = s.objs.map (·.pid) := map_if_eq _ _ _ _ h

theorem modEntry_eids (s : Npt) (eid : Nat) (f : NptEntry → NptEntry) (h : ∀ e, (f e).eid = e.eid) :
    (s.modEntry eid f).table.map (·.eid) = s.table.map (·.eid) := map_if_eq _ _ _ _ h

theorem modEntry_names (s : Npt) (eid : Nat) (f : NptEntry → NptEntry) (h : ∀ e, (f e).name = e.name) :
    (s.modEntry eid f).table.map (·.name) = s.table.map (·.name) := map_if_eq _ _ _ _ h

/-- States with the same structure: only hops, next-hop lists, flags, costs and outputs may differ. -/
structure Shape (s s' : Npt) : Prop where
  objs : s'.objs.map (fun o => (o.pid, o.live, o.dest, o.use, o.names)) = s.objs.map (fun o => (o.pid, o.live, o.dest, o.use, o.names))
  table : s'.table.map (fun e => (e.eid, e.name, e.rtes)) = s.table.map (fun e => (e.eid, e.name, e.rtes))
  nextId : s'.nextId = s.nextId

theorem Shape.refl (s : Npt) : Shape s s := ⟨rfl, rfl, rfl⟩

theorem Shape.trans {a b c : Npt} (h : Shape a b) (h' : Shape b c) : Shape a c :=
  ⟨h'.objs.trans h.objs, h'.table.trans h.table, h'.nextId.trans h.nextId⟩

theorem Shape.symm {a b : Npt} (h : Shape a b) : Shape b a := ⟨h.objs.symm, h.table.symm, h.nextId.symm⟩

theorem Shape.mem_objs {s s' : Npt} (h : Shape s s') {o : PoolObj} (ho : o ∈ s'.objs) :
    ∃ x ∈ s.objs, x.pid = o.pid ∧ x.live = o.live ∧ x.dest = o.dest ∧ x.use = o.use ∧ x.names = o.names := by
  have h1 : (o.pid, o.live, o.dest, o.use, o.names) ∈ s'.objs.map (fun o => (o.pid, o.live, o.dest, o.use, o.names)) :=
    List.mem_map.2 ⟨o, ho, rfl⟩
  rw [h.objs] at h1
  obtain ⟨x, hx, he⟩ := List.mem_map.1 h1
  simp only [Prod.mk.injEq] at he
  exact ⟨x, hx, he⟩

theorem Shape.mem_table {s s' : Npt} (h : Shape s s') {e : NptEntry} (he : e ∈ s'.table) :
    ∃ x ∈ s.table, x.eid = e.eid ∧ x.name = e.name ∧ x.rtes = e.rtes := by
  have h1 : (e.eid, e.name, e.rtes) ∈ s'.table.map (fun e => (e.eid, e.name, e.rtes)) := List.mem_map.2 ⟨e, he, rfl⟩
  rw [h.table] at h1
  obtain ⟨x, hx, he⟩ := List.mem_map.1 h1
  simp only [Prod.mk.injEq] at he
  exact ⟨x, hx, he⟩

theorem map_proj {α β γ : Type} {f : α → β} (g : β → γ) {l l' : List α} (h : l'.map f = l.map f) :
    l'.map (fun a => g (f a)) = l.map (fun a => g (f a)) := by
  have := congrArg (List.map g) h
  rw [List.map_map, List.map_map] at this
  exact this

theorem Shape.users_length {s s' : Npt} (h : Shape s s') (pid : Nat) : (users s' pid).length = (users s pid).length := by
  have key : ∀ t : List NptEntry, (t.filter (fun e => decide (pid ∈ e.rtes))).length =
      ((t.map (fun e => (e.eid, e.name, e.rtes))).filter (fun x => decide (pid ∈ x.2.2))).length := by
    intro t
    rw [List.filter_map, List.length_map]
    rfl
  unfold users
  rw [key, key, h.table]

theorem Shape.inv {s s' : Npt} {fe fo fb} (h : Shape s s') (hi : InvX s fe fo fb) : InvX s' fe fo fb := by
  have p1 : s'.objs.map (·.pid) = s.objs.map (·.pid) := map_proj (·.1) h.objs
  have p2 : s'.table.map (·.eid) = s.table.map (·.eid) := map_proj (·.1) h.table
  have p3 : s'.table.map (·.name) = s.table.map (·.name) := map_proj (·.2.1) h.table
  constructor
  · rw [p1]; exact hi.pids
  · rw [p2]; exact hi.eids
  · rw [p3]; exact hi.tnames
  · intro o ho
    obtain ⟨x, hx, h1, -⟩ := h.mem_objs ho
    rw [h.nextId, ← h1]; exact hi.pidlt x hx
  · intro o ho
    obtain ⟨x, hx, h1, -⟩ := h.mem_table ho
    rw [h.nextId, ← h1]; exact hi.eidlt x hx
  · intro o ho o' ho' hl hl' hd
    obtain ⟨x, hx, h1, h2, h3, -⟩ := h.mem_objs ho
    obtain ⟨x', hx', h1', h2', h3', -⟩ := h.mem_objs ho'
    have := hi.dests x hx x' hx' (h2.trans hl) (h2'.trans hl') (by rw [h3, h3', hd])
    subst this
    exact nodup_inj (f := (·.pid)) (by rw [p1]; exact hi.pids) ho ho' (h1.symm.trans h1')
  · intro e he
    obtain ⟨x, hx, -, -, h3⟩ := h.mem_table he
    rw [← h3]; exact hi.rnodup x hx
  · intro e he p hp
    obtain ⟨x, hx, -, -, h3⟩ := h.mem_table he
    obtain ⟨o, ho, h4, h5⟩ := hi.rlive x hx p (h3 ▸ hp)
    obtain ⟨y, hy, g1, g2, -⟩ := h.symm.mem_objs ho
    exact ⟨y, hy, g1.trans h4, g2.trans h5⟩
  · intro e he hf
    obtain ⟨x, hx, h1, -, h3⟩ := h.mem_table he
    rw [← h3]; exact hi.rne x hx (by rw [h1]; exact hf)
  · intro o ho hl
    obtain ⟨x, hx, h1, h2, -, h4, -⟩ := h.mem_objs ho
    rw [h.users_length, ← h4, ← h1]; exact hi.use x hx (h2.trans hl)
  · intro o ho hl hf
    obtain ⟨x, hx, h1, h2, -, h4, -⟩ := h.mem_objs ho
    rw [← h4]; exact hi.usepos x hx (h2.trans hl) (by rw [h1]; exact hf)
  · intro o ho hl
    obtain ⟨x, hx, h1, h2, -, -, h5⟩ := h.mem_objs ho
    rw [← h5]; exact hi.bnodup x hx (h2.trans hl)
  · intro o ho hl r hr
    obtain ⟨x, hx, h1, h2, -, -, h5⟩ := h.mem_objs ho
    obtain ⟨e, he, g1, g2, g3⟩ := hi.back x hx (h2.trans hl) r (h5 ▸ hr)
    obtain ⟨y, hy, k1, k2, k3⟩ := h.symm.mem_table he
    exact ⟨y, hy, k1.trans g1, k2.trans g2, by rw [k3, ← h1]; exact g3⟩
  · intro o ho hl e he hp hf
    obtain ⟨x, hx, h1, h2, -, -, h5⟩ := h.mem_objs ho
    obtain ⟨y, hy, k1, k2, k3⟩ := h.mem_table he
    rw [← h5, ← k1, ← k2]
    exact hi.forth x hx (h2.trans hl) y hy (by rw [k3, h1]; exact hp) (by rw [h1, k1]; exact hf)

theorem Shape.has {s s' : Npt} (h : Shape s s') (p r : Name) : Has s' p r ↔ Has s p r := by
  have key : ∀ {a b : Npt}, Shape a b → Has b p r → Has a p r := by
    intro a b h ⟨e, he, h1, o, ho, h2, h3, h4⟩
    obtain ⟨y, hy, k1, k2, k3⟩ := h.mem_table he
    obtain ⟨x, hx, g1, g2, g3, -⟩ := h.mem_objs ho
    exact ⟨y, hy, k2.trans h1, x, hx, g2.trans h2, g3.trans h3, by rw [g1, k3]; exact h4⟩
  exact ⟨key h, key h.symm⟩

theorem shape_modEntry (s : Npt) (eid : Nat) (f : NptEntry → NptEntry)
    (h : ∀ e, (f e).eid = e.eid ∧ (f e).name = e.name ∧ (f e).rtes = e.rtes) : Shape s (s.modEntry eid f) := by
  refine ⟨rfl, ?_, rfl⟩
  exact map_if_eq (fun e : NptEntry => (e.eid, e.name, e.rtes)) _ _ _ (fun e => by simp [(h e).1, (h e).2.1, (h e).2.2])

theorem shape_regen (s : Npt) (eid : Nat) : Shape s (s.regen eid) :=
  shape_modEntry _ _ _ (fun _ => ⟨rfl, rfl, rfl⟩)

theorem shape_touchCost (s : Npt) (k : Name × Name) : Shape s (s.touchCost k) := by
  unfold touchCost; split <;> exact ⟨rfl, rfl, rfl⟩

theorem shape_eraseCost (s : Npt) (k : Name × Name) : Shape s (s.eraseCost k) := by
  unfold eraseCost; split <;> exact ⟨rfl, rfl, rfl⟩

theorem shape_fibUpdate (s : Npt) (name dest : Name) (l : NexthopList) (fl : Nat) :
    Shape s (s.fibUpdate name dest l fl) := by
  unfold fibUpdate
  split
  · exact ⟨rfl, rfl, rfl⟩
  · split
    · exact (shape_touchCost s _).trans ⟨rfl, rfl, rfl⟩
    · exact (shape_touchCost s _).trans ⟨rfl, rfl, rfl⟩

theorem shape_tellFib (s : Npt) (eid : Nat) (name dest : Name) : Shape s (s.tellFib eid name dest) := by
  unfold tellFib
  split
  · exact Shape.refl s
  · split
    · exact shape_fibUpdate _ _ _ _ _
    · exact ⟨rfl, rfl, rfl⟩

/-! ### the stages of `addEntry` -/

theorem ensurePool_spec {s : Npt} (hi : Inv s) (dest : Name) :
    InvX (s.ensurePool dest).1 none (some (s.ensurePool dest).2) none ∧
    (∀ p r, Has (s.ensurePool dest).1 p r ↔ Has s p r) ∧
    ∃ o ∈ (s.ensurePool dest).1.objs, o.pid = (s.ensurePool dest).2 ∧ o.live = true ∧ o.dest = dest := by
  unfold ensurePool
  cases hf : s.inPool dest with
  | some o =>
    obtain ⟨h1, h2, h3⟩ := find_inPool hf
    exact ⟨hi.weaken _ _ _, fun _ _ => Iff.rfl, o, h1, rfl, h2, h3⟩
  | none =>
    dsimp only
    have hnew := inPool_none hf
    generalize ((RTable.find s.rt dest).map (·.hops)).getD [] = hops
    have hnr : ∀ e ∈ s.table, s.nextId ∉ e.rtes := by
      intro e he hp
      obtain ⟨o, ho, h1, -⟩ := hi.rlive e he _ hp
      have := hi.pidlt o ho
      omega
    refine ⟨?_, ?_, ⟨_, by simp; exact Or.inr rfl, rfl, rfl, rfl⟩⟩
    · constructor
      · show ((s.objs ++ [_]).map _).Nodup
        rw [List.map_append, List.nodup_append]
        refine ⟨hi.pids, by simp, ?_⟩
        intro a ha b hb hab
        obtain ⟨o, ho, rfl⟩ := List.mem_map.1 ha
        simp only [List.map_cons, List.map_nil, List.mem_singleton] at hb
        have := hi.pidlt o ho
        omega
      · exact hi.eids
      · exact hi.tnames
      · intro o ho
        show o.pid < s.nextId + 1
        rcases List.mem_append.1 ho with h1 | h1
        · have := hi.pidlt o h1; omega
        · rw [List.mem_singleton.1 h1]; exact Nat.lt_succ_self _
      · intro e he; exact Nat.lt_succ_of_lt (hi.eidlt e he)
      · intro o ho o' ho' hl hl' hd
        rcases List.mem_append.1 ho with h1 | h1 <;> rcases List.mem_append.1 ho' with h2 | h2
        · exact hi.dests o h1 o' h2 hl hl' hd
        · rw [List.mem_singleton.1 h2] at hd; exact absurd hd (hnew o h1 hl)
        · rw [List.mem_singleton.1 h1] at hd; exact absurd hd.symm (hnew o' h2 hl')
        · rw [List.mem_singleton.1 h1, List.mem_singleton.1 h2]
      · exact hi.rnodup
      · intro e he p hp
        obtain ⟨o, ho, h1⟩ := hi.rlive e he p hp
        exact ⟨o, List.mem_append_left _ ho, h1⟩
      · exact hi.rne
      · intro o ho hl
        rcases List.mem_append.1 ho with h1 | h1
        · exact hi.use o h1 hl
        · rw [List.mem_singleton.1 h1]
          show 0 = (s.table.filter _).length
          rw [eq_comm, List.length_eq_zero_iff, List.filter_eq_nil_iff]
          intro e he
          simpa using hnr e he
      · intro o ho hl hf
        rcases List.mem_append.1 ho with h1 | h1
        · exact hi.usepos o h1 hl (by simp)
        · rw [List.mem_singleton.1 h1] at hf; exact absurd rfl hf
      · intro o ho hl
        rcases List.mem_append.1 ho with h1 | h1
        · exact hi.bnodup o h1 hl
        · rw [List.mem_singleton.1 h1]; simp
      · intro o ho hl r hr
        rcases List.mem_append.1 ho with h1 | h1
        · exact hi.back o h1 hl r hr
        · rw [List.mem_singleton.1 h1] at hr; simp at hr
      · intro o ho hl e he hp _
        rcases List.mem_append.1 ho with h1 | h1
        · exact hi.forth o h1 hl e he hp (by simp)
        · rw [List.mem_singleton.1 h1] at hp; exact absurd hp (hnr e he)
    · intro p r
      constructor
      · rintro ⟨e, he, h1, o, ho, h2, h3, h4⟩
        rcases List.mem_append.1 ho with h5 | h5
        · exact ⟨e, he, h1, o, h5, h2, h3, h4⟩
        · rw [List.mem_singleton.1 h5] at h4; exact absurd h4 (hnr e he)
      · rintro ⟨e, he, h1, o, ho, h2⟩
        exact ⟨e, he, h1, o, List.mem_append_left _ ho, h2⟩

theorem ensureEntry_spec {s : Npt} {fo : Option Nat} (hi : InvX s none fo none) (name : Name) (flags : Nat) :
    InvX (s.ensureEntry name flags).1 (some (s.ensureEntry name flags).2) fo none ∧
    (∀ p r, Has (s.ensureEntry name flags).1 p r ↔ Has s p r) ∧
    (s.ensureEntry name flags).1.objs = s.objs ∧
    ∃ e ∈ (s.ensureEntry name flags).1.table, e.eid = (s.ensureEntry name flags).2 ∧ e.name = name := by
  unfold ensureEntry
  cases hf : s.byName name with
  | some e =>
    obtain ⟨h1, h2⟩ := find_byName hf
    have hw : InvX s (some e.eid) fo none :=
      ⟨hi.pids, hi.eids, hi.tnames, hi.pidlt, hi.eidlt, hi.dests, hi.rnodup, hi.rlive, fun e he _ => hi.rne e he (by simp),
       hi.use, hi.usepos, hi.bnodup, hi.back, hi.forth⟩
    dsimp only
    split
    · have hsh := shape_modEntry s e.eid (fun x => { x with flags := flags }) (fun _ => ⟨rfl, rfl, rfl⟩)
      refine ⟨hsh.inv hw, hsh.has, rfl, { e with flags := flags }, mem_modEntry.2 ⟨e, h1, by simp⟩, rfl, h2⟩
    · exact ⟨hw, fun _ _ => Iff.rfl, rfl, e, h1, rfl, h2⟩
  | none =>
    dsimp only
    have hnew := byName_none hf
    refine ⟨?_, ?_, rfl, ⟨_, by simp; exact Or.inr rfl, rfl, rfl⟩⟩
    · constructor
      · exact hi.pids
      · show ((s.table ++ [_]).map _).Nodup
        rw [List.map_append, List.nodup_append]
        refine ⟨hi.eids, by simp, ?_⟩
        intro a ha b hb hab
        obtain ⟨o, ho, rfl⟩ := List.mem_map.1 ha
        simp only [List.map_cons, List.map_nil, List.mem_singleton] at hb
        have := hi.eidlt o ho
        omega
      · show ((s.table ++ [_]).map _).Nodup
        rw [List.map_append, List.nodup_append]
        refine ⟨hi.tnames, by simp, ?_⟩
        intro a ha b hb hab
        obtain ⟨o, ho, rfl⟩ := List.mem_map.1 ha
        simp only [List.map_cons, List.map_nil, List.mem_singleton] at hb
        exact hnew o ho (hab.trans hb)
      · intro o ho; exact Nat.lt_succ_of_lt (hi.pidlt o ho)
      · intro e he
        show e.eid < s.nextId + 1
        rcases List.mem_append.1 he with h1 | h1
        · have := hi.eidlt e h1; omega
        · rw [List.mem_singleton.1 h1]; exact Nat.lt_succ_self _
      · exact hi.dests
      · intro e he
        rcases List.mem_append.1 he with h1 | h1
        · exact hi.rnodup e h1
        · rw [List.mem_singleton.1 h1]; simp
      · intro e he p hp
        rcases List.mem_append.1 he with h1 | h1
        · exact hi.rlive e h1 p hp
        · rw [List.mem_singleton.1 h1] at hp; simp at hp
      · intro e he hf
        rcases List.mem_append.1 he with h1 | h1
        · exact hi.rne e h1 (by simp)
        · rw [List.mem_singleton.1 h1] at hf; exact absurd rfl hf
      · intro o ho hl
        rw [hi.use o ho hl]
        unfold users
        show _ = ((s.table ++ [_]).filter _).length
        rw [List.filter_append]
        simp
      · exact hi.usepos
      · exact hi.bnodup
      · intro o ho hl r hr
        obtain ⟨e, he, h1⟩ := hi.back o ho hl r hr
        exact ⟨e, List.mem_append_left _ he, h1⟩
      · intro o ho hl e he hp hf
        rcases List.mem_append.1 he with h1 | h1
        · exact hi.forth o ho hl e h1 hp (by simp)
        · rw [List.mem_singleton.1 h1] at hp; simp at hp
    · intro p r
      constructor
      · rintro ⟨e, he, h1, o, ho, h2, h3, h4⟩
        rcases List.mem_append.1 he with h5 | h5
        · exact ⟨e, h5, h1, o, ho, h2, h3, h4⟩
        · rw [List.mem_singleton.1 h5] at h4; simp at h4
      · rintro ⟨e, he, h1, o, ho, h2⟩
        exact ⟨e, List.mem_append_left _ he, h1, o, ho, h2⟩

theorem countP_modify (P : NptEntry → Bool) (f : NptEntry → NptEntry) : ∀ (t : List NptEntry) (e : NptEntry),
    (t.map (·.eid)).Nodup → e ∈ t →
    (t.map (fun x => if x.eid == e.eid then f x else x)).countP P + (if P e then 1 else 0) =
      t.countP P + (if P (f e) then 1 else 0)
  | [], _, _, he => by simp at he
  | x :: t, e, hn, he => by
    rw [List.map_cons, List.nodup_cons] at hn
    rw [List.map_cons, List.countP_cons, List.countP_cons]
    rcases List.mem_cons.1 he with rfl | h
    · have : t.map (fun x => if x.eid == e.eid then f x else x) = t := by
        rw [List.map_congr_left (g := id), List.map_id]
        intro y hy
        have : y.eid ≠ e.eid := fun h => hn.1 (List.mem_map.2 ⟨y, hy, h⟩)
        simp [this]
      rw [this]
      simp only [beq_self_eq_true, if_true]
      omega
    · have hne : x.eid ≠ e.eid := fun h' => hn.1 (List.mem_map.2 ⟨e, h, h'.symm⟩)
      have := countP_modify P f t e hn.2 h
      have hb : (x.eid == e.eid) = false := by simpa using hne
      simp only [hb]
      simp only [Bool.false_eq_true, if_false]
      omega

theorem users_countP (s : Npt) (pid : Nat) : (users s pid).length = s.table.countP (fun e => decide (pid ∈ e.rtes)) := by
  rw [List.countP_eq_length_filter]; rfl

theorem users_modEntry {s : Npt} {pid : Nat} {e : NptEntry} {f : NptEntry → NptEntry}
    (hn : (s.table.map (·.eid)).Nodup) (he : e ∈ s.table) :
    (users (s.modEntry e.eid f) pid).length + (if pid ∈ e.rtes then 1 else 0) =
      (users s pid).length + (if pid ∈ (f e).rtes then 1 else 0) := by
  have := countP_modify (fun e => decide (pid ∈ e.rtes)) f s.table e hn he
  simp only [decide_eq_true_eq] at this
  rw [users_countP, users_countP]
  exact this

theorem users_pos {s : Npt} {pid : Nat} {e : NptEntry} (he : e ∈ s.table) (hp : pid ∈ e.rtes) : 0 < (users s pid).length :=
  List.length_pos_of_mem (a := e) (List.mem_filter.2 ⟨he, by simpa using hp⟩)

theorem addRte_spec {s : Npt} {e : NptEntry} {o : PoolObj} (hi : InvX s (some e.eid) (some o.pid) none)
    (he : e ∈ s.table) (ho : o ∈ s.objs) (hl : o.live = true) :
    InvX (s.addRte e.eid o.pid) none none (some (o.pid, e.eid)) ∧
    (∀ p r, Has (s.addRte e.eid o.pid) p r ↔ Has s p r ∨ (p = e.name ∧ r = o.dest)) ∧
    (∃ e' ∈ (s.addRte e.eid o.pid).table, e'.eid = e.eid ∧ e'.name = e.name ∧ o.pid ∈ e'.rtes) := by
  have eq : s.addRte e.eid o.pid = if o.pid ∈ e.rtes then s else
      (s.modObj o.pid (fun o => { o with use := o.use + 1 })).modEntry e.eid
        (fun e => { e with rtes := e.rtes ++ [o.pid] }) := by
    unfold addRte; rw [hi.entry he]
  rw [eq]
  split
  · rename_i hm
    refine ⟨⟨hi.pids, hi.eids, hi.tnames, hi.pidlt, hi.eidlt, hi.dests, hi.rnodup, hi.rlive, ?_, hi.use, ?_, hi.bnodup,
      hi.back, fun o ho hl e he hp _ => hi.forth o ho hl e he hp (by simp)⟩, ?_, e, he, rfl, rfl, hm⟩
    · intro e' he' _ hnil
      by_cases h : e'.eid = e.eid
      · rw [hi.entryUniq he' he h] at hnil
        rw [hnil] at hm; simp at hm
      · exact hi.rne e' he' (by simpa using fun h' => h h'.symm) hnil
    · intro o' ho' hl' _
      rw [hi.use o' ho' hl']
      by_cases h : o'.pid = o.pid
      · rw [h]; exact users_pos he hm
      · rw [← hi.use o' ho' hl']
        exact hi.usepos o' ho' hl' (by simpa using fun h' => h h'.symm)
    · intro p r
      refine ⟨Or.inl, ?_⟩
      rintro (h | ⟨rfl, rfl⟩)
      · exact h
      · exact ⟨e, he, rfl, o, ho, hl, rfl, hm⟩
  · rename_i hm
    have hobj : ∀ {y : PoolObj}, y ∈ ((s.modObj o.pid (fun o => { o with use := o.use + 1 })).modEntry e.eid
        (fun e => { e with rtes := e.rtes ++ [o.pid] })).objs ↔
        ∃ x ∈ s.objs, y = if x.pid == o.pid then { x with use := x.use + 1 } else x := mem_modObj
    have hent : ∀ {y : NptEntry}, y ∈ ((s.modObj o.pid (fun o => { o with use := o.use + 1 })).modEntry e.eid
        (fun e => { e with rtes := e.rtes ++ [o.pid] })).table ↔
        ∃ x ∈ s.table, y = if x.eid == e.eid then { x with rtes := x.rtes ++ [o.pid] } else x := mem_modEntry
    have hobj' : ∀ x ∈ s.objs, ∀ y, y = (if x.pid == o.pid then { x with use := x.use + 1 } else x) →
        y.pid = x.pid ∧ y.live = x.live ∧ y.dest = x.dest ∧ y.names = x.names := by
      intro x _ y hy
      split at hy <;> subst hy <;> exact ⟨rfl, rfl, rfl, rfl⟩
    have hent' : ∀ x ∈ s.table, ∀ y, y = (if x.eid == e.eid then { x with rtes := x.rtes ++ [o.pid] } else x) →
        y.eid = x.eid ∧ y.name = x.name ∧ (∀ p, p ∈ y.rtes ↔ p ∈ x.rtes ∨ (x.eid = e.eid ∧ p = o.pid)) := by
      intro x _ y hy
      split at hy
      · rename_i h
        have h : x.eid = e.eid := by simpa using h
        subst hy
        exact ⟨rfl, rfl, fun p => by simp [h]⟩
      · rename_i h
        have h : ¬ x.eid = e.eid := by simpa using h
        subst hy
        exact ⟨rfl, rfl, fun p => by simp [h]⟩
    have husers : ∀ q, (users ((s.modObj o.pid (fun o => { o with use := o.use + 1 })).modEntry e.eid
        (fun e => { e with rtes := e.rtes ++ [o.pid] })) q).length = (users s q).length + (if q = o.pid then 1 else 0) := by
      intro q
      have h1 := users_modEntry (s := s.modObj o.pid (fun o => { o with use := o.use + 1 })) (pid := q) (e := e)
        (f := fun e => { e with rtes := e.rtes ++ [o.pid] }) hi.eids he
      have h2 : users (s.modObj o.pid (fun o => { o with use := o.use + 1 })) q = users s q := rfl
      rw [h2] at h1
      by_cases hq : q = o.pid
      · subst hq
        simp only [hm, if_false, List.mem_append, List.mem_singleton, or_true, if_true] at h1 ⊢
        omega
      · by_cases hqe : q ∈ e.rtes
        · simp only [hqe, if_true, List.mem_append, true_or, hq, if_false] at h1 ⊢
          omega
        · simp only [hqe, if_false, List.mem_append, List.mem_singleton, hq, or_self] at h1 ⊢
          omega
    refine ⟨?_, ?_, ?_⟩
    · constructor
      · have := modObj_pids s o.pid (fun o => { o with use := o.use + 1 }) (fun _ => rfl)
        show ((s.modObj o.pid _).objs.map _).Nodup
        rw [this]; exact hi.pids
      · have := modEntry_eids (s.modObj o.pid (fun o => { o with use := o.use + 1 })) e.eid
          (fun e => { e with rtes := e.rtes ++ [o.pid] }) (fun _ => rfl)
        rw [this]; exact hi.eids
      · have := modEntry_names (s.modObj o.pid (fun o => { o with use := o.use + 1 })) e.eid
          (fun e => { e with rtes := e.rtes ++ [o.pid] }) (fun _ => rfl)
        rw [this]; exact hi.tnames
      · intro y hy
        obtain ⟨x, hx, h⟩ := hobj.1 hy
        rw [(hobj' x hx y h).1]; exact hi.pidlt x hx
      · intro y hy
        obtain ⟨x, hx, h⟩ := hent.1 hy
        rw [(hent' x hx y h).1]; exact hi.eidlt x hx
      · intro y hy y' hy' h1 h2 h3
        obtain ⟨x, hx, h⟩ := hobj.1 hy
        obtain ⟨x', hx', h'⟩ := hobj.1 hy'
        obtain ⟨-, a2, a3, -⟩ := hobj' x hx y h
        obtain ⟨-, b2, b3, -⟩ := hobj' x' hx' y' h'
        have := hi.dests x hx x' hx' (a2 ▸ h1) (b2 ▸ h2) (by rw [← a3, ← b3, h3])
        subst this
        rw [h, h']
      · intro y hy
        obtain ⟨x, hx, h⟩ := hent.1 hy
        split at h
        · rename_i hx'
          have : x = e := hi.entryUniq hx he (by simpa using hx')
          subst this
          rw [h, List.nodup_append]
          exact ⟨hi.rnodup _ hx, by simp, fun a ha b hb hab => hm (by rw [List.mem_singleton] at hb; rw [← hb, ← hab]; exact ha)⟩
        · rw [h]; exact hi.rnodup x hx
      · intro y hy p hp
        obtain ⟨x, hx, h⟩ := hent.1 hy
        have hlift : (∃ o' ∈ s.objs, o'.pid = p ∧ o'.live = true) → ∃ o' ∈ ((s.modObj o.pid (fun o => { o with use := o.use + 1 })).modEntry e.eid
            (fun e => { e with rtes := e.rtes ++ [o.pid] })).objs, o'.pid = p ∧ o'.live = true := by
          rintro ⟨w, hw, h1, h2⟩
          refine ⟨_, hobj.2 ⟨w, hw, rfl⟩, ?_⟩
          obtain ⟨g1, g2, -⟩ := hobj' w hw _ rfl
          exact ⟨g1.trans h1, g2.trans h2⟩
        rcases ((hent' x hx y h).2.2 p).1 hp with h1 | ⟨-, h1⟩
        · exact hlift (hi.rlive x hx p h1)
        · exact hlift ⟨o, ho, h1.symm, hl⟩
      · intro y hy _ hnil
        obtain ⟨x, hx, h⟩ := hent.1 hy
        obtain ⟨g1, g2, g3⟩ := hent' x hx y h
        by_cases hxe : x.eid = e.eid
        · have := (g3 o.pid).2 (Or.inr ⟨hxe, rfl⟩)
          rw [hnil] at this; simp at this
        · have hne := hi.rne x hx (by simpa using fun h' => hxe h'.symm)
          obtain ⟨p, hp⟩ := List.exists_mem_of_ne_nil _ hne
          have := (g3 p).2 (Or.inl hp)
          rw [hnil] at this; simp at this
      · intro y hy hly
        obtain ⟨x, hx, h⟩ := hobj.1 hy
        obtain ⟨g1, g2, -⟩ := hobj' x hx y h
        rw [husers, g1, ← hi.use x hx (g2 ▸ hly)]
        split at h
        · rename_i hx'
          have hx' : x.pid = o.pid := by simpa using hx'
          rw [h, if_pos hx']
        · rename_i hx'
          have hx' : ¬ x.pid = o.pid := by simpa using hx'
          rw [h, if_neg hx']; rfl
      · intro y hy hly _
        obtain ⟨x, hx, h⟩ := hobj.1 hy
        obtain ⟨g1, g2, -⟩ := hobj' x hx y h
        split at h
        · rw [h]; exact Nat.succ_pos _
        · rename_i hx'
          have hx' : ¬ x.pid = o.pid := by simpa using hx'
          rw [h]; exact hi.usepos x hx (g2 ▸ hly) (by simpa using fun h' => hx' h'.symm)
      · intro y hy hly
        obtain ⟨x, hx, h⟩ := hobj.1 hy
        obtain ⟨g1, g2, -, g4⟩ := hobj' x hx y h
        rw [g4]; exact hi.bnodup x hx (g2 ▸ hly)
      · intro y hy hly r hr
        obtain ⟨x, hx, h⟩ := hobj.1 hy
        obtain ⟨g1, g2, -, g4⟩ := hobj' x hx y h
        obtain ⟨w, hw, k1, k2, k3⟩ := hi.back x hx (g2 ▸ hly) r (g4 ▸ hr)
        obtain ⟨m1, m2, m3⟩ := hent' w hw _ rfl
        exact ⟨_, hent.2 ⟨w, hw, rfl⟩, m1.trans k1, m2.trans k2, (m3 _).2 (Or.inl (g1 ▸ k3))⟩
      · intro y hy hly w' hw' hp hfb
        obtain ⟨x, hx, h⟩ := hobj.1 hy
        obtain ⟨g1, g2, -, g4⟩ := hobj' x hx y h
        obtain ⟨w, hw, hwe⟩ := hent.1 hw'
        obtain ⟨m1, m2, m3⟩ := hent' w hw w' hwe
        rw [g4, m1, m2]
        rcases (m3 _).1 hp with h1 | ⟨h1, h2⟩
        · exact hi.forth x hx (g2 ▸ hly) w hw (g1 ▸ h1) (by simp)
        · exact absurd (by rw [h2, m1, h1]) hfb
    · intro p r
      constructor
      · rintro ⟨w', hw', h1, y, hy, h2, h3, h4⟩
        obtain ⟨x, hx, h⟩ := hobj.1 hy
        obtain ⟨g1, g2, g3, -⟩ := hobj' x hx y h
        obtain ⟨w, hw, hwe⟩ := hent.1 hw'
        obtain ⟨m1, m2, m3⟩ := hent' w hw w' hwe
        rcases (m3 _).1 h4 with h5 | ⟨h5, h6⟩
        · exact Or.inl ⟨w, hw, m2 ▸ h1, x, hx, g2 ▸ h2, g3 ▸ h3, g1 ▸ h5⟩
        · refine Or.inr ⟨?_, ?_⟩
          · rw [← h1, m2, hi.entryUniq hw he h5]
          · rw [← h3, g3, hi.objUniq hx ho (g1 ▸ h6)]
      · rintro (⟨w, hw, h1, x, hx, h2, h3, h4⟩ | ⟨rfl, rfl⟩)
        · obtain ⟨g1, g2, g3, -⟩ := hobj' x hx _ rfl
          obtain ⟨m1, m2, m3⟩ := hent' w hw _ rfl
          exact ⟨_, hent.2 ⟨w, hw, rfl⟩, m2.trans h1, _, hobj.2 ⟨x, hx, rfl⟩, g2.trans h2, g3.trans h3,
            (m3 _).2 (Or.inl (by rw [g1]; exact h4))⟩
        · obtain ⟨g1, g2, g3, -⟩ := hobj' o ho _ rfl
          obtain ⟨m1, m2, m3⟩ := hent' e he _ rfl
          exact ⟨_, hent.2 ⟨e, he, rfl⟩, m2, _, hobj.2 ⟨o, ho, rfl⟩, g2.trans hl, g3, (m3 _).2 (Or.inr ⟨rfl, g1⟩)⟩
    · obtain ⟨m1, m2, m3⟩ := hent' e he _ rfl
      exact ⟨_, hent.2 ⟨e, he, rfl⟩, m1, m2, (m3 _).2 (Or.inr ⟨rfl, rfl⟩)⟩

theorem backRef_spec {s : Npt} {e : NptEntry} {pid : Nat} (hi : InvX s none none (some (pid, e.eid)))
    (he : e ∈ s.table) (hp : pid ∈ e.rtes) :
    Inv (s.backRef pid e.name e.eid) ∧ (∀ p r, Has (s.backRef pid e.name e.eid) p r ↔ Has s p r) := by
  have hobj : ∀ {y : PoolObj}, y ∈ (s.backRef pid e.name e.eid).objs ↔
      ∃ x ∈ s.objs, y = if x.pid == pid then (if x.names.any (fun p => p.1 == e.name) then x else
        { x with names := x.names ++ [(e.name, e.eid)] }) else x := mem_modObj
  have hobj' : ∀ x ∈ s.objs, ∀ y, y = (if x.pid == pid then (if x.names.any (fun p => p.1 == e.name) then x else
        { x with names := x.names ++ [(e.name, e.eid)] }) else x) →
      y.pid = x.pid ∧ y.live = x.live ∧ y.dest = x.dest ∧ y.use = x.use := by
    intro x _ y hy
    split at hy
    · split at hy <;> subst hy <;> exact ⟨rfl, rfl, rfl, rfl⟩
    · subst hy; exact ⟨rfl, rfl, rfl, rfl⟩
  constructor
  · constructor
    · have := modObj_pids s pid (fun o => if o.names.any (fun p => p.1 == e.name) then o else
        { o with names := o.names ++ [(e.name, e.eid)] }) (fun o => by split <;> rfl)
      show ((s.modObj pid _).objs.map _).Nodup
      rw [this]; exact hi.pids
    · exact hi.eids
    · exact hi.tnames
    · intro y hy
      obtain ⟨x, hx, h⟩ := hobj.1 hy
      rw [(hobj' x hx y h).1]; exact hi.pidlt x hx
    · exact hi.eidlt
    · intro y hy y' hy' h1 h2 h3
      obtain ⟨x, hx, h⟩ := hobj.1 hy
      obtain ⟨x', hx', h'⟩ := hobj.1 hy'
      obtain ⟨-, a2, a3, -⟩ := hobj' x hx y h
      obtain ⟨-, b2, b3, -⟩ := hobj' x' hx' y' h'
      have := hi.dests x hx x' hx' (a2 ▸ h1) (b2 ▸ h2) (by rw [← a3, ← b3, h3])
      subst this
      rw [h, h']
    · exact hi.rnodup
    · intro w hw p hp'
      obtain ⟨x, hx, h1, h2⟩ := hi.rlive w hw p hp'
      obtain ⟨g1, g2, -⟩ := hobj' x hx _ rfl
      exact ⟨_, hobj.2 ⟨x, hx, rfl⟩, g1.trans h1, g2.trans h2⟩
    · intro w hw _; exact hi.rne w hw (by simp)
    · intro y hy hly
      obtain ⟨x, hx, h⟩ := hobj.1 hy
      obtain ⟨g1, g2, -, g4⟩ := hobj' x hx y h
      rw [g4, g1]; exact hi.use x hx (g2 ▸ hly)
    · intro y hy hly _
      obtain ⟨x, hx, h⟩ := hobj.1 hy
      obtain ⟨g1, g2, -, g4⟩ := hobj' x hx y h
      rw [g4]; exact hi.usepos x hx (g2 ▸ hly) (by simp)
    · intro y hy hly
      obtain ⟨x, hx, h⟩ := hobj.1 hy
      obtain ⟨g1, g2, -, g4⟩ := hobj' x hx y h
      have hb := hi.bnodup x hx (g2 ▸ hly)
      split at h
      · split at h
        · rw [h]; exact hb
        · rename_i hany
          rw [h]
          show ((x.names ++ [(e.name, e.eid)]).map (·.1)).Nodup
          rw [List.map_append, List.nodup_append]
          refine ⟨hb, by simp, ?_⟩
          intro a ha b hb' hab
          simp only [List.map_cons, List.map_nil, List.mem_singleton] at hb'
          obtain ⟨r, hr, rfl⟩ := List.mem_map.1 ha
          exact hany (List.any_eq_true.2 ⟨r, hr, by simp [hab, hb']⟩)
      · rw [h]; exact hb
    · intro y hy hly r hr
      obtain ⟨x, hx, h⟩ := hobj.1 hy
      obtain ⟨g1, g2, -, g4⟩ := hobj' x hx y h
      rw [g1]
      split at h
      · rename_i hpid
        split at h
        · rw [h] at hr; exact hi.back x hx (g2 ▸ hly) r hr
        · rw [h] at hr
          rcases List.mem_append.1 hr with h1 | h1
          · exact hi.back x hx (g2 ▸ hly) r h1
          · rw [List.mem_singleton.1 h1]
            have hpid : x.pid = pid := by simpa using hpid
            exact ⟨e, he, rfl, rfl, hpid ▸ hp⟩
      · rw [h] at hr; exact hi.back x hx (g2 ▸ hly) r hr
    · intro y hy hly w hw hp' _
      obtain ⟨x, hx, h⟩ := hobj.1 hy
      obtain ⟨g1, g2, -, g4⟩ := hobj' x hx y h
      have hp'' : x.pid ∈ w.rtes := g1 ▸ hp'
      by_cases hk : x.pid = pid ∧ w.eid = e.eid
      · have hwe := hi.entryUniq hw he hk.2
        subst hwe
        rw [if_pos (by simpa using hk.1)] at h
        split at h
        · rename_i hany
          obtain ⟨r, hr, hrn⟩ := List.any_eq_true.1 hany
          obtain ⟨w', hw', k1, k2, k3⟩ := hi.back x hx (g2 ▸ hly) r hr
          have : w' = w := nodup_inj hi.tnames hw' hw (k2.trans (by simpa using hrn))
          subst this
          rw [h, k1, k2]; exact hr
        · rw [h]; simp
      · have h1 := hi.forth x hx (g2 ▸ hly) w hw hp'' (by
          intro h'
          simp only [Option.some.injEq, Prod.mk.injEq] at h'
          exact hk ⟨h'.1.symm, h'.2.symm⟩)
        split at h
        · split at h
          · rw [h]; exact h1
          · rw [h]; exact List.mem_append_left _ h1
        · rw [h]; exact h1
  · intro p r
    constructor
    · rintro ⟨w, hw, h1, y, hy, h2, h3, h4⟩
      obtain ⟨x, hx, h⟩ := hobj.1 hy
      obtain ⟨g1, g2, g3, -⟩ := hobj' x hx y h
      exact ⟨w, hw, h1, x, hx, g2 ▸ h2, g3 ▸ h3, g1 ▸ h4⟩
    · rintro ⟨w, hw, h1, x, hx, h2, h3, h4⟩
      obtain ⟨g1, g2, g3, -⟩ := hobj' x hx _ rfl
      exact ⟨w, hw, h1, _, hobj.2 ⟨x, hx, rfl⟩, g2.trans h2, g3.trans h3, by rw [g1]; exact h4⟩

/-- `addEntry` keeps the invariant and adds one advertiser. -/
theorem addEntry_spec {s : Npt} (hi : Inv s) (name dest : Name) (flags : Nat) :
    Inv (s.addEntry name dest flags) ∧
    ∀ p r, Has (s.addEntry name dest flags) p r ↔ Has s p r ∨ (p = name ∧ r = dest) := by
  obtain ⟨h1, h2, o, ho, hop, hol, hod⟩ := ensurePool_spec hi dest
  unfold addEntry
  generalize s.ensurePool dest = x1 at *
  obtain ⟨s1, pid⟩ := x1
  dsimp only at h1 h2 ho hop ⊢
  obtain ⟨g1, g2, g3, e, he, hee, hen⟩ := ensureEntry_spec h1 name flags
  generalize s1.ensureEntry name flags = x2 at *
  obtain ⟨s2, eid⟩ := x2
  dsimp only at g1 g2 g3 he hee ⊢
  subst hop
  subst hee
  obtain ⟨k1, k2, e', he', k3, k4, k5⟩ := addRte_spec g1 he (g3 ▸ ho) hol
  generalize s2.addRte e.eid o.pid = s3 at *
  have hs : Shape s3 ((s3.regen e.eid).tellFib e.eid name dest) := (shape_regen _ _).trans (shape_tellFib _ _ _ _)
  generalize (s3.regen e.eid).tellFib e.eid name dest = s4 at *
  obtain ⟨e'', he'', m1, m2, m3⟩ := hs.symm.mem_table he'
  have := backRef_spec (e := e'') (pid := o.pid) (by rw [m1, k3]; exact hs.inv k1) he'' (m3 ▸ k5)
  rw [m1, m2, k3, k4, hen] at this
  refine ⟨this.1, fun p r => ?_⟩
  rw [this.2, hs.has, k2, g2, h2, hen, hod]

theorem removeRte_spec {s : Npt} {e : NptEntry} {o : PoolObj} (hi : Inv s)
    (he : e ∈ s.table) (ho : o ∈ s.objs) (hl : o.live = true) :
    InvX (s.removeRte e o.pid) (some e.eid) (some o.pid) none ∧
    (∀ p r, Has (s.removeRte e o.pid) p r ↔ Has s p r ∧ ¬ (p = e.name ∧ r = o.dest)) ∧
    (∃ e' ∈ (s.removeRte e o.pid).table, e'.eid = e.eid ∧ e'.name = e.name) ∧
    (∃ o' ∈ (s.removeRte e o.pid).objs, o'.pid = o.pid ∧ o'.live = true) := by
  unfold removeRte
  split
  case isFalse hm =>
    refine ⟨hi.weaken _ _ _, ?_, ⟨e, he, rfl, rfl⟩, o, ho, rfl, hl⟩
    intro p r
    refine ⟨fun h => ⟨h, ?_⟩, And.left⟩
    rintro ⟨rfl, rfl⟩
    obtain ⟨w, hw, h1, y, hy, h2, h3, h4⟩ := h
    rw [nodup_inj hi.tnames hw he h1, hi.dests y hy o ho h2 hl h3] at h4
    exact hm h4
  case isTrue hm =>
    let s' := (s.modObj o.pid (fun o => { o with use := o.use - 1, names := o.names.filter (fun p => !(p.1 == e.name)) })).modEntry
      e.eid (fun e => { e with rtes := e.rtes.erase o.pid })
    show InvX s' _ _ _ ∧ (∀ p r, Has s' p r ↔ _) ∧ (∃ e' ∈ s'.table, _) ∧ (∃ o' ∈ s'.objs, _)
    have hobj : ∀ {y : PoolObj}, y ∈ s'.objs ↔ ∃ x ∈ s.objs, y = if x.pid == o.pid then
        { x with use := x.use - 1, names := x.names.filter (fun p => !(p.1 == e.name)) } else x := mem_modObj
    have hent : ∀ {y : NptEntry}, y ∈ s'.table ↔
        ∃ x ∈ s.table, y = if x.eid == e.eid then { x with rtes := x.rtes.erase o.pid } else x := mem_modEntry
    have hobj' : ∀ x ∈ s.objs, ∀ y, y = (if x.pid == o.pid then
        { x with use := x.use - 1, names := x.names.filter (fun p => !(p.1 == e.name)) } else x) →
        y.pid = x.pid ∧ y.live = x.live ∧ y.dest = x.dest ∧
        (∀ r, r ∈ y.names ↔ r ∈ x.names ∧ ¬ (x.pid = o.pid ∧ r.1 = e.name)) := by
      intro x _ y hy
      split at hy
      · rename_i h
        have h : x.pid = o.pid := by simpa using h
        subst hy
        exact ⟨rfl, rfl, rfl, fun r => by simp [List.mem_filter, h]⟩
      · rename_i h
        have h : ¬ x.pid = o.pid := by simpa using h
        subst hy
        exact ⟨rfl, rfl, rfl, fun r => by simp [h]⟩
    have hent' : ∀ x ∈ s.table, ∀ y, y = (if x.eid == e.eid then { x with rtes := x.rtes.erase o.pid } else x) →
        y.eid = x.eid ∧ y.name = x.name ∧ (∀ p, p ∈ y.rtes ↔ p ∈ x.rtes ∧ ¬ (x.eid = e.eid ∧ p = o.pid)) := by
      intro x hx y hy
      split at hy
      · rename_i h
        have h : x.eid = e.eid := by simpa using h
        subst hy
        refine ⟨rfl, rfl, fun p => ?_⟩
        show p ∈ x.rtes.erase o.pid ↔ _
        rw [(hi.rnodup x hx).mem_erase_iff]
        simp [h, and_comm]
      · rename_i h
        have h : ¬ x.eid = e.eid := by simpa using h
        subst hy
        exact ⟨rfl, rfl, fun p => by simp [h]⟩
    have husers : ∀ q, (users s' q).length + (if q = o.pid then 1 else 0) = (users s q).length := by
      intro q
      have h1 := users_modEntry (s := s.modObj o.pid (fun o => { o with use := o.use - 1, names := o.names.filter (fun p => !(p.1 == e.name)) }))
        (pid := q) (e := e) (f := fun e => { e with rtes := e.rtes.erase o.pid }) hi.eids he
      have h2 : users (s.modObj o.pid (fun o => { o with use := o.use - 1, names := o.names.filter (fun p => !(p.1 == e.name)) })) q = users s q := rfl
      rw [h2] at h1
      change (users s' q).length + _ = _ at h1
      have h3 : q ∈ e.rtes.erase o.pid ↔ q ∈ e.rtes ∧ ¬ q = o.pid := by
        rw [(hi.rnodup e he).mem_erase_iff, and_comm]
      by_cases hq : q = o.pid
      · subst hq
        rw [if_pos hm, if_neg (by simp [h3])] at h1
        rw [if_pos rfl]
        omega
      · by_cases hqe : q ∈ e.rtes
        · rw [if_pos hqe, if_pos (h3.2 ⟨hqe, hq⟩)] at h1
          rw [if_neg hq]; omega
        · rw [if_neg hqe, if_neg (fun h => hqe (h3.1 h).1)] at h1
          rw [if_neg hq]; omega
    refine ⟨?_, ?_, ?_, ?_⟩
    · constructor
      · have := modObj_pids s o.pid (fun o => { o with use := o.use - 1, names := o.names.filter (fun p => !(p.1 == e.name)) }) (fun _ => rfl)
        show ((s.modObj o.pid _).objs.map _).Nodup
        rw [this]; exact hi.pids
      · have := modEntry_eids (s.modObj o.pid (fun o => { o with use := o.use - 1, names := o.names.filter (fun p => !(p.1 == e.name)) })) e.eid
          (fun e => { e with rtes := e.rtes.erase o.pid }) (fun _ => rfl)
        show (s'.table.map _).Nodup
        rw [this]; exact hi.eids
      · have := modEntry_names (s.modObj o.pid (fun o => { o with use := o.use - 1, names := o.names.filter (fun p => !(p.1 == e.name)) })) e.eid
          (fun e => { e with rtes := e.rtes.erase o.pid }) (fun _ => rfl)
        show (s'.table.map _).Nodup
        rw [this]; exact hi.tnames
      · intro y hy
        obtain ⟨x, hx, h⟩ := hobj.1 hy
        rw [(hobj' x hx y h).1]; exact hi.pidlt x hx
      · intro y hy
        obtain ⟨x, hx, h⟩ := hent.1 hy
        rw [(hent' x hx y h).1]; exact hi.eidlt x hx
      · intro y hy y' hy' h1 h2 h3
        obtain ⟨x, hx, h⟩ := hobj.1 hy
        obtain ⟨x', hx', h'⟩ := hobj.1 hy'
        obtain ⟨-, a2, a3, -⟩ := hobj' x hx y h
        obtain ⟨-, b2, b3, -⟩ := hobj' x' hx' y' h'
        have := hi.dests x hx x' hx' (a2 ▸ h1) (b2 ▸ h2) (by rw [← a3, ← b3, h3])
        subst this
        rw [h, h']
      · intro y hy
        obtain ⟨x, hx, h⟩ := hent.1 hy
        split at h
        · rw [h]; exact (hi.rnodup x hx).erase _
        · rw [h]; exact hi.rnodup x hx
      · intro y hy p hp
        obtain ⟨x, hx, h⟩ := hent.1 hy
        obtain ⟨w, hw, h1, h2⟩ := hi.rlive x hx p (((hent' x hx y h).2.2 p).1 hp).1
        obtain ⟨g1, g2, -⟩ := hobj' w hw _ rfl
        exact ⟨_, hobj.2 ⟨w, hw, rfl⟩, g1.trans h1, g2.trans h2⟩
      · intro y hy hfe hnil
        obtain ⟨x, hx, h⟩ := hent.1 hy
        obtain ⟨g1, g2, g3⟩ := hent' x hx y h
        obtain ⟨p, hp⟩ := List.exists_mem_of_ne_nil _ (hi.rne x hx (by simp))
        have : p ∈ y.rtes := (g3 p).2 ⟨hp, fun hk => hfe (by rw [g1, hk.1])⟩
        rw [hnil] at this; simp at this
      · intro y hy hly
        obtain ⟨x, hx, h⟩ := hobj.1 hy
        obtain ⟨g1, g2, -⟩ := hobj' x hx y h
        have h1 := hi.use x hx (g2 ▸ hly)
        have h2 := husers x.pid
        rw [g1]
        split at h
        · rename_i hx'
          have hx' : x.pid = o.pid := by simpa using hx'
          rw [if_pos hx'] at h2
          rw [h]
          show x.use - 1 = _
          omega
        · rename_i hx'
          have hx' : ¬ x.pid = o.pid := by simpa using hx'
          rw [if_neg hx'] at h2
          rw [h]; omega
      · intro y hy hly hfo
        obtain ⟨x, hx, h⟩ := hobj.1 hy
        obtain ⟨g1, g2, -⟩ := hobj' x hx y h
        split at h
        · rename_i hx'
          have hx' : x.pid = o.pid := by simpa using hx'
          exact absurd (by rw [g1, hx']) hfo
        · rw [h]; exact hi.usepos x hx (g2 ▸ hly) (by simp)
      · intro y hy hly
        obtain ⟨x, hx, h⟩ := hobj.1 hy
        obtain ⟨g1, g2, -⟩ := hobj' x hx y h
        have hb := hi.bnodup x hx (g2 ▸ hly)
        split at h
        · rw [h]; exact List.Nodup.sublist (List.Sublist.map _ (List.filter_sublist)) hb
        · rw [h]; exact hb
      · intro y hy hly r hr
        obtain ⟨x, hx, h⟩ := hobj.1 hy
        obtain ⟨g1, g2, -, g4⟩ := hobj' x hx y h
        obtain ⟨k1, k2⟩ := (g4 r).1 hr
        obtain ⟨w, hw, m1, m2, m3⟩ := hi.back x hx (g2 ▸ hly) r k1
        obtain ⟨n1, n2, n3⟩ := hent' w hw _ rfl
        refine ⟨_, hent.2 ⟨w, hw, rfl⟩, n1.trans m1, n2.trans m2, (n3 _).2 ⟨g1 ▸ m3, ?_⟩⟩
        rintro ⟨q1, q2⟩
        exact k2 ⟨g1 ▸ q2, by rw [← m2, hi.entryUniq hw he q1]⟩
      · intro y hy hly w' hw' hp _
        obtain ⟨x, hx, h⟩ := hobj.1 hy
        obtain ⟨g1, g2, -, g4⟩ := hobj' x hx y h
        obtain ⟨w, hw, hwe⟩ := hent.1 hw'
        obtain ⟨m1, m2, m3⟩ := hent' w hw w' hwe
        obtain ⟨q1, q2⟩ := (m3 _).1 hp
        rw [m1, m2]
        refine (g4 _).2 ⟨hi.forth x hx (g2 ▸ hly) w hw (g1 ▸ q1) (by simp), ?_⟩
        rintro ⟨r1, r2⟩
        exact q2 ⟨by rw [nodup_inj hi.tnames hw he r2], by rw [g1, r1]⟩
    · intro p r
      constructor
      · rintro ⟨w', hw', h1, y, hy, h2, h3, h4⟩
        obtain ⟨x, hx, h⟩ := hobj.1 hy
        obtain ⟨g1, g2, g3, -⟩ := hobj' x hx y h
        obtain ⟨w, hw, hwe⟩ := hent.1 hw'
        obtain ⟨m1, m2, m3⟩ := hent' w hw w' hwe
        obtain ⟨q1, q2⟩ := (m3 _).1 h4
        refine ⟨⟨w, hw, m2 ▸ h1, x, hx, g2 ▸ h2, g3 ▸ h3, g1 ▸ q1⟩, ?_⟩
        rintro ⟨rfl, rfl⟩
        refine q2 ⟨by rw [nodup_inj hi.tnames hw he (m2 ▸ h1)], ?_⟩
        rw [g1, hi.dests x hx o ho (g2 ▸ h2) hl (g3 ▸ h3)]
      · rintro ⟨⟨w, hw, h1, x, hx, h2, h3, h4⟩, h5⟩
        obtain ⟨g1, g2, g3, -⟩ := hobj' x hx _ rfl
        obtain ⟨m1, m2, m3⟩ := hent' w hw _ rfl
        refine ⟨_, hent.2 ⟨w, hw, rfl⟩, m2.trans h1, _, hobj.2 ⟨x, hx, rfl⟩, g2.trans h2, g3.trans h3,
          (m3 _).2 ⟨by rw [g1]; exact h4, ?_⟩⟩
        rintro ⟨r1, r2⟩
        refine h5 ⟨by rw [← h1, hi.entryUniq hw he r1], ?_⟩
        rw [← h3, hi.objUniq hx ho (g1 ▸ r2)]
    · obtain ⟨m1, m2, -⟩ := hent' e he _ rfl
      exact ⟨_, hent.2 ⟨e, he, rfl⟩, m1, m2⟩
    · obtain ⟨m1, m2, -⟩ := hobj' o ho _ rfl
      exact ⟨_, hobj.2 ⟨o, ho, rfl⟩, m1, m2.trans hl⟩

theorem dropUnused_spec {s : Npt} {eid : Nat} {o : PoolObj} (hi : InvX s (some eid) (some o.pid) none)
    (ho : o ∈ s.objs) (hl : o.live = true) :
    InvX (s.dropUnused o.pid) (some eid) none none ∧ (∀ p r, Has (s.dropUnused o.pid) p r ↔ Has s p r) ∧
    (s.dropUnused o.pid).table = s.table := by
  unfold dropUnused
  have huse : s.useOf o.pid = o.use := by unfold useOf; rw [hi.obj ho]
  rw [huse]
  split
  case isFalse h0 =>
    refine ⟨⟨hi.pids, hi.eids, hi.tnames, hi.pidlt, hi.eidlt, hi.dests, hi.rnodup, hi.rlive, hi.rne, hi.use, ?_,
      hi.bnodup, hi.back, hi.forth⟩, fun _ _ => Iff.rfl, rfl⟩
    intro o' ho' hl' _
    by_cases h : o'.pid = o.pid
    · rw [hi.objUniq ho' ho h]; omega
    · exact hi.usepos o' ho' hl' (by simpa using fun h' => h h'.symm)
  case isTrue h0 =>
    have hno : ∀ e ∈ s.table, o.pid ∉ e.rtes := by
      intro e he hp
      have := users_pos he hp
      rw [← hi.use o ho hl] at this
      omega
    let s' := s.modObj o.pid (fun o => { o with live := false })
    have hobj : ∀ {y : PoolObj}, y ∈ s'.objs ↔ ∃ x ∈ s.objs, y = if x.pid == o.pid then { x with live := false } else x := mem_modObj
    have hlive : ∀ {y : PoolObj}, y ∈ s'.objs → y.live = true → y ∈ s.objs ∧ y.pid ≠ o.pid := by
      intro y hy hly
      obtain ⟨x, hx, h⟩ := hobj.1 hy
      split at h
      · rw [h] at hly; cases hly
      · rename_i hx'
        rw [h]; exact ⟨hx, by simpa using hx'⟩
    have hlift : ∀ {x : PoolObj}, x ∈ s.objs → x.pid ≠ o.pid → x ∈ s'.objs := by
      intro x hx hne
      exact hobj.2 ⟨x, hx, by simp [hne]⟩
    show InvX s' _ _ _ ∧ (∀ p r, Has s' p r ↔ _) ∧ s'.table = s.table
    refine ⟨?_, ?_, rfl⟩
    · constructor
      · have := modObj_pids s o.pid (fun o => { o with live := false }) (fun _ => rfl)
        rw [this]; exact hi.pids
      · exact hi.eids
      · exact hi.tnames
      · intro y hy
        obtain ⟨x, hx, h⟩ := hobj.1 hy
        have : y.pid = x.pid := by rw [h]; split <;> rfl
        rw [this]; exact hi.pidlt x hx
      · exact hi.eidlt
      · intro y hy y' hy' h1 h2 h3
        exact hi.dests y (hlive hy h1).1 y' (hlive hy' h2).1 h1 h2 h3
      · exact hi.rnodup
      · intro e he p hp
        obtain ⟨x, hx, h1, h2⟩ := hi.rlive e he p hp
        refine ⟨x, hlift hx ?_, h1, h2⟩
        intro h
        exact hno e he (by rw [← h, h1]; exact hp)
      · exact hi.rne
      · intro y hy hly; exact hi.use y (hlive hy hly).1 hly
      · intro y hy hly _
        exact hi.usepos y (hlive hy hly).1 hly (by simpa using fun h => (hlive hy hly).2 h.symm)
      · intro y hy hly; exact hi.bnodup y (hlive hy hly).1 hly
      · intro y hy hly; exact hi.back y (hlive hy hly).1 hly
      · intro y hy hly; exact hi.forth y (hlive hy hly).1 hly
    · intro p r
      constructor
      · rintro ⟨w, hw, h1, y, hy, h2, h3⟩
        exact ⟨w, hw, h1, y, (hlive hy h2).1, h2, h3⟩
      · rintro ⟨w, hw, h1, y, hy, h2, h3, h4⟩
        exact ⟨w, hw, h1, y, hlift hy (fun h => hno w hw (h ▸ h4)), h2, h3, h4⟩

theorem finishRemove_spec {s : Npt} {e : NptEntry} (hi : InvX s (some e.eid) none none) (he : e ∈ s.table)
    (name dest : Name) :
    Inv (s.finishRemove e.eid name dest) ∧ (∀ p r, Has (s.finishRemove e.eid name dest) p r ↔ Has s p r) := by
  unfold finishRemove
  rw [hi.entry he]
  dsimp only
  split
  case isFalse h0 =>
    have hs : Shape s ((s.regen e.eid).fibUpdate name dest (s.merge e.rtes) e.flags) :=
      (shape_regen _ _).trans (shape_fibUpdate _ _ _ _ _)
    refine ⟨hs.inv ⟨hi.pids, hi.eids, hi.tnames, hi.pidlt, hi.eidlt, hi.dests, hi.rnodup, hi.rlive, ?_, hi.use,
      hi.usepos, hi.bnodup, hi.back, hi.forth⟩, hs.has⟩
    intro w hw _ hnil
    by_cases h : w.eid = e.eid
    · rw [hi.entryUniq hw he h] at hnil
      rw [hnil] at h0; exact h0 rfl
    · exact hi.rne w hw (by simpa using fun h' => h h'.symm) hnil
  case isTrue h0 =>
    have hnil : e.rtes = [] := List.length_eq_zero_iff.1 h0
    let s' := { s with table := s.table.filter (fun x => !(x.eid == e.eid)) }.emit (.remove name)
    have hent : ∀ {w : NptEntry}, w ∈ s'.table ↔ w ∈ s.table ∧ w.eid ≠ e.eid := by
      intro w
      show w ∈ s.table.filter _ ↔ _
      rw [List.mem_filter]
      simp
    have hkeep : ∀ {w : NptEntry} {p : Nat}, w ∈ s.table → p ∈ w.rtes → w ∈ s'.table := by
      intro w p hw hp
      refine hent.2 ⟨hw, fun h => ?_⟩
      rw [hi.entryUniq hw he h, hnil] at hp
      simp at hp
    show Inv s' ∧ ∀ p r, Has s' p r ↔ _
    have hu : ∀ q, (users s' q).length = (users s q).length := by
      intro q
      show ((s.table.filter _).filter _).length = (s.table.filter _).length
      rw [List.filter_filter]
      congr 1
      refine List.filter_congr fun w hw => ?_
      by_cases hq : q ∈ w.rtes
      · have := (hent.1 (hkeep hw hq)).2
        simp [hq, this]
      · simp [hq]
    refine ⟨?_, ?_⟩
    · constructor
      · exact hi.pids
      · exact List.Nodup.sublist (List.Sublist.map _ List.filter_sublist) hi.eids
      · exact List.Nodup.sublist (List.Sublist.map _ List.filter_sublist) hi.tnames
      · exact hi.pidlt
      · intro w hw; exact hi.eidlt w (hent.1 hw).1
      · exact hi.dests
      · intro w hw; exact hi.rnodup w (hent.1 hw).1
      · intro w hw; exact hi.rlive w (hent.1 hw).1
      · intro w hw _
        exact hi.rne w (hent.1 hw).1 (by simpa using fun h => (hent.1 hw).2 h.symm)
      · intro o ho hl; rw [hu]; exact hi.use o ho hl
      · exact hi.usepos
      · exact hi.bnodup
      · intro o ho hl r hr
        obtain ⟨w, hw, h1, h2, h3⟩ := hi.back o ho hl r hr
        exact ⟨w, hkeep hw h3, h1, h2, h3⟩
      · intro o ho hl w hw; exact hi.forth o ho hl w (hent.1 hw).1
    · intro p r
      constructor
      · rintro ⟨w, hw, h⟩
        exact ⟨w, (hent.1 hw).1, h⟩
      · rintro ⟨w, hw, h1, o, ho, h2, h3, h4⟩
        exact ⟨w, hkeep hw h4, h1, o, ho, h2, h3, h4⟩

/-- `removeEntry` keeps the invariant and removes one advertiser. -/
theorem removeEntry_spec {s : Npt} (hi : Inv s) (name dest : Name) :
    Inv (s.removeEntry name dest) ∧
    ∀ p r, Has (s.removeEntry name dest) p r ↔ Has s p r ∧ ¬ (p = name ∧ r = dest) := by
  unfold removeEntry
  cases hf : s.inPool dest with
  | none =>
    refine ⟨hi, fun p r => ⟨fun h => ⟨h, ?_⟩, And.left⟩⟩
    rintro ⟨rfl, rfl⟩
    obtain ⟨w, hw, h1, o, ho, h2, h3, h4⟩ := h
    exact inPool_none hf o ho h2 h3
  | some o =>
    obtain ⟨ho, hl, hd⟩ := find_inPool hf
    dsimp only
    cases hn : s.byName name with
    | none =>
      refine ⟨hi, fun p r => ⟨fun h => ⟨h, ?_⟩, And.left⟩⟩
      rintro ⟨rfl, rfl⟩
      obtain ⟨w, hw, h1, -⟩ := h
      exact byName_none hn w hw h1
    | some e =>
      obtain ⟨he, hen⟩ := find_byName hn
      dsimp only
      obtain ⟨h1, h2, ⟨e', he', h3, h4⟩, o', ho', h5, h6⟩ := removeRte_spec hi he ho hl
      generalize s.removeRte e o.pid = s1 at *
      rw [← h5] at h1 ⊢
      obtain ⟨g1, g2, g3⟩ := dropUnused_spec h1 ho' h6
      generalize s1.dropUnused o'.pid = s2 at *
      rw [← h3] at g1 ⊢
      obtain ⟨k1, k2⟩ := finishRemove_spec g1 (g3 ▸ he') name dest
      refine ⟨k1, fun p r => ?_⟩
      rw [k2, g2, h2, hen, hd]

end Npt
end Nlsr
