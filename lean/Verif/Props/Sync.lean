import Verif.Model.Sync
import Verif.Props.LsdbSeqs
import Verif.Props.LsdbAsk
import Verif.Props.Names
/- C91: what a router announces is what the sync library tells the others. -/
namespace Nlsr
open Lsdb

namespace Sync

/-- The types of LSA a router makes in a mode of routing. -/
def InMode (h : HypState) : LsaType → Prop
  | .name => True
  | .adjacency => h ≠ .on
  | .coordinate => h ≠ .off
  | .base => False

/-- No fetched LSA carries the name of the router that fetched it. -/
def NotOwn (c : LConf) (ops : List Op) : Prop := ∀ i l, .fetched i (some l) ∈ ops → l.origin ≠ c.router

/-- Nothing of a type the router does not make is stored or announced. -/
structure Modes (c : LConf) (s : Lsdb) : Prop where
  stored : ∀ t, ¬ InMode c.hyp t → storedAt s c.router t = none
  log : ∀ t k, .publish t k ∈ s.log → InMode c.hyp t

theorem Modes.announced {c : LConf} {s s' : Lsdb} (h : Modes c s) {t : LsaType} {b : Nat} (ha : Announced c s s' t b)
    (ht : InMode c.hyp t) : Modes c s' := by
  constructor
  · intro t' ht'
    rw [ha.rest t' (fun e => ht' (e ▸ ht))]
    exact h.stored t' ht'
  · intro t' k hk
    obtain ⟨outs, h1, h2⟩ := ha.log
    rw [h1] at hk
    rcases List.mem_append.1 hk with hk | hk
    · exact h.log t' k hk
    · rcases List.mem_cons.1 hk with hk | hk
      · cases hk
      · rcases List.mem_cons.1 hk with hk | hk
        · cases hk; exact ht
        · cases h2 _ hk

theorem Modes.init (c : LConf) (disk : Option Seqs) (adjs : AdjacencyList) (npl : List PrefixInfo) (sys : Int) :
    Modes c (Lsdb.init c disk adjs npl sys) := by
  have h0 : Modes c (boot c disk adjs npl sys) := ⟨fun _ _ => rfl, fun t k hk => by cases hk⟩
  obtain ⟨s1, h1, h2⟩ := init_seq c disk adjs npl sys
  have h1' := h0.announced h1 trivial
  rcases h2 with ⟨_, e⟩ | ⟨hh, h2⟩
  · rw [e]; exact h1'
  · exact h1'.announced h2 hh

theorem Modes.step {c : LConf} {s : Lsdb} (h : Modes c s) (hr : Reachable c s) (op : Op)
    (ho : ∀ i l, op = .fetched i (some l) → l.origin ≠ c.router) : Modes c (Lsdb.step c s op) := by
  cases step_seq hr op with
  | quiet hq =>
    constructor
    · intro t ht
      rcases hq.own t with e | ⟨_, _, e⟩ | ⟨i, l, e1, e2, _⟩
      · rw [e]; exact h.stored t ht
      · exact e
      · exact absurd e2 (ho i l e1)
    · intro t k hk
      obtain ⟨outs, h1, h2⟩ := hq.log
      rw [h1] at hk
      rcases List.mem_append.1 hk with hk | hk
      · exact h.log t k hk
      · cases h2 _ hk
  | announced t b src ha =>
    refine h.announced ha ?_
    cases src with
    | build _ hop =>
      rcases hop with ⟨_, rfl⟩ | ⟨_, rfl, hh⟩
      · trivial
      · exact hh
    | adopt u k last _ _ _ _ _ _ hmode =>
      rcases hmode with rfl | ⟨rfl, hh⟩ | ⟨rfl, hh⟩
      · trivial
      · show c.hyp ≠ .on; rw [hh]; simp
      · show c.hyp ≠ .off; rw [hh]; simp
    | refresh eid _ hb =>
      refine Classical.byContradiction fun hn => ?_
      rw [h.stored t hn] at hb
      cases hb

theorem Modes.run {c : LConf} (ops : List Op) : ∀ {s : Lsdb}, Modes c s → Reachable c s → NotOwn c ops →
    Modes c (Lsdb.run c s ops) := by
  induction ops with
  | nil => intro s h _ _; exact h
  | cons op ops ih =>
    intro s h hr ho
    refine ih (h.step hr op ?_) (hr.step op) (fun i l hm => ho i l (List.mem_cons_of_mem _ hm))
    intro i l e
    exact ho i l (by rw [e]; exact List.mem_cons_self)

theorem text_inj {t t' : LsaType} (h : Comp.str t.text = Comp.str t'.text) : t = t' := by
  revert h
  cases t <;> cases t' <;> first | (intro _; rfl) | (intro h; exact absurd h (by decide +kernel))

theorem user_inj {c : RouterConf} {t t' : LsaType} (h : c.lsaUserPrefix t = c.lsaUserPrefix t') : t = t' := by
  unfold RouterConf.lsaUserPrefix at h
  have := List.append_cancel_left h
  simp only [List.cons.injEq, and_true] at this
  exact text_inj this

theorem node_inj {p : SyncProto} {a b : Name} (h : node p a = node p b) : a = b := by
  cases p with
  | chronosync => exact List.append_cancel_right h
  | psync => exact h
  | svs => exact h

theorem node_ne {p : SyncProto} {c : RouterConf} {t t' : LsaType} (h : t ≠ t') :
    node p (c.lsaUserPrefix t) ≠ node p (c.lsaUserPrefix t') := fun e => h (user_inj (node_inj e))

/-- `publishRouting` for a type of LSA. -/
theorem publishRouting_eq {p : SyncProto} {takes : Nat → Nat → Bool} {c : LConf} {T : Table} {t : LsaType} {k : Nat}
    (ht : t ≠ .base) : publishRouting p takes c T t k = publishUpdate p takes T (c.names.lsaUserPrefix t) k := by
  cases t <;> first | rfl | exact absurd rfl ht

/-- The table after a log: each node has the last number announced for its type. -/
structure Tracks (p : SyncProto) (c : LConf) (T : Table) (log : List Out) : Prop where
  own : ∀ n k, T n = some k → ∃ t, t ≠ .base ∧ n = node p (c.names.lsaUserPrefix t)
  num : ∀ t, t ≠ .base → (T (node p (c.names.lsaUserPrefix t))).getD 0 = ((published t log).getLast?).getD 0
  reg : ∀ t, InMode c.hyp t → p ≠ .svs → (T (node p (c.names.lsaUserPrefix t))).isSome

theorem addUserNode_other {p : SyncProto} {T : Table} {u : Name} {n : Name} (h : n ≠ node p u) :
    addUserNode p T u n = T n := by
  cases p with
  | svs => rfl
  | chronosync | psync =>
    simp only [addUserNode]
    split
    · rfl
    · simp [Table.set, h]

theorem addUserNode_self {p : SyncProto} {T : Table} {u : Name} (hp : p ≠ .svs) :
    (addUserNode p T u (node p u)).isSome := by
  cases p with
  | svs => exact absurd rfl hp
  | chronosync | psync =>
    simp only [addUserNode]
    split
    · assumption
    · simp [Table.set]

theorem addUserNode_keep {p : SyncProto} {T : Table} {u n : Name} (h : (T n).isSome) : (addUserNode p T u n).isSome := by
  by_cases e : n = node p u
  · cases p with
    | svs => exact h
    | chronosync | psync =>
      simp only [addUserNode]
      split
      · exact h
      · simp [Table.set, e]
  · rw [addUserNode_other e]; exact h

theorem addUserNode_zero {p : SyncProto} {T : Table} {u : Name} (h : ∀ n, (T n).getD 0 = 0) :
    ∀ n, (addUserNode p T u n).getD 0 = 0 := by
  intro n
  cases p with
  | svs => exact h n
  | chronosync | psync =>
    simp only [addUserNode]
    split
    · exact h n
    · simp only [Table.set]
      split
      · rfl
      · exact h n

theorem handler_tracks (p : SyncProto) (c : LConf) : Tracks p c (handler p c) [] := by
  refine ⟨?_, ?_, ?_⟩
  · intro n k hk
    refine Classical.byContradiction fun hn => ?_
    have hn : ∀ t, t ≠ .base → n ≠ node p (c.names.lsaUserPrefix t) := fun t ht e => hn ⟨t, ht, e⟩
    have e : handler p c n = none := by
      unfold handler adapter
      split <;> split <;> simp only [addUserNode_other (hn _ (by simp : LsaType.coordinate ≠ .base)),
        addUserNode_other (hn _ (by simp : LsaType.adjacency ≠ .base)),
        addUserNode_other (hn _ (by simp : LsaType.name ≠ .base))]
    rw [e] at hk
    cases hk
  · intro t _
    have z : ∀ n, (handler p c n).getD 0 = 0 := by
      have z0 : ∀ n, ((fun _ => none : Table) n).getD 0 = 0 := fun _ => rfl
      unfold handler adapter
      split <;> split <;> first
        | exact addUserNode_zero (addUserNode_zero (addUserNode_zero z0))
        | exact addUserNode_zero (addUserNode_zero z0)
        | exact addUserNode_zero z0
    rw [z]
    rfl
  · intro t ht hp
    unfold handler adapter
    cases t with
    | base => cases ht
    | name =>
      split <;> split
      · exact addUserNode_keep (addUserNode_keep (addUserNode_self hp))
      · exact addUserNode_keep (addUserNode_self hp)
      · exact addUserNode_keep (addUserNode_self hp)
      · exact addUserNode_self hp
    | adjacency =>
      rw [if_pos (show c.hyp ≠ .on from ht)]
      split
      · exact addUserNode_keep (addUserNode_self hp)
      · exact addUserNode_self hp
    | coordinate =>
      rw [if_pos (show c.hyp ≠ .off from ht)]
      exact addUserNode_self hp

theorem published_snoc_other {t : LsaType} {log : List Out} {o : Out} (h : ∀ k, o ≠ .publish t k) :
    published t (log ++ [o]) = published t log := by
  rw [published_append]
  have : published t [o] = [] := by
    cases o with
    | publish t' k =>
      have : t' ≠ t := fun e => h k (by rw [e])
      simp [published, this]
    | _ => rfl
  rw [this, List.append_nil]

theorem published_snoc_self {t : LsaType} {log : List Out} {k : Nat} :
    published t (log ++ [.publish t k]) = published t log ++ [k] := by
  rw [published_append]
  simp [published]

/-- A higher number for a node that is known, or for any node with SVS. -/
theorem publishUpdate_eq {p : SyncProto} {takes : Nat → Nat → Bool} {T : Table} {u : Name} {k : Nat}
    (htakes : ∀ a b, a < b → takes a b = true) (hlt : (T (node p u)).getD 0 < k)
    (hreg : p ≠ .svs → (T (node p u)).isSome) : publishUpdate p takes T u k = T.set (node p u) k := by
  unfold publishUpdate
  cases hT : T (node p u) with
  | none =>
    have : p = .svs := Classical.byContradiction fun hp => by have := hreg hp; rw [hT] at this; cases this
    dsimp only
    rw [if_pos this]
  | some old =>
    rw [hT] at hlt
    dsimp only
    rw [if_pos (htakes old k hlt)]

theorem Tracks.snoc {p : SyncProto} {takes : Nat → Nat → Bool} {c : LConf} {T : Table} {log : List Out} (h : Tracks p c T log)
    (htakes : ∀ a b, a < b → takes a b = true) {t : LsaType} {k : Nat} (hm : InMode c.hyp t)
    (hlt : ((published t log).getLast?).getD 0 < k) :
    Tracks p c (publishRouting p takes c T t k) (log ++ [.publish t k]) := by
  have ht : t ≠ .base := by intro e; rw [e] at hm; exact hm
  rw [publishRouting_eq ht, publishUpdate_eq htakes (by rw [h.num t ht]; exact hlt) (h.reg t hm)]
  refine ⟨?_, ?_, ?_⟩
  · intro n m hn
    unfold Table.set at hn
    split at hn
    · rename_i e
      exact ⟨t, ht, e⟩
    · exact h.own n m hn
  · intro t' ht'
    by_cases e : t' = t
    · subst e
      rw [published_snoc_self]
      simp [Table.set]
    · rw [published_snoc_other (fun k' e' => by cases e'; exact e rfl), ← h.num t' ht']
      unfold Table.set
      rw [if_neg (node_ne e)]
  · intro t' ht' hp
    unfold Table.set
    split
    · rfl
    · exact h.reg t' ht' hp

theorem last_lt {l : List Nat} {k : Nat} (h : (l ++ [k]).Pairwise (· < ·)) (h0 : k ≠ 0) : (l.getLast?).getD 0 < k := by
  cases hl : l.getLast? with
  | none => exact Nat.pos_of_ne_zero h0
  | some m =>
    exact (List.pairwise_append.1 h).2.2 m (List.mem_of_getLast? hl) k (List.mem_singleton.2 rfl)

theorem tracks_fold {p : SyncProto} {takes : Nat → Nat → Bool} {c : LConf} (htakes : ∀ a b, a < b → takes a b = true)
    (rest : List Out) : ∀ {T : Table} {pre : List Out}, Tracks p c T pre →
    (∀ t k, .publish t k ∈ pre ++ rest → InMode c.hyp t ∧ k ≠ 0) →
    (∀ t, t ≠ .base → (published t (pre ++ rest)).Pairwise (· < ·)) →
    Tracks p c (rest.foldl (fun T o => match o with
      | .publish t k => publishRouting p takes c T t k
      | _ => T) T) (pre ++ rest) := by
  induction rest with
  | nil => intro T pre h _ _; rw [List.append_nil]; exact h
  | cons o rest ih =>
    intro T pre h hm hs
    have e : pre ++ o :: rest = (pre ++ [o]) ++ rest := by simp
    rw [e] at hm hs ⊢
    rw [List.foldl_cons]
    refine ih ?_ hm hs
    cases o with
    | publish t k =>
      have hk := hm t k (by simp)
      refine h.snoc htakes hk.1 (last_lt ?_ hk.2)
      have ht : t ≠ .base := by intro e; rw [e] at hk; exact hk.1
      have := hs t ht
      rw [published_append, published_snoc_self] at this
      exact (List.pairwise_append.1 this).1
    | _ =>
      refine ⟨h.own, ?_, h.reg⟩
      intro t ht
      rw [published_snoc_other (by intro k e; cases e)]
      exact h.num t ht

theorem mem_published {t : LsaType} {k : Nat} {log : List Out} : k ∈ published t log ↔ .publish t k ∈ log := by
  unfold published
  rw [List.mem_filterMap]
  constructor
  · rintro ⟨o, ho, e⟩
    cases o with
    | publish t' n =>
      dsimp only at e
      split at e
      · rename_i e'
        cases e
        rw [← e']
        exact ho
      · cases e
    | _ => cases e
  · intro h
    exact ⟨_, h, by simp⟩

end Sync
open Sync

/-- For every run of a router from its start, every sync library and every mode of routing: the library's table has,
for each type of LSA, exactly the last number the router has announced, under the name of that type, and nothing else.
So no announcement is lost and no older number stays on offer.  Assumed of the library: a higher number of a node that
has been added replaces the lower one.  Missing for the full property: a fetched LSA that carries the router's own name
(`C91_violated_unregistered`), a sync report of an old number of the own adjacency LSA (`C91_violated_lower`), and
numbers that wrap around. -/
theorem C91_offered_partial (c : LConf) (disk : Option Seqs) (adjs : AdjacencyList) (npl : List PrefixInfo) (sys : Int)
    (ops : List Op) (hown : NotOwn c ops) (hf : FreshRun c [] (Lsdb.init c disk adjs npl sys) ops)
    (h0 : ∀ t, Out.publish t 0 ∉ (Lsdb.run c (Lsdb.init c disk adjs npl sys) ops).log)
    (p : SyncProto) (takes : Nat → Nat → Bool) (htakes : ∀ a b, a < b → takes a b = true) :
    let log := (Lsdb.run c (Lsdb.init c disk adjs npl sys) ops).log
    (∀ t k, (published t log).getLast? = some k → table p takes c log (node p (c.names.lsaUserPrefix t)) = some k) ∧
    (∀ n k, table p takes c log n = some k → k ≠ 0 →
      ∃ t, n = node p (c.names.lsaUserPrefix t) ∧ (published t log).getLast? = some k) := by
  intro log
  have hr : Reachable c (Lsdb.run c (Lsdb.init c disk adjs npl sys) ops) := ⟨disk, adjs, npl, sys, ops, rfl⟩
  have hmodes : Modes c (Lsdb.run c (Lsdb.init c disk adjs npl sys) ops) :=
    Modes.run ops (Modes.init c disk adjs npl sys) ⟨disk, adjs, npl, sys, [], rfl⟩ hown
  have hz : ∀ t, 0 ∉ published t log := fun t hm => h0 t (mem_published.1 hm)
  have hT : Tracks p c (table p takes c log) log := by
    have := tracks_fold (p := p) (takes := takes) (c := c) htakes log (handler_tracks p c) (pre := [])
      (by
        intro t k hk
        refine ⟨hmodes.log t k hk, ?_⟩
        intro e
        rw [e] at hk
        exact h0 t hk)
      (by
        intro t ht
        cases t with
        | base => exact absurd rfl ht
        | name => exact C36_name_coordinate_partial hr .name (Or.inl rfl) (hz _)
        | coordinate => exact C36_name_coordinate_partial hr .coordinate (Or.inr rfl) (hz _)
        | adjacency => exact C36_adjacency_partial c disk adjs npl sys ops hf (hz _))
    exact this
  constructor
  · intro t k hk
    have hmem : .publish t k ∈ log := mem_published.1 (List.mem_of_getLast? hk)
    have hm := hmodes.log t k hmem
    have ht : t ≠ .base := by intro e; rw [e] at hm; exact hm
    have hk0 : k ≠ 0 := by intro e; rw [e] at hmem; exact h0 t hmem
    have := hT.num t ht
    rw [hk] at this
    cases hx : table p takes c log (node p (c.names.lsaUserPrefix t)) with
    | none => rw [hx] at this; exact absurd this.symm hk0
    | some m => rw [hx] at this; exact congrArg some this
  · intro n k hn hk0
    obtain ⟨t, ht, e⟩ := hT.own n k hn
    refine ⟨t, e, ?_⟩
    have := hT.num t ht
    rw [← e, hn] at this
    cases hl : (published t log).getLast? with
    | none => rw [hl] at this; exact absurd this hk0
    | some m => rw [hl] at this; exact congrArg some this.symm

namespace Sync
theorem getPrefix_snoc (a : Name) (x : Comp) (h : a.length < 2 ^ 63) : Name.getPrefix (a ++ [x]) (-1) = a := by
  rw [show (-1 : Int) = -((1 : Nat) : Int) from rfl, Name.getPrefix_neg (n := a ++ [x]) 1 (by omega) (by simp) (by simp; omega)]
  simp

theorem onUpdate_node (p : SyncProto) (u : Name) (k face : Nat) (h : u.length < 2 ^ 63) :
    (onUpdate p ⟨node p u, k, face⟩).1 = u ∧ (onUpdate p ⟨node p u, k, face⟩).2.1 = k := by
  cases p with
  | chronosync => exact ⟨getPrefix_snoc u _ h, rfl⟩
  | psync => exact ⟨rfl, rfl⟩
  | svs => exact ⟨rfl, rfl⟩

/-- A report about the node of another router. -/
theorem report_peer {c : LConf} {a : RouterConf} (ha : Peer c a) (t : LsaType) (p : SyncProto) (s : Lsdb) (k face : Nat)
    (hk : k < 2 ^ 64) : report p c s ⟨node p (a.lsaUserPrefix t), k, face⟩ = step c s (.sync (a.lsaUserPrefix t) k) := by
  have hl : (a.lsaUserPrefix t).length < 2 ^ 63 := by
    have := ha.short
    simp only [RouterConf.lsaUserPrefix, RouterConf.syncUserPrefix, RouterConf.lsaPrefix, List.length_append,
      List.length_cons, List.length_nil]
    omega
  obtain ⟨e1, e2⟩ := onUpdate_node p (a.lsaUserPrefix t) k face hl
  unfold report
  rw [e1, e2]
  show _ = Lsdb.sync c s _ (k % 18446744073709551616)
  rw [Nat.mod_eq_of_lt hk]
end Sync

/-- When a library reports the node of a type of LSA of another router, with any of the three protocols: (1) if routing
uses the type, no LSA of that router and type with this number or a higher one is stored, and no higher number was
reported, exactly this LSA is asked for, under the name that router answers to; (2) if such an LSA is stored, or the
type is not used, nothing happens.  Missing for the full property: network names with an `nlsr` or `LSA`
component (C57). -/
theorem C91_told_partial {c : LConf} {s : Lsdb} (h : Reachable c s) {a : RouterConf} (ha : Peer c a) (t : LsaType)
    (ht : t ≠ .base) (p : SyncProto) (k face : Nat) (hk : k < 2 ^ 64) :
    (Used c t → Newer s a.routerPrefix t k → (∀ n, s.highestOf (a.lsaUserPrefix t) = some n → n ≤ k) →
      (report p c s ⟨node p (a.lsaUserPrefix t), k, face⟩).log =
        s.log ++ [.newLsa (a.lsaUserPrefix t) k a.routerPrefix, .interest (a.lsaUserPrefix t) k]) ∧
    (¬ Newer s a.routerPrefix t k ∨ (¬ Used c t ∧ k ≠ 0) → report p c s ⟨node p (a.lsaUserPrefix t), k, face⟩ = s) := by
  rw [report_peer ha t p s k face hk]
  have := C87_asked h ha t ht k hk
  exact ⟨fun h1 h2 h3 => (this.1 h1 h2 h3).1, this.2.1⟩

/-- From one router to another: whenever the library of router `a` has heard of the last number `k` that `a` announced
for a type, what it has for that node, reported to a router that does not have this LSA, makes that router ask for
exactly the LSA `a` announced last.  Missing for the full property: see `C91_offered_partial` and
`C91_told_partial`. -/
theorem C91_end_to_end_partial (a : LConf) (disk : Option Seqs) (adjs : AdjacencyList) (npl : List PrefixInfo) (sys : Int)
    (ops : List Op) (hown : NotOwn a ops) (hf : FreshRun a [] (Lsdb.init a disk adjs npl sys) ops)
    (h0 : ∀ t, Out.publish t 0 ∉ (Lsdb.run a (Lsdb.init a disk adjs npl sys) ops).log)
    (p : SyncProto) (takes : Nat → Nat → Bool) (htakes : ∀ x y, x < y → takes x y = true)
    {c : LConf} {s : Lsdb} (h : Reachable c s) (ha : Peer c a.names) (t : LsaType) (ht : t ≠ .base) (hu : Used c t) (k : Nat)
    (hk : (published t (Lsdb.run a (Lsdb.init a disk adjs npl sys) ops).log).getLast? = some k) (hk64 : k < 2 ^ 64)
    (hn : Newer s a.router t k) (hh : ∀ n, s.highestOf (a.names.lsaUserPrefix t) = some n → n ≤ k) (face : Nat) :
    ∃ n m, table p takes a (Lsdb.run a (Lsdb.init a disk adjs npl sys) ops).log n = some m ∧
      (report p c s ⟨n, m, face⟩).log =
        s.log ++ [.newLsa (a.names.lsaUserPrefix t) k a.router, .interest (a.names.lsaUserPrefix t) k] :=
  ⟨_, k, (C91_offered_partial a disk adjs npl sys ops hown hf h0 p takes htakes).1 t k hk,
    (C91_told_partial h ha t ht p k face hk64).1 hu hn hh⟩

/-- C91 fails for the adjacency LSA when an old number of it is reported back: the router had announced 1, 2 and 3 and
removed its LSA when it had no neighbour left; the report of 1 makes it announce 2, which a library that only takes
higher numbers drops, so the others are never told of the new LSA. -/
theorem C91_violated_lower :
    let s := run (exConf .off) (exStart .off) (exBuild ++ exBuilds ++ [.sync (exUpdate "r1" "ADJACENCY") 1])
    published .adjacency s.log = [1, 2, 3, 2] ∧
    table .chronosync (fun a b => decide (a < b)) (exConf .off) s.log
      (node .chronosync ((exConf .off).names.lsaUserPrefix .adjacency)) = some 3 := by
  decide +kernel

/-! ### Cases -/

/-- Non-vacuity of `C91_offered_partial`: two builds of the Name LSA and two of the adjacency LSA. -/
example : let ops : List Op := exBuild ++ [.buildName] ++ exBuild
    NotOwn (exConf .off) ops ∧ FreshRun (exConf .off) [] (exStart .off) ops ∧
    (∀ t, Out.publish t 0 ∉ (run (exConf .off) (exStart .off) ops).log) ∧
    (published .name (run (exConf .off) (exStart .off) ops).log).getLast? = some 2 ∧
    (published .adjacency (run (exConf .off) (exStart .off) ops).log).getLast? = some 2 ∧
    (∀ p, table p (fun a b => decide (a < b)) (exConf .off) (run (exConf .off) (exStart .off) ops).log
      (node p ((exConf .off).names.lsaUserPrefix .adjacency)) = some 2) ∧
    (∀ p, table p (fun a b => decide (a < b)) (exConf .off) (run (exConf .off) (exStart .off) ops).log
      (node p ((exConf .off).names.lsaUserPrefix .coordinate)) = none) := by
  refine ⟨?_, ?_, ?_, by decide +kernel, by decide +kernel, ?_, ?_⟩
  · intro i l hm; simp [exBuild] at hm
  · simp [FreshRun, exBuild]
  · intro t; cases t <;> decide +kernel
  · intro p; cases p <;> decide +kernel
  · intro p; cases p <;> decide +kernel

/-- Non-vacuity of `C91_told_partial`: a report about the router r2, with each protocol, makes r1 ask for the LSA. -/
example : ∀ p, (report p (exConf .off) (exStart .off) ⟨node p (exPeer2.lsaUserPrefix .name), 7, 300⟩).fetches.map
    (fun f => (f.lsaName, f.seq)) = [(exPeer2.lsaUserPrefix .name, 7)] := by
  intro p; cases p <;> decide +kernel

end Nlsr
