import Verif.Model.LinkState
import Verif.Lemmas.Path
namespace Nlsr.LS

theorem Vec.get?_some {α} {v : Vec α} {i : Nat} (h : i < v.size) : v.get? i = some (v.at' i) := by
  simp [Vec.get?, h]

theorem Vec.set?_some {α} {v : Vec α} {i : Nat} (h : i < v.size) (x : α) :
    v.set? i x = some ⟨v.size, fun j => if j = i then x else v.at' j⟩ := by
  simp [Vec.set?, h]

/-! ### Sorting -/

theorem bubble_spec (dist : Vec Int) : ∀ (rest : List Nat) (cur : Nat),
    cur < dist.size → (∀ x ∈ rest, x < dist.size) →
    ∃ m r, bubble dist cur rest = some (m, r) ∧ (m :: r).Perm (cur :: rest) ∧
      (∀ x ∈ cur :: rest, dist.at' m ≤ dist.at' x) := by
  intro rest
  induction rest with
  | nil => intro cur _ _; exact ⟨cur, [], rfl, List.Perm.refl _, by simp⟩
  | cons x rest ih =>
    intro cur hc hr
    have hx : x < dist.size := hr x (by simp)
    have hr' : ∀ y ∈ rest, y < dist.size := fun y hy => hr y (by simp [hy])
    simp only [bubble, Vec.get?_some hx, Vec.get?_some hc, Option.bind_eq_bind, Option.bind_some]
    by_cases hlt : dist.at' x < dist.at' cur
    · obtain ⟨m, r, h1, h2, h3⟩ := ih x hx hr'
      refine ⟨m, cur :: r, by simp [hlt, h1], ?_, ?_⟩
      · exact (List.Perm.swap cur m r).trans (List.Perm.cons cur h2)
      · intro y hy
        have h4 := h3 x (by simp)
        simp only [List.mem_cons] at hy
        rcases hy with rfl | rfl | hy
        · omega
        · exact h4
        · exact h3 y (by simp [hy])
    · obtain ⟨m, r, h1, h2, h3⟩ := ih cur hc hr'
      refine ⟨m, x :: r, by simp [hlt, h1], ?_, ?_⟩
      · exact (List.Perm.swap x m r).trans ((List.Perm.cons x h2).trans (List.Perm.swap cur x rest))
      · intro y hy
        have h4 := h3 cur (by simp)
        simp only [List.mem_cons] at hy
        rcases hy with rfl | rfl | hy
        · exact h4
        · omega
        · exact h3 y (by simp [hy])

theorem exchSort_spec (dist : Vec Int) : ∀ (k : Nat) (l : List Nat), l.length = k →
    (∀ x ∈ l, x < dist.size) →
    ∃ r, exchSort dist k l = some r ∧ r.Perm l ∧ r.Pairwise (fun a b => dist.at' a ≤ dist.at' b) := by
  intro k
  induction k with
  | zero =>
    intro l hl _
    have : l = [] := List.length_eq_zero_iff.1 hl
    subst this
    exact ⟨[], rfl, List.Perm.refl _, List.Pairwise.nil⟩
  | succ k ih =>
    intro l hl hb
    match l, hl, hb with
    | x :: rest, hl, hb =>
      obtain ⟨m, r, h1, h2, h3⟩ := bubble_spec dist rest x (hb x (by simp))
        (fun y hy => hb y (by simp [hy]))
      have hlen : r.length = k := by
        have := h2.length_eq
        simp at this hl
        omega
      obtain ⟨r', h4, h5, h6⟩ := ih r hlen (fun y hy => hb y (h2.mem_iff.1 (by simp [hy])))
      refine ⟨m :: r', by simp [exchSort, h1, h4], (List.Perm.cons m h5).trans h2, ?_⟩
      rw [List.pairwise_cons]
      refine ⟨fun y hy => h3 y (h2.mem_iff.1 ?_), h6⟩
      exact List.mem_cons_of_mem _ (h5.mem_iff.1 hy)

theorem sortQueue_spec (q : List Nat) (dist : Vec Int) (start : Nat)
    (hb : ∀ x ∈ q, x < dist.size) :
    ∃ r, sortQueue q dist start = some (q.take start ++ r) ∧ r.Perm (q.drop start) ∧
      r.Pairwise (fun a b => dist.at' a ≤ dist.at' b) := by
  obtain ⟨r, h1, h2, h3⟩ := exchSort_spec dist (q.drop start).length (q.drop start) rfl
    (fun x hx => hb x (List.mem_of_mem_drop hx))
  exact ⟨r, by simp only [sortQueue, h1]; rfl, h2, h3⟩

/-! ### Relaxation -/

/-- Usable edges of a matrix. -/
def Edge (m : Mat) (u v : Nat) (w : Int) : Prop := u < m.n ∧ v < m.n ∧ m.at' u v = .fin w ∧ 0 ≤ w

theorem Edge.nonneg {m : Mat} : ∀ u v w, Edge m u v w → 0 ≤ w := fun _ _ _ h => h.2.2.2

/-- `relax` on one vertex: what it does to the state. -/
theorem relax_spec (m : Mat) (q : List Nat) (head u : Nat) (st : DState) (v : Nat)
    (hu : u < m.n) (hv : v < m.n) (hd : st.dist.size = m.n) (hp : st.parent.size = m.n) :
    ∃ st', relax m q head u st v = some st' ∧ st'.dist.size = m.n ∧ st'.parent.size = m.n ∧
      (∀ x, x ≠ v → st'.dist.at' x = st.dist.at' x ∧ st'.parent.at' x = st.parent.at' x) ∧
      ((st'.dist.at' v = st.dist.at' v ∧ st'.parent.at' v = st.parent.at' v ∧
          (v ∈ q.drop (head + 1) → ∀ w, Edge m u v w → st.dist.at' v ≤ st.dist.at' u + w)) ∨
       (v ∈ q.drop (head + 1) ∧ ∃ w, Edge m u v w ∧ st'.dist.at' v = st.dist.at' u + w ∧
          st'.parent.at' v = some u ∧ st.dist.at' u + w < st.dist.at' v)) := by
  have hin : isNotExplored q v (head + 1) = true ↔ v ∈ q.drop (head + 1) := by
    simp [isNotExplored]
  have hget : m.get? u v = some (m.at' u v) := by simp [Mat.get?, hu, hv]
  simp only [relax, hget, Option.bind_eq_bind, Option.bind_some,
    Vec.get?_some (hd.symm ▸ hu), Vec.get?_some (hd.symm ▸ hv),
    Vec.set?_some (hd.symm ▸ hv), Vec.set?_some (hp.symm ▸ hv)]
  by_cases hne : v ∈ q.drop (head + 1)
  · cases hw : m.at' u v with
    | nan =>
      refine ⟨st, by simp [Ext.ge0], hd, hp, by simp, Or.inl ⟨rfl, rfl, ?_⟩⟩
      intro _ w hE; rw [hE.2.2.1] at hw; cases hw
    | ninf =>
      refine ⟨st, by simp [Ext.ge0], hd, hp, by simp, Or.inl ⟨rfl, rfl, ?_⟩⟩
      intro _ w hE; rw [hE.2.2.1] at hw; cases hw
    | pinf =>
      refine ⟨st, by simp [Ext.addFin], hd, hp, by simp, Or.inl ⟨rfl, rfl, ?_⟩⟩
      intro _ w hE; rw [hE.2.2.1] at hw; cases hw
    | fin z =>
      by_cases hz : 0 ≤ z
      · have hE : Edge m u v z := ⟨hu, hv, hw, hz⟩
        by_cases hlt : st.dist.at' u + z < st.dist.at' v
        · refine ⟨⟨⟨st.parent.size, fun j => if j = v then some u else st.parent.at' j⟩,
            ⟨st.dist.size, fun j => if j = v then st.dist.at' u + z else st.dist.at' j⟩⟩,
            by simp [Ext.ge0, hz, hin.2 hne, Ext.addFin, hlt], hd, hp, ?_, Or.inr ?_⟩
          · intro x hx; simp [hx]
          · exact ⟨hne, z, hE, by simp, by simp, hlt⟩
        · refine ⟨st, by simp [Ext.ge0, hz, hin.2 hne, Ext.addFin, hlt], hd, hp, by simp,
            Or.inl ⟨rfl, rfl, ?_⟩⟩
          intro _ w hE'
          have : z = w := by have := hE'.2.2.1; rw [hw] at this; injection this
          omega
      · refine ⟨st, by simp [Ext.ge0, hz], hd, hp, by simp, Or.inl ⟨rfl, rfl, ?_⟩⟩
        intro _ w hE
        have : z = w := by have := hE.2.2.1; rw [hw] at this; injection this
        exact absurd (this ▸ hE.2.2.2) hz
  · have : isNotExplored q v (head + 1) = false := by
      rw [Bool.eq_false_iff]; exact fun h => hne (hin.1 h)
    refine ⟨st, by simp [this], hd, hp, by simp, Or.inl ⟨rfl, rfl, fun h => absurd h hne⟩⟩

/-- The whole relaxation loop over a duplicate-free list of vertices. -/
theorem relaxAll_spec (m : Mat) (q : List Nat) (head u : Nat) (hu : u < m.n)
    (hnu : u ∉ q.drop (head + 1)) : ∀ (vs : List Nat) (st : DState), vs.Nodup →
    (∀ v ∈ vs, v < m.n) → st.dist.size = m.n → st.parent.size = m.n →
    ∃ st', vs.foldlM (relax m q head u) st = some st' ∧ st'.dist.size = m.n ∧
      st'.parent.size = m.n ∧
      (∀ x, (x ∉ vs ∨ x ∉ q.drop (head + 1)) →
        st'.dist.at' x = st.dist.at' x ∧ st'.parent.at' x = st.parent.at' x) ∧
      (∀ x, x ∈ vs → x ∈ q.drop (head + 1) →
        (st'.dist.at' x = st.dist.at' x ∧ st'.parent.at' x = st.parent.at' x ∧
          (∀ w, Edge m u x w → st.dist.at' x ≤ st.dist.at' u + w)) ∨
        (∃ w, Edge m u x w ∧ st'.dist.at' x = st.dist.at' u + w ∧
          st'.parent.at' x = some u ∧ st.dist.at' u + w < st.dist.at' x)) := by
  intro vs
  induction vs with
  | nil => intro st _ _ hd hp; exact ⟨st, rfl, hd, hp, by simp, by simp⟩
  | cons v vs ih =>
    intro st hnd hb hd hp
    obtain ⟨hv1, hnd'⟩ := List.nodup_cons.1 hnd
    have hv := hb v (by simp)
    obtain ⟨s1, e1, d1, p1, o1, c1⟩ := relax_spec m q head u st v hu hv hd hp
    obtain ⟨s2, e2, d2, p2, o2, c2⟩ := ih s1 hnd' (fun x hx => hb x (by simp [hx])) d1 p1
    have hud : s1.dist.at' u = st.dist.at' u := by
      by_cases huv : u = v
      · subst huv
        rcases c1 with ⟨h, -⟩ | ⟨h, -⟩
        · exact h
        · exact absurd h hnu
      · exact (o1 u huv).1
    refine ⟨s2, ?_, d2, p2, ?_, ?_⟩
    · rw [List.foldlM_cons, e1]; exact e2
    · intro x hx
      by_cases hxv : x = v
      · subst hxv
        have hnq : x ∉ q.drop (head + 1) := by
          rcases hx with h | h
          · simp at h
          · exact h
        obtain ⟨h1, h2⟩ := o2 x (Or.inl hv1)
        rcases c1 with ⟨h3, h4, -⟩ | ⟨h3, -⟩
        · exact ⟨h1.trans h3, h2.trans h4⟩
        · exact absurd h3 hnq
      · have : x ∉ vs ∨ x ∉ q.drop (head + 1) := by
          rcases hx with h | h
          · left; intro h'; exact h (by simp [h'])
          · right; exact h
        obtain ⟨h1, h2⟩ := o2 x this
        obtain ⟨h3, h4⟩ := o1 x hxv
        exact ⟨h1.trans h3, h2.trans h4⟩
    · intro x hx hxq
      by_cases hxv : x = v
      · subst hxv
        obtain ⟨h1, h2⟩ := o2 x (Or.inl hv1)
        rcases c1 with ⟨h3, h4, h5⟩ | ⟨-, w, h3, h4, h5, h6⟩
        · exact Or.inl ⟨h1.trans h3, h2.trans h4, h5 hxq⟩
        · exact Or.inr ⟨w, h3, h1.trans h4, h2.trans h5, h6⟩
      · have hx' : x ∈ vs := by
          rcases List.mem_cons.1 hx with h | h
          · exact absurd h hxv
          · exact h
        obtain ⟨h3, h4⟩ := o1 x hxv
        rcases c2 x hx' hxq with ⟨h5, h6, h7⟩ | ⟨w, h5, h6, h7, h8⟩
        · refine Or.inl ⟨h5.trans h3, h6.trans h4, fun w hw => ?_⟩
          have := h7 w hw
          rw [h3, hud] at this
          exact this
        · refine Or.inr ⟨w, h5, ?_, h7, ?_⟩
          · rw [h6, hud]
          · rw [hud, h3] at h8; exact h8

/-! ### Parent chains -/

/-- `Tree P s v k`: following parents from `v` reaches the root `s` after `k` steps. -/
inductive Tree (P : Nat → Option Nat) (s : Nat) : Nat → Nat → Prop
  | root : P s = none → Tree P s s 0
  | step {v u k : Nat} : P v = some u → Tree P s u k → Tree P s v (k + 1)

theorem Tree.congr {P P' : Nat → Option Nat} {s : Nat} {E : List Nat}
    (hs : P' s = P s)
    (hcl : ∀ e ∈ E, ∀ p, P e = some p → p ∈ E) (heq : ∀ e ∈ E, P' e = P e) {v k : Nat}
    (hv : v ∈ E) (h : Tree P s v k) : Tree P' s v k := by
  induction h with
  | root h => exact Tree.root (hs.trans h)
  | @step v u k h1 _ ih => exact Tree.step ((heq v hv).trans h1) (ih (hcl v hv u h1))

/-! ### The loop invariant -/

structure Inv (m : Mat) (s : Nat) (E F : List Nat) (st : DState) : Prop where
  dsz : st.dist.size = m.n
  psz : st.parent.size = m.n
  perm : (E ++ F).Perm (List.range m.n)
  src : st.dist.at' s = 0 ∧ st.parent.at' s = none
  bd : ∀ v, v < m.n → 0 ≤ st.dist.at' v ∧ st.dist.at' v ≤ infDistance
  ord : ∀ e ∈ E, ∀ f ∈ F, st.dist.at' e ≤ st.dist.at' f
  sorted : F.Pairwise (fun a b => st.dist.at' a ≤ st.dist.at' b)
  fin : ∀ e ∈ E, st.dist.at' e < infDistance
  done : ∀ e ∈ E, ∀ v w, Edge m e v w → st.dist.at' v ≤ st.dist.at' e + w
  par : ∀ v, v < m.n → ∀ u, st.parent.at' v = some u → u ∈ E ∧
    ∃ w, Edge m u v w ∧ st.dist.at' v = st.dist.at' u + w ∧ st.dist.at' v < infDistance
  none : ∀ v, v < m.n → st.parent.at' v = none → v = s ∨ st.dist.at' v = infDistance
  tree : ∀ e ∈ E, ∃ k, k < E.length ∧ Tree st.parent.at' s e k

/-- What holds when the loop ends. -/
structure Final (m : Mat) (s : Nat) (st : DState) : Prop where
  dsz : st.dist.size = m.n
  psz : st.parent.size = m.n
  src : st.dist.at' s = 0 ∧ st.parent.at' s = none
  bd : ∀ v, v < m.n → 0 ≤ st.dist.at' v ∧ st.dist.at' v ≤ infDistance
  le : ∀ v k, Path (Edge m) s v k → st.dist.at' v ≤ k
  par : ∀ v, v < m.n → ∀ u, st.parent.at' v = some u → u < m.n ∧
    ∃ w, Edge m u v w ∧ st.dist.at' v = st.dist.at' u + w ∧ st.dist.at' v < infDistance
  none : ∀ v, v < m.n → st.parent.at' v = none → v = s ∨ st.dist.at' v = infDistance
  tree : ∀ v, v < m.n → st.dist.at' v < infDistance → ∃ k, k ≤ m.n ∧ Tree st.parent.at' s v k

theorem Inv.mem_lt {m s E F st} (h : Inv m s E F st) {v : Nat} : v < m.n ↔ v ∈ E ∨ v ∈ F := by
  rw [← List.mem_append, h.perm.mem_iff, List.mem_range]

theorem Inv.final {m s E F st} (h : Inv m s E F st)
    (hF : ∀ f ∈ F, st.dist.at' f = infDistance) : Final m s st := by
  refine ⟨h.dsz, h.psz, h.src, h.bd, ?_, ?_, h.none, ?_⟩
  · intro v k hp
    induction hp with
    | nil => exact Int.le_of_eq h.src.1
    | @snoc u v k w hp e ih =>
      have hu := e.1
      have hw := e.2.2.2
      rcases h.mem_lt.1 hu with hE | hf
      · have := h.done u hE v w e; omega
      · have h1 := hF u hf
        have h2 := (h.bd v e.2.1).2
        omega
  · intro v hv u hu
    obtain ⟨h1, h2⟩ := h.par v hv u hu
    exact ⟨h.mem_lt.2 (Or.inl h1), h2⟩
  · intro v hv hd
    rcases h.mem_lt.1 hv with hE | hf
    · obtain ⟨k, hk, ht⟩ := h.tree v hE
      have : E.length + F.length = m.n := by
        have := h.perm.length_eq; simpa using this
      exact ⟨k, by omega, ht⟩
    · have := hF v hf; omega

theorem loop_spec (m : Mat) (s : Nat) (hs : s < m.n) : ∀ (left head : Nat) (q : List Nat) (st : DState),
    head + left = m.n → q.length = m.n → Inv m s (q.take head) (q.drop head) st →
    ∃ st', dijkstraLoop m left head q st = some st' ∧ Final m s st' := by
  intro left
  induction left with
  | zero =>
    intro head q st hl hq hI
    refine ⟨st, rfl, hI.final ?_⟩
    rw [List.drop_of_length_le (by omega)]; simp
  | succ left ih =>
    intro head q st hl hq hI
    have hh : head < q.length := by omega
    have hdrop : q.drop head = q[head] :: q.drop (head + 1) := List.drop_eq_getElem_cons hh
    have htake : q.take (head + 1) = q.take head ++ [q[head]] := by simp
    generalize hu : q[head] = u at *
    have huq : q[head]? = some u := by rw [List.getElem?_eq_getElem hh, hu]
    have hqb : ∀ x ∈ q, x < m.n := by
      intro x hx
      rw [← List.take_append_drop head q] at hx
      exact hI.mem_lt.2 (List.mem_append.1 hx)
    have hun : u < m.n := hqb u (hu ▸ List.getElem_mem hh)
    simp only [dijkstraLoop, huq, Option.bind_eq_bind, Option.bind_some,
      Vec.get?_some (hI.dsz.symm ▸ hun)]
    by_cases hinf : st.dist.at' u = infDistance
    · refine ⟨st, by simp [hinf], hI.final ?_⟩
      intro f hf
      have hs' := hI.sorted
      rw [hdrop] at hf hs'
      have hfn : f < m.n := hI.mem_lt.2 (Or.inr (hdrop ▸ hf))
      have h1 := (hI.bd f hfn).2
      rcases List.mem_cons.1 hf with rfl | hf
      · exact hinf
      · have := (List.pairwise_cons.1 hs').1 f hf; omega
    · simp only [if_neg hinf]
      have hdu : st.dist.at' u < infDistance := by have := (hI.bd u hun).2; omega
      -- q has no duplicates
      have hnd : (q.take head ++ q.drop head).Nodup := hI.perm.nodup_iff.2 List.nodup_range
      have hnd2 := hnd
      rw [hdrop] at hnd2
      have hnd3 := List.nodup_append.1 hnd2
      have hnu : u ∉ q.drop (head + 1) := (List.nodup_cons.1 hnd3.2.1).1
      have huE : u ∉ q.take head := fun h => hnd3.2.2 u h u (by simp) rfl
      have hEF : ∀ e ∈ q.take head, e ∉ q.drop (head + 1) :=
        fun e he hf => hnd3.2.2 e he e (by simp [hf]) rfl
      obtain ⟨st1, e1, d1, p1, o1, c1⟩ := relaxAll_spec m q head u hun hnu (List.range m.n) st
        List.nodup_range (fun v hv => List.mem_range.1 hv) hI.dsz hI.psz
      obtain ⟨r, e2, pr, sr⟩ := sortQueue_spec q st1.dist (head + 1) (fun x hx => d1.symm ▸ hqb x hx)
      simp only [e1, Option.bind_some, e2]
      generalize hE : q.take head = E at *
      generalize hF : q.drop (head + 1) = F at *
      have hFu : ∀ f ∈ F, st.dist.at' u ≤ st.dist.at' f := by
        have := hI.sorted; rw [hdrop] at this; exact (List.pairwise_cons.1 this).1
      have hEu : ∀ e ∈ E, st.dist.at' e ≤ st.dist.at' u := by
        intro e he; exact hI.ord e he u (by rw [hdrop]; simp)
      have mem3 : ∀ v, v < m.n ↔ v ∈ E ∨ v = u ∨ v ∈ F := by
        intro v; rw [hI.mem_lt, hdrop, List.mem_cons]
      -- unchanged outside F
      have keep : ∀ x, x ∉ F → st1.dist.at' x = st.dist.at' x ∧ st1.parent.at' x = st.parent.at' x :=
        fun x hx => o1 x (Or.inr hx)
      have keepE : ∀ e ∈ E ++ [u], e ∉ F := by
        intro e he
        rcases List.mem_append.1 he with he | he
        · exact hEF e he
        · rw [List.mem_singleton.1 he]; exact hnu
      have chg : ∀ f ∈ F, (st1.dist.at' f = st.dist.at' f ∧ st1.parent.at' f = st.parent.at' f ∧
          (∀ w, Edge m u f w → st.dist.at' f ≤ st.dist.at' u + w)) ∨
          (∃ w, Edge m u f w ∧ st1.dist.at' f = st.dist.at' u + w ∧
          st1.parent.at' f = some u ∧ st.dist.at' u + w < st.dist.at' f) := fun f hf =>
        c1 f (List.mem_range.2 ((mem3 f).2 (Or.inr (Or.inr hf)))) hf
      have hsrc : st1.dist.at' s = 0 ∧ st1.parent.at' s = none := by
        by_cases hsF : s ∈ F
        · rcases chg s hsF with ⟨h1, h2, -⟩ | ⟨w, h1, -, -, h4⟩
          · exact ⟨h1.trans hI.src.1, h2.trans hI.src.2⟩
          · have := h1.2.2.2; have := (hI.bd u hun).1; have := hI.src.1; omega
        · exact ⟨(keep s hsF).1.trans hI.src.1, (keep s hsF).2.trans hI.src.2⟩
      have hle : ∀ x, st1.dist.at' x ≤ st.dist.at' x := by
        intro x
        by_cases hx : x ∈ F
        · rcases chg x hx with ⟨h1, -⟩ | ⟨w, -, h2, -, h4⟩ <;> omega
        · have := (keep x hx).1; omega
      have hdu1 : st1.dist.at' u = st.dist.at' u := (keep u hnu).1
      have hge : ∀ f ∈ F, st.dist.at' u ≤ st1.dist.at' f := by
        intro f hf
        rcases chg f hf with ⟨h1, -⟩ | ⟨w, h1, h2, -, h4⟩
        · have := hFu f hf; omega
        · have := h1.2.2.2; omega
      have hlenE : E.length = head := by rw [← hE]; simp; omega
      have htree1 : ∀ e ∈ E, ∃ k, k < E.length ∧ Tree st1.parent.at' s e k := by
        intro e he
        obtain ⟨k, hk, ht⟩ := hI.tree e he
        refine ⟨k, hk, Tree.congr (hsrc.2.trans hI.src.2.symm) ?_ ?_ he ht⟩
        · intro e' he' p hp
          exact (hI.par e' ((mem3 e').2 (Or.inl he')) p hp).1
        · intro e' he'; exact (keep e' (hEF e' he')).2
      have hnew : Inv m s (E ++ [u]) r st1 := by
        refine ⟨d1, p1, ?_, hsrc, ?_, ?_, sr, ?_, ?_, ?_, ?_, ?_⟩
        · have := hI.perm
          rw [hdrop] at this
          refine List.Perm.trans ?_ this
          rw [List.append_assoc]
          exact List.Perm.append_left E (List.Perm.cons u pr)
        · intro v hv
          obtain ⟨b1, b2⟩ := hI.bd v hv
          refine ⟨?_, Int.le_trans (hle v) b2⟩
          by_cases hvF : v ∈ F
          · have := hge v hvF; have := (hI.bd u hun).1; omega
          · have := (keep v hvF).1; omega
        · intro e he f hf
          have hf' : f ∈ F := pr.mem_iff.1 hf
          have h1 := hge f hf'
          have h2 := (keep e (keepE e he)).1
          rcases List.mem_append.1 he with he | he
          · have := hEu e he; omega
          · rw [List.mem_singleton.1 he] at h2 ⊢; omega
        · intro e he
          have h2 := (keep e (keepE e he)).1
          rcases List.mem_append.1 he with he | he
          · have := hI.fin e he; omega
          · rw [List.mem_singleton.1 he] at h2 ⊢; omega
        · intro e he v w hw
          have h2 := (keep e (keepE e he)).1
          rcases List.mem_append.1 he with he | he
          · have := hI.done e he v w hw; have := hle v; omega
          · have he' := List.mem_singleton.1 he
            subst he'
            have hwn := hw.2.2.2
            rcases (mem3 v).1 hw.2.1 with hv | rfl | hv
            · have := hEu v hv; have := (keep v (hEF v hv)).1; omega
            · omega
            · rcases chg v hv with ⟨h3, -, h5⟩ | ⟨w', h3, h4, -, -⟩
              · have := h5 w hw; omega
              · have : w' = w := by
                  have a := h3.2.2.1; have b := hw.2.2.1
                  rw [a] at b; injection b
                omega
        · intro v hv p hp
          by_cases hvF : v ∈ F
          · rcases chg v hvF with ⟨h3, h4, -⟩ | ⟨w', h3, h4, h5, h6⟩
            · rw [h4] at hp
              obtain ⟨g1, w, g2, g3, g4⟩ := hI.par v hv p hp
              refine ⟨List.mem_append_left _ g1, w, g2, ?_, by omega⟩
              rw [h3, (keep p (hEF p g1)).1]; exact g3
            · rw [h5] at hp
              injection hp with hp
              subst hp
              refine ⟨by simp, w', h3, by rw [hdu1]; exact h4, ?_⟩
              have := (hI.bd v hv).2; omega
          · obtain ⟨k1, k2⟩ := keep v hvF
            rw [k2] at hp
            obtain ⟨g1, w, g2, g3, g4⟩ := hI.par v hv p hp
            refine ⟨List.mem_append_left _ g1, w, g2, ?_, by omega⟩
            rw [k1, (keep p (hEF p g1)).1]; exact g3
        · intro v hv hp
          by_cases hvF : v ∈ F
          · rcases chg v hvF with ⟨h3, h4, -⟩ | ⟨w', h3, h4, h5, h6⟩
            · rw [h4] at hp; rw [h3]; exact hI.none v hv hp
            · rw [h5] at hp; cases hp
          · obtain ⟨k1, k2⟩ := keep v hvF
            rw [k2] at hp; rw [k1]; exact hI.none v hv hp
        · intro e he
          rw [List.length_append]
          rcases List.mem_append.1 he with he | he
          · obtain ⟨k, hk, ht⟩ := htree1 e he
            exact ⟨k, by simp; omega, ht⟩
          · rw [List.mem_singleton.1 he]
            cases hpu : st1.parent.at' u with
            | none =>
              have hpu' : st.parent.at' u = none := (keep u hnu).2.symm.trans hpu
              rcases hI.none u hun hpu' with rfl | h
              · exact ⟨0, by simp, Tree.root hpu⟩
              · exact absurd h hinf
            | some p =>
              have hpu' : st.parent.at' u = some p := (keep u hnu).2.symm.trans hpu
              have hpE := (hI.par u hun p hpu').1
              obtain ⟨k, hk, ht⟩ := htree1 p hpE
              exact ⟨k + 1, by simp; omega, Tree.step hpu ht⟩
      have hlen : (E ++ [u]).length = head + 1 := by simp [hlenE]
      have hq' : (E ++ [u] ++ r).length = m.n := by
        have := hnew.perm.length_eq; simpa using this
      have := ih (head + 1) (E ++ [u] ++ r) st1 (by omega) hq' (by
        rw [List.take_left' hlen, List.drop_left' hlen]; exact hnew)
      rw [htake]
      exact this

theorem dijkstra_spec (m : Mat) (s : Nat) (hs : s < m.n) :
    ∃ st, dijkstra m s = some st ∧ Final m s st := by
  have h0 : (⟨m.n, fun _ => infDistance⟩ : Vec Int).set? s 0 =
      some ⟨m.n, fun j => if j = s then 0 else infDistance⟩ := Vec.set?_some hs 0
  obtain ⟨r, h1, h2, h3⟩ := sortQueue_spec (List.range m.n)
    (⟨m.n, fun j => if j = s then 0 else infDistance⟩ : Vec Int) 0
    (fun x hx => List.mem_range.1 hx)
  simp only [List.take_zero, List.nil_append, List.drop_zero] at h1 h2
  simp only [dijkstra, h0, Option.bind_eq_bind, Option.bind_some, h1]
  refine loop_spec m s hs m.n 0 r _ (by omega) (by simpa using h2.length_eq) ?_
  simp only [List.take_zero, List.drop_zero]
  refine ⟨rfl, rfl, by simpa using h2, by simp, ?_, by simp, h3, by simp, by simp, by simp, ?_, by simp⟩
  · intro v _; by_cases h : v = s <;> simp [h, infDistance]
  · intro v _ _; by_cases h : v = s <;> simp [h]

/-! ### Consequences -/

theorem Tree.path {m s st} (h : Final m s st) {v k : Nat} (ht : Tree st.parent.at' s v k)
    (hv : v < m.n) : Path (Edge m) s v (st.dist.at' v) := by
  induction ht with
  | root _ => rw [h.src.1]; exact Path.nil _
  | @step v u k hp _ ih =>
    obtain ⟨hu, w, he, hd, -⟩ := h.par v hv u hp
    rw [hd]; exact Path.snoc (ih hu) he

theorem Final.shortest {m s st} (h : Final m s st) {v : Nat} (hv : v < m.n)
    (hd : st.dist.at' v < infDistance) : Shortest (Edge m) s v (st.dist.at' v) := by
  obtain ⟨k, -, ht⟩ := h.tree v hv hd
  exact ⟨ht.path h hv, h.le v⟩

/-- `walkUp` along a tree path: reaches the root; the returned hop is the root's child. -/
theorem walkUp_spec {m s st} (h : Final m s st) {v k : Nat} (ht : Tree st.parent.at' s v k)
    (hv : v < m.n) : ∀ (fuel : Nat) (nh : Option Nat), k < fuel →
    (k = 0 → walkUp st.parent fuel v nh = some (s, nh)) ∧
    (0 < k → ∃ c w k2, walkUp st.parent fuel v nh = some (s, some c) ∧ Edge m s c w ∧
      st.dist.at' c = w ∧ Path (Edge m) c v k2 ∧ st.dist.at' v = w + k2) := by
  induction ht with
  | root hr =>
    intro fuel nh hf
    obtain ⟨f, rfl⟩ : ∃ f, fuel = f + 1 := ⟨fuel - 1, by omega⟩
    refine ⟨fun _ => ?_, fun h => absurd h (by omega)⟩
    simp [walkUp, Vec.get?_some (h.psz.symm ▸ hv), hr]
  | @step v u k hp htu ih =>
    intro fuel nh hf
    obtain ⟨f, rfl⟩ : ∃ f, fuel = f + 1 := ⟨fuel - 1, by omega⟩
    obtain ⟨hu, w, he, hd, -⟩ := h.par v hv u hp
    refine ⟨fun h => absurd h (by omega), fun _ => ?_⟩
    obtain ⟨i1, i2⟩ := ih hu f (some v) (by omega)
    by_cases hk : k = 0
    · subst hk
      have hus : u = s := by cases htu with | root _ => rfl
      subst hus
      refine ⟨v, w, 0, ?_, he, ?_, Path.nil _, ?_⟩
      · simp [walkUp, Vec.get?_some (h.psz.symm ▸ hv), hp, i1 rfl]
      · rw [hd, h.src.1]; omega
      · rw [hd, h.src.1]; omega
    · obtain ⟨c, w', k2, j1, j2, j3, j4, j5⟩ := i2 (by omega)
      refine ⟨c, w', k2 + w, ?_, j2, j3, Path.snoc j4 he, by omega⟩
      simp [walkUp, Vec.get?_some (h.psz.symm ▸ hv), hp, j1]

/-- `getNextHop` never faults; it reports a hop exactly for reachable other routers, and that hop is
a neighbour on a cheapest walk. -/
theorem getNextHop_spec {m s st} (h : Final m s st) {v : Nat} (hv : v < m.n) (hvs : v ≠ s) :
    (st.dist.at' v = infDistance ∧ getNextHop st v s = some none) ∨
    (st.dist.at' v < infDistance ∧ ∃ c w k2, getNextHop st v s = some (some c) ∧ Edge m s c w ∧
      c ≠ s ∧ Path (Edge m) c v k2 ∧ st.dist.at' v = w + k2) := by
  by_cases hd : st.dist.at' v < infDistance
  · right
    refine ⟨hd, ?_⟩
    obtain ⟨k, hk, ht⟩ := h.tree v hv hd
    have hk0 : 0 < k := by
      rcases Nat.eq_zero_or_pos k with rfl | h
      · cases ht with | root _ => exact absurd rfl hvs
      · exact h
    obtain ⟨c, w, k2, h1, h2, h3, h4, h5⟩ := (walkUp_spec h ht hv (st.parent.size + 1) none
      (by rw [h.psz]; omega)).2 hk0
    by_cases hcs : c = s
    · -- the root's child cannot be the root: it has a parent
      exfalso
      subst hcs
      -- from the tree: the child of the root has parent `s`
      have : ∀ {v k : Nat}, Tree st.parent.at' c v k → v < m.n → ∀ fuel nh, k < fuel → 0 < k →
          walkUp st.parent fuel v nh ≠ some (c, some c) := by
        intro v k ht
        induction ht with
        | root _ => intro _ _ _ _ h; omega
        | @step v u k hp htu ih =>
          intro hv fuel nh hf _ hw
          obtain ⟨f, rfl⟩ : ∃ f, fuel = f + 1 := ⟨fuel - 1, by omega⟩
          have hu := (h.par v hv u hp).1
          simp only [walkUp, Vec.get?_some (h.psz.symm ▸ hv), hp, Option.bind_eq_bind,
            Option.bind_some] at hw
          by_cases hk : k = 0
          · subst hk
            have := (walkUp_spec h htu hu f (some v) (by omega)).1 rfl
            rw [this] at hw
            simp only [Option.some.injEq, Prod.mk.injEq, true_and] at hw
            subst hw
            rw [h.src.2] at hp; cases hp
          · exact ih hu f (some v) (by omega) (by omega) hw
      exact this ht hv _ none (by rw [h.psz]; omega) hk0 h1
    · exact ⟨c, w, k2, by simp [getNextHop, h1], h2, hcs, h4, h5⟩
  · left
    have hd' : st.dist.at' v = infDistance := by have := (h.bd v hv).2; omega
    refine ⟨hd', ?_⟩
    have hp : st.parent.at' v = none := by
      cases hp : st.parent.at' v with
      | none => rfl
      | some u => obtain ⟨-, w, -, -, h4⟩ := h.par v hv u hp; omega
    simp [getNextHop, walkUp, Vec.get?_some (h.psz.symm ▸ hv), hp, hvs]

end Nlsr.LS
