import Verif.Lemmas.Dijkstra
import Verif.Lemmas.NameMap
import Verif.Spec.LinkState
namespace Nlsr.LS
open NameMap

/-! ### The adjacency matrix -/

theorem noOf_lt {map : NameMap} (h : WF map) {a : Name} {r : Nat} (ha : map.noOf a = some r) :
    r < map.length := by
  have := (noOf_some_iff h).1 ha
  obtain ⟨h1, -⟩ := List.getElem?_eq_some_iff.1 this
  simpa [names] using h1

theorem noOf_inj {map : NameMap} (h : WF map) {a b : Name} {r : Nat} (ha : map.noOf a = some r)
    (hb : map.noOf b = some r) : a = b := by
  have h1 := (noOf_some_iff h).1 ha
  have h2 := (noOf_some_iff h).1 hb
  rw [h1] at h2; injection h2

theorem noOf_of_mem {map : NameMap} (h : WF map) {a : Name} (ha : a ∈ names map) :
    ∃ r, map.noOf a = some r := by
  obtain ⟨i, hi, e⟩ := List.mem_iff_getElem.1 ha
  exact ⟨i, (noOf_some_iff h).2 (by rw [List.getElem?_eq_getElem hi, e])⟩

theorem writeLsa_spec {map : NameMap} (hW : WF map) (o : Name) :
    ∀ (adjs : List (Name × Ext Rat)) (m : Mat), m.n = map.length → (adjs.map (·.1)).Nodup →
    ∃ m', writeLsa map m ⟨o, adjs⟩ = some m' ∧ m'.n = map.length ∧
      ∀ a b r c, map.noOf a = some r → map.noOf b = some c →
        (a = o → ∀ x, (b, x) ∈ adjs → m'.at' r c = x.ceil) ∧
        ((a ≠ o ∨ ∀ x, (b, x) ∉ adjs) → m'.at' r c = m.at' r c) := by
  intro adjs
  induction adjs with
  | nil => intro m hn _; exact ⟨m, rfl, hn, by simp⟩
  | cons p adjs ih =>
    obtain ⟨b0, x0⟩ := p
    intro m hn hnd
    simp only [List.map_cons, List.nodup_cons] at hnd
    -- first write
    have h1 : ∃ m1, writeAdj map o m (b0, x0) = some m1 ∧ m1.n = map.length ∧
        ∀ a b r c, map.noOf a = some r → map.noOf b = some c →
          m1.at' r c = if a = o ∧ b = b0 then x0.ceil else m.at' r c := by
      simp only [writeAdj]
      cases ho : map.noOf o with
      | none =>
        refine ⟨m, rfl, hn, fun a b r c ha hb => ?_⟩
        rw [if_neg]; rintro ⟨rfl, -⟩; rw [ho] at ha; cases ha
      | some r0 =>
        cases hb0 : map.noOf b0 with
        | none =>
          refine ⟨m, rfl, hn, fun a b r c ha hb => ?_⟩
          rw [if_neg]; rintro ⟨-, rfl⟩; rw [hb0] at hb; cases hb
        | some c0 =>
          have hr := noOf_lt hW ho
          have hc := noOf_lt hW hb0
          rw [← hn] at hr hc
          refine ⟨⟨m.n, fun i j => if i = r0 ∧ j = c0 then x0.ceil else m.at' i j⟩,
            by simp [hr, hc, Mat.set?], hn, fun a b r c ha hb => ?_⟩
          have : (r = r0 ∧ c = c0) ↔ (a = o ∧ b = b0) := by
            constructor
            · rintro ⟨rfl, rfl⟩; exact ⟨noOf_inj hW ha ho, noOf_inj hW hb hb0⟩
            · rintro ⟨rfl, rfl⟩
              rw [ho] at ha; rw [hb0] at hb
              injection ha with ha; injection hb with hb
              exact ⟨ha.symm, hb.symm⟩
          simp only [this]
    obtain ⟨m1, e1, n1, s1⟩ := h1
    obtain ⟨m2, e2, n2, s2⟩ := ih m1 n1 hnd.2
    refine ⟨m2, ?_, n2, ?_⟩
    · simp only [writeLsa, List.foldlM_cons] at e2 ⊢
      rw [e1]
      exact e2
    · intro a b r c ha hb
      obtain ⟨t1, t2⟩ := s2 a b r c ha hb
      have t3 := s1 a b r c ha hb
      constructor
      · intro hao x hx
        rcases List.mem_cons.1 hx with hx | hx
        · injection hx with e1 e2
          subst e1 e2
          rw [t2 (Or.inr ?_), t3, if_pos ⟨hao, rfl⟩]
          intro y hy
          exact hnd.1 (List.mem_map.2 ⟨_, hy, rfl⟩)
        · exact t1 hao x hx
      · intro hor
        have hne : ¬ (a = o ∧ b = b0) := by
          rintro ⟨rfl, rfl⟩
          rcases hor with h | h
          · exact h rfl
          · exact h x0 (by simp)
        rw [t2 ?_, t3, if_neg hne]
        rcases hor with h | h
        · exact Or.inl h
        · exact Or.inr (fun x hx => h x (by simp [hx]))

theorem writeAll_spec {map : NameMap} (hW : WF map) : ∀ (lsas : List AdjAd) (m : Mat),
    m.n = map.length → WellFormed lsas →
    ∃ m', lsas.foldlM (writeLsa map) m = some m' ∧ m'.n = map.length ∧
      ∀ a b r c, map.noOf a = some r → map.noOf b = some c →
        (∀ x, Advertises lsas a b x → m'.at' r c = x.ceil) ∧
        ((∀ x, ¬ Advertises lsas a b x) → m'.at' r c = m.at' r c) := by
  intro lsas
  induction lsas with
  | nil => intro m hn _; exact ⟨m, rfl, hn, by simp [Advertises]⟩
  | cons l ls ih =>
    intro m hn hwf
    obtain ⟨m1, e1, n1, s1⟩ := writeLsa_spec hW l.origin l.adjs m hn (hwf.adjs l (by simp))
    have hno := hwf.origins
    simp only [List.map_cons, List.nodup_cons] at hno
    obtain ⟨m2, e2, n2, s2⟩ := ih m1 n1 ⟨hno.2, fun x hx => hwf.adjs x (by simp [hx])⟩
    refine ⟨m2, by rw [List.foldlM_cons]; simp only [Option.bind_eq_bind]; rw [e1]; exact e2, n2, ?_⟩
    intro a b r c ha hb
    obtain ⟨t1, t2⟩ := s1 a b r c ha hb
    obtain ⟨u1, u2⟩ := s2 a b r c ha hb
    constructor
    · rintro x ⟨l', hl', rfl, hx⟩
      rcases List.mem_cons.1 hl' with rfl | hl'
      · rw [u2, t1 rfl x hx]
        rintro y ⟨l2, hl2, ho, -⟩
        exact hno.1 (List.mem_map.2 ⟨l2, hl2, ho⟩)
      · exact u1 x ⟨l', hl', rfl, hx⟩
    · intro hna
      rw [u2, t2]
      · by_cases h : a = l.origin
        · exact Or.inr (fun x hx => hna x ⟨l, by simp, h.symm, hx⟩)
        · exact Or.inl h
      · rintro x ⟨l2, hl2, ho, hx⟩
        exact hna x ⟨l2, by simp [hl2], ho, hx⟩

/-- The corrected cost of a link. -/
def corr (to fr : Ext Int) : Ext Int :=
  if Ext.feq fr to then to
  else if Ext.ge0 to && Ext.ge0 fr then Ext.fmax to fr else nonAdjacent

theorem feq_eq {x y : Ext Int} (h : Ext.feq x y = true) : x = y := by
  cases x <;> cases y <;> simp_all [Ext.feq]

theorem feq_comm (x y : Ext Int) : Ext.feq x y = Ext.feq y x := by
  cases x <;> cases y <;> first | rfl | exact Bool.beq_comm

theorem corr_comm (x y : Ext Int) : corr x y = corr y x := by
  unfold corr
  rw [feq_comm y x]
  by_cases h : Ext.feq x y = true
  · simp [feq_eq h]
  · simp only [h]
    rw [Bool.and_comm]
    by_cases hg : (Ext.ge0 y && Ext.ge0 x) = true
    · rw [if_pos hg]
      cases x <;> cases y <;> simp_all [Ext.ge0, Ext.fmax, Ext.flt, Ext.feq]
      split <;> split <;> first | rfl | (simp; omega)
    · simp [hg]

theorem corr_feq (x y : Ext Int) : Ext.feq (corr x y) (corr x y) = true := by
  unfold corr
  by_cases h : Ext.feq y x = true
  · have := feq_eq h; subst this; simp [h]
  · simp only [h]
    by_cases hg : (Ext.ge0 x && Ext.ge0 y) = true
    · simp only [hg]
      cases x <;> cases y <;> simp_all [Ext.ge0, Ext.fmax, Ext.flt]
      · simp [Ext.feq] at h
      · rfl
      · rfl
      · split <;> simp [Ext.feq]
    · simp [hg, nonAdjacent, Ext.feq]

theorem correctCell_spec (m0 : Mat) (D : Nat → Nat → Prop) (m : Mat) (row col : Nat)
    (hr : row < m0.n) (hc : col < m0.n) (hn : m.n = m0.n)
    (hm : ∀ r c, r < m0.n → c < m0.n →
      ((D r c ∨ D c r) → m.at' r c = corr (m0.at' r c) (m0.at' c r)) ∧
      (¬ (D r c ∨ D c r) → m.at' r c = m0.at' r c)) :
    ∃ m', correctCell m row col = some m' ∧ m'.n = m0.n ∧
      ∀ r c, r < m0.n → c < m0.n →
      let D' := fun a b => D a b ∨ (a = row ∧ b = col)
      ((D' r c ∨ D' c r) → m'.at' r c = corr (m0.at' r c) (m0.at' c r)) ∧
      (¬ (D' r c ∨ D' c r) → m'.at' r c = m0.at' r c) := by
  have g1 : m.get? row col = some (m.at' row col) := by simp [Mat.get?, hn, hr, hc]
  have g2 : m.get? col row = some (m.at' col row) := by simp [Mat.get?, hn, hr, hc]
  -- what the assigned value is
  have hval : (D row col ∨ D col row) ∧ Ext.feq (m.at' col row) (m.at' row col) = true ∨
      ¬ (D row col ∨ D col row) := by
    by_cases hD : D row col ∨ D col row
    · left
      refine ⟨hD, ?_⟩
      rw [((hm row col hr hc).1 hD), ((hm col row hc hr).1 hD.symm),
        corr_comm (m0.at' col row)]
      exact corr_feq _ _
    · exact Or.inr hD
  by_cases hfe : Ext.feq (m.at' col row) (m.at' row col) = true
  · refine ⟨m, by simp [correctCell, g1, g2, hfe], hn, fun r c hr' hc' => ⟨fun hD' => ?_, fun hD' => ?_⟩⟩
    · by_cases hD : D r c ∨ D c r
      · exact (hm r c hr' hc').1 hD
      · -- (r,c) is (row,col) or (col,row), not done before: equal values
        have hrc : (r = row ∧ c = col) ∨ (c = row ∧ r = col) := by
          rcases hD' with (h | h) | (h | h)
          · exact absurd (Or.inl h) hD
          · exact Or.inl h
          · exact absurd (Or.inr h) hD
          · exact Or.inr h
        have e1 := (hm r c hr' hc').2 hD
        have e2 := (hm c r hc' hr').2 (fun h => hD h.symm)
        have hfe' : Ext.feq (m0.at' c r) (m0.at' r c) = true := by
          rw [← e1, ← e2]
          rcases hrc with ⟨rfl, rfl⟩ | ⟨rfl, rfl⟩
          · exact hfe
          · rw [feq_comm]; exact hfe
        rw [e1]; simp [corr, hfe']
    · exact (hm r c hr' hc').2 (fun h => hD' (h.imp Or.inl Or.inl))
  · have hD : ¬ (D row col ∨ D col row) := by
      rcases hval with ⟨-, h⟩ | h
      · exact absurd h hfe
      · exact h
    have e1 := (hm row col hr hc).2 hD
    have e2 := (hm col row hc hr).2 (fun h => hD h.symm)
    have hcorr : (if (Ext.ge0 (m.at' row col) && Ext.ge0 (m.at' col row)) = true
        then Ext.fmax (m.at' row col) (m.at' col row) else nonAdjacent) =
        corr (m0.at' row col) (m0.at' col row) := by
      have : Ext.feq (m0.at' col row) (m0.at' row col) = false := by
        rw [← e1, ← e2]; simpa using hfe
      simp only [corr, this, e1, e2]; simp
    refine ⟨⟨m.n, fun i j => if i = col ∧ j = row then corr (m0.at' row col) (m0.at' col row) else
        if i = row ∧ j = col then corr (m0.at' row col) (m0.at' col row) else m.at' i j⟩,
      ?_, hn, fun r c hr' hc' => ⟨fun hD' => ?_, fun hD' => ?_⟩⟩
    · simp only [correctCell, g1, g2, Option.bind_eq_bind, Option.bind_some, hfe]
      simp only [hcorr]
      simp [Mat.set?, hn, hr, hc]
    · by_cases hDrc : D r c ∨ D c r
      · have h0 := (hm r c hr' hc').1 hDrc
        simp only
        split
        · rename_i h; obtain ⟨rfl, rfl⟩ := h; exact absurd hDrc.symm hD
        · split
          · rename_i h; obtain ⟨rfl, rfl⟩ := h; exact absurd hDrc hD
          · exact h0
      · have hrc : (r = row ∧ c = col) ∨ (c = row ∧ r = col) := by
          rcases hD' with (h | h) | (h | h)
          · exact absurd (Or.inl h) hDrc
          · exact Or.inl h
          · exact absurd (Or.inr h) hDrc
          · exact Or.inr h
        rcases hrc with ⟨rfl, rfl⟩ | ⟨rfl, rfl⟩
        · simp
        · simp [corr_comm (m0.at' r c)]
    · have h0 := (hm r c hr' hc').2 (fun h => hD' (h.imp Or.inl Or.inl))
      simp only
      rw [if_neg, if_neg, h0]
      · intro h; exact hD' (Or.inl (Or.inr h))
      · intro h; exact hD' (Or.inr (Or.inr ⟨h.2, h.1⟩))

theorem correctRow_spec (m0 : Mat) (row : Nat) (hr : row < m0.n) : ∀ (cols : List Nat)
    (D : Nat → Nat → Prop) (m : Mat), (∀ c ∈ cols, c < m0.n) → m.n = m0.n →
    (∀ r c, r < m0.n → c < m0.n →
      ((D r c ∨ D c r) → m.at' r c = corr (m0.at' r c) (m0.at' c r)) ∧
      (¬ (D r c ∨ D c r) → m.at' r c = m0.at' r c)) →
    ∃ m', cols.foldlM (fun m col => correctCell m row col) m = some m' ∧ m'.n = m0.n ∧
      ∀ r c, r < m0.n → c < m0.n →
      let D' := fun a b => D a b ∨ (a = row ∧ b ∈ cols)
      ((D' r c ∨ D' c r) → m'.at' r c = corr (m0.at' r c) (m0.at' c r)) ∧
      (¬ (D' r c ∨ D' c r) → m'.at' r c = m0.at' r c) := by
  intro cols
  induction cols with
  | nil => intro D m _ hn hm; exact ⟨m, rfl, hn, by simpa using hm⟩
  | cons col cols ih =>
    intro D m hb hn hm
    obtain ⟨m1, e1, n1, s1⟩ := correctCell_spec m0 D m row col hr (hb col (by simp)) hn hm
    obtain ⟨m2, e2, n2, s2⟩ := ih _ m1 (fun c hc => hb c (by simp [hc])) n1 s1
    refine ⟨m2, by rw [List.foldlM_cons, e1]; exact e2, n2, ?_⟩
    intro r c hr' hc'
    have := s2 r c hr' hc'
    have eq : ∀ a b, ((D a b ∨ a = row ∧ b = col) ∨ a = row ∧ b ∈ cols) ↔
        (D a b ∨ a = row ∧ b ∈ col :: cols) := by
      intro a b; simp only [List.mem_cons]; constructor
      · rintro ((h | ⟨h1, h2⟩) | ⟨h1, h2⟩)
        · exact Or.inl h
        · exact Or.inr ⟨h1, Or.inl h2⟩
        · exact Or.inr ⟨h1, Or.inr h2⟩
      · rintro (h | ⟨h1, h2 | h2⟩)
        · exact Or.inl (Or.inl h)
        · exact Or.inl (Or.inr ⟨h1, h2⟩)
        · exact Or.inr ⟨h1, h2⟩
    simpa only [eq] using this

theorem correctAll_spec (m0 : Mat) : ∀ (rows : List Nat)
    (D : Nat → Nat → Prop) (m : Mat), (∀ c ∈ rows, c < m0.n) → m.n = m0.n →
    (∀ r c, r < m0.n → c < m0.n →
      ((D r c ∨ D c r) → m.at' r c = corr (m0.at' r c) (m0.at' c r)) ∧
      (¬ (D r c ∨ D c r) → m.at' r c = m0.at' r c)) →
    ∃ m', rows.foldlM (fun m row =>
        (List.range m0.n).foldlM (fun m col => correctCell m row col) m) m = some m' ∧ m'.n = m0.n ∧
      ∀ r c, r < m0.n → c < m0.n →
      let D' := fun a b => D a b ∨ (a ∈ rows ∧ b < m0.n)
      ((D' r c ∨ D' c r) → m'.at' r c = corr (m0.at' r c) (m0.at' c r)) ∧
      (¬ (D' r c ∨ D' c r) → m'.at' r c = m0.at' r c) := by
  intro rows
  induction rows with
  | nil => intro D m _ hn hm; exact ⟨m, rfl, hn, by simpa using hm⟩
  | cons row rows ih =>
    intro D m hb hn hm
    obtain ⟨m1, e1, n1, s1⟩ := correctRow_spec m0 row (hb row (by simp)) (List.range m0.n) D m
      (fun c hc => List.mem_range.1 hc) hn hm
    obtain ⟨m2, e2, n2, s2⟩ := ih _ m1 (fun c hc => hb c (by simp [hc])) n1 s1
    refine ⟨m2, by rw [List.foldlM_cons, e1]; exact e2, n2, ?_⟩
    intro r c hr' hc'
    have := s2 r c hr' hc'
    have eq : ∀ a b, ((D a b ∨ a = row ∧ b ∈ List.range m0.n) ∨ a ∈ rows ∧ b < m0.n) ↔
        (D a b ∨ a ∈ row :: rows ∧ b < m0.n) := by
      intro a b; simp only [List.mem_cons, List.mem_range]; constructor
      · rintro ((h | ⟨h1, h2⟩) | ⟨h1, h2⟩)
        · exact Or.inl h
        · exact Or.inr ⟨Or.inl h1, h2⟩
        · exact Or.inr ⟨Or.inr h1, h2⟩
      · rintro (h | ⟨h1 | h1, h2⟩)
        · exact Or.inl (Or.inl h)
        · exact Or.inl (Or.inr ⟨h1, h2⟩)
        · exact Or.inr ⟨h1, h2⟩
    simpa only [eq] using this

theorem correct_spec (m0 : Mat) : ∃ m', (List.range m0.n).foldlM (fun m row =>
        (List.range m0.n).foldlM (fun m col => correctCell m row col) m) m0 = some m' ∧
      m'.n = m0.n ∧
      ∀ r c, r < m0.n → c < m0.n → m'.at' r c = corr (m0.at' r c) (m0.at' c r) := by
  obtain ⟨m', e, n, s⟩ := correctAll_spec m0 (List.range m0.n) (fun _ _ => False) m0
    (fun c hc => List.mem_range.1 hc) rfl (by simp)
  refine ⟨m', e, n, fun r c hr hc => (s r c hr hc).1 (Or.inl (Or.inr ⟨List.mem_range.2 hr, hc⟩))⟩

/-- The matrix built from well-formed LSAs. -/
theorem makeAdjMatrix_spec {map : NameMap} (hW : WF map) {lsas : List AdjAd} (hwf : WellFormed lsas) :
    ∃ (m : Mat) (m0 : Nat → Nat → Ext Int), makeAdjMatrix lsas map = some m ∧ m.n = map.length ∧
      (∀ a b r c, map.noOf a = some r → map.noOf b = some c →
        (∀ x, Advertises lsas a b x → m0 r c = x.ceil) ∧
        ((∀ x, ¬ Advertises lsas a b x) → m0 r c = nonAdjacent)) ∧
      (∀ r c, r < m.n → c < m.n → m.at' r c = corr (m0 r c) (m0 c r)) := by
  obtain ⟨m0, e0, n0, s0⟩ := writeAll_spec hW lsas ⟨map.length, fun _ _ => nonAdjacent⟩ rfl hwf
  obtain ⟨m, e, n, s⟩ := correct_spec m0
  refine ⟨m, m0.at', ?_, by rw [n, n0], s0, fun r c hr hc => s r c (n ▸ hr) (n ▸ hc)⟩
  simp only [makeAdjMatrix, e0, Option.bind_eq_bind, Option.bind_some]
  rw [n0] at e
  exact e

theorem corr_fin_iff {x y : Ext Int} {w : Int} : (corr x y = .fin w ∧ 0 ≤ w) ↔
    ∃ zx zy, x = .fin zx ∧ y = .fin zy ∧ 0 ≤ zx ∧ 0 ≤ zy ∧ w = max zx zy := by
  constructor
  · rintro ⟨h, hw⟩
    unfold corr at h
    by_cases hf : Ext.feq y x = true
    · have := feq_eq hf; subst this
      simp only [hf, if_true] at h
      exact ⟨w, w, h, h, hw, hw, by omega⟩
    · simp only [hf] at h
      by_cases hg : (Ext.ge0 x && Ext.ge0 y) = true
      · simp only [hg] at h
        cases x <;> cases y <;> simp_all [Ext.ge0, Ext.fmax, Ext.flt, Ext.feq]
        split at h <;> injection h <;> omega
      · simp [hg, nonAdjacent] at h; omega
  · rintro ⟨zx, zy, rfl, rfl, hx, hy, rfl⟩
    refine ⟨?_, by omega⟩
    simp only [corr, Ext.feq, Ext.ge0, Ext.fmax, Ext.flt]
    by_cases h : zy = zx
    · simp [h]
    · simp [h, hx, hy]
      split <;> simp <;> omega

theorem Link.nonneg {lsas} : ∀ a b w, Link lsas a b w → 0 ≤ w := by
  rintro a b w ⟨x, y, -, -, h1, h2, rfl⟩; omega

theorem Link.known {lsas} {a b : Name} {w : Int} (h : Link lsas a b w) :
    a ∈ names (fromAdj lsas) ∧ b ∈ names (fromAdj lsas) := by
  obtain ⟨x, y, ⟨l, hl, rfl, -⟩, ⟨l', hl', rfl, -⟩, -⟩ := h
  exact ⟨((fromAdj_spec lsas).2 _).2 ⟨l, hl, Or.inl rfl⟩, ((fromAdj_spec lsas).2 _).2 ⟨l', hl', Or.inl rfl⟩⟩

/-- Matrix edges are exactly the links. -/
theorem edge_iff_link {map : NameMap} (hW : WF map) {lsas : List AdjAd} {m : Mat} {m0 : Nat → Nat → Ext Int}
    (hn : m.n = map.length)
    (s0 : ∀ a b r c, map.noOf a = some r → map.noOf b = some c →
        (∀ x, Advertises lsas a b x → m0 r c = x.ceil) ∧
        ((∀ x, ¬ Advertises lsas a b x) → m0 r c = nonAdjacent))
    (s : ∀ r c, r < m.n → c < m.n → m.at' r c = corr (m0 r c) (m0 c r))
    {a b : Name} {r c : Nat} (ha : map.noOf a = some r) (hb : map.noOf b = some c) (w : Int) :
    Edge m r c w ↔ Link lsas a b w := by
  have hr := noOf_lt hW ha
  have hc := noOf_lt hW hb
  rw [← hn] at hr hc
  have adv : ∀ {a b r c}, map.noOf a = some r → map.noOf b = some c → ∀ {z : Int}, 0 ≤ z →
      (m0 r c = .fin z ↔ ∃ x : Rat, Advertises lsas a b (.fin x) ∧ x.ceil = z) := by
    intro a b r c ha hb z hz
    obtain ⟨h1, h2⟩ := s0 a b r c ha hb
    constructor
    · intro hm
      by_cases hx : ∃ x, Advertises lsas a b x
      · obtain ⟨x, hx⟩ := hx
        have := h1 x hx
        rw [hm] at this
        cases x with
        | fin q => exact ⟨q, hx, by simp [Ext.ceil] at this; exact this.symm⟩
        | nan => simp [Ext.ceil] at this
        | ninf => simp [Ext.ceil] at this
        | pinf => simp [Ext.ceil] at this
      · have := h2 (fun x h => hx ⟨x, h⟩)
        rw [hm] at this
        simp [nonAdjacent] at this
        omega
    · rintro ⟨x, hx, rfl⟩
      rw [h1 _ hx]; rfl
  unfold Edge
  rw [s r c hr hc]
  constructor
  · rintro ⟨-, -, h⟩
    obtain ⟨zx, zy, h1, h2, h3, h4, h5⟩ := corr_fin_iff.1 h
    obtain ⟨x, hx, rfl⟩ := (adv ha hb h3).1 h1
    obtain ⟨y, hy, rfl⟩ := (adv hb ha h4).1 h2
    exact ⟨x, y, hx, hy, h3, h4, h5⟩
  · rintro ⟨x, y, hx, hy, h3, h4, h5⟩
    refine ⟨hr, hc, corr_fin_iff.2 ⟨x.ceil, y.ceil, ?_, ?_, h3, h4, h5⟩⟩
    · exact (adv ha hb h3).2 ⟨x, hx, rfl⟩
    · exact (adv hb ha h4).2 ⟨y, hy, rfl⟩

end Nlsr.LS
