import Verif.Lemmas.LinkState
namespace Nlsr.LS
open NameMap

theorem mapM_some {α β : Type} {f : α → Option β} {g : α → β} : ∀ {l : List α},
    (∀ a ∈ l, f a = some (g a)) → l.mapM f = some (l.map g)
  | [], _ => rfl
  | a :: l, h => by
    rw [List.mapM_cons, h a (by simp), mapM_some (fun b hb => h b (by simp [hb]))]
    rfl

/-! ### Index paths and name paths -/

/-- The matrix `m` describes the links between the routers numbered by `map`. -/
def Describes (m : Mat) (map : NameMap) (L : Name → Name → Int → Prop) : Prop :=
  m.n = map.length ∧
  ∀ a b r c, map.noOf a = some r → map.noOf b = some c → ∀ w, Edge m r c w ↔ L a b w

theorem path_up {m map L} (hW : WF map) (hD : Describes m map L) {s v : Nat} {k : Int}
    (h : Path (Edge m) s v k) : ∀ {a d : Name}, map.noOf a = some s → map.noOf d = some v →
    Path L a d k := by
  induction h with
  | nil => intro a d ha hd; rw [noOf_inj hW ha hd]; exact Path.nil _
  | @snoc u v k w _ e ih =>
    intro a d ha hd
    have hu : u < (names map).length := by have := e.1; rw [hD.1] at this; simpa [names] using this
    have hb : map.noOf ((names map)[u]) = some u :=
      (noOf_some_iff hW).2 (List.getElem?_eq_getElem hu)
    exact Path.snoc (ih ha hb) ((hD.2 _ _ _ _ hb hd w).1 e)

theorem path_down {m map L} (hD : Describes m map L)
    (hK : ∀ a b w, L a b w → b ∈ names map) (hW : WF map) {a d : Name} {k : Int}
    (h : Path L a d k) : ∀ {s : Nat}, map.noOf a = some s →
    ∃ v, map.noOf d = some v ∧ Path (Edge m) s v k := by
  induction h with
  | nil => intro s ha; exact ⟨s, ha, Path.nil _⟩
  | @snoc b c k w _ e ih =>
    intro s ha
    obtain ⟨u, hu, hp⟩ := ih ha
    obtain ⟨v, hv⟩ := noOf_of_mem hW (hK _ _ _ e)
    exact ⟨v, hv, Path.snoc hp ((hD.2 _ _ _ _ hu hv w).2 e)⟩

theorem shortest_up {m map L} (hW : WF map) (hD : Describes m map L)
    (hK : ∀ a b w, L a b w → b ∈ names map) {s v : Nat} {k : Int} {a d : Name}
    (ha : map.noOf a = some s) (hd : map.noOf d = some v) :
    Shortest (Edge m) s v k ↔ Shortest L a d k := by
  have hdn : ∀ {k}, Path L a d k → Path (Edge m) s v k := by
    intro k h
    obtain ⟨v', h1, h2⟩ := path_down hD hK hW h ha
    rw [hd] at h1; injection h1 with h1; subst h1; exact h2
  constructor
  · rintro ⟨h1, h2⟩
    exact ⟨path_up hW hD h1 ha hd, fun k' hk => h2 k' (hdn hk)⟩
  · rintro ⟨h1, h2⟩
    exact ⟨hdn h1, fun k' hk => h2 k' (path_up hW hD hk ha hd)⟩

/-! ### Output of one Dijkstra run -/

theorem addNextHops_spec {m : Mat} {s : Nat} {st : DState} {map : NameMap} (hW : WF map)
    (hn : m.n = map.length) (h : Final m s st) (faceOf : Name → Uri) :
    ∃ out, addNextHops map s faceOf st = some out ∧
      (out.map (·.1)).Nodup ∧
      (∀ d nh, (d, nh) ∈ out → ∃ v n c w k2, map.noOf d = some v ∧ v ≠ s ∧
        st.dist.at' v < infDistance ∧ map.noOf n = some c ∧ c ≠ s ∧ Edge m s c w ∧
        Path (Edge m) c v k2 ∧ st.dist.at' v = w + k2 ∧
        nh = ⟨faceOf n, (st.dist.at' v : Rat), false⟩) ∧
      (∀ d v, map.noOf d = some v → v ≠ s → st.dist.at' v < infDistance → ∃ nh, (d, nh) ∈ out) := by
  have nameOf_lt : ∀ {i}, i < map.length → ∃ d, map.nameOf i = some d ∧ map.noOf d = some i := by
    intro i hi
    have hi' : i < (names map).length := by simpa [names] using hi
    refine ⟨(names map)[i], ?_, ?_⟩
    · rw [nameOf_eq hW, List.getElem?_eq_getElem hi']
    · exact (noOf_some_iff hW).2 (List.getElem?_eq_getElem hi')
  -- each iteration
  have hstep : ∀ i, i < map.length → ∃ r, routeTo map s faceOf st i = some r ∧
      (r = [] ∧ (i = s ∨ st.dist.at' i = infDistance) ∨
       ∃ d n c w k2, r = [(d, ⟨faceOf n, (st.dist.at' i : Rat), false⟩)] ∧
        map.noOf d = some i ∧ i ≠ s ∧
        st.dist.at' i < infDistance ∧ map.noOf n = some c ∧ c ≠ s ∧ Edge m s c w ∧
        Path (Edge m) c i k2 ∧ st.dist.at' i = w + k2) := by
    intro i hi
    by_cases his : i = s
    · exact ⟨[], by simp [routeTo, his], Or.inl ⟨rfl, Or.inl his⟩⟩
    · have him : i < m.n := hn ▸ hi
      rcases getNextHop_spec h him his with ⟨h1, h2⟩ | ⟨h1, c, w, k2, h2, h3, h4, h5, h6⟩
      · exact ⟨[], by simp [routeTo, his, h2], Or.inl ⟨rfl, Or.inr h1⟩⟩
      · obtain ⟨d, hd1, hd2⟩ := nameOf_lt hi
        obtain ⟨n, hn1, hn2⟩ := nameOf_lt (i := c) (hn ▸ h3.2.1)
        refine ⟨_, ?_, Or.inr ⟨d, n, c, w, k2, rfl, hd2, his, h1, hn2, h4, h3, h5, h6⟩⟩
        simp [routeTo, his, h2, Vec.get?_some (h.dsz.symm ▸ him), hd1, hn1]
  have hg : ∃ g : Nat → List (Name × NextHop), ∀ i, i < map.length →
      routeTo map s faceOf st i = some (g i) := by
    refine ⟨fun i => (routeTo map s faceOf st i).getD [], fun i hi => ?_⟩
    obtain ⟨r, hr, -⟩ := hstep i hi
    simp [hr]
  obtain ⟨g, hg⟩ := hg
  have hmap : (List.range map.length).mapM (routeTo map s faceOf st) =
      some ((List.range map.length).map g) :=
    mapM_some (fun i hi => hg i (List.mem_range.1 hi))
  have hg' : ∀ i, i < map.length → 
      (g i = [] ∧ (i = s ∨ st.dist.at' i = infDistance) ∨
       ∃ d n c w k2, g i = [(d, ⟨faceOf n, (st.dist.at' i : Rat), false⟩)] ∧
        map.noOf d = some i ∧ i ≠ s ∧
        st.dist.at' i < infDistance ∧ map.noOf n = some c ∧ c ≠ s ∧ Edge m s c w ∧
        Path (Edge m) c i k2 ∧ st.dist.at' i = w + k2) := by
    intro i hi
    obtain ⟨r, hr, h⟩ := hstep i hi
    rw [hg i hi] at hr
    injection hr with hr
    rw [hr]; exact h
  refine ⟨((List.range map.length).map g).flatten, by simp [addNextHops, hmap], ?_, ?_, ?_⟩
  · -- no destination twice
    have : ∀ l : List Nat, l.Nodup → (∀ i ∈ l, i < map.length) →
        (((l.map g).flatten).map (·.1)).Nodup ∧
        ∀ d ∈ ((l.map g).flatten).map (·.1), ∃ i ∈ l, map.noOf d = some i := by
      intro l
      induction l with
      | nil => intro _ _; simp
      | cons i l ih =>
        intro hnd hb
        obtain ⟨hi, hnd'⟩ := List.nodup_cons.1 hnd
        obtain ⟨j1, j2⟩ := ih hnd' (fun j hj => hb j (by simp [hj]))
        rcases hg' i (hb i (by simp)) with ⟨h1, -⟩ | ⟨d, n, c, w, k2, h1, h2, -⟩
        · simp only [List.map_cons, List.flatten_cons, h1, List.nil_append]
          exact ⟨j1, fun d hd => by obtain ⟨j, hj, e⟩ := j2 d hd; exact ⟨j, by simp [hj], e⟩⟩
        · simp only [List.map_cons, List.flatten_cons, h1, List.cons_append, List.nil_append]
          constructor
          · rw [List.nodup_cons]
            refine ⟨fun hd => ?_, j1⟩
            obtain ⟨j, hj, e⟩ := j2 d hd
            rw [h2] at e; injection e with e
            exact hi (e ▸ hj)
          · intro d' hd'
            rcases List.mem_cons.1 hd' with rfl | hd'
            · exact ⟨i, by simp, h2⟩
            · obtain ⟨j, hj, e⟩ := j2 d' hd'; exact ⟨j, by simp [hj], e⟩
    exact (this _ List.nodup_range (fun i hi => List.mem_range.1 hi)).1
  · intro d nh hmem
    rw [List.mem_flatten] at hmem
    obtain ⟨l, hl, hmem⟩ := hmem
    obtain ⟨i, hi, rfl⟩ := List.mem_map.1 hl
    rcases hg' i (List.mem_range.1 hi) with ⟨h1, -⟩ | ⟨d', n, c, w, k2, h1, h2⟩
    · rw [h1] at hmem; cases hmem
    · rw [h1] at hmem
      have := List.mem_singleton.1 hmem
      injection this with e1 e2
      subst e1
      obtain ⟨a1, a2, a3, a4, a5, a6, a7, a8⟩ := h2
      exact ⟨i, n, c, w, k2, a1, a2, a3, a4, a5, a6, a7, a8, e2⟩
  · intro d v hd hvs hdist
    have hv := noOf_lt hW hd
    rcases hg' v hv with ⟨-, h1 | h1⟩ | ⟨d', n, c, w, k2, h1, h2, -⟩
    · exact absurd h1 hvs
    · omega
    · have : d' = d := noOf_inj hW h2 hd
      subst this
      exact ⟨_, List.mem_flatten.2 ⟨g v, List.mem_map.2 ⟨v, List.mem_range.2 hv, rfl⟩, by
        rw [h1]; exact List.mem_singleton.2 rfl⟩⟩

/-! ### Multi-path -/

theorem gatherLinks_spec {m : Mat} {s : Nat} (hs : s < m.n) :
    ∃ ls, gatherLinks m s = some ls ∧
      ∀ i c, (i, c) ∈ ls ↔ i < m.n ∧ i ≠ s ∧ c = m.at' s i ∧ Ext.ge0 c = true := by
  have : ∀ i ∈ List.range m.n, (if i = s then some [] else do
      let c ← m.get? s i
      some (if Ext.ge0 c then [(i, c)] else [])) =
      some ((fun i => if i = s then [] else if Ext.ge0 (m.at' s i) then [(i, m.at' s i)] else []) i) := by
    intro i hi
    have hi := List.mem_range.1 hi
    by_cases h : i = s
    · simp [h]
    · simp [h, Mat.get?, hs, hi]
  have hm := mapM_some this
  refine ⟨_, by simp only [gatherLinks, hm]; rfl, ?_⟩
  intro i c
  simp only [List.mem_flatten, List.mem_map, List.mem_range]
  constructor
  · rintro ⟨_, ⟨j, hj, rfl⟩, hmem⟩
    by_cases h : j = s
    · simp [h] at hmem
    · by_cases hg : Ext.ge0 (m.at' s j) = true
      · simp [h, hg] at hmem
        obtain ⟨rfl, rfl⟩ := hmem
        exact ⟨hj, h, rfl, hg⟩
      · simp [h, hg] at hmem
  · rintro ⟨h1, h2, rfl, h4⟩
    exact ⟨_, ⟨i, h1, rfl⟩, by simp [h2, h4]⟩

theorem simulate_spec {m : Mat} {s : Nat} (hs : s < m.n) (link : Nat × Ext Int) :
    ∃ m', simulateOneNeighbor m s link = some m' ∧ m'.n = m.n ∧
      (∀ r c, r ≠ s → m'.at' r c = m.at' r c) ∧
      (∀ c, c < m.n → m'.at' s c = if c = link.1 then link.2 else nonAdjacent) := by
  have : ∀ (l : List Nat) (m1 : Mat), m1.n = m.n → (∀ i ∈ l, i < m.n) →
      ∃ m', l.foldlM (fun m i =>
        if i = link.1 then m.set? s i link.2 else m.set? s i nonAdjacent) m1 = some m' ∧
        m'.n = m.n ∧ (∀ r c, r ≠ s → m'.at' r c = m1.at' r c) ∧
        (∀ c, m'.at' s c = if c ∈ l then (if c = link.1 then link.2 else nonAdjacent)
          else m1.at' s c) := by
    intro l
    induction l with
    | nil => intro m1 h1 _; exact ⟨m1, rfl, h1, by simp, by simp⟩
    | cons i l ih =>
      intro m1 h1 hb
      have hi := hb i (by simp)
      obtain ⟨m2, e2, n2, r2, s2⟩ := ih ⟨m1.n, fun a b => if a = s ∧ b = i then
        (if i = link.1 then link.2 else nonAdjacent) else m1.at' a b⟩ h1 (fun j hj => hb j (by simp [hj]))
      refine ⟨m2, ?_, n2, ?_, ?_⟩
      · rw [List.foldlM_cons, ← e2]
        by_cases h : i = link.1 <;> simp [Mat.set?, h1, hs, hi, h]
        · subst h; simp [hi]
      · intro r c hr; rw [r2 r c hr]; simp [hr]
      · intro c; rw [s2 c]
        by_cases hc : c ∈ l
        · simp [hc]
        · by_cases hci : c = i
          · subst hci; simp [hc]
          · simp [hc, hci]
  obtain ⟨m', e, n, r, s'⟩ := this (List.range m.n) m rfl (fun i hi => List.mem_range.1 hi)
  exact ⟨m', e, n, r, fun c hc => by rw [s' c]; simp [hc]⟩

/-- In a graph where the only edge out of `s` goes to `i`, cheapest walks from `s` are that edge
followed by a cheapest walk from `i` that avoids `s`. -/
theorem oneNeighbor_shortest {L L' : Nat → Nat → Int → Prop} (hL : ∀ a b w, L a b w → 0 ≤ w)
    {s i v : Nat} (hi : i ≠ s) (hv : v ≠ s)
    (hrow : ∀ b w, L' s b w ↔ b = i ∧ L s i w)
    (hfun : ∀ w w', L s i w → L s i w' → w = w')
    (hoth : ∀ a b w, a ≠ s → (L' a b w ↔ L a b w)) (k : Int) :
    Shortest L' s v k ↔ ∃ w k', L s i w ∧ Shortest (Avoid s L) i v k' ∧ k = w + k' := by
  have hL' : ∀ a b w, L' a b w → 0 ≤ w := by
    intro a b w h
    by_cases ha : a = s
    · subst ha; exact hL _ _ _ ((hrow b w).1 h).2
    · exact hL _ _ _ ((hoth a b w ha).1 h)
  have down : ∀ {k}, Path L' s v k → ∃ w k', L s i w ∧ Path (Avoid s L) i v k' ∧ w + k' ≤ k := by
    intro k h
    obtain ⟨n, w, k', -, h2, h3, h4⟩ := h.avoid hL' hv
    obtain ⟨rfl, h5⟩ := (hrow n w).1 h2
    refine ⟨w, k', h5, h3.mono ?_, h4⟩
    rintro a b w ⟨g1, g2, g3⟩
    exact ⟨(hoth a b w g2).1 g1, g2, g3⟩
  have up : ∀ {w k'}, L s i w → Path (Avoid s L) i v k' → Path L' s v (w + k') := by
    intro w k' h1 h2
    refine (Path.single ((hrow i w).2 ⟨rfl, h1⟩)).trans (h2.mono ?_)
    rintro a b w ⟨g1, g2, g3⟩
    exact (hoth a b w g2).2 g1
  constructor
  · rintro ⟨h1, h2⟩
    obtain ⟨w, k', h3, h4, h5⟩ := down h1
    have h6 := h2 _ (up h3 h4)
    refine ⟨w, k', h3, ⟨h4, fun k2 h7 => ?_⟩, by omega⟩
    have := h2 _ (up h3 h7); omega
  · rintro ⟨w, k', h1, h2, rfl⟩
    refine ⟨up h1 h2.1, fun k2 h3 => ?_⟩
    obtain ⟨w', k3, h4, h5, h6⟩ := down h3
    have := hfun w w' h1 h4
    have := h2.2 _ h5; omega

theorem multiPath_spec {m0 : Mat} {s : Nat} {map : NameMap} (hW : WF map)
    (hn : m0.n = map.length) (hs : s < m0.n) (faceOf : Name → Uri) :
    ∀ (links : List (Nat × Ext Int)) (m : Mat), m.n = m0.n →
    (∀ r c, r ≠ s → m.at' r c = m0.at' r c) →
    (∀ i c, (i, c) ∈ links → i < m0.n ∧ i ≠ s ∧ c = m0.at' s i) →
    ∃ out, multiPath map s faceOf links m = some out ∧
      ∀ d nh, (d, nh) ∈ out ↔ ∃ v n i c w k, (i, c) ∈ links ∧ map.noOf d = some v ∧ v ≠ s ∧
        map.noOf n = some i ∧ Edge m0 s i w ∧ Shortest (Avoid s (Edge m0)) i v k ∧
        w + k < infDistance ∧ nh = ⟨faceOf n, ((w + k : Int) : Rat), false⟩ := by
  intro links
  induction links with
  | nil => intro m _ _ _; exact ⟨[], rfl, by simp⟩
  | cons link links ih =>
    obtain ⟨i, c⟩ := link
    intro m hmn hoth hb
    obtain ⟨hi, his, hc⟩ := hb i c (by simp)
    obtain ⟨m1, e1, n1, r1, s1⟩ := simulate_spec (m := m) (hmn ▸ hs) (i, c)
    have hn1 : m1.n = m0.n := n1.trans hmn
    obtain ⟨st, e2, hF⟩ := dijkstra_spec m1 s (hn1 ▸ hs)
    obtain ⟨out1, e3, -, o2, o3⟩ := addNextHops_spec hW (hn1.trans hn) hF faceOf
    have hoth1 : ∀ r c, r ≠ s → m1.at' r c = m0.at' r c :=
      fun r c hr => (r1 r c hr).trans (hoth r c hr)
    obtain ⟨out2, e4, o4⟩ := ih m1 hn1 hoth1 (fun i c h => hb i c (by simp [h]))
    -- edges of the simulated matrix
    have hrow : ∀ b w, Edge m1 s b w ↔ b = i ∧ Edge m0 s i w := by
      intro b w
      unfold Edge
      rw [hn1]
      constructor
      · rintro ⟨g1, g2, g3, g4⟩
        rw [s1 b (hmn.symm ▸ g2)] at g3
        by_cases hbi : b = i
        · subst hbi
          simp at g3
          exact ⟨rfl, g1, g2, by rw [← hc, g3], g4⟩
        · simp [hbi, nonAdjacent] at g3; omega
      · rintro ⟨rfl, g1, g2, g3, g4⟩
        refine ⟨g1, g2, ?_, g4⟩
        rw [s1 b (hmn.symm ▸ g2)]; simp [hc, g3]
    have hother : ∀ a b w, a ≠ s → (Edge m1 a b w ↔ Edge m0 a b w) := by
      intro a b w ha
      unfold Edge
      rw [hn1, hoth1 a b ha]
    have hfun : ∀ w w', Edge m0 s i w → Edge m0 s i w' → w = w' := by
      intro w w' h h'
      have := h.2.2.1.symm.trans h'.2.2.1
      injection this
    refine ⟨out1 ++ out2, by simp [multiPath, e1, e2, e3, e4], ?_⟩
    intro d nh
    rw [List.mem_append, o4]
    constructor
    · rintro (hmem | ⟨v, n, i', c', w, k, h1, h2⟩)
      · obtain ⟨v, n, c', w, k2, h1, h2, h3, h4, h5, h6, h7, h8, h9⟩ := o2 d nh hmem
        obtain ⟨rfl, h10⟩ := (hrow c' w).1 h6
        have hv : v < m1.n := by rw [hn1, hn]; exact noOf_lt hW h1
        have hsh := hF.shortest hv h3
        obtain ⟨w', k', h11, h12, h13⟩ :=
          (oneNeighbor_shortest Edge.nonneg his h2 hrow hfun hother _).1 hsh
        have := hfun w w' h10 h11
        subst this
        rw [h13] at h9 h3
        exact ⟨v, n, c', c, w, k', by simp, h1, h2, h4, h10, h12, h3, h9⟩
      · exact ⟨v, n, i', c', w, k, by simp [h1], h2⟩
    · rintro ⟨v, n, i', c', w, k, h1, h2, h3, h4, h5, h6, h7, h8⟩
      rcases List.mem_cons.1 h1 with h1 | h1
      · left
        injection h1 with h1 h1'
        subst h1 h1'
        have hv : v < m1.n := by rw [hn1, hn]; exact noOf_lt hW h2
        have hsh : Shortest (Edge m1) s v (w + k) :=
          (oneNeighbor_shortest Edge.nonneg his h3 hrow hfun hother _).2 ⟨w, k, h5, h6, rfl⟩
        have hd : st.dist.at' v = w + k := by
          have hle := hF.le v _ hsh.1
          exact (hF.shortest hv (by omega)).unique hsh
        obtain ⟨nh', hm⟩ := o3 d v h2 h3 (by omega)
        obtain ⟨v', n', c', w', k2, g1, g2, g3, g4, g5, g6, g7, g8, g9⟩ := o2 d nh' hm
        rw [h2] at g1; injection g1 with g1; subst g1
        obtain ⟨rfl, -⟩ := (hrow c' w').1 g6
        have := noOf_inj hW h4 g4
        subst this
        rw [h8, ← hd, ← g9]; exact hm
      · exact Or.inr ⟨v, n, i', c', w, k, h1, h2, h3, h4, h5, h6, h7, h8⟩

end Nlsr.LS

namespace Nlsr.LS
open NameMap

/-! ### Totality without any assumption on the LSAs -/

theorem writeLsa_total (map : NameMap) (o : Name) : ∀ (adjs : List (Name × Ext Rat)) (m : Mat),
    ∃ m', writeLsa map m ⟨o, adjs⟩ = some m' ∧ m'.n = m.n := by
  intro adjs
  induction adjs with
  | nil => intro m; exact ⟨m, rfl, rfl⟩
  | cons a adjs ih =>
    intro m
    have h1 : ∃ m1, writeAdj map o m a = some m1 ∧ m1.n = m.n := by
      unfold writeAdj
      split
      · split
        · rename_i h; refine ⟨_, by rw [Mat.set?, if_pos h], ?_⟩; rfl
        · exact ⟨m, rfl, rfl⟩
      · exact ⟨m, rfl, rfl⟩
    obtain ⟨m1, e1, n1⟩ := h1
    obtain ⟨m2, e2, n2⟩ := ih m1
    refine ⟨m2, ?_, n2.trans n1⟩
    simp only [writeLsa, List.foldlM_cons] at e2 ⊢
    rw [e1]; exact e2

theorem makeAdjMatrix_total (map : NameMap) (lsas : List AdjAd) :
    ∃ m, makeAdjMatrix lsas map = some m ∧ m.n = map.length := by
  have : ∀ (ls : List AdjAd) (m : Mat), ∃ m', ls.foldlM (writeLsa map) m = some m' ∧ m'.n = m.n := by
    intro ls
    induction ls with
    | nil => intro m; exact ⟨m, rfl, rfl⟩
    | cons l ls ih =>
      intro m
      obtain ⟨m1, e1, n1⟩ := writeLsa_total map l.origin l.adjs m
      obtain ⟨m2, e2, n2⟩ := ih m1
      exact ⟨m2, by rw [List.foldlM_cons]; simp only [Option.bind_eq_bind]; rw [e1]; exact e2,
        n2.trans n1⟩
  obtain ⟨m0, e0, n0⟩ := this lsas ⟨map.length, fun _ _ => nonAdjacent⟩
  obtain ⟨m, e, n, -⟩ := correct_spec m0
  refine ⟨m, ?_, by rw [n, n0]⟩
  simp only [makeAdjMatrix, e0, Option.bind_eq_bind, Option.bind_some]
  simp only at n0
  rw [n0] at e
  exact e

/-- For every LSDB content: the computation returns, never routes to itself, and installs integer
costs in `[0, limit)`. -/
theorem calculate_total (lsas : List AdjAd) (maxFaces : Nat) (self : Name) (faceOf : Name → Uri) :
    ∃ out, calculateFromLsdb maxFaces self faceOf lsas = some out ∧
      ∀ d nh, (d, nh) ∈ out → d ≠ self ∧
        (∃ z : Int, nh.cost = (z : Rat) ∧ 0 ≤ z ∧ z < infDistance) ∧ nh.hyp = false := by
  obtain ⟨hW, -⟩ := fromAdj_spec lsas
  simp only [calculateFromLsdb, calculate]
  cases hs : (fromAdj lsas).noOf self with
  | none => exact ⟨[], rfl, by simp⟩
  | some s =>
    have hsl := noOf_lt hW hs
    obtain ⟨m, e, n⟩ := makeAdjMatrix_total (fromAdj lsas) lsas
    simp only [e, Option.bind_eq_bind, Option.bind_some]
    by_cases hmf : maxFaces = 1
    · obtain ⟨st, e2, hF⟩ := dijkstra_spec m s (n ▸ hsl)
      obtain ⟨out, e3, -, o2, -⟩ := addNextHops_spec hW n hF faceOf
      refine ⟨out, by simp [hmf, e2, e3], fun d nh hm => ?_⟩
      obtain ⟨v, n', c, w, k2, h1, h2, h3, h4, h5, h6, h7, h8, h9⟩ := o2 d nh hm
      refine ⟨?_, ⟨st.dist.at' v, by rw [h9], (hF.bd v (n ▸ noOf_lt hW h1)).1, h3⟩, by rw [h9]⟩
      rintro rfl; rw [hs] at h1; injection h1 with h1; exact h2 h1.symm
    · obtain ⟨ls, e2, hls⟩ := gatherLinks_spec (m := m) (n ▸ hsl)
      obtain ⟨out, e3, o⟩ := multiPath_spec hW n (n ▸ hsl) faceOf ls m rfl (fun _ _ _ => rfl)
        (fun i c h => by obtain ⟨a, b, c', -⟩ := (hls i c).1 h; exact ⟨a, b, c'⟩)
      refine ⟨out, by simp [hmf, e2, e3], fun d nh hm => ?_⟩
      obtain ⟨v, n', i, c, w, k, h1, h2, h3, h4, h5, h6, h7, h8⟩ := (o d nh).1 hm
      refine ⟨?_, ⟨w + k, by rw [h8], ?_, h7⟩, by rw [h8]⟩
      · rintro rfl; rw [hs] at h2; injection h2 with h2; exact h3 h2.symm
      · have := h5.2.2.2
        have := h6.1.nonneg (fun a b w h => Edge.nonneg a b w h.1); omega

/-! ### Name-level characterisations -/

theorem describes (lsas : List AdjAd) (hwf : WellFormed lsas) :
    ∃ m, makeAdjMatrix lsas (fromAdj lsas) = some m ∧ Describes m (fromAdj lsas) (Link lsas) := by
  obtain ⟨hW, -⟩ := fromAdj_spec lsas
  obtain ⟨m, m0, e, n, s0, s⟩ := makeAdjMatrix_spec hW hwf
  exact ⟨m, e, n, fun a b r c ha hb w => edge_iff_link hW n s0 s ha hb w⟩

theorem no_path_from_unknown {lsas : List AdjAd} {self : Name}
    (hs : (fromAdj lsas).noOf self = none) {d : Name} {k : Int} (h : Path (Link lsas) self d k) :
    d = self := by
  rcases h.first_edge with ⟨h, -⟩ | ⟨n, w, k', h1, -⟩
  · exact h.symm
  · obtain ⟨r, hr⟩ := noOf_of_mem (fromAdj_spec lsas).1 (Link.known h1).1
    rw [hs] at hr; cases hr

/-- Single path: complete characterisation of the calls made. -/
theorem single_spec (lsas : List AdjAd) (hwf : WellFormed lsas) (self : Name) (faceOf : Name → Uri) :
    ∃ out, calculateFromLsdb 1 self faceOf lsas = some out ∧ (out.map (·.1)).Nodup ∧
      (∀ d nh, (d, nh) ∈ out → d ≠ self ∧ ∃ w k2 k : Int, ∃ hop : Name,
        nh = ⟨faceOf hop, (k : Rat), false⟩ ∧ k < costLimit ∧ Shortest (Link lsas) self d k ∧
        hop ≠ self ∧ Link lsas self hop w ∧ Shortest (Link lsas) hop d k2 ∧ k = w + k2) ∧
      (∀ d k, d ≠ self → Path (Link lsas) self d k → k < costLimit → ∃ nh, (d, nh) ∈ out) := by
  obtain ⟨hW, -⟩ := fromAdj_spec lsas
  have hK : ∀ a b w, Link lsas a b w → b ∈ names (fromAdj lsas) := fun a b w h => (Link.known h).2
  simp only [calculateFromLsdb, calculate]
  cases hs : (fromAdj lsas).noOf self with
  | none =>
    refine ⟨[], rfl, by simp, by simp, fun d k hd hp _ => absurd (no_path_from_unknown hs hp) hd⟩
  | some s =>
    have hsl := noOf_lt hW hs
    obtain ⟨m, e, hD⟩ := describes lsas hwf
    obtain ⟨st, e2, hF⟩ := dijkstra_spec m s (hD.1 ▸ hsl)
    obtain ⟨out, e3, o1, o2, o3⟩ := addNextHops_spec hW hD.1 hF faceOf
    refine ⟨out, by simp [e, e2, e3], o1, ?_, ?_⟩
    · intro d nh hm
      obtain ⟨v, hop, c, w, k2, h1, h2, h3, h4, h5, h6, h7, h8, h9⟩ := o2 d nh hm
      have hv : v < m.n := hD.1 ▸ noOf_lt hW h1
      have hsh := hF.shortest hv h3
      refine ⟨?_, w, k2, st.dist.at' v, hop, h9, h3, (shortest_up hW hD hK hs h1).1 hsh,
        ?_, (hD.2 _ _ _ _ hs h4 w).1 h6, ?_, h8⟩
      · rintro rfl; rw [hs] at h1; injection h1 with h1; exact h2 h1.symm
      · rintro rfl; rw [hs] at h4; injection h4 with h4; exact h5 h4.symm
      · refine (shortest_up hW hD hK h4 h1).1 ⟨h7, fun k' hk' => ?_⟩
        have := hsh.2 _ ((Path.single h6).trans hk'); omega
    · intro d k hd hp hk
      obtain ⟨v, h1, h2⟩ := path_down hD hK hW hp hs
      refine o3 d v h1 ?_ ?_
      · rintro rfl; exact hd (noOf_inj hW h1 hs)
      · have := hF.le v k h2; unfold costLimit at hk; unfold infDistance; omega

theorem avoid_describes {m : Mat} {map : NameMap} {L} (hW : WF map) (hD : Describes m map L)
    (hK : ∀ a b w, L a b w → b ∈ names map)
    {self : Name} {s : Nat} (hs : map.noOf self = some s) {a d : Name} {i v : Nat}
    (ha : map.noOf a = some i) (hd : map.noOf d = some v) (k : Int) :
    Shortest (Avoid s (Edge m)) i v k ↔ Shortest (Avoid self L) a d k := by
  have ne : ∀ {x j}, map.noOf x = some j → (j ≠ s ↔ x ≠ self) := by
    intro x j hx
    constructor
    · rintro h rfl; rw [hs] at hx; injection hx with hx; exact h hx.symm
    · rintro h rfl; exact h (noOf_inj hW hx hs)
  have up : ∀ {u k}, Path (Avoid s (Edge m)) i u k → ∀ {x}, map.noOf x = some u →
      Path (Avoid self L) a x k := by
    intro u k h
    induction h with
    | nil => intro x hx; rw [noOf_inj hW hx ha]; exact Path.nil _
    | @snoc b c k w _ e ih =>
      intro x hx
      have hb' : b < (names map).length := by
        have := e.1.1; rw [hD.1] at this; simpa [names] using this
      have hb : map.noOf ((names map)[b]) = some b :=
        (noOf_some_iff hW).2 (List.getElem?_eq_getElem hb')
      exact Path.snoc (ih hb) ⟨(hD.2 _ _ _ _ hb hx w).1 e.1, (ne hb).1 e.2.1, (ne hx).1 e.2.2⟩
  have down : ∀ {x k}, Path (Avoid self L) a x k → ∃ u, map.noOf x = some u ∧
      Path (Avoid s (Edge m)) i u k := by
    intro x k h
    induction h with
    | nil => exact ⟨i, ha, Path.nil _⟩
    | @snoc b c k w _ e ih =>
      obtain ⟨u, hu, hp⟩ := ih
      obtain ⟨v, hv⟩ := noOf_of_mem hW (hK _ _ _ e.1)
      exact ⟨v, hv, Path.snoc hp ⟨(hD.2 _ _ _ _ hu hv w).2 e.1, (ne hu).2 e.2.1, (ne hv).2 e.2.2⟩⟩
  have down' : ∀ {k}, Path (Avoid self L) a d k → Path (Avoid s (Edge m)) i v k := by
    intro k h
    obtain ⟨u, h1, h2⟩ := down h
    rw [hd] at h1; injection h1 with h1; subst h1; exact h2
  exact ⟨fun ⟨h1, h2⟩ => ⟨up h1 hd, fun k' h => h2 k' (down' h)⟩,
    fun ⟨h1, h2⟩ => ⟨down' h1, fun k' h => h2 k' (up h hd)⟩⟩

/-- Multi-path: complete characterisation of the calls made. -/
theorem multi_spec (lsas : List AdjAd) (hwf : WellFormed lsas) (maxFaces : Nat) (hmf : maxFaces ≠ 1)
    (self : Name) (faceOf : Name → Uri) :
    ∃ out, calculateFromLsdb maxFaces self faceOf lsas = some out ∧
      ∀ d nh, (d, nh) ∈ out ↔ d ≠ self ∧ ∃ hop : Name, ∃ w k : Int, hop ≠ self ∧
        Link lsas self hop w ∧ Shortest (Avoid self (Link lsas)) hop d k ∧ w + k < costLimit ∧
        nh = ⟨faceOf hop, ((w + k : Int) : Rat), false⟩ := by
  obtain ⟨hW, -⟩ := fromAdj_spec lsas
  have hK : ∀ a b w, Link lsas a b w → b ∈ names (fromAdj lsas) := fun a b w h => (Link.known h).2
  simp only [calculateFromLsdb, calculate]
  cases hs : (fromAdj lsas).noOf self with
  | none =>
    refine ⟨[], rfl, fun d nh => ?_⟩
    simp only [List.not_mem_nil, false_iff]
    rintro ⟨-, hop, w, k, h1, h2, -⟩
    exact h1 (no_path_from_unknown hs (Path.single h2))
  | some s =>
    have hsl := noOf_lt hW hs
    obtain ⟨m, e, hD⟩ := describes lsas hwf
    obtain ⟨ls, e2, hls⟩ := gatherLinks_spec (m := m) (hD.1 ▸ hsl)
    obtain ⟨out, e3, o⟩ := multiPath_spec hW hD.1 (hD.1 ▸ hsl) faceOf ls m rfl (fun _ _ _ => rfl)
      (fun i c h => by obtain ⟨a, b, c', -⟩ := (hls i c).1 h; exact ⟨a, b, c'⟩)
    refine ⟨out, by simp [hmf, e, e2, e3], fun d nh => ?_⟩
    rw [o]
    constructor
    · rintro ⟨v, n, i, c, w, k, h1, h2, h3, h4, h5, h6, h7, h8⟩
      obtain ⟨-, his, -⟩ := (hls i c).1 h1
      refine ⟨?_, n, w, k, ?_, (hD.2 _ _ _ _ hs h4 w).1 h5,
        (avoid_describes hW hD hK hs h4 h2 k).1 h6, h7, h8⟩
      · rintro rfl; rw [hs] at h2; injection h2 with h2; exact h3 h2.symm
      · rintro rfl; rw [hs] at h4; injection h4 with h4; exact his h4.symm
    · rintro ⟨hd, hop, w, k, h1, h2, h3, h4, h5⟩
      obtain ⟨i, hi⟩ := noOf_of_mem hW (hK _ _ _ h2)
      have hiE := (hD.2 _ _ _ _ hs hi w).2 h2
      have hdk : d ∈ names (fromAdj lsas) := by
        rcases h3.1 with _ | ⟨_, e⟩
        · exact hK _ _ _ h2
        · exact hK _ _ _ e.1
      obtain ⟨v, hv⟩ := noOf_of_mem hW hdk
      have his : i ≠ s := by rintro rfl; exact h1 (noOf_inj hW hi hs)
      refine ⟨v, hop, i, m.at' s i, w, k, (hls i _).2 ⟨hiE.2.1, his, rfl, ?_⟩, hv, ?_, hi, hiE,
        (avoid_describes hW hD hK hs hi hv k).2 h3, h4, h5⟩
      · rw [hiE.2.2.1]; simp [Ext.ge0, hiE.2.2.2]
      · rintro rfl; exact hd (noOf_inj hW hv hs)

end Nlsr.LS
