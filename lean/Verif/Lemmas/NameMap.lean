import Verif.Model.NameMap
namespace Nlsr.NameMap

/-- The names in numbering order. -/
def names (m : NameMap) : List Name := m.map (·.1)

/-- Reachable shape: the i-th pair carries number i and names are distinct. -/
structure WF (m : NameMap) : Prop where
  nos : m.map (·.2) = List.range m.length
  nodup : (names m).Nodup

theorem WF.nil : WF [] := ⟨by simp, by simp [names]⟩

theorem WF.getElem {m : NameMap} (h : WF m) {i : Nat} (hi : i < m.length) : (m[i]).2 = i := by
  have := congrArg (fun l => l[i]?) h.nos
  simp [hi] at this
  exact this

theorem WF.addEntry {m : NameMap} (h : WF m) (n : Name) :
    WF (m.addEntry n) ∧
    (n ∈ names m → m.addEntry n = m) ∧ (n ∉ names m → m.addEntry n = m ++ [(n, m.length)]) := by
  have hno : ∀ p ∈ m, p.2 ≠ m.length := by
    intro p hp
    have : p.2 ∈ m.map (·.2) := List.mem_map.2 ⟨p, hp, rfl⟩
    rw [h.nos] at this
    have := List.mem_range.1 this
    omega
  have hany : (m.any (fun p => p.1 == n || p.2 == m.length)) = true ↔ n ∈ names m := by
    simp only [List.any_eq_true, Bool.or_eq_true, beq_iff_eq, names, List.mem_map]
    constructor
    · rintro ⟨p, hp, h1 | h1⟩
      · exact ⟨p, hp, h1⟩
      · exact absurd h1 (hno p hp)
    · rintro ⟨p, hp, h1⟩
      exact ⟨p, hp, Or.inl h1⟩
  by_cases hn : n ∈ names m
  · have e : m.addEntry n = m := by simp only [NameMap.addEntry]; rw [if_pos (hany.2 hn)]
    exact ⟨e.symm ▸ h, fun _ => e, fun h' => absurd hn h'⟩
  · have e : m.addEntry n = m ++ [(n, m.length)] := by
      simp only [NameMap.addEntry]; rw [if_neg (fun h' => hn (hany.1 h'))]
    refine ⟨?_, fun h' => absurd h' hn, fun _ => e⟩
    rw [e]
    refine ⟨?_, ?_⟩
    · simp [h.nos, List.range_succ]
    · simp only [names, List.map_append, List.map_cons, List.map_nil]
      rw [List.nodup_append]
      refine ⟨h.nodup, by simp, ?_⟩
      intro a ha b hb
      simp at hb
      rintro rfl
      exact hn (hb ▸ ha)

theorem mem_names_addEntry {m : NameMap} (h : WF m) (n x : Name) :
    x ∈ names (m.addEntry n) ↔ x ∈ names m ∨ x = n := by
  by_cases hn : n ∈ names m
  · rw [(h.addEntry n).2.1 hn]
    constructor
    · exact Or.inl
    · rintro (h | rfl) <;> assumption
  · rw [(h.addEntry n).2.2 hn]
    simp [names]

theorem noOf_some_iff {m : NameMap} (h : WF m) {n : Name} {i : Nat} :
    m.noOf n = some i ↔ (names m)[i]? = some n := by
  constructor
  · intro hf
    simp only [noOf, Option.map_eq_some_iff] at hf
    obtain ⟨p, hp, rfl⟩ := hf
    have hp1 := List.find?_some hp
    have hmem := List.mem_of_find?_eq_some hp
    obtain ⟨j, hj, e⟩ := List.mem_iff_getElem.1 hmem
    have := h.getElem hj
    rw [e] at this
    simp only [beq_iff_eq] at hp1
    simp [names, this, hj, e, hp1]
  · intro hg
    simp only [names, List.getElem?_map, Option.map_eq_some_iff] at hg
    obtain ⟨p, hp, rfl⟩ := hg
    obtain ⟨hi, e⟩ := List.getElem?_eq_some_iff.1 hp
    simp only [noOf, Option.map_eq_some_iff]
    cases hfind : m.find? (fun q => q.1 == p.1) with
    | none =>
      have := List.find?_eq_none.1 hfind p (e ▸ List.getElem_mem hi)
      simp at this
    | some q =>
      refine ⟨q, rfl, ?_⟩
      have hq1 := List.find?_some hfind
      have hqm := List.mem_of_find?_eq_some hfind
      obtain ⟨j, hj, ej⟩ := List.mem_iff_getElem.1 hqm
      have h1 := h.getElem hj
      simp only [beq_iff_eq] at hq1
      have hij : j = i := by
        have hnd := h.nodup
        have a1 : (names m)[j]? = some p.1 := by simp [names, hj, ej, hq1]
        have a2 : (names m)[i]? = some p.1 := by simp [names, hi, e]
        have hjl : j < (names m).length := by simpa [names] using hj
        have hil : i < (names m).length := by simpa [names] using hi
        exact (List.getElem?_inj hjl hnd).1 (a1.trans a2.symm)
      rw [← ej, h1, hij]

theorem nameOf_eq {m : NameMap} (h : WF m) (i : Nat) : m.nameOf i = (names m)[i]? := by
  cases hg : (names m)[i]? with
  | none =>
    simp only [nameOf, Option.map_eq_none_iff]
    rw [List.find?_eq_none]
    intro p hp
    obtain ⟨j, hj, e⟩ := List.mem_iff_getElem.1 hp
    have := h.getElem hj
    rw [e] at this
    simp only [beq_iff_eq]
    have hi : (names m).length ≤ i := List.getElem?_eq_none_iff.1 hg
    simp only [names, List.length_map] at hi
    omega
  | some n =>
    simp only [names, List.getElem?_map, Option.map_eq_some_iff] at hg
    obtain ⟨p, hp, rfl⟩ := hg
    obtain ⟨hi, e⟩ := List.getElem?_eq_some_iff.1 hp
    simp only [nameOf, Option.map_eq_some_iff]
    cases hfind : m.find? (fun q => q.2 == i) with
    | none =>
      have := List.find?_eq_none.1 hfind p (e ▸ List.getElem_mem hi)
      have h2 := h.getElem hi
      rw [e] at h2
      simp [h2] at this
    | some q =>
      refine ⟨q, rfl, ?_⟩
      have hq1 := List.find?_some hfind
      have hqm := List.mem_of_find?_eq_some hfind
      obtain ⟨j, hj, ej⟩ := List.mem_iff_getElem.1 hqm
      have h1 := h.getElem hj
      simp only [beq_iff_eq] at hq1
      have hij : j = i := by rw [← h1, ej, hq1]
      subst hij
      rw [← ej, ← e]

theorem foldl_addEntry {α} (f : α → Name) (l : List α) : ∀ (m : NameMap), WF m →
    WF (l.foldl (fun m a => m.addEntry (f a)) m) ∧
    (∀ x, x ∈ names (l.foldl (fun m a => m.addEntry (f a)) m) ↔
      x ∈ names m ∨ ∃ a ∈ l, x = f a) ∧
    names m <+: names (l.foldl (fun m a => m.addEntry (f a)) m) := by
  induction l with
  | nil => intro m h; exact ⟨h, by simp, List.prefix_refl _⟩
  | cons a l ih =>
    intro m h
    obtain ⟨h1, h2, h3⟩ := ih (m.addEntry (f a)) (h.addEntry (f a)).1
    refine ⟨h1, ?_, ?_⟩
    · intro x
      rw [List.foldl_cons, h2, mem_names_addEntry h]
      simp [or_assoc]
    · refine List.IsPrefix.trans ?_ h3
      by_cases hn : f a ∈ names m
      · rw [(h.addEntry (f a)).2.1 hn]; exact List.prefix_refl _
      · rw [(h.addEntry (f a)).2.2 hn]; simp [names]

theorem fromOrigins_spec (l : List Name) : WF (fromOrigins l) ∧
    ∀ x, x ∈ names (fromOrigins l) ↔ x ∈ l := by
  obtain ⟨h1, h2, -⟩ := foldl_addEntry id l [] WF.nil
  refine ⟨h1, fun x => ?_⟩
  have := h2 x
  simpa [names, fromOrigins] using this

theorem fromAdj_spec (lsas : List AdjAd) : WF (fromAdj lsas) ∧
    ∀ x, x ∈ names (fromAdj lsas) ↔
      ∃ l ∈ lsas, x = l.origin ∨ ∃ a ∈ l.adjs, x = a.1 := by
  have key : ∀ (lsas : List AdjAd) (m : NameMap), WF m →
      WF (lsas.foldl (fun m l => l.adjs.foldl (fun m a => m.addEntry a.1) (m.addEntry l.origin)) m) ∧
      ∀ x, x ∈ names (lsas.foldl
          (fun m l => l.adjs.foldl (fun m a => m.addEntry a.1) (m.addEntry l.origin)) m) ↔
        x ∈ names m ∨ ∃ l ∈ lsas, x = l.origin ∨ ∃ a ∈ l.adjs, x = a.1 := by
    intro lsas
    induction lsas with
    | nil => intro m h; exact ⟨h, by simp⟩
    | cons l ls ih =>
      intro m h
      obtain ⟨h1, h2, -⟩ := foldl_addEntry (fun a : Name × Ext Rat => a.1) l.adjs
        (m.addEntry l.origin) (h.addEntry l.origin).1
      obtain ⟨h3, h4⟩ := ih _ h1
      refine ⟨h3, fun x => ?_⟩
      rw [List.foldl_cons, h4, h2, mem_names_addEntry h]
      simp only [List.mem_cons, exists_eq_or_imp, or_assoc]
  obtain ⟨h1, h2⟩ := key lsas [] WF.nil
  exact ⟨h1, fun x => by simpa [names, fromAdj] using h2 x⟩

end Nlsr.NameMap
