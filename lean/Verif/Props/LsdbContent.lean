import Verif.Props.Lsdb
import Verif.Props.Adjacency
/- C28: the stored content after accepting a newer LSA. -/
namespace Nlsr
open Lsdb

/-- What the LSDB stores for a key after a newer LSA has been accepted. -/
theorem installed_content {c : LConf} {s : Lsdb} (h : Inv c s) {o : Obj} {l : Lsa} (ho : o ∈ s.db)
    (hr : o.lsa.origin = l.origin) (ht : o.lsa.type = l.type) (hs : o.lsa.seq < l.seq)
    (hn : l.content.norm = l.content) :
    ∃ o', (installLsa c s l).find l.origin l.type = some o' ∧ o'.lsa.seq = l.seq ∧ o'.lsa.exp = l.exp ∧
      o'.lsa.content = (o.lsa.content.update l.content).content := by
  have hf := find_of_mem h ho
  rw [hr, ht] at hf
  have hi' := install_inv h l hn
  have he : installLsa c s l = installUpdate s o l (timeToExpire c s l) := by
    unfold installLsa
    rw [hf]
    dsimp only
    rw [if_pos hs]
  rw [he] at hi' ⊢
  refine ⟨⟨o.oid, ⟨o.lsa.origin, l.seq, l.exp, (o.lsa.content.update l.content).content⟩, s.nextId⟩, ?_, rfl, rfl, rfl⟩
  refine (find_iff hi').2 ⟨(mem_installUpdate h ho l _ _).2 (Or.inl rfl), hr, ?_⟩
  exact (Content.update_type _ _).trans ht

theorem mem_minus {a b : PrefixMap} {q : PrefixInfo} :
    q ∈ PrefixMap.minus a b ↔ q ∈ a ∧ PrefixMap.get b q.name = none := by
  unfold PrefixMap.minus
  rw [List.mem_filter]
  refine and_congr_right fun _ => ?_
  simp only [PrefixMap.get, Option.map_eq_none_iff, List.find?_eq_none, Bool.not_eq_true', List.any_eq_false]

/-- Costs after `NameLsa::update`: a name has an entry iff the newer LSA lists it, and its cost is the
previously stored one if there was one. -/
theorem get_updateNames {a b : PrefixMap} (ha : PrefixMap.Sorted a) (hb : PrefixMap.Sorted b) :
    ∃ m, (updateNames a b).content = .names m ∧ PrefixMap.Sorted m ∧ ∀ n,
      PrefixMap.get m n = (PrefixMap.get b n).map (fun k => (PrefixMap.get a n).getD k) := by
  refine ⟨_, rfl, PrefixMap.foldl_erase_sorted _ (PrefixMap.foldl_insert_sorted _ ha), ?_⟩
  intro n
  rw [PrefixMap.get_foldl_erase]
  have hexa : ∀ m : PrefixMap, PrefixMap.get m n = none → ¬ ∃ q ∈ m, q.name = n :=
    fun m h ⟨q, hq, hn⟩ => PrefixMap.get_none h q hq hn
  cases hbn : PrefixMap.get b n with
  | none =>
    cases han : PrefixMap.get a n with
    | none =>
      rw [if_neg, PrefixMap.get_foldl_insert _ ha, han]
      · rfl
      · intro q hq hn
        exact hexa b hbn ⟨q, (mem_minus.1 hq).1, hn⟩
      · rintro ⟨q, hq, hn⟩
        exact hexa a han ⟨q, (mem_minus.1 hq).1, hn⟩
    | some k =>
      rw [if_pos]
      · rfl
      · exact ⟨⟨n, k⟩, mem_minus.2 ⟨PrefixMap.get_some han, hbn⟩, rfl⟩
  | some k =>
    rw [if_neg]
    · cases han : PrefixMap.get a n with
      | none =>
        have := PrefixMap.get_foldl_insert_mem (PrefixMap.minus b a) ha (hb.sublist List.filter_sublist)
          ⟨n, k⟩ (mem_minus.2 ⟨PrefixMap.get_some hbn, han⟩)
        simpa using this
      | some k' =>
        rw [PrefixMap.get_foldl_insert _ ha, han]
        · rfl
        · intro q hq hn
          have := (mem_minus.1 hq).2
          rw [hn, han] at this
          cases this
    · rintro ⟨q, hq, hn⟩
      have := (mem_minus.1 hq).2
      rw [hn, hbn] at this
      cases this

/-- C28 for Name LSAs: the stored LSA gets the received number and expiration, and lists exactly the
received names.  Costs are the received ones for names that were not stored before, and for all names
whose cost did not change.  Missing for the full property: changed costs, which are ignored
(`C28_violated_name_cost`). -/
theorem C28_names_partial {c : LConf} {s : Lsdb} (h : Reachable c s) {o : Obj} {l : Lsa} {a b : PrefixMap}
    (ho : o ∈ s.db) (hr : o.lsa.origin = l.origin) (hs : o.lsa.seq < l.seq) (hn : l.content.norm = l.content)
    (hoc : o.lsa.content = .names a) (hlc : l.content = .names b) :
    ∃ o' m, (installLsa c s l).find l.origin .name = some o' ∧ o'.lsa.seq = l.seq ∧ o'.lsa.exp = l.exp ∧
      o'.lsa.content = .names m ∧ (∀ n, n ∈ m.map (·.name) ↔ n ∈ b.map (·.name)) ∧
      (∀ p ∈ b, p.name ∉ a.map (·.name) → p ∈ m) ∧
      ((∀ p ∈ a, ∀ q ∈ b, p.name = q.name → p.cost = q.cost) → m = b) := by
  have ht : o.lsa.type = l.type := by rw [Lsa.type, Lsa.type, hoc, hlc]; rfl
  obtain ⟨o', h1, h2, h3, h4⟩ := installed_content h.inv ho hr ht hs hn
  have hsa : PrefixMap.Sorted a := norm_names.1 (hoc ▸ h.inv.norm o ho)
  have hsb : PrefixMap.Sorted b := norm_names.1 (hlc ▸ hn)
  obtain ⟨m, hm, hsm, hget⟩ := get_updateNames hsa hsb
  have hlt : l.type = .name := by rw [Lsa.type, hlc]; rfl
  have hin : ∀ (x : PrefixMap) (n : Name), PrefixMap.Sorted x →
      (n ∈ x.map (·.name) ↔ ∃ k, PrefixMap.get x n = some k) := by
    intro x n hx
    constructor
    · intro hm
      obtain ⟨q, hq, rfl⟩ := List.mem_map.1 hm
      exact ⟨_, PrefixMap.get_mem hx hq⟩
    · rintro ⟨k, hk⟩
      exact List.mem_map.2 ⟨⟨n, k⟩, PrefixMap.get_some hk, rfl⟩
  refine ⟨o', m, hlt ▸ h1, h2, h3, ?_, ?_, ?_, ?_⟩
  · rw [h4, hoc, hlc]; exact hm
  · intro n
    rw [hin m n hsm, hin b n hsb, hget]
    constructor
    · rintro ⟨k, hk⟩
      simp only [Option.map_eq_some_iff] at hk
      obtain ⟨k', hk', -⟩ := hk
      exact ⟨k', hk'⟩
    · rintro ⟨k, hk⟩
      exact ⟨_, by rw [hk]; rfl⟩
  · intro p hp hpa
    have hg := hget p.name
    have : PrefixMap.get a p.name = none := by
      cases hga : PrefixMap.get a p.name with
      | none => rfl
      | some k => exact absurd ((hin a _ hsa).2 ⟨k, hga⟩) hpa
    rw [PrefixMap.get_mem hsb hp, this] at hg
    exact PrefixMap.get_some hg
  · intro hcost
    refine PrefixMap.ext hsm hsb fun n => ?_
    rw [hget]
    cases hbn : PrefixMap.get b n with
    | none => rfl
    | some k =>
      cases han : PrefixMap.get a n with
      | none => rfl
      | some k' =>
        have := hcost _ (PrefixMap.get_some han) _ (PrefixMap.get_some hbn) rfl
        simpa using this

/-- C28 for adjacency LSAs whose costs are whole numbers: the stored LSA advertises exactly the
received (neighbour, URI, cost) triples. -/
theorem C28_adjacencies_partial {c : LConf} {s : Lsdb} (h : Reachable c s) {o : Obj} {l : Lsa}
    {a b : AdjacencyList} (ho : o ∈ s.db) (hr : o.lsa.origin = l.origin) (hs : o.lsa.seq < l.seq)
    (hn : l.content.norm = l.content) (hoc : o.lsa.content = .adj a) (hlc : l.content = .adj b)
    (hia : IntegralCosts a) (hib : IntegralCosts b) :
    ∃ o' m, (installLsa c s l).find l.origin .adjacency = some o' ∧ o'.lsa.seq = l.seq ∧ o'.lsa.exp = l.exp ∧
      o'.lsa.content = .adj m ∧
      (m.map (fun x => (x.name, x.uri, x.cost))).Perm (b.map (fun x => (x.name, x.uri, x.cost))) := by
  have ht : o.lsa.type = l.type := by rw [Lsa.type, Lsa.type, hoc, hlc]; rfl
  obtain ⟨o', h1, h2, h3, h4⟩ := installed_content h.inv ho hr ht hs hn
  have hna : (a.map (·.name)).Nodup := norm_adj.1 (hoc ▸ h.inv.norm o ho)
  have hnb : (b.map (·.name)).Nodup := norm_adj.1 (hlc ▸ hn)
  have hlt : l.type = .adjacency := by rw [Lsa.type, hlc]; rfl
  rw [hoc, hlc] at h4
  simp only [Content.update, updateAdj] at h4
  by_cases he : AdjacencyList.eqv a b = true
  · rw [if_pos he] at h4
    exact ⟨o', a, hlt ▸ h1, h2, h3, h4, ((C46_equality_partial a b hna hnb hia hib).1).1 he⟩
  · rw [if_neg he] at h4
    rw [adj_ofList_nodup b hnb] at h4
    exact ⟨o', b, hlt ▸ h1, h2, h3, h4, List.Perm.refl _⟩

/-- Two coordinates are the same double or finite and less than 2^-52 apart. -/
def CoordClose (x y : Ext Rat) : Prop :=
  x = y ∨ ∃ p q : Rat, x = .fin p ∧ y = .fin q ∧ p - q < 1 / 2 ^ 52 ∧ q - p < 1 / 2 ^ 52

theorem diffInEpsilon_close {x y : Ext Rat} (h : diffInEpsilon x y = true) : CoordClose x y := by
  cases x <;> cases y <;> simp only [diffInEpsilon, decide_eq_true_eq, Bool.false_eq_true] at h
  refine Or.inr ⟨_, _, rfl, rfl, ?_⟩
  have : (1 / 2 ^ 52 : Rat) = 1 / 4503599627370496 := by decide +kernel
  rw [this]
  exact h

/-- C28 for coordinate LSAs: the stored coordinates are the received ones up to a difference below
2^-52 in each coordinate, in the same number.  Missing for the full property: smaller changes are
ignored (`C28_violated_coordinates`). -/
theorem C28_coordinates_partial {c : LConf} {s : Lsdb} (h : Reachable c s) {o : Obj} {l : Lsa}
    {r r' : Ext Rat} {as as' : List (Ext Rat)} (ho : o ∈ s.db) (hr : o.lsa.origin = l.origin)
    (hs : o.lsa.seq < l.seq) (hoc : o.lsa.content = .coord r as) (hlc : l.content = .coord r' as') :
    ∃ o' x xs, (installLsa c s l).find l.origin .coordinate = some o' ∧ o'.lsa.seq = l.seq ∧
      o'.lsa.exp = l.exp ∧ o'.lsa.content = .coord x xs ∧ CoordClose x r' ∧ xs.length = as'.length ∧
      ∀ p ∈ xs.zip as', CoordClose p.1 p.2 := by
  have ht : o.lsa.type = l.type := by rw [Lsa.type, Lsa.type, hoc, hlc]; rfl
  have hn : l.content.norm = l.content := by rw [hlc]; rfl
  obtain ⟨o', h1, h2, h3, h4⟩ := installed_content h.inv ho hr ht hs hn
  have hlt : l.type = .coordinate := by rw [Lsa.type, hlc]; rfl
  rw [hoc, hlc] at h4
  simp only [Content.update, updateCoord] at h4
  by_cases he : coordEq r as r' as' = true
  · rw [if_pos he] at h4
    simp only [coordEq, Bool.and_eq_true, List.all_eq_true, beq_iff_eq] at he
    exact ⟨o', r, as, hlt ▸ h1, h2, h3, h4, diffInEpsilon_close he.1.1, he.1.2,
      fun p hp => diffInEpsilon_close (he.2 p hp)⟩
  · rw [if_neg he] at h4
    refine ⟨o', r', as', hlt ▸ h1, h2, h3, h4, Or.inl rfl, rfl, ?_⟩
    intro p hp
    rw [List.zip_eq_zipWith, List.mem_iff_getElem] at hp
    obtain ⟨i, hi, rfl⟩ := hp
    exact Or.inl (by simp)

/-- The content stored for /net/site/r2. -/
def storedFor (s : Lsdb) (t : LsaType) : Option (Nat × Content) :=
  (s.find exR2 t).map (fun o => (o.lsa.seq, o.lsa.content))

/-- C28 fails for costs: the newer Name LSA changes the cost of /b from 1 to 9, the stored LSA takes
its number but keeps the cost 1. -/
theorem C28_violated_name_cost :
    ∃ ops, storedFor (run (exConf .off) (exStart .off) ops) .name = some (8, .names [⟨nm ["b"], .fin 1⟩]) ∧
      ∃ pre, ops = pre ++ [.fetched 0 (some ⟨exR2, 8, 9000000000000, .names [⟨nm ["b"], .fin 9⟩]⟩)] :=
  ⟨exFetch 7 5000000000000 [⟨nm ["b"], .fin 1⟩] ++ exFetch 8 9000000000000 [⟨nm ["b"], .fin 9⟩],
    by decide +kernel, exFetch 7 5000000000000 [⟨nm ["b"], .fin 1⟩] ++ [.sync (exUpdate "r2" "NAME") 8], rfl⟩

/-- A fetched adjacency LSA with one neighbour of the given cost. -/
def exAdjLsa (seq : Nat) (cost : Rat) : Lsa :=
  ⟨exR2, seq, 9000000000000, .adj [{ name := exR1, uri := "udp4://10.0.0.1", cost := .fin cost }]⟩

/-- C28 fails for fractional link costs: 10 stored, 9.5 received, 10 kept. -/
theorem C28_violated_link_cost :
    storedFor (run (exConf .off) (exStart .off)
      [.sync (exUpdate "r2" "ADJACENCY") 1, .fetched 0 (some (exAdjLsa 1 10)),
       .sync (exUpdate "r2" "ADJACENCY") 2, .fetched 0 (some (exAdjLsa 2 (19 / 2)))]) .adjacency =
      some (2, (exAdjLsa 1 10).content) ∧ (exAdjLsa 1 10).content ≠ (exAdjLsa 2 (19 / 2)).content := by
  decide +kernel

/-- C28 fails for coordinates closer than 2^-52. -/
theorem C28_violated_coordinates :
    storedFor (run (exConf .on) (exStart .on)
      [.sync (exUpdate "r2" "COORDINATE") 1, .fetched 0 (some ⟨exR2, 1, 9000000000000, .coord (.fin 1) [.fin 1]⟩),
       .sync (exUpdate "r2" "COORDINATE") 2,
       .fetched 0 (some ⟨exR2, 2, 9000000000000, .coord (.fin (1 + 1 / 2 ^ 60)) [.fin 1]⟩)]) .coordinate =
      some (2, .coord (.fin 1) [.fin 1]) := by
  decide +kernel

/-- The hypotheses are met: a reachable LSDB storing a Name LSA, updated with added, removed and
unchanged names. -/
example : storedFor (run (exConf .off) (exStart .off)
    (exFetch 7 5000000000000 [⟨nm ["b"], .fin 1⟩, ⟨nm ["c"], .fin 2⟩] ++
     exFetch 8 9000000000000 [⟨nm ["d"], .fin 3⟩, ⟨nm ["b"], .fin 1⟩])) .name =
    some (8, .names [⟨nm ["b"], .fin 1⟩, ⟨nm ["d"], .fin 3⟩]) := by
  decide +kernel

example : storedFor (run (exConf .off) (exStart .off)
      [.sync (exUpdate "r2" "ADJACENCY") 1, .fetched 0 (some (exAdjLsa 1 10)),
       .sync (exUpdate "r2" "ADJACENCY") 2, .fetched 0 (some (exAdjLsa 2 11))]) .adjacency =
      some (2, (exAdjLsa 2 11).content) ∧ IntegralCosts [{ name := exR1, uri := "udp4://10.0.0.1", cost := .fin 11 }] := by
  refine ⟨by decide +kernel, ?_⟩
  intro a ha
  simp only [List.mem_singleton] at ha
  subst ha
  exact ⟨11, rfl⟩

end Nlsr
