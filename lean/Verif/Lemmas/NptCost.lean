import Verif.Lemmas.CoreHops
/- The cost told to the FIB, and the presence of a router's own prefix, along an execution. -/
namespace Nlsr
namespace Npt
open Lsdb (View VS VSs)

/-- Nothing about `p` changes. -/
structure Still (p : Name) (s s' : Npt) : Prop where
  fresh : Fresh s → Fresh s'
  has : Fresh s → ∀ r, Has s' p r ↔ Has s p r
  last : Fresh s → ∀ v, LastOk s p v → LastOk s' p v

theorem Still.refl (p : Name) (s : Npt) : Still p s s := ⟨id, fun _ _ => Iff.rfl, fun _ _ h => h⟩

theorem Still.trans {p : Name} {a b c : Npt} (h : Still p a b) (h' : Still p b c) : Still p a c :=
  ⟨fun hf => h'.fresh (h.fresh hf), fun hf r => (h'.has (h.fresh hf) r).trans (h.has hf r),
    fun hf v hl => h'.last (h.fresh hf) v (h.last hf v hl)⟩

theorem still_addEntry {p : Name} (s : Npt) {n : Name} (h : p ≠ n) (d : Name) (fl : Nat) : Still p s (s.addEntry n d fl) :=
  ⟨fun hf => hf.addEntry n d fl,
   fun hf r => by rw [(addEntry_spec hf.inv n d fl).2]; simp [h],
   fun hf v hl => (addEntry_table hf.inv n d fl).2.2.1 p v h hl⟩

theorem still_removeEntry {p : Name} (s : Npt) {n : Name} (h : p ≠ n) (d : Name) : Still p s (s.removeEntry n d) :=
  ⟨fun hf => hf.removeEntry n d,
   fun hf r => by rw [(removeEntry_spec hf.inv n d).2]; simp [h],
   fun hf v hl => (removeEntry_table hf.inv n d).2.1 p v h hl⟩

theorem lastOk_same {s s' : Npt} (ht : s'.table = s.table) (ho : s'.out = s.out) {p : Name} {v : Ext Rat} (h : LastOk s p v) :
    LastOk s' p v := by
  unfold LastOk at h ⊢
  rw [ht, ho]; exact h

theorem still_advertise {p : Name} (own r : Name) (s : Npt) {q : PrefixInfo} (h : q.name ≠ p) : Still p s (advertise own r s q) := by
  unfold advertise
  split
  · exact Still.refl p s
  · refine Still.trans (b := s.setCost (r, q.name) q.cost) ?_ (still_addEntry _ (Ne.symm h) _ _)
    exact ⟨fun hf => hf.setCost _ _, fun _ r' => has_setCost _ _ _ _ _, fun _ v hl => lastOk_same rfl rfl hl⟩

theorem still_advertiseAll {p : Name} (own r : Name) : ∀ (l : List PrefixInfo) (s : Npt), (∀ q ∈ l, q.name ≠ p) →
    Still p s (l.foldl (advertise own r) s) := by
  intro l
  induction l with
  | nil => intro s _; exact Still.refl p s
  | cons q l ih =>
    intro s h
    rw [List.foldl_cons]
    exact (still_advertise own r s (h q (by simp))).trans (ih _ (fun x hx => h x (by simp [hx])))

theorem table_eraseCost (s : Npt) (k : Name × Name) : (s.eraseCost k).table = s.table ∧ (s.eraseCost k).out = s.out := by
  unfold eraseCost; split <;> exact ⟨rfl, rfl⟩

theorem still_withdraw {p : Name} (own r : Name) {s : Npt} {n : Name} (h : n ≠ p)
    (hc : n ≠ own → ∃ v, s.costOf (r, n) = some v) : Still p s (withdraw own r s n) := by
  unfold withdraw
  split
  · exact Still.refl p s
  · rename_i ho
    obtain ⟨v, hv⟩ := hc ho
    refine Still.trans (b := s.eraseCost (r, n)) ?_ (still_removeEntry _ (Ne.symm h) _)
    exact ⟨fun hf => hf.eraseCost hv, fun _ r' => (shape_eraseCost s _).has _ _,
      fun _ w hl => lastOk_same (table_eraseCost s _).1 (table_eraseCost s _).2 hl⟩

theorem still_withdrawAll {p : Name} (own r : Name) : ∀ (l : List Name) (s : Npt), Fresh s → l.Nodup → (∀ n ∈ l, n ≠ p) →
    (∀ n ∈ l, n ≠ own → ∃ v, s.costOf (r, n) = some v) → Still p s (l.foldl (withdraw own r) s) := by
  intro l
  induction l with
  | nil => intro s _ _ _ _; exact Still.refl p s
  | cons n l ih =>
    intro s hf hnd h hc
    rw [List.foldl_cons]
    have h1 := still_withdraw (s := s) own r (h n (by simp)) (hc n (by simp))
    rw [List.nodup_cons] at hnd
    refine h1.trans (ih _ (h1.fresh hf) hnd.2 (fun x hx => h x (by simp [hx])) ?_)
    intro m hm hmo
    obtain ⟨v, hv⟩ := hc m (by simp [hm]) hmo
    refine ⟨v, ?_⟩
    unfold withdraw
    split
    · exact hv
    · refine (calm_removeEntry _ _ _).costs _ _ ?_
      rw [costOf_eraseCost, if_neg]
      · exact hv
      · intro he
        simp only [Prod.mk.injEq, true_and] at he
        exact hnd.1 (he ▸ hm)

/-- The command for an advertised name carries its cost. -/
theorem lastOk_advertiseAll (own r : Name) : ∀ (l : List PrefixInfo) (s : Npt), Fresh s → (l.map (·.name)).Nodup →
    ∀ q ∈ l, q.name ≠ own → LastOk (l.foldl (advertise own r) s) q.name q.cost := by
  intro l
  induction l with
  | nil => intro s _ _ q hq; simp at hq
  | cons x l ih =>
    intro s hf hnd q hq hqo
    rw [List.map_cons, List.nodup_cons] at hnd
    rw [List.foldl_cons]
    have hf1 : Fresh (advertise own r s x) := by
      unfold advertise
      split
      · exact hf
      · exact (hf.setCost _ _).addEntry _ _ _
    rcases List.mem_cons.1 hq with rfl | hq
    · refine (still_advertiseAll own r l _ ?_).last hf1 _ ?_
      · intro y hy hc
        exact hnd.1 (List.mem_map.2 ⟨y, hy, hc⟩)
      · rw [advertise_other hqo]
        have := (addEntry_table (hf.setCost (r, q.name) q.cost).inv q.name r childInherit).2.2.2
        have hv : (s.setCost (r, q.name) q.cost).costValue (r, q.name) = q.cost := by
          unfold costValue; rw [costOf_setCost, if_pos rfl]; rfl
        rwa [hv] at this
    · exact ih _ hf1 hnd.2 q hq hqo

/-- Does this signal, sent for an LSA of another router, concern `p`? -/
def concerns (own p : Name) : Out → Bool
  | .signal _ l adds removes =>
    l.origin != own && (l.origin == p || (lsaNames l).any (fun q => q.name == p) || adds.any (fun q => q.name == p) ||
      removes.any (fun q => q.name == p))
  | _ => false

/-- Router of a signal. -/
def sender : Out → Option Name
  | .signal _ l _ _ => some l.origin
  | _ => none

/-- In this log only router `r`, by its Name LSAs, has ever concerned `p`. -/
def Solo (own p r : Name) (log : List Out) : Prop := ∀ o ∈ log, concerns own p o = true → sender o = some r

theorem Solo.left {own p r : Name} {a b : List Out} (h : Solo own p r (a ++ b)) : Solo own p r a :=
  fun o ho => h o (List.mem_append_left _ ho)

/-- What a single advertiser gives. -/
structure SoloOk (own p r : Name) (v : View) (n : Npt) : Prop where
  follows : Follows own v n
  only : ∀ r', Has n p r' → r' = r
  last : ∀ x, advOf v r p = some x → LastOk n p x

theorem vs_follows_cost {own : Name} {v : View} {n : Npt} (h : Follows own v n) {o : Name} (ho : o ≠ own) {m : PrefixMap}
    (hv : v o .name = some (.names m)) (hs : PrefixMap.Sorted m) :
    ∀ x ∈ m.map (·.name), x ≠ own → ∃ y, n.costOf (o, x) = some y := by
  intro x hx hxo
  obtain ⟨q, hq, rfl⟩ := List.mem_map.1 hx
  refine ⟨q.cost, h.cost _ _ _ ho hxo ?_⟩
  unfold advOf
  rw [hv]
  exact PrefixMap.get_mem hs hq

theorem SoloOk.vs {own p r : Name} {v v' : View} {n : Npt} {outs : List Out} (h : SoloOk own p r v n) (hr : r ≠ own)
    (hp : p ≠ own) (hpr : p ≠ r) (t : VS v outs v') (hs : Solo own p r outs) : SoloOk own p r v' (outs.foldl (feed own) n) := by
  have hF := h.follows.vs t
  have hfr := h.follows.fresh
  -- nothing happened to p
  have idle : ∀ n', (outs.foldl (feed own) n) = n' → Still p n n' → (∀ x, advOf v' r p = some x → advOf v r p = some x) →
      SoloOk own p r v' (outs.foldl (feed own) n) := by
    intro n' hn hst ha
    refine ⟨hF, ?_, ?_⟩
    · intro r' hr'
      rw [hn] at hr'
      exact h.only r' ((hst.has hfr r').1 hr')
    · intro x hx
      rw [hn]
      exact hst.last hfr x (h.last x (ha x hx))
  cases t with
  | quiet _ hq => rw [feed_quiet hq] at hF ⊢; exact h
  | installed l hv hn =>
    by_cases ho : own = l.origin
    · refine idle n ?_ (Still.refl p n) ?_
      · show updateFromLsdb own n .installed l [] [] = n
        unfold updateFromLsdb; rw [if_pos ho]
      · intro x hx; rwa [advOf_set_other (Or.inl (by rw [← ho]; exact hr))] at hx
    · have hu : [Out.signal .installed l [] []].foldl (feed own) n =
          (lsaNames l).foldl (advertise own l.origin) (n.addEntry l.origin l.origin capture) := by
        show updateFromLsdb own n .installed l [] [] = _
        unfold updateFromLsdb; rw [if_neg ho]
      by_cases hcn : l.origin ≠ p ∧ ∀ q ∈ lsaNames l, q.name ≠ p
      · refine idle _ hu ((still_addEntry n (Ne.symm hcn.1) _ _).trans (still_advertiseAll own _ _ _ hcn.2)) ?_
        intro x hx
        by_cases hk : r = l.origin ∧ l.type = .name
        · rw [hk.1, hk.2, lsaNames_name hk.2, advOf_set] at hx
          exact absurd rfl (hcn.2 _ (PrefixMap.get_some hx))
        · rwa [advOf_set_other (by
            by_cases h1 : r = l.origin
            · exact Or.inr (fun h2 => hk ⟨h1, h2⟩)
            · exact Or.inl h1)] at hx
      · have hsend : l.origin = r := by
          have := hs _ (List.mem_singleton.2 rfl) (by
            simp only [concerns, Bool.and_eq_true, bne_iff_ne, ne_eq, Bool.or_eq_true, beq_iff_eq, List.any_eq_true]
            refine ⟨Ne.symm ho, Or.inl (Or.inl ?_)⟩
            by_cases h1 : l.origin = p
            · exact Or.inl h1
            · refine Or.inr (Classical.byContradiction fun h2 => hcn ⟨h1, ?_⟩)
              intro q hq hqp; exact h2 ⟨q, hq, hqp⟩)
          simpa [sender] using this
        have hrp : p ≠ l.origin := by rw [hsend]; exact hpr
        have hst := still_addEntry n hrp l.origin capture
        have hf1 := hst.fresh hfr
        have hnames : l.type = .name := by
          refine Classical.byContradiction fun ht => hcn ⟨Ne.symm hrp, ?_⟩
          rw [lsaNames_other ht]; simp
        have hsort : PrefixMap.Sorted (lsaNames l) := by
          rw [lsaNames_name hnames] at hn; exact sorted_of_norm hn
        refine ⟨hF, ?_, ?_⟩
        · intro r' hr'
          rw [hu, (advertiseAll (own := own) (r := l.origin) (lsaNames l) hf1).2.1] at hr'
          rcases hr' with h1 | ⟨h1, -⟩
          · exact h.only r' ((hst.has hfr r').1 h1)
          · rw [h1, hsend]
        · intro x hx
          rw [hu]
          rw [← hsend, hnames, lsaNames_name hnames, advOf_set] at hx
          exact lastOk_advertiseAll own l.origin _ _ hf1 (sorted_nodup hsort) ⟨p, x⟩ (PrefixMap.get_some hx) hp
  | updated l old hv ho ht hn hu =>
    by_cases hown : own = l.origin
    · refine idle n ?_ (Still.refl p n) ?_
      · show updateFromLsdb own n .updated l _ _ = n
        unfold updateFromLsdb; rw [if_pos hown]
      · intro x hx; rwa [advOf_set_other (Or.inl (by rw [← hown]; exact hr))] at hx
    by_cases htn : l.type = .name
    · have hl := lsaNames_name htn
      obtain ⟨a, rfl⟩ : ∃ a, old = .names a := by
        cases old with
        | names a => exact ⟨a, rfl⟩
        | adj _ => rw [htn] at ht; cases ht
        | coord _ _ => rw [htn] at ht; cases ht
      have hsa := sorted_of_norm ho
      have hsb : PrefixMap.Sorted (lsaNames l) := by rw [hl] at hn; exact sorted_of_norm hn
      have hadds : ((Content.names a).update l.content).adds = PrefixMap.minus (lsaNames l) a := by rw [hl]; rfl
      have hrems : ((Content.names a).update l.content).removes = PrefixMap.minus a (lsaNames l) := by rw [hl]; rfl
      have hcont : ((Content.names a).update l.content).content = (updateNames a (lsaNames l)).content := by rw [hl]; rfl
      have huu : [Out.signal .updated l ((Content.names a).update l.content).adds
          ((Content.names a).update l.content).removes].foldl (feed own) n =
          ((PrefixMap.minus a (lsaNames l)).map (·.name)).foldl (withdraw own l.origin)
            ((PrefixMap.minus (lsaNames l) a).foldl (advertise own l.origin) n) := by
        show updateFromLsdb own n .updated l _ _ = _
        unfold updateFromLsdb
        rw [if_neg hown, hadds, hrems]
        simp only [htn, if_true]
      generalize hb : lsaNames l = b at *
      obtain ⟨i1, i2, i3, -, -⟩ := advertiseAll (own := own) (r := l.origin) (PrefixMap.minus b a) hfr
      have hsep : ∀ x ∈ PrefixMap.minus b a, ∀ y ∈ PrefixMap.minus a b, x.name ≠ y.name := by
        intro x hx y hy
        exact ((mem_minus.1 hx).2 y (mem_minus.1 hy).1).symm
      have hcost : ∀ m ∈ (PrefixMap.minus a b).map (·.name), m ≠ own →
          ∃ y, ((PrefixMap.minus b a).foldl (advertise own l.origin) n).costOf (l.origin, m) = some y := by
        intro m hm hmo
        obtain ⟨y, hy, rfl⟩ := List.mem_map.1 hm
        obtain ⟨z, hz⟩ := vs_follows_cost h.follows (Ne.symm hown) (htn ▸ hv) hsa y.name
          (List.mem_map.2 ⟨y, (mem_minus.1 hy).1, rfl⟩) hmo
        refine ⟨z, i3 _ _ ?_ hz⟩
        intro x hx hc
        simp only [Prod.mk.injEq, true_and] at hc
        exact hsep x hx y hy hc.symm
      have hnd := sorted_nodup (minus_sorted (b := b) hsa)
      have hwd := withdrawAll (own := own) (r := l.origin) ((PrefixMap.minus a b).map (·.name)) i1 hnd hcost
      have hold : l.origin = r → ∀ x, PrefixMap.get a p = some x → advOf v r p = some x := by
        intro h1 x hx
        unfold advOf
        rw [← h1, ← htn, hv]; exact hx
      by_cases hcn : (∀ q ∈ PrefixMap.minus b a, q.name ≠ p) ∧ ∀ q ∈ PrefixMap.minus a b, q.name ≠ p
      · refine idle _ huu ((still_advertiseAll own _ _ _ hcn.1).trans (still_withdrawAll own _ _ _ i1 hnd ?_ hcost)) ?_
        · intro m hm
          obtain ⟨y, hy, rfl⟩ := List.mem_map.1 hm
          exact hcn.2 y hy
        · intro x hx
          by_cases hk : r = l.origin
          · obtain ⟨m, hm, hg⟩ := get_updateNames hsa hsb p
            rw [hcont, hm, htn, hk, advOf_set] at hx
            rcases hg with ⟨q, hq, hqn, -⟩ | ⟨⟨q, hq, hqn⟩, -⟩ | ⟨-, -, hg⟩
            · exact absurd hqn (hcn.1 q hq)
            · exact absurd hqn (hcn.2 q hq)
            · rw [hg] at hx; exact hold hk.symm x hx
          · rwa [advOf_set_other (Or.inl hk)] at hx
      · have hsend : l.origin = r := by
          have := hs _ (List.mem_singleton.2 rfl) (by
            simp only [concerns, Bool.and_eq_true, bne_iff_ne, ne_eq, Bool.or_eq_true, beq_iff_eq, List.any_eq_true]
            refine ⟨Ne.symm hown, ?_⟩
            rw [hadds, hrems]
            by_cases h1 : ∃ q ∈ PrefixMap.minus b a, q.name = p
            · exact Or.inl (Or.inr h1)
            · refine Or.inr (Classical.byContradiction fun h2 => hcn ⟨?_, ?_⟩)
              · intro q hq hqp; exact h1 ⟨q, hq, hqp⟩
              · intro q hq hqp; exact h2 ⟨q, hq, hqp⟩)
          simpa [sender] using this
        refine ⟨hF, ?_, ?_⟩
        · intro r' hr'
          rw [huu, hwd.2.1, i2] at hr'
          rcases hr'.1 with h1 | ⟨h1, -⟩
          · exact h.only r' h1
          · rw [h1, hsend]
        · intro x hx
          rw [huu]
          obtain ⟨m, hm, hg⟩ := get_updateNames hsa hsb p
          rw [hcont, hm, htn, ← hsend, advOf_set] at hx
          rcases hg with ⟨q, hq, hqn, hg⟩ | ⟨-, hg⟩ | ⟨h1, h2, hg⟩
          · rw [hg] at hx
            injection hx with hx
            have hla := lastOk_advertiseAll own l.origin _ n hfr (sorted_nodup (minus_sorted (b := a) hsb)) q hq (by rw [hqn]; exact hp)
            rw [hqn, hx] at hla
            refine (still_withdrawAll own _ _ _ i1 hnd ?_ hcost).last i1 _ hla
            intro y hy hc
            obtain ⟨z, hz, rfl⟩ := List.mem_map.1 hy
            exact hsep q hq z hz (hqn.trans hc.symm)
          · rw [hg] at hx; cases hx
          · exact absurd ⟨h1, h2⟩ hcn
    · refine idle n ?_ (Still.refl p n) ?_
      · show updateFromLsdb own n .updated l _ _ = n
        unfold updateFromLsdb; rw [if_neg hown]; simp only [htn, if_false]
      · intro x hx; rwa [advOf_set_other (Or.inr htn)] at hx
  | removed l hv hn =>
    by_cases hown : own = l.origin
    · refine idle n ?_ (Still.refl p n) ?_
      · show updateFromLsdb own n .removed l [] [] = n
        unfold updateFromLsdb; rw [if_pos hown]
      · intro x hx; rwa [advOf_set_other (Or.inl (by rw [← hown]; exact hr))] at hx
    have hu : [Out.signal .removed l [] []].foldl (feed own) n =
        ((lsaNames l).map (·.name)).foldl (withdraw own l.origin) (n.removeEntry l.origin l.origin) := by
      show updateFromLsdb own n .removed l [] [] = _
      unfold updateFromLsdb; rw [if_neg hown]
    have hsort : PrefixMap.Sorted (lsaNames l) := by
      by_cases ht : l.type = .name
      · rw [lsaNames_name ht] at hn; exact sorted_of_norm hn
      · rw [lsaNames_other ht]; exact List.Pairwise.nil
    have hf1 := hfr.removeEntry l.origin l.origin
    have hcost : ∀ m ∈ (lsaNames l).map (·.name), m ≠ own →
        ∃ y, (n.removeEntry l.origin l.origin).costOf (l.origin, m) = some y := by
      intro m hm hmo
      have ht : l.type = .name := by
        refine Classical.byContradiction fun ht => ?_
        rw [lsaNames_other ht] at hm; simp at hm
      rw [ht, lsaNames_name ht] at hv
      obtain ⟨z, hz⟩ := vs_follows_cost h.follows (Ne.symm hown) hv hsort m hm hmo
      exact ⟨z, (calm_removeEntry _ _ _).costs _ _ hz⟩
    by_cases hcn : l.origin ≠ p ∧ ∀ q ∈ lsaNames l, q.name ≠ p
    · refine idle _ hu ((still_removeEntry n (Ne.symm hcn.1) _).trans
        (still_withdrawAll own _ _ _ hf1 (sorted_nodup hsort) ?_ hcost)) ?_
      · intro m hm
        obtain ⟨y, hy, rfl⟩ := List.mem_map.1 hm
        exact hcn.2 y hy
      · intro x hx
        by_cases hk : r = l.origin ∧ l.type = .name
        · rw [hk.1, hk.2, advOf_set_none] at hx; cases hx
        · rwa [advOf_set_other (by
            by_cases h1 : r = l.origin
            · exact Or.inr (fun h2 => hk ⟨h1, h2⟩)
            · exact Or.inl h1)] at hx
    · have hsend : l.origin = r := by
        have := hs _ (List.mem_singleton.2 rfl) (by
          simp only [concerns, Bool.and_eq_true, bne_iff_ne, ne_eq, Bool.or_eq_true, beq_iff_eq, List.any_eq_true]
          refine ⟨Ne.symm hown, Or.inl (Or.inl ?_)⟩
          by_cases h1 : l.origin = p
          · exact Or.inl h1
          · refine Or.inr (Classical.byContradiction fun h2 => hcn ⟨h1, ?_⟩)
            intro q hq hqp; exact h2 ⟨q, hq, hqp⟩)
        simpa [sender] using this
      have hnames : l.type = .name := by
        refine Classical.byContradiction fun ht => hcn ⟨?_, ?_⟩
        · rw [hsend]; exact Ne.symm hpr
        · rw [lsaNames_other ht]; simp
      refine ⟨hF, ?_, ?_⟩
      · intro r' hr'
        rw [hu, (withdrawAll (own := own) (r := l.origin) _ hf1 (sorted_nodup hsort) hcost).2.1] at hr'
        refine h.only r' ?_
        exact (((removeEntry_spec hfr.inv l.origin l.origin).2 _ _).1 hr'.1).1
      · intro x hx
        rw [← hsend, hnames, advOf_set_none] at hx; cases hx

theorem SoloOk.routes {own p r : Name} {v : View} {n : Npt} (h : SoloOk own p r v n) (hr : r ≠ own) (hp : p ≠ own)
    (hpr : p ≠ r) (t : RTable) : SoloOk own p r v (n.updateWithNewRoute t) := by
  have hk := (updateWithNewRoute_spec h.follows.fresh.inv h.follows.fresh.nhl t).1
  have hh : ∀ p r, Has (n.updateWithNewRoute t) p r ↔ Has n p r := fun p r =>
    (hk.has p r).trans ((⟨rfl, rfl, rfl⟩ : Shape n { n with rt := t }).has p r)
  refine ⟨h.follows.routes t, fun r' hr' => h.only r' ((hh p r').1 hr'), ?_⟩
  intro x hx
  refine hk.last p x ?_ (lastOk_same rfl rfl (h.last x hx))
  intro r' hr'
  have : r' = r := h.only r' hr'
  subst this
  show n.costValue (r', p) = x
  unfold costValue
  rw [h.follows.cost p r' x hr hp hx]
  rfl

/-! ### cost zero -/

/-- In this log `p` is only ever advertised with cost 0. -/
def Free (own p : Name) (log : List Out) : Prop :=
  ∀ k l adds removes, Out.signal k l adds removes ∈ log → l.origin ≠ own →
    ∀ q ∈ lsaNames l ++ adds, q.name = p → q.cost = .fin 0

structure FreeOk (own p : Name) (v : View) (n : Npt) : Prop where
  follows : Follows own v n
  zero : ∀ r, n.costValue (r, p) = .fin 0
  last : LastOk n p (.fin 0)

theorem free_addEntry {p : Name} {n : Npt} (hi : Inv n) (hz : ∀ r, n.costValue (r, p) = .fin 0) (hl : LastOk n p (.fin 0))
    (name dest : Name) (fl : Nat) :
    (∀ r, (n.addEntry name dest fl).costValue (r, p) = .fin 0) ∧ LastOk (n.addEntry name dest fl) p (.fin 0) := by
  refine ⟨fun r => by rw [(calm_addEntry n name dest fl).vals]; exact hz r, ?_⟩
  obtain ⟨-, -, h3, h4⟩ := addEntry_table hi name dest fl
  by_cases hp : p = name
  · subst hp; rwa [hz dest] at h4
  · exact h3 p _ hp hl

theorem free_removeEntry {p : Name} {n : Npt} (hi : Inv n) (hz : ∀ r, n.costValue (r, p) = .fin 0) (hl : LastOk n p (.fin 0))
    (name dest : Name) :
    (∀ r, (n.removeEntry name dest).costValue (r, p) = .fin 0) ∧ LastOk (n.removeEntry name dest) p (.fin 0) := by
  refine ⟨fun r => by rw [(calm_removeEntry n name dest).vals]; exact hz r, ?_⟩
  obtain ⟨-, h3, h4, h5⟩ := removeEntry_table hi name dest
  by_cases hp : p = name
  · subst hp
    cases hin : n.inPool dest with
    | none => rw [h5 hin]; exact hl
    | some o =>
      have := h4 (by rw [hin]; rfl)
      rwa [hz dest] at this
  · exact h3 p _ hp hl

theorem costValue_setCost (s : Npt) (k k' : Name × Name) (v : Ext Rat) :
    (s.setCost k v).costValue k' = if k' = k then v else s.costValue k' := by
  unfold costValue
  rw [costOf_setCost]
  split <;> rfl

theorem costValue_eraseCost (s : Npt) (k k' : Name × Name) :
    (s.eraseCost k).costValue k' = if k' = k then .fin 0 else s.costValue k' := by
  unfold costValue
  rw [costOf_eraseCost]
  split <;> rfl

theorem free_advertiseAll {p : Name} (own r : Name) : ∀ (l : List PrefixInfo) {n : Npt}, Fresh n →
    (∀ r, n.costValue (r, p) = .fin 0) → LastOk n p (.fin 0) → (∀ q ∈ l, q.name = p → q.cost = .fin 0) →
    (∀ r', (l.foldl (advertise own r) n).costValue (r', p) = .fin 0) ∧ LastOk (l.foldl (advertise own r) n) p (.fin 0) := by
  intro l
  induction l with
  | nil => intro n _ hz hl _; exact ⟨hz, hl⟩
  | cons q l ih =>
    intro n hf hz hl hq
    rw [List.foldl_cons]
    by_cases ho : q.name = own
    · rw [advertise_own ho]; exact ih hf hz hl (fun x hx => hq x (by simp [hx]))
    · rw [advertise_other ho]
      have hz' : ∀ r', (n.setCost (r, q.name) q.cost).costValue (r', p) = .fin 0 := by
        intro r'
        rw [costValue_setCost]
        split
        · rename_i hc
          simp only [Prod.mk.injEq] at hc
          exact hq q (by simp) hc.2.symm
        · exact hz r'
      have hf' := hf.setCost (r, q.name) q.cost
      obtain ⟨a, b⟩ := free_addEntry hf'.inv hz' (lastOk_same rfl rfl hl) q.name r childInherit
      exact ih (hf'.addEntry _ _ _) a b (fun x hx => hq x (by simp [hx]))

theorem free_withdrawAll {p : Name} (own r : Name) : ∀ (l : List Name) {n : Npt}, Fresh n → l.Nodup →
    (∀ m ∈ l, m ≠ own → ∃ v, n.costOf (r, m) = some v) →
    (∀ r, n.costValue (r, p) = .fin 0) → LastOk n p (.fin 0) →
    (∀ r', (l.foldl (withdraw own r) n).costValue (r', p) = .fin 0) ∧ LastOk (l.foldl (withdraw own r) n) p (.fin 0) := by
  intro l
  induction l with
  | nil => intro n _ _ _ hz hl; exact ⟨hz, hl⟩
  | cons q l ih =>
    intro n hf hnd hc hz hl
    rw [List.foldl_cons]
    rw [List.nodup_cons] at hnd
    by_cases ho : q = own
    · rw [withdraw_own ho]; exact ih hf hnd.2 (fun m hm => hc m (by simp [hm])) hz hl
    · rw [withdraw_other ho]
      obtain ⟨v0, hv0⟩ := hc q (by simp) ho
      have hf' := hf.eraseCost hv0
      have hz' : ∀ r', (n.eraseCost (r, q)).costValue (r', p) = .fin 0 := by
        intro r'
        rw [costValue_eraseCost]
        split
        · rfl
        · exact hz r'
      obtain ⟨a, b⟩ := free_removeEntry hf'.inv hz' (lastOk_same (table_eraseCost n _).1 (table_eraseCost n _).2 hl) q r
      refine ih (hf'.removeEntry _ _) hnd.2 ?_ a b
      intro m hm hmo
      obtain ⟨v, hv⟩ := hc m (by simp [hm]) hmo
      refine ⟨v, (calm_removeEntry _ _ _).costs _ _ ?_⟩
      rw [costOf_eraseCost, if_neg]
      · exact hv
      · intro he
        simp only [Prod.mk.injEq, true_and] at he
        exact hnd.1 (he ▸ hm)

theorem FreeOk.vs {own p : Name} {v v' : View} {n : Npt} {outs : List Out} (h : FreeOk own p v n)
    (t : VS v outs v') (hs : Free own p outs) : FreeOk own p v' (outs.foldl (feed own) n) := by
  have hF := h.follows.vs t
  have hfr := h.follows.fresh
  suffices hsuff : (∀ r, (outs.foldl (feed own) n).costValue (r, p) = .fin 0) ∧
      LastOk (outs.foldl (feed own) n) p (.fin 0) from ⟨hF, hsuff.1, hsuff.2⟩
  cases t with
  | quiet _ hq => rw [feed_quiet hq]; exact ⟨h.zero, h.last⟩
  | installed l hv hn =>
    show (∀ r, (updateFromLsdb own n .installed l [] []).costValue (r, p) = .fin 0) ∧
      LastOk (updateFromLsdb own n .installed l [] []) p (.fin 0)
    by_cases ho : own = l.origin
    · unfold updateFromLsdb; rw [if_pos ho]; exact ⟨h.zero, h.last⟩
    · unfold updateFromLsdb; rw [if_neg ho]
      obtain ⟨a, b⟩ := free_addEntry hfr.inv h.zero h.last l.origin l.origin capture
      exact free_advertiseAll own _ _ (hfr.addEntry _ _ _) a b
        (fun q hq => hs _ _ _ _ (List.mem_singleton.2 rfl) (Ne.symm ho) q (List.mem_append_left _ hq))
  | updated l old hv ho ht hn hu =>
    show (∀ r, (updateFromLsdb own n .updated l _ _).costValue (r, p) = .fin 0) ∧
      LastOk (updateFromLsdb own n .updated l _ _) p (.fin 0)
    by_cases hown : own = l.origin
    · unfold updateFromLsdb; rw [if_pos hown]; exact ⟨h.zero, h.last⟩
    by_cases htn : l.type = .name
    · have hadd := hs _ _ _ _ (List.mem_singleton.2 rfl) (Ne.symm hown)
      unfold updateFromLsdb
      rw [if_neg hown]
      simp only [htn, if_true]
      have hl := lsaNames_name htn
      obtain ⟨a, rfl⟩ : ∃ a, old = .names a := by
        cases old with
        | names a => exact ⟨a, rfl⟩
        | adj _ => rw [htn] at ht; cases ht
        | coord _ _ => rw [htn] at ht; cases ht
      have hsa := sorted_of_norm ho
      have hadds : ((Content.names a).update l.content).adds = PrefixMap.minus (lsaNames l) a := by rw [hl]; rfl
      have hrems : ((Content.names a).update l.content).removes = PrefixMap.minus a (lsaNames l) := by rw [hl]; rfl
      rw [hadds] at hadd
      rw [hadds, hrems]
      generalize hb : lsaNames l = b at *
      obtain ⟨i1, i2, i3, -, -⟩ := advertiseAll (own := own) (r := l.origin) (PrefixMap.minus b a) hfr
      have hsep : ∀ x ∈ PrefixMap.minus b a, ∀ y ∈ PrefixMap.minus a b, x.name ≠ y.name := by
        intro x hx y hy
        exact ((mem_minus.1 hx).2 y (mem_minus.1 hy).1).symm
      have hcost : ∀ m ∈ (PrefixMap.minus a b).map (·.name), m ≠ own →
          ∃ y, ((PrefixMap.minus b a).foldl (advertise own l.origin) n).costOf (l.origin, m) = some y := by
        intro m hm hmo
        obtain ⟨y, hy, rfl⟩ := List.mem_map.1 hm
        obtain ⟨z, hz⟩ := vs_follows_cost h.follows (Ne.symm hown) (htn ▸ hv) hsa y.name
          (List.mem_map.2 ⟨y, (mem_minus.1 hy).1, rfl⟩) hmo
        refine ⟨z, i3 _ _ ?_ hz⟩
        intro x hx hc
        simp only [Prod.mk.injEq, true_and] at hc
        exact hsep x hx y hy hc.symm
      obtain ⟨j1, j2⟩ := free_advertiseAll own l.origin (PrefixMap.minus b a) hfr h.zero h.last
        (fun q hq => hadd q (List.mem_append_right _ hq))
      exact free_withdrawAll own l.origin _ i1 (sorted_nodup (minus_sorted (b := b) hsa)) hcost j1 j2
    · unfold updateFromLsdb; rw [if_neg hown]; simp only [htn, if_false]; exact ⟨h.zero, h.last⟩
  | removed l hv hn =>
    show (∀ r, (updateFromLsdb own n .removed l [] []).costValue (r, p) = .fin 0) ∧
      LastOk (updateFromLsdb own n .removed l [] []) p (.fin 0)
    by_cases hown : own = l.origin
    · unfold updateFromLsdb; rw [if_pos hown]; exact ⟨h.zero, h.last⟩
    unfold updateFromLsdb; rw [if_neg hown]
    dsimp only
    have hsort : PrefixMap.Sorted (lsaNames l) := by
      by_cases ht : l.type = .name
      · rw [lsaNames_name ht] at hn; exact sorted_of_norm hn
      · rw [lsaNames_other ht]; exact List.Pairwise.nil
    have hf1 := hfr.removeEntry l.origin l.origin
    have hcost : ∀ m ∈ (lsaNames l).map (·.name), m ≠ own →
        ∃ y, (n.removeEntry l.origin l.origin).costOf (l.origin, m) = some y := by
      intro m hm hmo
      have ht : l.type = .name := by
        refine Classical.byContradiction fun ht => ?_
        rw [lsaNames_other ht] at hm; simp at hm
      rw [ht, lsaNames_name ht] at hv
      obtain ⟨z, hz⟩ := vs_follows_cost h.follows (Ne.symm hown) hv hsort m hm hmo
      exact ⟨z, (calm_removeEntry _ _ _).costs _ _ hz⟩
    obtain ⟨a, b⟩ := free_removeEntry hfr.inv h.zero h.last l.origin l.origin
    exact free_withdrawAll own l.origin _ hf1 (sorted_nodup hsort) hcost a b

theorem FreeOk.routes {own p : Name} {v : View} {n : Npt} (h : FreeOk own p v n) (t : RTable) :
    FreeOk own p v (n.updateWithNewRoute t) := by
  have hk := (updateWithNewRoute_spec h.follows.fresh.inv h.follows.fresh.nhl t).1
  refine ⟨h.follows.routes t, fun r => by rw [hk.calm.vals]; exact h.zero r, ?_⟩
  exact hk.last p _ (fun r _ => h.zero r) (lastOk_same rfl rfl h.last)

/-! ### a router's own prefix -/

/-- Effect of one signal on the presence of router `r`'s own prefix. -/
def upStep (r : Name) (b : Bool) : Out → Bool
  | .signal k l adds removes =>
    if l.origin = r then
      match k with
      | .installed => true
      | .updated =>
        if l.type = .name then
          if removes.any (fun q => q.name == r) then false else b || adds.any (fun q => q.name == r)
        else b
      | .removed => false
    else b
  | _ => b

/-- Is router `r`'s own prefix present after these signals? -/
def upOf (r : Name) (log : List Out) : Bool := log.foldl (upStep r) false

/-- Does router `r` currently list its own name (other routers that list it do not matter here)? -/
theorem up_vs {own r : Name} {v v' : View} {n : Npt} {outs : List Out} {b : Bool} (h : Follows own v n) (hr : r ≠ own)
    (hb : Has n r r ↔ b = true) (t : VS v outs v') :
    Has (outs.foldl (feed own) n) r r ↔ outs.foldl (upStep r) b = true := by
  have hfr := h.fresh
  cases t with
  | quiet _ hq =>
    rw [feed_quiet hq]
    have : outs.foldl (upStep r) b = b := by
      clear hb
      induction outs generalizing b with
      | nil => rfl
      | cons o os ih =>
        rw [List.foldl_cons]
        have h1 := hq o (by simp)
        have : upStep r b o = b := by
          cases o with
          | signal k l a r => cases h1
          | _ => rfl
        rw [this]
        exact ih (fun o ho => hq o (by simp [ho]))
    rw [this]; exact hb
  | installed l hv hn =>
    show Has (updateFromLsdb own n .installed l [] []) r r ↔ upStep r b (.signal .installed l [] []) = true
    unfold updateFromLsdb
    by_cases ho : own = l.origin
    · rw [if_pos ho]
      unfold upStep; dsimp only
      rw [if_neg (by rw [← ho]; exact Ne.symm hr)]
      exact hb
    · rw [if_neg ho]
      dsimp only
      rw [(advertiseAll (own := own) (r := l.origin) (lsaNames l) (hfr.addEntry l.origin l.origin capture)).2.1,
        (addEntry_spec hfr.inv l.origin l.origin capture).2]
      unfold upStep; dsimp only
      by_cases hk : l.origin = r
      · rw [if_pos hk]; simp [hk]
      · rw [if_neg hk, ← hb]
        constructor
        · rintro ((h1 | ⟨h1, -⟩) | ⟨h1, -⟩)
          · exact h1
          · exact absurd h1.symm hk
          · exact absurd h1.symm hk
        · exact fun h1 => Or.inl (Or.inl h1)
  | updated l old hv ho ht hn hu =>
    by_cases hown : own = l.origin
    · show Has (updateFromLsdb own n .updated l _ _) r r ↔ upStep r b (.signal .updated l _ _) = true
      unfold updateFromLsdb; rw [if_pos hown]
      unfold upStep; dsimp only
      rw [if_neg (by rw [← hown]; exact Ne.symm hr)]
      exact hb
    by_cases htn : l.type = .name
    · show Has (updateFromLsdb own n .updated l _ _) r r ↔ upStep r b (.signal .updated l _ _) = true
      have hl := lsaNames_name htn
      obtain ⟨a, rfl⟩ : ∃ a, old = .names a := by
        cases old with
        | names a => exact ⟨a, rfl⟩
        | adj _ => rw [htn] at ht; cases ht
        | coord _ _ => rw [htn] at ht; cases ht
      have hsa := sorted_of_norm ho
      have hadds : ((Content.names a).update l.content).adds = PrefixMap.minus (lsaNames l) a := by rw [hl]; rfl
      have hrems : ((Content.names a).update l.content).removes = PrefixMap.minus a (lsaNames l) := by rw [hl]; rfl
      rw [hadds, hrems]
      generalize lsaNames l = b' at *
      unfold updateFromLsdb
      rw [if_neg hown]
      simp only [htn, if_true]
      obtain ⟨i1, i2, i3, -, -⟩ := advertiseAll (own := own) (r := l.origin) (PrefixMap.minus b' a) hfr
      have hsep : ∀ x ∈ PrefixMap.minus b' a, ∀ y ∈ PrefixMap.minus a b', x.name ≠ y.name := by
        intro x hx y hy
        exact ((mem_minus.1 hx).2 y (mem_minus.1 hy).1).symm
      have hcost : ∀ m ∈ (PrefixMap.minus a b').map (·.name), m ≠ own →
          ∃ y, ((PrefixMap.minus b' a).foldl (advertise own l.origin) n).costOf (l.origin, m) = some y := by
        intro m hm hmo
        obtain ⟨y, hy, rfl⟩ := List.mem_map.1 hm
        obtain ⟨z, hz⟩ := vs_follows_cost h (Ne.symm hown) (htn ▸ hv) hsa y.name
          (List.mem_map.2 ⟨y, (mem_minus.1 hy).1, rfl⟩) hmo
        refine ⟨z, i3 _ _ ?_ hz⟩
        intro x hx hc
        simp only [Prod.mk.injEq, true_and] at hc
        exact hsep x hx y hy hc.symm
      rw [(withdrawAll (own := own) (r := l.origin) _ i1 (sorted_nodup (minus_sorted (b := b') hsa)) hcost).2.1, i2, hb]
      unfold upStep; dsimp only
      by_cases hk : l.origin = r
      · rw [if_pos hk]
        simp only [htn, if_true, hk, true_and, ne_eq]
        have e1 : r ∈ (PrefixMap.minus a b').map (·.name) ↔ (PrefixMap.minus a b').any (fun q => q.name == r) = true := by
          simp
        by_cases hrem : (PrefixMap.minus a b').any (fun q => q.name == r) = true
        · rw [if_pos hrem]
          simp only [Bool.false_eq_true, iff_false]
          exact fun hc => hc.2 ⟨hr, e1.2 hrem⟩
        · rw [if_neg hrem]
          simp only [Bool.or_eq_true, List.any_eq_true, beq_iff_eq]
          constructor
          · rintro ⟨h1 | ⟨-, h1⟩, -⟩
            · exact Or.inl h1
            · exact Or.inr h1
          · intro h1
            refine ⟨?_, fun hc => hrem (e1.1 hc.2)⟩
            rcases h1 with h1 | h1
            · exact Or.inl h1
            · exact Or.inr ⟨hr, h1⟩
      · rw [if_neg hk]
        constructor
        · rintro ⟨h1 | ⟨h1, -⟩, -⟩
          · exact h1
          · exact absurd h1.symm hk
        · exact fun h1 => ⟨Or.inl h1, fun hc => hk hc.1.symm⟩
    · show Has (updateFromLsdb own n .updated l _ _) r r ↔ upStep r b (.signal .updated l _ _) = true
      unfold updateFromLsdb; rw [if_neg hown]
      simp only [htn, if_false]
      unfold upStep; dsimp only
      rw [hb]
      split
      · simp
      · rfl
  | removed l hv hn =>
    show Has (updateFromLsdb own n .removed l [] []) r r ↔ upStep r b (.signal .removed l [] []) = true
    unfold updateFromLsdb
    by_cases hown : own = l.origin
    · rw [if_pos hown]
      unfold upStep; dsimp only
      rw [if_neg (by rw [← hown]; exact Ne.symm hr)]
      exact hb
    rw [if_neg hown]
    dsimp only
    have hsort : PrefixMap.Sorted (lsaNames l) := by
      by_cases ht : l.type = .name
      · rw [lsaNames_name ht] at hn; exact sorted_of_norm hn
      · rw [lsaNames_other ht]; exact List.Pairwise.nil
    have hcost : ∀ m ∈ (lsaNames l).map (·.name), m ≠ own →
        ∃ y, (n.removeEntry l.origin l.origin).costOf (l.origin, m) = some y := by
      intro m hm hmo
      have ht : l.type = .name := by
        refine Classical.byContradiction fun ht => ?_
        rw [lsaNames_other ht] at hm; simp at hm
      rw [ht, lsaNames_name ht] at hv
      obtain ⟨z, hz⟩ := vs_follows_cost h (Ne.symm hown) hv hsort m hm hmo
      exact ⟨z, (calm_removeEntry _ _ _).costs _ _ hz⟩
    rw [(withdrawAll (own := own) (r := l.origin) _ (hfr.removeEntry l.origin l.origin) (sorted_nodup hsort) hcost).2.1,
      (removeEntry_spec hfr.inv l.origin l.origin).2]
    unfold upStep; dsimp only
    by_cases hk : l.origin = r
    · rw [if_pos hk]
      simp [hk]
    · rw [if_neg hk, ← hb]
      constructor
      · exact fun h1 => h1.1.1
      · exact fun h1 => ⟨⟨h1, fun hc => hk hc.1.symm⟩, fun hc => hk hc.1.symm⟩

end Npt
end Nlsr
