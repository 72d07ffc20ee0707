import Verif.Lemmas.CoreCost
/- The cost told to the FIB for a prefix of several advertisers. -/
namespace Nlsr
namespace Npt
open Lsdb (View VS VSs)

/-- The FIB was last told of `p` with a cost that satisfies `P`. -/
def SomeX (P : Ext Rat → Prop) (s : Npt) (p : Name) : Prop := ∃ x, LastOk s p x ∧ P x

theorem SomeX.still {P : Ext Rat → Prop} {s s' : Npt} {p : Name} (h : SomeX P s p) (hf : Fresh s) (t : Still p s s') :
    SomeX P s' p := by
  obtain ⟨x, h1, h2⟩ := h
  exact ⟨x, t.last hf x h1, h2⟩

theorem SomeX.same {P : Ext Rat → Prop} {s s' : Npt} {p : Name} (h : SomeX P s p) (ht : s'.table = s.table) (ho : s'.out = s.out) :
    SomeX P s' p := by
  obtain ⟨x, h1, h2⟩ := h
  exact ⟨x, lastOk_same ht ho h1, h2⟩

theorem nhlX_all (s : Npt) : NhlX s (fun _ => True) := fun _ _ h => absurd trivial h

/-! ### new routes -/

theorem some_readd {s : Npt} (hi : Inv s) {P : Ext Rat → Prop} {p : Name} (hP : ∀ r, Has s p r → P (s.costValue (r, p)))
    {dest : Name} {r : Name × Nat} (hr : ∃ e ∈ s.table, e.eid = r.2 ∧ e.name = r.1) (hh : Has s r.1 dest)
    (h : SomeX P s p) : SomeX P (s.readd dest r) p := by
  obtain ⟨e, he, h1, h2⟩ := hr
  unfold readd
  rw [← h1, hi.entry he]
  rw [← h2] at hh
  dsimp only
  have htb := addEntry_table hi e.name dest e.flags
  by_cases hpn : p = e.name
  · subst hpn
    exact ⟨_, htb.2.2.2, hP dest hh⟩
  · obtain ⟨x, h3, h4⟩ := h
    exact ⟨x, htb.2.2.1 p x hpn h3, h4⟩

theorem Keeps.pays {s s' : Npt} (k : Keeps s s') {P : Ext Rat → Prop} {p : Name} (hP : ∀ r, Has s p r → P (s.costValue (r, p))) :
    ∀ r, Has s' p r → P (s'.costValue (r, p)) := by
  intro r hr
  rw [k.calm.vals]
  exact hP r ((k.has p r).1 hr)

theorem some_readdAll {P : Ext Rat → Prop} {p dest : Name} : ∀ (l : List (Name × Nat)) {s : Npt} (_ : Inv s)
    (_ : ∀ r, Has s p r → P (s.costValue (r, p)))
    (_ : ∀ r ∈ l, ∃ e ∈ s.table, e.eid = r.2 ∧ e.name = r.1) (_ : ∀ r ∈ l, Has s r.1 dest) (_ : SomeX P s p),
    SomeX P (l.foldl (fun s r => s.readd dest r) s) p
  | [], _, _, _, _, _, h => h
  | r :: l, s, hi, hP, h1, h2, h => by
    obtain ⟨k1, -, -⟩ := readd_keeps hi (h1 r (by simp)) (h2 r (by simp)) (nhlX_all s)
    rw [List.foldl_cons]
    refine some_readdAll l k1.inv (k1.pays hP) ?_ (fun q hq => (k1.has _ _).2 (h2 q (by simp [hq])))
      (some_readd hi hP (h1 r (by simp)) (h2 r (by simp)) h)
    intro q hq
    obtain ⟨e, he, a, b⟩ := h1 q (by simp [hq])
    obtain ⟨e', he', a', b'⟩ := k1.old e he
    exact ⟨e', he', a'.trans a, b'.trans b⟩

theorem some_setHops {s : Npt} (hi : Inv s) {P : Ext Rat → Prop} {p : Name} (hP : ∀ r, Has s p r → P (s.costValue (r, p)))
    {o : PoolObj} (ho : o ∈ s.objs) (hl : o.live = true) (hops : NexthopList) (h : SomeX P s p) :
    SomeX P (o.names.foldl (fun s r => s.readd o.dest r) (s.modObj o.pid (fun o => { o with hops := hops }))) p := by
  have hsh : Shape s (s.modObj o.pid (fun o => { o with hops := hops })) :=
    ⟨map_if_eq (fun o : PoolObj => (o.pid, o.live, o.dest, o.use, o.names)) _ _ _ (fun _ => rfl), rfl, rfl⟩
  refine some_readdAll o.names (hsh.inv hi) ?_ ?_ ?_ (h.same rfl rfl)
  · intro r hr
    exact hP r ((hsh.has p r).1 hr)
  · intro r hr
    obtain ⟨e, he, h1, h2, -⟩ := hi.back o ho hl r hr
    exact ⟨e, he, h1, h2⟩
  · intro r hr
    obtain ⟨e, he, h1, h2, h3⟩ := hi.back o ho hl r hr
    exact (hsh.has _ _).2 ⟨e, he, h2, o, ho, hl, rfl, h3⟩

theorem some_refreshObj {s : Npt} (hi : Inv s) {P : Ext Rat → Prop} {p : Name} (hP : ∀ r, Has s p r → P (s.costValue (r, p)))
    (pid : Nat) (hlive : ∀ o ∈ s.objs, o.pid = pid → o.live = true) (h : SomeX P s p) : SomeX P (s.refreshObj pid) p := by
  unfold refreshObj
  cases hf : s.obj? pid with
  | none => exact h
  | some o =>
    obtain ⟨ho, rfl⟩ := find_obj hf
    have hl := hlive o ho rfl
    dsimp only
    cases hfr : RTable.find s.rt o.dest with
    | some e =>
      dsimp only
      split
      · exact h
      · exact some_setHops hi hP ho hl e.hops h
    | none => exact some_setHops hi hP ho hl [] h

theorem some_refreshAll {P : Ext Rat → Prop} {p : Name} : ∀ (l : List Nat) {s : Npt} (_ : Inv s)
    (_ : ∀ o ∈ s.objs, o.pid ∈ l → o.live = true) (_ : NhlX s (fun _ => False))
    (_ : ∀ r, Has s p r → P (s.costValue (r, p))) (_ : SomeX P s p), SomeX P (l.foldl refreshObj s) p
  | [], _, _, _, _, _, h => h
  | pid :: l, s, hi, hlive, hn, hP, h => by
    obtain ⟨k1, k2, -⟩ := refreshObj_keeps hi pid (fun o ho h => hlive o ho (by simp [h])) hn
      (Y := fun _ => True) (fun _ _ _ h => absurd trivial h)
    rw [List.foldl_cons]
    refine some_refreshAll l k1.inv ?_ k2 (k1.pays hP)
      (some_refreshObj hi hP pid (fun o ho h => hlive o ho (by simp [h])) h)
    intro o ho hol
    have : (o.pid, o.live, o.dest) ∈ (s.refreshObj pid).objs.map (fun o => (o.pid, o.live, o.dest)) :=
      List.mem_map.2 ⟨o, ho, rfl⟩
    rw [k1.dests] at this
    obtain ⟨x, hx, he⟩ := List.mem_map.1 this
    simp only [Prod.mk.injEq] at he
    rw [← he.2.1]
    exact hlive x hx (by rw [he.1]; simp [hol])

theorem some_routes {s : Npt} (hi : Inv s) (hn : NhlX s (fun _ => False)) {P : Ext Rat → Prop} {p : Name}
    (hP : ∀ r, Has s p r → P (s.costValue (r, p))) (h : SomeX P s p) (t : RTable) : SomeX P (s.updateWithNewRoute t) p := by
  have hsh : Shape s { s with rt := t } := ⟨rfl, rfl, rfl⟩
  refine some_refreshAll ((s.objs.filter (·.live)).map (·.pid)) (s := { s with rt := t }) (hsh.inv hi) ?_ hn ?_ (h.same rfl rfl)
  · intro o ho hp
    obtain ⟨x, hx, hxp⟩ := List.mem_map.1 hp
    rw [List.mem_filter] at hx
    rw [← hi.objUniq hx.1 ho hxp]
    exact hx.2
  · intro r hr
    exact hP r ((hsh.has p r).1 hr)

/-! ### withdrawals -/

/-- The command for a withdrawn name carries no cost. -/
theorem lastOk_withdrawAll {p : Name} (own r : Name) (hp : p ≠ own) : ∀ (l : List Name) (s : Npt), Fresh s → l.Nodup → p ∈ l →
    (∀ n ∈ l, n ≠ own → ∃ v, s.costOf (r, n) = some v) → Has s p r → LastOk (l.foldl (withdraw own r) s) p (.fin 0) := by
  intro l
  induction l with
  | nil => intro s _ _ h; simp at h
  | cons n l ih =>
    intro s hf hnd hm hc hh
    rw [List.nodup_cons] at hnd
    rw [List.foldl_cons]
    have hrest : ∀ m ∈ l, m ≠ own → ∃ v, (withdraw own r s n).costOf (r, m) = some v := by
      intro m hm hmo
      obtain ⟨v, hv⟩ := hc m (by simp [hm]) hmo
      refine ⟨v, ?_⟩
      unfold withdraw
      split
      · exact hv
      · refine (calm_removeEntry _ _ _).costs _ _ ?_
        rw [costOf_eraseCost, if_neg]
        · exact hv
        · intro he
          simp only [Prod.mk.injEq, true_and] at he
          exact hnd.1 (he ▸ hm)
    by_cases hn : n = p
    · subst hn
      obtain ⟨v, hv⟩ := hc n (by simp) hp
      have h0 := hf.eraseCost hv
      have hf1 : Fresh (withdraw own r s n) := by rw [withdraw_other hp]; exact h0.removeEntry _ _
      refine (still_withdrawAll own r l _ hf1 hnd.2 (fun m hm hc => hnd.1 (by rw [← hc]; exact hm)) hrest).last hf1 _ ?_
      rw [withdraw_other hp]
      have hin := inPool_of_has (((shape_eraseCost s (r, n)).has n r).2 hh)
      have := (removeEntry_table h0.inv n r).2.2.1 hin
      have hz : (s.eraseCost (r, n)).costValue (r, n) = .fin 0 := by
        unfold costValue; rw [costOf_eraseCost, if_pos rfl]; rfl
      rwa [hz] at this
    · have hs := still_withdraw (s := s) own r hn (hc n (by simp))
      refine ih _ (hs.fresh hf) hnd.2 ?_ hrest ((hs.has hf r).2 hh)
      rcases List.mem_cons.1 hm with h1 | h1
      · exact absurd h1.symm hn
      · exact h1

/-! ### along an execution -/

/-- In this log `p` is not the name of a router. -/
def NoRouter (p : Name) (log : List Out) : Prop := ∀ k l adds removes, Out.signal k l adds removes ∈ log → l.origin ≠ p

/-- In this log some other router withdrew `p`. -/
def Gone (own p : Name) (log : List Out) : Prop :=
  ∃ k l adds removes, Out.signal k l adds removes ∈ log ∧ l.origin ≠ own ∧
    ((∃ q ∈ removes, q.name = p) ∨ (k = .removed ∧ ∃ q ∈ lsaNames l, q.name = p))

/-- The costs that may be charged. -/
def Due (own p : Name) (W : Prop) (v : View) (x : Ext Rat) : Prop :=
  (x = .fin 0 ∧ W) ∨ ∃ r, r ≠ own ∧ advOf v r p = some x

structure SomeOk (own p : Name) (W : Prop) (v : View) (n : Npt) : Prop where
  follows : Follows own v n
  clear : ∀ t, v p t = none
  last : ∀ r, Has n p r → SomeX (Due own p W v) n p

theorem SomeOk.vs {own p : Name} {W W' : Prop} {v v' : View} {n : Npt} {outs : List Out} (h : SomeOk own p W v n)
    (hp : p ≠ own) (t : VS v outs v') (hs : NoRouter p outs) (hW : W → W') (hG : Gone own p outs → W') :
    SomeOk own p W' v' (outs.foldl (feed own) n) := by
  have hF := h.follows.vs t
  have hfr := h.follows.fresh
  have hnone : ∀ t, v' p t = none := by
    intro ty
    cases t with
    | quiet _ hq => exact h.clear ty
    | installed l hv hn =>
      unfold View.set
      rw [if_neg (fun hc => hs _ l _ _ (List.mem_singleton.2 rfl) hc.1.symm)]
      exact h.clear ty
    | updated l old hv ho ht hn hu =>
      unfold View.set
      rw [if_neg (fun hc => hs _ l _ _ (List.mem_singleton.2 rfl) hc.1.symm)]
      exact h.clear ty
    | removed l hv hn =>
      unfold View.set
      rw [if_neg (fun hc => hs _ l _ _ (List.mem_singleton.2 rfl) hc.1.symm)]
      exact h.clear ty
  refine ⟨hF, hnone, ?_⟩
  -- nothing happened to p
  have idle : ∀ n', (outs.foldl (feed own) n) = n' → Still p n n' →
      (∀ r x, r ≠ own → advOf v r p = some x → advOf v' r p = some x) →
      ∀ r, Has (outs.foldl (feed own) n) p r → SomeX (Due own p W' v') (outs.foldl (feed own) n) p := by
    intro n' hn hst ha r hr
    rw [hn] at hr ⊢
    obtain ⟨x, h1, h2⟩ := h.last r ((hst.has hfr r).1 hr)
    refine ⟨x, hst.last hfr x h1, ?_⟩
    rcases h2 with ⟨h2, h3⟩ | ⟨r', h2, h3⟩
    · exact Or.inl ⟨h2, hW h3⟩
    · exact Or.inr ⟨r', h2, ha r' x h2 h3⟩
  cases t with
  | quiet _ hq => exact idle n (feed_quiet hq n) (Still.refl p n) (fun _ _ _ h => h)
  | installed l hv hn =>
    have hop : l.origin ≠ p := hs _ l _ _ (List.mem_singleton.2 rfl)
    by_cases ho : own = l.origin
    · refine idle n ?_ (Still.refl p n) ?_
      · show updateFromLsdb own n .installed l [] [] = n
        unfold updateFromLsdb; rw [if_pos ho]
      · intro r x hr hx; rwa [advOf_set_other (Or.inl (by rw [← ho]; exact hr))]
    · have hu : [Out.signal .installed l [] []].foldl (feed own) n =
          (lsaNames l).foldl (advertise own l.origin) (n.addEntry l.origin l.origin capture) := by
        show updateFromLsdb own n .installed l [] [] = _
        unfold updateFromLsdb; rw [if_neg ho]
      by_cases hcn : ∀ q ∈ lsaNames l, q.name ≠ p
      · refine idle _ hu ((still_addEntry n (Ne.symm hop) _ _).trans (still_advertiseAll own _ _ _ hcn)) ?_
        intro r x hr hx
        by_cases hk : r = l.origin ∧ l.type = .name
        · unfold advOf at hx
          rw [hk.1, ← hk.2, hv] at hx
          cases hx
        · rwa [advOf_set_other (by
            by_cases h1 : r = l.origin
            · exact Or.inr (fun h2 => hk ⟨h1, h2⟩)
            · exact Or.inl h1)]
      · intro r _
        have hnames : l.type = .name := by
          refine Classical.byContradiction fun ht => hcn ?_
          rw [lsaNames_other ht]; simp
        have hsort : PrefixMap.Sorted (lsaNames l) := by
          rw [lsaNames_name hnames] at hn; exact sorted_of_norm hn
        obtain ⟨q, hq, hqp⟩ : ∃ q ∈ lsaNames l, q.name = p :=
          Classical.byContradiction fun hc => hcn fun q hq hqp => hc ⟨q, hq, hqp⟩
        rw [hu]
        refine ⟨q.cost, ?_, Or.inr ⟨l.origin, Ne.symm ho, ?_⟩⟩
        · have := lastOk_advertiseAll own l.origin _ _ ((still_addEntry n (Ne.symm hop) l.origin capture).fresh hfr)
            (sorted_nodup hsort) q hq (by rw [hqp]; exact hp)
          rwa [hqp] at this
        · rw [hnames, lsaNames_name hnames, advOf_set, ← hqp]
          exact PrefixMap.get_mem hsort hq
  | updated l old hv ho ht hn hu =>
    have hop : l.origin ≠ p := hs _ l _ _ (List.mem_singleton.2 rfl)
    by_cases hown : own = l.origin
    · refine idle n ?_ (Still.refl p n) ?_
      · show updateFromLsdb own n .updated l _ _ = n
        unfold updateFromLsdb; rw [if_pos hown]
      · intro r x hr hx; rwa [advOf_set_other (Or.inl (by rw [← hown]; exact hr))]
    by_cases htn : l.type = .name
    · have hl := lsaNames_name htn
      obtain ⟨a, rfl⟩ : ∃ a, old = .names a := by
        cases old with
        | names a => exact ⟨a, rfl⟩
        | adj _ => rw [htn] at ht; cases ht
        | coord _ _ => rw [htn] at ht; cases ht
      have hsa := sorted_of_norm ho
      have hsb : PrefixMap.Sorted (lsaNames l) := by rw [hl] at hn; exact sorted_of_norm hn
      have hadds : ((Content.names a).update l.content).adds = PrefixMap.minus (lsaNames l) a := by rw [hl]; rfl
      have hrems : ((Content.names a).update l.content).removes = PrefixMap.minus a (lsaNames l) := by rw [hl]; rfl
      have hcont : ((Content.names a).update l.content).content = (updateNames a (lsaNames l)).content := by rw [hl]; rfl
      have huu : [Out.signal .updated l ((Content.names a).update l.content).adds
          ((Content.names a).update l.content).removes].foldl (feed own) n =
          ((PrefixMap.minus a (lsaNames l)).map (·.name)).foldl (withdraw own l.origin)
            ((PrefixMap.minus (lsaNames l) a).foldl (advertise own l.origin) n) := by
        show updateFromLsdb own n .updated l _ _ = _
        unfold updateFromLsdb
        rw [if_neg hown, hadds, hrems]
        simp only [htn, if_true]
      generalize hb : lsaNames l = b at *
      obtain ⟨i1, i2, i3, -, -⟩ := advertiseAll (own := own) (r := l.origin) (PrefixMap.minus b a) hfr
      have hsep : ∀ x ∈ PrefixMap.minus b a, ∀ y ∈ PrefixMap.minus a b, x.name ≠ y.name := by
        intro x hx y hy
        exact ((mem_minus.1 hx).2 y (mem_minus.1 hy).1).symm
      have hcost : ∀ m ∈ (PrefixMap.minus a b).map (·.name), m ≠ own →
          ∃ y, ((PrefixMap.minus b a).foldl (advertise own l.origin) n).costOf (l.origin, m) = some y := by
        intro m hm hmo
        obtain ⟨y, hy, rfl⟩ := List.mem_map.1 hm
        obtain ⟨z, hz⟩ := vs_follows_cost h.follows (Ne.symm hown) (htn ▸ hv) hsa y.name
          (List.mem_map.2 ⟨y, (mem_minus.1 hy).1, rfl⟩) hmo
        refine ⟨z, i3 _ _ ?_ hz⟩
        intro x hx hc
        simp only [Prod.mk.injEq, true_and] at hc
        exact hsep x hx y hy hc.symm
      have hnd := sorted_nodup (minus_sorted (b := b) hsa)
      have hg := get_updateNames hsa hsb p
      by_cases hadd : ∃ q ∈ PrefixMap.minus b a, q.name = p
      · intro r _
        obtain ⟨m, hm, hg⟩ := hg
        obtain ⟨q, hq, hqn, hg⟩ : ∃ q ∈ PrefixMap.minus b a, q.name = p ∧ PrefixMap.get m p = some q.cost := by
          rcases hg with hg | ⟨⟨y, hy, hyn⟩, -⟩ | ⟨h1, -, -⟩
          · exact hg
          · obtain ⟨q, hq, hqn⟩ := hadd
            exact absurd (hqn.trans hyn.symm) (hsep q hq y hy)
          · obtain ⟨q, hq, hqn⟩ := hadd
            exact absurd hqn (h1 q hq)
        rw [huu]
        refine ⟨q.cost, ?_, Or.inr ⟨l.origin, Ne.symm hown, ?_⟩⟩
        · have hla := lastOk_advertiseAll own l.origin _ n hfr (sorted_nodup (minus_sorted (b := a) hsb)) q hq (by rw [hqn]; exact hp)
          rw [hqn] at hla
          refine (still_withdrawAll own _ _ _ i1 hnd ?_ hcost).last i1 _ hla
          intro y hy hc
          obtain ⟨z, hz, rfl⟩ := List.mem_map.1 hy
          exact hsep q hq z hz (hqn.trans hc.symm)
        · rw [hcont, hm, htn, advOf_set]; exact hg
      · have hadd' : ∀ q ∈ PrefixMap.minus b a, q.name ≠ p := fun q hq hqn => hadd ⟨q, hq, hqn⟩
        have hst := still_advertiseAll own l.origin _ n hadd'
        by_cases hrem : ∃ q ∈ PrefixMap.minus a b, q.name = p
        · intro r _
          obtain ⟨q, hq, hqn⟩ := hrem
          have hhas : Has n p l.origin := by
            refine (h.follows.adv p l.origin (Ne.symm hown) hp (Ne.symm hop)).2 ?_
            unfold advOf
            rw [← htn, hv, ← hqn]
            exact Option.isSome_iff_exists.2 ⟨_, PrefixMap.get_mem hsa (mem_minus.1 hq).1⟩
          rw [huu]
          refine ⟨_, lastOk_withdrawAll own l.origin hp _ _ i1 hnd (List.mem_map.2 ⟨q, hq, hqn⟩) hcost
            ((hst.has hfr _).2 hhas), Or.inl ⟨rfl, hG ?_⟩⟩
          refine ⟨_, l, _, _, List.mem_singleton.2 rfl, Ne.symm hown, Or.inl ⟨q, ?_, hqn⟩⟩
          rw [hrems]; exact hq
        · have hrem' : ∀ q ∈ PrefixMap.minus a b, q.name ≠ p := fun q hq hqn => hrem ⟨q, hq, hqn⟩
          refine idle _ huu (hst.trans (still_withdrawAll own _ _ _ i1 hnd ?_ hcost)) ?_
          · intro m hm
            obtain ⟨y, hy, rfl⟩ := List.mem_map.1 hm
            exact hrem' y hy
          · intro r x hr hx
            by_cases hk : r = l.origin
            · obtain ⟨m, hm, hg⟩ := hg
              rw [hcont, hm, htn, hk, advOf_set]
              rcases hg with ⟨q, hq, hqn, -⟩ | ⟨⟨q, hq, hqn⟩, -⟩ | ⟨-, -, hg⟩
              · exact absurd hqn (hadd' q hq)
              · exact absurd hqn (hrem' q hq)
              · rw [hg]
                unfold advOf at hx
                rw [hk, ← htn, hv] at hx
                exact hx
            · rwa [advOf_set_other (Or.inl hk)]
    · refine idle n ?_ (Still.refl p n) ?_
      · show updateFromLsdb own n .updated l _ _ = n
        unfold updateFromLsdb; rw [if_neg hown]; simp only [htn, if_false]
      · intro r x hr hx; rwa [advOf_set_other (Or.inr htn)]
  | removed l hv hn =>
    have hop : l.origin ≠ p := hs _ l _ _ (List.mem_singleton.2 rfl)
    by_cases hown : own = l.origin
    · refine idle n ?_ (Still.refl p n) ?_
      · show updateFromLsdb own n .removed l [] [] = n
        unfold updateFromLsdb; rw [if_pos hown]
      · intro r x hr hx; rwa [advOf_set_other (Or.inl (by rw [← hown]; exact hr))]
    have hu : [Out.signal .removed l [] []].foldl (feed own) n =
        ((lsaNames l).map (·.name)).foldl (withdraw own l.origin) (n.removeEntry l.origin l.origin) := by
      show updateFromLsdb own n .removed l [] [] = _
      unfold updateFromLsdb; rw [if_neg hown]
    have hsort : PrefixMap.Sorted (lsaNames l) := by
      by_cases ht : l.type = .name
      · rw [lsaNames_name ht] at hn; exact sorted_of_norm hn
      · rw [lsaNames_other ht]; exact List.Pairwise.nil
    have hst := still_removeEntry n (Ne.symm hop) l.origin
    have hf1 := hst.fresh hfr
    have hcost : ∀ m ∈ (lsaNames l).map (·.name), m ≠ own →
        ∃ y, (n.removeEntry l.origin l.origin).costOf (l.origin, m) = some y := by
      intro m hm hmo
      have ht : l.type = .name := by
        refine Classical.byContradiction fun ht => ?_
        rw [lsaNames_other ht] at hm; simp at hm
      rw [ht, lsaNames_name ht] at hv
      obtain ⟨z, hz⟩ := vs_follows_cost h.follows (Ne.symm hown) hv hsort m hm hmo
      exact ⟨z, (calm_removeEntry _ _ _).costs _ _ hz⟩
    by_cases hcn : ∀ q ∈ lsaNames l, q.name ≠ p
    · refine idle _ hu (hst.trans (still_withdrawAll own _ _ _ hf1 (sorted_nodup hsort) ?_ hcost)) ?_
      · intro m hm
        obtain ⟨y, hy, rfl⟩ := List.mem_map.1 hm
        exact hcn y hy
      · intro r x hr hx
        by_cases hk : r = l.origin ∧ l.type = .name
        · unfold advOf at hx
          rw [hk.1, ← hk.2, hv, lsaNames_name hk.2] at hx
          exact absurd rfl (hcn _ (PrefixMap.get_some hx))
        · rwa [advOf_set_other (by
            by_cases h1 : r = l.origin
            · exact Or.inr (fun h2 => hk ⟨h1, h2⟩)
            · exact Or.inl h1)]
    · intro r _
      obtain ⟨q, hq, hqp⟩ : ∃ q ∈ lsaNames l, q.name = p :=
        Classical.byContradiction fun hc => hcn fun q hq hqp => hc ⟨q, hq, hqp⟩
      have hnames : l.type = .name := by
        refine Classical.byContradiction fun ht => hcn ?_
        rw [lsaNames_other ht]; simp
      have hhas : Has n p l.origin := by
        refine (h.follows.adv p l.origin (Ne.symm hown) hp (Ne.symm hop)).2 ?_
        unfold advOf
        rw [← hnames, hv, lsaNames_name hnames, ← hqp]
        exact Option.isSome_iff_exists.2 ⟨_, PrefixMap.get_mem hsort hq⟩
      rw [hu]
      exact ⟨_, lastOk_withdrawAll own l.origin hp _ _ hf1 (sorted_nodup hsort) (List.mem_map.2 ⟨q, hq, hqp⟩) hcost
        ((hst.has hfr _).2 hhas), Or.inl ⟨rfl, hG ⟨_, l, _, _, List.mem_singleton.2 rfl, Ne.symm hown, Or.inr ⟨rfl, q, hq, hqp⟩⟩⟩⟩

theorem SomeOk.routes {own p : Name} {W : Prop} {v : View} {n : Npt} (h : SomeOk own p W v n) (hp : p ≠ own)
    (t : RTable) : SomeOk own p W v (n.updateWithNewRoute t) := by
  have hk := (updateWithNewRoute_spec h.follows.fresh.inv h.follows.fresh.nhl t).1
  have hh : ∀ p r, Has (n.updateWithNewRoute t) p r ↔ Has n p r := fun p r =>
    (hk.has p r).trans ((⟨rfl, rfl, rfl⟩ : Shape n { n with rt := t }).has p r)
  refine ⟨h.follows.routes t, h.clear, ?_⟩
  intro r hr
  refine some_routes h.follows.fresh.inv h.follows.fresh.nhl ?_ (h.last r ((hh p r).1 hr)) t
  intro r' hr'
  have h1 := h.follows.foreign p r' hr'
  have h2 : p ≠ r' := by
    rintro rfl
    obtain ⟨t, ht⟩ := h.follows.self p hr'
    rw [h.clear t] at ht; cases ht
  obtain ⟨x, hx⟩ := Option.isSome_iff_exists.1 ((h.follows.adv p r' h1.1 hp h2).1 hr')
  refine Or.inr ⟨r', h1.1, ?_⟩
  unfold costValue
  rw [h.follows.cost p r' x h1.1 hp hx, hx]
  rfl

end Npt

namespace Core
open Npt Lsdb

theorem kept_some (c : CConf) {p : Name} (hp : p ≠ c.router) :
    Kept c (fun _ => True) (fun log v n => Follows c.router v n ∧ (NoRouter p log → SomeOk c.router p (Gone c.router p log) v n)) where
  vs h t := ⟨h.1.vs t, fun hs => SomeOk.vs (h.2 (fun k l a r hm => hs k l a r (List.mem_append_left _ hm))) hp t
    (fun k l a r hm => hs k l a r (List.mem_append_right _ hm))
    (fun ⟨k, l, a, r, hm, h⟩ => ⟨k, l, a, r, List.mem_append_left _ hm, h⟩)
    (fun ⟨k, l, a, r, hm, h⟩ => ⟨k, l, a, r, List.mem_append_right _ hm, h⟩)⟩
  routes t _ h := ⟨h.1.routes t, fun hs => (h.2 hs).routes hp t⟩
  rehash objs h := ⟨h.1.rehash objs, fun hs => ⟨h.1.rehash objs, (h.2 hs).clear,
    fun r hr => ((h.2 hs).last r ((has_rehash _ _ _ _ _).1 hr)).same (rehash_same _ _ _).1 (rehash_same _ _ _).2.1⟩⟩
  rehashNames pid names h := ⟨h.1.rehashNames pid names, fun hs => ⟨h.1.rehashNames pid names, (h.2 hs).clear,
    fun r hr => ((h.2 hs).last r ((has_rehashNames _ _ _ _ _ _).1 hr)).same rfl rfl⟩⟩

theorem Reachable.someOk {c : CConf} {s : Core} (h : Reachable c s) {p : Name} (hp : p ≠ c.router)
    (hs : NoRouter p s.lsdb.log) : SomeOk c.router p (Gone c.router p s.lsdb.log) (view s.lsdb) s.npt := by
  refine ((kept_some c hp).reachable (tables_all c) ?_ h).2 hs
  intro disk adjs npl sys
  have hF := init_follows c.router (view (Lsdb.init c.lsdb disk adjs npl sys))
    (fun r t hr => init_view c.lsdb disk adjs npl sys r t hr)
  refine ⟨hF, fun _ => ⟨hF, fun t => init_view c.lsdb disk adjs npl sys p t hp, ?_⟩⟩
  rintro r ⟨e, he, -⟩; simp at he

end Core
end Nlsr
