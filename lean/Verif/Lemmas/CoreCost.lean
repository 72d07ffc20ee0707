import Verif.Lemmas.NptCost
/- Facts about every reachable state that the properties of the name prefix table use. -/
namespace Nlsr
namespace Npt

theorem has_rehash (own : Name) (n : Npt) (objs : List PoolObj) (p r : Name) :
    Has (n.step own (.rehash objs)) p r ↔ Has n p r := by
  show Has (if objs.isPerm n.objs then { n with objs := objs } else n) p r ↔ _
  split
  · rename_i hp
    have hp : objs.Perm n.objs := List.isPerm_iff.1 hp
    unfold Has
    simp only [hp.mem_iff]
  · exact Iff.rfl

theorem has_rehashNames (own : Name) (n : Npt) (pid : Nat) (names : List (Name × Nat)) (p r : Name) :
    Has (n.step own (.rehashNames pid names)) p r ↔ Has n p r := by
  show Has (n.modObj pid (fun o => if names.isPerm o.names then { o with names := names } else o)) p r ↔ _
  have key : ∀ o : PoolObj, (if o.pid == pid then (if names.isPerm o.names then { o with names := names } else o) else o).live = o.live ∧
      (if o.pid == pid then (if names.isPerm o.names then { o with names := names } else o) else o).dest = o.dest ∧
      (if o.pid == pid then (if names.isPerm o.names then { o with names := names } else o) else o).pid = o.pid := by
    intro o
    split
    · split <;> exact ⟨rfl, rfl, rfl⟩
    · exact ⟨rfl, rfl, rfl⟩
  constructor
  · rintro ⟨e, he, hn, o, ho, h1, h2, h3⟩
    obtain ⟨x, hx, rfl⟩ := mem_modObj.1 ho
    obtain ⟨k1, k2, k3⟩ := key x
    exact ⟨e, he, hn, x, hx, k1.symm.trans h1, k2.symm.trans h2, k3 ▸ h3⟩
  · rintro ⟨e, he, hn, o, ho, h1, h2, h3⟩
    obtain ⟨k1, k2, k3⟩ := key o
    exact ⟨e, he, hn, _, mem_modObj.2 ⟨o, ho, rfl⟩, k1.trans h1, k2.trans h2, k3.symm ▸ h3⟩

theorem rehash_same (own : Name) (n : Npt) (objs : List PoolObj) :
    (n.step own (.rehash objs)).table = n.table ∧ (n.step own (.rehash objs)).out = n.out ∧
    (n.step own (.rehash objs)).costs = n.costs ∧ (n.step own (.rehash objs)).rt = n.rt := by
  unfold Npt.step
  dsimp only
  split <;> exact ⟨rfl, rfl, rfl, rfl⟩

end Npt

namespace Core
open Npt
open Lsdb (View VS VSs view)

/-- All signals in the log come from router `r0`. -/
def LogOf (r0 : Name) (log : List Out) : Prop := ∀ k l a r, Out.signal k l a r ∈ log → l.origin = r0

theorem logOf_announce {r0 : Name} {s : Lsdb} (h : LogOf r0 s.log) (t : LsaType) (b : Bool) :
    LogOf r0 (Lsdb.announce s t b).log := by
  intro k l a r hm
  unfold Lsdb.announce Lsdb.persist Lsdb.publish Lsdb.emit at hm
  dsimp only at hm
  split at hm
  · simp only [List.append_assoc, List.mem_append, List.mem_cons, List.not_mem_nil, or_false, reduceCtorEq] at hm
    exact h k l a r hm
  · simp only [List.mem_append, List.mem_cons, List.not_mem_nil, or_false, reduceCtorEq] at hm
    exact h k l a r hm

theorem logOf_install {c : LConf} {r0 : Name} {s : Lsdb} (h : LogOf r0 s.log) (l : Lsa) (hl : l.origin = r0) :
    LogOf r0 (Lsdb.installLsa c s l).log := by
  have hc := Lsdb.install_cases c s l
  generalize Lsdb.installLsa c s l = s' at hc
  cases hc with
  | rejected o hf hle => exact h
  | fresh hf =>
    intro k l' a r hm
    rcases List.mem_append.1 hm with h1 | h1
    · exact h k l' a r h1
    · simp only [List.mem_singleton, Out.signal.injEq] at h1
      rw [h1.2.1]; exact hl
  | newer o hf hlt =>
    obtain ⟨-, ho, -⟩ := Lsdb.find_some hf
    unfold Lsdb.installUpdate Lsdb.reschedule
    dsimp only
    split
    · intro k l' a r hm
      rcases List.mem_append.1 hm with h1 | h1
      · exact h k l' a r h1
      · simp only [List.mem_singleton, Out.signal.injEq] at h1
        rw [h1.2.1]
        exact hl
    · exact h

theorem logOf_init (c : LConf) (disk adjs npl sys) : LogOf c.router (Lsdb.init c disk adjs npl sys).log := by
  have h1 : LogOf c.router (Lsdb.buildName c (Lsdb.boot c disk adjs npl sys)).log := by
    unfold Lsdb.buildName
    exact logOf_install (logOf_announce (by intro k l a r hm; simp [Lsdb.boot] at hm) _ _) _ rfl
  unfold Lsdb.init
  dsimp only
  split
  · exact h1
  · unfold Lsdb.buildCoord
    exact logOf_install (logOf_announce h1 _ _) _ rfl

theorem upOf_logOf {r0 r : Name} (hr : r ≠ r0) : ∀ {log : List Out}, LogOf r0 log → upOf r log = false := by
  intro log
  suffices ∀ b, LogOf r0 log → log.foldl (upStep r) b = b from fun h => this false h
  induction log with
  | nil => intro b _; rfl
  | cons o log ih =>
    intro b h
    rw [List.foldl_cons, ih _ (fun k l a r hm => h k l a r (List.mem_cons_of_mem _ hm))]
    cases o with
    | signal k l a x =>
      have := h k l a x (List.mem_cons_self ..)
      unfold upStep
      dsimp only
      rw [if_neg (by rw [this]; exact Ne.symm hr)]
    | _ => rfl

/-! ### only one advertiser -/

theorem kept_solo (c : CConf) {p r : Name} (hr : r ≠ c.router) (hp : p ≠ c.router) (hpr : p ≠ r) :
    Kept c (fun _ => True) (fun log v n => Follows c.router v n ∧ (Solo c.router p r log → SoloOk c.router p r v n)) where
  vs h t := ⟨h.1.vs t, fun hs => (h.2 hs.left).vs hr hp hpr t (fun o ho => hs o (List.mem_append_right _ ho))⟩
  routes t _ h := ⟨h.1.routes t, fun hs => (h.2 hs).routes hr hp hpr t⟩
  rehash objs h := ⟨h.1.rehash objs, fun hs => ⟨h.1.rehash objs,
    fun r' hr' => (h.2 hs).only r' ((has_rehash _ _ _ _ _).1 hr'),
    fun x hx => lastOk_same (rehash_same _ _ _).1 (rehash_same _ _ _).2.1 ((h.2 hs).last x hx)⟩⟩
  rehashNames pid names h := ⟨h.1.rehashNames pid names, fun hs => ⟨h.1.rehashNames pid names,
    fun r' hr' => (h.2 hs).only r' ((has_rehashNames _ _ _ _ _ _).1 hr'),
    fun x hx => lastOk_same rfl rfl ((h.2 hs).last x hx)⟩⟩

theorem Reachable.solo {c : CConf} {s : Core} (h : Reachable c s) {p r : Name} (hr : r ≠ c.router) (hp : p ≠ c.router)
    (hpr : p ≠ r) (hs : Solo c.router p r s.lsdb.log) : SoloOk c.router p r (view s.lsdb) s.npt := by
  refine ((kept_solo c hr hp hpr).reachable (tables_all c) ?_ h).2 hs
  intro disk adjs npl sys
  have hF := init_follows c.router (view (Lsdb.init c.lsdb disk adjs npl sys))
    (fun r t hr => init_view c.lsdb disk adjs npl sys r t hr)
  refine ⟨hF, fun _ => ⟨hF, ?_, ?_⟩⟩
  · rintro r' ⟨e, he, -⟩; simp at he
  · intro x _ e he; simp at he

/-! ### prefix cost zero -/

theorem kept_free (c : CConf) (p : Name) :
    Kept c (fun _ => True) (fun log v n => Follows c.router v n ∧ (Free c.router p log → FreeOk c.router p v n)) where
  vs h t := ⟨h.1.vs t, fun hs => FreeOk.vs (h.2 (fun k l a r hm => hs k l a r (List.mem_append_left _ hm))) t
    (fun k l a r hm => hs k l a r (List.mem_append_right _ hm))⟩
  routes t _ h := ⟨h.1.routes t, fun hs => (h.2 hs).routes t⟩
  rehash objs h := ⟨h.1.rehash objs, fun hs => ⟨h.1.rehash objs,
    fun r => by
      have := (h.2 hs).zero r
      unfold costValue costOf at this ⊢
      rw [(rehash_same _ _ _).2.2.1]; exact this,
    lastOk_same (rehash_same _ _ _).1 (rehash_same _ _ _).2.1 (h.2 hs).last⟩⟩
  rehashNames pid names h := ⟨h.1.rehashNames pid names, fun hs => ⟨h.1.rehashNames pid names,
    (h.2 hs).zero, lastOk_same rfl rfl (h.2 hs).last⟩⟩

theorem Reachable.free {c : CConf} {s : Core} (h : Reachable c s) {p : Name} (hs : Free c.router p s.lsdb.log) :
    FreeOk c.router p (view s.lsdb) s.npt := by
  refine ((kept_free c p).reachable (tables_all c) ?_ h).2 hs
  intro disk adjs npl sys
  have hF := init_follows c.router (view (Lsdb.init c.lsdb disk adjs npl sys))
    (fun r t hr => init_view c.lsdb disk adjs npl sys r t hr)
  refine ⟨hF, fun _ => ⟨hF, fun _ => rfl, ?_⟩⟩
  intro e he; simp at he

/-! ### the router prefix -/

theorem kept_up (c : CConf) {r : Name} (hr : r ≠ c.router) :
    Kept c (fun _ => True) (fun log v n => Follows c.router v n ∧ (Has n r r ↔ upOf r log = true)) where
  vs h t := ⟨h.1.vs t, by unfold upOf; rw [List.foldl_append]; exact up_vs h.1 hr h.2 t⟩
  routes t _ h := ⟨h.1.routes t, by
    have hk := (updateWithNewRoute_spec h.1.fresh.inv h.1.fresh.nhl t).1
    exact ((hk.has r r).trans Iff.rfl).trans h.2⟩
  rehash objs h := ⟨h.1.rehash objs, (has_rehash _ _ _ _ _).trans h.2⟩
  rehashNames pid names h := ⟨h.1.rehashNames pid names, (has_rehashNames _ _ _ _ _ _).trans h.2⟩

theorem Reachable.up {c : CConf} {s : Core} (h : Reachable c s) {r : Name} (hr : r ≠ c.router) :
    Has s.npt r r ↔ upOf r s.lsdb.log = true := by
  refine ((kept_up c hr).reachable (tables_all c) ?_ h).2
  intro disk adjs npl sys
  refine ⟨init_follows c.router _ (fun r t hr => init_view c.lsdb disk adjs npl sys r t hr), ?_⟩
  rw [upOf_logOf hr (logOf_init c.lsdb disk adjs npl sys)]
  simp only [Bool.false_eq_true, iff_false]
  rintro ⟨e, he, -⟩; simp at he

/-! ### shape of the routing table -/

/-- One entry per destination, one hop per face. -/
def Neat (t : RTable) : Prop := (t.map (·.dest)).Nodup ∧ ∀ e ∈ t, UriNodup e.hops

theorem neat_build (adds : List (Name × NextHop)) : Neat (RTable.build adds) :=
  ⟨(C13_one_entry_per_destination adds).1, fun e he => ((C13_one_entry_per_destination adds).2.2 e he).1⟩

theorem tables_neat (c : CConf) : Tables c Neat := by
  refine ⟨⟨by simp, by simp⟩, ?_, ?_⟩
  · intro _ adjs db t h
    unfold lsTable at h
    simp only [Option.map_eq_some_iff] at h
    obtain ⟨x, -, rfl⟩ := h
    exact neat_build x
  · intro _ adjs db t h
    unfold hypTable at h
    split at h
    · cases h
    · simp only [Option.map_eq_some_iff] at h
      obtain ⟨x, -, rfl⟩ := h
      exact neat_build x

theorem rt_feeds (own : Name) : ∀ (outs : List Out) (n : Npt), (outs.foldl (feed own) n).rt = n.rt := by
  intro outs
  induction outs with
  | nil => intro n; rfl
  | cons o os ih =>
    intro n
    rw [List.foldl_cons, ih]
    cases o with
    | signal k l a r => exact rt_updateFromLsdb _ _ _ _ _ _
    | _ => rfl

theorem kept_rt (c : CConf) (T : RTable → Prop) : Kept c T (fun _ _ n => T n.rt) where
  vs h _ := by rw [rt_feeds]; exact h
  routes t ht _ := by rw [rt_updateWithNewRoute]; exact ht
  rehash objs h := by rw [(rehash_same _ _ _).2.2.2]; exact h
  rehashNames pid names h := h

theorem Reachable.table {c : CConf} {s : Core} (h : Reachable c s) {T : RTable → Prop} (hT : Tables c T) : T s.rt.table := by
  rw [← h.rt]
  exact (kept_rt c T).reachable hT (fun _ _ _ _ => hT.empty) h

/-- In hyperbolic mode every hop is marked hyperbolic. -/
theorem tables_hyp (c : CConf) (h : c.lsdb.hyp = .on) : Tables c (fun t => ∀ e ∈ t, ∀ x ∈ e.hops, x.hyp = true) := by
  refine ⟨by simp, fun hc => absurd h hc, ?_⟩
  intro _ adjs db t ht
  unfold hypTable at ht
  split at ht
  · cases ht
  · rename_i os _
    simp only [Option.map_eq_some_iff] at ht
    obtain ⟨adds, ha, rfl⟩ := ht
    have key : ∀ (os : List HR.Offer) (adds : List (Name × NextHop)),
        os.mapM (fun o : HR.Offer => o.hop.map (fun h => (o.dest, h))) = some adds → ∀ x ∈ adds, x.2.hyp = true := by
      intro os
      induction os with
      | nil => intro adds h; simp at h; subst h; simp
      | cons o os ih =>
        intro adds h
        simp only [List.mapM_cons, Option.bind_eq_bind, Option.bind_eq_some_iff, Option.map_eq_some_iff, Option.pure_def,
          Option.some.injEq] at h
        obtain ⟨a, ⟨b, hb, rfl⟩, l, hl, rfl⟩ := h
        intro x hx
        rcases List.mem_cons.1 hx with rfl | hx
        · unfold HR.Offer.hop at hb
          split at hb
          · injection hb with hb; rw [← hb]
          · cases hb
        · exact ih l hl x hx
    intro e he x hx
    exact key os adds ha _ (((C13_one_entry_per_destination adds).2.2 e he).2.1 x hx).1

theorem Reachable.hypHops {c : CConf} {s : Core} (h : Reachable c s) (hh : c.lsdb.hyp = .on) :
    HopsOk (fun x => x.hyp = true) s.npt :=
  (kept_hops c _).reachable (tables_hyp c hh) (fun _ _ _ _ => ⟨by simp, by simp⟩) h

end Core
end Nlsr
