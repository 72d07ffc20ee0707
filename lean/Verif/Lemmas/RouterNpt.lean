import Verif.Lemmas.NptOut
import Verif.Lemmas.CoreRun
/- Calls of the FIB by the name prefix table are only ever added. -/
namespace Nlsr
namespace Npt

theorem grows_foldl {α : Type} {f : Npt → α → Npt} (hf : ∀ s a, s.out <+: (f s a).out) (l : List α) :
    ∀ s, s.out <+: (l.foldl f s).out := by
  induction l with
  | nil => exact fun s => List.prefix_refl _
  | cons a as ih => exact fun s => (hf s a).trans (ih _)

theorem grows_touch (s : Npt) (k : Name × Name) : s.out <+: (s.touchCost k).out := by rw [touch_out]; exact List.prefix_refl _

theorem grows_fibUpdate (s : Npt) (name dest : Name) (l : NexthopList) (fl : Nat) : s.out <+: (s.fibUpdate name dest l fl).out := by
  rw [fibUpdate_out]; exact List.prefix_append _ _

theorem grows_ensurePool (s : Npt) (d : Name) : s.out <+: (s.ensurePool d).1.out := by
  unfold ensurePool; split <;> exact List.prefix_refl _

theorem grows_ensureEntry (s : Npt) (n : Name) (fl : Nat) : s.out <+: (s.ensureEntry n fl).1.out := by
  unfold ensureEntry
  split
  · dsimp only; split <;> exact List.prefix_refl _
  · exact List.prefix_refl _

theorem grows_addRte (s : Npt) (e p : Nat) : s.out <+: (s.addRte e p).out := by
  unfold addRte
  split
  · exact List.prefix_refl _
  · split <;> exact List.prefix_refl _

theorem grows_tellFib (s : Npt) (e : Nat) (n d : Name) : s.out <+: (s.tellFib e n d).out := by
  unfold tellFib
  split
  · exact List.prefix_refl _
  · split
    · exact grows_fibUpdate ..
    · exact List.prefix_append _ _

theorem grows_addEntry (s : Npt) (n d : Name) (fl : Nat) : s.out <+: (s.addEntry n d fl).out := by
  unfold addEntry
  have h1 := grows_ensurePool s d
  generalize s.ensurePool d = x at h1 ⊢
  obtain ⟨s1, pid⟩ := x
  dsimp only at h1 ⊢
  have h2 := grows_ensureEntry s1 n fl
  generalize s1.ensureEntry n fl = y at h2 ⊢
  obtain ⟨s2, eid⟩ := y
  dsimp only at h2 ⊢
  have h3 := grows_addRte s2 eid pid
  have h4 := grows_tellFib ((s2.addRte eid pid).regen eid) eid n d
  exact ((h1.trans h2).trans h3).trans h4

theorem grows_removeEntry (s : Npt) (n d : Name) : s.out <+: (s.removeEntry n d).out := by
  unfold removeEntry
  split
  · exact List.prefix_refl _
  · split
    · exact List.prefix_refl _
    · rename_i o _ _ e _
      have h1 : s.out <+: (s.removeRte e o.pid).out := by unfold removeRte; split <;> exact List.prefix_refl _
      generalize s.removeRte e o.pid = s1 at h1 ⊢
      have h2 : s1.out <+: (s1.dropUnused o.pid).out := by unfold dropUnused; split <;> exact List.prefix_refl _
      refine (h1.trans h2).trans ?_
      unfold finishRemove
      split
      · exact List.prefix_refl _
      · split
        · exact List.prefix_append _ _
        · exact List.IsPrefix.trans (l₂ := ((s1.dropUnused o.pid).regen e.eid).out) (List.prefix_refl _) (grows_fibUpdate ..)

theorem grows_refreshObj (s : Npt) (pid : Nat) : s.out <+: (s.refreshObj pid).out := by
  have hr : ∀ d (s : Npt) (r : Name × Nat), s.out <+: (s.readd d r).out := by
    intro d s r
    unfold readd
    split
    · exact List.prefix_refl _
    · exact grows_addEntry ..
  unfold refreshObj
  split
  · exact List.prefix_refl _
  · split
    · split
      · exact List.prefix_refl _
      · rename_i o _ _ e _ _
        exact grows_foldl (hr o.dest) o.names (s.modObj pid (fun o => { o with hops := e.hops }))
    · rename_i o _ _ _
      exact grows_foldl (hr o.dest) o.names (s.modObj pid (fun o => { o with hops := [] }))

theorem grows_routes (s : Npt) (t : RTable) : s.out <+: (s.updateWithNewRoute t).out := by
  unfold updateWithNewRoute
  exact grows_foldl (f := refreshObj) grows_refreshObj _ { s with rt := t }

theorem grows_advertise (own r : Name) (s : Npt) (p : PrefixInfo) : s.out <+: (advertise own r s p).out := by
  unfold advertise
  split
  · exact List.prefix_refl _
  · exact List.IsPrefix.trans (l₂ := (s.setCost (r, p.name) p.cost).out) (List.prefix_refl _) (grows_addEntry ..)

theorem grows_withdraw (own r : Name) (s : Npt) (n : Name) : s.out <+: (withdraw own r s n).out := by
  unfold withdraw
  split
  · exact List.prefix_refl _
  · have : (s.eraseCost (r, n)).out = s.out := by unfold eraseCost; split <;> rfl
    exact this ▸ grows_removeEntry ..

theorem grows_lsdb (own : Name) (s : Npt) (k : ModKind) (l : Lsa) (a r : List PrefixInfo) :
    s.out <+: (s.updateFromLsdb own k l a r).out := by
  unfold updateFromLsdb
  split
  · exact List.prefix_refl _
  · cases k with
    | installed => exact (grows_addEntry ..).trans (grows_foldl (grows_advertise _ _) _ _)
    | updated =>
      dsimp only
      split
      · exact (grows_foldl (grows_advertise _ _) _ _).trans (grows_foldl (grows_withdraw _ _) _ _)
      · exact List.prefix_refl _
    | removed => exact (grows_removeEntry ..).trans (grows_foldl (grows_withdraw _ _) _ _)

end Npt

namespace Core
open Npt

theorem grows_hear (c : CConf) (now : Nat) (p : RtState × Npt) (o : Out) : p.2.out <+: (hear c now p o).2.out := by
  unfold hear
  split
  · dsimp only
    refine List.IsPrefix.trans ?_ (grows_lsdb ..)
    unfold rtHear
    dsimp only
    split
    · exact grows_routes ..
    · exact List.prefix_refl _
  · exact List.prefix_refl _

theorem grows_calcLs (c : CConf) (db : List Obj) (s : Core) : s.npt.out <+: (calcLs c db s).npt.out := by
  unfold calcLs
  split
  · exact List.prefix_refl _
  · split
    · exact List.prefix_refl _
    · split
      · exact List.prefix_refl _
      · exact grows_routes ..

theorem grows_calcHyp (c : CConf) (db : List Obj) (d : Bool) (s : Core) : s.npt.out <+: (calcHyp c db d s).npt.out := by
  unfold calcHyp
  split
  · exact List.prefix_refl _
  · split
    · exact List.prefix_refl _
    · exact grows_routes ..

theorem grows_calculate (c : CConf) (db : List Obj) (s : Core) : s.npt.out <+: (calculate c db s).npt.out := by
  unfold calculate
  dsimp only
  split
  · exact grows_calcLs ..
  · exact (grows_calcLs ..).trans (grows_calcHyp ..)
  · exact grows_calcHyp ..

/-- No step takes back a call of the FIB. -/
theorem grows_step (c : CConf) (s : Core) (op : Op) : s.npt.out <+: (step c s op).npt.out := by
  cases op with
  | lsdb op =>
    show s.npt.out <+: (lsdbStep c s op).npt.out
    unfold lsdbStep
    dsimp only
    generalize (Lsdb.step c.lsdb s.lsdb op).log.drop s.lsdb.log.length = l
    generalize (Lsdb.step c.lsdb s.lsdb op).now = now
    have key : ∀ (l : List Out) (p : RtState × Npt), p.2.out <+: (l.foldl (hear c now) p).2.out := by
      intro l
      induction l with
      | nil => exact fun p => List.prefix_refl _
      | cons o os ih => exact fun p => (grows_hear c now p o).trans (ih _)
    exact key l (s.rt, s.npt)
  | scheduleCalc => exact List.prefix_refl _
  | calcTimer i db =>
    show s.npt.out <+: (calcTimer c s i db).npt.out
    unfold calcTimer
    split
    · exact List.prefix_refl _
    · split
      · exact List.prefix_refl _
      · exact grows_calculate c _ { s with rt := { s.rt with events := s.rt.events.eraseIdx i } }
  | rehash objs =>
    show s.npt.out <+: (if objs.isPerm s.npt.objs then { s.npt with objs := objs } else s.npt).out
    split <;> exact List.prefix_refl _
  | rehashNames pid names => exact List.prefix_refl _

/-- Operations of the LSDB that write nothing leave the tables as they are. -/
theorem lsdb_silent (c : CConf) (s : Core) (op : Lsdb.Op) (h : (Lsdb.step c.lsdb s.lsdb op).log = s.lsdb.log) :
    Core.step c s (.lsdb op) = ⟨Lsdb.step c.lsdb s.lsdb op, s.rt, s.npt⟩ := by
  show lsdbStep c s op = _
  unfold lsdbStep
  dsimp only
  rw [h, List.drop_length]
  rfl

theorem step_build (c : CConf) (s : Core) :
    Core.step c s (.lsdb .scheduleBuild) = ⟨Lsdb.scheduleBuild c.lsdb s.lsdb, s.rt, s.npt⟩ := by
  refine lsdb_silent c s _ ?_
  show (Lsdb.scheduleBuild c.lsdb s.lsdb).log = _
  unfold Lsdb.scheduleBuild
  split <;> rfl

theorem step_setAdjs (c : CConf) (s : Core) (l : AdjacencyList) :
    Core.step c s (.lsdb (.setAdjs l)) = ⟨{ s.lsdb with adjs := l }, s.rt, s.npt⟩ := lsdb_silent c s _ rfl

theorem step_clock (c : CConf) (s : Core) (dt : Nat) (sys : Int) :
    Core.step c s (.lsdb (.clock dt sys)) = ⟨Lsdb.step c.lsdb s.lsdb (.clock dt sys), s.rt, s.npt⟩ := lsdb_silent c s _ rfl

end Core
end Nlsr
