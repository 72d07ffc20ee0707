import Verif.Lemmas.Router
import Verif.Lemmas.LsdbKeep
/- What always holds of a router as a whole. -/
namespace Nlsr
namespace Router
open Adjacent (ident face place)
open Npt (lastCmd cmdName)
open Fib (hopsToAdd)

/-- States the daemon can be in. -/
def Reachable (c : RConf) (s : Router) : Prop :=
  ∃ disk adjs npl sys ops, Nbr.Fresh adjs ∧ s = run c (init c disk adjs npl sys) ops

theorem Reachable.step {c : RConf} {s : Router} (h : Reachable c s) (op : Op) : Reachable c (Router.step c s op) := by
  obtain ⟨d, a, n, y, ops, hf, rfl⟩ := h
  exact ⟨d, a, n, y, ops ++ [op], hf, by unfold run; rw [List.foldl_append]; rfl⟩

theorem Reachable.induct {c : RConf} {P : Router → Prop}
    (hinit : ∀ disk adjs npl sys, Nbr.Fresh adjs → P (Router.init c disk adjs npl sys))
    (hstep : ∀ s op, Reachable c s → P s → P (Router.step c s op)) {s : Router} (h : Reachable c s) : P s := by
  obtain ⟨d, a, n, y, ops, hf, rfl⟩ := h
  have key : ∀ ops : List Op, ∀ s, Reachable c s → P s → P (run c s ops) := by
    intro ops
    induction ops with
    | nil => intro s _ hp; exact hp
    | cons o os ih => intro s hr hp; exact ih _ (hr.step o) (hstep s o hr hp)
  exact key ops _ ⟨d, a, n, y, [], hf, rfl⟩ (hinit d a n y hf)

theorem fold_ind {α : Type} {P : Router → Prop} {f : Router → α → Router} (hf : ∀ s a, P s → P (f s a)) :
    ∀ (l : List α) {s : Router}, P s → P (l.foldl f s) := by
  intro l
  induction l with
  | nil => intro s h; exact h
  | cons a as ih => intro s h; exact ih (hf s a h)

/-- The hops a command asks the FIB for. -/
def want (c : FConf) : Option FibCmd → List Uri
  | some (.update _ l _) => (hopsToAdd c l).map (·.uri)
  | _ => []

/-- The FIB has what the last command for each name asked for. -/
def Shown (c : RConf) (out : List FibCmd) (s : Router) : Prop :=
  s.undef = false → (∀ n, FibCmd.updateBad n ∉ out) ∧ ∀ n, s.fib.adjs.isNeighbor n = false →
    ((Fib.hopsAt s.fib n).map (·.uri)).Perm (want c.fib (lastCmd out n))

/-- What holds of the parts at any moment. -/
structure Base (c : RConf) (s : Router) : Prop where
  nbr : Nbr.Reachable c.nbr s.nbr
  core : Core.Reachable c.core s.core
  fib : Fib.Reachable c.fib s.fib
  place : s.fib.adjs.map place = s.nbr.adjs.map place
  shown : Shown c s.core.npt.out s

/-- All parts see the same neighbours. -/
structure Synced (s : Router) : Prop where
  lsdb : s.core.lsdb.adjs = s.nbr.adjs
  fib : s.fib.adjs.map face = s.nbr.adjs.map face

theorem shown_fib {c : RConf} {out : List FibCmd} {s s' : Router} (h : Shown c out s) (hu : s'.undef = false → s.undef = false)
    (ht : s'.fib.table = s.fib.table) (hn : s'.fib.adjs.map (·.name) = s.fib.adjs.map (·.name)) : Shown c out s' := by
  intro h0
  refine ⟨(h (hu h0)).1, fun n hb => ?_⟩
  rw [hopsAt_congr (Fib.find_congr ht n)]
  rw [AdjacencyList.isNeighbor_congr hn] at hb
  exact (h (hu h0)).2 n hb

/-- The operations of the FIB that leave the table alone. -/
def tame : Fib.Op → Bool
  | .update .. | .remove _ | .refresh _ => false
  | _ => true

theorem tame_idle (c : FConf) (s : Fib) {op : Fib.Op} (h : tame op = true) : Fib.Idle s (Fib.step c s op) :=
  Fib.step_idle c s op (fun _ _ _ e => by rw [e] at h; cases h) (fun _ e => by rw [e] at h; cases h)
    (fun _ e => by rw [e] at h; cases h)

theorem Base.fibStep {c : RConf} {s : Router} (h : Base c s) {op : Fib.Op} (ht : tame op = true) :
    Base c { s with fib := Fib.step c.fib s.fib op } :=
  ⟨h.nbr, h.core, h.fib.step op, (Fib.step_place c.fib s.fib op).trans h.place,
   shown_fib h.shown id (tame_idle c.fib s.fib ht).table (tame_idle c.fib s.fib ht).names⟩

theorem Base.undefined {c : RConf} {s : Router} (h : Base c s) : Base c { s with undef := true } :=
  ⟨h.nbr, h.core, h.fib, h.place, fun h0 => by cases h0⟩

theorem Base.coreStep {c : RConf} {s : Router} (h : Base c s) {op : Core.Op}
    (ho : (Core.step c.core s.core op).npt.out = s.core.npt.out) :
    Base c { s with core := Core.step c.core s.core op } :=
  ⟨h.nbr, h.core.step op, h.fib, h.place, by
    show Shown c (Core.step c.core s.core op).npt.out _
    rw [ho]; exact h.shown⟩

theorem Base.register {c : RConf} {s : Router} (h : Base c s) (n : Name) (u : Uri) (k : Ext Rat) :
    Base c (s.register c n u k) := by
  unfold Router.register
  cases toU64 k with
  | none => exact h.undefined
  | some v => exact h.fibStep rfl

theorem Base.apply {c : RConf} {s : Router} (h : Base c s) (o : NOut) : Base c (Router.apply c s o) := by
  unfold Router.apply
  split
  · exact h.coreStep (by rw [Core.step_build])
  · exact h.coreStep rfl
  · split
    · exact h
    · exact h.register _ _ _
  · exact h.register _ _ _
  · exact h.fibStep rfl
  · exact h

theorem register_fib (c : RConf) (s : Router) (n : Name) (u : Uri) (k : Ext Rat) :
    (s.register c n u k).fib.adjs = s.fib.adjs ∧ (s.register c n u k).core = s.core ∧ (s.register c n u k).nbr = s.nbr := by
  unfold Router.register
  cases toU64 k with
  | none => exact ⟨rfl, rfl, rfl⟩
  | some v =>
    refine ⟨?_, rfl, rfl⟩
    show (s.fib.registerPrefix n u v forever Npt.capture).adjs = _
    rw [Fib.registerPrefix_eq]

theorem apply_same (c : RConf) (s : Router) (o : NOut) :
    (Router.apply c s o).nbr = s.nbr ∧ (Router.apply c s o).fib.adjs = s.fib.adjs ∧
    (Router.apply c s o).core.lsdb.adjs = s.core.lsdb.adjs := by
  unfold Router.apply
  split
  · refine ⟨rfl, rfl, ?_⟩
    rw [Core.step_build]
    show (Lsdb.scheduleBuild c.core.lsdb s.core.lsdb).adjs = _
    unfold Lsdb.scheduleBuild
    dsimp only
    split <;> rfl
  · exact ⟨rfl, rfl, rfl⟩
  · split
    · exact ⟨rfl, rfl, rfl⟩
    · have := register_fib c s c.syncPrefix ‹Adjacent›.uri ‹Adjacent›.linkCost
      exact ⟨this.2.2, this.1, by rw [this.2.1]⟩
  · have := register_fib c s ‹Name› ‹Uri› ‹Ext Rat›
    exact ⟨this.2.2, this.1, by rw [this.2.1]⟩
  · exact ⟨rfl, rfl, rfl⟩
  · exact ⟨rfl, rfl, rfl⟩

theorem Synced.apply {c : RConf} {s : Router} (h : Synced s) (o : NOut) : Synced (Router.apply c s o) := by
  have := apply_same c s o
  exact ⟨by rw [this.2.2, this.1]; exact h.lsdb, by rw [this.2.1, this.1]; exact h.fib⟩

theorem syncFaces_adjs (c : FConf) : ∀ (l : AdjacencyList) (f : Fib),
    (syncFaces c l f).adjs = l.foldl (fun A x => AdjacencyList.modify A x.name (fun a => { a with faceId := x.faceId })) f.adjs ∧
    (syncFaces c l f).table = f.table := by
  intro l
  induction l with
  | nil => intro f; exact ⟨rfl, rfl⟩
  | cons x xs ih =>
    intro f
    exact ih (Fib.step c f (.setFaceId x.name x.faceId))

theorem syncFaces_reachable {c : FConf} : ∀ (l : AdjacencyList) {f : Fib}, Fib.Reachable c f → Fib.Reachable c (syncFaces c l f) := by
  intro l
  induction l with
  | nil => intro f h; exact h
  | cons x xs ih => intro f h; exact ih (h.step _)

theorem syncFaces_place (c : FConf) : ∀ (l : AdjacencyList) (f : Fib), (syncFaces c l f).adjs.map place = f.adjs.map place := by
  intro l
  induction l with
  | nil => intro f; rfl
  | cons x xs ih => intro f; exact (ih _).trans (Fib.step_place c f _)

theorem Base.sync {c : RConf} {s : Router} (h : Base c s) : Base c (Router.sync c s) := by
  have hp := syncFaces_place c.fib s.nbr.adjs s.fib
  refine ⟨h.nbr, h.core.step (.lsdb (.setAdjs s.nbr.adjs)), syncFaces_reachable _ h.fib, hp.trans h.place, ?_⟩
  show Shown c (Core.step c.core s.core (.lsdb (.setAdjs s.nbr.adjs))).npt.out _
  rw [Core.step_setAdjs]
  exact shown_fib h.shown id (syncFaces_adjs c.fib s.nbr.adjs s.fib).2 (AdjacencyList.map_names_of_place hp)

theorem Base.synced {c : RConf} {s : Router} (h : Base c s) : Synced (Router.sync c s) := by
  refine ⟨?_, ?_⟩
  · show (Core.step c.core s.core (.lsdb (.setAdjs s.nbr.adjs))).lsdb.adjs = s.nbr.adjs
    rw [Core.step_setAdjs]
  · show (syncFaces c.fib s.nbr.adjs s.fib).adjs.map face = s.nbr.adjs.map face
    rw [(syncFaces_adjs c.fib s.nbr.adjs s.fib).1]
    exact AdjacencyList.fold_agrees h.nbr.ninv.nodup h.place

/-- What holds between operations. -/
structure All (c : RConf) (s : Router) : Prop where
  base : Base c s
  synced : Synced s

theorem All.apply {c : RConf} {s : Router} (h : All c s) (o : NOut) : All c (Router.apply c s o) :=
  ⟨h.base.apply o, h.synced.apply o⟩

theorem Base.nbrOnly {c : RConf} {s : Router} (h : Base c s) (op : Nbr.Op) :
    Base c { s with nbr := Nbr.step c.nbr s.nbr op } :=
  ⟨h.nbr.step op, h.core, h.fib, h.place.trans (Nbr.step_place c.nbr s.nbr op).symm, h.shown⟩

theorem Base.nbrStep {c : RConf} {s : Router} (h : Base c s) (op : Nbr.Op) : All c (Router.nbrStep c s op) := by
  unfold Router.nbrStep
  dsimp only
  exact fold_ind (fun s o (h : All c s) => h.apply o) _ ⟨(h.nbrOnly op).sync, (h.nbrOnly op).synced⟩

theorem shown_fibCmd {c : RConf} {out : List FibCmd} {s : Router} (hi : Fib.Inv s.fib) (h : Shown c out s) (o : FibCmd) :
    Shown c (out ++ [o]) (fibCmd c s o) := by
  cases o with
  | updateBad n => intro h0; cases h0
  | update n l fl =>
    intro h0
    refine ⟨fun k hk => ?_, fun m hm => ?_⟩
    · rcases List.mem_append.1 hk with hk | hk
      · exact (h h0).1 k hk
      · cases List.mem_singleton.1 hk
    have hm' : s.fib.adjs.isNeighbor m = false := by
      have := AdjacencyList.map_names_of_place (Fib.step_place c.fib s.fib (.update n l fl))
      exact (AdjacencyList.isNeighbor_congr this m).symm.trans hm
    rw [Npt.lastCmd_snoc]
    by_cases he : m = n
    · subst he
      rw [if_pos (by first | rfl | simp [cmdName])]
      exact (update_hops hi m hm' l fl).1
    · rw [if_neg (by first | (intro hc; exact he hc.symm) | (simp [cmdName]; exact fun hc => he hc.symm))]
      have hf : (Fib.step c.fib s.fib (.update n l fl)).find m = s.fib.find m := by
        show (s.fib.update c.fib n l fl).find m = _
        by_cases hw : hopsToAdd c.fib l = []
        · rw [Fib.update_empty c.fib s.fib n l fl hw]; exact (Fib.remove_eff s.fib n).same m he
        · exact (Fib.update_eff c.fib s.fib n l fl hw).same m he
      show ((Fib.hopsAt (Fib.step c.fib s.fib (.update n l fl)) m).map (·.uri)).Perm _
      rw [hopsAt_congr hf]
      exact (h h0).2 m hm'
  | remove n =>
    intro h0
    refine ⟨fun k hk => ?_, fun m hm => ?_⟩
    · rcases List.mem_append.1 hk with hk | hk
      · exact (h h0).1 k hk
      · cases List.mem_singleton.1 hk
    have hm' : s.fib.adjs.isNeighbor m = false := by
      have := AdjacencyList.map_names_of_place (Fib.step_place c.fib s.fib (.remove n))
      exact (AdjacencyList.isNeighbor_congr this m).symm.trans hm
    rw [Npt.lastCmd_snoc]
    by_cases he : m = n
    · subst he
      rw [if_pos (by first | rfl | simp [cmdName])]
      show ((Fib.hopsAt (s.fib.remove m) m).map (·.uri)).Perm []
      unfold Fib.hopsAt
      rw [(Fib.remove_eff s.fib m).here, hm']
      exact List.Perm.refl _
    · rw [if_neg (by first | (intro hc; exact he hc.symm) | (simp [cmdName]; exact fun hc => he hc.symm))]
      show ((Fib.hopsAt (s.fib.remove n) m).map (·.uri)).Perm _
      rw [hopsAt_congr ((Fib.remove_eff s.fib n).same m he)]
      exact (h h0).2 m hm'

/-- The FIB's part of a step of the other tables. -/
structure FibBase (c : RConf) (A : AdjacencyList) (out : List FibCmd) (s : Router) : Prop where
  fib : Fib.Reachable c.fib s.fib
  adjs : s.fib.adjs = A
  shown : Shown c out s

theorem FibBase.cmd {c : RConf} {A : AdjacencyList} {out : List FibCmd} {s : Router} (h : FibBase c A out s) (o : FibCmd) :
    FibBase c A (out ++ [o]) (fibCmd c s o) := by
  refine ⟨?_, ?_, shown_fibCmd h.fib.inv h.shown o⟩
  · cases o with
    | updateBad n => exact h.fib
    | update n l fl => exact h.fib.step (.update n l fl)
    | remove n => exact h.fib.step (.remove n)
  · cases o with
    | updateBad n => exact h.adjs
    | update n l fl =>
      refine Eq.trans ?_ h.adjs
      show (s.fib.update c.fib n l fl).adjs = _
      by_cases hw : hopsToAdd c.fib l = []
      · rw [Fib.update_empty c.fib s.fib n l fl hw, (Fib.remove_eff s.fib n).adjs]
      · rw [(Fib.update_eff c.fib s.fib n l fl hw).adjs]
    | remove n => exact ((Fib.remove_eff s.fib n).adjs).trans h.adjs

theorem FibBase.cmds {c : RConf} {A : AdjacencyList} : ∀ (l : List FibCmd) {out : List FibCmd} {s : Router}, FibBase c A out s →
    FibBase c A (out ++ l) (l.foldl (fibCmd c) s) := by
  intro l
  induction l with
  | nil => intro out s h; rw [List.append_nil]; exact h
  | cons o os ih =>
    intro out s h
    have := ih (h.cmd o)
    rw [List.append_assoc] at this
    exact this

theorem fibCmd_same (c : RConf) (s : Router) (o : FibCmd) : (fibCmd c s o).nbr = s.nbr ∧ (fibCmd c s o).core = s.core := by
  cases o <;> exact ⟨rfl, rfl⟩

theorem fibCmds_same (c : RConf) : ∀ (l : List FibCmd) (s : Router),
    (l.foldl (fibCmd c) s).nbr = s.nbr ∧ (l.foldl (fibCmd c) s).core = s.core := by
  intro l
  induction l with
  | nil => intro s; exact ⟨rfl, rfl⟩
  | cons o os ih =>
    intro s
    exact ⟨(ih _).1.trans (fibCmd_same c s o).1, (ih _).2.trans (fibCmd_same c s o).2⟩

/-- The state after the FIB was told, before `onNewLsa` is heard. -/
def told (c : RConf) (s : Router) (op : Core.Op) : Router :=
  let d := Core.step c.core s.core op
  (d.npt.out.drop s.core.npt.out.length).foldl (fibCmd c) { s with core := d }

theorem coreStep_told (c : RConf) (s : Router) (op : Core.Op) : Router.coreStep c s op =
    (newOrigins ((Core.step c.core s.core op).lsdb.log.drop s.core.lsdb.log.length)).foldl
      (fun s r => nbrStep c s (.newLsa r)) (told c s op) := rfl

theorem told_same (c : RConf) (s : Router) (op : Core.Op) :
    (told c s op).nbr = s.nbr ∧ (told c s op).core = Core.step c.core s.core op := by
  unfold told
  dsimp only
  exact fibCmds_same c _ _

theorem told_base {c : RConf} {s : Router} (h : Base c s) (op : Core.Op) :
    Base c (told c s op) ∧ (told c s op).fib.adjs = s.fib.adjs := by
  have hg : s.core.npt.out ++ (Core.step c.core s.core op).npt.out.drop s.core.npt.out.length =
      (Core.step c.core s.core op).npt.out := by
    obtain ⟨t, ht⟩ := Core.grows_step c.core s.core op
    rw [← ht]; simp
  have hf : FibBase c s.fib.adjs s.core.npt.out { s with core := Core.step c.core s.core op } := ⟨h.fib, rfl, h.shown⟩
  have hf := hf.cmds ((Core.step c.core s.core op).npt.out.drop s.core.npt.out.length)
  rw [hg] at hf
  have hs := told_same c s op
  refine ⟨⟨by rw [hs.1]; exact h.nbr, by rw [hs.2]; exact h.core.step op, hf.fib, ?_, ?_⟩, hf.adjs⟩
  · rw [hs.1]; exact (congrArg (List.map place) hf.adjs).trans h.place
  · rw [hs.2]; exact hf.shown

theorem lsdb_adjs {c : LConf} {s : Lsdb} (op : Lsdb.Op) (h : ∀ l, op ≠ .setAdjs l) :
    (Lsdb.step c s op).adjs = s.adjs := by
  by_cases hs : Lsdb.Op.special op = false
  · exact (Lsdb.step_keep c s op hs).adjs
  · cases op with
    | setAdjs l => exact absurd rfl (h l)
    | setNpl l => rfl
    | scheduleBuild =>
      show (Lsdb.scheduleBuild c s).adjs = _
      unfold Lsdb.scheduleBuild
      dsimp only
      split <;> rfl
    | buildTimer =>
      show (Lsdb.buildTimer c s).adjs = _
      unfold Lsdb.buildTimer
      split
      · rfl
      · split
        · rfl
        · exact (Lsdb.buildAdjLsa_spec c s).1
    | interest n v =>
      obtain ⟨f, l, e⟩ := Lsdb.step_interest c s n v
      rw [e]
    | fifoGone n => rfl
    | _ => exact absurd rfl hs

theorem core_adjs {c : CConf} {s : Core} (op : Core.Op) (h : outsideCore op = true) :
    (Core.step c s op).lsdb.adjs = s.lsdb.adjs := by
  rw [Core.step_lsdb]
  cases op with
  | lsdb o => exact lsdb_adjs o (fun l e => by subst e; cases h)
  | _ => rfl

theorem All.told {c : RConf} {s : Router} (h : All c s) (op : Core.Op) (ho : outsideCore op = true) : All c (told c s op) := by
  have hb := told_base h.base op
  have hs := told_same c s op
  exact ⟨hb.1, by rw [hs.2, hs.1, core_adjs op ho]; exact h.synced.lsdb, by rw [hb.2, hs.1]; exact h.synced.fib⟩

theorem All.coreStep {c : RConf} {s : Router} (h : All c s) (op : Core.Op) (ho : outsideCore op = true) :
    All c (Router.coreStep c s op) := by
  rw [coreStep_told]
  exact fold_ind (fun s r (h : All c s) => h.base.nbrStep _) _ (h.told op ho)

theorem refresh_hops (c : FConf) (s : Fib) (n m : Name) :
    Fib.hopsAt (s.refresh c n) m = Fib.hopsAt s m ∧ (s.refresh c n).adjs = s.adjs := by
  cases hf : s.find n with
  | none => unfold Fib.refresh; rw [hf]; exact ⟨rfl, rfl⟩
  | some e =>
    cases hr : e.refresh with
    | none => unfold Fib.refresh; rw [hf]; dsimp only; rw [hr]; exact ⟨rfl, rfl⟩
    | some p =>
      obtain ⟨due, fl⟩ := p
      by_cases hd : s.now < due
      · unfold Fib.refresh; rw [hf]; dsimp only; rw [hr]; dsimp only; rw [if_pos hd]; exact ⟨rfl, rfl⟩
      · have he := Fib.refresh_eff c s n hf hr (by omega)
        refine ⟨?_, he.adjs⟩
        by_cases hm : m = n
        · subst hm
          unfold Fib.hopsAt
          rw [he.here, hf]
        · exact hopsAt_congr (he.same m hm)

theorem All.fibStep {c : RConf} {s : Router} (h : All c s) {op : Fib.Op} (ht : tame op = true)
    (ha : (Fib.step c.fib s.fib op).adjs = s.fib.adjs) : All c { s with fib := Fib.step c.fib s.fib op } :=
  ⟨h.base.fibStep ht, ⟨h.synced.lsdb, (congrArg (List.map face) ha).trans h.synced.fib⟩⟩

theorem All.refresh {c : RConf} {s : Router} (h : All c s) (n : Name) :
    All c { s with fib := Fib.step c.fib s.fib (.refresh n) } := by
  have ha : (Fib.step c.fib s.fib (.refresh n)).adjs = s.fib.adjs := (refresh_hops c.fib s.fib n n).2
  refine ⟨⟨h.base.nbr, h.base.core, h.base.fib.step (.refresh n), (congrArg (List.map place) ha).trans h.base.place, ?_⟩,
    ⟨h.synced.lsdb, (congrArg (List.map face) ha).trans h.synced.fib⟩⟩
  intro h0
  refine ⟨(h.base.shown h0).1, fun m hm => ?_⟩
  show ((Fib.hopsAt (s.fib.refresh c.fib n) m).map (·.uri)).Perm _
  rw [(refresh_hops c.fib s.fib n m).1]
  exact (h.base.shown h0).2 m (by rw [← ha]; exact hm)

theorem All.step {c : RConf} {s : Router} (h : All c s) (op : Op) : All c (Router.step c s op) := by
  unfold Router.step
  split
  · exact h
  · cases op with
    | nbr op =>
      show All c (if outsideNbr op then Router.nbrStep c s op else s)
      split
      · exact h.base.nbrStep op
      · exact h
    | core op =>
      show All c (if outsideCore op then Router.coreStep c s op else s)
      split
      · exact h.coreStep op ‹_›
      · exact h
    | regOk i =>
      show All c (Router.regOk c s i)
      unfold Router.regOk
      cases s.fib.regs[i]? with
      | none => exact h
      | some r =>
        have h1 : Base c { s with fib := Fib.step c.fib s.fib (.regOk i) } := h.base.fibStep rfl
        exact (h1.nbrStep _).base.nbrStep _
    | regFail i =>
      refine h.fibStep rfl ?_
      show (s.fib.regFail i).adjs = _
      unfold Fib.regFail
      split
      · rfl
      · dsimp only
        split
        · unfold Fib.send; dsimp only; split <;> rfl
        · rfl
    | stratOk i => exact h.fibStep rfl rfl
    | stratFail i =>
      refine h.fibStep rfl ?_
      show (s.fib.stratFail i).adjs = _
      unfold Fib.stratFail
      split
      · rfl
      · dsimp only; split <;> rfl
    | refresh n => exact h.refresh n
    | clock dt sys =>
      have h1 : All c { s with fib := Fib.step c.fib s.fib (.clock dt) } := h.fibStep rfl rfl
      have h2 : Base c { s with fib := Fib.step c.fib s.fib (.clock dt), core := Core.step c.core s.core (.lsdb (.clock dt sys)) } :=
        h1.base.coreStep (by rw [Core.step_clock])
      have ha : (Nbr.step c.nbr s.nbr (.clock dt)).adjs = s.nbr.adjs := by unfold Nbr.step; split <;> rfl
      refine ⟨h2.nbrOnly (.clock dt), ⟨?_, ?_⟩⟩
      · show s.core.lsdb.adjs = (Nbr.step c.nbr s.nbr (.clock dt)).adjs
        rw [ha]; exact h.synced.lsdb
      · show s.fib.adjs.map face = (Nbr.step c.nbr s.nbr (.clock dt)).adjs.map face
        rw [ha]; exact h.synced.fib

theorem hopsAt_new (adjs : AdjacencyList) (n : Name) : Fib.hopsAt { adjs := adjs } n = [] := rfl

theorem All.init (c : RConf) (disk : Option Seqs) {adjs : AdjacencyList} (npl : List PrefixInfo) (sys : Int)
    (hf : Nbr.Fresh adjs) : All c (Router.init c disk adjs npl sys) := by
  unfold Router.init
  dsimp only
  have h0 : Base c ⟨Nbr.init c.nbr adjs, Core.init c.core disk adjs npl sys, { adjs := adjs }, false⟩ := by
    refine ⟨⟨adjs, [], hf, rfl⟩, Core.Reachable.init .., ⟨adjs, [], rfl⟩, ?_, fun _ => ⟨fun _ hk => (by cases hk), fun n _ => ?_⟩⟩
    · show adjs.map place = (Nbr.init c.nbr adjs).adjs.map place
      have := congrArg (List.map (fun p : Name × Uri × Status × Nat × Nat => (p.1, p.2.1))) (Nbr.init_adjs c.nbr adjs)
      rw [List.map_map, List.map_map] at this
      exact this.symm
    · exact List.Perm.refl _
  exact fold_ind (fun s o (h : All c s) => h.apply o) _ ⟨h0.sync, h0.synced⟩

theorem Reachable.all {c : RConf} {s : Router} (h : Reachable c s) : All c s :=
  h.induct (fun d _ n y hf => All.init c d n y hf) (fun _ op _ hs => hs.step op)

end Router
end Nlsr
