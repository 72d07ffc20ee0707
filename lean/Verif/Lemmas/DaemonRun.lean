import Verif.Lemmas.Daemon
import Verif.Lemmas.RouterInv
import Verif.Lemmas.Cmd
/- What the operations of the router do to its LSDB: operations of the LSDB. -/
namespace Nlsr
namespace Router

/-- Operations of the LSDB by which the hello protocol and the clock reach it. -/
def Minor : Lsdb.Op → Prop
  | .setAdjs _ => True
  | .scheduleBuild => True
  | .clock _ _ => True
  | _ => False

/-- From the one state to the other by operations of this kind. -/
def By (P : Lsdb.Op → Prop) (c : LConf) (s s' : Lsdb) : Prop := ∃ ops : List Lsdb.Op, (∀ o ∈ ops, P o) ∧ s' = ops.foldl (Lsdb.step c) s

theorem By.refl (P : Lsdb.Op → Prop) (c : LConf) (s : Lsdb) : By P c s s := ⟨[], by simp, rfl⟩

theorem By.trans {P : Lsdb.Op → Prop} {c : LConf} {s s' s'' : Lsdb} (h : By P c s s') (g : By P c s' s'') : By P c s s'' := by
  obtain ⟨a, ha, rfl⟩ := h
  obtain ⟨b, hb, rfl⟩ := g
  exact ⟨a ++ b, fun o ho => (List.mem_append.1 ho).elim (ha o) (hb o), by rw [List.foldl_append]⟩

theorem By.one {P : Lsdb.Op → Prop} {c : LConf} {s : Lsdb} {o : Lsdb.Op} (h : P o) : By P c s (Lsdb.step c s o) :=
  ⟨[o], by simpa using h, rfl⟩

theorem By.imp {P Q : Lsdb.Op → Prop} {c : LConf} {s s' : Lsdb} (h : By P c s s') (g : ∀ o, P o → Q o) : By Q c s s' := by
  obtain ⟨a, ha, rfl⟩ := h
  exact ⟨a, fun o ho => g o (ha o ho), rfl⟩

theorem By.folds {P : Lsdb.Op → Prop} {c : RConf} {α : Type} {f : Router → α → Router} (hf : ∀ s a, By P c.lsdb s.core.lsdb (f s a).core.lsdb) :
    ∀ (l : List α) (s : Router), By P c.lsdb s.core.lsdb (l.foldl f s).core.lsdb := by
  intro l
  induction l with
  | nil => exact fun s => By.refl _ _ _
  | cons a l ih => exact fun s => (hf s a).trans (ih _)

theorem apply_by (c : RConf) (s : Router) (o : NOut) : By Minor c.lsdb s.core.lsdb (apply c s o).core.lsdb := by
  cases o with
  | build =>
    have h := Core.step_lsdb c.core s.core (.lsdb .scheduleBuild)
    show By _ _ _ (Core.step c.core s.core (.lsdb .scheduleBuild)).lsdb
    rw [h]
    exact By.one (c := c.core.lsdb) (o := .scheduleBuild) trivial
  | «calc» =>
    have h := Core.step_lsdb c.core s.core .scheduleCalc
    show By _ _ _ (Core.step c.core s.core .scheduleCalc).lsdb
    rw [h]
    exact By.refl _ _ _
  | initial n =>
    show By _ _ _ (match AdjacencyList.find s.nbr.adjs n with
      | none => s
      | some a => s.register c c.syncPrefix a.uri a.linkCost).core.lsdb
    split
    · exact By.refl _ _ _
    · rw [(register_fib c s _ _ _).2.1]; exact By.refl _ _ _
  | register n u k =>
    show By _ _ _ (s.register c n u k).core.lsdb
    rw [(register_fib c s _ _ _).2.1]
    exact By.refl _ _ _
  | _ => exact By.refl _ _ _

theorem sync_by (c : RConf) (s : Router) : By Minor c.lsdb s.core.lsdb (sync c s).core.lsdb := by
  show By _ _ _ (Core.step c.core s.core (.lsdb (.setAdjs s.nbr.adjs))).lsdb
  rw [Core.step_lsdb]
  exact By.one (c := c.core.lsdb) (o := .setAdjs s.nbr.adjs) trivial

theorem nbrStep_by (c : RConf) (s : Router) (op : Nbr.Op) : By Minor c.lsdb s.core.lsdb (nbrStep c s op).core.lsdb := by
  unfold nbrStep
  dsimp only
  exact (sync_by c { s with nbr := Nbr.step c.nbr s.nbr op }).trans (By.folds (apply_by c) _ _)

theorem fibCmd_core (c : RConf) (s : Router) (x : FibCmd) : (fibCmd c s x).core = s.core := by cases x <;> rfl

theorem coreStep_by (c : RConf) (s : Router) (op : Core.Op) :
    By (fun o => Minor o ∨ op = .lsdb o) c.lsdb s.core.lsdb (coreStep c s op).core.lsdb := by
  unfold coreStep
  dsimp only
  have h1 : By (fun o => Minor o ∨ op = .lsdb o) c.lsdb s.core.lsdb (Core.step c.core s.core op).lsdb := by
    rw [Core.step_lsdb]
    cases op with
    | lsdb o => exact By.one (c := c.core.lsdb) (o := o) (Or.inr rfl)
    | _ => exact By.refl _ _ _
  refine By.trans (s' := (Core.step c.core s.core op).lsdb) h1 ?_
  refine By.trans (s' := (((Core.step c.core s.core op).npt.out.drop s.core.npt.out.length).foldl (fibCmd c)
    { s with core := Core.step c.core s.core op }).core.lsdb) ?_ ?_
  · exact By.folds (fun s a => by rw [fibCmd_core]; exact By.refl _ _ _) _ { s with core := Core.step c.core s.core op }
  · exact By.folds (fun s a => (nbrStep_by c s _).imp (fun _ h => Or.inl h)) _ _

/-- Every operation of the router does to the LSDB what some operations of the LSDB do, which are the given one or come from the hello
protocol and the clock. -/
theorem step_by (c : RConf) (s : Router) (op : Op) :
    By (fun o => Minor o ∨ op = .core (.lsdb o)) c.lsdb s.core.lsdb (step c s op).core.lsdb := by
  have hn : ∀ s o, By (fun o => Minor o ∨ op = .core (.lsdb o)) c.lsdb s.core.lsdb (nbrStep c s o).core.lsdb :=
    fun s o => (nbrStep_by c s o).imp (fun _ h => Or.inl h)
  unfold step
  split
  · exact By.refl _ _ _
  · cases op with
    | nbr o =>
      show By _ _ _ (if outsideNbr o then nbrStep c s o else s).core.lsdb
      split
      · exact hn s o
      · exact By.refl _ _ _
    | core o =>
      show By _ _ _ (if outsideCore o then coreStep c s o else s).core.lsdb
      split
      · refine (coreStep_by c s o).imp (fun x h => h.imp id (fun e => ?_))
        rw [e]
      · exact By.refl _ _ _
    | regOk i =>
      show By _ _ _ (regOk c s i).core.lsdb
      unfold regOk
      split
      · exact By.refl _ _ _
      · rename_i r _
        exact (hn { s with fib := Fib.step c.fib s.fib (.regOk i) } _).trans (hn _ _)
    | clock dt sys =>
      show By _ _ _ (Core.step c.core s.core (.lsdb (.clock dt sys))).lsdb
      rw [Core.step_lsdb]
      exact By.one (c := c.core.lsdb) (o := .clock dt sys) (Or.inl trivial)
    | _ => exact By.refl _ _ _

theorem init_by (c : RConf) (disk : Option Seqs) (adjs : AdjacencyList) (npl : List PrefixInfo) (sys : Int) :
    By Minor c.lsdb (Lsdb.init c.lsdb disk adjs npl sys) (init c disk adjs npl sys).core.lsdb := by
  unfold init
  dsimp only
  exact (sync_by c ⟨Nbr.init c.nbr adjs, Core.init c.core disk adjs npl sys, { adjs := adjs }, false⟩).trans
    (By.folds (apply_by c) _ _)

end Router
end Nlsr
