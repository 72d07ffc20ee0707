import Verif.Props.PutOff
/- C125: within what time the router's claims are right again after the last change of a neighbour's status. -/
namespace Nlsr
open AdjacencyList

theorem Lsdb.step_still (c : LConf) (s : Lsdb) (op : Lsdb.Op) (h : ∀ dt sys, op ≠ .clock dt sys) : (Lsdb.step c s op).now = s.now := by
  rcases Lsdb.step_one c s op with ⟨eid, rfl⟩ | ⟨dt, sys, rfl⟩ | ⟨s1, s2, h1, h2, h3⟩
  · show (Lsdb.fire c s eid).now = s.now
    unfold Lsdb.fire
    split
    · rfl
    · split
      · rfl
      · split
        · rfl
        · unfold Lsdb.expireOrRefresh
          split
          · rfl
          · split
            · split
              · rfl
              · exact (Lsdb.removeLsa_sig _ _ _).now
            · rfl
  · exact absurd rfl (h dt sys)
  · have : s2.now = s1.now := by
      cases h2 with
      | none => rfl
      | install l h => exact (Lsdb.installLsa_sig c s1 l).now
      | removeOwn h => exact (Lsdb.removeLsa_sig s1 _ _).now
    rw [h3.now, this, h1.now]

namespace Router

/-- How often a build (or, with hyperbolic routing, a calculation) was asked for because a neighbour's status changed. -/
def asked (s : Router) : Nat := (s.nbr.out.filter Nbr.isRebuild).length

/-- Time stands still, and the pending build is the same unless another was asked for. -/
structure Calm (s s' : Router) : Prop where
  le : asked s ≤ asked s'
  now : s'.core.lsdb.now = s.core.lsdb.now
  due : asked s' = asked s → s'.core.lsdb.buildDue = s.core.lsdb.buildDue

theorem Calm.refl (s : Router) : Calm s s := ⟨Nat.le_refl _, rfl, fun _ => rfl⟩

theorem Calm.trans {a b d : Router} (h : Calm a b) (h' : Calm b d) : Calm a d :=
  ⟨Nat.le_trans h.le h'.le, h'.now.trans h.now, fun e => by
    have := h.le; have := h'.le
    exact (h'.due (by omega)).trans (h.due (by omega))⟩

theorem apply_due (c : RConf) (s : Router) (o : NOut) :
    (apply c s o).core.lsdb.now = s.core.lsdb.now ∧
    (o ≠ .build → (apply c s o).core.lsdb.buildDue = s.core.lsdb.buildDue) := by
  unfold Router.apply
  split
  · rw [Core.step_build]
    refine ⟨?_, fun h => absurd rfl h⟩
    show (Lsdb.scheduleBuild c.core.lsdb s.core.lsdb).now = _
    unfold Lsdb.scheduleBuild
    dsimp only
    split <;> rfl
  · exact ⟨rfl, fun _ => rfl⟩
  · split
    · exact ⟨rfl, fun _ => rfl⟩
    · rw [(register_fib c s _ _ _).2.1]
      exact ⟨rfl, fun _ => rfl⟩
  · rw [(register_fib c s _ _ _).2.1]
    exact ⟨rfl, fun _ => rfl⟩
  · exact ⟨rfl, fun _ => rfl⟩
  · exact ⟨rfl, fun _ => rfl⟩

theorem applies_due (c : RConf) : ∀ (l : List NOut) (s : Router),
    (l.foldl (apply c) s).core.lsdb.now = s.core.lsdb.now ∧
    (NOut.build ∉ l → (l.foldl (apply c) s).core.lsdb.buildDue = s.core.lsdb.buildDue) := by
  intro l
  induction l with
  | nil => exact fun _ => ⟨rfl, fun _ => rfl⟩
  | cons o os ih =>
    intro s
    obtain ⟨h1, h2⟩ := apply_due c s o
    obtain ⟨h3, h4⟩ := ih (apply c s o)
    exact ⟨h3.trans h1, fun h => (h4 (fun hm => h (List.mem_cons_of_mem _ hm))).trans
      (h2 (fun e => h (by rw [e]; exact List.mem_cons_self)))⟩

theorem nbrStep_calm {c : RConf} (hrr : c.nbr.retry < 4294967296) {s : Router} (hn : Nbr.Reachable c.nbr s.nbr) (op : Nbr.Op) :
    Calm s (Router.nbrStep c s op) := by
  obtain ⟨o, ho, -⟩ := C43_rebuild (c := c.nbr) hrr hn op
  have ha : asked (Router.nbrStep c s op) = asked s + (o.filter Nbr.isRebuild).length := by
    unfold asked
    rw [nbrStep_nbr, ho, List.filter_append, List.length_append]
  have e0 : (Router.sync c { s with nbr := Nbr.step c.nbr s.nbr op }).core.lsdb =
      { s.core.lsdb with adjs := (Nbr.step c.nbr s.nbr op).adjs } := by
    unfold Router.sync
    dsimp only
    rw [Core.step_setAdjs]
  have hs : Router.nbrStep c s op = o.foldl (apply c) (Router.sync c { s with nbr := Nbr.step c.nbr s.nbr op }) := by
    unfold Router.nbrStep
    dsimp only
    rw [ho, List.drop_left]
  obtain ⟨h1, h2⟩ := applies_due c o (Router.sync c { s with nbr := Nbr.step c.nbr s.nbr op })
  rw [← hs, e0] at h1 h2
  refine ⟨by omega, h1, fun e => h2 (fun hm => ?_)⟩
  have : 0 < (o.filter Nbr.isRebuild).length := List.length_pos_of_mem (List.mem_filter.2 ⟨hm, rfl⟩)
  omega

theorem newLsas_calm {c : RConf} (hrr : c.nbr.retry < 4294967296) (l : List Name) : ∀ {s : Router}, Nbr.Reachable c.nbr s.nbr →
    Calm s (l.foldl (fun s r => nbrStep c s (.newLsa r)) s) := by
  induction l with
  | nil => exact fun _ => Calm.refl _
  | cons r rs ih =>
    intro s hn
    refine (nbrStep_calm hrr hn (.newLsa r)).trans (ih ?_)
    rw [nbrStep_nbr]
    exact hn.step _

theorem told_calm {c : RConf} (s : Router) (op : Core.Op) (ho : outsideCore op = true) (hb : op ≠ .lsdb .buildTimer) :
    Calm s (told c s op) := by
  obtain ⟨h1, h2⟩ := told_same c s op
  have hl : (told c s op).core.lsdb = _ := (congrArg Core.lsdb h2).trans (Core.step_lsdb c.core s.core op)
  refine ⟨by unfold asked; rw [h1]; exact Nat.le_refl _, ?_, fun _ => ?_⟩
  · rw [hl]
    cases op with
    | lsdb o => exact Lsdb.step_still c.core.lsdb _ o (fun dt sys e => by subst e; cases ho)
    | _ => rfl
  · rw [hl]
    cases op with
    | lsdb o =>
      by_cases hs : Lsdb.Op.special o = false
      · exact (Lsdb.step_keep c.core.lsdb _ o hs).buildDue
      · cases o with
        | setAdjs l => cases ho
        | setNpl l => rfl
        | scheduleBuild => cases ho
        | buildTimer => exact absurd rfl hb
        | interest n v =>
          obtain ⟨f, l, e⟩ := Lsdb.step_interest c.core.lsdb s.core.lsdb n v
          show (Lsdb.step c.core.lsdb s.core.lsdb (.interest n v)).buildDue = _
          rw [e]
        | fifoGone n => rfl
        | _ => exact absurd rfl hs
    | _ => rfl

theorem step_calm {c : RConf} (hrr : c.nbr.retry < 4294967296) {s : Router} (hr : Reachable c s) (op : Op)
    (hb : op ≠ .core (.lsdb .buildTimer)) (hc : ∀ dt sys, op ≠ .clock dt sys) : Calm s (Router.step c s op) := by
  have hn := hr.all.base.nbr
  unfold Router.step
  split
  · exact Calm.refl _
  · cases op with
    | nbr op =>
      show Calm s (if outsideNbr op then Router.nbrStep c s op else s)
      split
      · exact nbrStep_calm hrr hn op
      · exact Calm.refl _
    | core op =>
      show Calm s (if outsideCore op then Router.coreStep c s op else s)
      split
      · rename_i ho
        rw [coreStep_told]
        refine (told_calm s op ho (fun e => hb (by rw [e]))).trans (newLsas_calm hrr _ ?_)
        rw [(told_same c s op).1]
        exact hn
      · exact Calm.refl _
    | regOk i =>
      show Calm s (Router.regOk c s i)
      unfold Router.regOk
      cases s.fib.regs[i]? with
      | none => exact Calm.refl _
      | some r =>
        have h0 : Calm s { s with fib := Fib.step c.fib s.fib (.regOk i) } := ⟨Nat.le_refl _, rfl, fun _ => rfl⟩
        refine h0.trans ((nbrStep_calm hrr (s := { s with fib := Fib.step c.fib s.fib (.regOk i) }) hn _).trans (nbrStep_calm hrr ?_ _))
        rw [nbrStep_nbr]
        exact hn.step _
    | clock dt sys => exact absurd rfl (hc dt sys)
    | _ => exact ⟨Nat.le_refl _, rfl, fun _ => rfl⟩

end Router
open Router (Along asked)

/-- Some neighbour is ACTIVE, or all have missed as many hellos as they may. -/
def Settled (c : RConf) (s : Router) : Prop :=
  (∃ a ∈ s.nbr.adjs, a.status = .active) ∨ ∀ a ∈ s.nbr.adjs, c.lsdb.retry ≤ a.timedOut

/-- The event loop does not let a pending build wait. -/
def InTime (s : Router) : Router.Op → Prop
  | .clock dt _ => ∀ d ∈ s.core.lsdb.buildDue, s.core.lsdb.now + dt ≤ d
  | _ => True

/-- A pending build is not overdue, and due by `D`. -/
def DueBy (D : Nat) (s : Router) : Prop := ∀ d, s.core.lsdb.buildDue = some d → s.core.lsdb.now ≤ d ∧ d ≤ D

theorem DueBy.timer {c : RConf} (hrr : c.nbr.retry < 4294967296) {D : Nat} {s : Router} (hr : Router.Reachable c s) (h : DueBy D s)
    (hset : Settled c s) (hask : asked (Router.step c s (.core (.lsdb .buildTimer))) = asked s) :
    DueBy D (Router.step c s (.core (.lsdb .buildTimer))) := by
  cases he : s.ended with
  | true =>
    have : Router.step c s (.core (.lsdb .buildTimer)) = s := if_pos he
    rw [this]; exact h
  | false =>
    have hst : Router.step c s (.core (.lsdb .buildTimer)) = Router.coreStep c s (.lsdb .buildTimer) := if_neg (by rw [he]; nofun)
    rw [hst, Router.coreStep_told] at hask ⊢
    have hs := Router.told_same c s (.lsdb .buildTimer)
    have hl : (Router.told c s (.lsdb .buildTimer)).core.lsdb = Lsdb.step c.lsdb s.core.lsdb .buildTimer :=
      (congrArg Core.lsdb hs.2).trans (Core.step_lsdb c.core s.core _)
    have hcalm := Router.newLsas_calm hrr (Router.newOrigins ((Core.step c.core s.core (.lsdb .buildTimer)).lsdb.log.drop s.core.lsdb.log.length))
      (s := Router.told c s (.lsdb .buildTimer)) (by rw [hs.1]; exact hr.all.base.nbr)
    have ha : asked (Router.told c s (.lsdb .buildTimer)) = asked s := by unfold asked; rw [hs.1]
    intro d hd
    rw [hcalm.due (by rw [hask, ha]), hl] at hd
    rw [hcalm.now, hl, Lsdb.step_still c.lsdb _ .buildTimer (fun _ _ h => nomatch h)]
    change (Lsdb.buildTimer c.lsdb s.core.lsdb).buildDue = some d at hd
    unfold Lsdb.buildTimer at hd
    cases hq : s.core.lsdb.buildDue with
    | none => rw [hq] at hd; dsimp only at hd; rw [hq] at hd; cases hd
    | some q =>
      rw [hq] at hd
      dsimp only at hd
      by_cases hlt : s.core.lsdb.now < q
      · rw [if_pos hlt] at hd; exact h d hd
      · rw [if_neg hlt] at hd
        have hb : isAdjLsaBuildable s.core.lsdb.adjs c.lsdb.retry = true := by
          rw [hr.all.synced.lsdb]; exact (C47_buildable_partial _ _).1.2 hset
        have := (Lsdb.buildAdjLsa_spec c.lsdb s.core.lsdb).2.2.2.2
        rw [if_pos hb] at this
        rw [this.2.1] at hd
        cases hd

theorem DueBy.step {c : RConf} (hrr : c.nbr.retry < 4294967296) {D : Nat} {s : Router} (hr : Router.Reachable c s) (h : DueBy D s)
    {op : Router.Op} (hset : Settled c s) (hin : InTime s op) (hask : asked (Router.step c s op) = asked s) :
    DueBy D (Router.step c s op) := by
  by_cases hb : op = .core (.lsdb .buildTimer)
  · subst hb; exact h.timer hrr hr hset hask
  · by_cases hc : ∃ dt sys, op = .clock dt sys
    · obtain ⟨dt, sys, rfl⟩ := hc
      cases he : s.ended with
      | true =>
        have : Router.step c s (.clock dt sys) = s := if_pos he
        rw [this]; exact h
      | false =>
        have hst : Router.step c s (.clock dt sys) = Router.stepOp c s (.clock dt sys) := if_neg (by rw [he]; nofun)
        have e1 : (Router.step c s (.clock dt sys)).core.lsdb = { s.core.lsdb with now := s.core.lsdb.now + dt, sys := sys } := by
          rw [hst]
          show (Core.step c.core s.core (.lsdb (.clock dt sys))).lsdb = _
          rw [Core.step_lsdb]
          rfl
        unfold DueBy
        rw [e1]
        intro d hd
        exact ⟨hin d hd, (h d hd).2⟩
    · have hcalm := Router.step_calm hrr hr op hb (fun dt sys e => hc ⟨dt, sys, e⟩)
      intro d hd
      rw [hcalm.due hask] at hd
      rw [hcalm.now]
      exact h d hd

/-- C125 within what time: once no neighbour's status changes any more, some neighbour is ACTIVE or all have missed as many
hellos as they may, and the event loop does not let a due build wait, then after adj-lsa-build-interval, or hello-retries times
hello-timeout if that is longer, no build is pending and the router claims exactly its ACTIVE neighbours: every dead link is
withdrawn and every new one announced, whatever else happens in between.  Missing: builds put off because some neighbour
has not missed enough hellos (`C125_violated_for_ever`), and further changes, each of which starts the interval anew. -/
theorem C125_bounded_partial {c : RConf} (hrr : c.nbr.retry < 4294967296) {s : Router} (hr : Router.Reachable c s)
    (h0 : ∀ d, s.core.lsdb.buildDue = some d → s.core.lsdb.now ≤ d) {ops : List Router.Op}
    (hops : Along c (fun t o => Settled c t ∧ InTime t o ∧ asked (Router.step c t o) = asked t) s ops)
    (ht : s.core.lsdb.now + max c.lsdb.build (c.lsdb.retry * c.lsdb.resend) * 1000000000 < (Router.run c s ops).core.lsdb.now)
    (htr : Router.Trusted c (Router.run c s ops)) (hh : c.lsdb.hyp ≠ .on) (hre : c.lsdb.retry < 2 ^ 32)
    (hw : Out.publish .adjacency 0 ∉ (Router.run c s ops).core.lsdb.log) :
    (Router.run c s ops).core.lsdb.buildDue = none ∧
    ∀ n u k, Claims c.lsdb.router (Router.run c s ops) n u k ↔ LinkUp (Router.run c s ops) n u k := by
  have key : ∀ (D : Nat) (ops : List Router.Op) {s : Router}, Router.Reachable c s → DueBy D s →
      Along c (fun t o => Settled c t ∧ InTime t o ∧ asked (Router.step c t o) = asked t) s ops → DueBy D (Router.run c s ops) := by
    intro D ops
    induction ops with
    | nil => exact fun _ h _ => h
    | cons op ops ih => exact fun hr h ha => ih (hr.step op) (h.step hrr hr ha.1.1 ha.1.2.1 ha.1.2.2) ha.2
  have hnone : (Router.run c s ops).core.lsdb.buildDue = none := by
    cases hd : (Router.run c s ops).core.lsdb.buildDue with
    | none => rfl
    | some d =>
      have := key _ ops hr (fun d hd => ⟨h0 d hd, C84_soon hr d hd⟩) hops d hd
      omega
  exact ⟨hnone, C84_links_partial htr hh hre hw hnone⟩

open Router (Outside step_project)
open Nbr (Answers RealFaces Always answers_keeps)

theorem held_run {c : NConf} (hrr : c.retry < 4294967296) {n : Name} (ops : List Nbr.Op) : ∀ {s : Nbr}, Nbr.Reachable c s →
    (∃ a, find s.adjs n = some a ∧ a.faceId ≠ 0 ∧ a.status = .active) → Always c (fun t o => Answers c n t o ∧ RealFaces o) s ops →
    ∃ a, find (Nbr.run c s ops).adjs n = some a ∧ a.faceId ≠ 0 ∧ a.status = .active := by
  induction ops with
  | nil => exact fun _ h _ => h
  | cons op ops ih =>
    rintro s hr ⟨a, hf, hfid, hs⟩ hans
    obtain ⟨a', h1, h2, h3⟩ := answers_keeps hr hrr hans.1.1 hans.1.2 hf hfid
    exact ih (hr.step op) ⟨a', h1, h2, h3 hs⟩ hans.2

/-- C125 where somebody answers: as long as one neighbour that is ACTIVE answers its hellos, no build is put off, so once the
statuses change no more and the event loop does not let a due build wait, after adj-lsa-build-interval, or hello-retries times
hello-timeout if that is longer, the router claims exactly its ACTIVE neighbours, that one among them.  Missing, as in
`C125_bounded_partial`: further changes, each of which starts the interval anew. -/
theorem C125_answering_partial {c : RConf} (hrr : c.nbr.retry < 4294967296) {s : Router} (hr : Router.Reachable c s)
    (h0 : ∀ d, s.core.lsdb.buildDue = some d → s.core.lsdb.now ≤ d)
    {m : Name} {a : Adjacent} (hf : find s.nbr.adjs m = some a) (hface : a.faceId ≠ 0) (hact : a.status = .active)
    {ops : List Router.Op}
    (hops : Along c (fun t o => Outside (fun t o => Answers c.nbr m t o ∧ RealFaces o) t o ∧ InTime t o ∧
      asked (Router.step c t o) = asked t) s ops)
    (ht : s.core.lsdb.now + max c.lsdb.build (c.lsdb.retry * c.lsdb.resend) * 1000000000 < (Router.run c s ops).core.lsdb.now)
    (htr : Router.Trusted c (Router.run c s ops)) (hh : c.lsdb.hyp ≠ .on) (hre : c.lsdb.retry < 2 ^ 32)
    (hw : Out.publish .adjacency 0 ∉ (Router.run c s ops).core.lsdb.log) :
    (∀ n u k, Claims c.lsdb.router (Router.run c s ops) n u k ↔ LinkUp (Router.run c s ops) n u k) ∧
    ∃ b, find (Router.run c s ops).nbr.adjs m = some b ∧ Claims c.lsdb.router (Router.run c s ops) m b.uri b.cost := by
  have key : ∀ (ops : List Router.Op) {s : Router}, Router.Reachable c s →
      (∃ a, find s.nbr.adjs m = some a ∧ a.faceId ≠ 0 ∧ a.status = .active) →
      Along c (fun t o => Outside (fun t o => Answers c.nbr m t o ∧ RealFaces o) t o ∧ InTime t o ∧
        asked (Router.step c t o) = asked t) s ops →
      Along c (fun t o => Settled c t ∧ InTime t o ∧ asked (Router.step c t o) = asked t) s ops ∧
      ∃ a, find (Router.run c s ops).nbr.adjs m = some a ∧ a.faceId ≠ 0 ∧ a.status = .active := by
    intro ops
    induction ops with
    | nil => exact fun _ h _ => ⟨trivial, h⟩
    | cons op ops ih =>
      intro s hr ha hp
      obtain ⟨l, e, hl⟩ := step_project (P := fun t o => Answers c.nbr m t o ∧ RealFaces o) (fun _ _ => ⟨trivial, trivial⟩)
        (fun _ _ => ⟨trivial, trivial⟩) (fun _ _ _ h => ⟨trivial, h⟩) hr hp.1.1
      have hn := held_run hrr l hr.all.base.nbr ha hl
      rw [← e] at hn
      obtain ⟨h1, h2⟩ := ih (hr.step op) hn hp.2
      obtain ⟨b, hb, -, hs⟩ := ha
      exact ⟨⟨⟨Or.inl ⟨b, find_mem hb, hs⟩, hp.1.2⟩, h1⟩, h2⟩
  obtain ⟨hal, b, hb, -, hs⟩ := key ops hr ⟨a, hf, hface, hact⟩ hops
  have hc := (C125_bounded_partial hrr hr h0 hal ht htr hh hre hw).2
  exact ⟨hc, b, hb, (hc m b.uri b.cost).2 ⟨b, find_mem hb, hs, find_name hb, rfl, rfl⟩⟩

instance (c : RConf) (s : Router) : Decidable (Settled c s) := by unfold Settled; infer_instance

instance (s : Router) (op : Router.Op) : Decidable (InTime s op) := by unfold InTime; split <;> infer_instance

/-- Both neighbours are up and announced; r3's face has just gone away. -/
def exOneLost : List Router.Op := exUp ++ [exPause, .core (.lsdb .buildTimer), .nbr (.faceDown 301)]

/-- The next eleven seconds. -/
def exEleven : List Router.Op :=
  [.clock 4000000000 0, .core (.lsdb .buildTimer), .core (.lsdb .buildName), .clock 6000000000 0, .core (.lsdb .buildTimer), .clock 1000000000 0]

theorem exOneLost_honest (c : RConf) : ∀ op ∈ exOneLost ++ exEleven, Router.Honest c op := by
  intro op hop
  simp only [exOneLost, exUp, exEleven, List.mem_append, List.mem_cons, List.not_mem_nil, or_false] at hop
  rcases hop with ((rfl | rfl | rfl | rfl | rfl | rfl | rfl | rfl | rfl) | (rfl | rfl | rfl)) |
    (rfl | rfl | rfl | rfl | rfl | rfl) <;> trivial

/-- The hypotheses of the theorem hold in this run: a build is pending at first and two links are claimed, and at the end one. -/
example :
    let c := exRC .off 0
    let s := exRouter .off 0 exOneLost
    let t := Router.run c s exEleven
    (∃ d ∈ s.core.lsdb.buildDue, s.core.lsdb.now ≤ d) ∧
    Along c (fun t o => Settled c t ∧ InTime t o ∧ asked (Router.step c t o) = asked t) s exEleven ∧
    s.core.lsdb.now + max c.lsdb.build (c.lsdb.retry * c.lsdb.resend) * 1000000000 < t.core.lsdb.now ∧
    Out.publish .adjacency 0 ∉ t.core.lsdb.log ∧ c.lsdb.retry < 2 ^ 32 ∧
    (claimList c.lsdb.router s).length = 2 ∧ claimList c.lsdb.router t = [(exR2, "udp4://10.0.0.2", .fin 10)] := by
  decide +kernel

example : Router.Trusted (exRC .off 0) (Router.run (exRC .off 0) (exRouter .off 0 exOneLost) exEleven) := by
  have := exRouter_trusted .off 0 (exOneLost ++ exEleven) (exOneLost_honest _)
  unfold exRouter Router.run at this
  rw [List.foldl_append] at this
  exact this

/-- So do those of the second theorem, of r2. -/
example :
    let c := exRC .off 0
    let s := exRouter .off 0 exOneLost
    (∀ a ∈ find s.nbr.adjs exR2, a.faceId ≠ 0 ∧ a.status = .active) ∧ (find s.nbr.adjs exR2).isSome ∧
    Along c (fun t o => Outside (fun t o => Answers c.nbr exR2 t o ∧ RealFaces o) t o ∧ InTime t o ∧
      asked (Router.step c t o) = asked t) s exEleven := by
  decide +kernel

end Nlsr
