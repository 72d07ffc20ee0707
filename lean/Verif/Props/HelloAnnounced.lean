import Verif.Props.HelloUp
import Verif.Props.RouterLinks
import Verif.Lemmas.World
/- C124 for the whole router: a neighbour that answers its hellos is announced. -/
namespace Nlsr

/-! ### No registration is under way for face 0 -/
namespace Fib

def Real (s : Fib) : Prop := ∀ r ∈ s.regs, r.fid ≠ 0

theorem Real.same {s s' : Fib} (h : Real s) (e : s'.regs = s.regs) : Real s' := by
  unfold Real; rw [e]; exact h

theorem Real.erase {s : Fib} (h : Real s) (i : Nat) : Real { s with regs := s.regs.eraseIdx i } :=
  fun r hr => h r (Nbr.mem_eraseIdx hr)

theorem Real.send {s : Fib} (h : Real s) (root : Nat) (n : Name) (u : Uri) (cost : Int) (exp flags times : Nat) :
    Real (s.send root n u cost exp flags times) := by
  unfold Fib.send
  dsimp only
  split
  · intro r hr
    rcases List.mem_append.1 hr with hr | hr
    · exact h r hr
    · rw [List.mem_singleton] at hr
      subst hr
      dsimp only
      omega
  · exact h

theorem Real.registerPrefix {s : Fib} (h : Real s) (n : Name) (u : Uri) (cost : Int) (exp flags : Nat) :
    Real (s.registerPrefix n u cost exp flags) := (h.send _ n u cost exp flags 0).same rfl

theorem Real.folds {α : Type} {f : Fib → α → Fib} (hf : ∀ s x, Real s → Real (f s x)) (l : List α) : ∀ {s}, Real s → Real (l.foldl f s) := by
  induction l with
  | nil => exact fun h => h
  | cons x xs ih => exact fun h => ih (hf _ x h)

theorem Real.unregister {s : Fib} (h : Real s) (n : Name) (u : Uri) : Real (s.unregisterPrefix n u) := by
  unfold unregisterPrefix
  dsimp only
  split <;> split
  · exact h.same rfl
  · exact h
  · exact h.same rfl
  · exact h

theorem Real.remove {s : Fib} (h : Real s) (n : Name) : Real (s.remove n) := by
  unfold Fib.remove
  split
  · exact h
  · split
    · exact h
    · exact (Real.folds (fun s x h => h.unregister _ _) _ h).same rfl

theorem Real.registerHops {c : FConf} {s : Fib} (h : Real s) (n : Name) (l : List NextHop) (flags : Nat) :
    Real (s.registerHops c n l flags) := by
  unfold Fib.registerHops
  split
  · exact h
  · exact Real.folds (fun s x h => h.registerPrefix _ _ _ _ _) _ h

theorem Real.dropHop {s : Fib} (h : Real s) (n : Name) (x : NextHop) : Real (dropHop n s x) := by
  unfold Fib.dropHop
  split
  · exact h.same rfl
  · exact (h.unregister n x.uri).same rfl

theorem Real.ensure {c : FConf} {s : Fib} (h : Real s) (n : Name) (flags : Nat) : Real (s.ensureRefresh c n flags) := by
  unfold Fib.ensureRefresh
  split
  · exact h
  · split
    · exact h.same rfl
    · exact h

theorem Real.step {c : FConf} {s : Fib} (h : Real s) (op : Op) : Real (Fib.step c s op) := by
  cases op with
  | update n hops flags =>
    show Real (s.update c n hops flags)
    unfold Fib.update
    dsimp only
    split
    · split
      · exact h.remove n
      · refine Real.ensure ?_ n flags
        exact Real.same (h.registerHops (c := c) n (hopsToAdd c hops) flags) rfl
    · split
      · exact h.remove n
      · refine Real.ensure ?_ n flags
        refine Real.same (Real.folds (fun s x h => Real.dropHop h n x) _ ?_) rfl
        exact Real.same (h.registerHops (c := c) n (hopsToAdd c hops) flags) rfl
  | remove n => exact h.remove n
  | register n u cost exp flags => exact h.registerPrefix n u cost exp flags
  | setStrategy n st => exact h.same rfl
  | regOk i =>
    show Real (s.regOk i)
    unfold Fib.regOk
    split
    · exact h
    · exact (h.erase i).same rfl
  | regFail i =>
    show Real (s.regFail i)
    unfold Fib.regFail
    split
    · exact h
    · dsimp only
      split
      · exact Real.send (h.erase i) _ _ _ _ _ _ _
      · exact h.erase i
  | stratOk i => exact h.same rfl
  | stratFail i =>
    show Real (s.stratFail i)
    unfold Fib.stratFail
    split
    · exact h
    · dsimp only
      split
      · exact h.same rfl
      · exact h.same rfl
  | refresh n =>
    show Real (s.refresh c n)
    unfold Fib.refresh
    split
    · exact h
    · split
      · exact h
      · split
        · exact h
        · dsimp only
          refine Real.same (Real.folds (fun s x h => Real.registerPrefix h _ _ _ _ _) _ ?_) rfl
          exact Real.same h rfl
  | clock dt => exact h.same rfl
  | setFaceId n id => exact h.same rfl

theorem Reachable.real {c : FConf} {s : Fib} (h : Reachable c s) : Real s := by
  obtain ⟨a, ops, rfl⟩ := h
  unfold run
  exact Real.folds (fun s x h => h.step x) ops (fun r hr => nomatch hr)

end Fib

/-! ### What the neighbours see of a run of the router -/
namespace Router
open Nbr

/-- `P` holds of each operation of the run, in the state it meets. -/
def Along (c : RConf) (P : Router → Op → Prop) : Router → List Op → Prop
  | _, [] => True
  | s, op :: ops => P s op ∧ Along c P (Router.step c s op) ops

/-- `P` holds of what comes from outside for the hello protocol and the face code: packets, timers, face events, data sets
and the passing of time. -/
def Outside (P : Nbr → Nbr.Op → Prop) (s : Router) : Op → Prop
  | .nbr o => P s.nbr o
  | .clock dt _ => P s.nbr (.clock dt)
  | _ => True

theorem always_append {c : NConf} {P : Nbr → Nbr.Op → Prop} {l' : List Nbr.Op} (l : List Nbr.Op) : ∀ {s : Nbr},
    Always c P s l → Always c P (Nbr.run c s l) l' → Always c P s (l ++ l') := by
  induction l with
  | nil => exact fun _ h => h
  | cons o os ih => exact fun h h' => ⟨h.1, ih h.2 h'⟩

theorem newLsas_nbr (c : RConf) (l : List Name) : ∀ s : Router,
    (l.foldl (fun s r => nbrStep c s (.newLsa r)) s).nbr = Nbr.run c.nbr s.nbr (l.map .newLsa) := by
  induction l with
  | nil => exact fun _ => rfl
  | cons r rs ih =>
    intro s
    rw [List.foldl_cons, ih, nbrStep_nbr]
    rfl

theorem always_newLsas {c : NConf} {P : Nbr → Nbr.Op → Prop} (h : ∀ s r, P s (.newLsa r)) (l : List Name) : ∀ s : Nbr,
    Always c P s (l.map .newLsa) := by
  induction l with
  | nil => exact fun _ => trivial
  | cons r rs ih => exact fun s => ⟨h s r, ih _⟩

theorem step_project {c : RConf} {P : Nbr → Nbr.Op → Prop} (h1 : ∀ s r, P s (.newLsa r)) (h2 : ∀ s n, P s (.registered n))
    (h3 : ∀ s u fid, fid ≠ 0 → P s (.regFace u fid)) {s : Router} (hr : Reachable c s) {op : Op} (hp : Outside P s op) :
    ∃ l, (Router.step c s op).nbr = Nbr.run c.nbr s.nbr l ∧ Always c.nbr P s.nbr l := by
  unfold Router.step
  split
  · exact ⟨[], rfl, trivial⟩
  · cases op with
    | nbr o =>
      show ∃ l, (if outsideNbr o then nbrStep c s o else s).nbr = _ ∧ _
      split
      · exact ⟨[o], nbrStep_nbr c s o, hp, trivial⟩
      · exact ⟨[], rfl, trivial⟩
    | core o =>
      show ∃ l, (if outsideCore o then coreStep c s o else s).nbr = _ ∧ _
      split
      · rw [coreStep_told, newLsas_nbr, (told_same c s o).1]
        exact ⟨_, rfl, always_newLsas h1 _ _⟩
      · exact ⟨[], rfl, trivial⟩
    | regOk i =>
      show ∃ l, (Router.regOk c s i).nbr = _ ∧ _
      unfold Router.regOk
      cases hi : s.fib.regs[i]? with
      | none => exact ⟨[], rfl, trivial⟩
      | some r =>
        dsimp only
        rw [nbrStep_nbr, nbrStep_nbr]
        exact ⟨[.regFace r.uri r.fid, .registered r.name], rfl,
          h3 _ _ _ (hr.all.base.fib.real r (List.mem_of_getElem? hi)), h2 _ _, trivial⟩
    | clock dt sys => exact ⟨[.clock dt], rfl, hp, trivial⟩
    | _ => exact ⟨[], rfl, trivial⟩

theorem project {c : RConf} {P : Nbr → Nbr.Op → Prop} (h1 : ∀ s r, P s (.newLsa r)) (h2 : ∀ s n, P s (.registered n))
    (h3 : ∀ s u fid, fid ≠ 0 → P s (.regFace u fid)) (ops : List Op) : ∀ {s : Router}, Reachable c s → Along c (Outside P) s ops →
    ∃ l, (Router.run c s ops).nbr = Nbr.run c.nbr s.nbr l ∧ Always c.nbr P s.nbr l := by
  induction ops with
  | nil => exact fun _ _ => ⟨[], rfl, trivial⟩
  | cons op ops ih =>
    intro s hr hp
    obtain ⟨l1, e1, a1⟩ := step_project h1 h2 h3 hr hp.1
    obtain ⟨l2, e2, a2⟩ := ih (hr.step op) hp.2
    rw [e1] at e2 a2
    refine ⟨l1 ++ l2, ?_, always_append l1 a1 a2⟩
    show (Router.run c (Router.step c s op) ops).nbr = _
    rw [e2]
    unfold Nbr.run
    rw [List.foldl_append]

end Router

theorem Nbr.Always.imp {c : NConf} {P Q : Nbr → Nbr.Op → Prop} (h : ∀ s o, P s o → Q s o) (l : List Nbr.Op) : ∀ {s : Nbr},
    Nbr.Always c P s l → Nbr.Always c Q s l := by
  induction l with
  | nil => exact fun _ => trivial
  | cons o os ih => exact fun hp => ⟨h _ _ hp.1, ih hp.2⟩

theorem Nbr.Always.all {c : NConf} {P : Nbr → Nbr.Op → Prop} {Q : Nbr.Op → Prop} (h : ∀ s o, P s o → Q o) (l : List Nbr.Op) : ∀ {s : Nbr},
    Nbr.Always c P s l → ∀ o ∈ l, Q o := by
  induction l with
  | nil => exact fun _ _ ho => nomatch ho
  | cons o os ih =>
    intro s hp x hx
    rcases List.mem_cons.1 hx with rfl | hx
    · exact h _ _ hp.1
    · exact ih hp.2 x hx

open AdjacencyList Nbr Router

/-- C124 for the whole router, in whatever order LSAs, sync updates, commands, calculations and NFD's answers come in
between: a neighbour that answers is ACTIVE after one hello interval and one hello timeout, or a reply of it is being
validated. -/
theorem C124_router_up {c : RConf} (hrr : c.nbr.retry < 4294967296) {s : Router} (hr : Router.Reachable c s) (hon : OnTime s.nbr)
    {n : Name} {a : Adjacent} (hf : find s.nbr.adjs n = some a) (hface : a.faceId ≠ 0) (hloop : ∃ due, (n, due) ∈ s.nbr.timers)
    {ops : List Router.Op}
    (hops : Along c (Outside fun t o => Answers c.nbr n t o ∧ Punctual t o ∧ RealFaces o) s ops)
    (ht : s.nbr.now + ns (c.nbr.interval + c.nbr.resend) < (Router.run c s ops).nbr.now) :
    getStatus (Router.run c s ops).nbr.adjs n = .active ∨ InValidation c.nbr n (Router.run c s ops).nbr := by
  obtain ⟨l, e, h⟩ := project (fun _ _ => ⟨trivial, trivial, trivial⟩) (fun _ _ => ⟨trivial, trivial, trivial⟩)
    (fun _ _ _ h => ⟨trivial, trivial, h⟩) ops hr hops
  rw [e] at ht ⊢
  exact C124_up hrr hr.all.base.nbr hon hf hface hloop (h.imp (fun _ _ h => h.1) l) (h.imp (fun _ _ h => h.2.1) l)
    (Nbr.Always.all (fun _ _ h => h.2.2) l h) ht

/-- C124 for the whole router: once ACTIVE a neighbour that answers stays so. -/
theorem C124_router_stays {c : RConf} (hrr : c.nbr.retry < 4294967296) {s : Router} (hr : Router.Reachable c s)
    {n : Name} {a : Adjacent} (hf : find s.nbr.adjs n = some a) (hface : a.faceId ≠ 0) (hact : a.status = .active)
    {ops : List Router.Op} (hops : Along c (Outside fun t o => Answers c.nbr n t o ∧ RealFaces o) s ops) :
    getStatus (Router.run c s ops).nbr.adjs n = .active := by
  obtain ⟨l, e, h⟩ := project (fun _ _ => ⟨trivial, trivial⟩) (fun _ _ => ⟨trivial, trivial⟩)
    (fun _ _ _ h => ⟨trivial, h⟩) ops hr hops
  rw [e]
  exact C124_stays hrr l hr.all.base.nbr hf hface hact (h.imp (fun _ _ h => h.1) l) (Nbr.Always.all (fun _ _ h => h.2) l h)

/-- C124, what the others learn: a neighbour that has answered for one hello interval and one hello timeout, and of which no
reply is being validated, is in the router's own Adjacency LSA unless a build is pending (C84_soon says for how long one
can be), in link-state routing, if nobody hands over Adjacency LSAs in this router's name. -/
theorem C124_announced {c : RConf} (hrr : c.nbr.retry < 4294967296) {s : Router} (hr : Router.Reachable c s) (hon : OnTime s.nbr)
    {n : Name} {a : Adjacent} (hf : find s.nbr.adjs n = some a) (hface : a.faceId ≠ 0) (hloop : ∃ due, (n, due) ∈ s.nbr.timers)
    {ops : List Router.Op}
    (hops : Along c (Outside fun t o => Answers c.nbr n t o ∧ Punctual t o ∧ RealFaces o) s ops)
    (ht : s.nbr.now + ns (c.nbr.interval + c.nbr.resend) < (Router.run c s ops).nbr.now)
    (hv : ¬ InValidation c.nbr n (Router.run c s ops).nbr)
    (htr : Router.Trusted c (Router.run c s ops)) (hh : c.lsdb.hyp ≠ .on) (hre : c.lsdb.retry < 2 ^ 32)
    (hw : Out.publish .adjacency 0 ∉ (Router.run c s ops).core.lsdb.log) (hd : (Router.run c s ops).core.lsdb.buildDue = none) :
    ∃ b, find (Router.run c s ops).nbr.adjs n = some b ∧ Claims c.lsdb.router (Router.run c s ops) n b.uri b.cost := by
  have h := (C124_router_up hrr hr hon hf hface hloop hops ht).resolve_right hv
  unfold getStatus at h
  cases hb : find (Router.run c s ops).nbr.adjs n with
  | none => rw [hb] at h; cases h
  | some b =>
    rw [hb] at h
    exact ⟨b, rfl, (C84_links_partial htr hh hre hw hd n b.uri b.cost).2 ⟨b, find_mem hb, h, find_name hb, rfl, rfl⟩⟩

/-! ### C90 for the whole router -/

/-- C90 for the whole router: a neighbour of which nothing is heard is down after one hello interval and three times the
hello timeout for each retry, in whatever order LSAs, sync updates, commands, calculations and NFD's answers come in
between. -/
theorem C90_router_down_partial {c : RConf} (hrr : c.nbr.retry < 4294967296) {s : Router} (hr : Router.Reachable c s)
    (hon : OnTime s.nbr) {n : Name} {a : Adjacent} (hf : find s.nbr.adjs n = some a) (hface : a.faceId ≠ 0)
    (hloop : ∃ due, (n, due) ∈ s.nbr.timers) {ops : List Router.Op}
    (hops : Along c (Outside fun t o => Silent c.nbr n t o ∧ Punctual t o ∧ RealFaces o) s ops)
    (ht : s.nbr.now + ns (c.nbr.interval + 3 * c.nbr.resend * max c.nbr.retry 1) < (Router.run c s ops).nbr.now) :
    getStatus (Router.run c s ops).nbr.adjs n ≠ .active := by
  obtain ⟨l, e, h⟩ := project (fun _ _ => ⟨trivial, trivial, trivial⟩) (fun _ _ => ⟨trivial, trivial, trivial⟩)
    (fun _ _ _ h => ⟨trivial, trivial, h⟩) ops hr hops
  rw [e] at ht ⊢
  exact C90_down_partial hrr hr.all.base.nbr hon hf hface hloop (h.imp (fun _ _ h => h.1) l) (h.imp (fun _ _ h => h.2.1) l)
    (Nbr.Always.all (fun _ _ h => h.2.2) l h) ht

/-- C90, what the others learn: the link to a neighbour of which nothing was heard for that long is not in the router's own
Adjacency LSA, unless a build is pending, in link-state routing, if nobody hands over Adjacency LSAs in this router's
name. -/
theorem C90_withdrawn_partial {c : RConf} (hrr : c.nbr.retry < 4294967296) {s : Router} (hr : Router.Reachable c s)
    (hon : OnTime s.nbr) {n : Name} {a : Adjacent} (hf : find s.nbr.adjs n = some a) (hface : a.faceId ≠ 0)
    (hloop : ∃ due, (n, due) ∈ s.nbr.timers) {ops : List Router.Op}
    (hops : Along c (Outside fun t o => Silent c.nbr n t o ∧ Punctual t o ∧ RealFaces o) s ops)
    (ht : s.nbr.now + ns (c.nbr.interval + 3 * c.nbr.resend * max c.nbr.retry 1) < (Router.run c s ops).nbr.now)
    (htr : Router.Trusted c (Router.run c s ops)) (hh : c.lsdb.hyp ≠ .on) (hre : c.lsdb.retry < 2 ^ 32)
    (hw : Out.publish .adjacency 0 ∉ (Router.run c s ops).core.lsdb.log) (hd : (Router.run c s ops).core.lsdb.buildDue = none)
    (u : Uri) (k : Ext Rat) : ¬ Claims c.lsdb.router (Router.run c s ops) n u k := by
  intro hc
  obtain ⟨b, hb, hact, hn, -, -⟩ := (C84_links_partial htr hh hre hw hd n u k).1 hc
  refine C90_router_down_partial hrr hr hon hf hface hloop hops ht ?_
  have hrt : Router.Reachable c (Router.run c s ops) := by
    obtain ⟨disk, adjs, npl, sys, l, h1, -, h2⟩ := htr
    exact ⟨disk, adjs, npl, sys, l, h1, h2⟩
  have := mem_find hrt.all.base.nbr.ninv.nodup hb
  rw [hn] at this
  unfold getStatus
  rw [this]
  exact hact

instance alongDec {c : RConf} {P : Router → Router.Op → Prop} [∀ s op, Decidable (P s op)] : ∀ s ops, Decidable (Along c P s ops)
  | _, [] => isTrue trivial
  | s, op :: ops => @instDecidableAnd _ _ _ (alongDec (Router.step c s op) ops)

instance {P : Nbr → Nbr.Op → Prop} [∀ s op, Decidable (P s op)] (s : Router) (op : Router.Op) : Decidable (Outside P s op) := by
  unfold Outside; split <;> infer_instance

/-- NFD has accepted both neighbours' registrations, and only r3 has answered its first hellos. -/
def exGreeted : List Router.Op :=
  [.nbr (.fetchOk 0 [("udp4://10.0.0.2", 300), ("udp4://10.0.0.3", 301)]), .regOk 0, .regOk 0, .regOk 0, .regOk 0,
   .nbr (.data 1 (exAnswer exR3)), .nbr (.valid 0)]

/-- The first hello to r2 is answered at the last moment; a build is made, r3's face goes away, and both neighbours are
asked again. -/
def exAnswers : List Router.Op :=
  [.clock 1000000000 0, .nbr (.data 0 (exAnswer exR2)), .nbr (.valid 0), .clock 14000000000 0, .core (.lsdb .buildTimer),
   .nbr (.faceDown 301), .clock 15000000000 0, .core (.lsdb .buildTimer), .clock 30000000000 0, .nbr (.helloTimer 0),
   .nbr (.helloTimer 0), .nbr (.data 0 (exAnswer exR2)), .nbr (.valid 0), .clock 20000000000 0]

theorem exGreeted_honest (c : RConf) : ∀ op ∈ exGreeted ++ exAnswers, Router.Honest c op := by
  intro op hop
  simp only [exGreeted, exAnswers, List.mem_append, List.mem_cons, List.not_mem_nil, or_false] at hop
  rcases hop with (rfl | rfl | rfl | rfl | rfl | rfl | rfl) |
    (rfl | rfl | rfl | rfl | rfl | rfl | rfl | rfl | rfl | rfl | rfl | rfl | rfl | rfl) <;> trivial

/-- The hypotheses of the three theorems hold of r2, which is down with a face and a scheduled hello at first; at the end
only r2 is announced. -/
example :
    let c := exRC .off 0
    let s := exRouter .off 0 exGreeted
    let t := Router.run c s exAnswers
    OnTime s.nbr ∧ getStatus s.nbr.adjs exR2 = .inactive ∧ (∀ a ∈ find s.nbr.adjs exR2, a.faceId ≠ 0) ∧
    (find s.nbr.adjs exR2).isSome ∧ (∃ due ∈ s.nbr.timers.map (·.2), (exR2, due) ∈ s.nbr.timers) ∧
    Along c (Outside fun t o => Answers c.nbr exR2 t o ∧ Punctual t o ∧ RealFaces o) s exAnswers ∧
    s.nbr.now + ns (c.nbr.interval + c.nbr.resend) < t.nbr.now ∧ t.nbr.validating = [] ∧
    c.lsdb.retry < 2 ^ 32 ∧ Out.publish .adjacency 0 ∉ t.core.lsdb.log ∧ t.core.lsdb.buildDue = none ∧
    claimList c.lsdb.router t = [(exR2, "udp4://10.0.0.2", .fin 10)] := by
  decide +kernel

example : Router.Trusted (exRC .off 0) (Router.run (exRC .off 0) (exRouter .off 0 exGreeted) exAnswers) := by
  have := exRouter_trusted .off 0 (exGreeted ++ exAnswers) (exGreeted_honest _)
  unfold exRouter Router.run at this
  rw [List.foldl_append] at this
  exact this

/-- From then on nothing is heard of r2: three hellos time out, and the next build leaves the link out. -/
def exFallsSilent : List Router.Op :=
  [.clock 40000000000 0, .nbr (.helloTimer 0), .nbr (.helloTimer 0), .clock 1000000000 0, .nbr (.timeout 0), .clock 1000000000 0,
   .nbr (.timeout 0), .clock 1000000000 0, .nbr (.timeout 0), .clock 10000000000 0, .core (.lsdb .buildTimer), .clock 17000000000 0]

theorem exFallsSilent_honest (c : RConf) : ∀ op ∈ exGreeted ++ (exAnswers ++ exFallsSilent), Router.Honest c op := by
  intro op hop
  rcases List.mem_append.1 hop with h | h
  · exact exGreeted_honest c op (List.mem_append_left _ h)
  · rcases List.mem_append.1 h with h | h
    · exact exGreeted_honest c op (List.mem_append_right _ h)
    · simp only [exFallsSilent, List.mem_cons, List.not_mem_nil, or_false] at h
      rcases h with rfl | rfl | rfl | rfl | rfl | rfl | rfl | rfl | rfl | rfl | rfl | rfl <;> trivial

/-- The hypotheses of the two theorems on C90 hold of r2 in this run; at the end nothing is announced. -/
example :
    let c := exRC .off 0
    let s := exRouter .off 0 (exGreeted ++ exAnswers)
    let t := Router.run c s exFallsSilent
    OnTime s.nbr ∧ getStatus s.nbr.adjs exR2 = .active ∧ (∀ a ∈ find s.nbr.adjs exR2, a.faceId ≠ 0) ∧
    (find s.nbr.adjs exR2).isSome ∧ (∃ due ∈ s.nbr.timers.map (·.2), (exR2, due) ∈ s.nbr.timers) ∧
    Along c (Outside fun t o => Silent c.nbr exR2 t o ∧ Punctual t o ∧ RealFaces o) s exFallsSilent ∧
    s.nbr.now + ns (c.nbr.interval + 3 * c.nbr.resend * max c.nbr.retry 1) < t.nbr.now ∧
    Out.publish .adjacency 0 ∉ t.core.lsdb.log ∧ t.core.lsdb.buildDue = none ∧
    claimList c.lsdb.router s = [(exR2, "udp4://10.0.0.2", .fin 10)] ∧ claimList c.lsdb.router t = [] := by
  decide +kernel

end Nlsr
