import Verif.Lemmas.Daemon
import Verif.Props.CertStore
import Verif.Props.Router
/-
C114: every interest goes to the part of the daemon that can answer it, and interests other than commands leave the routing state
alone.
-/
namespace Nlsr
namespace Daemon

/-! ### what interests leave alone -/

/-- Nothing but answers: the neighbours and their timers, the LSAs, the sequence numbers, the routing table, the names and the
routes stay as they were, and so do the list of prefixes, the file of prefixes, and the certificates; nothing is published, written
to disk or replied to a command.  What may differ is what was sent, what waits for an answer, the segments kept for the next
interest, and whether the daemon has ended. -/
structure Kept (d e : Daemon) : Prop where
  nbr : { e.r.nbr with waiting := d.r.nbr.waiting, out := d.r.nbr.out, dead := d.r.nbr.dead } = d.r.nbr
  lsdb : { e.r.core.lsdb with fifo := d.r.core.lsdb.fifo, log := d.r.core.lsdb.log } = d.r.core.lsdb
  rt : e.r.core.rt = d.r.core.rt
  npt : e.r.core.npt = d.r.core.npt
  fib : { e.r.fib with adjs := d.r.fib.adjs } = d.r.fib
  undef : e.r.undef = d.r.undef ∧ e.undef = d.undef
  npl : e.npl = d.npl
  file : e.file = d.file
  replies : e.replies = d.replies
  certs : e.certs.certs = d.certs.certs ∧ e.certs.filters = d.certs.filters
  /-- what the LSDB has said -/
  said : ∃ outs, e.r.core.lsdb.log = d.r.core.lsdb.log ++ outs ∧
    ∀ o ∈ outs, (∃ s, o = Out.data s) ∨ (∃ n, o = Out.storedData n) ∨ o = Out.fault
  /-- what the hello protocol has done -/
  did : ∃ outs, e.r.nbr.out = d.r.nbr.out ++ outs ∧ ∀ o ∈ outs, (∃ n, o = NOut.data n) ∨ ∃ n, o = NOut.interest n

theorem Kept.refl (d : Daemon) : Kept d d :=
  ⟨rfl, rfl, rfl, rfl, rfl, ⟨rfl, rfl⟩, rfl, rfl, rfl, ⟨rfl, rfl⟩, ⟨[], (List.append_nil _).symm, by simp⟩,
   ⟨[], (List.append_nil _).symm, by simp⟩⟩

theorem Kept.trans {d e f : Daemon} (h : Kept d e) (g : Kept e f) : Kept d f := by
  obtain ⟨a1, a2, a3, a4, a5, a6, a7, a8, a9, a10, ⟨x, hx, kx⟩, ⟨y, hy, ky⟩⟩ := h
  obtain ⟨b1, b2, b3, b4, b5, b6, b7, b8, b9, b10, ⟨x', hx', kx'⟩, ⟨y', hy', ky'⟩⟩ := g
  refine ⟨?_, ?_, b3.trans a3, b4.trans a4, ?_, ⟨b6.1.trans a6.1, b6.2.trans a6.2⟩, b7.trans a7, b8.trans a8, b9.trans a9,
    ⟨b10.1.trans a10.1, b10.2.trans a10.2⟩,
    ⟨x ++ x', by rw [hx', hx, List.append_assoc], fun o ho => (List.mem_append.1 ho).elim (kx o) (kx' o)⟩,
    ⟨y ++ y', by rw [hy', hy, List.append_assoc], fun o ho => (List.mem_append.1 ho).elim (ky o) (ky' o)⟩⟩
  · rw [← b1] at a1; exact a1
  · rw [← b2] at a2; exact a2
  · rw [← b5] at a5; exact a5

/-- What the LSDB does with an interest. -/
theorem lsdb_answers (c : LConf) (s : Lsdb) (n : Name) (v : Nat) : ∃ f outs,
    Lsdb.step c s (.interest n v) = { s with fifo := f, log := s.log ++ outs } ∧
    ∀ o ∈ outs, (∃ s, o = Out.data s) ∨ (∃ n, o = Out.storedData n) ∨ o = Out.fault := by
  have h0 : ∀ f, ∃ g outs, ({ s with fifo := f } : Lsdb) = { s with fifo := g, log := s.log ++ outs } ∧
      ∀ o ∈ outs, (∃ s, o = Out.data s) ∨ (∃ n, o = Out.storedData n) ∨ o = Out.fault :=
    fun f => ⟨f, [], by rw [List.append_nil], by simp⟩
  have h1 : ∀ f o, ((∃ s, o = Out.data s) ∨ (∃ n, o = Out.storedData n) ∨ o = Out.fault) →
      ∃ g outs, ({ s with fifo := f } : Lsdb).emit o = { s with fifo := g, log := s.log ++ outs } ∧
      ∀ o ∈ outs, (∃ s, o = Out.data s) ∨ (∃ n, o = Out.storedData n) ∨ o = Out.fault :=
    fun f o ho => ⟨f, [o], rfl, fun x hx => by rw [List.mem_singleton.1 hx]; exact ho⟩
  have hr : ∀ n t k v, ∃ f outs, Lsdb.replyOwn c s n t k v = { s with fifo := f, log := s.log ++ outs } ∧
      ∀ o ∈ outs, (∃ s, o = Out.data s) ∨ (∃ n, o = Out.storedData n) ∨ o = Out.fault := by
    intro n t k v
    unfold Lsdb.replyOwn
    split
    · exact h0 s.fifo
    · split
      · dsimp only
        split
        · exact h1 _ _ (Or.inl ⟨_, rfl⟩)
        · exact h0 _
      · exact h0 s.fifo
  have hs : ∀ n m v, ∃ f outs, Lsdb.processStripped c s n m v = { s with fifo := f, log := s.log ++ outs } ∧
      ∀ o ∈ outs, (∃ s, o = Out.data s) ∨ (∃ n, o = Out.storedData n) ∨ o = Out.fault := by
    intro n m v
    unfold Lsdb.processStripped
    split
    · split
      · split
        · exact h1 s.fifo _ (Or.inr (Or.inr rfl))
        · split
          · exact h0 s.fifo
          · exact hr _ _ _ _
      · exact h1 s.fifo _ (Or.inr (Or.inr rfl))
    · split
      · exact h1 s.fifo _ (Or.inr (Or.inl ⟨_, rfl⟩))
      · exact h0 s.fifo
  show ∃ f outs, (if n.length ≤ Lsdb.maxComponents then Lsdb.processInterest c s n v else s) = _ ∧ _
  split
  · unfold Lsdb.processInterest
    split
    · split
      · exact h0 s.fifo
      · split
        · split
          · exact h1 s.fifo _ (Or.inl ⟨_, rfl⟩)
          · exact hs _ _ _
        · exact hs _ _ _
    · exact h0 s.fifo
  · exact h0 s.fifo

/-- The router after an interest for the LSDB. -/
theorem router_lsdb (c : RConf) (s : Router) (n : Name) (v : Nat) : ∃ f outs,
    Router.step c s (.core (.lsdb (.interest n v))) =
      { s with core := { s.core with lsdb := { s.core.lsdb with fifo := f, log := s.core.lsdb.log ++ outs } } } ∧
    ∀ o ∈ outs, (∃ s, o = Out.data s) ∨ (∃ n, o = Out.storedData n) ∨ o = Out.fault := by
  unfold Router.step
  split
  · exact ⟨s.core.lsdb.fifo, [], by rw [List.append_nil], by simp⟩
  · obtain ⟨f, outs, he, ho⟩ := lsdb_answers c.core.lsdb s.core.lsdb n v
    refine ⟨f, outs, ?_, ho⟩
    have hhear : ∀ now (p : RtState × Npt), outs.foldl (Core.hear c.core now) p = p := by
      intro now p
      clear he
      induction outs with
      | nil => rfl
      | cons o os ih =>
        have hp : Core.hear c.core now p o = p := by
          rcases ho o (by simp) with ⟨x, rfl⟩ | ⟨x, rfl⟩ | rfl <;> rfl
        rw [List.foldl_cons, hp]
        exact ih (fun o h => ho o (by simp [h]))
    have hnew : Router.newOrigins outs = [] := by
      refine List.eq_nil_iff_forall_not_mem.2 (fun r hr => ?_)
      obtain ⟨o, hm, hb⟩ := List.mem_filterMap.1 hr
      rcases ho o hm with ⟨x, rfl⟩ | ⟨x, rfl⟩ | rfl <;> cases hb
    have hcore : Core.step c.core s.core (.lsdb (.interest n v)) =
        { s.core with lsdb := { s.core.lsdb with fifo := f, log := s.core.lsdb.log ++ outs } } := by
      show Core.lsdbStep c.core s.core (.interest n v) = _
      unfold Core.lsdbStep
      dsimp only
      rw [he]
      dsimp only
      rw [List.drop_left, hhear]
    show Router.coreStep c s (.lsdb (.interest n v)) = _
    unfold Router.coreStep
    dsimp only
    rw [hcore]
    dsimp only
    rw [List.drop_left, hnew, List.drop_length]
    rfl

/-- What the hello protocol does with an interest. -/
theorem nbr_answers (c : NConf) (s : Nbr) (n : Name) (v : Comp) : ∃ w outs b,
    Nbr.step c s (.interest n v) = { s with waiting := w, out := s.out ++ outs, dead := b } ∧
    ∀ o ∈ outs, (∃ n, o = NOut.data n) ∨ ∃ n, o = NOut.interest n := by
  have h0 : ∀ b, ∃ w outs b', ({ s with dead := b } : Nbr) = { s with waiting := w, out := s.out ++ outs, dead := b' } ∧
      ∀ o ∈ outs, (∃ n, o = NOut.data n) ∨ ∃ n, o = NOut.interest n :=
    fun b => ⟨s.waiting, [], b, by rw [List.append_nil], by simp⟩
  have h1 : ∀ m, ∃ w outs b', (s.emit (.data (n ++ [v]))).express c m = { s with waiting := w, out := s.out ++ outs, dead := b' } ∧
      ∀ o ∈ outs, (∃ n, o = NOut.data n) ∨ ∃ n, o = NOut.interest n := by
    intro m
    refine ⟨s.waiting ++ [(m, s.now + c.resend * Nbr.nsPerSec)], [NOut.data (n ++ [v]), NOut.interest m], s.dead, ?_, ?_⟩
    · unfold Nbr.express Nbr.emit
      simp only [List.append_assoc, List.singleton_append]
    · intro o ho
      simp only [List.mem_cons, List.not_mem_nil, or_false] at ho
      rcases ho with rfl | rfl
      · exact Or.inl ⟨_, rfl⟩
      · exact Or.inr ⟨_, rfl⟩
  unfold Nbr.step
  split
  · exact h0 s.dead
  · show ∃ w outs b, Nbr.interest c s n v = _ ∧ _
    unfold Nbr.interest
    split
    · exact h0 s.dead
    · split
      · exact h0 s.dead
      · split
        · exact h0 s.dead
        · split
          · exact h0 true
          · split
            · exact h0 s.dead
            · dsimp only
              split
              · exact h1 _
              · exact ⟨s.waiting, [NOut.data (n ++ [v])], s.dead, rfl, fun o ho => Or.inl ⟨_, List.mem_singleton.1 ho⟩⟩

theorem syncFaces_eq (c : FConf) : ∀ (l : AdjacencyList) (f : Fib), ∃ a, Router.syncFaces c l f = { f with adjs := a } := by
  intro l
  induction l with
  | nil => intro f; exact ⟨f.adjs, rfl⟩
  | cons x xs ih =>
    intro f
    obtain ⟨a, h⟩ := ih (Fib.step c f (.setFaceId x.name x.faceId))
    exact ⟨a, h⟩

/-- The router after an interest for the hello protocol. -/
theorem router_hello {c : RConf} {s : Router} (h : Router.All c s) (n : Name) (v : Comp) : ∃ w outs b a,
    Router.step c s (.nbr (.interest n v)) =
      { s with nbr := { s.nbr with waiting := w, out := s.nbr.out ++ outs, dead := b }, fib := { s.fib with adjs := a } } ∧
    ∀ o ∈ outs, (∃ n, o = NOut.data n) ∨ ∃ n, o = NOut.interest n := by
  unfold Router.step
  split
  · exact ⟨s.nbr.waiting, [], s.nbr.dead, s.fib.adjs, by rw [List.append_nil], by simp⟩
  · obtain ⟨w, outs, b, he, ho⟩ := nbr_answers c.nbr s.nbr n v
    show ∃ w outs b a, Router.nbrStep c s (.interest n v) = _ ∧ _
    obtain ⟨a, ha⟩ := syncFaces_eq c.fib s.nbr.adjs s.fib
    refine ⟨w, outs, b, a, ?_, ho⟩
    unfold Router.nbrStep
    dsimp only
    rw [he]
    dsimp only
    rw [List.drop_left]
    have happly : ∀ (l : List NOut) (t : Router), (∀ o ∈ l, (∃ n, o = NOut.data n) ∨ ∃ n, o = NOut.interest n) →
        l.foldl (Router.apply c) t = t := by
      intro l
      induction l with
      | nil => exact fun t _ => rfl
      | cons o os ih =>
        intro t hl
        have hp : Router.apply c t o = t := by
          rcases hl o (by simp) with ⟨x, rfl⟩ | ⟨x, rfl⟩ <;> rfl
        rw [List.foldl_cons, hp]
        exact ih t (fun o h => hl o (by simp [h]))
    rw [happly _ _ ho]
    unfold Router.sync
    dsimp only
    rw [ha, Core.step_setAdjs]
    dsimp only
    rw [← h.synced.lsdb]

/-- This interest does not carry out a command: it is named like none, or it is a prefix update whose signature is refused.
Everything named like a command of NFD's RIB is carried out (C103). -/
def Harmless (c : DConf) (q : Packet) : Prop :=
  ∀ top, (top = c.r.lsdb.router ++ nm ["nlsr"] ∨ top = nm ["localhost", "nlsr"]) →
    (c.valid q.req = true → ¬ top ++ nm ["prefix-update", "advertise"] <+: q.req.name ∧
      ¬ top ++ nm ["prefix-update", "withdraw"] <+: q.req.name) ∧
    ¬ top ++ nm ["rib", "register"] <+: q.req.name ∧ ¬ top ++ nm ["rib", "unregister"] <+: q.req.name

theorem command_kept {c : DConf} {q : Packet} (hq : Harmless c q) (d : Daemon) {top : Name} {h : Access.Handler}
    (ht : top = c.r.lsdb.router ++ [Comp.str "nlsr"] ∨ top = nm ["localhost", "nlsr"]) (hh : h ∈ Access.handlers)
    (hf : top ++ h.rel <+: q.req.name) : Kept d (command c d q.req top h) := by
  have ha : Access.authorized c.env h q.req = false := by
    obtain ⟨h1, h2, h3⟩ := hq top ht
    simp only [Access.handlers, List.mem_cons, List.not_mem_nil, or_false] at hh
    rcases hh with rfl | rfl | rfl | rfl
    · exact Bool.eq_false_iff.2 (fun hv => (h1 hv).1 hf)
    · exact Bool.eq_false_iff.2 (fun hv => (h1 hv).2 hf)
    · exact absurd hf h2
    · exact absurd hf h3
  unfold command
  split
  · exact Kept.refl d
  · split
    · exact Kept.refl d
    · rw [ha]
      exact ⟨rfl, rfl, rfl, rfl, rfl, ⟨rfl, rfl⟩, rfl, rfl, rfl, ⟨rfl, rfl⟩, ⟨[], (List.append_nil _).symm, by simp⟩,
        ⟨[], (List.append_nil _).symm, by simp⟩⟩

/-- The state of the daemon is one it can be in. -/
def Reachable (c : DConf) (d : Daemon) : Prop :=
  ∃ disk adjs start sys file certs ops, Nbr.Fresh adjs ∧ d = run c (init c disk adjs start sys file certs) ops

theorem hand_kept {c : DConf} {d : Daemon} (hr : Router.All c.r d.r) {q : Packet} (hq : Harmless c q) {p : Part}
    (hp : ∀ top h, p = .command top h → (top = c.r.lsdb.router ++ [Comp.str "nlsr"] ∨ top = nm ["localhost", "nlsr"]) ∧
      h ∈ Access.handlers ∧ top ++ h.rel <+: q.req.name) : Kept d (hand c q d p) := by
  unfold hand
  split
  · exact Kept.refl d
  · cases p with
    | lsdb =>
      obtain ⟨f, outs, he, ho⟩ := router_lsdb c.r d.r q.req.name q.ver
      dsimp only
      rw [he]
      exact ⟨rfl, rfl, rfl, rfl, rfl, ⟨rfl, rfl⟩, rfl, rfl, rfl, ⟨rfl, rfl⟩, ⟨outs, rfl, ho⟩,
        ⟨[], (List.append_nil _).symm, by simp⟩⟩
    | sync => exact Kept.refl d
    | hello =>
      obtain ⟨w, outs, b, a, he, ho⟩ := router_hello hr q.req.name ⟨54, Tlv.encNni q.ver⟩
      dsimp only
      rw [he]
      exact ⟨rfl, rfl, rfl, rfl, rfl, ⟨rfl, rfl⟩, rfl, rfl, rfl, ⟨rfl, rfl⟩, ⟨[], (List.append_nil _).symm, by simp⟩,
        ⟨outs, rfl, ho⟩⟩
    | command top h =>
      obtain ⟨h1, h2, h3⟩ := hp top h rfl
      exact command_kept hq d h1 h2 h3
    | dataset top x =>
      show Kept d (dataset d q.req top x)
      unfold dataset
      split
      · exact Kept.refl d
      · split
        · exact Kept.refl d
        · exact ⟨rfl, rfl, rfl, rfl, rfl, ⟨rfl, rfl⟩, rfl, rfl, rfl, ⟨rfl, rfl⟩, ⟨[], (List.append_nil _).symm, by simp⟩,
            ⟨[], (List.append_nil _).symm, by simp⟩⟩
    | certs =>
      dsimp only
      split
      · exact Kept.refl d
      · exact ⟨rfl, rfl, rfl, rfl, rfl, ⟨rfl, rfl⟩, rfl, rfl, rfl, ⟨rfl, rfl⟩, ⟨[], (List.append_nil _).symm, by simp⟩,
          ⟨[], (List.append_nil _).symm, by simp⟩⟩

theorem ite_all {c : RConf} {r : Router} (h : Router.All c r) (b : Bool) (op : Router.Op) :
    Router.All c (if b then Router.step c r op else r) := by
  cases b
  · exact h
  · exact h.step op

theorem hand_all {c : DConf} {d : Daemon} (hr : Router.All c.r d.r) (q : Packet) (p : Part) : Router.All c.r (hand c q d p).r := by
  unfold hand
  split
  · exact hr
  · cases p with
    | lsdb => exact hr.step _
    | sync => exact hr
    | hello => exact hr.step _
    | command top h =>
      show Router.All c.r (command c d q.req top h).r
      unfold command
      split
      · exact hr
      · split
        · exact hr
        · split
          · split
            · exact ite_all (hr.step _) _ _
            · exact hr
          · exact hr
    | dataset top x =>
      show Router.All c.r (dataset d q.req top x).r
      unfold dataset
      split
      · exact hr
      · split
        · exact hr
        · exact hr
    | certs =>
      dsimp only
      split
      · exact hr
      · exact hr

theorem hands_all {c : DConf} (q : Packet) : ∀ (l : List Part) {d : Daemon}, Router.All c.r d.r →
    Router.All c.r (l.foldl (hand c q) d).r := by
  intro l
  induction l with
  | nil => exact fun h => h
  | cons p ps ih => exact fun h => ih (hand_all h q p)

theorem step_all {c : DConf} {d : Daemon} (hr : Router.All c.r d.r) (op : Op) : Router.All c.r (step c d op).r := by
  cases op with
  | interest q => exact hands_all q _ hr
  | router op =>
    unfold step
    dsimp only
    split
    · exact hr
    · exact hr.step op
  | segment cache kl =>
    unfold step
    dsimp only
    split
    · exact hr
    · split
      · exact hr
      · exact hr

theorem run_all {c : DConf} : ∀ (ops : List Op) {d : Daemon}, Router.All c.r d.r → Router.All c.r (run c d ops).r := by
  intro ops
  induction ops with
  | nil => exact fun h => h
  | cons op ops ih => exact fun h => ih (step_all h op)

theorem Reachable.all {c : DConf} {d : Daemon} (h : Reachable c d) : Router.All c.r d.r := by
  obtain ⟨disk, adjs, start, sys, file, certs, ops, hf, rfl⟩ := h
  exact run_all ops (Router.All.init c.r disk _ sys hf)

/-- A command that gets an interest is one whose name the interest's name starts with. -/
theorem mem_fitting {c : DConf} {d : Daemon} {n : Name} {p : Part} (h : p ∈ fitting c d n) : ∃ f, (f, p) ∈ filters c d ∧ f <+: n := by
  obtain ⟨⟨f, p'⟩, hf, e⟩ := List.mem_map.1 h
  obtain ⟨h1, h2⟩ := List.mem_filter.1 hf
  cases e
  exact ⟨f, h1, List.isPrefixOf_iff_prefix.1 h2⟩

theorem fitting_mem {c : DConf} {d : Daemon} {n f : Name} {p : Part} (h : (f, p) ∈ filters c d) (hf : f <+: n) : p ∈ fitting c d n :=
  List.mem_map.2 ⟨(f, p), List.mem_filter.2 ⟨h, List.isPrefixOf_iff_prefix.2 hf⟩, rfl⟩

theorem fitting_command {c : DConf} {d : Daemon} {n top : Name} {h : Access.Handler} (hm : Part.command top h ∈ fitting c d n) :
    (top = c.r.lsdb.router ++ [Comp.str "nlsr"] ∨ top = nm ["localhost", "nlsr"]) ∧ h ∈ Access.handlers ∧ top ++ h.rel <+: n := by
  obtain ⟨f, hf, hn⟩ := mem_fitting hm
  rcases List.mem_append.1 hf with hf | hf
  · rcases mem_fixed hf with ⟨e, -⟩ | ⟨e, -⟩ | ⟨t, rel, hb, rfl, ht, hk⟩
    · cases e
    · cases e
    · cases hb
      rcases hk with e | ⟨k, hk, e⟩ | ⟨x, e⟩
      · cases e
      · cases e
        exact ⟨ht, hk, hn⟩
      · cases e
  · obtain ⟨k, -, e⟩ := List.mem_map.1 hf
    cases e

theorem receive_kept {c : DConf} {d : Daemon} (hr : Router.All c.r d.r) {q : Packet} (hq : Harmless c q) : Kept d (receive c d q) := by
  unfold receive
  have hl : ∀ p ∈ fitting c d q.req.name, ∀ top h, p = .command top h →
      (top = c.r.lsdb.router ++ [Comp.str "nlsr"] ∨ top = nm ["localhost", "nlsr"]) ∧ h ∈ Access.handlers ∧
      top ++ h.rel <+: q.req.name := by
    intro p hp top h e
    subst e
    exact fitting_command hp
  have key : ∀ (l : List Part) (e : Daemon), Router.All c.r e.r → (∀ p ∈ l, ∀ top h, p = .command top h →
      (top = c.r.lsdb.router ++ [Comp.str "nlsr"] ∨ top = nm ["localhost", "nlsr"]) ∧ h ∈ Access.handlers ∧
      top ++ h.rel <+: q.req.name) → Kept e (l.foldl (hand c q) e) := by
    intro l
    induction l with
    | nil => exact fun e _ _ => Kept.refl e
    | cons p ps ih =>
      intro e he hl
      exact (hand_kept he hq (hl p (by simp))).trans (ih _ (hand_all he q p) (fun x hx => hl x (by simp [hx])))
  exact key _ d hr hl

/-- C114: interests that carry out no command change nothing but what was sent, however many there are. -/
theorem C114_readonly {c : DConf} {d : Daemon} (h : Reachable c d) (qs : List Packet) (hq : ∀ q ∈ qs, Harmless c q) :
    Kept d (run c d (qs.map .interest)) := by
  have hr := h.all
  clear h
  induction qs generalizing d with
  | nil => exact Kept.refl d
  | cons q qs ih =>
    exact (receive_kept hr (hq q (by simp))).trans (ih (fun x hx => hq x (by simp [hx])) (hands_all q _ hr))

/-! ### who gets an interest -/

/-- A key that is not named like the things the other parts answer: certificates of NLSR's trust model are named
`/<identity>/KEY/...` for a network, an operator, a router or a router's NLSR (nlsr.conf:132-318). -/
structure KeyName (c : DConf) (k : Name) : Prop where
  key : Comp.str "KEY" ∈ k
  lsa : ¬ c.r.lsdb.names.lsaPrefix <+: k
  sync : ¬ c.r.syncPrefix <+: k
  below : ∀ top, (top = c.r.lsdb.router ++ [Comp.str "nlsr"] ∨ top = nm ["localhost", "nlsr"]) →
    ∀ w ∈ ["INFO", "prefix-update", "rib", "lsdb", "routing-table"], ¬ top ++ [Comp.str w] <+: k

theorem KeyName.apart {c : DConf} {k : Name} (h : KeyName c k) : KeysApart c k := by
  refine ⟨h.key, fun f p hf hp => ?_⟩
  rcases mem_fixed hf with ⟨-, rfl⟩ | ⟨-, rfl⟩ | ⟨t, r, hb, rfl, ht, hk⟩
  · exact h.lsa hp
  · exact h.sync hp
  · have : ∃ w ∈ ["INFO", "prefix-update", "rib", "lsdb", "routing-table"], ∃ u, r = Comp.str w :: u := by
      rcases hk with rfl | ⟨j, hj, rfl⟩ | ⟨d, rfl⟩
      · cases hb; exact ⟨"INFO", by decide, [], rfl⟩
      · cases hb
        simp only [Access.handlers, List.mem_cons, List.not_mem_nil, or_false] at hj
        rcases hj with rfl | rfl | rfl | rfl
        · exact ⟨"prefix-update", by decide, _, rfl⟩
        · exact ⟨"prefix-update", by decide, _, rfl⟩
        · exact ⟨"rib", by decide, _, rfl⟩
        · exact ⟨"rib", by decide, _, rfl⟩
      · cases hb
        cases d
        · exact ⟨"lsdb", by decide, _, rfl⟩
        · exact ⟨"lsdb", by decide, _, rfl⟩
        · exact ⟨"lsdb", by decide, _, rfl⟩
        · exact ⟨"routing-table", by decide, _, rfl⟩
    obtain ⟨w, hw, u, rfl⟩ := this
    refine h.below t ht w hw (List.IsPrefix.trans ?_ hp)
    exact ⟨u, by simp⟩

/-- The certificates the validator fetches are named like keys. -/
def GoodOps (c : DConf) (ops : List Op) : Prop :=
  ∀ cache kl, Op.segment cache kl ∈ ops → ∀ n x, cache n = some x → KeyName c (Cert.keyOf x.name)

theorem hand_filters (c : DConf) (q : Packet) (d : Daemon) (p : Part) : (hand c q d p).certs.filters = d.certs.filters := by
  unfold hand
  split
  · rfl
  · cases p with
    | lsdb => rfl
    | sync => rfl
    | hello => rfl
    | command top h =>
      show (command c d q.req top h).certs.filters = _
      unfold command
      split
      · rfl
      · split
        · rfl
        · split
          · split <;> rfl
          · rfl
    | dataset top x =>
      show (dataset d q.req top x).certs.filters = _
      unfold dataset
      split
      · rfl
      · split <;> rfl
    | certs => dsimp only; split <;> rfl

theorem step_filters {c : DConf} {d : Daemon} {op : Op} (ho : GoodOps c [op])
    (hd : ∀ k ∈ d.certs.filters, k ∈ CertStore.keyPrefixes c.r.lsdb.names ∨ KeysApart c k) :
    ∀ k ∈ (step c d op).certs.filters, k ∈ CertStore.keyPrefixes c.r.lsdb.names ∨ KeysApart c k := by
  cases op with
  | interest q =>
    have : ∀ (l : List Part) (d : Daemon), (l.foldl (hand c q) d).certs.filters = d.certs.filters := by
      intro l
      induction l with
      | nil => exact fun d => rfl
      | cons p ps ih => exact fun d => (ih _).trans (hand_filters c q d p)
    show ∀ k ∈ (receive c d q).certs.filters, _
    unfold receive
    rw [this]
    exact hd
  | router op =>
    unfold step
    dsimp only
    split <;> exact hd
  | segment cache kl =>
    unfold step
    dsimp only
    split
    · exact hd
    · split
      · exact hd
      · rename_i s hs
        unfold CertStore.segment at hs
        cases kl with
        | none => cases hs; exact hd
        | some n =>
          dsimp only at hs
          split at hs
          · obtain ⟨l, b, h1, rfl⟩ := CertStore.publish_chain _ _ _ _ _ hs
            intro k hk
            rcases List.mem_append.1 hk with hk | hk
            · exact hd k hk
            · obtain ⟨x, hx, rfl⟩ := List.mem_map.1 hk
              obtain ⟨m, hm⟩ := CertStore.chain_mem h1 x hx
              exact Or.inr (ho cache _ List.mem_cons_self m x hm).apart
          · cases hs; exact hd

theorem listen_filters (l : List Name) : ∀ s : CertStore, (l.foldl CertStore.listen s).filters = s.filters ++ l := by
  induction l with
  | nil => exact fun s => (List.append_nil _).symm
  | cons x xs ih =>
    intro s
    rw [List.foldl_cons, ih]
    simp [CertStore.listen]

theorem insert_filters (l : List Cert) : ∀ s : CertStore, (l.foldl CertStore.insert s).filters = s.filters := by
  induction l with
  | nil => exact fun s => rfl
  | cons x xs ih => exact fun s => ih (s.insert x)

theorem init_filters (r : RouterConf) (certs : List Cert) : (CertStore.init r certs).filters = CertStore.keyPrefixes r := by
  unfold CertStore.init
  rw [listen_filters, insert_filters]
  rfl

/-- States the daemon can be in if the certificates it fetches are named like keys. -/
def ReachableKeys (c : DConf) (d : Daemon) : Prop :=
  ∃ disk adjs start sys file certs ops, GoodOps c ops ∧ d = run c (init c disk adjs start sys file certs) ops

theorem ReachableKeys.keys {c : DConf} {d : Daemon} (h : ReachableKeys c d) :
    ∀ k ∈ d.certs.filters, k ∈ CertStore.keyPrefixes c.r.lsdb.names ∨ KeysApart c k := by
  obtain ⟨disk, adjs, start, sys, file, certs, ops, ho, rfl⟩ := h
  have key : ∀ (ops : List Op) (d : Daemon), GoodOps c ops →
      (∀ k ∈ d.certs.filters, k ∈ CertStore.keyPrefixes c.r.lsdb.names ∨ KeysApart c k) →
      ∀ k ∈ (run c d ops).certs.filters, k ∈ CertStore.keyPrefixes c.r.lsdb.names ∨ KeysApart c k := by
    intro ops
    induction ops with
    | nil => exact fun d _ h => h
    | cons op ops ih =>
      intro d ho h
      refine ih _ (fun cache kl hm => ho cache kl (List.mem_cons_of_mem _ hm)) (step_filters (fun cache kl hm => ?_) h)
      exact ho cache kl (by rw [List.mem_singleton.1 hm]; exact List.mem_cons_self)
  refine key ops _ ho ?_
  intro k hk
  refine Or.inl ?_
  have : (init c disk adjs start sys file certs).certs.filters = CertStore.keyPrefixes c.r.lsdb.names := init_filters _ _
  rwa [this] at hk

/-- All the filters the certificate store started with are still there. -/
theorem ReachableKeys.start {c : DConf} {d : Daemon} (h : ReachableKeys c d) {k : Name} (hk : k ∈ CertStore.keyPrefixes c.r.lsdb.names) :
    k ∈ d.certs.filters := by
  obtain ⟨disk, adjs, start, sys, file, certs, ops, -, rfl⟩ := h
  have one : ∀ (d : Daemon) (op : Op), k ∈ d.certs.filters → k ∈ (step c d op).certs.filters := by
    intro d op hd
    cases op with
    | interest q =>
      have : ∀ (l : List Part) (d : Daemon), (l.foldl (hand c q) d).certs.filters = d.certs.filters := by
        intro l
        induction l with
        | nil => exact fun d => rfl
        | cons p ps ih => exact fun d => (ih _).trans (hand_filters c q d p)
      show k ∈ (receive c d q).certs.filters
      unfold receive
      rwa [this]
    | router op =>
      unfold step
      dsimp only
      split <;> exact hd
    | segment cache kl =>
      unfold step
      dsimp only
      split
      · exact hd
      · split
        · exact hd
        · rename_i s hs
          unfold CertStore.segment at hs
          cases kl with
          | none => cases hs; exact hd
          | some n =>
            dsimp only at hs
            split at hs
            · obtain ⟨l, b, h1, rfl⟩ := CertStore.publish_chain _ _ _ _ _ hs
              exact List.mem_append_left _ hd
            · cases hs; exact hd
  have key : ∀ (ops : List Op) (d : Daemon), k ∈ d.certs.filters → k ∈ (run c d ops).certs.filters := by
    intro ops
    induction ops with
    | nil => exact fun d h => h
    | cons op ops ih => exact fun d h => ih _ (one d op h)
  refine key ops _ ?_
  have : (init c disk adjs start sys file certs).certs.filters = CertStore.keyPrefixes c.r.lsdb.names := init_filters _ _
  rwa [this]

/-- C114: no interest is handed to two parts of the daemon, for names as operators choose them. -/
theorem C114_one_part_partial {c : DConf} (hc : Plain c) {d : Daemon} (h : ReachableKeys c d) (n : Name) {p q : Part}
    (hp : p ∈ fitting c d n) (hq : q ∈ fitting c d n) : p = q := by
  obtain ⟨f, hf, hfn⟩ := mem_fitting hp
  obtain ⟨g, hg, hgn⟩ := mem_fitting hq
  exact hc.one h.keys hf hg (Cmp.of hfn hgn)

theorem Plain.tops {c : DConf} (hc : Plain c) :
    Access.tops c.env = [c.r.lsdb.router ++ [Comp.str "nlsr"], nm ["localhost", "nlsr"]] ∧
    c.r.lsdb.router ++ [Comp.str "nlsr"] ≠ nm ["localhost", "nlsr"] := by
  have hcmp : ¬ Cmp (c.r.lsdb.router ++ [Comp.str "nlsr"]) (nm ["localhost", "nlsr"]) := by
    intro h
    have hh := h.head (by simp) (by simp [nm])
    rw [← List.append_nil (c.r.lsdb.router ++ [Comp.str "nlsr"])] at hh
    exact (hc.own_head hh).2 rfl
  refine ⟨?_, fun e => hcmp (Or.inl (by rw [e]; exact List.prefix_refl _))⟩
  unfold Access.tops
  dsimp only
  rw [if_neg]
  · rfl
  intro hp
  rcases Bool.or_eq_true _ _ ▸ hp with hp | hp
  · exact hcmp (Or.inl (List.isPrefixOf_iff_prefix.1 hp))
  · exact hcmp (Or.inr (List.isPrefixOf_iff_prefix.1 hp))

theorem Plain.nodup {c : DConf} (hc : Plain c) : ((fixed c).map (·.2)).Nodup := by
  obtain ⟨ht, hne⟩ := hc.tops
  have e : (fixed c).map (·.2) = [Part.lsdb, .sync, .hello] ++ (Access.tops c.env).flatMap (fun t =>
      Access.handlers.map (fun h => Part.command t h) ++ Dataset.all.map (fun d => Part.dataset t d)) := by
    unfold fixed
    rw [List.map_append, List.map_flatMap]
    simp only [List.map_append, List.map_map]
    rfl
  rw [e, ht]
  generalize c.r.lsdb.router ++ [Comp.str "nlsr"] = own at *
  have hk : Access.handlers.Nodup := by decide +kernel
  simp only [Access.handlers, List.nodup_cons, List.mem_cons, List.not_mem_nil, or_false, not_or] at hk
  simp [Access.handlers, Dataset.all, hne, hk]

/-- An interest that fits a fixed filter goes there and nowhere else, once. -/
theorem Plain.only {c : DConf} (hc : Plain c) {d : Daemon} (h : ReachableKeys c d) {n f : Name} {p : Part} (hf : (f, p) ∈ fixed c)
    (hn : f <+: n) : fitting c d n = [p] := by
  have hall : ∀ q ∈ fitting c d n, q = p := fun q hq => C114_one_part_partial hc h n hq (fitting_mem (List.mem_append_left _ hf) hn)
  have hcert : Part.certs ≠ p := by
    intro e
    subst e
    rcases mem_fixed hf with ⟨e, -⟩ | ⟨e, -⟩ | ⟨t, r, hb, -⟩
    · cases e
    · cases e
    · cases hb
  have hs : fitting c d n = ((fixed c).filter (fun f => Name.isPrefixOf f.1 n)).map (·.2) := by
    unfold fitting filters
    rw [List.filter_append, List.map_append]
    have : (d.certs.filters.map (fun f => (f, Part.certs))).filter (fun f => Name.isPrefixOf f.1 n) = [] := by
      refine List.filter_eq_nil_iff.2 (fun x hx hfit => ?_)
      obtain ⟨k, hk, rfl⟩ := List.mem_map.1 hx
      exact hcert (hall _ (fitting_mem (List.mem_append_right _ (List.mem_map.2 ⟨k, hk, rfl⟩)) (List.isPrefixOf_iff_prefix.1 hfit)))
    rw [this]
    simp
  have hnd : (fitting c d n).Nodup := by
    rw [hs]
    exact (List.filter_sublist.map _).nodup hc.nodup
  have hm : p ∈ fitting c d n := fitting_mem (List.mem_append_left _ hf) hn
  generalize fitting c d n = l at *
  cases l with
  | nil => cases hm
  | cons x l =>
    obtain rfl := hall x (by simp)
    cases l with
    | nil => rfl
    | cons y l =>
      obtain rfl := hall y (by simp)
      exact absurd (List.nodup_cons.1 hnd).1 (by simp)

/-- C114: the interests by which routers of the network fetch LSAs, this router's and those it has stored, go to the LSDB only. -/
theorem C114_lsa_partial {c : DConf} (hc : Plain c) {d : Daemon} (h : ReachableKeys c d) (r : RouterConf)
    (hr : r.network = c.r.lsdb.names.network) (t : LsaType) (seq : Nat) (rest : Name) :
    fitting c d (r.lsaInterest t seq ++ rest) = [.lsdb] := by
  refine hc.only h (f := c.r.lsdb.names.lsaPrefix) (by simp [fixed]) ?_
  unfold RouterConf.lsaInterest RouterConf.lsaUserPrefix RouterConf.syncUserPrefix
  have : r.lsaPrefix = c.r.lsdb.names.lsaPrefix := by unfold RouterConf.lsaPrefix; rw [hr]
  rw [this]
  simp only [List.append_assoc]
  exact List.prefix_append _ _

/-- C114: the interests by which neighbours greet this router go to the hello protocol only. -/
theorem C114_hello_partial {c : DConf} (hc : Plain c) {d : Daemon} (h : ReachableKeys c d) (nb : NConf) :
    fitting c d (Nbr.helloName nb c.r.lsdb.router) = [.hello] := by
  refine hc.only h (f := c.r.lsdb.router ++ [Nbr.nlsrComp, Nbr.infoComp]) (by simp [fixed]) ?_
  exact ⟨[⟨8, Tlv.encName nb.router⟩], by simp [Nbr.helloName]⟩

/-- C114: the interests by which another router is greeted do not go to this router's hello protocol. -/
theorem C114_hello_elsewhere {c : DConf} {d : Daemon} (nb : NConf) (r : Name) (hr : r ≠ c.r.lsdb.router) (hn : Comp.str "nlsr" ∉ r) :
    Part.hello ∉ fitting c d (Nbr.helloName nb r) := by
  intro hm
  obtain ⟨f, hf, hp⟩ := mem_fitting hm
  rcases List.mem_append.1 hf with hf | hf
  · rcases mem_fixed hf with ⟨e, -⟩ | ⟨e, -⟩ | ⟨t, rel, hb, rfl, -, -⟩
    · cases e
    · cases e
    · cases hb
      unfold Nbr.helloName at hp
      rw [List.append_assoc] at hp
      by_cases hl : c.r.lsdb.router.length = r.length
      · have e : c.r.lsdb.router = r :=
          (List.prefix_of_prefix_length_le ((List.prefix_append _ _).trans hp) (List.prefix_append _ _) (Nat.le_of_eq hl)).eq_of_length hl
        exact hr e.symm
      · obtain ⟨u, hu⟩ := hp
        have hlen := congrArg List.length hu
        simp only [List.length_append, List.length_cons, List.length_nil] at hlen
        rcases Nat.lt_or_ge c.r.lsdb.router.length r.length with hlt | hge
        · have e := congrArg (fun l : Name => l[c.r.lsdb.router.length]?) hu
          simp only [List.append_assoc] at e
          rw [List.getElem?_append_right (Nat.le_refl _), List.getElem?_append_left hlt, Nat.sub_self] at e
          have : (Comp.str "nlsr") ∈ r := List.mem_of_getElem? e.symm
          exact hn this
        · have e := congrArg (fun l : Name => l[c.r.lsdb.router.length]?) hu
          simp only [List.append_assoc] at e
          rw [List.getElem?_append_right (Nat.le_refl _), List.getElem?_append_right hge, Nat.sub_self] at e
          have h1 : c.r.lsdb.router.length - r.length = 1 := by omega
          rw [h1] at e
          exact absurd (Option.some.inj e) (by decide +kernel)
  · obtain ⟨k, -, e⟩ := List.mem_map.1 hf
    cases e

/-- C114: the commands and the datasets can be asked for below the router's name and below `/localhost/nlsr`, and go to their
handlers only. -/
theorem C114_dispatcher_partial {c : DConf} (hc : Plain c) {d : Daemon} (h : ReachableKeys c d) {top : Name}
    (ht : top = c.r.lsdb.router ++ [Comp.str "nlsr"] ∨ top = nm ["localhost", "nlsr"]) (rest : Name) :
    fitting c d (top ++ nm ["prefix-update", "advertise"] ++ rest) =
      [.command top ⟨nm ["prefix-update", "advertise"], .nlsr, .advertise⟩] ∧
    fitting c d (top ++ nm ["prefix-update", "withdraw"] ++ rest) =
      [.command top ⟨nm ["prefix-update", "withdraw"], .nlsr, .withdraw⟩] ∧
    fitting c d (top ++ nm ["rib", "register"] ++ rest) = [.command top ⟨nm ["rib", "register"], .rib, .advertise⟩] ∧
    fitting c d (top ++ nm ["rib", "unregister"] ++ rest) = [.command top ⟨nm ["rib", "unregister"], .rib, .withdraw⟩] ∧
    fitting c d (top ++ nm ["lsdb", "adjacencies"] ++ rest) = [.dataset top .adjacencies] ∧
    fitting c d (top ++ nm ["lsdb", "coordinates"] ++ rest) = [.dataset top .coordinates] ∧
    fitting c d (top ++ nm ["lsdb", "names"] ++ rest) = [.dataset top .names] ∧
    fitting c d (top ++ nm ["routing-table"] ++ rest) = [.dataset top .routingTable] := by
  have hm : ∀ {x : Name × Part}, x ∈ (Access.handlers.map (fun h => (top ++ h.rel, Part.command top h)) ++
      Dataset.all.map (fun d => (top ++ d.rel, Part.dataset top d))) → x ∈ fixed c := by
    intro x hx
    refine List.mem_append_right _ (List.mem_flatMap.2 ⟨top, ?_, hx⟩)
    rw [hc.tops.1]
    rcases ht with rfl | rfl <;> simp
  refine ⟨?_, ?_, ?_, ?_, ?_, ?_, ?_, ?_⟩ <;> refine hc.only h (hm ?_) (List.prefix_append _ _) <;>
    simp [Access.handlers, Dataset.all, Dataset.rel]

/-- C114: interests for the certificates of the router, its NLSR, its operator and its site go to the certificate store only. -/
theorem C114_keys_partial {c : DConf} (hc : Plain c) {d : Daemon} (h : ReachableKeys c d) {k : Name}
    (hk : k ∈ [c.r.lsdb.router ++ nm ["nlsr", "KEY"], c.r.lsdb.router ++ nm ["KEY"],
      c.r.lsdb.names.network ++ c.r.lsdb.names.site ++ [Nbr.operatorTag], c.r.lsdb.names.network ++ c.r.lsdb.names.site ++ nm ["KEY"]])
    (rest : Name) (p : Part) : p ∈ fitting c d (k ++ rest) ↔ p = .certs := by
  have hm : Part.certs ∈ fitting c d (k ++ rest) :=
    fitting_mem (List.mem_append_right _ (List.mem_map.2 ⟨k, h.start hk, rfl⟩)) (List.prefix_append _ _)
  constructor
  · exact fun hp => C114_one_part_partial hc h _ hp hm
  · rintro rfl; exact hm

/-! ### what a command does -/

theorem buildName_log (c : LConf) (s : Lsdb) : ∃ outs, (Lsdb.buildName c s).log = s.log ++ outs ∧ Router.newOrigins outs = [] := by
  unfold Lsdb.buildName
  dsimp only
  have ha : ∃ a b, (Lsdb.announce s .name true).log = s.log ++ [Out.persist a, Out.publish .name b] := by
    refine ⟨s.seqs.set .name (inc64 (s.seqs.get .name)), (s.seqs.set .name (inc64 (s.seqs.get .name))).get .name, ?_⟩
    show (s.log ++ [_]) ++ [_] = _
    rw [List.append_assoc]
    rfl
  obtain ⟨a, b, ha⟩ := ha
  unfold Lsdb.installLsa
  dsimp only
  split
  · exact ⟨_, by show (Lsdb.announce s .name true).log ++ [_] = _; rw [ha, List.append_assoc], rfl⟩
  · split
    · unfold Lsdb.installUpdate
      dsimp only
      split
      · exact ⟨_, by show (Lsdb.announce s .name true).log ++ [_] = _; rw [ha, List.append_assoc], rfl⟩
      · exact ⟨_, by show (Lsdb.announce s .name true).log = _; rw [ha], rfl⟩
    · exact ⟨_, ha, rfl⟩

theorem told_names {c : RConf} {s : Router} (he : s.ended = false) (l : List PrefixInfo) :
    Router.step c s (.core (.lsdb (.setNpl l))) = { s with core := { s.core with lsdb := { s.core.lsdb with npl := l } } } := by
  unfold Router.step
  rw [he]
  show Router.coreStep c s (.lsdb (.setNpl l)) = _
  unfold Router.coreStep
  dsimp only
  rw [Core.lsdb_silent c.core s.core (.setNpl l) rfl]
  dsimp only
  rw [List.drop_length]
  have : (Lsdb.step c.core.lsdb s.core.lsdb (.setNpl l)).log = s.core.lsdb.log := rfl
  rw [this, List.drop_length]
  rfl

theorem told_build {c : RConf} {s : Router} (he : s.ended = false) :
    (Router.step c s (.core (.lsdb .buildName))).core.lsdb = Lsdb.buildName c.lsdb s.core.lsdb := by
  unfold Router.step
  rw [he]
  show (Router.coreStep c s (.lsdb .buildName)).core.lsdb = _
  rw [Router.coreStep_told]
  have hl : (Core.step c.core s.core (.lsdb .buildName)).lsdb = Lsdb.buildName c.lsdb s.core.lsdb := Core.step_lsdb c.core s.core _
  obtain ⟨outs, ho, hn⟩ := buildName_log c.lsdb s.core.lsdb
  rw [hl, ho, List.drop_left, hn]
  show (Router.told c s (.lsdb .buildName)).core.lsdb = _
  rw [(Router.told_same c s (.lsdb .buildName)).2, hl]

/-- What the daemon does with a command is what the command does (C27, C28, C31 and others say what that is). -/
theorem carryOut_view {c : DConf} {d : Daemon} (he : d.r.ended = false) (x : Cmd) :
    (carryOut c d x).view = CmdState.step c.r.lsdb d.view (.cmd x) := by
  have hset := told_names (c := c.r) he (Net.listed d.npl x).2.infos
  have he' : ({ d.r with core := { d.r.core with lsdb := { d.r.core.lsdb with npl := (Net.listed d.npl x).2.infos } } } : Router).ended =
      false := he
  have hb := told_build (c := c.r) he'
  have hl : (CmdState.step c.r.lsdb d.view (.cmd x)).lsdb =
      if (Net.listed d.npl x).1 then Lsdb.buildName c.r.lsdb { d.r.core.lsdb with npl := (Net.listed d.npl x).2.infos }
      else { d.r.core.lsdb with npl := (Net.listed d.npl x).2.infos } := by
    obtain ⟨via, verb, name, cost, flags, face⟩ := x
    cases verb with
    | advertise =>
      show (CmdState.advertise c.r.lsdb d.view _).lsdb = _
      unfold CmdState.advertise Net.listed
      dsimp only
      split <;> rename_i h1 <;> (have h1' := h1; dsimp only [view] at h1'; simp only [h1', if_true]) <;> split <;>
        first | rfl | (unfold CmdState.saveReply; split <;> first | rfl | (dsimp only; split <;> rfl))
    | withdraw =>
      show (CmdState.withdraw c.r.lsdb d.view _).lsdb = _
      unfold CmdState.withdraw Net.listed
      dsimp only
      split <;> rename_i h1 <;> (have h1' := h1; dsimp only [view] at h1'; simp only [h1', if_true]) <;> split <;>
        first | rfl | (unfold CmdState.deleteReply; split <;> rfl)
  have hr : (carryOut c d x).r.core.lsdb = (CmdState.step c.r.lsdb d.view (.cmd x)).lsdb := by
    rw [hl]
    unfold carryOut
    dsimp only
    rw [hset]
    split
    · exact hb
    · rfl
  show ({ npl := _, lsdb := (carryOut c d x).r.core.lsdb, file := _, replies := _, undef := _ } : CmdState) = _
  rw [hr]
  rfl

/-- C114: a command that is authorized and in order, sent to this router's prefix or `/localhost/nlsr`, is carried out exactly once:
the list of prefixes, the LSDB, the file and the reply are as the command says. -/
theorem C114_command_partial {c : DConf} (hc : Plain c) {d : Daemon} (h : ReachableKeys c d) (he : d.ended = false) {top : Name}
    (ht : top = c.r.lsdb.router ++ [Comp.str "nlsr"] ∨ top = nm ["localhost", "nlsr"]) {k : Access.Handler} (hk : k ∈ Access.handlers)
    (p : Comp) (rest : Name) (key : Option Name) (ver : Nat) {x : Access.Params} (hx : c.decode k.rel p = some x)
    (ha : k.via = .rib ∨ c.valid ⟨top ++ k.rel ++ p :: rest, key⟩ = true) (hw : Access.wellFormed k x = true) :
    (receive c d ⟨⟨top ++ k.rel ++ p :: rest, key⟩, ver⟩).view =
      CmdState.step c.r.lsdb d.view (.cmd ⟨k.via, k.verb, x.name.getD [], x.cost, x.flags, x.faceId⟩) := by
  have hf : fitting c d (top ++ k.rel ++ p :: rest) = [.command top k] := by
    refine hc.only h ?_ (List.prefix_append _ _)
    refine List.mem_append_right _ (List.mem_flatMap.2 ⟨top, ?_, List.mem_append_left _ (List.mem_map.2 ⟨k, hk, rfl⟩)⟩)
    rw [hc.tops.1]
    rcases ht with rfl | rfl <;> simp
  unfold receive
  dsimp only
  rw [hf]
  show (hand c _ d (.command top k)).view = _
  unfold hand
  rw [he]
  show (command c d ⟨top ++ k.rel ++ p :: rest, key⟩ top k).view = _
  unfold command
  dsimp only
  rw [List.getElem?_append_right (Nat.le_refl _), Nat.sub_self]
  dsimp only [List.getElem?_cons_zero]
  rw [hx]
  dsimp only
  have hauth : Access.authorized c.env k ⟨top ++ k.rel ++ p :: rest, key⟩ = true := by
    unfold Access.authorized
    rcases ha with e | e
    · rw [e]
    · split
      · exact e
      · rfl
  rw [hauth, hw]
  have hre : d.r.ended = false := by
    unfold ended at he
    rw [Bool.or_eq_false_iff, Bool.or_eq_false_iff] at he
    exact he.1.1
  exact carryOut_view hre _

/-! ### the hypotheses can be met -/

/-- Router /net/site/r1.  Parameters that read `P` ask for /q, and commands signed with the operator's key are valid. -/
def exDC : DConf where
  r := { exRC .off 0 with syncPrefix := nm ["localhop", "net", "nlsr", "sync"] ++ [⟨54, [9]⟩] }
  decode := fun _ p => if p = Comp.str "P" then some { name := some (nm ["q"]) } else none
  valid := fun q => decide (q.key = some (nm ["net", "op", "KEY", "1"]))
  depth := 5

theorem exDC_plain : Plain exDC := by
  refine ⟨by decide +kernel, by decide +kernel, by decide +kernel, by decide +kernel, by decide +kernel, ⟨54, [9]⟩, rfl, Or.inl ?_⟩
  decide +kernel

/-- The certificate of r2, signed by the site. -/
def exCertR2 : Cert := ⟨exR2 ++ nm ["nlsr", "KEY", "k2", "issuer", "v1"], some (nm ["net", "site", "KEY", "s"]), [2]⟩

/-- The faces of the neighbours are found, and a segment of r2 was validated. -/
def exEvents : List Op :=
  exUp.map .router ++ [.segment (fun n => if n = exR2 ++ nm ["nlsr", "KEY", "k2"] then some exCertR2 else none)
    (some (exR2 ++ nm ["nlsr", "KEY", "k2"]))]

def exDaemon : Daemon := run exDC (init exDC none exNbrs [(nm ["a"], .fin 5)] 0 none [⟨exR1 ++ nm ["KEY", "k1", "i", "v1"], none, [1]⟩]) exEvents

theorem exEvents_good : GoodOps exDC exEvents := by
  intro cache kl hm n x hx
  have hm : Op.segment cache kl = .segment (fun n => if n = exR2 ++ nm ["nlsr", "KEY", "k2"] then some exCertR2 else none)
      (some (exR2 ++ nm ["nlsr", "KEY", "k2"])) := by
    rcases List.mem_append.1 hm with hm | hm
    · obtain ⟨y, -, e⟩ := List.mem_map.1 hm
      cases e
    · exact List.mem_singleton.1 hm
  cases hm
  dsimp only at hx
  split at hx
  · cases hx
    refine ⟨by decide +kernel, by decide +kernel, by decide +kernel, ?_⟩
    rintro top (rfl | rfl) <;> decide +kernel
  · cases hx

theorem exDaemon_keys : ReachableKeys exDC exDaemon := ⟨none, exNbrs, [(nm ["a"], .fin 5)], 0, none, _, exEvents, exEvents_good, rfl⟩

theorem exDaemon_reachable : Reachable exDC exDaemon := ⟨none, exNbrs, _, 0, none, _, exEvents, exNbrs_fresh, rfl⟩

/-- Interests for the LSDB, the hello protocol, the certificates of r1 and r2, a dataset, and a command nobody signed. -/
def exPackets : List Packet :=
  [⟨⟨nm ["localhop", "net", "nlsr", "LSA", "site", "r1", "NAME"] ++ [Comp.number 1], none⟩, 7⟩,
   ⟨⟨exR1 ++ nm ["nlsr", "INFO"] ++ [⟨8, Tlv.encName exR2⟩], none⟩, 8⟩,
   ⟨⟨exR1 ++ nm ["KEY", "k1"], none⟩, 9⟩, ⟨⟨exR2 ++ nm ["nlsr", "KEY", "k2"], none⟩, 10⟩,
   ⟨⟨nm ["localhost", "nlsr", "lsdb", "names"], none⟩, 11⟩,
   ⟨⟨nm ["localhost", "nlsr", "prefix-update", "advertise", "P"], none⟩, 12⟩]

/-- `C114_readonly` has cases: all of them were answered. -/
example : Reachable exDC exDaemon ∧ (∀ q ∈ exPackets, Harmless exDC q) ∧
    let e := run exDC exDaemon (exPackets.map .interest)
    e.ended = false ∧ e.r.core.lsdb.log.length = exDaemon.r.core.lsdb.log.length + 1 ∧
    e.r.nbr.out = exDaemon.r.nbr.out ++ [.data (exR1 ++ nm ["nlsr", "INFO"] ++ [⟨8, Tlv.encName exR2⟩, ⟨54, [8]⟩])] ∧
    e.certs.sent.map (·.content) = [[1], [2]] ∧ e.sets = [(nm ["localhost", "nlsr"], .names)] ∧ e.refused = [403] := by
  refine ⟨exDaemon_reachable, ?_, by decide +kernel⟩
  intro q hq top ht
  have h : ∀ q ∈ exPackets, ∀ top ∈ [exDC.r.lsdb.router ++ nm ["nlsr"], nm ["localhost", "nlsr"]],
      (exDC.valid q.req = true → ¬ top ++ nm ["prefix-update", "advertise"] <+: q.req.name ∧
        ¬ top ++ nm ["prefix-update", "withdraw"] <+: q.req.name) ∧
      ¬ top ++ nm ["rib", "register"] <+: q.req.name ∧ ¬ top ++ nm ["rib", "unregister"] <+: q.req.name := by decide +kernel
  exact h q hq top (by rcases ht with rfl | rfl <;> simp)

/-- `C114_one_part_partial` and the theorems after it have cases: the parts that get these interests. -/
example : Plain exDC ∧ ReachableKeys exDC exDaemon ∧
    exPackets.map (fun q => (fitting exDC exDaemon q.req.name).map (fun p => match p with
      | .lsdb => 0 | .sync => 1 | .hello => 2 | .command .. => 3 | .dataset .. => 4 | .certs => 5)) =
      [[0], [2], [5], [5], [4], [3]] ∧
    exDaemon.certs.filters.length = 5 := ⟨exDC_plain, exDaemon_keys, by decide +kernel, by decide +kernel⟩

/-- `C114_command_partial` has cases: a signed command advertises /q. -/
example : exDaemon.ended = false ∧
    (receive exDC exDaemon ⟨⟨nm ["localhost", "nlsr", "prefix-update", "advertise", "P"], some (nm ["net", "op", "KEY", "1"])⟩, 1⟩).npl.names =
      [nm ["a"], nm ["q"]] ∧
    (receive exDC exDaemon ⟨⟨nm ["localhost", "nlsr", "prefix-update", "advertise", "P"], some (nm ["net", "op", "KEY", "1"])⟩, 1⟩).replies =
      [⟨200, 1⟩] ∧
    (receive exDC exDaemon ⟨⟨nm ["localhost", "nlsr", "prefix-update", "advertise", "P"], some (nm ["net", "op", "KEY", "1"])⟩, 1⟩).r.core.lsdb.seqs.name =
      exDaemon.r.core.lsdb.seqs.name + 1 := by decide +kernel

/-! ### what can go wrong -/

/-- The router of a network called /localhost, at the site /nlsr. -/
def exLocal : DConf := { exDC with r := { exDC.r with lsdb := { exConf .off with names := ⟨nm ["localhost"], nm ["nlsr"], nm ["r1"]⟩ } } }

/-- C114 fails for the names of some routers: the dispatcher refuses its second prefix if it overlaps with the first one, and this is
only logged (src/nlsr.cpp:94-95, 156-162).  If the router's name starts with `/localhost/nlsr`, no command and no dataset under
`/localhost/nlsr` reaches the daemon: `nlsrc` gets no answer. -/
theorem C114_violated_local : ∃ (c : DConf) (d : Daemon), ReachableKeys c d ∧ d.ended = false ∧
    ∀ rel ∈ [nm ["prefix-update", "advertise"], nm ["prefix-update", "withdraw"], nm ["lsdb", "adjacencies"], nm ["lsdb", "coordinates"],
      nm ["lsdb", "names"], nm ["routing-table"]], ∀ p : List Comp,
      fitting c d (nm ["localhost", "nlsr"] ++ rel ++ p) = [] := by
  refine ⟨exLocal, init exLocal none [] [] 0 none [], ⟨none, [], [], 0, none, [], [], (fun _ _ h => nomatch h), rfl⟩, by decide +kernel, ?_⟩
  have hf : filters exLocal (init exLocal none [] [] 0 none []) = fixed exLocal ++
      (CertStore.keyPrefixes exLocal.r.lsdb.names).map (fun f => (f, Part.certs)) := by
    unfold filters
    rw [show (init exLocal none [] [] 0 none []).certs.filters = _ from init_filters _ _]
  intro rel hrel p
  unfold fitting
  rw [hf]
  have hno : ∀ x ∈ fixed exLocal ++ (CertStore.keyPrefixes exLocal.r.lsdb.names).map (fun f => (f, Part.certs)),
      ∀ rel ∈ [nm ["prefix-update", "advertise"], nm ["prefix-update", "withdraw"], nm ["lsdb", "adjacencies"], nm ["lsdb", "coordinates"],
        nm ["lsdb", "names"], nm ["routing-table"]], ¬ Cmp x.1 (nm ["localhost", "nlsr"] ++ rel) := by decide +kernel
  refine List.map_eq_nil_iff.2 (List.filter_eq_nil_iff.2 (fun x hx hfit => ?_))
  exact hno x hx rel hrel (Cmp.of (List.isPrefixOf_iff_prefix.1 hfit) (List.prefix_append _ _))

/-- A router that is called like the prefix of the LSAs of its network. -/
def exLsa : DConf := { exDC with r := { exDC.r with lsdb := { exConf .off with names := ⟨nm ["localhop"], nm ["localhop", "nlsr"], nm ["LSA"]⟩ } } }

/-- C114 fails for the names of some routers: a router called `/localhop/localhop/nlsr/LSA` in the network `/localhop` gives every
greeting also to the LSDB. -/
theorem C114_violated_parts : ∃ (c : DConf) (d : Daemon), ReachableKeys c d ∧ d.ended = false ∧
    ∀ nb : NConf, Part.lsdb ∈ fitting c d (Nbr.helloName nb c.r.lsdb.router) ∧ Part.hello ∈ fitting c d (Nbr.helloName nb c.r.lsdb.router) := by
  refine ⟨exLsa, init exLsa none [] [] 0 none [], ⟨none, [], [], 0, none, [], [], (fun _ _ h => nomatch h), rfl⟩, by decide +kernel, ?_⟩
  intro nb
  refine ⟨fitting_mem (f := exLsa.r.lsdb.names.lsaPrefix) (List.mem_append_left _ (by simp [fixed])) ?_,
    fitting_mem (f := exLsa.r.lsdb.router ++ [Nbr.nlsrComp, Nbr.infoComp]) (List.mem_append_left _ (by simp [fixed])) ?_⟩
  · have : exLsa.r.lsdb.names.lsaPrefix = exLsa.r.lsdb.router := by decide +kernel
    rw [this]
    exact List.prefix_append _ _
  · exact ⟨[⟨8, Tlv.encName nb.router⟩], by simp [Nbr.helloName]⟩

end Daemon
end Nlsr
