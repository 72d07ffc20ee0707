import Verif.Lemmas.Greet
import Verif.Props.World

/-!
C94, C95: what a router does for a neighbour that has a face.

`World` (Lemmas/World.lean) is the whole router with the routes NFD has for it.  `Prompt` says what the surroundings do:
NFD accepts registrations, a registration is answered while the neighbour has the face it was made for, faces of
different neighbours have different ids, and a hello reply is validated while its sender has a face.
-/

namespace Nlsr
open Router World

/-- The costs of all neighbours are numbers that `uint64_t` can hold. -/
def CostsFit (A : AdjacencyList) : Prop := ∀ a ∈ A, ∃ q : Rat, a.cost = .fin q ∧ 0 ≤ q ∧ q ≤ 18446744073709551615

/-- No LSA of another router that was stored, changed or removed was of a router `n`, or advertised `n`, or stopped to. -/
def NotForeign (c : RConf) (w : World) (n : Name) : Prop :=
  ∀ k l add rem, Out.signal k l add rem ∈ w.r.core.lsdb.log → l.origin ≠ c.lsdb.router →
    l.origin ≠ n ∧ ∀ p ∈ Npt.lsaNames l ++ add ++ rem, p.name ≠ n

theorem NotForeign.mine {c : RConf} {w : World} {n : Name} (h : NotForeign c w n) : Mine c n w.r :=
  .inr (fun k l a r hm ho => h k l a r hm (fun e => ho e.symm))

theorem toU64_int {z : Int} (h0 : 0 ≤ z) : toU64 (.fin (z : Rat)) = if z < 18446744073709551616 then some z else none := by
  have e : Npt.costLimit = ((18446744073709551616 : Int) : Rat) := by decide +kernel
  have e1 : (-1 : Rat) = ((-1 : Int) : Rat) := by decide +kernel
  have h1 : ¬ ((z : Rat) < 0) := Rat.not_lt.2 (by exact_mod_cast h0)
  unfold toU64
  dsimp only
  rw [e, e1, if_neg h1, Rat.floor_intCast]
  by_cases h : z < 18446744073709551616
  · rw [if_pos h, if_pos ⟨Rat.intCast_lt_intCast.2 (by omega), Rat.intCast_lt_intCast.2 h⟩]
  · rw [if_neg h, if_neg (fun x => h (Rat.intCast_lt_intCast.1 x.2))]

theorem ceil_nonneg {q : Rat} (h0 : 0 ≤ q) : 0 ≤ q.ceil := by
  have h3 : (0 : Rat) ≤ (q.ceil : Rat) := Rat.le_trans h0 Rat.le_ceil
  exact_mod_cast h3

theorem CostsFit.priced {A : AdjacencyList} (h : CostsFit A) : Priced A := by
  intro a ha
  obtain ⟨q, e, h0, h1⟩ := h a ha
  have hc : q.ceil ≤ 18446744073709551615 := Rat.ceil_le_iff.2 h1
  refine ⟨q.ceil, ?_⟩
  unfold Adjacent.linkCost
  rw [e]
  show toU64 (.fin (q.ceil : Rat)) = _
  rw [toU64_int (ceil_nonneg h0), if_pos (by omega)]

/-- NFD has a route for `n` over the neighbour's face that costs what the link costs, rounded up, captures
(flag 2, `ROUTE_FLAG_CAPTURE`), and does not lapse in the next 292 million years. -/
def Routed (w : World) (n : Name) (a : Adjacent) : Prop :=
  ∃ r, w.rib n a.faceId = some r ∧ (∀ q : Rat, a.cost = .fin q → 0 ≤ q → q ≤ r.cost ∧ (r.cost : Rat) < q + 1) ∧ r.flags = 2 ∧
    9223372036854775 * 1000000000 ≤ r.expires

theorem Serves.routed {w : World} {n : Name} {a : Adjacent} (h : Serves w.rib n a) : Routed w n a := by
  obtain ⟨r, h1, h2, h3, h4⟩ := h
  refine ⟨r, h1, fun q e h0 => ?_, h3, h4⟩
  unfold Adjacent.linkCost at h2
  rw [e] at h2
  have h2 : toU64 (.fin (q.ceil : Rat)) = some r.cost := h2
  rw [toU64_int (ceil_nonneg h0)] at h2
  split at h2
  · injection h2 with h2
    rw [← h2]
    exact ⟨Rat.le_ceil, Rat.ceil_lt⟩
  · exact absurd h2 nofun

/-- **C94**, as far as it holds: a neighbour that has a face has in NFD the routes of its name and of the LSA prefix over
this face, and that of the sync prefix while it is up; each with the cost of the link, the capture flag and no expiry.
What others advertise under the neighbours' names does not disturb this; advertising the LSA or sync prefix does
(`C94_violated_advertised`). -/
theorem C94_routes_partial {c : RConf} {w : World} (h : Via c (Prompt c) w) (hc : CostsFit w.r.nbr.adjs)
    (hu : (w.r.nbr.adjs.map (·.uri)).Nodup) {a : Adjacent} (ha : a ∈ w.r.nbr.adjs) (hf : 0 < a.faceId) :
    Routed w a.name a ∧
    (NotForeign c w c.lsdb.names.lsaPrefix → Routed w c.lsdb.names.lsaPrefix a) ∧
    (a.status = .active → NotForeign c w c.syncPrefix → Routed w c.syncPrefix a) := by
  have g := h.greets hc.priced hu
  exact ⟨Serves.routed (g.name a ha hf), fun hn => Serves.routed (g.lsa hn.mine a ha hf),
    fun hs hn => Serves.routed (g.sync hn.mine a ha hs hf)⟩

/-- A neighbour that is up has a face, so that it has all these routes. -/
theorem C94_up_partial {c : RConf} {w : World} (h : Via c (Prompt c) w) (hc : CostsFit w.r.nbr.adjs)
    (hu : (w.r.nbr.adjs.map (·.uri)).Nodup) {a : Adjacent} (ha : a ∈ w.r.nbr.adjs) (hs : a.status = .active) : 0 < a.faceId :=
  (h.greets hc.priced hu).up a ha hs

/-! ### C95 -/

/-- **C95**, as far as it holds: for a neighbour that has a face the registration of its name is under way, or the next
hello is scheduled, at most one hello interval ahead. -/
theorem C95_scheduled_partial {c : RConf} {w : World} (h : Via c (Prompt c) w) (hc : CostsFit w.r.nbr.adjs)
    (hu : (w.r.nbr.adjs.map (·.uri)).Nodup) {a : Adjacent} (ha : a ∈ w.r.nbr.adjs) (hf : 0 < a.faceId) :
    (∃ r ∈ w.r.fib.regs, r.name = a.name ∧ r.uri = a.uri) ∨
    ∃ t, (a.name, t) ∈ w.r.nbr.timers ∧ t ≤ w.r.nbr.now + c.interval * 1000000000 := by
  rcases h.looks hc.priced hu a ha hf with h1 | ⟨t, ht⟩
  · exact .inl h1
  · exact .inr ⟨t, ht, h.reachable.all.base.nbr.soon _ ht⟩

theorem sendHello_sends {c : NConf} {s : Nbr} {a : Adjacent} (hn : (s.adjs.map (·.name)).Nodup) (ha : a ∈ s.adjs) (hf : 0 < a.faceId) :
    (Nbr.sendHello c s a.name).out = s.out ++ [.interest (a.name ++ [Comp.str "nlsr", Comp.str "INFO", ⟨8, Tlv.encName c.router⟩])] ∧
    (a.name, s.now + c.interval * 1000000000) ∈ (Nbr.sendHello c s a.name).timers := by
  have hfind : AdjacencyList.find s.adjs a.name = some a := AdjacencyList.mem_find hn ha
  unfold Nbr.sendHello
  rw [hfind]
  dsimp only
  rw [if_pos (by omega)]
  exact ⟨rfl, List.mem_append_right _ (List.mem_singleton.2 rfl)⟩

/-- When the scheduled hello is due, it is sent, and the next is scheduled one hello interval later. -/
theorem C95_sent {c : RConf} {s : Router} (h : Router.Reachable c s) (he : s.ended = false) {a : Adjacent} (ha : a ∈ s.nbr.adjs)
    (hf : 0 < a.faceId) {i t : Nat} (hi : s.nbr.timers[i]? = some (a.name, t)) (ht : t ≤ s.nbr.now) :
    (Router.step c s (.nbr (.helloTimer i))).nbr.out =
      s.nbr.out ++ [.interest (a.name ++ [Comp.str "nlsr", Comp.str "INFO", ⟨8, Tlv.encName c.lsdb.router⟩])] ∧
    (a.name, s.nbr.now + c.interval * 1000000000) ∈ (Router.step c s (.nbr (.helloTimer i))).nbr.timers := by
  have hd : s.nbr.dead = false := by
    unfold Router.ended at he
    cases hd : s.nbr.dead with
    | false => rfl
    | true => rw [hd] at he; simp at he
  have e1 : Router.step c s (.nbr (.helloTimer i)) = Router.nbrStep c s (.helloTimer i) := by
    unfold Router.step
    rw [if_neg (by rw [he]; nofun)]
    rfl
  have e2 : Nbr.step c.nbr s.nbr (.helloTimer i) = Nbr.sendHello c.nbr { s.nbr with timers := s.nbr.timers.eraseIdx i } a.name := by
    unfold Nbr.step
    rw [if_neg (by rw [hd]; nofun)]
    show Nbr.helloTimer c.nbr s.nbr i = _
    unfold Nbr.helloTimer
    rw [hi]
    exact if_neg (by omega)
  rw [e1, nbrStep_nbr, e2]
  exact sendHello_sends (s := { s.nbr with timers := s.nbr.timers.eraseIdx i }) h.all.base.nbr.ninv.nodup ha hf

/-- When NFD answers the registration of the neighbour's name, a hello is sent at once, and the next is scheduled one
hello interval later. -/
theorem C95_answered {c : RConf} {s : Router} (h : Router.Reachable c s) (he : s.ended = false) {i : Nat} {r : RegReq}
    (hi : s.fib.regs[i]? = some r) {a : Adjacent} (ha : a ∈ (Router.step c s (.regOk i)).nbr.adjs) (hn : a.name = r.name)
    (hf : 0 < a.faceId) :
    (Router.step c s (.regOk i)).nbr.out =
      s.nbr.out ++ [.interest (a.name ++ [Comp.str "nlsr", Comp.str "INFO", ⟨8, Tlv.encName c.lsdb.router⟩])] ∧
    (a.name, s.nbr.now + c.interval * 1000000000) ∈ (Router.step c s (.regOk i)).nbr.timers := by
  have hd : s.nbr.dead = false := by
    unfold Router.ended at he
    cases hd : s.nbr.dead with
    | false => rfl
    | true => rw [hd] at he; simp at he
  have e1 : (Router.step c s (.regOk i)).nbr = Nbr.sendHello c.nbr (Nbr.regFace s.nbr r.uri r.fid) r.name := by
    unfold Router.step
    rw [if_neg (by rw [he]; nofun)]
    show (Router.regOk c s i).nbr = _
    unfold Router.regOk
    rw [hi]
    dsimp only
    rw [nbrStep_nbr, nbrStep_nbr]
    have : Nbr.step c.nbr s.nbr (.regFace r.uri r.fid) = Nbr.regFace s.nbr r.uri r.fid := by
      unfold Nbr.step; rw [if_neg (by rw [hd]; nofun)]; rfl
    dsimp only
    rw [this]
    unfold Nbr.step
    rw [if_neg (by show ¬ s.nbr.dead = true; rw [hd]; nofun)]
    rfl
  have hA : (Router.step c s (.regOk i)).nbr.adjs = (Nbr.regFace s.nbr r.uri r.fid).adjs := by
    rw [e1]; exact (Nbr.sendHello_quiet c.nbr _ r.name).adjs
  rw [hA] at ha
  rw [e1, ← hn]
  have hnd : ((Nbr.regFace s.nbr r.uri r.fid).adjs.map (·.name)).Nodup := by
    show ((AdjacencyList.setFaceOf s.nbr.adjs r.uri r.fid).map (·.name)).Nodup
    rw [AdjacencyList.setFaceOf_map (fun x : Adjacent => x.name) _ _ _ (fun _ => rfl)]
    exact h.all.base.nbr.ninv.nodup
  exact sendHello_sends (s := Nbr.regFace s.nbr r.uri r.fid) hnd ha hf

/-! ### concrete cases -/

/-- `Prompt`, computed. -/
def promptB (c : RConf) (w : World) (op : Router.Op) : Bool :=
  orderlyB c w op &&
  match op with
  | .regOk i =>
    match w.r.fib.regs[i]? with
    | none => true
    | some r => w.r.nbr.adjs.faceIdOf r.uri == r.fid
  | .nbr (.valid i) =>
    match w.r.nbr.validating[i]? with
    | none => true
    | some d => w.r.nbr.adjs.all fun a => a.name != Name.getPrefix d (-4) || decide (0 < a.faceId)
  | _ => true

theorem promptB_spec {c : RConf} {w : World} {op : Router.Op} (h : promptB c w op = true) : Prompt c w op := by
  unfold promptB at h
  rw [Bool.and_eq_true] at h
  refine ⟨orderlyB_spec h.1, ?_, ?_⟩
  · rintro i r rfl hr
    have h1 := h.2
    dsimp only at h1
    rw [hr] at h1
    exact beq_iff_eq.1 h1
  · rintro i d rfl hd a ha hn
    have h1 := h.2
    dsimp only at h1
    rw [hd] at h1
    have h2 := List.all_eq_true.1 h1 a ha
    simp only [Bool.or_eq_true, bne_iff_ne, decide_eq_true_eq] at h2
    rcases h2 with h2 | h2
    · exact absurd hn h2
    · exact h2

theorem goesPrompt {c : RConf} {adjs : AdjacencyList} (hf : Nbr.Fresh adjs) {ops : List Router.Op}
    (h : goesB c (promptB c) (World.init c none adjs [] 0) ops = true) : Via c (Prompt c) (World.run c (World.init c none adjs [] 0) ops) :=
  (goesB_spec (p := promptB c) (fun _ _ => promptB_spec) h).via (.init _ _ _ _ hf)

theorem goesOrderly {c : RConf} {adjs : AdjacencyList} (hf : Nbr.Fresh adjs) {ops : List Router.Op}
    (h : goesB c (orderlyB c) (World.init c none adjs [] 0) ops = true) : Via c (Orderly c) (World.run c (World.init c none adjs [] 0) ops) :=
  (goesB_spec (p := orderlyB c) (fun _ _ => orderlyB_spec) h).via (.init _ _ _ _ hf)

/-- All neighbours cost a number that fits, computed. -/
def fitB (A : AdjacencyList) : Bool := A.all fun a => match a.cost with
  | .fin q => decide (0 ≤ q ∧ q ≤ 18446744073709551615)
  | _ => false

theorem fitB_spec {A : AdjacencyList} (h : fitB A = true) : CostsFit A := by
  intro a ha
  have h1 := List.all_eq_true.1 h a ha
  split at h1
  · exact ⟨_, by assumption, (of_decide_eq_true h1).1, (of_decide_eq_true h1).2⟩
  · exact absurd h1 nofun

/-- `NotForeign`, computed. -/
def foreignB (c : RConf) (w : World) (n : Name) : Bool := w.r.core.lsdb.log.all fun
  | .signal _ l a r => l.origin == c.lsdb.router || (l.origin != n && (Npt.lsaNames l ++ a ++ r).all fun p => p.name != n)
  | _ => true

theorem foreignB_spec {c : RConf} {w : World} {n : Name} (h : foreignB c w n = true) : NotForeign c w n := by
  intro k l a r hm ho
  have h1 := List.all_eq_true.1 h _ hm
  dsimp only at h1
  rw [Bool.or_eq_true, beq_iff_eq, Bool.and_eq_true, bne_iff_ne, List.all_eq_true] at h1
  rcases h1 with h1 | ⟨h1, h2⟩
  · exact absurd h1 ho
  · exact ⟨h1, fun p hp => bne_iff_ne.1 (h2 p hp)⟩

/-- The run of C83: hellos, LSAs, routes, r2's face is lost and comes back with another id; then the next hello is due. -/
def exGreet : List Router.Op := exFlap ++ [.clock (60 * Lsdb.nsPerSec) 0]

/-- The claims of C94 and C95 have cases: both neighbours are up, and hellos are scheduled. -/
example :
    goesB (exRC .off 0) (promptB (exRC .off 0)) exWorld exGreet = true ∧
    (World.run (exRC .off 0) exWorld exGreet).r.nbr.adjs.map (fun a => (a.name, a.faceId, a.status)) =
      [(exR2, 302, .active), (exR3, 301, .active)] ∧
    fitB (World.run (exRC .off 0) exWorld exGreet).r.nbr.adjs = true ∧
    ((World.run (exRC .off 0) exWorld exGreet).r.nbr.adjs.map (·.uri)).Nodup ∧
    foreignB (exRC .off 0) (World.run (exRC .off 0) exWorld exGreet) (exRC .off 0).lsdb.names.lsaPrefix = true ∧
    foreignB (exRC .off 0) (World.run (exRC .off 0) exWorld exGreet) (exRC .off 0).syncPrefix = true ∧
    ((World.run (exRC .off 0) exWorld exGreet).rib exR2 302).isSome = true ∧
    ((World.run (exRC .off 0) exWorld exGreet).rib (exRC .off 0).syncPrefix 302).isSome = true ∧
    (World.run (exRC .off 0) exWorld exGreet).r.ended = false ∧
    (World.run (exRC .off 0) exWorld exGreet).r.nbr.timers[1]? = some (exR3, 60 * 1000000000) ∧
    60 * 1000000000 ≤ (World.run (exRC .off 0) exWorld exGreet).r.nbr.now ∧
    (World.run (exRC .off 0) exWorld (exFlap.take 29)).r.fib.regs.map (·.name) = [exR2, (exRC .off 0).lsdb.names.lsaPrefix] := by
  decide +kernel

/-- r2's face is lost while its hello reply is validated, and comes back with another id; the next hello is answered. -/
def exLateReply : List Router.Op :=
  [.nbr (.fetchOk 0 [("udp4://10.0.0.2", 300), ("udp4://10.0.0.3", 301)]), .regOk 0, .regOk 0, .regOk 0, .regOk 0,
   .nbr (.data 0 (exAnswer exR2)), .nbr (.faceDown 300), .nbr (.valid 0), .nbr (.faceUp "udp4://10.0.0.2" 302), .regOk 0, .regOk 0,
   .nbr (.data 1 (exAnswer exR2)), .nbr (.valid 0)]

/-- **C94 fails** when a neighbour's face goes while its hello reply is being validated.  The neighbour is set active
although it has no face, and the registration of the sync prefix is dropped because there is none (src/hello-protocol.cpp:
233-250, src/nlsr.cpp:60-68, src/route/fib.cpp:165-197).  When the face comes back the name and the LSA prefix are
registered, but not the sync prefix: that is done only when an inactive neighbour becomes active.  The neighbour is up,
further hellos are answered, and sync interests are not sent to it. -/
theorem C94_violated_late_reply : ∃ c w a, Via c (Orderly c) w ∧ CostsFit w.r.nbr.adjs ∧ (w.r.nbr.adjs.map (·.uri)).Nodup ∧
    w.r.ended = false ∧ w.r.undef = false ∧ a ∈ w.r.nbr.adjs ∧ a.status = .active ∧ 0 < a.faceId ∧ NotForeign c w c.syncPrefix ∧
    w.rib c.syncPrefix a.faceId = none ∧ w.r.fib.regs = [] := by
  refine ⟨exRC .off 0, World.run (exRC .off 0) exWorld exLateReply,
    { name := exR2, uri := "udp4://10.0.0.2", status := .active, faceId := 302 }, goesOrderly exNbrs_fresh (by decide +kernel),
    fitB_spec (by decide +kernel), by decide +kernel, by decide +kernel, by decide +kernel, by decide +kernel, rfl, by decide,
    foreignB_spec (by decide +kernel), by decide +kernel, by decide +kernel⟩

/-- r2's face is lost before NFD's answers to the registrations on it arrive; later it has another face. -/
def exLateAnswer : List Router.Op :=
  [.nbr (.fetchOk 0 [("udp4://10.0.0.2", 300), ("udp4://10.0.0.3", 301)]), .nbr (.faceDown 300), .regOk 0, .regOk 0, .regOk 0, .regOk 0,
   .clock (3600 * Lsdb.nsPerSec) 0, .nbr (.fetchTimer 0), .nbr (.fetchOk 0 [("udp4://10.0.0.2", 302), ("udp4://10.0.0.3", 301)])]

/-- **C94 fails** when the answer to a registration arrives after the face is destroyed.  `onRegistrationSuccess` sets
the neighbour's face id to that of the answer (src/route/fib.cpp:199-212), a face that no longer exists and has no
routes.  From then on the periodic face data set, which lists the neighbour's new face, is not looked at for this
neighbour, because it has a face id (src/nlsr.cpp:281-292). -/
theorem C94_violated_late_answer : ∃ c w a f, Via c (Orderly c) w ∧ CostsFit w.r.nbr.adjs ∧ (w.r.nbr.adjs.map (·.uri)).Nodup ∧
    w.r.ended = false ∧ w.r.undef = false ∧ a ∈ w.r.nbr.adjs ∧ 0 < a.faceId ∧
    w.rib a.name a.faceId = none ∧ w.rib c.lsdb.names.lsaPrefix a.faceId = none ∧ w.r.fib.regs = [] ∧
    (∃ w0, w = World.step c w0 (.nbr (.fetchOk 0 f)) ∧ ∃ x ∈ f, x.1 = a.uri ∧ x.2 ≠ a.faceId) := by
  refine ⟨exRC .off 0, World.run (exRC .off 0) exWorld exLateAnswer,
    { name := exR2, uri := "udp4://10.0.0.2", faceId := 300 }, [("udp4://10.0.0.2", 302), ("udp4://10.0.0.3", 301)],
    goesOrderly exNbrs_fresh (by decide +kernel),
    fitB_spec (by decide +kernel), by decide +kernel, by decide +kernel, by decide +kernel, by decide +kernel, by decide, by decide +kernel,
    by decide +kernel, by decide +kernel, World.run (exRC .off 0) exWorld (exLateAnswer.take 8), rfl, ("udp4://10.0.0.2", 302), by decide, by decide, by decide⟩

/-- r2 advertises the LSA prefix and stops to. -/
def exForeign : List Router.Op := exUp ++ [exPause, .core (.lsdb .buildTimer)] ++
  (exGet "r2" "ADJACENCY" exR2 1 (.adj [exAdj exR1 "udp4://10.0.0.1"]) ++
   exGet "r2" "NAME" exR2 1 (.names [⟨(exRC .off 0).lsdb.names.lsaPrefix, .fin 5⟩])).map .core ++ [exPause, .core (.calcTimer 0 [])] ++
  (exGet "r2" "NAME" exR2 2 (.names [])).map .core

/-- **C94 fails** when another router advertises the LSA prefix (or the sync prefix).  NLSR then treats it as any other
prefix: it replaces its own route by one that expires, and when the other router withdraws it, it unregisters the route
(src/route/fib.cpp:50-68, 93-163).  LSA interests are no longer forwarded to this neighbour. -/
theorem C94_violated_advertised : ∃ c w a, Via c (Prompt c) w ∧ CostsFit w.r.nbr.adjs ∧ (w.r.nbr.adjs.map (·.uri)).Nodup ∧
    w.r.ended = false ∧ w.r.undef = false ∧ a ∈ w.r.nbr.adjs ∧ a.status = .active ∧ 0 < a.faceId ∧
    w.rib c.lsdb.names.lsaPrefix a.faceId = none ∧ ∀ r ∈ w.r.fib.regs, r.name ≠ c.lsdb.names.lsaPrefix ∨ r.fid ≠ a.faceId ∨ r.exp ≠ forever := by
  refine ⟨exRC .off 0, World.run (exRC .off 0) exWorld exForeign,
    { name := exR2, uri := "udp4://10.0.0.2", status := .active, faceId := 300 }, goesPrompt exNbrs_fresh (by decide +kernel),
    fitB_spec (by decide +kernel), by decide +kernel, by decide +kernel, by decide +kernel, by decide +kernel, rfl, by decide,
    by decide +kernel, by decide +kernel⟩

/-- NFD refuses four times to register r2's name; an hour later it reports the faces again. -/
def exRefused : List Router.Op :=
  [.nbr (.fetchOk 0 [("udp4://10.0.0.2", 300), ("udp4://10.0.0.3", 301)]), .regFail 0, .regFail 3, .regFail 3, .regFail 3,
   .regOk 0, .regOk 0, .regOk 0, .clock (3600 * Lsdb.nsPerSec) 0, .nbr (.fetchTimer 0),
   .nbr (.fetchOk 0 [("udp4://10.0.0.2", 300), ("udp4://10.0.0.3", 301)])]

/-- **C95 fails** when NFD refuses the registration of the neighbour's name four times (src/route/fib.cpp:214-232).  The
neighbour has its face, the registration is given up, and since the greeting starts only when it succeeds no hello is
scheduled; the next face data set changes nothing because the neighbour has a face id. -/
theorem C95_violated_refused : ∃ c s a, Router.Reachable c s ∧ s.ended = false ∧ a ∈ s.nbr.adjs ∧ 0 < a.faceId ∧ s.fib.regs = [] ∧
    (∀ t, (a.name, t) ∉ s.nbr.timers) ∧ 3600 * 1000000000 ≤ s.nbr.now ∧
    (∃ s0 f, s = Router.step c s0 (.nbr (.fetchOk 0 f)) ∧ (a.uri, a.faceId) ∈ f) := by
  refine ⟨exRC .off 0, exRouter .off 0 exRefused, { name := exR2, uri := "udp4://10.0.0.2", faceId := 300 }, exRouter_reachable .off 0 _,
    by decide +kernel, by decide +kernel, by decide, by decide +kernel, fun t ht => ?_, by decide +kernel,
    exRouter .off 0 (exRefused.take 10), _, rfl, by decide⟩
  have h : ∀ x ∈ (exRouter .off 0 exRefused).nbr.timers, x.1 ≠ exR2 := by decide +kernel
  exact h _ ht rfl

/-- **C95 fails** in the other direction: there can be more than one scheduled hello for a neighbour.  Each successful
registration of its name starts a sequence of hellos of its own, and nothing ends the old one when the face is lost
(src/nlsr.cpp:55-58, 187-226, src/hello-protocol.cpp:87-108).  After a face has come back the neighbour gets two hellos
in each interval, after the next time three. -/
theorem C95_violated_twice : ∃ c w a t u, Via c (Prompt c) w ∧ CostsFit w.r.nbr.adjs ∧ (w.r.nbr.adjs.map (·.uri)).Nodup ∧
    w.r.ended = false ∧ w.r.undef = false ∧ a ∈ w.r.nbr.adjs ∧ 0 < a.faceId ∧ t < u ∧ u < t + c.interval * 1000000000 ∧
    (a.name, t) ∈ w.r.nbr.timers ∧ (a.name, u) ∈ w.r.nbr.timers := by
  refine ⟨exRC .off 0, World.run (exRC .off 0) exWorld exFlap,
    { name := exR2, uri := "udp4://10.0.0.2", status := .active, faceId := 302 }, 60 * 1000000000, 90 * 1000000000,
    goesPrompt exNbrs_fresh (by decide +kernel),
    fitB_spec (by decide +kernel), by decide +kernel, by decide +kernel, by decide +kernel, by decide +kernel, by decide,
    by decide, by decide, by decide +kernel, by decide +kernel⟩

end Nlsr
