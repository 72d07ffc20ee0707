import Verif.Model.Nfd
import Verif.Props.Greet

/-!
C118: where the packets that NLSR itself sends to a neighbour go.

NLSR sends hellos to `<neighbour>/nlsr/INFO/<own name>` and fetches LSAs below the LSA prefix.  It has registered the
neighbours' names and the LSA prefix with the capture flag.  Model/Nfd.lean says what NFD makes of the routes it has, also
those of other prefixes and other applications.
-/

namespace Nlsr
open Router World

namespace Nfd

/-- A prefix that captures keeps shorter ones out: **C118** for NFD alone.  If a route of `p` captures and no longer prefix
of the packet's name has a route, then exactly `p`'s routes count, at their costs. -/
theorem C118_capture {faces : List Nat} {rib : Routes} {n p : Name} (hp : p <+: n)
    (hc : ∃ g ∈ faces, ∃ k fl, rib p g = some (k, fl) ∧ fl / 2 % 2 = 1)
    (hl : ∀ q, q <+: n → p.length < q.length → ∀ g ∈ faces, rib q g = none) (f : Nat) :
    cost faces rib n f = (rib p f).map (·.1) := by
  have hlen : p.length ≤ n.length := hp.length_le
  have head : ∀ ps, hop faces rib f (p :: ps) = (rib p f).map (·.1) := by
    intro ps
    obtain ⟨g, hg, k, fl, h1, h2⟩ := hc
    unfold hop
    rw [if_pos (List.any_eq_true.2 ⟨g, hg, by rw [h1]; rfl⟩)]
    cases hr : rib p f with
    | some x => rfl
    | none =>
      dsimp only
      rw [if_pos]
      · rfl
      · unfold captures
        exact List.any_eq_true.2 ⟨g, hg, by rw [h1]; simpa [capture] using h2⟩
  have key : ∀ k, p.length ≤ k → k ≤ n.length → hop faces rib f (upTo n k) = (rib p f).map (·.1) := by
    intro k
    induction k with
    | zero =>
      intro h _
      have hp0 : p = [] := List.length_eq_zero_iff.1 (by omega)
      subst hp0
      exact head []
    | succ k ih =>
      intro h hk
      show hop faces rib f (n.take (k + 1) :: upTo n k) = _
      by_cases he : p.length = k + 1
      · rw [← he, ← List.prefix_iff_eq_take.1 hp]
        exact head _
      · have hno := hl (n.take (k + 1)) (List.take_prefix _ _) (by rw [List.length_take]; omega)
        unfold hop
        rw [if_neg]
        · exact ih (by omega) (by omega)
        · rw [List.any_eq_true]
          rintro ⟨g, hg, hs⟩
          rw [hno g hg] at hs
          cases hs
  exact key _ hlen (Nat.le_refl _)

end Nfd

/-- The routes of NLSR that NFD has and that have not expired. -/
def live (w : World) : Nfd.Routes := fun n f =>
  match w.rib n f with
  | some r => if w.r.fib.now < r.expires then some (r.cost, r.flags) else none
  | none => none

/-- NFD, with these routes, has face `f` as a next hop for packets with this name. -/
def HopFor (faces : List Nat) (R : Nfd.Routes) (n : Name) (f : Nat) : Prop := (Nfd.cost faces R n f).isSome

/-- The routes that decide about packets with name `n` are those NLSR has for `p`: all routes of NFD for `p` are NLSR's,
and there are none for longer prefixes of `n`.  Nothing is said of shorter ones. -/
structure Decides (w : World) (faces : List Nat) (R : Nfd.Routes) (p n : Name) : Prop where
  below : p <+: n
  own : ∀ f, R p f = live w p f
  longer : ∀ q, q <+: n → p.length < q.length → ∀ g ∈ faces, R q g = none

theorem live_routed {w : World} {p : Name} {a : Adjacent} (h : Routed w p a) (ht : w.r.fib.now < 9223372036854775 * 1000000000) :
    ∃ r, w.rib p a.faceId = some r ∧ live w p a.faceId = some (r.cost, 2) := by
  obtain ⟨r, h1, _, h3, h4⟩ := h
  refine ⟨r, h1, ?_⟩
  unfold live
  rw [h1]
  dsimp only
  rw [if_pos (by omega), h3]

theorem live_some {w : World} {p : Name} {f : Nat} (h : (live w p f).isSome = true) : w.rib p f ≠ none := by
  intro hc
  unfold live at h
  rw [hc] at h
  cases h

/-- If the neighbour's route decides, a packet has its face as a next hop at the cost of the link, rounded up. -/
theorem hop_routed {w : World} {faces : List Nat} {R : Nfd.Routes} {p n : Name} (hd : Decides w faces R p n) {a : Adjacent}
    (ha : a.faceId ∈ faces) (h : Routed w p a) (ht : w.r.fib.now < 9223372036854775 * 1000000000) :
    (∃ k, Nfd.cost faces R n a.faceId = some k ∧ ∀ q : Rat, a.cost = .fin q → 0 ≤ q → q ≤ k ∧ (k : Rat) < q + 1) ∧
    ∀ f, HopFor faces R n f ↔ (live w p f).isSome = true := by
  obtain ⟨r, h1, h2⟩ := live_routed h ht
  have key := Nfd.C118_capture hd.below ⟨a.faceId, ha, r.cost, 2, by rw [hd.own, h2], by decide⟩ hd.longer
  refine ⟨⟨r.cost, by rw [key, hd.own, h2]; rfl, ?_⟩, fun f => ?_⟩
  · obtain ⟨r', h1', h3, _⟩ := h
    rw [h1] at h1'
    injection h1' with h1'
    subst h1'
    exact h3
  · unfold HopFor
    rw [key, hd.own, Option.isSome_map]

/-- **C118** for hellos, as far as it holds: a packet below a neighbour's name goes to this neighbour's face and to no other,
whatever shorter names others advertise or have routes for, as long as no longer prefix of it has routes
(`C118_violated_longer`). -/
theorem C118_hello_partial {c : RConf} {w : World} (h : Via c (Prompt c) w) (hc : CostsFit w.r.nbr.adjs)
    (hu : (w.r.nbr.adjs.map (·.uri)).Nodup) (ht : w.r.fib.now < 9223372036854775 * 1000000000)
    {a : Adjacent} (ha : a ∈ w.r.nbr.adjs) (hf : 0 < a.faceId) (hl : a.name ≠ c.lsdb.names.lsaPrefix) (hs : a.name ≠ c.syncPrefix)
    {faces : List Nat} (hfs : a.faceId ∈ faces) {R : Nfd.Routes} {n : Name} (hd : Decides w faces R a.name n) :
    (∀ f, HopFor faces R n f ↔ f = a.faceId) ∧
    ∃ k, Nfd.cost faces R n a.faceId = some k ∧ ∀ q : Rat, a.cost = .fin q → 0 ≤ q → q ≤ k ∧ (k : Rat) < q + 1 := by
  have g := h.greets hc.priced hu
  have hr := Serves.routed (g.name a ha hf)
  obtain ⟨h1, h2⟩ := hop_routed hd hfs hr ht
  refine ⟨fun f => (h2 f).trans ⟨fun hx => (g.alone a ha hl hs f (live_some hx)).2, ?_⟩, h1⟩
  rintro rfl
  obtain ⟨r, _, e⟩ := live_routed hr ht
  rw [e]; rfl

/-- **C118** for LSA interests, as far as it holds: a packet below the LSA prefix goes to exactly the neighbours that have a
face, at the costs of their links. -/
theorem C118_lsa_partial {c : RConf} {w : World} (h : Via c (Prompt c) w) (hc : CostsFit w.r.nbr.adjs)
    (hu : (w.r.nbr.adjs.map (·.uri)).Nodup) (ht : w.r.fib.now < 9223372036854775 * 1000000000)
    (hn : NotForeign c w c.lsdb.names.lsaPrefix) {faces : List Nat} (hfs : ∀ a ∈ w.r.nbr.adjs, 0 < a.faceId → a.faceId ∈ faces)
    {R : Nfd.Routes} {n : Name} (hd : Decides w faces R c.lsdb.names.lsaPrefix n) {a : Adjacent} (ha : a ∈ w.r.nbr.adjs) (hf : 0 < a.faceId) :
    (∀ f, HopFor faces R n f ↔ 0 < f ∧ ∃ b ∈ w.r.nbr.adjs, b.faceId = f) ∧
    ∃ k, Nfd.cost faces R n a.faceId = some k ∧ ∀ q : Rat, a.cost = .fin q → 0 ≤ q → q ≤ k ∧ (k : Rat) < q + 1 := by
  have g := h.greets hc.priced hu
  have hr := fun b hb hf => Serves.routed (g.lsa hn.mine b hb hf)
  obtain ⟨h1, h2⟩ := hop_routed hd (hfs a ha hf) (hr a ha hf) ht
  refine ⟨fun f => (h2 f).trans ⟨fun hx => g.near _ hn.mine f (live_some hx), ?_⟩, h1⟩
  rintro ⟨h0, b, hb, rfl⟩
  obtain ⟨r, _, e⟩ := live_routed (hr b hb h0) ht
  rw [e]; rfl

/-- **C118** for sync interests, as far as it holds: a packet below the sync prefix goes to every neighbour that is up, at
the cost of the link, and to nobody but neighbours. -/
theorem C118_sync_partial {c : RConf} {w : World} (h : Via c (Prompt c) w) (hc : CostsFit w.r.nbr.adjs)
    (hu : (w.r.nbr.adjs.map (·.uri)).Nodup) (ht : w.r.fib.now < 9223372036854775 * 1000000000)
    (hn : NotForeign c w c.syncPrefix) {faces : List Nat} (hfs : ∀ a ∈ w.r.nbr.adjs, 0 < a.faceId → a.faceId ∈ faces)
    {R : Nfd.Routes} {n : Name} (hd : Decides w faces R c.syncPrefix n) {a : Adjacent} (ha : a ∈ w.r.nbr.adjs) (hst : a.status = .active) :
    (∀ f, HopFor faces R n f → 0 < f ∧ ∃ b ∈ w.r.nbr.adjs, b.faceId = f) ∧
    ∃ k, Nfd.cost faces R n a.faceId = some k ∧ ∀ q : Rat, a.cost = .fin q → 0 ≤ q → q ≤ k ∧ (k : Rat) < q + 1 := by
  have g := h.greets hc.priced hu
  have hf := g.up a ha hst
  have hr := Serves.routed (g.sync hn.mine a ha hst hf)
  obtain ⟨h1, h2⟩ := hop_routed hd (hfs a ha hf) hr ht
  exact ⟨fun f hx => g.near _ hn.mine f (live_some ((h2 f).1 hx)), h1⟩

/-! ### concrete cases -/

/-- `Decides` with no routes but NLSR's, computed. -/
def decidesB (w : World) (faces : List Nat) (p n : Name) : Bool :=
  p.isPrefixOf n && (List.range (n.length + 1)).all fun k => k ≤ p.length || faces.all fun g => live w (n.take k) g == none

theorem decidesB_spec {w : World} {faces : List Nat} {p n : Name} (h : decidesB w faces p n = true) : Decides w faces (live w) p n := by
  unfold decidesB at h
  rw [Bool.and_eq_true, Name.isPrefixOf, List.isPrefixOf_iff_prefix, List.all_eq_true] at h
  refine ⟨h.1, fun _ => rfl, fun q hq hlen g hg => ?_⟩
  have h1 := h.2 q.length (List.mem_range.2 (by have := hq.length_le; omega))
  rw [Bool.or_eq_true, decide_eq_true_eq, ← List.prefix_iff_eq_take.1 hq] at h1
  exact beq_iff_eq.1 (List.all_eq_true.1 (h1.resolve_left (by omega)) g hg)

/-- The hello to a neighbour (C95). -/
def helloTo (c : RConf) (a : Name) : Name := a ++ [Comp.str "nlsr", Comp.str "INFO", ⟨8, Tlv.encName c.lsdb.router⟩]

/-- The LSA prefix with something below it. -/
def exBelow (p : Name) : Name := p ++ [Comp.str "x", Comp.str "y"]

/-- r3 advertises what `p` says. -/
def exAdverts (p : Name) : List Router.Op := exUp ++ [exPause, .core (.lsdb .buildTimer)] ++
  (exGet "r3" "ADJACENCY" exR3 1 (.adj [exAdj exR1 "udp4://10.0.0.1"]) ++
   exGet "r3" "NAME" exR3 1 (.names [⟨p, .fin 5⟩])).map .core ++ [exPause, .core (.calcTimer 0 [])]

/-- The claims of C118 have a case: r3 advertises the empty name, so that there are routes for a shorter prefix of
everything, and both neighbours are up. -/
example :
    goesB (exRC .off 0) (promptB (exRC .off 0)) exWorld (exAdverts []) = true ∧
    (World.run (exRC .off 0) exWorld (exAdverts [])).r.nbr.adjs.map (fun a => (a.name, a.faceId, a.status)) =
      [(exR2, 300, .active), (exR3, 301, .active)] ∧
    fitB (World.run (exRC .off 0) exWorld (exAdverts [])).r.nbr.adjs = true ∧
    ((World.run (exRC .off 0) exWorld (exAdverts [])).r.nbr.adjs.map (·.uri)).Nodup ∧
    foreignB (exRC .off 0) (World.run (exRC .off 0) exWorld (exAdverts [])) (exRC .off 0).lsdb.names.lsaPrefix = true ∧
    foreignB (exRC .off 0) (World.run (exRC .off 0) exWorld (exAdverts [])) (exRC .off 0).syncPrefix = true ∧
    exR2 ≠ (exRC .off 0).lsdb.names.lsaPrefix ∧ exR2 ≠ (exRC .off 0).syncPrefix ∧
    (live (World.run (exRC .off 0) exWorld (exAdverts [])) [] 301).isSome = true ∧
    decidesB (World.run (exRC .off 0) exWorld (exAdverts [])) [300, 301] exR2 (helloTo (exRC .off 0) exR2) = true ∧
    decidesB (World.run (exRC .off 0) exWorld (exAdverts [])) [300, 301] (exRC .off 0).lsdb.names.lsaPrefix
      (exBelow (exRC .off 0).lsdb.names.lsaPrefix) = true ∧
    decidesB (World.run (exRC .off 0) exWorld (exAdverts [])) [300, 301] (exRC .off 0).syncPrefix (exBelow (exRC .off 0).syncPrefix) = true ∧
    (World.run (exRC .off 0) exWorld (exAdverts [])).r.fib.now < 9223372036854775 * 1000000000 := by
  decide +kernel

/-- **C118 fails** when another router advertises a name below a neighbour's: NLSR registers it as any other prefix
(src/route/fib.cpp:93-163 asks only whether the name is that of a neighbour), and NFD prefers the longer prefix.  Here r3
advertises r2's name with `nlsr` behind it: the hellos to r2 are sent to r3 and not to r2, so that the adjacency of r1 and
r2 is lost although the link works. -/
theorem C118_violated_longer : ∃ c w a faces, Via c (Prompt c) w ∧ CostsFit w.r.nbr.adjs ∧ (w.r.nbr.adjs.map (·.uri)).Nodup ∧
    w.r.ended = false ∧ w.r.undef = false ∧ a ∈ w.r.nbr.adjs ∧ a.status = .active ∧ 0 < a.faceId ∧
    (∀ b ∈ w.r.nbr.adjs, b.faceId ∈ faces) ∧ a.name ≠ c.lsdb.names.lsaPrefix ∧ a.name ≠ c.syncPrefix ∧
    ¬ HopFor faces (live w) (helloTo c a.name) a.faceId ∧
    ∃ b ∈ w.r.nbr.adjs, b.name ≠ a.name ∧ HopFor faces (live w) (helloTo c a.name) b.faceId := by
  refine ⟨exRC .off 0, World.run (exRC .off 0) exWorld (exAdverts (exR2 ++ [Comp.str "nlsr"])),
    { name := exR2, uri := "udp4://10.0.0.2", status := .active, faceId := 300 }, [300, 301], goesPrompt exNbrs_fresh (by decide +kernel),
    fitB_spec (by decide +kernel), by decide +kernel, by decide +kernel, by decide +kernel, by decide +kernel, rfl, by decide,
    by decide +kernel, by decide +kernel, by decide +kernel, ?_,
    { name := exR3, uri := "udp4://10.0.0.3", status := .active, faceId := 301 }, by decide +kernel, by decide +kernel, ?_⟩
  · unfold HopFor; decide +kernel
  · unfold HopFor; decide +kernel

end Nlsr
