import Verif.Lemmas.World
import Verif.Props.Router
/-
C83: the routes NFD has for a prefix, in every state a router and NFD reach together, while faces come and go.
-/
namespace Nlsr
open World

/-! ### vocabulary -/

/-- A neighbour whose face is `f` is among those the FIB lists for `n`. -/
def FaceListed (w : World) (n : Name) (f : Nat) : Prop := ∃ a ∈ w.r.nbr.adjs, a.faceId = f ∧ a.uri ∈ w.r.fib.faces n

/-! ### proofs -/

theorem lists_of {w : World} {n : Name} {f : Nat} (hf : 0 < f) {u : Uri} (hu : u ∈ w.r.fib.faces n)
    (h : w.r.nbr.adjs.faceIdOf u = f) : FaceListed w n f := by
  unfold AdjacencyList.faceIdOf at h
  cases hfu : w.r.nbr.adjs.findUri u with
  | none => rw [hfu] at h; dsimp only at h; omega
  | some a =>
    rw [hfu] at h
    unfold AdjacencyList.findUri at hfu
    have hau : a.uri = u := by simpa using List.find?_some hfu
    exact ⟨a, List.mem_of_find?_eq_some hfu, h, by rw [hau]; exact hu⟩

theorem faceIdOf_of_mem : ∀ {A : AdjacencyList}, (A.map (·.uri)).Nodup → ∀ a ∈ A, AdjacencyList.faceIdOf A a.uri = a.faceId := by
  intro A
  induction A with
  | nil => intro _ a ha; cases ha
  | cons x xs ih =>
    intro hn a ha
    rw [List.map_cons, List.nodup_cons] at hn
    rw [AdjacencyList.faceIdOf_cons]
    rcases List.mem_cons.1 ha with rfl | hm
    · rw [if_pos rfl]
    · rw [if_neg (fun hc => hn.1 (List.mem_map.2 ⟨a, hm, hc.symm⟩))]
      exact ih hn.2 a hm

theorem kept_sound {c : RConf} {n : Name} {F : Prop} {w : World} (hr : Router.Reachable c w.r) (h : Kept c n F w) {f : Nat} (hf : 0 < f)
    (hx : (w.rib n f).isSome = true) : FaceListed w n f := by
  obtain ⟨x, h1, h2⟩ := h.sound f hf (by rw [ribAt_here]; exact hx)
  refine lists_of hf (u := x.uri) ?_ ?_
  · unfold Fib.faces; rw [recorded_eq h.inv]; exact List.mem_map.2 ⟨x, h1, rfl⟩
  · rw [← AdjacencyList.faceIdOf_face hr.all.synced.fib]; exact h2

theorem kept_full {c : RConf} {n : Name} {w : World} (hr : Router.Reachable c w.r) (h : Kept c n True w)
    (hu : (w.r.nbr.adjs.map (·.uri)).Nodup) {f : Nat} (hf : 0 < f) (hx : FaceListed w n f) : (w.rib n f).isSome = true := by
  obtain ⟨a, h1, h2, h3⟩ := hx
  unfold Fib.faces at h3
  rw [recorded_eq h.inv] at h3
  obtain ⟨x, h4, h5⟩ := List.mem_map.1 h3
  have := h.full trivial f hf ⟨x, h4, by
    rw [h5, AdjacencyList.faceIdOf_face hr.all.synced.fib, faceIdOf_of_mem hu a h1]; exact h2⟩
  rw [ribAt_here] at this
  exact this

/-! ### C83 -/

/-- **C83.**  NFD has no route for a prefix that the FIB does not list, on a face that no listed neighbour has, however
faces come and go. -/
theorem C83_no_stray_partial {c : RConf} {w : World} (h : Via c (Orderly c) w) {n : Name} (hn : Ordinary c w n) {f : Nat}
    (hf : 0 < f) (hx : (w.rib n f).isSome = true) : FaceListed w n f :=
  kept_sound h.reachable (h.kept hn) hf hx

/-- **C83.**  NFD has exactly the routes the FIB lists, as long as no neighbour that is listed gets a face back. -/
theorem C83_routes_partial {c : RConf} {w : World} {n : Name} (h : Via c (fun w op => Orderly c w op ∧ Settled c n w op) w)
    (hn : Ordinary c w n) (hu : (w.r.nbr.adjs.map (·.uri)).Nodup) {f : Nat} (hf : 0 < f) :
    (w.rib n f).isSome = true ↔ FaceListed w n f :=
  ⟨kept_sound h.reachable (h.kept_full hn) hf, kept_full h.reachable (h.kept_full hn) hu hf⟩

/-- **C83.**  In link-state routing these are the cheapest faces by which the prefix can be reached, as many as allowed. -/
theorem C83_best_partial {c : RConf} {w : World} {p : Name} (h : Via c (fun w op => Orderly c w op ∧ Settled c p w op) w)
    (hn : Ordinary c w p) (hu : (w.r.nbr.adjs.map (·.uri)).Nodup) (hh : c.lsdb.hyp ≠ .on) (hd : w.r.undef = false)
    (hp : p ≠ c.lsdb.router) (hpo : ∀ o ∈ w.r.core.lsdb.db, o.lsa.origin ≠ p) :
    ∃ B, BestFaces c.lsdb.router w.r p c.maxFaces B ∧
      ∀ f, 0 < f → ((w.rib p f).isSome = true ↔ ∃ a ∈ w.r.nbr.adjs, a.faceId = f ∧ a.uri ∈ B) :=
  ⟨w.r.fib.faces p, C82_best_faces_partial h.reachable hh hd p hp hn.nbr hpo, fun _ hf => C83_routes_partial h hn hu hf⟩

/-- **C83.**  Routes do not lapse: while the refresh of the prefix is less than ten seconds late, every route NFD has for
it is still valid. -/
theorem C83_no_lapse {c : RConf} {w : World} (h : Via c (Orderly c) w) {n : Name} (hn : Ordinary c w n)
    (ht : ∀ e ∈ w.r.fib.table, e.name = n → ∀ d fl, e.refresh = some (d, fl) → w.r.fib.now < d + 10 * 1000000000)
    {f : Nat} (hf : 0 < f) {r : NfdRoute} (hx : w.rib n f = some r) : w.r.fib.now < r.expires := by
  have hk := h.kept hn
  have hex : ∃ e, w.r.fib.find n = some e := by
    obtain ⟨x, h1, _⟩ := hk.sound f hf (by rw [ribAt_here]; show (w.rib n f).isSome = true; rw [hx]; rfl)
    unfold Fib.hopsAt at h1
    cases hfi : w.r.fib.find n with
    | none => rw [hfi] at h1; cases h1
    | some e => exact ⟨e, rfl⟩
  obtain ⟨e, he⟩ := hex
  have hre := (hk.inv.refresh n e he).2 hk.other
  obtain ⟨⟨d, fl⟩, hre⟩ := Option.isSome_iff_exists.1 hre
  have h1 := (hk.due e d fl he hre).2 f r hf (by rw [ribAt_here]; exact hx)
  have h2 := ht e (Fib.find_mem he) (Fib.find_name he) d fl hre
  omega

/-- **C83.**  Missing routes come back with the next refresh of the prefix. -/
theorem C83_refreshed {c : RConf} {w : World} (h : Via c (Orderly c) w) {n : Name} (hn : Ordinary c w n)
    (hu : (w.r.nbr.adjs.map (·.uri)).Nodup) (hend : w.r.ended = false) {e : FibEntry} (he : e ∈ w.r.fib.table) (hen : e.name = n)
    {d fl : Nat} (hre : e.refresh = some (d, fl)) (hd : d ≤ w.r.fib.now) {f : Nat} (hf : 0 < f) :
    let w' := World.step c w (.refresh n)
    ((w'.rib n f).isSome = true ↔ FaceListed w' n f) ∧ (FaceListed w' n f ↔ FaceListed w n f) := by
  intro w'
  have hk := h.kept hn
  have hfind : w.r.fib.find n = some e := by
    have hnd := hk.inv.names
    unfold Fib.find
    revert he hnd
    generalize w.r.fib.table = t
    intro he hnd
    induction t with
    | nil => cases he
    | cons x xs ih =>
      rw [List.map_cons, List.nodup_cons] at hnd
      rw [List.find?_cons]
      rcases List.mem_cons.1 he with rfl | hm
      · rw [show (e.name == n) = true by simpa using hen]
      · rw [show (x.name == n) = false by
          simpa using fun hc => hnd.1 (List.mem_map.2 ⟨e, hm, hen.trans hc.symm⟩)]
        exact ih hm hnd.2
  have hw : w' = ⟨{ w.r with fib := w.r.fib.refresh c.fib n }, ribAt (w.rib, w.r.fib.log.length) (w.r.fib.refresh c.fib n).log⟩ := by
    show World.step c w (.refresh n) = _
    unfold World.step
    rw [if_neg (by rw [hend]; nofun)]
    have : Router.step c w.r (.refresh n) = { w.r with fib := w.r.fib.refresh c.fib n } := by
      unfold Router.step; rw [if_neg (by rw [hend]; nofun)]; rfl
    rw [this]
    rfl
  have hk' : Kept c n True w' := by
    rw [hw]
    exact kept_of (Fib.Tracks.refresh_full hk hfind hre hd)
  have hr' : Router.Reachable c w'.r := by
    have := h.reachable.step (.refresh n)
    have e1 : w'.r = Router.step c w.r (.refresh n) := by
      show (World.step c w (.refresh n)).r = _
      unfold World.step
      rw [if_neg (by rw [hend]; nofun)]
    rw [e1]; exact this
  have hadj : w'.r.nbr.adjs = w.r.nbr.adjs := by rw [hw]
  have hfac : w'.r.fib.faces n = w.r.fib.faces n := by
    unfold Fib.faces
    rw [recorded_eq hk'.inv, recorded_eq hk.inv, hw]
    dsimp only
    rw [(Router.refresh_hops c.fib w.r.fib n n).1]
  refine ⟨⟨kept_sound hr' hk' hf, kept_full hr' hk' (by rw [hadj]; exact hu) hf⟩, ?_⟩
  unfold FaceListed
  rw [hadj, hfac]

/-! ### concrete cases -/

/-- All steps are as `P` says. -/
def World.Goes (c : RConf) (P : World → Router.Op → Prop) : World → List Router.Op → Prop
  | _, [] => True
  | w, op :: ops => P w op ∧ World.Goes c P (World.step c w op) ops

def World.run (c : RConf) (w : World) (ops : List Router.Op) : World := ops.foldl (World.step c) w

theorem World.Goes.via {c : RConf} {P : World → Router.Op → Prop} : ∀ {ops : List Router.Op} {w : World}, World.Goes c P w ops →
    Via c P w → Via c P (World.run c w ops) := by
  intro ops
  induction ops with
  | nil => intro w _ hw; exact hw
  | cons op ops ih => intro w h hw; exact ih h.2 (hw.step h.1)

/-- `FacesDiffer`, computed. -/
def differB (A : AdjacencyList) : Bool := A.all fun a => A.all fun b => a.faceId == 0 || a.faceId != b.faceId || a.uri == b.uri

theorem differB_spec {A : AdjacencyList} (h : differB A = true) : FacesDiffer A := by
  intro a ha b hb h0 he
  have h1 := List.all_eq_true.1 (List.all_eq_true.1 h a ha) b hb
  simp only [Bool.or_eq_true, beq_iff_eq, bne_iff_ne] at h1
  rcases h1 with (h1 | h1) | h1
  · omega
  · exact absurd he h1
  · exact h1

/-- `Orderly`, computed. -/
def orderlyB (c : RConf) (w : World) (op : Router.Op) : Bool :=
  (match op with
   | .regFail _ => false
   | .regOk i =>
     match w.r.fib.regs[i]? with
     | none => true
     | some r => w.r.nbr.adjs.faceIdOf r.uri == 0 || w.r.nbr.adjs.faceIdOf r.uri == r.fid
   | .nbr (.faceUp u f) => w.r.nbr.adjs.faceIdOf u == 0 || w.r.nbr.adjs.faceIdOf u == f
   | _ => true) && differB (World.step c w op).r.nbr.adjs

theorem orderlyB_spec {c : RConf} {w : World} {op : Router.Op} (h : orderlyB c w op = true) : Orderly c w op := by
  unfold orderlyB at h
  rw [Bool.and_eq_true] at h
  refine ⟨?_, ?_, ?_, differB_spec h.2⟩
  · rintro i rfl; exact absurd h.1 nofun
  · rintro i r rfl hr h0
    have h1 := h.1
    dsimp only at h1
    rw [hr] at h1
    simp only [Bool.or_eq_true, beq_iff_eq] at h1
    rcases h1 with h1 | h1
    · omega
    · exact h1
  · rintro u f rfl h0
    have h1 := h.1
    simp only [Bool.or_eq_true, beq_iff_eq] at h1
    rcases h1 with h1 | h1
    · omega
    · exact h1

/-- `Settled`, computed. -/
def settledB (c : RConf) (n : Name) (w : World) (op : Router.Op) : Bool :=
  (w.r.fib.faces n).all fun u => w.r.nbr.adjs.faceIdOf u != 0 || (World.step c w op).r.nbr.adjs.faceIdOf u == 0

theorem settledB_spec {c : RConf} {n : Name} {w : World} {op : Router.Op} (h : settledB c n w op = true) : Settled c n w op := by
  intro u hu h0
  have h1 := List.all_eq_true.1 h u hu
  simp only [Bool.or_eq_true, bne_iff_ne, beq_iff_eq] at h1
  rcases h1 with h1 | h1
  · exact absurd h0 h1
  · exact h1

def goesB (c : RConf) (p : World → Router.Op → Bool) : World → List Router.Op → Bool
  | _, [] => true
  | w, op :: ops => p w op && goesB c p (World.step c w op) ops

theorem goesB_spec {c : RConf} {p : World → Router.Op → Bool} {P : World → Router.Op → Prop} (hp : ∀ w op, p w op = true → P w op) :
    ∀ {ops : List Router.Op} {w : World}, goesB c p w ops = true → World.Goes c P w ops := by
  intro ops
  induction ops with
  | nil => intro w _; trivial
  | cons op ops ih =>
    intro w h
    unfold goesB at h
    rw [Bool.and_eq_true] at h
    exact ⟨hp w op h.1, ih h.2⟩

def exWorld : World := World.init (exRC .off 0) none exNbrs [] 0

/-- The faces and routes of two neighbours, then r3's face goes. -/
def exFaces : List Router.Op := exUp ++ exLearn ++ [.nbr (.faceDown 301)]

/-- The claims have cases: /p is routed over both neighbours, and after the loss of a face over the other. -/
example :
    goesB (exRC .off 0) (fun w op => orderlyB (exRC .off 0) w op && settledB (exRC .off 0) (nm ["p"]) w op) exWorld exFaces = true ∧
    ((World.run (exRC .off 0) exWorld (exUp ++ exLearn)).rib (nm ["p"]) 300).isSome = true ∧
    ((World.run (exRC .off 0) exWorld (exUp ++ exLearn)).rib (nm ["p"]) 301).isSome = true ∧
    ((World.run (exRC .off 0) exWorld exFaces).rib (nm ["p"]) 300).isSome = true ∧
    ((World.run (exRC .off 0) exWorld exFaces).rib (nm ["p"]) 301).isSome = false ∧
    ((World.run (exRC .off 0) exWorld exFaces).r.nbr.adjs.map (·.uri)).Nodup ∧
    (∀ a ∈ (World.run (exRC .off 0) exWorld exFaces).r.nbr.adjs, a.name ≠ nm ["p"]) ∧
    (exRC .off 0).lsdb.names.lsaPrefix ≠ nm ["p"] ∧ (exRC .off 0).syncPrefix ≠ nm ["p"] := by
  decide +kernel

/-- r2's face is lost and comes back with another id; hellos are exchanged again and the LSA is rebuilt. -/
def exFlap : List Router.Op := exUp ++ exLearn ++
  [.regOk 0, .regOk 0, .regOk 0, .regOk 0, .regOk 0, .regOk 0,
   .nbr (.faceDown 300), .nbr (.faceUp "udp4://10.0.0.2" 302), .regOk 0, .regOk 0,
   .nbr (.data 0 (exAnswer exR2)), .nbr (.valid 0), .regOk 0, exPause, .core (.lsdb .buildTimer)]

/-- **C83 fails** when a neighbour loses its face and gets another before the routes have changed.  NFD drops the routes
on the old face; NLSR registers only the neighbour's name and the LSA prefix on the new one (src/nlsr.cpp:228-258,
306-319).  The rebuilt adjacency LSA is the same as before, so nothing is calculated and the FIB is not updated.  The
neighbour is up, the FIB lists it for the prefix, NFD has no route over it, and nothing is scheduled that would bring it
back before the refresh of the prefix, which is up to twice lsa-refresh-time away. -/
theorem C83_violated_new_face : ∃ c w n f, Via c (Orderly c) w ∧ Ordinary c w n ∧ (w.r.nbr.adjs.map (·.uri)).Nodup ∧
    w.r.ended = false ∧ w.r.undef = false ∧ 0 < f ∧
    (∃ a ∈ w.r.nbr.adjs, a.status = .active ∧ a.faceId = f ∧ a.uri ∈ w.r.fib.faces n) ∧ w.rib n f = none ∧
    w.r.core.rt.events = [] ∧ w.r.core.lsdb.buildDue = none ∧ w.r.fib.regs = [] ∧
    ∀ e ∈ w.r.fib.table, e.name = n → ∀ x ∈ e.refresh, w.r.fib.now + 3500 * 1000000000 ≤ x.1 := by
  refine ⟨exRC .off 0, World.run (exRC .off 0) exWorld exFlap, nm ["p"], 302, ?_, ⟨?_, ?_, ?_⟩, ?_, ?_, ?_, ?_, ?_, ?_, ?_, ?_, ?_, ?_⟩
  · exact (goesB_spec (p := orderlyB (exRC .off 0)) (fun _ _ => orderlyB_spec) (by decide +kernel)).via (.init _ _ _ _ exNbrs_fresh)
  all_goals decide +kernel

end Nlsr
