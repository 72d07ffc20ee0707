import Verif.Props.Net
/-
Two things that C85 leaves out make it fail: routers in dry-run mode that are restarted, and link costs that are not
whole numbers.
-/
namespace Nlsr
namespace Net

/-- As `Reachable`, with link costs that need not be whole numbers unless `W`, and restarts also in dry-run mode
unless `D`. -/
inductive ReachableBut {ι : Type} [DecidableEq ι] (W D : Prop) (c : ι → RConf) : State ι → Prop
  | start (disk : ι → Option Seqs) (adjs : ι → AdjacencyList) (npl : ι → List PrefixInfo) (sys : ι → Int)
      (hf : ∀ i, Nbr.Fresh (adjs i)) (hw : W → ∀ i, Whole (adjs i))
      (hd : ∀ i, ∀ q ∈ disk i, Room q) (hr : ∀ i, Room (Router.init (c i) (disk i) (adjs i) (npl i) (sys i)).core.lsdb.seqs) :
      ReachableBut W D c (fun i => ⟨Router.init (c i) (disk i) (adjs i) (npl i) (sys i), []⟩)
  | step {N : State ι} (h : ReachableBut W D c N) (op : Op ι) (ha : Allowed c N op)
      (hr : ∀ i, Room (step c N op i).r.core.lsdb.seqs) : ReachableBut W D c (step c N op)
  | restart {N : State ι} (h : ReachableBut W D c N) (i : ι) (adjs : AdjacencyList) (npl : List PrefixInfo) (sys : Int)
      (kill : Kill) (hf : Nbr.Fresh adjs) (hw : W → Whole adjs) (hd : D → (c i).lsdb.hyp ≠ .dryRun) (hk : kill.Fine c N i)
      (hr : ∀ j, Room (Net.step c N (.restart i adjs npl sys kill) j).r.core.lsdb.seqs) :
      ReachableBut W D c (Net.step c N (.restart i adjs npl sys kill))

/-- Nothing is left out if neither is. -/
theorem reachableBut_true {ι : Type} [DecidableEq ι] {c : ι → RConf} {N : State ι} :
    ReachableBut True True c N ↔ Reachable c N := by
  constructor
  · intro h
    induction h with
    | start disk adjs npl sys hf hw hd hr => exact .start disk adjs npl sys hf (hw trivial) hd hr
    | step h op ha hr ih => exact .step ih op ha hr
    | restart h i adjs npl sys kill hf hw hd hk hr ih => exact .step ih _ ⟨hf, hw trivial, hd trivial, hk⟩ hr
  · intro h
    induction h with
    | start disk adjs npl sys hf hw hd hr => exact .start disk adjs npl sys hf (fun _ => hw) hd hr
    | step h op ha hr ih => exact .step ih op ha hr

/-- `ReachableBut`, computed. -/
def allowedBut {n : Nat} (W D : Bool) (c : Fin n → RConf) (N : State (Fin n)) : Op (Fin n) → Bool
  | .restart i adjs _ _ kill => freshB adjs && (!W || wholeB adjs) && (!D || (c i).lsdb.hyp != .dryRun) && killB c N i kill
  | op => allowed false c N op

/-- A run of events, each of which is checked to be allowed. -/
def goBut {n : Nat} (W D : Bool) (c : Fin n → RConf) (d : Site) : List Site → List (Op (Fin n)) → Option (List Site)
  | l, [] => some l
  | l, op :: ops =>
    if allowedBut W D c (ofList l d) op = true then
      if (stepList c d l op).all (fun s => roomB s.r.core.lsdb.seqs) = true then goBut W D c d (stepList c d l op) ops
      else none
    else none

theorem goBut_reachable {n : Nat} {W D : Bool} {c : Fin n → RConf} {d : Site} : ∀ {ops : List (Op (Fin n))} {l l' : List Site},
    l.length = n → goBut W D c d l ops = some l' → ReachableBut (W = true) (D = true) c (ofList l d) →
    ReachableBut (W = true) (D = true) c (ofList l' d) := by
  intro ops
  induction ops with
  | nil => intro l l' _ h hr; cases h; exact hr
  | cons op ops ih =>
    intro l l' hl h hr
    unfold goBut at h
    split at h
    · rename_i ha
      split at h
      · rename_i hroom
        have hlen := (stepList_length c d l op).trans hl
        refine ih hlen h ?_
        have e := step_ofList c (d := d) hl op
        have hR : ∀ i, Room (step c (ofList l d) op i).r.core.lsdb.seqs := fun i => by rw [e]; exact go_room hlen hroom i
        rw [← e]
        cases op with
        | act i x => exact hr.step _ ((allowed_sound (own := false) (by exact ha)).1 rfl) hR
        | restart i adjs npl sys kill =>
          simp only [allowedBut, Bool.and_eq_true, Bool.or_eq_true, Bool.not_eq_true', bne_iff_ne] at ha
          refine hr.restart i adjs npl sys kill (freshB_fresh ha.1.1.1) (fun hW => ?_) (fun hD => ?_) (killB_fine ha.2) hR
          · rcases ha.1.1.2 with h | h
            · rw [hW] at h; cases h
            · exact wholeB_whole h
          · rcases ha.1.2 with h | h
            · rw [hD] at h; cases h
            · exact h
      · cases h
    · cases h

/-- The network `exConf3` with routers in dry-run mode. -/
def exDry (i : Fin 3) : RConf := { exConf3 i with lsdb := { (exConf3 i).lsdb with hyp := .dryRun } }

/-- The network started with these neighbours. -/
def exSitesOf (c : Fin 3 → RConf) (adjs : Fin 3 → AdjacencyList) : List Site :=
  (List.finRange 3).map fun i => ⟨Router.init (c i) none (adjs i) (exNpl i) 0, []⟩

theorem exSitesOf_reachable {W D : Bool} {c : Fin 3 → RConf} {adjs : Fin 3 → AdjacencyList} (hf : ∀ i, freshB (adjs i) = true)
    (hw : W = true → ∀ i, wholeB (adjs i) = true)
    (hr : ∀ i, roomB (Router.init (c i) none (adjs i) (exNpl i) 0).core.lsdb.seqs = true) :
    ReachableBut (W = true) (D = true) c (ofList (exSitesOf c adjs) (exSite 0)) := by
  have h := ReachableBut.start (W := W = true) (D := D = true) (c := c) (fun _ => none) adjs exNpl (fun _ => 0)
    (fun i => freshB_fresh (hf i)) (fun hW i => wholeB_whole (hw hW i)) (fun i q hq => by cases hq) (fun i => roomB_room (hr i))
  have e : ofList (exSitesOf c adjs) (exSite 0) = fun i : Fin 3 => ⟨Router.init (c i) none (adjs i) (exNpl i) 0, []⟩ := by
    funext i
    rcases i with ⟨i, hi⟩
    match i, hi with
    | 0, _ => rfl
    | 1, _ => rfl
    | 2, _ => rfl
  rw [e]
  exact h

/-- r1 learns r2's links; r2 is restarted, meets r1 only, and builds its Adjacency LSA again. -/
def exDryStory : List (Op (Fin 3)) :=
  exMeet ++
  exLearns 0 1 .adjacency 1 (.adj [exLink exR1 "udp4://10.0.0.1", exLink exR3 "udp4://10.0.0.3"]) ++
  [.restart 1 (exAdjs 1) [] 0] ++
  ([.nbr (.fetchOk 0 [("udp4://10.0.0.1", 300)]), .regOk 0, .regOk 0, .nbr (.data 0 (exHello 1 exR1)), .nbr (.valid 0),
    exPause, .core (.lsdb .buildTimer)].map (.act 1))

/-- The neighbours of `exAdjs`, with another cost of the link from r2 to r1. -/
def exAdjsCost (x : Rat) (i : Fin 3) : AdjacencyList :=
  [[{ name := exR2, uri := "udp4://10.0.0.2" }],
   [{ name := exR1, uri := "udp4://10.0.0.1", cost := .fin x }, { name := exR3, uri := "udp4://10.0.0.3" }],
   [{ name := exR2, uri := "udp4://10.0.0.2" }]].getD i.val []

/-- A very small cost. -/
def exTiny : Rat := 1 / 1152921504606846976

/-- The links r2 announces. -/
def exLinks (x : Rat) : Content := .adj [{ exLink exR1 "udp4://10.0.0.1" with cost := .fin x }, exLink exR3 "udp4://10.0.0.3"]

/-- r1 learns r2's links; r2 is restarted with a cost of 0 and meets its neighbours again; r1 and r3 learn its links. -/
def exTinyStory : List (Op (Fin 3)) :=
  exMeet ++ exLearns 0 1 .adjacency 1 (exLinks exTiny) ++
  [.restart 1 (exAdjsCost 0 1) [] 0] ++
  ([.nbr (.fetchOk 0 [("udp4://10.0.0.1", 300), ("udp4://10.0.0.3", 301)]), .regOk 0, .regOk 0, .regOk 0, .regOk 0,
    .nbr (.data 0 (exHello 1 exR1)), .nbr (.valid 0), .nbr (.data 0 (exHello 1 exR3)), .nbr (.valid 0),
    exPause, .core (.lsdb .buildTimer)].map (.act 1)) ++
  exLearns 0 1 .adjacency 12 (exLinks 0) ++ exLearns 2 1 .adjacency 12 (exLinks 0)

/-- The links stored under a number, as they are sent. -/
def exSent (l : List Site) (i : Fin 3) (r : Name) (k : Nat) : List Content :=
  ((ofList l (exSite 0) i).r.core.lsdb.db.filter (fun o => o.lsa.origin == r && o.lsa.type == .adjacency && o.lsa.seq == k)).map
    (·.lsa.content.sent)

theorem exSent_around {l : List Site} {i : Fin 3} {r : Name} {k : Nat} {x : Content} (h : x ∈ exSent l i r k) :
    ∃ a, Around (ofList l (exSite 0) : State (Fin 3)) a ∧ a.origin = r ∧ a.type = .adjacency ∧ a.seq = k ∧ a.content.sent = x := by
  obtain ⟨o, ho, rfl⟩ := List.mem_map.1 h
  obtain ⟨h1, h2⟩ := List.mem_filter.1 ho
  simp only [Bool.and_eq_true, beq_iff_eq] at h2
  exact ⟨o.lsa, .stored i o h1 rfl, h2.1.1, h2.1.2, h2.2, rfl⟩

theorem exDry_sane : Sane exDry := ⟨by decide +kernel, by decide +kernel, by decide +kernel, by decide +kernel⟩

/-- C85 fails for routers in dry-run mode that are restarted: there the number of the Adjacency LSA starts again at 0
(src/sequencing-manager.cpp:84-91), so r2 announces number 1 once more, with one link instead of two.  r1 keeps the
two links, and a report of r2's number does not make it ask. -/
theorem C85_violated_dry_run : ∃ (c : Fin 3 → RConf) (N : State (Fin 3)), Sane c ∧ ReachableBut True False c N ∧
    (∃ l l', Around N l ∧ Around N l' ∧ l.origin = l'.origin ∧ l.type = l'.type ∧ l.seq = l'.seq ∧
      ∃ a b, l.content.sent = .adj [a, b] ∧ l'.content.sent = .adj [a]) ∧
    (step c N (.act 0 (.core (.lsdb (.sync ((c 1).lsdb.names.lsaUserPrefix .adjacency) 1)))) 0).r.core.lsdb.fetches = [] := by
  have e : goBut true false exDry (exSite 0) (exSitesOf exDry exAdjs) exDryStory =
      some ((goBut true false exDry (exSite 0) (exSitesOf exDry exAdjs) exDryStory).getD []) := by
    have h : (goBut true false exDry (exSite 0) (exSitesOf exDry exAdjs) exDryStory).isSome = true := by decide +kernel
    obtain ⟨l, hl⟩ := Option.isSome_iff_exists.1 h
    rw [hl]; rfl
  have hr : ReachableBut (true = true) (false = true) exDry (ofList (exSitesOf exDry exAdjs) (exSite 0)) :=
    exSitesOf_reachable (by decide +kernel) (fun _ => by decide +kernel) (by decide +kernel)
  have hr := goBut_reachable (W := true) (D := false) (n := 3) (by rfl) e hr
  rw [show (true = true) = True from propext ⟨fun _ => trivial, fun _ => rfl⟩,
    show (false = true) = False from propext ⟨(fun h => nomatch h), False.elim⟩] at hr
  obtain ⟨a, h1, h2, h3, h4, h5⟩ := exSent_around (i := 0) (r := exR2) (k := 1)
    (l := (goBut true false exDry (exSite 0) (exSitesOf exDry exAdjs) exDryStory).getD [])
    (x := .adj [exLink exR1 "udp4://10.0.0.1", exLink exR3 "udp4://10.0.0.3"]) (by decide +kernel)
  obtain ⟨a', h1', h2', h3', h4', h5'⟩ := exSent_around (i := 1) (r := exR2) (k := 1)
    (l := (goBut true false exDry (exSite 0) (exSitesOf exDry exAdjs) exDryStory).getD [])
    (x := .adj [exLink exR1 "udp4://10.0.0.1"]) (by decide +kernel)
  exact ⟨exDry, _, exDry_sane, hr, ⟨a, a', h1, h1', h2.trans h2'.symm, h3.trans h3'.symm, h4.trans h4'.symm, _, _, h5, h5'⟩,
    by decide +kernel⟩

/-- C85 fails for link costs that are not whole numbers: `Adjacent::operator==` compares the cost that is stored, as it
is, with the cost received, rounded up (src/adjacent.cpp:159-165, src/adjacent.hpp:97-101).  r2 first announces a cost
slightly above 0, which counts as 1, and then a cost of 0.  r1, which knew the first, takes the new number and keeps
the old cost; r3 has the new one.  Both are number 12, and the routes are computed with costs 1 and 0. -/
theorem C85_violated_fraction : ∃ (c : Fin 3 → RConf) (N : State (Fin 3)), Sane c ∧ ReachableBut False True c N ∧
    ∃ l l', Around N l ∧ Around N l' ∧ l.origin = l'.origin ∧ l.type = l'.type ∧ l.seq = l'.seq ∧
      ∃ a a' b, l.content.sent = .adj [a, b] ∧ l'.content.sent = .adj [a', b] ∧ a.name = a'.name ∧
        a.linkCost = .fin 1 ∧ a'.linkCost = .fin 0 := by
  have e : goBut false true exConf3 (exSite 0) (exSitesOf exConf3 (exAdjsCost exTiny)) exTinyStory =
      some ((goBut false true exConf3 (exSite 0) (exSitesOf exConf3 (exAdjsCost exTiny)) exTinyStory).getD []) := by
    have h : (goBut false true exConf3 (exSite 0) (exSitesOf exConf3 (exAdjsCost exTiny)) exTinyStory).isSome = true := by
      decide +kernel
    obtain ⟨l, hl⟩ := Option.isSome_iff_exists.1 h
    rw [hl]; rfl
  have hr : ReachableBut (false = true) (true = true) exConf3 (ofList (exSitesOf exConf3 (exAdjsCost exTiny)) (exSite 0)) :=
    exSitesOf_reachable (by decide +kernel) (fun h => by cases h) (by decide +kernel)
  have hr := goBut_reachable (W := false) (D := true) (n := 3) (by rfl) e hr
  rw [show (true = true) = True from propext ⟨fun _ => trivial, fun _ => rfl⟩,
    show (false = true) = False from propext ⟨(fun h => nomatch h), False.elim⟩] at hr
  obtain ⟨a, h1, h2, h3, h4, h5⟩ := exSent_around (i := 0) (r := exR2) (k := 12)
    (l := (goBut false true exConf3 (exSite 0) (exSitesOf exConf3 (exAdjsCost exTiny)) exTinyStory).getD [])
    (x := exLinks exTiny) (by decide +kernel)
  obtain ⟨a', h1', h2', h3', h4', h5'⟩ := exSent_around (i := 2) (r := exR2) (k := 12)
    (l := (goBut false true exConf3 (exSite 0) (exSitesOf exConf3 (exAdjsCost exTiny)) exTinyStory).getD [])
    (x := exLinks 0) (by decide +kernel)
  exact ⟨exConf3, _, exSane, hr, a, a', h1, h1', h2.trans h2'.symm, h3.trans h3'.symm, h4.trans h4'.symm, _, _, _, h5, h5', rfl,
    by decide +kernel, by decide +kernel⟩

end Net
end Nlsr
