import Verif.Lemmas.NetRun
import Verif.Props.Router
/-
C85: what the routers of a network hold and say about each other.
-/
namespace Nlsr
namespace Net
variable {ι : Type} [DecidableEq ι]

/-- The LSA is stored by some router, or some router has put it out at some time. -/
inductive Around (N : State ι) (l : Lsa) : Prop
  | stored (i : ι) (o : Obj) (h : o ∈ (N i).r.core.lsdb.db) (e : o.lsa = l)
  | sent (i : ι) (d : Seg) (h : .data d ∈ (N i).log) (e : d.lsa = l)

/-- An LSA that is around says what its origin said under this number. -/
theorem Around.source {c : ι → RConf} (hs : Sane c) {N : State ι} (h : Reachable c N) {l : Lsa} (ha : Around N l) :
    ∃ j l', Lsdb.Made (c j).lsdb (N j).r.core.lsdb (N j).past l' ∧ l'.origin = (c j).lsdb.router ∧ l'.origin = l.origin ∧
      l'.seq = l.seq ∧ Agree l'.content l.content := by
  have hi := h.ninv hs
  cases ha with
  | sent i d hd e =>
    subst e
    have hm : Lsdb.Made (c i).lsdb (N i).r.core.lsdb (N i).past d.lsa := .sent d hd rfl
    exact ⟨i, d.lsa, hm, ((hi.node i).made _ hm).1, rfl, rfl, Agree.refl _⟩
  | stored i o ho e =>
    subst e
    by_cases hr : o.lsa.origin = (c i).lsdb.router
    · exact ⟨i, o.lsa, .own ⟨o, ho, hr, rfl⟩, hr, rfl, rfl, Agree.refl _⟩
    · obtain ⟨j, d, hd, h1, h2, h3⟩ := hi.copied i o ho hr
      have hm : Lsdb.Made (c j).lsdb (N j).r.core.lsdb (N j).past d.lsa := .sent d hd rfl
      exact ⟨j, d.lsa, hm, ((hi.node j).made _ hm).1, h1, h2, h3⟩

/-- Two LSAs of the same origin, type and number, wherever they are stored and whenever they were put out, say the
same, although routers are stopped at any time, also in the middle of an event or of a
start, and started again, and Data arrive late.  Missing for the full property: the costs of prefixes, and
reports to a router of numbers that it announced before its last one (both refuted below), restarts in dry-run mode
(C39), link costs that are not whole (C46). -/
theorem C85_agree_partial {c : ι → RConf} (hs : Sane c) {N : State ι} (h : Reachable c N) {l l' : Lsa} (hl : Around N l)
    (hl' : Around N l') (ho : l.origin = l'.origin) (ht : l.type = l'.type) (hn : l.seq = l'.seq) :
    match l.content, l'.content with
    | .adj a, .adj a' => (a.map (fun x => (x.name, x.uri, x.cost))).Perm (a'.map (fun x => (x.name, x.uri, x.cost)))
    | .coord r as, .coord r' as' => r = r' ∧ as = as'
    | .names m, .names m' => ∀ n, (∃ k, ⟨n, k⟩ ∈ m) ↔ ∃ k, ⟨n, k⟩ ∈ m'
    | _, _ => False := by
  have hi := h.ninv hs
  obtain ⟨j, x, h1, h2, h3, h4, h5⟩ := hl.source hs h
  obtain ⟨j', x', h1', h2', h3', h4', h5'⟩ := hl'.source hs h
  have hj : j = j' := hs.distinct _ _ (by rw [← h2, ← h2', h3, h3', ho])
  subst hj
  have hc : x.content = x'.content := congrArg Lsa.content <| (hi.node j).uniq x x' h1 h1'
    (h5.type.trans (ht.trans h5'.type.symm)) (by rw [h4, h4', hn])
  have : Agree l.content l'.content := h5.symm.trans (hc ▸ h5')
  revert this
  cases l.content <;> cases l'.content <;> exact id

/-- Nothing is stored or put out anywhere that its origin, a router of the network, has not announced under this
number. -/
theorem C85_source {c : ι → RConf} (hs : Sane c) {N : State ι} (h : Reachable c N) {l : Lsa} (hl : Around N l) :
    ∃ j, l.origin = (c j).lsdb.router ∧ .publish l.type l.seq ∈ (N j).log := by
  have hi := h.ninv hs
  obtain ⟨j, x, h1, h2, h3, h4, h5⟩ := hl.source hs h
  refine ⟨j, h3.symm.trans h2, ?_⟩
  have := (hi.node j).told x h1
  rw [h4, show x.type = l.type from h5.type] at this
  exact this

/-- No router knows a newer LSA than the origin's own, and the one it knows if it is as new says what the origin's
own says. -/
theorem C85_not_ahead {c : ι → RConf} (hs : Sane c) {N : State ι} (h : Reachable c N) {j : ι} {o : Obj}
    (ho : o ∈ (N j).r.core.lsdb.db) (hr : o.lsa.origin = (c j).lsdb.router) {l : Lsa} (hl : Around N l)
    (e : l.origin = o.lsa.origin) (ht : l.type = o.lsa.type) : l.seq ≤ o.lsa.seq := by
  have hi := h.ninv hs
  obtain ⟨j', h1, h2⟩ := C85_source hs h hl
  have : j' = j := hs.distinct _ _ (by rw [← h1, ← hr, e])
  subst this
  have h3 := ((hi.node j').pub _ _ h2).1
  have h4 := (hi.node j').num o.lsa.type o.lsa.seq (by rw [← hr]; exact Lsdb.storedAt_mem (hi.node j').reach.inv ho)
  rw [h4, ← ht]
  exact h3

end Net

/-! ### the hypotheses can be met, and the missing parts -/

namespace Net
/-- Router number `i` of the example network, named /net/site/r1, /net/site/r2, /net/site/r3. -/
def exConf3 (i : Fin 3) : RConf :=
  { exRC .off 0 with lsdb := { exConf .off with names := ⟨nm ["net"], nm ["site"], nm [["r1", "r2", "r3"].getD i.val ""]⟩ } }

theorem exSane : Sane exConf3 := ⟨by decide +kernel, by decide +kernel, by decide +kernel, by decide +kernel⟩

/-- r1 and r2 are neighbours, and so are r2 and r3. -/
def exAdjs (i : Fin 3) : AdjacencyList :=
  [[{ name := exR2, uri := "udp4://10.0.0.2" }],
   [{ name := exR1, uri := "udp4://10.0.0.1" }, { name := exR3, uri := "udp4://10.0.0.3" }],
   [{ name := exR2, uri := "udp4://10.0.0.2" }]].getD i.val []

/-- r1 advertises /p. -/
def exNpl (i : Fin 3) : List PrefixInfo := [[⟨nm ["p"], .fin 5⟩], [], []].getD i.val []

def exSite (i : Fin 3) : Site := ⟨Router.init (exConf3 i) none (exAdjs i) (exNpl i) 0, []⟩

def exSites : List Site := [exSite 0, exSite 1, exSite 2]

theorem exSites_reachable : Reachable exConf3 (ofList exSites (exSite 0)) := by
  have h := Reachable.start (c := exConf3) (fun _ => none) exAdjs exNpl (fun _ => 0) (fun i => freshB_fresh (by revert i; decide +kernel))
    (fun i => wholeB_whole (by revert i; decide +kernel)) (fun i q hq => by cases hq) (fun i => roomB_room (by revert i; decide +kernel))
  have e : ofList exSites (exSite 0) = fun i : Fin 3 => ⟨Router.init (exConf3 i) none (exAdjs i) (exNpl i) 0, []⟩ := by
    funext i
    rcases i with ⟨i, hi⟩
    match i, hi with
    | 0, _ => rfl
    | 1, _ => rfl
    | 2, _ => rfl
  rw [e]
  exact h

/-- The answer of router `r` to a hello of router `i`. -/
def exHello (i : Fin 3) (r : Name) : Name :=
  r ++ [Comp.str "nlsr", Comp.str "INFO", ⟨8, Tlv.encName (exConf3 i).lsdb.router⟩, Comp.str "v1"]

/-- The routers find the faces of their neighbours, and all answer hellos; then each builds its Adjacency LSA. -/
def exMeet : List (Op (Fin 3)) :=
  ([.nbr (.fetchOk 0 [("udp4://10.0.0.2", 300)]), .regOk 0, .regOk 0, .nbr (.data 0 (exHello 0 exR2)), .nbr (.valid 0)].map (.act 0)) ++
  ([.nbr (.fetchOk 0 [("udp4://10.0.0.1", 300), ("udp4://10.0.0.3", 301)]), .regOk 0, .regOk 0, .regOk 0, .regOk 0,
    .nbr (.data 0 (exHello 1 exR1)), .nbr (.valid 0), .nbr (.data 0 (exHello 1 exR3)), .nbr (.valid 0)].map (.act 1)) ++
  ([.nbr (.fetchOk 0 [("udp4://10.0.0.2", 300)]), .regOk 0, .regOk 0, .nbr (.data 0 (exHello 2 exR2)), .nbr (.valid 0)].map (.act 2)) ++
  (List.finRange 3).flatMap (fun i => [.act i exPause, .act i (.core (.lsdb .buildTimer))])

/-- Router `j` learns an LSA of router `i`: sync reports the number, `j` asks, `i` answers. -/
def exLearns (j i : Fin 3) (t : LsaType) (k : Nat) (x : Content) : List (Op (Fin 3)) :=
  [.act j (.core (.lsdb (.sync ((exConf3 i).lsdb.names.lsaUserPrefix t) k))),
   .act i (.core (.lsdb (.interest ((exConf3 i).lsdb.names.lsaInterest t k) 9))),
   .act j (.core (.lsdb (.fetched 0 (some ⟨(exConf3 i).lsdb.router, k, 3600000000000, x⟩))))]

/-- What is stored where. -/
def exView (l : List Site) : List (List (Name × LsaType × Nat)) :=
  l.map (fun s => s.r.core.lsdb.db.map (fun o => (o.lsa.origin, o.lsa.type, o.lsa.seq)))

def exLink (r : Name) (u : Uri) : Adjacent := { name := r, uri := u }

/-- r1 and r3 learn r2's links, r2 is restarted, meets r1 only, goes on from the number sync reports, 1, and r1 learns this. -/
def exStory : List (Op (Fin 3)) :=
  exMeet ++
  exLearns 0 1 .adjacency 1 (.adj [exLink exR1 "udp4://10.0.0.1", exLink exR3 "udp4://10.0.0.3"]) ++
  exLearns 2 1 .adjacency 1 (.adj [exLink exR1 "udp4://10.0.0.1", exLink exR3 "udp4://10.0.0.3"]) ++
  [.restart 1 (exAdjs 1) [] 0] ++
  ([.nbr (.fetchOk 0 [("udp4://10.0.0.1", 300)]), .regOk 0, .regOk 0, .nbr (.data 0 (exHello 1 exR1)), .nbr (.valid 0),
    .core (.lsdb (.sync ((exConf3 1).lsdb.names.lsaUserPrefix .adjacency) 1))].map (.act 1)) ++
  exLearns 0 1 .adjacency 2 (.adj [exLink exR1 "udp4://10.0.0.1"])

/-- The contents stored under a number. -/
def exHas (l : List Site) (i : Fin 3) (r : Name) (t : LsaType) (k : Nat) : List Content :=
  ((ofList l (exSite 0) i).r.core.lsdb.db.filter (fun o => o.lsa.origin == r && o.lsa.type == t && o.lsa.seq == k)).map (·.lsa.content)

theorem exHas_around {l : List Site} {i : Fin 3} {r : Name} {t : LsaType} {k : Nat} {x : Content} (h : x ∈ exHas l i r t k) :
    ∃ a, Around (ofList l (exSite 0) : State (Fin 3)) a ∧ a.origin = r ∧ a.type = t ∧ a.seq = k ∧ a.content = x := by
  obtain ⟨o, ho, rfl⟩ := List.mem_map.1 h
  obtain ⟨h1, h2⟩ := List.mem_filter.1 ho
  simp only [Bool.and_eq_true, beq_iff_eq] at h2
  exact ⟨o.lsa, .stored i o h1 rfl, h2.1.1, h2.1.2, h2.2, rfl⟩

/-- The hypotheses of C85 can be met: r1 has r2's LSA number 2, the one made after the restart, which r2 stores as
its own, and r3 has number 1 from before it. -/
example : Sane exConf3 ∧ ∃ l, go false exConf3 (exSite 0) exSites exStory = some l ∧
    Reachable exConf3 (ofList l (exSite 0)) ∧
    exHas l 0 exR2 .adjacency 2 = [.adj [exLink exR1 "udp4://10.0.0.1"]] ∧
    (exHas l 1 exR2 .adjacency 2).length = 1 ∧
    exHas l 2 exR2 .adjacency 1 = [.adj [exLink exR1 "udp4://10.0.0.1", exLink exR3 "udp4://10.0.0.3"]] := by
  refine ⟨exSane, (go false exConf3 (exSite 0) exSites exStory).getD [], ?_⟩
  have h : (go false exConf3 (exSite 0) exSites exStory).isSome = true := by decide +kernel
  obtain ⟨l, hl⟩ := Option.isSome_iff_exists.1 h
  have e : go false exConf3 (exSite 0) exSites exStory = some ((go false exConf3 (exSite 0) exSites exStory).getD []) := by
    rw [hl]; rfl
  refine ⟨e, go_reachable rfl e exSites_reachable, ?_, ?_, ?_⟩ <;> decide +kernel

/-- r1 learns r2's names.  r2 is stopped when it has written its next number for them, 2, and not yet announced it; it is
started again and stopped when it has written and announced 13; and it is started once more.  r3 learns its names. -/
def exStopped : List (Op (Fin 3)) :=
  exMeet ++ exLearns 0 1 .name 1 (.names []) ++
  [.restart 1 (exAdjs 1) [⟨nm ["q"], .fin 1⟩] 0 (.start (.event (.core (.lsdb .buildName)) 1) (exAdjs 1) [] 0 2)] ++
  exLearns 2 1 .name 24 (.names [⟨nm ["q"], .fin 1⟩])

/-- They can be met with routers that are stopped in the middle of an event and of a start. -/
example : ∃ l, go false exConf3 (exSite 0) exSites exStopped = some l ∧ Reachable exConf3 (ofList l (exSite 0)) ∧
    exHas l 0 exR2 .name 1 = [.names []] ∧ exHas l 2 exR2 .name 24 = [.names [⟨nm ["q"], .fin 1⟩]] ∧
    (ofList (n := 3) l (exSite 0) 1).log.filterMap (fun o => match o with | .publish .name k => some k | _ => none) = [1, 13, 24] ∧
    (ofList (n := 3) l (exSite 0) 1).log.filterMap (fun o => match o with | .persist q => some q.name | _ => none) = [1, 1, 2, 13, 24] := by
  have h : (go false exConf3 (exSite 0) exSites exStopped).isSome = true := by decide +kernel
  obtain ⟨l, hl⟩ := Option.isSome_iff_exists.1 h
  have e : go false exConf3 (exSite 0) exSites exStopped = some ((go false exConf3 (exSite 0) exSites exStopped).getD []) := by
    rw [hl]; rfl
  refine ⟨_, e, go_reachable rfl e exSites_reachable, ?_, ?_, ?_, ?_⟩ <;> decide +kernel

/-- A prefix's cost is changed and the router restarted: a router that had the LSA before keeps the old cost. -/
def exCosts : List (Op (Fin 3)) :=
  exLearns 1 0 .name 1 (.names [⟨nm ["p"], .fin 5⟩]) ++ [.restart 0 (exAdjs 0) [⟨nm ["p"], .fin 7⟩] 0] ++
  exLearns 1 0 .name 12 (.names [⟨nm ["p"], .fin 7⟩]) ++ exLearns 2 0 .name 12 (.names [⟨nm ["p"], .fin 7⟩])

/-- C85 fails for the costs of prefixes: `NameLsa::update` (src/lsa/name-lsa.cpp:129-162) compares names only, so
a router that already has an LSA keeps the costs it has.  r1 raises the cost of /p from 5 to 7; r2, which knew the
prefix, and r3, which did not, then both have number 12 of r1's Name LSA, one with cost 5, the other with cost 7. -/
theorem C85_violated_prefix_cost : ∃ (c : Fin 3 → RConf) (N : State (Fin 3)), Sane c ∧ Reachable c N ∧
    ∃ l l', Around N l ∧ Around N l' ∧ l.origin = l'.origin ∧ l.type = l'.type ∧ l.seq = l'.seq ∧
      ∃ p, l.content = .names [⟨p, .fin 5⟩] ∧ l'.content = .names [⟨p, .fin 7⟩] := by
  have e : go false exConf3 (exSite 0) exSites exCosts = some ((go false exConf3 (exSite 0) exSites exCosts).getD []) := by
    have h : (go false exConf3 (exSite 0) exSites exCosts).isSome = true := by decide +kernel
    obtain ⟨l, hl⟩ := Option.isSome_iff_exists.1 h
    rw [hl]; rfl
  obtain ⟨a, h1, h2, h3, h4, h5⟩ := exHas_around (i := 1) (r := exR1) (t := .name) (k := 12)
    (l := (go false exConf3 (exSite 0) exSites exCosts).getD []) (x := .names [⟨nm ["p"], .fin 5⟩]) (by decide +kernel)
  obtain ⟨a', h1', h2', h3', h4', h5'⟩ := exHas_around (i := 2) (r := exR1) (t := .name) (k := 12)
    (l := (go false exConf3 (exSite 0) exSites exCosts).getD []) (x := .names [⟨nm ["p"], .fin 7⟩]) (by decide +kernel)
  exact ⟨exConf3, _, exSane, go_reachable rfl e exSites_reachable, a, a', h1, h1', h2.trans h2'.symm, h3.trans h3'.symm,
    h4.trans h4'.symm, _, h5, h5'⟩

/-- r2 loses r3 and announces this; r1 learns it; r2 is restarted, and sync reports the older number to it. -/
def exStale : List (Op (Fin 3)) :=
  exMeet ++ ([.nbr (.faceDown 301), exPause, .core (.lsdb .buildTimer)].map (.act 1)) ++
  exLearns 0 1 .adjacency 2 (.adj [exLink exR1 "udp4://10.0.0.1"]) ++ [.restart 1 (exAdjs 1) [] 0] ++
  [.act 1 (.core (.lsdb (.sync ((exConf3 1).lsdb.names.lsaUserPrefix .adjacency) 1)))]

/-- C85 fails if sync reports an old number to the router that announced it: after a restart, and until it has built
its Adjacency LSA, the router has none to compare the number with and goes on from the reported one
(src/lsdb.cpp:94-117).  r2 uses number 2 again, for an LSA without links, while r1 holds number 2 with a link, and
will not ask for it again. -/
theorem C85_violated_own_report : ∃ (c : Fin 3 → RConf) (N : State (Fin 3)), Sane c ∧ ReachableOwn c N ∧
    ∃ l l', Around N l ∧ Around N l' ∧ l.origin = l'.origin ∧ l.type = l'.type ∧ l.seq = l'.seq ∧
      ∃ a, l.content = .adj [a] ∧ l'.content = .adj [] := by
  have e : go true exConf3 (exSite 0) exSites exStale = some ((go true exConf3 (exSite 0) exSites exStale).getD []) := by
    have h : (go true exConf3 (exSite 0) exSites exStale).isSome = true := by decide +kernel
    obtain ⟨l, hl⟩ := Option.isSome_iff_exists.1 h
    rw [hl]; rfl
  obtain ⟨a, h1, h2, h3, h4, h5⟩ := exHas_around (i := 0) (r := exR2) (t := .adjacency) (k := 2)
    (l := (go true exConf3 (exSite 0) exSites exStale).getD []) (x := .adj [exLink exR1 "udp4://10.0.0.1"]) (by decide +kernel)
  obtain ⟨a', h1', h2', h3', h4', h5'⟩ := exHas_around (i := 1) (r := exR2) (t := .adjacency) (k := 2)
    (l := (go true exConf3 (exSite 0) exSites exStale).getD []) (x := .adj []) (by decide +kernel)
  exact ⟨exConf3, _, exSane, go_own rfl e (.start exSites_reachable), a, a', h1, h1', h2.trans h2'.symm, h3.trans h3'.symm,
    h4.trans h4'.symm, _, h5, h5'⟩

end Net
end Nlsr
