import Verif.Props.HelloAnnounced
/- C125: the builds of the own Adjacency LSA that are put off. -/
namespace Nlsr
open AdjacencyList

namespace Lsdb

/-- No Adjacency LSA and no sync update in this router's own name arrives. -/
def Foreign (c : LConf) : Op → Prop
  | .setAdjs _ => True
  | .fetched _ (some l) => l.origin = c.router → l.type ≠ .adjacency
  | .sync n _ => syncOrigin n ≠ some c.router
  | _ => True

theorem view_sync {c : LConf} (s : Lsdb) {n : Name} (hn : syncOrigin n ≠ some c.router) (k : Nat) :
    (sync c s n k).db = s.db := by
  unfold sync
  split
  · rename_i o last ho hl
    unfold processUpdate
    rw [if_neg (fun e => hn (by rw [ho, e]))]
    split
    · split
      · rfl
      · exact (expressInterest_still (s.emit _) _ _ _).db
    · rfl
  · rfl

/-- A build that is not allowed changes nothing but the schedule. -/
theorem buildTimer_off {c : LConf} {s : Lsdb} (h : isAdjLsaBuildable s.adjs c.retry = false) :
    (buildTimer c s).db = s.db ∧ (buildTimer c s).log = s.log ∧ (buildTimer c s).adjs = s.adjs ∧ (buildTimer c s).now = s.now := by
  unfold buildTimer
  split
  · exact ⟨rfl, rfl, rfl, rfl⟩
  · split
    · exact ⟨rfl, rfl, rfl, rfl⟩
    · unfold buildAdjLsa
      dsimp only
      rw [if_neg (by rw [h]; nofun)]
      exact ⟨rfl, rfl, rfl, rfl⟩

theorem view_kept {c : LConf} {s : Lsdb} (h : Reachable c s) (hb : isAdjLsaBuildable s.adjs c.retry = false) (op : Op)
    (hf : Foreign c op) : view (step c s op) c.router .adjacency = view s c.router .adjacency := by
  have hi := h.inv
  have frame : ∀ s', s'.db = s.db → view s' c.router .adjacency = view s c.router .adjacency := fun s' e => by rw [view_frame e]
  cases op with
  | clock dt sys => exact frame _ rfl
  | setAdjs l => exact frame _ rfl
  | setNpl l => exact frame _ rfl
  | segment n => exact frame _ rfl
  | segmentGone n => exact frame _ rfl
  | fifoGone n => exact frame _ rfl
  | buildName =>
    show view (buildName c s) _ _ = _
    exact viewAdj_build_ne hi .name true _ (norm_names.2 (PrefixMap.ofList_sorted _)) (by simp [Lsa.type, Content.type]) c.router
  | scheduleBuild =>
    refine frame _ ?_
    show (scheduleBuild c s).db = s.db
    unfold scheduleBuild
    dsimp only
    split <;> rfl
  | buildTimer => exact frame _ (buildTimer_off hb).1
  | timer eid =>
    show view (fire c s eid) _ _ = _
    have hi' := fire_inv hi eid
    have hc := fire_cases hi eid
    generalize fire c s eid = s' at hc hi'
    cases hc with
    | idle => rfl
    | own ev o hev he hdue ho hoid hevt hr =>
      subst he
      obtain ⟨h1, -⟩ := drop_inv hi (List.mem_append_left _ ho) hev hoid
      rw [view_refresh (s := drop s ev.eid) h1 ho hi']
      rfl
    | other ev o hev he hdue ho hoid hevt hr =>
      show Option.map _ (Lsdb.find _ _ _) = Option.map _ (Lsdb.find _ _ _)
      congr 1
      exact find_remove_ne (s := drop s eid) (fun hk => hr hk.1.symm)
    | stale ev o hev he hdue ho hoid hr ht => rfl
    | hit ev o p hev he hdue ho hoid hr ht hp hpr hpt hseq =>
      subst he
      obtain ⟨h1, -⟩ := drop_inv hi (List.mem_append_right _ ho) hev hoid
      rw [view_refresh (s := drop s ev.eid) h1 hp hi']
      rfl
  | sync n k => exact frame _ (view_sync s hf _)
  | fetched i p =>
    show view (fetched c s i p) _ _ = _
    unfold fetched
    split
    · rfl
    · rename_i f hfe
      unfold fetchDone
      dsimp only
      generalize hs0 : ({ s with
        fetches := s.fetches.eraseIdx i
        storage := s.storage.filter (fun n => !Name.isPrefixOf (f.lsaName ++ [Comp.number ((f.seq + 18446744073709551615) % 18446744073709551616)]) n) } : Lsdb) = s0
      have h0 : s0.db = s.db := by rw [← hs0]
      have hi0 : Inv c s0 := by rw [← hs0]; exact hi.frame (frame_quiet rfl rfl rfl rfl rfl)
      unfold afterFetch
      split
      · exact frame _ h0
      · rename_i s1 h1
        have h2 := (noteSeq_frame h1).db.trans h0
        have hi1 : Inv c s1 := hi0.frame (noteSeq_frame h1)
        dsimp only
        split
        · exact frame _ h2
        · split
          · exact frame _ h2
          · unfold installFetched
            cases p with
            | none => exact frame _ h2
            | some l =>
              dsimp only [Option.map]
              split
              · show Option.map _ (Lsdb.find _ _ _) = Option.map _ (Lsdb.find _ _ _)
                congr 1
                rw [find_install_ne hi1 _ (norm_norm _)]
                · unfold find; rw [h2]
                · rintro ⟨e1, e2⟩
                  refine hf e1.symm ?_
                  have : l.content.norm.type = l.content.type := by cases l.content <;> rfl
                  exact (e2.trans this).symm
              · exact frame _ h2
  | fetchError i t => exact frame _ (fetchError_frame c s i t).db
  | retryTimer i => exact frame _ (retryTimer_frame s i).db
  | interest n v =>
    refine frame _ ?_
    show (if n.length ≤ maxComponents then processInterest c s n v else s).db = s.db
    split
    · exact (processInterest_frame c s n v).db
    · rfl

end Lsdb

namespace Router
open Lsdb (ownLinks Foreign)

/-- No neighbour is ACTIVE, and some neighbour has not yet missed as many hellos as it may: a neighbour that has no face, for
one, is sent none and so never misses any. -/
def Unsettled (c : RConf) (s : Router) : Prop :=
  (∀ a ∈ s.nbr.adjs, a.status ≠ .active) ∧ ∃ a ∈ s.nbr.adjs, a.timedOut < c.lsdb.retry

/-- Nothing in this router's own name comes from outside. -/
def Stranger (c : RConf) : Op → Prop
  | .core (.lsdb o) => Foreign c.lsdb o
  | _ => True

theorem Unsettled.off {c : RConf} {s : Router} (hr : Reachable c s) (h : Unsettled c s) :
    isAdjLsaBuildable s.core.lsdb.adjs c.lsdb.retry = false := by
  rw [hr.all.synced.lsdb, Bool.eq_false_iff]
  intro e
  rcases (C47_buildable_partial _ _).1.1 e with ⟨a, ha, hact⟩ | hall
  · exact h.1 a ha hact
  · obtain ⟨a, ha, hlt⟩ := h.2
    exact absurd (hall a ha) (by omega)

theorem nbrStep_links {c : RConf} (hh : c.lsdb.hyp ≠ .on) (s : Router) (op : Nbr.Op) :
    ownLinks c.lsdb (Router.nbrStep c s op).core.lsdb = ownLinks c.lsdb s.core.lsdb := by
  refine ownLinks_db ?_
  unfold Router.nbrStep
  dsimp only
  rw [(applies_sch hh _ _).1.db]
  show (Core.step c.core s.core (.lsdb (.setAdjs (Nbr.step c.nbr s.nbr op).adjs))).lsdb.db = _
  rw [Core.step_setAdjs]

theorem newLsas_links {c : RConf} (hh : c.lsdb.hyp ≠ .on) (l : List Name) : ∀ s : Router,
    ownLinks c.lsdb (l.foldl (fun s r => nbrStep c s (.newLsa r)) s).core.lsdb = ownLinks c.lsdb s.core.lsdb := by
  induction l with
  | nil => intro s; rfl
  | cons r rs ih => intro s; exact (ih _).trans (nbrStep_links hh s _)

theorem step_links {c : RConf} (hh : c.lsdb.hyp ≠ .on) {s : Router} (hr : Reachable c s) (hu : Unsettled c s) {op : Op}
    (hop : Stranger c op) : ownLinks c.lsdb (Router.step c s op).core.lsdb = ownLinks c.lsdb s.core.lsdb := by
  unfold Router.step
  split
  · rfl
  · cases op with
    | nbr op =>
      show ownLinks _ (if outsideNbr op then Router.nbrStep c s op else s).core.lsdb = _
      split
      · exact nbrStep_links hh s op
      · rfl
    | core op =>
      show ownLinks _ (if outsideCore op then Router.coreStep c s op else s).core.lsdb = _
      split
      · rw [coreStep_told, newLsas_links hh, (told_same c s op).2, Core.step_lsdb]
        cases op with
        | lsdb o => exact Lsdb.ownLinks_view (Lsdb.view_kept hr.all.base.core.lsdb (hu.off hr) o hop)
        | _ => rfl
      · rfl
    | regOk i =>
      show ownLinks _ (Router.regOk c s i).core.lsdb = _
      unfold Router.regOk
      split
      · rfl
      · exact (nbrStep_links hh _ _).trans (nbrStep_links hh _ _)
    | clock dt sys => rfl
    | _ => rfl

end Router
open Router (Along Unsettled Stranger)

/-- C125, what happens to a link while nobody is ACTIVE and some neighbour has not missed enough hellos: whatever the router
does and however long this lasts, its own Adjacency LSA keeps exactly the links it had, those to dead neighbours
included. -/
theorem C125_violated_kept {c : RConf} (hh : c.lsdb.hyp ≠ .on) : ∀ (ops : List Router.Op) {s : Router}, Router.Reachable c s →
    Along c (fun t o => Unsettled c t ∧ Stranger c o) s ops → ∀ n u k,
    (Claims c.lsdb.router (Router.run c s ops) n u k ↔ Claims c.lsdb.router s n u k) := by
  intro ops
  induction ops with
  | nil => exact fun _ _ _ _ _ => Iff.rfl
  | cons op ops ih =>
    intro s hr h n u k
    refine (ih (hr.step op) h.2 n u k).trans ?_
    rw [claims_iff (hr.step op).all.base.core.lsdb, claims_iff hr.all.base.core.lsdb, Router.step_links hh hr h.1.1 h.1.2]

/-- One round: the time until the build that was put off, and that build. -/
def round (c : RConf) : List Router.Op := [.clock (c.lsdb.retry * c.lsdb.resend * Lsdb.nsPerSec) 0, .core (.lsdb .buildTimer)]

def rounds (c : RConf) (k : Nat) : List Router.Op := (List.replicate k (round c)).flatten

theorem timer_nbr {c : RConf} {s : Router} (hr : Router.Reachable c s) (hu : Unsettled c s) :
    (Router.step c s (.core (.lsdb .buildTimer))).nbr = s.nbr := by
  unfold Router.step
  split
  · rfl
  · show (Router.coreStep c s (.lsdb .buildTimer)).nbr = _
    rw [Router.coreStep_told, Router.newLsas_nbr, (Router.told_same c s _).1, Core.step_lsdb]
    have : (Lsdb.step c.core.lsdb s.core.lsdb .buildTimer).log = s.core.lsdb.log := (Lsdb.buildTimer_off (hu.off hr)).2.1
    dsimp only
    rw [this, List.drop_length]
    rfl

theorem clock_adjs (c : RConf) (s : Router) (dt : Nat) (sys : Int) : (Router.step c s (.clock dt sys)).nbr.adjs = s.nbr.adjs := by
  unfold Router.step
  split
  · rfl
  · show (Nbr.step c.nbr s.nbr (.clock dt)).adjs = _
    unfold Nbr.step
    split <;> rfl

theorem clock_nbr (c : NConf) (s : Nbr) (dt : Nat) : (Nbr.step c s (.clock dt)).dead = s.dead := by
  cases hd : s.dead with
  | true =>
    have : Nbr.step c s (.clock dt) = s := if_pos hd
    rw [this, hd]
  | false =>
    have : Nbr.step c s (.clock dt) = { s with now := s.now + dt } := if_neg (by rw [hd]; nofun)
    rw [this]
    exact hd

theorem clock_dead (c : RConf) (s : Router) (dt : Nat) (sys : Int) : (Router.step c s (.clock dt sys)).nbr.dead = s.nbr.dead := by
  cases he : s.ended with
  | true =>
    have : Router.step c s (.clock dt sys) = s := if_pos he
    rw [this]
  | false =>
    have : Router.step c s (.clock dt sys) = Router.stepOp c s (.clock dt sys) := if_neg (by rw [he]; nofun)
    rw [this]
    exact clock_nbr c.nbr s.nbr dt

/-- Nobody is ACTIVE, somebody has not missed enough hellos, and the next build is one round away. -/
structure Stuck (c : RConf) (s : Router) : Prop where
  unsettled : Unsettled c s
  alive : s.ended = false
  due : s.core.lsdb.buildDue = some (s.core.lsdb.now + c.lsdb.retry * c.lsdb.resend * Lsdb.nsPerSec)

theorem Stuck.round {c : RConf} {s : Router} (hr : Router.Reachable c s) (h : Stuck c s) :
    Along c (fun t o => Unsettled c t ∧ Stranger c o) s (round c) ∧ Stuck c (Router.run c s (round c)) ∧
    (Router.run c s (round c)).nbr.adjs = s.nbr.adjs ∧
    (Router.run c s (round c)).core.lsdb.now = s.core.lsdb.now + c.lsdb.retry * c.lsdb.resend * Lsdb.nsPerSec := by
  generalize hR : c.lsdb.retry * c.lsdb.resend * Lsdb.nsPerSec = R
  have hrun : Router.run c s (Nlsr.round c) = Router.step c (Router.step c s (.clock R 0)) (.core (.lsdb .buildTimer)) := by
    unfold Nlsr.round Router.run
    rw [hR, List.foldl_cons, List.foldl_cons, List.foldl_nil]
  have r1 := hr.step (.clock R 0)
  have h1 : Unsettled c (Router.step c s (.clock R 0)) := by
    unfold Unsettled; rw [clock_adjs]; exact h.unsettled
  have e1 : (Router.step c s (.clock R 0)).core.lsdb = { s.core.lsdb with now := s.core.lsdb.now + R, sys := 0 } := by
    unfold Router.step
    rw [if_neg (by rw [h.alive]; nofun)]
    show (Core.step c.core s.core (.lsdb (.clock R 0))).lsdb = _
    rw [Core.step_lsdb]
    rfl
  have d1 : (Router.step c s (.clock R 0)).nbr.dead = s.nbr.dead := clock_dead c s R 0
  have a1 : (Router.step c s (.clock R 0)).ended = false := by
    unfold Router.ended
    rw [d1, e1]
    exact h.alive
  have a0 : (Router.step c s (.clock R 0)).nbr.adjs = s.nbr.adjs := clock_adjs c s R 0
  generalize Router.step c s (.clock R 0) = s1 at hrun r1 h1 e1 d1 a1 a0
  have hoff := Lsdb.buildTimer_off (h1.off r1)
  have e2 : (Router.step c s1 (.core (.lsdb .buildTimer))).core.lsdb = Lsdb.buildTimer c.lsdb s1.core.lsdb := by
    unfold Router.step
    rw [if_neg (by rw [a1]; nofun)]
    show (Router.coreStep c s1 (.lsdb .buildTimer)).core.lsdb = _
    have hlog : (Core.step c.core s1.core (.lsdb .buildTimer)).lsdb.log = s1.core.lsdb.log := by
      rw [Core.step_lsdb]; exact hoff.2.1
    rw [Router.coreStep_told, hlog, List.drop_length]
    show (Router.told c s1 _).core.lsdb = _
    rw [(Router.told_same c s1 _).2, Core.step_lsdb]
    rfl
  have n2 := timer_nbr r1 h1
  have dd : (Lsdb.buildTimer c.lsdb s1.core.lsdb).buildDue = some (s1.core.lsdb.now + R) := by
    have hd : s1.core.lsdb.buildDue = some s1.core.lsdb.now := by
      rw [e1]
      exact h.due.trans (by rw [hR])
    unfold Lsdb.buildTimer
    rw [hd]
    dsimp only
    rw [if_neg (Nat.lt_irrefl _)]
    have := (Lsdb.buildAdjLsa_spec c.lsdb s1.core.lsdb).2.2.2.2
    rw [if_neg (by rw [h1.off r1]; nofun), hR] at this
    exact this.2.1
  rw [hrun]
  refine ⟨⟨⟨h.unsettled, trivial⟩, ⟨?_, trivial⟩, trivial⟩, ⟨?_, ?_, ?_⟩, ?_, ?_⟩
  · unfold Unsettled; rw [clock_adjs]; exact h.unsettled
  · unfold Unsettled; rw [n2]; exact h1
  · unfold Router.ended
    rw [n2, e2, hoff.2.1]
    exact a1
  · rw [e2, dd, hoff.2.2.2, hR]
  · rw [n2, a0]
  · rw [e2, hoff.2.2.2, e1]

theorem along_append {c : RConf} {P : Router → Router.Op → Prop} {l' : List Router.Op} (l : List Router.Op) : ∀ {s : Router},
    Along c P s l → Along c P (Router.run c s l) l' → Along c P s (l ++ l') := by
  induction l with
  | nil => exact fun _ h => h
  | cons o os ih => exact fun h h' => ⟨h.1, ih h.2 h'⟩

theorem Stuck.rounds {c : RConf} (k : Nat) : ∀ {s : Router}, Router.Reachable c s → Stuck c s →
    Along c (fun t o => Unsettled c t ∧ Stranger c o) s (rounds c k) ∧ Stuck c (Router.run c s (rounds c k)) ∧
    (Router.run c s (rounds c k)).nbr.adjs = s.nbr.adjs ∧
    (Router.run c s (rounds c k)).core.lsdb.now = s.core.lsdb.now + k * (c.lsdb.retry * c.lsdb.resend * Lsdb.nsPerSec) := by
  induction k with
  | zero => exact fun _ h => ⟨trivial, h, rfl, by simp [Nlsr.rounds, Router.run]⟩
  | succ k ih =>
    intro s hr h
    obtain ⟨a1, s1, n1, t1⟩ := h.round hr
    have r1 : Router.Reachable c (Router.run c s (Nlsr.round c)) := (hr.step _).step _
    obtain ⟨a2, s2, n2, t2⟩ := ih r1 s1
    have e : Router.run c s (Nlsr.rounds c (k + 1)) = Router.run c (Router.run c s (Nlsr.round c)) (Nlsr.rounds c k) := rfl
    rw [e]
    refine ⟨along_append (Nlsr.round c) a1 a2, s2, n2.trans n1, ?_⟩
    rw [t2, t1, Nat.succ_mul, Nat.add_assoc, Nat.add_comm (k * _)]

/-- r2 has a face and answers, r3 has none; the link to r2 is announced.  Then r2's face goes away, and the build that
should withdraw the link is put off. -/
def exAlone : List Router.Op :=
  [.nbr (.fetchOk 0 [("udp4://10.0.0.2", 300)]), .regOk 0, .regOk 0, .nbr (.data 0 (exAnswer exR2)), .nbr (.valid 0), exPause,
   .core (.lsdb .buildTimer), .nbr (.faceDown 300), .clock 10000000000 0, .core (.lsdb .buildTimer)]

theorem exAlone_stuck : Stuck (exRC .off 0) (exRouter .off 0 exAlone) :=
  ⟨⟨by decide +kernel, by decide +kernel⟩, by decide +kernel, by decide +kernel⟩

/-- C125 is violated for ever: the only ACTIVE neighbour r2 has lost its face, and the other configured neighbour r3 never
had one.  The build that should withdraw the link to r2 is due, is put off because r3, which is sent no hellos, has not
missed three of them, is due again, and so on: for every time there is a run that lasts longer, in which every such build
is made when it is due and at the end of which the router still claims its link to r2. -/
theorem C125_violated_for_ever : ∃ (c : RConf) (s : Router), Router.Trusted c s ∧ c.lsdb.hyp = .off ∧
    (∀ u k, ¬ LinkUp s exR2 u k) ∧ ∀ T, ∃ ops, (∀ op ∈ ops, op ∈ round c) ∧
      s.core.lsdb.now + T ≤ (Router.run c s ops).core.lsdb.now ∧
      (∀ u k, ¬ LinkUp (Router.run c s ops) exR2 u k) ∧
      Claims c.lsdb.router (Router.run c s ops) exR2 "udp4://10.0.0.2" (.fin 10) := by
  have hr := exRouter_reachable .off 0 exAlone
  have hdown : ∀ u k, ¬ LinkUp (exRouter .off 0 exAlone) exR2 u k := by
    rintro u k ⟨b, hb, hact, -⟩
    exact exAlone_stuck.unsettled.1 b hb hact
  refine ⟨exRC .off 0, exRouter .off 0 exAlone, exRouter_trusted .off 0 exAlone ?_, rfl, hdown, fun T => ?_⟩
  · intro op hop
    simp only [exAlone, List.mem_cons, List.not_mem_nil, or_false] at hop
    rcases hop with rfl | rfl | rfl | rfl | rfl | rfl | rfl | rfl | rfl | rfl <;> trivial
  · obtain ⟨h1, h2, h3, h4⟩ := exAlone_stuck.rounds T hr
    refine ⟨rounds (exRC .off 0) T, ?_, ?_, ?_, ?_⟩
    · intro op hop
      obtain ⟨l, hl, ho⟩ := List.mem_flatten.1 hop
      rw [(List.mem_replicate.1 hl).2] at ho
      exact ho
    · rw [h4]
      have : (exRC .off 0).lsdb.retry * (exRC .off 0).lsdb.resend * Lsdb.nsPerSec = 3000000000 := by decide +kernel
      rw [this]
      omega
    · unfold LinkUp
      rw [h3]
      exact hdown
    · refine (C125_violated_kept (by decide +kernel) _ hr h1 _ _ _).2 ?_
      rw [claims_list]
      decide +kernel

/-- The LSA with the dead link does not even time out elsewhere: it is refreshed when its time has come, and the higher
number is announced to the others. -/
example :
    let c := exRC .off 0
    let s := exRouter .off 0 exAlone
    let t := Router.run c s ((.clock 1800000000000 0) :: s.core.lsdb.events.map (fun e => .core (.lsdb (.timer e.eid))))
    (∀ a ∈ t.nbr.adjs, a.status ≠ .active) ∧ claimList c.lsdb.router t = [(exR2, "udp4://10.0.0.2", .fin 10)] ∧
    Out.publish .adjacency 1 ∈ s.core.lsdb.log ∧ Out.publish .adjacency 2 ∈ t.core.lsdb.log := by
  decide +kernel

/-- C125 where it holds: a build that comes due while some neighbour is ACTIVE or every neighbour has missed as many hellos
as it may is made then and there, and afterwards the router claims exactly its ACTIVE neighbours.  Missing: the builds that
are put off, for ever if need be (`C125_violated_for_ever`). -/
theorem C125_made_partial {c : RConf} {s : Router} (htr : Router.Trusted c s) (hh : c.lsdb.hyp ≠ .on)
    (hre : c.lsdb.retry < 2 ^ 32) (hal : s.ended = false) {d : Nat} (hd : s.core.lsdb.buildDue = some d) (hdue : d ≤ s.core.lsdb.now)
    (hset : (∃ a ∈ s.nbr.adjs, a.status = .active) ∨ ∀ a ∈ s.nbr.adjs, c.lsdb.retry ≤ a.timedOut)
    (hw : Out.publish .adjacency 0 ∉ (Router.step c s (.core (.lsdb .buildTimer))).core.lsdb.log) (n : Name) (u : Uri) (k : Ext Rat) :
    Claims c.lsdb.router (Router.step c s (.core (.lsdb .buildTimer))) n u k ↔ LinkUp s n u k := by
  have hrr : Router.Reachable c s := by
    obtain ⟨disk, adjs, npl, sys, l, h1, -, h2⟩ := htr
    exact ⟨disk, adjs, npl, sys, l, h1, h2⟩
  have hw0 : Out.publish .adjacency 0 ∉ s.core.lsdb.log := by
    obtain ⟨outs, ho⟩ := Router.step_grows hh hrr.all.base (.core (.lsdb .buildTimer))
    exact fun hm => hw (by rw [ho]; exact List.mem_append_left _ hm)
  obtain ⟨ha, ho⟩ := htr.own hh (by simpa using hre) hw0
  rw [claims_iff (hrr.step _).all.base.core.lsdb]
  have hst : Router.step c s (.core (.lsdb .buildTimer)) = Router.coreStep c s (.lsdb .buildTimer) := by
    unfold Router.step
    rw [if_neg (by rw [hal]; nofun)]
    rfl
  rw [hst, Router.coreStep_told, Router.newLsas_log hh] at hw
  rw [hst, Router.coreStep_told, Router.newLsas_links hh]
  have hs := Router.told_same c s (.lsdb .buildTimer)
  have hl : (Router.told c s (.lsdb .buildTimer)).core.lsdb = Lsdb.step c.lsdb s.core.lsdb .buildTimer :=
    (congrArg Core.lsdb hs.2).trans (Core.step_lsdb c.core s.core _)
  have hown := ho.lsdbStep hh ha .buildTimer trivial hl hw
  have hb : isAdjLsaBuildable s.core.lsdb.adjs c.lsdb.retry = true := by
    rw [ha.synced.lsdb]; exact (C47_buildable_partial _ _).1.2 hset
  have hnone : (Router.told c s (.lsdb .buildTimer)).core.lsdb.buildDue = none := by
    rw [hl]
    show (Lsdb.buildTimer c.lsdb s.core.lsdb).buildDue = none
    unfold Lsdb.buildTimer
    rw [hd]
    dsimp only
    rw [if_neg (by omega)]
    have := (Lsdb.buildAdjLsa_spec c.lsdb s.core.lsdb).2.2.2.2
    rw [if_pos hb] at this
    exact this.2.1
  rw [hown.due hnone]
  have hadj : (Router.told c s (.lsdb .buildTimer)).core.lsdb.adjs = s.nbr.adjs := by
    rw [hl, Lsdb.step_adjs .buildTimer (fun _ h => nomatch h), ha.synced.lsdb]
  rw [hadj]
  constructor
  · rintro ⟨b, hb, hact, he⟩
    exact ⟨b, hb, hact, congrArg Prod.fst he, congrArg (fun p => p.2.1) he, congrArg (fun p => p.2.2) he⟩
  · rintro ⟨b, hb, hact, rfl, rfl, rfl⟩
    exact ⟨b, hb, hact, rfl⟩

/-- Both neighbours were up and r3's face has gone: a build is due and made, and one link of two is left. -/
example :
    let c := exRC .off 0
    let s := exRouter .off 0 (exUp ++ [exPause, .core (.lsdb .buildTimer), .nbr (.faceDown 301), exPause])
    s.ended = false ∧ (∃ d ∈ s.core.lsdb.buildDue, d ≤ s.core.lsdb.now) ∧ (∃ a ∈ s.nbr.adjs, a.status = .active) ∧
    c.lsdb.retry < 2 ^ 32 ∧ Out.publish .adjacency 0 ∉ (Router.step c s (.core (.lsdb .buildTimer))).core.lsdb.log ∧
    (claimList c.lsdb.router s).length = 2 ∧
    claimList c.lsdb.router (Router.step c s (.core (.lsdb .buildTimer))) = [(exR2, "udp4://10.0.0.2", .fin 10)] := by
  decide +kernel

/-- And with no neighbour ACTIVE at all: both faces have gone, and nothing is claimed. -/
example :
    let c := exRC .off 0
    let s := exRouter .off 0 (exUp ++ [exPause, .core (.lsdb .buildTimer), .nbr (.faceDown 301), .nbr (.faceDown 300), exPause])
    s.ended = false ∧ (∃ d ∈ s.core.lsdb.buildDue, d ≤ s.core.lsdb.now) ∧ (∀ a ∈ s.nbr.adjs, c.lsdb.retry ≤ a.timedOut) ∧
    (claimList c.lsdb.router s).length = 2 ∧
    claimList c.lsdb.router (Router.step c s (.core (.lsdb .buildTimer))) = [] := by
  decide +kernel

end Nlsr
