import Verif.Lemmas.RouterOwn
import Verif.Props.Router
/-
C84: the links a router claims to have.
-/
namespace Nlsr
open Adjacent (ident)

/-- An Adjacency LSA stored in the router's own name lists this neighbour with this URI and this cost. -/
def Claims (own : Name) (s : Router) (n : Name) (u : Uri) (k : Ext Rat) : Prop :=
  ∃ o ∈ s.core.lsdb.db, o.lsa.origin = own ∧ ∃ l, o.lsa.content = .adj l ∧ ∃ a ∈ l, a.name = n ∧ a.uri = u ∧ a.cost = k

/-- A neighbour configured with this URI and this cost is ACTIVE. -/
def LinkUp (s : Router) (n : Name) (u : Uri) (k : Ext Rat) : Prop :=
  ∃ b ∈ s.nbr.adjs, b.status = .active ∧ b.name = n ∧ b.uri = u ∧ b.cost = k

theorem claims_iff {c : RConf} {s : Router} (h : Lsdb.Reachable c.lsdb s.core.lsdb) (n : Name) (u : Uri) (k : Ext Rat) :
    Claims c.lsdb.router s n u k ↔ ∃ a ∈ Lsdb.ownLinks c.lsdb s.core.lsdb, a.ident = (n, u, k) := by
  have hi := h.inv
  constructor
  · rintro ⟨o, ho, hor, l, hl, a, ha, rfl, rfl, rfl⟩
    refine ⟨a, ?_, rfl⟩
    have ht : o.lsa.type = .adjacency := by unfold Lsa.type; rw [hl]; rfl
    have hf := Lsdb.find_of_mem hi ho
    rw [hor, ht] at hf
    unfold Lsdb.ownLinks Lsdb.view
    rw [hf]
    simpa [hl] using ha
  · rintro ⟨a, ha, he⟩
    have h1 : a.name = n := congrArg Prod.fst he
    have h2 : a.uri = u := congrArg (fun p => p.2.1) he
    have h3 : a.cost = k := congrArg (fun p => p.2.2) he
    unfold Lsdb.ownLinks Lsdb.view at ha
    cases hf : s.core.lsdb.find c.lsdb.router .adjacency with
    | none => rw [hf] at ha; cases ha
    | some o =>
      obtain ⟨k1, k2, -⟩ := Lsdb.find_some hf
      rw [hf] at ha
      dsimp only [Option.map] at ha
      cases hc : o.lsa.content with
      | adj l => rw [hc] at ha; exact ⟨o, k1, k2, l, hc, a, ha, h1, h2, h3⟩
      | names _ => rw [hc] at ha; cases ha
      | coord _ _ => rw [hc] at ha; cases ha

/-- Link-state routing: unless a build is pending, the router claims exactly its ACTIVE neighbours, with their
configured URIs and costs.  Missing for the full property: Adjacency LSAs in this router's name that others hand
to it (refuted below), and the sequence number's return to zero after 2^64 builds. -/
theorem C84_links_partial {c : RConf} {s : Router} (h : Router.Trusted c s) (hh : c.lsdb.hyp ≠ .on)
    (hr : c.lsdb.retry < 2 ^ 32) (hw : Out.publish .adjacency 0 ∉ s.core.lsdb.log)
    (hd : s.core.lsdb.buildDue = none) (n : Name) (u : Uri) (k : Ext Rat) :
    Claims c.lsdb.router s n u k ↔ LinkUp s n u k := by
  obtain ⟨ha, ho⟩ := h.own hh (by simpa using hr) hw
  rw [claims_iff ha.base.core.lsdb, ho.due hd]
  rw [ha.synced.lsdb]
  constructor
  · rintro ⟨b, hb, hact, he⟩
    exact ⟨b, hb, hact, congrArg Prod.fst he, congrArg (fun p => p.2.1) he, congrArg (fun p => p.2.2) he⟩
  · rintro ⟨b, hb, hact, rfl, rfl, rfl⟩
    exact ⟨b, hb, hact, rfl⟩

/-- At any moment, the router claims only neighbours it was configured with, with their URIs and costs. -/
theorem C84_configured {c : RConf} {s : Router} (h : Router.Trusted c s) (hh : c.lsdb.hyp ≠ .on)
    (hr : c.lsdb.retry < 2 ^ 32) (hw : Out.publish .adjacency 0 ∉ s.core.lsdb.log) (n : Name) (u : Uri) (k : Ext Rat)
    (hc : Claims c.lsdb.router s n u k) : ∃ b ∈ s.nbr.adjs, b.name = n ∧ b.uri = u ∧ b.cost = k := by
  obtain ⟨ha, ho⟩ := h.own hh (by simpa using hr) hw
  obtain ⟨a, h1, he⟩ := (claims_iff ha.base.core.lsdb n u k).1 hc
  obtain ⟨b, hb, hba⟩ := ho.adj.sub a h1
  rw [he] at hba
  rw [ha.synced.lsdb] at hb
  exact ⟨b, hb, congrArg Prod.fst hba, congrArg (fun p => p.2.1) hba, congrArg (fun p => p.2.2) hba⟩

theorem Lsdb.step_now (c : LConf) (s : Lsdb) (op : Lsdb.Op) : s.now ≤ (Lsdb.step c s op).now := by
  rcases Lsdb.step_one c s op with ⟨eid, rfl⟩ | ⟨dt, sys, rfl⟩ | ⟨s1, s2, h1, h2, h3⟩
  · have : (Lsdb.fire c s eid).now = s.now := by
      unfold Lsdb.fire
      split
      · rfl
      · split
        · rfl
        · split
          · rfl
          · unfold Lsdb.expireOrRefresh
            split
            · rfl
            · split
              · split
                · rfl
                · exact (Lsdb.removeLsa_sig _ _ _).now
              · rfl
    exact Nat.le_of_eq this.symm
  · exact Nat.le_add_right _ _
  · have : s2.now = s1.now := by
      cases h2 with
      | none => rfl
      | install l h => exact (Lsdb.installLsa_sig c s1 l).now
      | removeOwn h => exact (Lsdb.removeLsa_sig s1 _ _).now
    rw [h3.now, this, h1.now]
    exact Nat.le_refl _

/-- A pending build is due within adj-lsa-build-interval, or hello-retries times hello-timeout if that is longer. -/
theorem C84_soon {c : RConf} {s : Router} (h : Router.Reachable c s) (t : Nat) (hd : s.core.lsdb.buildDue = some t) :
    t ≤ s.core.lsdb.now + max c.lsdb.build (c.lsdb.retry * c.lsdb.resend) * 1000000000 := by
  have hl := h.all.base.core.lsdb
  revert t
  refine Lsdb.Reachable.induct_step (P := fun l => ∀ t, l.buildDue = some t →
    t ≤ l.now + max c.lsdb.build (c.lsdb.retry * c.lsdb.resend) * 1000000000) ?_ ?_ hl
  · intro disk adjs npl sys t ht
    rw [(Lsdb.init_keep c.core.lsdb disk adjs npl sys).buildDue] at ht
    cases ht
  · intro s op _ ih t ht
    have hnow := Lsdb.step_now c.core.lsdb s op
    have old : s.buildDue = some t → t ≤ (Lsdb.step c.core.lsdb s op).now + max c.lsdb.build (c.lsdb.retry * c.lsdb.resend) * 1000000000 :=
      fun h => Nat.le_trans (ih t h) (Nat.add_le_add_right hnow _)
    by_cases hs : Lsdb.Op.special op = false
    · exact old (by rw [← (Lsdb.step_keep c.core.lsdb s op hs).buildDue]; exact ht)
    · cases op with
      | setAdjs l => exact old ht
      | setNpl l => exact old ht
      | scheduleBuild =>
        refine Nat.le_trans ?_ (Nat.add_le_add_right hnow _)
        change (Lsdb.scheduleBuild c.lsdb s).buildDue = some t at ht
        unfold Lsdb.scheduleBuild at ht
        dsimp only at ht
        split at ht
        · exact ih t ht
        · injection ht with ht
          rw [← ht]
          exact Nat.add_le_add_left (Nat.mul_le_mul_right _ (Nat.le_max_left _ _)) _
      | buildTimer =>
        refine Nat.le_trans ?_ (Nat.add_le_add_right hnow _)
        change (Lsdb.buildTimer c.lsdb s).buildDue = some t at ht
        unfold Lsdb.buildTimer at ht
        split at ht
        · exact ih t ht
        · split at ht
          · exact ih t ht
          · have := (Lsdb.buildAdjLsa_spec c.lsdb s).2.2.2.2
            split at this
            · rw [this.2.1] at ht; cases ht
            · rw [this.2.1] at ht
              injection ht with ht
              rw [← ht]
              exact Nat.add_le_add_left (Nat.mul_le_mul_right _ (Nat.le_max_right _ _)) _
      | interest n v =>
        obtain ⟨f, l, e⟩ := Lsdb.step_interest c.core.lsdb s n v
        rw [e] at ht
        exact old ht
      | fifoGone n => exact old ht
      | _ => exact absurd rfl hs

/-! ### the hypotheses can be met, and the missing part -/

theorem exRouter_trusted (h : HypState) (maxFaces : Nat) (ops : List Router.Op) (hop : ∀ op ∈ ops, Router.Honest (exRC h maxFaces) op) :
    Router.Trusted (exRC h maxFaces) (exRouter h maxFaces ops) := ⟨_, _, _, _, ops, exNbrs_fresh, hop, rfl⟩

/-- Both neighbours answer, then the face of r3 goes away, and a build is made after each change: one link of two. -/
def exLose : List Router.Op := exUp ++ [exPause, .core (.lsdb .buildTimer), .nbr (.faceDown 301), exPause, .core (.lsdb .buildTimer)]

theorem exLose_honest (c : RConf) : ∀ op ∈ exLose, Router.Honest c op := by
  intro op hop
  simp only [exLose, exUp, List.mem_append, List.mem_cons, List.not_mem_nil, or_false] at hop
  rcases hop with (rfl | rfl | rfl | rfl | rfl | rfl | rfl | rfl | rfl) | (rfl | rfl | rfl | rfl | rfl) <;> trivial

example : Router.Trusted (exRC .off 0) (exRouter .off 0 exLose) ∧ (exRC .off 0).lsdb.retry < 2 ^ 32 ∧
    Out.publish .adjacency 0 ∉ (exRouter .off 0 exLose).core.lsdb.log ∧
    (exRouter .off 0 exLose).core.lsdb.buildDue = none ∧
    (exRouter .off 0 exLose).nbr.adjs.map (fun a => (a.name, a.status)) = [(exR2, .active), (exR3, .inactive)] ∧
    (exRouter .off 0 exLose).core.lsdb.db.map (fun o => (o.lsa.origin, o.lsa.seq, o.lsa.content.type)) =
      [(exR1, 1, .name), (exR1, 2, .adjacency)] :=
  ⟨exRouter_trusted .off 0 exLose (exLose_honest _), by decide +kernel, by decide +kernel, by decide +kernel,
   by decide +kernel, by decide +kernel⟩

/-- And a build pending. -/
example : (exRouter .off 0 exUp).core.lsdb.buildDue = some 10000000000 := by decide +kernel

/-- `Claims` computed. -/
def claimList (own : Name) (s : Router) : List (Name × Uri × Ext Rat) :=
  s.core.lsdb.db.flatMap (fun o => if o.lsa.origin = own then
    (match o.lsa.content with | .adj l => l.map (fun a => (a.name, a.uri, a.cost)) | _ => []) else [])

theorem claims_list (own : Name) (s : Router) (n : Name) (u : Uri) (k : Ext Rat) :
    Claims own s n u k ↔ (n, u, k) ∈ claimList own s := by
  unfold Claims claimList
  rw [List.mem_flatMap]
  constructor
  · rintro ⟨o, ho, hor, l, hl, a, ha, rfl, rfl, rfl⟩
    refine ⟨o, ho, ?_⟩
    rw [if_pos hor, hl]
    exact List.mem_map_of_mem (f := fun a : Adjacent => (a.name, a.uri, a.cost)) ha
  · rintro ⟨o, ho, hm⟩
    split at hm
    · rename_i hor
      split at hm
      · rename_i l hl
        obtain ⟨a, ha, he⟩ := List.mem_map.1 hm
        injection he with h1 h2
        injection h2 with h2 h3
        exact ⟨o, ho, hor, l, hl, a, ha, h1, h2, h3⟩
      · cases hm
    · cases hm

/-- r2's answer to the request for its own Adjacency LSA holds one with r1's name in it. -/
def exForged : List Router.Op :=
  exLose ++ (exGet "r2" "ADJACENCY" exR1 7 (.adj [exAdj exR3 "udp4://10.0.0.3", exAdj exR4 "udp4://10.0.0.4"])).map .core

/-- C84 fails if another router answers the request for its Adjacency LSA with one that names this router as its
origin: the origin inside the LSA is not compared with the name that was asked for (src/lsdb.cpp:581-612), so the
LSA replaces this router's own.  r1 then claims links to r3, which is INACTIVE, and to r4, which is no neighbour
of r1's at all, and no longer claims the link to r2; no build is pending that would mend this. -/
theorem C84_violated_forged : ∃ c s, Router.Reachable c s ∧ c.lsdb.hyp ≠ .on ∧ c.lsdb.retry < 2 ^ 32 ∧
    Out.publish .adjacency 0 ∉ s.core.lsdb.log ∧ s.core.lsdb.buildDue = none ∧
    ∃ n u k, Claims c.lsdb.router s n u k ∧ (∀ b ∈ s.nbr.adjs, b.name ≠ n) ∧
    ∃ n u k, LinkUp s n u k ∧ ¬ Claims c.lsdb.router s n u k := by
  refine ⟨_, _, exRouter_reachable .off 0 exForged, by decide +kernel, by decide +kernel, by decide +kernel, by decide +kernel,
    exR4, "udp4://10.0.0.4", .fin 10, ?_, by decide +kernel, exR2, "udp4://10.0.0.2", .fin 10, ?_, ?_⟩
  · rw [claims_list]; decide +kernel
  · unfold LinkUp; decide +kernel
  · rw [claims_list]; decide +kernel

end Nlsr
