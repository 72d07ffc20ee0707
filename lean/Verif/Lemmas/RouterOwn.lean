import Verif.Lemmas.RouterInv
import Verif.Lemmas.LsdbOwnAdj
import Verif.Props.Hello
import Verif.Props.LsdbSeqs
/- The own Adjacency LSA in a router as a whole. -/
namespace Nlsr
namespace Router
open Adjacent (ident)
open Lsdb (OwnAdj Matched ownLinks)

/-- Not the arrival of an Adjacency LSA claiming to be this router's own. -/
def Honest (c : RConf) : Op → Prop
  | .core (.lsdb (.fetched _ (some l))) => l.origin = c.lsdb.router → l.type ≠ .adjacency
  | _ => True

/-- The own Adjacency LSA is right, or a build is pending. -/
structure Own (c : RConf) (s : Router) : Prop where
  adj : OwnAdj c.lsdb s.core.lsdb
  due : s.core.lsdb.buildDue = none → Matched c.lsdb s.core.lsdb

/-- A change of the LSDB's schedule only. -/
structure Sch (l l' : Lsdb) : Prop where
  db : l'.db = l.db
  seqs : l'.seqs = l.seqs
  adjs : l'.adjs = l.adjs
  log : l'.log = l.log

theorem Sch.refl (l : Lsdb) : Sch l l := ⟨rfl, rfl, rfl, rfl⟩
theorem Sch.trans {a b d : Lsdb} (h : Sch a b) (h' : Sch b d) : Sch a d :=
  ⟨h'.db.trans h.db, h'.seqs.trans h.seqs, h'.adjs.trans h.adjs, h'.log.trans h.log⟩

theorem apply_sch {c : RConf} (hh : c.lsdb.hyp ≠ .on) (s : Router) (o : NOut) :
    Sch s.core.lsdb (apply c s o).core.lsdb ∧
    ((apply c s o).core.lsdb.buildDue = none → o ≠ .build ∧ s.core.lsdb.buildDue = none) := by
  unfold Router.apply
  split
  · rw [Core.step_build]
    show Sch _ (Lsdb.scheduleBuild c.core.lsdb s.core.lsdb) ∧ ((Lsdb.scheduleBuild c.core.lsdb s.core.lsdb).buildDue = none → _)
    unfold Lsdb.scheduleBuild
    dsimp only
    rw [if_neg (show c.core.lsdb.hyp ≠ .on from hh)]
    exact ⟨⟨rfl, rfl, rfl, rfl⟩, fun h => by cases h⟩
  · exact ⟨Sch.refl _, fun h => ⟨nofun, h⟩⟩
  · split
    · exact ⟨Sch.refl _, fun h => ⟨nofun, h⟩⟩
    · rw [(register_fib c s _ _ _).2.1]
      exact ⟨Sch.refl _, fun h => ⟨nofun, h⟩⟩
  · rw [(register_fib c s _ _ _).2.1]
    exact ⟨Sch.refl _, fun h => ⟨nofun, h⟩⟩
  · exact ⟨Sch.refl _, fun h => ⟨nofun, h⟩⟩
  · rename_i hb _ _ _ _
    exact ⟨Sch.refl _, fun h => ⟨hb, h⟩⟩

theorem applies_sch {c : RConf} (hh : c.lsdb.hyp ≠ .on) : ∀ (l : List NOut) (s : Router),
    Sch s.core.lsdb (l.foldl (apply c) s).core.lsdb ∧
    ((l.foldl (apply c) s).core.lsdb.buildDue = none → NOut.build ∉ l ∧ s.core.lsdb.buildDue = none) := by
  intro l
  induction l with
  | nil => intro s; exact ⟨Sch.refl _, fun h => ⟨by simp, h⟩⟩
  | cons o os ih =>
    intro s
    obtain ⟨h1, h2⟩ := apply_sch hh s o
    obtain ⟨h3, h4⟩ := ih (apply c s o)
    refine ⟨h1.trans h3, fun h => ?_⟩
    obtain ⟨h5, h6⟩ := h4 h
    obtain ⟨h7, h8⟩ := h2 h6
    refine ⟨fun hm => ?_, h8⟩
    rcases List.mem_cons.1 hm with e | e
    · exact h7 e.symm
    · exact h5 e

theorem ownLinks_db {c : LConf} {s s' : Lsdb} (h : s'.db = s.db) : ownLinks c s' = ownLinks c s :=
  Lsdb.ownLinks_view (by rw [Lsdb.view_frame h])

theorem find_of {l : AdjacencyList} (hn : (l.map (·.name)).Nodup) {a : Adjacent} (ha : a ∈ l) :
    AdjacencyList.find l a.name = some a := by
  cases h : AdjacencyList.find l a.name with
  | none =>
    unfold AdjacencyList.find at h
    rw [List.find?_eq_none] at h
    exact absurd (h a ha) (by simp)
  | some b =>
    have hb : b ∈ l := AdjacencyList.find_mem h
    have hbn : b.name = a.name := by
      unfold AdjacencyList.find at h
      have := List.find?_some h
      simpa using this
    rw [same_of_name hn hb ha hbn]

theorem active_same {l l' : AdjacencyList} (hn : (l.map (·.name)).Nodup) (hn' : (l'.map (·.name)).Nodup)
    (hi : l'.map ident = l.map ident) (hs : ∀ n, AdjacencyList.getStatus l' n = AdjacencyList.getStatus l n)
    (i : Name × Uri × Ext Rat) : (∃ b ∈ l, b.status = .active ∧ b.ident = i) → ∃ b ∈ l', b.status = .active ∧ b.ident = i := by
  rintro ⟨b, hb, hact, rfl⟩
  have : b.ident ∈ l'.map ident := by rw [hi]; exact List.mem_map_of_mem hb
  obtain ⟨x, hx, hxb⟩ := List.mem_map.1 this
  refine ⟨x, hx, ?_, hxb⟩
  have hnm : x.name = b.name := congrArg Prod.fst hxb
  have := hs b.name
  unfold AdjacencyList.getStatus at this
  rw [find_of hn hb, ← hnm, find_of hn' hx] at this
  exact this.trans hact

theorem Own.nbrStep {c : RConf} (hh : c.lsdb.hyp ≠ .on) (hr : c.lsdb.retry < 4294967296) {s : Router}
    (hn : Nbr.Reachable c.nbr s.nbr) (hsy : s.core.lsdb.adjs = s.nbr.adjs) (h : Own c s) (op : Nbr.Op) :
    Own c (Router.nbrStep c s op) ∧ (Router.nbrStep c s op).core.lsdb.log = s.core.lsdb.log := by
  obtain ⟨o, ho, hc⟩ := C43_rebuild (c := c.nbr) hr hn op
  have hid : (Nbr.step c.nbr s.nbr op).adjs.map ident = s.nbr.adjs.map ident := Nbr.step_ident c.nbr s.nbr op
  have hnd := hn.ninv.nodup
  have hnd' := (hn.step op).ninv.nodup
  unfold Router.nbrStep
  dsimp only
  rw [ho, List.drop_left]
  obtain ⟨h1, h2⟩ := applies_sch hh o (Router.sync c { s with nbr := Nbr.step c.nbr s.nbr op })
  have e0 : (Router.sync c { s with nbr := Nbr.step c.nbr s.nbr op }).core.lsdb =
      { s.core.lsdb with adjs := (Nbr.step c.nbr s.nbr op).adjs } := by
    unfold Router.sync
    dsimp only
    rw [Core.step_setAdjs]
  generalize o.foldl (apply c) (Router.sync c { s with nbr := Nbr.step c.nbr s.nbr op }) = s' at h1 h2
  rw [e0] at h1 h2
  have hl : ownLinks c.lsdb s'.core.lsdb = ownLinks c.lsdb s.core.lsdb := ownLinks_db h1.db
  have hst : Lsdb.storedAt s'.core.lsdb c.lsdb.router .adjacency = Lsdb.storedAt s.core.lsdb c.lsdb.router .adjacency := by
    unfold Lsdb.storedAt Lsdb.find; rw [h1.db]
  refine ⟨⟨⟨?_, ?_, ?_⟩, ?_⟩, h1.log⟩
  · rw [hst, h1.seqs]; exact h.adj.num
  · rw [h1.seqs]; exact h.adj.lt
  · rw [hl]
    intro a ha
    obtain ⟨b, hb, hba⟩ := h.adj.sub a ha
    have : b.ident ∈ (Nbr.step c.nbr s.nbr op).adjs.map ident := by
      rw [hid, ← hsy]; exact List.mem_map_of_mem hb
    obtain ⟨x, hx, hxb⟩ := List.mem_map.1 this
    exact ⟨x, by rw [h1.adjs]; exact hx, hxb.trans hba⟩
  · intro hd
    obtain ⟨h3, h4⟩ := h2 hd
    have hm := h.due h4
    have hsame : ∀ n, AdjacencyList.getStatus (Nbr.step c.nbr s.nbr op).adjs n = AdjacencyList.getStatus s.nbr.adjs n := by
      rcases hc with hc | hc
      · exact hc.1
      · exfalso
        have := hc.2
        rw [if_neg (show c.nbr.hyp ≠ .on from hh)] at this
        have hb : NOut.build ∈ o.filter Nbr.isRebuild := by rw [this]; simp
        exact h3 (List.mem_filter.1 hb).1
    intro i
    have := hm i
    rw [hl, h1.adjs]
    rw [hsy] at this
    rw [this]
    exact ⟨active_same hnd hnd' hid hsame i, active_same hnd' hnd hid.symm (fun n => (hsame n).symm) i⟩

theorem Own.lsdb {c : RConf} {s s' : Router} (h : Own c s) (e : s'.core.lsdb = s.core.lsdb) : Own c s' :=
  ⟨by rw [e]; exact h.adj, by rw [e]; exact h.due⟩

theorem nbrStep_log {c : RConf} (hh : c.lsdb.hyp ≠ .on) (s : Router) (op : Nbr.Op) :
    (Router.nbrStep c s op).core.lsdb.log = s.core.lsdb.log := by
  unfold Router.nbrStep
  dsimp only
  rw [(applies_sch hh _ _).1.log]
  show (Core.step c.core s.core (.lsdb (.setAdjs (Nbr.step c.nbr s.nbr op).adjs))).lsdb.log = _
  rw [Core.step_setAdjs]

theorem newLsas_log {c : RConf} (hh : c.lsdb.hyp ≠ .on) (l : List Name) : ∀ s : Router,
    (l.foldl (fun s r => nbrStep c s (.newLsa r)) s).core.lsdb.log = s.core.lsdb.log := by
  induction l with
  | nil => intro s; rfl
  | cons r rs ih => intro s; exact (ih _).trans (nbrStep_log hh s _)

/-- The log of the LSDB only grows. -/
theorem step_grows {c : RConf} (hh : c.lsdb.hyp ≠ .on) {s : Router} (hb : Base c s) (op : Op) :
    ∃ outs, (Router.step c s op).core.lsdb.log = s.core.lsdb.log ++ outs := by
  have none : ∀ s' : Router, s'.core.lsdb.log = s.core.lsdb.log → ∃ outs, s'.core.lsdb.log = s.core.lsdb.log ++ outs :=
    fun s' e => ⟨[], by rw [e, List.append_nil]⟩
  unfold Router.step
  split
  · exact none _ rfl
  · cases op with
    | nbr op =>
      show ∃ outs, (if outsideNbr op then Router.nbrStep c s op else s).core.lsdb.log = _
      split
      · exact none _ (nbrStep_log hh s op)
      · exact none _ rfl
    | core op =>
      show ∃ outs, (if outsideCore op then Router.coreStep c s op else s).core.lsdb.log = _
      split
      · rw [coreStep_told, newLsas_log hh, (told_same c s op).2, Core.step_lsdb]
        cases op with
        | lsdb o => exact step_log_prefix hb.core.lsdb o
        | _ => exact ⟨[], by simp⟩
      · exact none _ rfl
    | regOk i =>
      show ∃ outs, (Router.regOk c s i).core.lsdb.log = _
      unfold Router.regOk
      split
      · exact none _ rfl
      · exact none _ ((nbrStep_log hh _ _).trans (nbrStep_log hh _ _))
    | regFail i => exact none _ rfl
    | stratOk i => exact none _ rfl
    | stratFail i => exact none _ rfl
    | refresh n => exact none _ rfl
    | clock dt sys => exact none _ rfl

theorem Own.newLsas {c : RConf} (hh : c.lsdb.hyp ≠ .on) (hr : c.lsdb.retry < 4294967296) (l : List Name) : ∀ {s : Router},
    All c s → Own c s → Own c (l.foldl (fun s r => Router.nbrStep c s (.newLsa r)) s) := by
  induction l with
  | nil => intro s _ h; exact h
  | cons r rs ih =>
    intro s ha h
    exact ih (ha.base.nbrStep (.newLsa r)) (h.nbrStep hh hr ha.base.nbr ha.synced.lsdb (.newLsa r)).1

theorem Own.lsdbStep {c : RConf} (hh : c.lsdb.hyp ≠ .on) {s s' : Router} (ha : All c s) (h : Own c s) (op : Lsdb.Op)
    (hp : Lsdb.PlainAdj c.lsdb op) (e : s'.core.lsdb = Lsdb.step c.lsdb s.core.lsdb op)
    (hw : Out.publish .adjacency 0 ∉ s'.core.lsdb.log) : Own c s' := by
  have hnd : (s.core.lsdb.adjs.map (·.name)).Nodup := by rw [ha.synced.lsdb]; exact ha.base.nbr.ninv.nodup
  rw [e] at hw
  obtain ⟨h1, h2⟩ := Lsdb.ownAdj_step hh ha.base.core.lsdb hnd h.adj op hp hw
  exact ⟨by rw [e]; exact h1, by rw [e]; exact h2 h.due⟩

theorem Own.step {c : RConf} (hh : c.lsdb.hyp ≠ .on) (hr : c.lsdb.retry < 4294967296) {s : Router} (ha : All c s) (h : Own c s)
    (op : Op) (hop : Honest c op) (hw : Out.publish .adjacency 0 ∉ (Router.step c s op).core.lsdb.log) :
    Own c (Router.step c s op) := by
  unfold Router.step at hw ⊢
  split
  · exact h
  · rename_i he
    rw [if_neg he] at hw
    cases op with
    | nbr op =>
      show Own c (if outsideNbr op then Router.nbrStep c s op else s)
      split
      · exact (h.nbrStep hh hr ha.base.nbr ha.synced.lsdb op).1
      · exact h
    | core op =>
      change Out.publish .adjacency 0 ∉ (if outsideCore op then Router.coreStep c s op else s).core.lsdb.log at hw
      show Own c (if outsideCore op then Router.coreStep c s op else s)
      split
      · rename_i ho
        rw [if_pos ho, coreStep_told, newLsas_log hh] at hw
        rw [coreStep_told]
        refine Own.newLsas hh hr _ (ha.told op ho) ?_
        have hs := (told_same c s op).2
        have hl : (Router.told c s op).core.lsdb = _ := (congrArg Core.lsdb hs).trans (Core.step_lsdb c.core s.core op)
        cases op with
        | lsdb o =>
          refine h.lsdbStep hh ha o ?_ hl hw
          cases o with
          | setAdjs l => cases ho
          | fetched i p =>
            cases p with
            | none => trivial
            | some l => exact hop
          | _ => trivial
        | _ => exact h.lsdb hl
      · exact h
    | regOk i =>
      show Own c (Router.regOk c s i)
      unfold Router.regOk
      cases s.fib.regs[i]? with
      | none => exact h
      | some r =>
        have h0 : Own c { s with fib := Fib.step c.fib s.fib (.regOk i) } := h.lsdb rfl
        have hb : Base c { s with fib := Fib.step c.fib s.fib (.regOk i) } := ha.base.fibStep rfl
        have h1 := (h0.nbrStep hh hr hb.nbr ha.synced.lsdb (.regFace r.uri r.fid)).1
        have ha1 := hb.nbrStep (.regFace r.uri r.fid)
        exact (h1.nbrStep hh hr ha1.base.nbr ha1.synced.lsdb (.registered r.name)).1
    | regFail i => exact h.lsdb rfl
    | stratOk i => exact h.lsdb rfl
    | stratFail i => exact h.lsdb rfl
    | refresh n => exact h.lsdb rfl
    | clock dt sys => exact h.lsdbStep hh ha (.clock dt sys) trivial rfl hw

theorem init_none {c : LConf} (hh : c.hyp ≠ .on) (disk : Option Seqs) (adjs : AdjacencyList) (npl : List PrefixInfo) (sys : Int) :
    Lsdb.view (Lsdb.init c disk adjs npl sys) c.router .adjacency = none ∧
    (Lsdb.init c disk adjs npl sys).seqs.adj < 18446744073709551616 ∧
    (Lsdb.init c disk adjs npl sys).buildDue = none ∧ (Lsdb.init c disk adjs npl sys).adjs = adjs := by
  have hk := Lsdb.init_keep c disk adjs npl sys
  have hi := Lsdb.boot_inv c disk adjs npl sys
  have h0 : (Seqs.init c.hyp disk).adj < 18446744073709551616 := by
    unfold Seqs.init
    split
    · decide
    · unfold Seqs.initB Seqs.initA
      dsimp only
      rw [if_neg hh]
      split
      · exact Nat.mod_lt _ (by decide)
      · exact Nat.zero_lt_succ _
  have hv : Lsdb.view (Lsdb.buildName c (Lsdb.boot c disk adjs npl sys)) c.router .adjacency = none := by
    refine (Lsdb.viewAdj_build_ne hi .name true _ (Lsdb.norm_names.2 (PrefixMap.ofList_sorted _)) (by simp [Lsa.type, Content.type]) c.router).trans ?_
    rfl
  have hb := Lsdb.buildName_announced hi (Lsdb.boot c disk adjs npl sys).seqs.name
  have hs := Lsdb.seqs_set_self (Lsdb.boot c disk adjs npl sys) .name
  dsimp only [Seqs.get] at hs
  rw [hs] at hb
  have hq : (Lsdb.buildName c (Lsdb.boot c disk adjs npl sys)).seqs.adj < 18446744073709551616 := by
    rw [hb.seqs]; exact h0
  refine ⟨?_, ?_, hk.buildDue, hk.adjs⟩
  · unfold Lsdb.init
    dsimp only
    split
    · exact hv
    · have hib : Lsdb.Inv c (Lsdb.buildName c (Lsdb.boot c disk adjs npl sys)) := Lsdb.trs_inv hi (Lsdb.trs_buildName c _)
      exact (Lsdb.viewAdj_build_ne hib .coordinate _ _ rfl (by simp [Lsa.type, Content.type]) c.router).trans hv
  · unfold Lsdb.init
    dsimp only
    split
    · exact hq
    · show (Lsdb.installLsa c (Lsdb.announce _ _ _) _).seqs.adj < _
      rw [(Lsdb.installLsa_sig c _ _).seqs, Lsdb.announce_eq _ _ _ (by simp)]
      exact hq

theorem Own.init {c : RConf} (hh : c.lsdb.hyp ≠ .on) (disk : Option Seqs) {adjs : AdjacencyList} (npl : List PrefixInfo) (sys : Int)
    (hf : Nbr.Fresh adjs) : Own c (Router.init c disk adjs npl sys) := by
  unfold Router.init
  dsimp only
  obtain ⟨h1, -⟩ := applies_sch hh (Nbr.init c.nbr adjs).out
    (Router.sync c ⟨Nbr.init c.nbr adjs, Core.init c.core disk adjs npl sys, { adjs := adjs }, false⟩)
  have e0 : (Router.sync c ⟨Nbr.init c.nbr adjs, Core.init c.core disk adjs npl sys, { adjs := adjs }, false⟩).core.lsdb =
      { Lsdb.init c.lsdb disk adjs npl sys with adjs := (Nbr.init c.nbr adjs).adjs } := by
    unfold Router.sync
    dsimp only
    rw [Core.step_setAdjs]
    rfl
  rw [e0] at h1
  generalize ((Nbr.init c.nbr adjs).out.foldl (Router.apply c) _) = s at h1
  obtain ⟨hv, hq, -, -⟩ := init_none hh disk adjs npl sys
  have hl : ownLinks c.lsdb s.core.lsdb = [] := by
    have : ownLinks c.lsdb s.core.lsdb = ownLinks c.lsdb (Lsdb.init c.lsdb disk adjs npl sys) := ownLinks_db h1.db
    rw [this]
    unfold ownLinks
    rw [hv]
  have hst : Lsdb.storedAt s.core.lsdb c.lsdb.router .adjacency = none := by
    have : Lsdb.storedAt s.core.lsdb c.lsdb.router .adjacency = Lsdb.storedAt (Lsdb.init c.lsdb disk adjs npl sys) c.lsdb.router .adjacency := by
      unfold Lsdb.storedAt Lsdb.find; rw [h1.db]
    rw [this]
    unfold Lsdb.storedAt
    unfold Lsdb.view at hv
    rw [Option.map_eq_none_iff] at hv ⊢
    exact hv
  have hdown : ∀ a ∈ (Nbr.init c.nbr adjs).adjs, a.status ≠ .active := by
    intro a ha
    have := congrArg (List.map (fun p : Name × Uri × Status × Nat × Nat => p.2.2.1)) (Nbr.init_adjs c.nbr adjs)
    rw [List.map_map, List.map_map] at this
    have hm : a.status ∈ adjs.map (fun a => a.status) := by
      have h2 : a.status ∈ (Nbr.init c.nbr adjs).adjs.map (fun a => a.status) := List.mem_map_of_mem (f := fun a : Adjacent => a.status) ha
      exact (show (Nbr.init c.nbr adjs).adjs.map (fun a => a.status) = adjs.map (fun a => a.status) from this) ▸ h2
    obtain ⟨b, hb, hba⟩ := List.mem_map.1 hm
    rw [← hba, (hf.down b hb).1]
    nofun
  refine ⟨⟨?_, ?_, ?_⟩, ?_⟩
  · rw [hst]; intro p hp; cases hp
  · rw [h1.seqs]; exact hq
  · rw [hl]; intro a ha; cases ha
  · intro _ i
    rw [hl, h1.adjs]
    constructor
    · rintro ⟨a, ha, -⟩; cases ha
    · rintro ⟨a, ha, hact, -⟩; exact absurd hact (hdown a ha)

/-- States the daemon can be in if no other router hands it an Adjacency LSA in its own name. -/
def Trusted (c : RConf) (s : Router) : Prop :=
  ∃ disk adjs npl sys ops, Nbr.Fresh adjs ∧ (∀ op ∈ ops, Honest c op) ∧ s = run c (init c disk adjs npl sys) ops

theorem Trusted.own {c : RConf} (hh : c.lsdb.hyp ≠ .on) (hr : c.lsdb.retry < 4294967296) {s : Router} (h : Trusted c s)
    (hw : Out.publish .adjacency 0 ∉ s.core.lsdb.log) : All c s ∧ Own c s := by
  obtain ⟨disk, adjs, npl, sys, ops, hf, hop, rfl⟩ := h
  have key : ∀ (ops : List Op) (s : Router), (∀ op ∈ ops, Honest c op) → All c s → Own c s →
      Out.publish .adjacency 0 ∉ (run c s ops).core.lsdb.log → All c (run c s ops) ∧ Own c (run c s ops) ∧
        ∃ outs, (run c s ops).core.lsdb.log = s.core.lsdb.log ++ outs := by
    intro ops
    induction ops with
    | nil => intro s _ ha h _; exact ⟨ha, h, [], by simp [run]⟩
    | cons op ops ih =>
      intro s hop ha h hw
      have grows : ∀ (ops : List Op) (s : Router), All c s → ∃ outs, (run c s ops).core.lsdb.log = s.core.lsdb.log ++ outs := by
        intro ops
        induction ops with
        | nil => intro s _; exact ⟨[], by simp [run]⟩
        | cons op ops ih =>
          intro s ha
          obtain ⟨o1, h1⟩ := step_grows hh ha.base op
          obtain ⟨o2, h2⟩ := ih _ (ha.step op)
          exact ⟨o1 ++ o2, by
            show (run c (Router.step c s op) ops).core.lsdb.log = _
            rw [h2, h1, List.append_assoc]⟩
      obtain ⟨o2, h2⟩ := grows ops _ (ha.step op)
      obtain ⟨o3, h3⟩ := grows (op :: ops) _ ha
      have hw1 : Out.publish .adjacency 0 ∉ (Router.step c s op).core.lsdb.log := fun hm => hw (by
        show _ ∈ (run c (Router.step c s op) ops).core.lsdb.log
        rw [h2]; exact List.mem_append_left _ hm)
      have hs := h.step hh hr ha op (hop op (by simp)) hw1
      obtain ⟨k1, k2, -⟩ := ih _ (fun o ho => hop o (by simp [ho])) (ha.step op) hs hw
      exact ⟨k1, k2, o3, h3⟩
  obtain ⟨k1, k2, -⟩ := key ops _ hop (All.init c disk npl sys hf) (Own.init hh disk npl sys hf) hw
  exact ⟨k1, k2⟩

end Router
end Nlsr
