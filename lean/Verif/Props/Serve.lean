import Verif.Lemmas.DaemonRun
import Verif.Props.Daemon
import Verif.Props.Cmd
import Verif.Props.CertServe
import Verif.Props.HelloName
import Verif.Props.LsdbInterest
/-
C115: what the daemon answers to interests, from the start with its configuration through whatever happens to it.
-/
namespace Nlsr
namespace Daemon
open CmdState (Op)

/-! ### the daemon as a machine that carries out commands -/

/-- The interest orders this: it is named `/<router>/nlsr/<command>/<parameters>...` or `/localhost/nlsr/<command>/<parameters>...`, the
parameters can be read and are what the command needs, and it is from NFD's RIB or passes the rules for prefix updates. -/
def Ordered (c : DConf) (q : Access.Request) (x : Cmd) : Prop :=
  ∃ top, (top = c.r.lsdb.router ++ [Comp.str "nlsr"] ∨ top = nm ["localhost", "nlsr"]) ∧ ∃ k ∈ Access.handlers, ∃ p rest y,
    q.name = top ++ k.rel ++ p :: rest ∧ c.decode k.rel p = some y ∧ (k.via = .rib ∨ c.valid q = true) ∧ Access.wellFormed k y = true ∧
    x = ⟨k.via, k.verb, y.name.getD [], y.cost, y.flags, y.faceId⟩

/-- The commands that were ordered, in order. -/
inductive Orders (c : DConf) : List Daemon.Op → List Cmd → Prop
  | nil : Orders c [] []
  | order {ops xs q x} (h : Orders c ops xs) (hx : Ordered c q.req x) : Orders c (ops ++ [.interest q]) (xs ++ [x])
  | other {ops xs op} (h : Orders c ops xs) (hx : ∀ q, op = .interest q → ∀ x, ¬ Ordered c q.req x) : Orders c (ops ++ [op]) xs

/-- Once the daemon has ended nothing happens any more. -/
theorem ended_step {c : DConf} {d : Daemon} (he : d.ended = true) (op : Daemon.Op) : step c d op = d := by
  cases op with
  | interest q =>
    show receive c d q = d
    unfold receive
    have : ∀ l : List Part, l.foldl (hand c q) d = d := by
      intro l
      induction l with
      | nil => rfl
      | cons p l ih =>
        have : hand c q d p = d := by unfold hand; rw [if_pos he]
        rw [List.foldl_cons, this, ih]
    exact this _
  | router op =>
    show (if d.ended || byInterest op then d else _) = d
    rw [he]; rfl
  | segment cache kl =>
    show (if d.ended then d else _) = d
    rw [if_pos he]

/-- C115, the end: a daemon that has ended, for whatever reason, answers nothing and does nothing any more. -/
theorem C115_ended {c : DConf} {d : Daemon} (he : d.ended = true) (ops : List Daemon.Op) : run c d ops = d := by
  unfold run
  induction ops with
  | nil => rfl
  | cons o ops ih => rw [List.foldl_cons, ended_step he o, ih]

theorem run_snoc (c : DConf) (d : Daemon) (ops : List Daemon.Op) (op : Daemon.Op) : run c d (ops ++ [op]) = step c (run c d ops) op := by
  unfold run; rw [List.foldl_append]; rfl

theorem ended_before {c : DConf} {d : Daemon} {op : Daemon.Op} (h : (step c d op).ended = false) : d.ended = false := by
  cases e : d.ended with
  | false => rfl
  | true => rw [ended_step e, e] at h; cases h

/-- Operations of the LSDB that interests and the hello protocol lead to. -/
def Quiet (o : Lsdb.Op) : Prop := Router.Minor o ∨ ∃ n v, o = .interest n v

/-- From the one to the other by operations of the LSDB of this kind. -/
def Via (P : Lsdb.Op → Prop) (c : LConf) (s s' : CmdState) : Prop :=
  ∃ ops : List Lsdb.Op, (∀ o ∈ ops, P o) ∧ s' = CmdState.run c s (ops.map .lsdb)

theorem Via.refl (P : Lsdb.Op → Prop) (c : LConf) (s : CmdState) : Via P c s s := ⟨[], by simp, rfl⟩

theorem Via.trans {P : Lsdb.Op → Prop} {c : LConf} {s s' s'' : CmdState} (h : Via P c s s') (g : Via P c s' s'') : Via P c s s'' := by
  obtain ⟨a, ha, rfl⟩ := h
  obtain ⟨b, hb, rfl⟩ := g
  exact ⟨a ++ b, fun o ho => (List.mem_append.1 ho).elim (ha o) (hb o), by unfold CmdState.run; rw [List.map_append, List.foldl_append]⟩

theorem Via.by {P : Lsdb.Op → Prop} {c : LConf} {s : CmdState} {l : Lsdb} (h : Router.By P c s.lsdb l) (hp : ∀ x, ¬ P (.setNpl x)) :
    Via P c s { s with lsdb := l } := by
  obtain ⟨ops, ho, rfl⟩ := h
  refine ⟨ops, ho, ?_⟩
  have hp : ∀ o ∈ ops, ∀ x, o ≠ .setNpl x := fun o h x e => hp x (e ▸ ho o h)
  unfold CmdState.run
  induction ops generalizing s with
  | nil => rfl
  | cons o ops ih =>
    rw [List.map_cons, List.foldl_cons, List.foldl_cons]
    have e : CmdState.step c s (.lsdb o) = { s with lsdb := Lsdb.step c s.lsdb o } := by
      unfold CmdState.step
      split
      · rename_i h; cases h
      · rename_i h
        cases h
        split
        · exact absurd rfl (hp _ List.mem_cons_self _)
        · rfl
    rw [e, ← ih (fun o h => ho o (by simp [h])) (fun o h => hp o (by simp [h]))]

theorem quiet_npl (x : List PrefixInfo) : ¬ Quiet (.setNpl x) := by
  rintro (h | ⟨n, v, h⟩)
  · exact h
  · cases h

theorem command_unordered {c : DConf} {d : Daemon} {q : Access.Request} {top : Name} {k : Access.Handler}
    (ht : top = c.r.lsdb.router ++ [Comp.str "nlsr"] ∨ top = nm ["localhost", "nlsr"]) (hk : k ∈ Access.handlers)
    (hp : top ++ k.rel <+: q.name) (hno : ∀ x, ¬ Ordered c q x) : (command c d q top k).view = d.view := by
  obtain ⟨rest, hr⟩ := hp
  unfold command
  split
  · rfl
  · rename_i p hpn
    split
    · rfl
    · rename_i y hy
      split
      · rename_i ha
        split
        · rename_i hw
          exfalso
          rw [← hr, List.getElem?_append_right (Nat.le_refl _), Nat.sub_self] at hpn
          cases rest with
          | nil => cases hpn
          | cons p' rest =>
            cases Option.some.inj hpn
            refine hno _ ⟨top, ht, k, hk, p, rest, y, hr.symm, hy, ?_, hw, rfl⟩
            unfold Access.authorized at ha
            split at ha
            · exact Or.inr ha
            · exact Or.inl (by assumption)
        · rfl
      · rfl

theorem hand_view {c : DConf} {d : Daemon} {q : Packet} {p : Part} (hf : p ∈ fitting c d q.req.name) (hno : ∀ x, ¬ Ordered c q.req x)
    (e : Daemon) : Via Quiet c.r.lsdb e.view (hand c q e p).view := by
  unfold hand
  split
  · exact Via.refl _ _ _
  · cases p with
    | lsdb =>
      refine Via.by (s := e.view) (l := (Router.step c.r e.r (.core (.lsdb (.interest q.req.name q.ver)))).core.lsdb) ?_ quiet_npl
      refine (Router.step_by c.r e.r (.core (.lsdb (.interest q.req.name q.ver)))).imp ?_
      rintro o (h | h)
      · exact Or.inl h
      · cases h; exact Or.inr ⟨_, _, rfl⟩
    | sync => exact Via.refl _ _ _
    | hello =>
      refine Via.by (s := e.view) (l := (Router.step c.r e.r (.nbr (.interest q.req.name ⟨54, Tlv.encNni q.ver⟩))).core.lsdb) ?_ quiet_npl
      refine (Router.step_by c.r e.r _).imp ?_
      rintro o (h | h)
      · exact Or.inl h
      · cases h
    | command top k =>
      obtain ⟨f, hf, hp⟩ := mem_fitting hf
      have : f = top ++ k.rel ∧ (top = c.r.lsdb.router ++ [Comp.str "nlsr"] ∨ top = nm ["localhost", "nlsr"]) ∧ k ∈ Access.handlers := by
        rcases List.mem_append.1 hf with hf | hf
        · rcases mem_fixed hf with ⟨h, -⟩ | ⟨h, -⟩ | ⟨t, r, hb, rfl, ht, hk⟩
          · cases h
          · cases h
          · cases hb
            rcases hk with h | ⟨j, hj, h⟩ | ⟨d, h⟩
            · cases h
            · cases h; exact ⟨rfl, ht, hj⟩
            · cases h
        · obtain ⟨k, -, h⟩ := List.mem_map.1 hf
          cases h
      obtain ⟨rfl, ht, hk⟩ := this
      show Via _ _ _ (command c e q.req top k).view
      rw [command_unordered ht hk hp hno]
      exact Via.refl _ _ _
    | dataset top x =>
      show Via _ _ _ (dataset e q.req top x).view
      have : (dataset e q.req top x).view = e.view := by
        unfold dataset
        split
        · rfl
        · split <;> rfl
      rw [this]
      exact Via.refl _ _ _
    | certs =>
      show Via _ _ _ (Daemon.view (match e.certs.find q.req.name with
        | none => e
        | some x => { e with certs := { e.certs with sent := e.certs.sent ++ [x] } }))
      split <;> exact Via.refl _ _ _

theorem receive_view {c : DConf} {d : Daemon} {q : Packet} (hno : ∀ x, ¬ Ordered c q.req x) :
    Via Quiet c.r.lsdb d.view (receive c d q).view := by
  unfold receive
  have : ∀ (l : List Part) (e : Daemon), (∀ p ∈ l, p ∈ fitting c d q.req.name) → Via Quiet c.r.lsdb e.view (l.foldl (hand c q) e).view := by
    intro l
    induction l with
    | nil => exact fun e _ => Via.refl _ _ _
    | cons p l ih => exact fun e h => (hand_view (h p (by simp)) hno e).trans (ih _ (fun x hx => h x (by simp [hx])))
  exact this _ d (fun _ h => h)

/-- The commands among the events. -/
def cmds (l : List CmdState.Op) : List Cmd := l.filterMap fun o => match o with | .cmd x => some x | .lsdb _ => none

theorem cmds_lsdb (l : List Lsdb.Op) : cmds (l.map .lsdb) = [] := by
  unfold cmds
  rw [List.filterMap_map]
  exact List.filterMap_eq_nil_iff.2 (fun _ _ => rfl)

/-- An LSA that came from the network. -/
def Arrived (ops : List Daemon.Op) (l : Lsa) : Prop := ∃ i, Daemon.Op.router (.core (.lsdb (.fetched i (some l)))) ∈ ops

/-- The list of prefixes, the LSDB, the file and the replies of a daemon that runs are what the commands that were ordered, and the
operations of the LSDB between them, make of them. -/
theorem follows {c : DConf} (hc : Plain c) (disk : Option Seqs) (adjs : AdjacencyList) (start : List (Name × Ext Rat)) (sys : Int)
    (file : Option ConfFile) (certs : List Cert) (ops : List Daemon.Op) (hg : GoodOps c ops)
    (he : (run c (init c disk adjs start sys file certs) ops).ended = false) :
    ∃ cops, (run c (init c disk adjs start sys file certs) ops).view =
        CmdState.run c.r.lsdb (CmdState.init c.r.lsdb disk adjs start sys file) cops ∧ Orders c ops (cmds cops) ∧
      ∀ i l, CmdState.Op.lsdb (.fetched i (some l)) ∈ cops → Arrived ops l := by
  induction ops using snoc_induction with
  | nil =>
    obtain ⟨lops, hm, hl⟩ := Via.by (s := CmdState.init c.r.lsdb disk adjs start sys file)
      (Router.init_by c.r disk adjs (Net.configured start).infos sys) (fun x h => h)
    refine ⟨lops.map .lsdb, hl, ?_, ?_⟩
    · rw [cmds_lsdb]; exact .nil
    · intro i l hi
      obtain ⟨o, ho, e⟩ := List.mem_map.1 hi
      cases e
      exact (hm _ ho).elim
  | snoc ops op ih =>
    have hg' : GoodOps c ops := fun cache kl h => hg cache kl (by simp [h])
    have hk : ReachableKeys c (run c (init c disk adjs start sys file certs) ops) := ⟨disk, adjs, start, sys, file, certs, ops, hg', rfl⟩
    rw [run_snoc] at he ⊢
    have he' := ended_before he
    obtain ⟨cops, h1, h2, h3⟩ := ih hg' he'
    generalize run c (init c disk adjs start sys file certs) ops = d at he he' h1 hk
    have quiet : ∀ lops : List Lsdb.Op, (∀ o ∈ lops, Router.Minor o ∨ (∃ n v, o = .interest n v) ∨ op = .router (.core (.lsdb o))) →
        (step c d op).view = CmdState.run c.r.lsdb d.view (lops.map .lsdb) → (∀ q, op = .interest q → ∀ x, ¬ Ordered c q.req x) →
        ∃ cops, (step c d op).view = CmdState.run c.r.lsdb (CmdState.init c.r.lsdb disk adjs start sys file) cops ∧
          Orders c (ops ++ [op]) (cmds cops) ∧ ∀ i l, CmdState.Op.lsdb (.fetched i (some l)) ∈ cops → Arrived (ops ++ [op]) l := by
      intro lops hm hv hno
      refine ⟨cops ++ lops.map .lsdb, ?_, ?_, ?_⟩
      · rw [hv, h1]; unfold CmdState.run; rw [List.foldl_append]
      · have : cmds (cops ++ lops.map .lsdb) = cmds cops := by
          have e := cmds_lsdb lops
          unfold cmds at e ⊢
          rw [List.filterMap_append, e, List.append_nil]
        rw [this]
        exact .other h2 hno
      · intro i l hi
        rcases List.mem_append.1 hi with hi | hi
        · obtain ⟨j, hj⟩ := h3 i l hi
          exact ⟨j, by simp [hj]⟩
        · obtain ⟨o, ho, e⟩ := List.mem_map.1 hi
          cases e
          rcases hm _ ho with h | ⟨n, v, h⟩ | h
          · exact h.elim
          · cases h
          · exact ⟨i, by rw [← h]; simp⟩
    cases op with
    | interest q =>
      by_cases hx : ∃ x, Ordered c q.req x
      · obtain ⟨x, hx⟩ := hx
        refine ⟨cops ++ [.cmd x], ?_, ?_, ?_⟩
        · obtain ⟨top, ht, k, hkk, p, rest, y, hn, hy, ha, hw, rfl⟩ := hx
          have e : q = ⟨⟨top ++ k.rel ++ p :: rest, q.req.key⟩, q.ver⟩ := by rw [← hn]
          have ha' : k.via = .rib ∨ c.valid ⟨top ++ k.rel ++ p :: rest, q.req.key⟩ = true := by rw [← hn]; exact ha
          show (receive c d q).view = _
          rw [e, C114_command_partial hc hk he' ht hkk p rest q.req.key q.ver hy ha' hw, h1]
          unfold CmdState.run
          rw [List.foldl_append]
          rfl
        · have : cmds (cops ++ [.cmd x]) = cmds cops ++ [x] := by unfold cmds; rw [List.filterMap_append]; rfl
          rw [this]
          exact .order h2 hx
        · intro i l hi
          rcases List.mem_append.1 hi with hi | hi
          · obtain ⟨j, hj⟩ := h3 i l hi
            exact ⟨j, by simp [hj]⟩
          · cases List.mem_singleton.1 hi
      · have hno : ∀ x, ¬ Ordered c q.req x := fun x h => hx ⟨x, h⟩
        obtain ⟨lops, hm, hv⟩ := receive_view (d := d) hno
        exact quiet lops (fun o ho => (hm o ho).imp id Or.inl) hv (fun q' e => by cases e; exact hno)
    | router op =>
      have hstep : step c d (.router op) = if byInterest op then d else { d with r := Router.step c.r d.r op } := by
        show (if d.ended || byInterest op then d else { d with r := Router.step c.r d.r op }) = _
        rw [he', Bool.false_or]
      by_cases hb : byInterest op = true
      · rw [if_pos hb] at hstep
        exact quiet [] (by simp) (by rw [hstep]; rfl) (fun q e => by cases e)
      · rw [if_neg hb] at hstep
        obtain ⟨lops, hm, hv⟩ := Via.by (s := d.view) (Router.step_by c.r d.r op) (by
          rintro x (h | h)
          · exact h
          · subst h; exact hb rfl)
        refine quiet lops (fun o ho => (hm o ho).imp id (fun h => Or.inr (by rw [h]))) ?_ (fun q e => by cases e)
        rw [hstep]
        exact hv
    | segment cache kl =>
      refine quiet [] (by simp) ?_ (fun q e => by cases e)
      show (if d.ended then d else _ : Daemon).view = _
      rw [he']
      dsimp only
      split
      · rename_i h; cases h
      · split <;> rfl

theorem advertised_cmds (start : List (Name × Ext Rat)) (l : List CmdState.Op) (n : Name) :
    (Advertised start ((cmds l).map .cmd) n ↔ Advertised start l n) ∧ AddedCost start ((cmds l).map .cmd) n = AddedCost start l n := by
  induction l using snoc_induction with
  | nil => exact ⟨Iff.rfl, rfl⟩
  | snoc l o ih =>
    have h : cmds (l ++ [o]) = cmds l ++ cmds [o] := by unfold cmds; rw [List.filterMap_append]
    rw [h, List.map_append]
    cases o with
    | cmd x =>
      show (Advertised start ((cmds l).map .cmd ++ [.cmd x]) n ↔ _) ∧ AddedCost start ((cmds l).map .cmd ++ [.cmd x]) n = _
      rw [Advertised_snoc, Advertised_snoc, AddedCost_snoc, AddedCost_snoc]
      dsimp only
      refine ⟨?_, ?_⟩
      · split
        · exact Iff.rfl
        · exact ih.1
      · rw [ih.2]
    | lsdb x =>
      show (Advertised start ((cmds l).map .cmd ++ []) n ↔ _) ∧ AddedCost start ((cmds l).map .cmd ++ []) n = _
      rw [List.append_nil, Advertised_snoc, AddedCost_snoc]
      exact ih

/-- C115, the list of prefixes: after whatever happened to a daemon that still runs, it advertises the prefixes of the configuration and
of the commands that were ordered, without those withdrawn since, and no others: no other interest, LSA, timer or answer of NFD adds
or removes a prefix. -/
theorem C115_prefixes_partial {c : DConf} (hc : Plain c) (disk : Option Seqs) (adjs : AdjacencyList) (start : List (Name × Ext Rat)) (sys : Int)
    (file : Option ConfFile) (certs : List Cert) (ops : List Daemon.Op) (hg : GoodOps c ops)
    (he : (run c (init c disk adjs start sys file certs) ops).ended = false) :
    ∃ xs, Orders c ops xs ∧
      ∀ n, n ∈ (run c (init c disk adjs start sys file certs) ops).npl.names ↔ Advertised start (xs.map .cmd) n := by
  obtain ⟨cops, h1, h2, -⟩ := follows hc disk adjs start sys file certs ops hg he
  refine ⟨cmds cops, h2, fun n => ?_⟩
  rw [(advertised_cmds start cops n).1, ← C49_names c.r.lsdb disk adjs start sys file cops n, ← h1]
  rfl

/-- What the daemon does with an interest for an LSA of its own. -/
theorem lsa_interest {c : DConf} (hc : Plain c) {d : Daemon} (h : ReachableKeys c d) (he : d.ended = false) (t : LsaType) (seq ver : Nat)
    (key : Option Name) : (receive c d ⟨⟨c.r.lsdb.names.lsaInterest t seq, key⟩, ver⟩).r.core.lsdb.log =
      (Lsdb.step c.r.lsdb d.r.core.lsdb (.interest (c.r.lsdb.names.lsaInterest t seq) ver)).log := by
  have hf := C114_lsa_partial hc h c.r.lsdb.names rfl t seq []
  rw [List.append_nil] at hf
  unfold receive
  dsimp only
  rw [hf]
  show (hand c _ d .lsdb).r.core.lsdb.log = _
  unfold hand
  rw [he]
  show (Router.step c.r d.r (.core (.lsdb (.interest (c.r.lsdb.names.lsaInterest t seq) ver)))).core.lsdb.log = _
  have hre : d.r.ended = false := by
    unfold ended at he
    rw [Bool.or_eq_false_iff, Bool.or_eq_false_iff] at he
    exact he.1.1
  unfold Router.step
  rw [hre]
  obtain ⟨f, outs, hl, ho⟩ := lsdb_answers c.r.lsdb d.r.core.lsdb (c.r.lsdb.names.lsaInterest t seq) ver
  have hl' : (Core.step c.r.core d.r.core (.lsdb (.interest (c.r.lsdb.names.lsaInterest t seq) ver))).lsdb =
      Lsdb.step c.r.lsdb d.r.core.lsdb (.interest (c.r.lsdb.names.lsaInterest t seq) ver) := Core.step_lsdb c.r.core d.r.core _
  show (Router.coreStep c.r d.r (.lsdb (.interest (c.r.lsdb.names.lsaInterest t seq) ver))).core.lsdb.log = _
  rw [Router.coreStep_told, hl', hl]
  dsimp only
  rw [List.drop_left]
  have hn : Router.newOrigins outs = [] := by
    unfold Router.newOrigins
    rw [List.filterMap_eq_nil_iff]
    intro o hm
    rcases ho o hm with ⟨s, rfl⟩ | ⟨n, rfl⟩ | rfl <;> rfl
  rw [hn]
  show (Router.told c.r d.r (.lsdb (.interest (c.r.lsdb.names.lsaInterest t seq) ver))).core.lsdb.log = _
  rw [(Router.told_same c.r d.r _).2, hl', hl]

/-- C115, LSAs: an interest for an LSA of the router, as others express it, is answered by a daemon that runs if the LSDB has the LSA with
that number, with this LSA, and not if it has none or one with another number. -/
theorem C115_lsa_partial {c : DConf} (hc : Plain c) (hnet : Comp.str "LSA" ∉ c.r.lsdb.names.network) (hseg : ∀ l, 0 < c.r.lsdb.segments l)
    {d : Daemon} (h : ReachableKeys c d) (he : d.ended = false) (t : LsaType) (ht : t ≠ .base) (seq ver : Nat) (key : Option Name)
    (hlen : (c.r.lsdb.names.lsaInterest t seq).length ≤ 8800) (hseq : seq < 2 ^ 64) :
    let e := receive c d ⟨⟨c.r.lsdb.names.lsaInterest t seq, key⟩, ver⟩
    (∀ o, d.r.core.lsdb.find c.r.lsdb.router t = some o → o.lsa.seq = seq →
      e.r.core.lsdb.log = d.r.core.lsdb.log ++
        [.data ⟨c.r.lsdb.names.lsaInterest t seq ++ [⟨54, Tlv.encNni ver⟩, ⟨50, Tlv.encNni 0⟩], o.lsa, 0⟩]) ∧
    ((∀ o, d.r.core.lsdb.find c.r.lsdb.router t = some o → o.lsa.seq ≠ seq) → e.r.core.lsdb.log = d.r.core.lsdb.log) := by
  intro e
  have hl : e.r.core.lsdb.log = _ := lsa_interest hc h he t seq ver key
  rw [hl]
  exact C33_own_interest c.r.lsdb d.r.core.lsdb t seq ver ht hnet hlen hseq hseg

/-- C115, the Name LSA: whatever happened to a daemon that still runs, whoever asks it for its Name LSA of the current number is given an
LSA that lists exactly the prefixes of the configuration and of the commands that were ordered, without those withdrawn since, each
with the cost it had when it was last added; whoever asks for another number is given nothing.  No LSA of this router comes from
elsewhere, and the numbers do not wrap around. -/
theorem C115_names_partial {c : DConf} (hc : Plain c) (hnet : Comp.str "LSA" ∉ c.r.lsdb.names.network) (hseg : ∀ l, 0 < c.r.lsdb.segments l)
    (disk : Option Seqs) (adjs : AdjacencyList) (start : List (Name × Ext Rat)) (sys : Int) (file : Option ConfFile) (certs : List Cert)
    (ops : List Daemon.Op) (hg : GoodOps c ops) {d : Daemon} (hd : d = run c (init c disk adjs start sys file certs) ops)
    (he : d.ended = false) (hf : ∀ l, Arrived ops l → l.origin = c.r.lsdb.router → l.type ≠ .name)
    (hw : Out.publish .name 0 ∉ d.r.core.lsdb.log)
    (hlen : ∀ k, (c.r.lsdb.names.lsaInterest .name k).length ≤ 8800) :
    ∃ xs, Orders c ops xs ∧ ∃ l m, l.origin = c.r.lsdb.router ∧ l.content = .names m ∧
      (∀ n k, (⟨n, k⟩ : PrefixInfo) ∈ m ↔ AddedCost start (xs.map .cmd) n = some k) ∧
      ∀ k < 2 ^ 64, ∀ key ver,
        (receive c d ⟨⟨c.r.lsdb.names.lsaInterest .name k, key⟩, ver⟩).r.core.lsdb.log = d.r.core.lsdb.log ++
          (if k = d.r.core.lsdb.seqs.name then
            [.data ⟨c.r.lsdb.names.lsaInterest .name k ++ [⟨54, Tlv.encNni ver⟩, ⟨50, Tlv.encNni 0⟩], l, 0⟩] else []) := by
  subst hd
  obtain ⟨cops, h1, h2, h3⟩ := follows hc disk adjs start sys file certs ops hg he
  have hk : ReachableKeys c (run c (init c disk adjs start sys file certs) ops) := ⟨disk, adjs, start, sys, file, certs, ops, hg, rfl⟩
  generalize run c (init c disk adjs start sys file certs) ops = d at *
  have hl : d.r.core.lsdb = (CmdState.run c.r.lsdb (CmdState.init c.r.lsdb disk adjs start sys file) cops).lsdb := by rw [← h1]; rfl
  have hown := C49_lsa c.r.lsdb disk adjs start sys file cops (fun i l hm ho => hf l (h3 i l hm) ho) (by rw [← hl]; exact hw)
  rw [← hl] at hown
  obtain ⟨o, m, hfind, hs, hcont, hsort, hget⟩ := hown
  have hor : o.lsa.origin = c.r.lsdb.router := (Lsdb.find_some hfind).2.1
  refine ⟨cmds cops, h2, o.lsa, m, hor, hcont, ?_, ?_⟩
  · intro n k
    rw [(advertised_cmds start cops n).2, ← hget n]
    exact ⟨fun h => PrefixMap.get_mem hsort h, PrefixMap.get_some⟩
  · intro k hk64 key ver
    obtain ⟨a, b⟩ := C115_lsa_partial hc hnet hseg hk he .name (by decide) k ver key (hlen k) hk64
    split
    · rename_i hkk
      exact a o hfind (hs.trans hkk.symm)
    · rename_i hkk
      rw [List.append_nil]
      refine b (fun o' ho' e => hkk ?_)
      rw [hfind] at ho'
      cases ho'
      exact e.symm.trans hs

/-! ### greetings -/

theorem apply_nbr (c : RConf) (s : Router) (o : NOut) : (Router.apply c s o).nbr = s.nbr := by
  cases o with
  | initial n =>
    show (match AdjacencyList.find s.nbr.adjs n with
      | none => s
      | some a => s.register c c.syncPrefix a.uri a.linkCost).nbr = _
    split
    · rfl
    · exact (Router.register_fib c s _ _ _).2.2
  | register n u k => exact (Router.register_fib c s _ _ _).2.2
  | _ => rfl

theorem nbrStep_nbr (c : RConf) (s : Router) (op : Nbr.Op) : (Router.nbrStep c s op).nbr = Nbr.step c.nbr s.nbr op := by
  unfold Router.nbrStep
  dsimp only
  have : ∀ (l : List NOut) (s : Router), (l.foldl (Router.apply c) s).nbr = s.nbr := by
    intro l
    induction l with
    | nil => exact fun _ => rfl
    | cons o l ih => exact fun s => (ih _).trans (apply_nbr c s o)
  rw [this]
  rfl

/-- What the daemon does with a greeting. -/
theorem hello_interest {c : DConf} (hc : Plain c) {d : Daemon} (h : ReachableKeys c d) (he : d.ended = false) (x : Comp) (ver : Nat)
    (key : Option Name) :
    d.r.nbr.dead = false ∧
    (receive c d ⟨⟨c.r.lsdb.router ++ [Comp.str "nlsr", Comp.str "INFO", x], key⟩, ver⟩).r.nbr =
      Nbr.step c.r.nbr d.r.nbr (.interest (c.r.lsdb.router ++ [Comp.str "nlsr", Comp.str "INFO", x]) ⟨54, Tlv.encNni ver⟩) := by
  generalize hn : c.r.lsdb.router ++ [Comp.str "nlsr", Comp.str "INFO", x] = n
  have hf : fitting c d n = [.hello] := by
    refine hc.only h (f := c.r.lsdb.router ++ [Nbr.nlsrComp, Nbr.infoComp]) (by simp [fixed]) ⟨[x], ?_⟩
    rw [← hn, List.append_assoc]
    rfl
  have hre : d.r.ended = false := by
    unfold ended at he
    rw [Bool.or_eq_false_iff, Bool.or_eq_false_iff] at he
    exact he.1.1
  have hdead : d.r.nbr.dead = false := by
    unfold Router.ended at hre
    rw [Bool.or_eq_false_iff] at hre
    exact hre.1
  refine ⟨hdead, ?_⟩
  unfold receive
  dsimp only
  rw [hf]
  show (hand c _ d .hello).r.nbr = _
  unfold hand
  rw [he]
  show (Router.step c.r d.r (.nbr (.interest n ⟨54, Tlv.encNni ver⟩))).nbr = _
  unfold Router.step
  rw [hre]
  exact nbrStep_nbr c.r d.r _

/-- C115, greetings: an interest `/<router>/nlsr/INFO/<x>` is answered by a daemon that runs, once and under its own name, if `x` carries
the name of a configured neighbour, and not if it does not. -/
theorem C115_hello_partial {c : DConf} (hc : Plain c) {d : Daemon} (h : ReachableKeys c d) (he : d.ended = false) (x : Comp) (ver : Nat)
    (key : Option Name) :
    let n := c.r.lsdb.router ++ [Comp.str "nlsr", Comp.str "INFO", x]
    ∃ o, (receive c d ⟨⟨n, key⟩, ver⟩).r.nbr.out = d.r.nbr.out ++ o ∧
      ((∃ m a, Carries c.r.nbr x m ∧ AdjacencyList.find d.r.nbr.adjs m = some a) → o.filter isData = [.data (n ++ [⟨54, Tlv.encNni ver⟩])]) ∧
      ((¬ ∃ m a, Carries c.r.nbr x m ∧ AdjacencyList.find d.r.nbr.adjs m = some a) → o.filter isData = []) := by
  intro n
  obtain ⟨hdead, e⟩ := hello_interest hc h he x ver key
  obtain ⟨o, ho, h1, -⟩ := C44_answered_partial c.r.nbr d.r.nbr hdead n ⟨54, Tlv.encNni ver⟩
  rw [e]
  exact ⟨o, ho, (h1 x rfl).1, (h1 x rfl).2⟩

/-! ### datasets and refusals -/

/-- C115, datasets: an interest for a data set, below the router's name or `/localhost/nlsr`, is answered with that data set if its name
does not end with a version or a segment number (then it is for something sent before), and changes nothing else. -/
theorem C115_dataset_partial {c : DConf} (hc : Plain c) {d : Daemon} (h : ReachableKeys c d) (he : d.ended = false) {top : Name}
    (ht : top = c.r.lsdb.router ++ [Comp.str "nlsr"] ∨ top = nm ["localhost", "nlsr"]) {rel : Name} {x : Dataset}
    (hx : (rel, x) ∈ [(nm ["lsdb", "adjacencies"], Dataset.adjacencies), (nm ["lsdb", "coordinates"], .coordinates),
      (nm ["lsdb", "names"], .names), (nm ["routing-table"], .routingTable)]) (key : Option Name) (ver : Nat) :
    receive c d ⟨⟨top ++ rel, key⟩, ver⟩ = { d with sets := d.sets ++ [(top, x)] } ∧
    ∀ rest last, receive c d ⟨⟨top ++ rel ++ rest ++ [last], key⟩, ver⟩ =
      if (last.typ = 54 ∨ last.typ = 50) ∧ (Tlv.decNni last.val).isSome then d else { d with sets := d.sets ++ [(top, x)] } := by
  have hf : ∀ rest, fitting c d (top ++ rel ++ rest) = [.dataset top x] := by
    intro rest
    obtain ⟨-, -, -, -, h1, h2, h3, h4⟩ := C114_dispatcher_partial hc h ht rest
    simp only [List.mem_cons, List.not_mem_nil, or_false, Prod.mk.injEq] at hx
    rcases hx with ⟨rfl, rfl⟩ | ⟨rfl, rfl⟩ | ⟨rfl, rfl⟩ | ⟨rfl, rfl⟩ <;> assumption
  have key : ∀ rest, receive c d ⟨⟨top ++ rel ++ rest, key⟩, ver⟩ = dataset d ⟨top ++ rel ++ rest, key⟩ top x := by
    intro rest
    unfold receive
    dsimp only
    rw [hf]
    show hand c _ d (.dataset top x) = _
    unfold hand
    rw [he]
    rfl
  have hlast : ∀ (n : Name) (l : Comp), Name.fromEnd (n ++ [l]) 1 = some l := by
    intro n l
    simp [Name.fromEnd]
  refine ⟨?_, ?_⟩
  · have hk := key []
    rw [List.append_nil] at hk
    rw [hk]
    unfold dataset
    dsimp only
    have : ∃ n l, top ++ rel = n ++ [l] ∧ l.isVersion = false ∧ l.isSegment = false := by
      simp only [List.mem_cons, List.not_mem_nil, or_false, Prod.mk.injEq] at hx
      rcases hx with ⟨rfl, -⟩ | ⟨rfl, -⟩ | ⟨rfl, -⟩ | ⟨rfl, -⟩
      · exact ⟨top ++ nm ["lsdb"], Comp.str "adjacencies", by rw [List.append_assoc]; rfl, by decide +kernel, by decide +kernel⟩
      · exact ⟨top ++ nm ["lsdb"], Comp.str "coordinates", by rw [List.append_assoc]; rfl, by decide +kernel, by decide +kernel⟩
      · exact ⟨top ++ nm ["lsdb"], Comp.str "names", by rw [List.append_assoc]; rfl, by decide +kernel, by decide +kernel⟩
      · exact ⟨top, Comp.str "routing-table", rfl, by decide +kernel, by decide +kernel⟩
    obtain ⟨n, l, e, h1, h2⟩ := this
    rw [e, hlast]
    dsimp only
    rw [h1, h2]
    rfl
  · intro rest last
    have hk := key (rest ++ [last])
    rw [← List.append_assoc] at hk
    rw [hk]
    unfold dataset
    dsimp only
    rw [hlast]
    dsimp only
    unfold Comp.isVersion Comp.isSegment
    have : ((last.typ == 54 && (Tlv.decNni last.val).isSome || last.typ == 50 && (Tlv.decNni last.val).isSome) = true) ↔
        ((last.typ = 54 ∨ last.typ = 50) ∧ (Tlv.decNni last.val).isSome = true) := by
      simp only [Bool.or_eq_true, Bool.and_eq_true, beq_iff_eq]
      constructor
      · rintro (⟨a, b⟩ | ⟨a, b⟩)
        · exact ⟨Or.inl a, b⟩
        · exact ⟨Or.inr a, b⟩
      · rintro ⟨a | a, b⟩
        · exact Or.inl ⟨a, b⟩
        · exact Or.inr ⟨a, b⟩
    split <;> rename_i hh
    · rw [if_pos (this.1 hh)]
    · rw [if_neg (fun h => hh (this.2 h))]

/-- C115, refusals: a command whose parameters can be read is refused with 403 and nothing else if it needs the rules for prefix updates and
does not pass them, and with 400 and nothing else if it passes and its parameters are not those the command needs.  If there are no
parameters or they cannot be read, there is no answer. -/
theorem C115_refused_partial {c : DConf} (hc : Plain c) {d : Daemon} (h : ReachableKeys c d) (he : d.ended = false) {top : Name}
    (ht : top = c.r.lsdb.router ++ [Comp.str "nlsr"] ∨ top = nm ["localhost", "nlsr"]) {k : Access.Handler} (hk : k ∈ Access.handlers)
    (key : Option Name) (ver : Nat) :
    receive c d ⟨⟨top ++ k.rel, key⟩, ver⟩ = d ∧
    ∀ p rest, let q : Access.Request := ⟨top ++ k.rel ++ p :: rest, key⟩
      (c.decode k.rel p = none → receive c d ⟨q, ver⟩ = d) ∧
      ∀ y, c.decode k.rel p = some y →
        (k.via = .nlsr → c.valid q = false → receive c d ⟨q, ver⟩ = { d with refused := d.refused ++ [403] }) ∧
        (k.via = .rib ∨ c.valid q = true → Access.wellFormed k y = false →
          receive c d ⟨q, ver⟩ = { d with refused := d.refused ++ [400] }) := by
  have hr : ∀ rest, receive c d ⟨⟨top ++ k.rel ++ rest, key⟩, ver⟩ = command c d ⟨top ++ k.rel ++ rest, key⟩ top k := by
    intro rest
    have hf : fitting c d (top ++ k.rel ++ rest) = [.command top k] := by
      refine hc.only h ?_ (List.prefix_append _ _)
      refine List.mem_append_right _ (List.mem_flatMap.2 ⟨top, ?_, List.mem_append_left _ (List.mem_map.2 ⟨k, hk, rfl⟩)⟩)
      rw [hc.tops.1]
      rcases ht with rfl | rfl <;> simp
    unfold receive
    dsimp only
    rw [hf]
    show hand c _ d (.command top k) = _
    unfold hand
    rw [he]
    rfl
  refine ⟨?_, ?_⟩
  · have e := hr []
    rw [List.append_nil] at e
    rw [e]
    unfold command
    dsimp only
    rw [List.getElem?_eq_none (Nat.le_refl _)]
  · intro p rest q
    have hp : q.name[(top ++ k.rel).length]? = some p := by
      show (top ++ k.rel ++ p :: rest)[(top ++ k.rel).length]? = _
      rw [List.getElem?_append_right (Nat.le_refl _), Nat.sub_self]
      rfl
    have e : receive c d ⟨q, ver⟩ = command c d q top k := hr (p :: rest)
    rw [e]
    unfold command
    rw [hp]
    dsimp only
    refine ⟨fun hd => by rw [hd], fun y hy => ?_⟩
    rw [hy]
    dsimp only
    refine ⟨fun hv hq => ?_, fun hv hw => ?_⟩
    · have : Access.authorized c.env k q = false := by
        unfold Access.authorized
        rw [hv]
        exact hq
      rw [this]
      rfl
    · have : Access.authorized c.env k q = true := by
        unfold Access.authorized
        rcases hv with e | e
        · rw [e]
        · split
          · exact e
          · rfl
      rw [this, hw]
      rfl

/-! ### certificates -/

theorem publish_sent (cache : Name → Option Cert) (l : List Cert) : ∀ (fuel : Nat) (s : CertStore) (n : Name),
    CertStore.publish cache fuel { s with sent := l } n = (CertStore.publish cache fuel s n).map (fun s => { s with sent := l }) := by
  intro fuel
  induction fuel with
  | zero => exact fun _ _ => rfl
  | succ fuel ih =>
    intro s n
    unfold CertStore.publish
    split
    · rfl
    · dsimp only
      split
      · rfl
      · split
        · exact ih ((s.insert _).listen _) _
        · rfl

theorem segment_sent (cache : Name → Option Cert) (l : List Cert) (fuel : Nat) (s : CertStore) (kl : Option Name) :
    CertStore.segment cache fuel { s with sent := l } kl = (CertStore.segment cache fuel s kl).map (fun s => { s with sent := l }) := by
  cases kl with
  | none => rfl
  | some n =>
    show (if (s.find n).isNone then CertStore.publish cache fuel { s with sent := l } n else some { s with sent := l }) =
      (if (s.find n).isNone then CertStore.publish cache fuel s n else some s).map _
    split
    · exact publish_sent cache l fuel s n
    · rfl

/-- The certificates of the one are those of the other. -/
def Same (s : CertStore) (d : Daemon) : Prop :=
  ∃ l b, d.certs = { s with sent := l, dead := b } ∧ (s.dead = true → b = true)

theorem hand_same (c : DConf) (q : Packet) {s : CertStore} {d : Daemon} (h : Same s d) (p : Part) : Same s (hand c q d p) := by
  unfold hand
  split
  · exact h
  · cases p with
    | lsdb => exact h
    | sync => exact h
    | hello => exact h
    | command top k =>
      show Same s (command c d q.req top k)
      unfold command
      split
      · exact h
      · split
        · exact h
        · split
          · split <;> exact h
          · exact h
    | dataset top x =>
      show Same s (dataset d q.req top x)
      unfold dataset
      split
      · exact h
      · split <;> exact h
    | certs =>
      dsimp only
      split
      · exact h
      · obtain ⟨l, b, e, hb⟩ := h
        exact ⟨_, b, by rw [e], hb⟩

/-- The certificates of the daemon are those the certificate store would have after the segments alone. -/
theorem certs_follow (c : DConf) (disk : Option Seqs) (adjs : AdjacencyList) (start : List (Name × Ext Rat)) (sys : Int)
    (file : Option ConfFile) (certs : List Cert) (ops : List Daemon.Op) :
    ∃ cops s, CertStore.run c.depth (CertStore.init c.r.lsdb.names certs) cops = some s ∧
      Same s (run c (init c disk adjs start sys file certs) ops) ∧
      ∀ cache kl, CertStore.Op.segment cache kl ∈ cops → Daemon.Op.segment cache kl ∈ ops := by
  induction ops using snoc_induction with
  | nil => exact ⟨[], _, rfl, ⟨_, _, rfl, fun h => h⟩, (fun _ _ h => nomatch h)⟩
  | snoc ops op ih =>
    obtain ⟨cops, s, h1, h2, h3⟩ := ih
    rw [run_snoc]
    generalize run c (init c disk adjs start sys file certs) ops = d at h2
    have stay : Same s (step c d op) → ∃ cops s, CertStore.run c.depth (CertStore.init c.r.lsdb.names certs) cops = some s ∧
        Same s (step c d op) ∧ ∀ cache kl, CertStore.Op.segment cache kl ∈ cops → Daemon.Op.segment cache kl ∈ ops ++ [op] :=
      fun h => ⟨cops, s, h1, h, fun cache kl hm => List.mem_append_left _ (h3 cache kl hm)⟩
    cases op with
    | interest q =>
      refine stay ?_
      show Same s (receive c d q)
      unfold receive
      generalize fitting c d q.req.name = l
      clear stay h1
      induction l generalizing d with
      | nil => exact h2
      | cons p l ih => exact ih _ (hand_same c q h2 p)
    | router op =>
      refine stay ?_
      unfold step
      dsimp only
      split <;> exact h2
    | segment cache kl =>
      have hs : step c d (.segment cache kl) = if d.ended then d else
        match CertStore.segment cache c.depth d.certs kl with
        | none => { d with certs := { d.certs with dead := true } }
        | some s => { d with certs := s } := rfl
      by_cases he : d.ended = true
      · rw [if_pos he] at hs
        exact stay (by rw [hs]; exact h2)
      · rw [if_neg he] at hs
        obtain ⟨l, b, e, hb⟩ := h2
        have hb0 : b = false := by
          cases b with
          | false => rfl
          | true =>
            exfalso
            refine he ?_
            unfold ended
            rw [e]
            simp
        subst hb0
        have hsd : s.dead = false := by
          cases hx : s.dead with
          | false => rfl
          | true => cases hb hx
        have e' : d.certs = { s with sent := l } := by rw [e, ← hsd]
        rw [e', segment_sent] at hs
        cases hseg : CertStore.segment cache c.depth s kl with
        | none =>
          rw [hseg] at hs
          exact stay ⟨l, true, by rw [hs]; rfl, fun _ => rfl⟩
        | some s' =>
          rw [hseg] at hs
          refine ⟨cops ++ [.segment cache kl], s', ?_, ⟨l, s'.dead, by rw [hs]; rfl, fun h => h⟩, ?_⟩
          · have hrun : ∀ (a b : List CertStore.Op) (x : CertStore), CertStore.run c.depth x (a ++ b) =
                (CertStore.run c.depth x a).bind (fun y => CertStore.run c.depth y b) := by
              intro a
              induction a with
              | nil => exact fun _ _ => rfl
              | cons o a ih =>
                intro b x
                show (match CertStore.step c.depth x o with | none => none | some s => CertStore.run c.depth s (a ++ b)) =
                  (match CertStore.step c.depth x o with | none => none | some s => CertStore.run c.depth s a).bind _
                cases CertStore.step c.depth x o with
                | none => rfl
                | some y => exact ih b y
            rw [hrun, h1]
            show (match CertStore.step c.depth s (.segment cache kl) with | none => none | some s => some s) = _
            have : CertStore.step c.depth s (.segment cache kl) = some s' := by
              unfold CertStore.step
              dsimp only
              rw [hsd]
              exact hseg
            rw [this]
          · intro cache' kl' hm
            rcases List.mem_append.1 hm with hm | hm
            · exact List.mem_append_left _ (h3 _ _ hm)
            · cases List.mem_singleton.1 hm
              simp

/-- C115, certificates: a certificate that the daemon was started with, named below the router, its NLSR, its site or an operator of the
site, and the only one for its key, is sent to whoever asks for it, by its name or by that of its key, whatever happened before, as
long as the daemon runs and the validator has fetched no other certificate for the key. -/
theorem C115_certificate_partial {c : DConf} (hc : Plain c) (disk : Option Seqs) (adjs : AdjacencyList) (start : List (Name × Ext Rat))
    (sys : Int) (file : Option ConfFile) (certs : List Cert) (ops : List Daemon.Op) (hg : GoodOps c ops) {d : Daemon}
    (hd : d = run c (init c disk adjs start sys file certs) ops) (he : d.ended = false) (hf : ∀ x ∈ certs, GoodCert x) {x : Cert}
    (hx : x ∈ certs) (honly : ∀ y ∈ certs, certKey y = certKey x → y = x)
    (hcache : ∀ cache kl, Daemon.Op.segment cache kl ∈ ops → ∀ n y, cache n = some y → GoodCert y ∧ (certKey y = certKey x → y = x))
    {op : Comp} (hop : Uri.parseName "/%C1.Operator".toList = some [op]) (n : Name)
    (hn : n = x.name ∨ (n = certKey x ∧ PlainKey n)) (hh : Home c.r.lsdb.names op n) (key : Option Name) (ver : Nat) :
    ∃ k, receive c d ⟨⟨n, key⟩, ver⟩ =
      { d with certs := { d.certs with sent := d.certs.sent ++ List.replicate (k + 1) x } } := by
  obtain ⟨cops, s, h1, ⟨l, b, h2, hb⟩, h3⟩ := certs_follow c disk adjs start sys file certs ops
  have hk : ReachableKeys c (run c (init c disk adjs start sys file certs) ops) := ⟨disk, adjs, start, sys, file, certs, ops, hg, rfl⟩
  rw [← hd] at h2 hk
  have hfind : d.certs.find n = some x := by
    obtain ⟨a1, a2⟩ := C77_configured_stays_partial c.r.lsdb.names certs hf x hx honly c.depth cops
      (fun cache kl hm n y hy => (hcache cache kl (h3 _ _ hm) n y hy).1)
      (fun cache kl hm n y hy => (hcache cache kl (h3 _ _ hm) n y hy).2) s h1
    have e : d.certs.find n = s.find n := by rw [h2]; rfl
    rw [e]
    rcases hn with rfl | ⟨rfl, hp⟩
    · exact a1
    · exact a2 hp
  obtain ⟨p, hp, hpn⟩ := hh.filter hop
  have hm : Part.certs ∈ fitting c d n := fitting_mem (List.mem_append_right _ (List.mem_map.2 ⟨p, hk.start hp, rfl⟩)) hpn
  have hall : ∀ q ∈ fitting c d n, q = .certs := fun q hq => C114_one_part_partial hc hk n hq hm
  have hrep : fitting c d n = List.replicate (fitting c d n).length .certs := List.eq_replicate_of_mem hall
  have hpos : 0 < (fitting c d n).length := List.length_pos_of_mem hm
  refine ⟨(fitting c d n).length - 1, ?_⟩
  rw [Nat.sub_add_cancel hpos]
  unfold receive
  dsimp only
  rw [hrep, List.length_replicate]
  generalize (fitting c d n).length = m
  clear hrep hpos hall hm hd h2 hk
  induction m generalizing d with
  | zero => simp
  | succ m ih =>
    rw [List.replicate_succ, List.foldl_cons]
    have e : hand c ⟨⟨n, key⟩, ver⟩ d .certs = { d with certs := { d.certs with sent := d.certs.sent ++ [x] } } := by
      unfold hand
      rw [he]
      show (match d.certs.find n with | none => d | some x => { d with certs := { d.certs with sent := d.certs.sent ++ [x] } }) = _
      rw [hfind]
    rw [e, ih (d := { d with certs := { d.certs with sent := d.certs.sent ++ [x] } }) he hfind]
    simp [List.replicate_succ]

/-! ### the hypotheses can be met -/

/-- The certificate of r1's key. -/
def exCertR1 : Cert := ⟨exR1 ++ nm ["KEY", "k1", "i", "v1"], none, [1]⟩

/-- After the faces and r2's certificate, the LSAs of the other routers arrive; the operator's command advertises /q, and somebody
asks for the same without a signature. -/
def exServed : List Daemon.Op := exEvents ++ exLearn.map .router ++
  [.interest ⟨⟨nm ["localhost", "nlsr", "prefix-update", "advertise", "P"], some (nm ["net", "op", "KEY", "1"])⟩, 1⟩,
   .interest ⟨⟨nm ["localhost", "nlsr", "prefix-update", "withdraw", "P"], none⟩, 2⟩]

def exServer : Daemon := run exDC (init exDC none exNbrs [(nm ["a"], .fin 5)] 0 none [exCertR1]) exServed

theorem exServed_segment {cache kl} (h : Daemon.Op.segment cache kl ∈ exServed) : Daemon.Op.segment cache kl ∈ exEvents := by
  unfold exServed at h
  rcases List.mem_append.1 h with h | h
  · rcases List.mem_append.1 h with h | h
    · exact h
    · obtain ⟨y, -, e⟩ := List.mem_map.1 h
      cases e
  · simp at h

theorem exServed_good : GoodOps exDC exServed := fun cache kl hm => exEvents_good cache kl (exServed_segment hm)

theorem exServed_cert {cache kl} (h : Daemon.Op.segment cache kl ∈ exServed) {n y} (hy : cache n = some y) : y = exCertR2 := by
  rcases List.mem_append.1 (exServed_segment h) with h | h
  · obtain ⟨z, -, e⟩ := List.mem_map.1 h
    cases e
  · cases List.mem_singleton.1 h
    dsimp only at hy
    split at hy
    · exact (Option.some.inj hy).symm
    · cases hy

theorem exServer_keys : ReachableKeys exDC exServer := ⟨none, exNbrs, _, 0, none, _, exServed, exServed_good, rfl⟩

/-- `C115_prefixes_partial` and `C115_names_partial` have cases: one of the two commands was ordered, and /q is advertised. -/
example : Plain exDC ∧ Comp.str "LSA" ∉ exDC.r.lsdb.names.network ∧ (∀ l, 0 < exDC.r.lsdb.segments l) ∧ GoodOps exDC exServed ∧
    exServer.ended = false ∧ (∀ l, Arrived exServed l → l.origin = exDC.r.lsdb.router → l.type ≠ .name) ∧
    Out.publish .name 0 ∉ exServer.r.core.lsdb.log ∧ (∀ k, (exDC.r.lsdb.names.lsaInterest .name k).length ≤ 8800) ∧
    Ordered exDC ⟨nm ["localhost", "nlsr", "prefix-update", "advertise", "P"], some (nm ["net", "op", "KEY", "1"])⟩
      ⟨.nlsr, .advertise, nm ["q"], none, none, none⟩ ∧
    (∀ x, ¬ Ordered exDC ⟨nm ["localhost", "nlsr", "prefix-update", "withdraw", "P"], none⟩ x) ∧
    exServer.npl.names = [nm ["a"], nm ["q"]] ∧ exServer.r.core.lsdb.seqs.name = 2 := by
  refine ⟨exDC_plain, by decide +kernel, fun _ => Nat.one_pos, exServed_good, by decide +kernel, ?_, by decide +kernel, ?_, ?_, ?_,
    by decide +kernel, by decide +kernel⟩
  · rintro l ⟨i, h⟩ ho
    have : ∀ l ∈ exServed.filterMap (fun op => match op with | .router (.core (.lsdb (.fetched _ x))) => x | _ => none),
        l.origin ≠ exDC.r.lsdb.router := by decide +kernel
    exact absurd ho (this l (List.mem_filterMap.2 ⟨_, h, rfl⟩))
  · intro k
    show (exDC.r.lsdb.names.lsaUserPrefix .name ++ [Comp.number k]).length ≤ 8800
    rw [List.length_append, show (exDC.r.lsdb.names.lsaUserPrefix .name).length = 7 by decide +kernel]
    show 7 + 1 ≤ 8800
    decide
  · refine ⟨nm ["localhost", "nlsr"], Or.inr rfl, ⟨nm ["prefix-update", "advertise"], .nlsr, .advertise⟩, by decide +kernel, Comp.str "P", [], { name := some (nm ["q"]) }, ?_⟩
    decide +kernel
  · rintro x ⟨top, ht, k, hk, p, rest, y, hn, -, h, -⟩
    have hv : k.via = .rib := h.resolve_right (by decide +kernel)
    have hr : k.rel = nm ["rib", "register"] ∨ k.rel = nm ["rib", "unregister"] := by
      unfold Access.handlers at hk
      simp only [List.mem_cons, List.not_mem_nil, or_false] at hk
      rcases hk with rfl | rfl | rfl | rfl
      · cases hv
      · cases hv
      · exact Or.inl rfl
      · exact Or.inr rfl
    rcases ht with rfl | rfl
    · have := congrArg (fun l : Name => l[0]?) hn
      exact absurd (Option.some.inj (show some (Comp.str "localhost") = some (Comp.str "net") from this)) (by decide +kernel)
    · have := congrArg (fun l : Name => l[2]?) hn
      rcases hr with e | e <;> rw [e] at this <;>
        exact absurd (Option.some.inj (show some (Comp.str "prefix-update") = some (Comp.str "rib") from this)) (by decide +kernel)

/-- `C115_lsa_partial`, `C115_hello_partial`, `C115_dataset_partial` and `C115_refused_partial` have cases. -/
example : Plain exDC ∧ ReachableKeys exDC exServer ∧ exServer.ended = false ∧
    ((exServer.r.core.lsdb.find exDC.r.lsdb.router .name).map (·.lsa.seq) = some 2) ∧
    (∃ a, AdjacencyList.find exServer.r.nbr.adjs exR2 = some a) ∧ Carries exDC.r.nbr ⟨8, Tlv.encName exR2⟩ exR2 ∧
    (∀ a, AdjacencyList.find exServer.r.nbr.adjs exR4 ≠ some a) := by
  refine ⟨exDC_plain, exServer_keys, by decide +kernel, by decide +kernel, ?_, ?_, ?_⟩
  · exact Option.isSome_iff_exists.1 (by decide +kernel)
  · exact (carries_iff _ _ _).2 (by decide +kernel)
  · have : AdjacencyList.find exServer.r.nbr.adjs exR4 = none := by decide +kernel
    intro a h
    rw [this] at h
    cases h

/-- `C115_certificate_partial` has cases: the certificate of r1, by its name and by that of its key. -/
example : GoodCert exCertR1 ∧ Uri.parseName "/%C1.Operator".toList = some [Nbr.operatorTag] ∧
    (∀ cache kl, Daemon.Op.segment cache kl ∈ exServed → ∀ n y, cache n = some y → GoodCert y ∧ (certKey y = certKey exCertR1 → y = exCertR1)) ∧
    Home exDC.r.lsdb.names Nbr.operatorTag exCertR1.name ∧ Home exDC.r.lsdb.names Nbr.operatorTag (certKey exCertR1) ∧
    PlainKey (certKey exCertR1) ∧
    (receive exDC exServer ⟨⟨certKey exCertR1, none⟩, 3⟩).certs.sent = [exCertR1] := by
  refine ⟨?_, by decide +kernel, ?_, ?_, ?_, by decide +kernel, by decide +kernel⟩
  · exact ⟨exR1, Comp.str "k1", Comp.str "i", Comp.str "v1", by decide +kernel, by decide +kernel, by decide +kernel⟩
  · intro cache kl hm n y hy
    cases exServed_cert hm hy
    exact ⟨⟨exR2 ++ nm ["nlsr"], Comp.str "k2", Comp.str "issuer", Comp.str "v1", by decide +kernel, by decide +kernel, by decide +kernel⟩,
      fun h => absurd h (by decide +kernel)⟩
  · have : exCertR1.name = exDC.r.lsdb.names.network ++ exDC.r.lsdb.names.site ++ exDC.r.lsdb.names.router ++ [Comp.str "KEY"] ++ nm ["k1", "i", "v1"] := by
      decide +kernel
    rw [this]; exact .router _
  · have : certKey exCertR1 = exDC.r.lsdb.names.network ++ exDC.r.lsdb.names.site ++ exDC.r.lsdb.names.router ++ [Comp.str "KEY"] ++ nm ["k1"] := by
      decide +kernel
    rw [this]; exact .router _

/-! ### what can go wrong -/

/-- C115 fails: one interest `/<router>/nlsr/INFO/<x>` from anybody, where `x` carries no name, ends every daemon in every state, and
nothing that is asked afterwards is answered.  src/hello-protocol.cpp:127, src/main.cpp:85-91. -/
theorem C115_violated_silenced {c : DConf} (hc : Plain c) {d : Daemon} (h : ReachableKeys c d) (he : d.ended = false) (x : Comp)
    (hx : ∀ n, ¬ Carries c.r.nbr x n) (key : Option Name) (ver : Nat) (ops : List Daemon.Op) :
    let e := receive c d ⟨⟨c.r.lsdb.router ++ [Comp.str "nlsr", Comp.str "INFO", x], key⟩, ver⟩
    e.ended = true ∧ run c e ops = e := by
  intro e
  obtain ⟨hdead, hs⟩ := hello_interest hc h he x ver key
  have hd : e.r.nbr.dead = true := by
    rw [show e.r.nbr = _ from hs]
    exact (C68_malformed_partial c.r.nbr d.r.nbr hdead _).2 ⟨_, _, c.r.lsdb.router ++ [Comp.str "nlsr"], x, rfl,
      ⟨[x], by rw [List.append_assoc]; rfl⟩, by rw [List.append_assoc]; rfl, hx⟩
  have hend : e.ended = true := by
    unfold ended Router.ended
    rw [hd]; rfl
  exact ⟨hend, C115_ended hend ops⟩

/-- `C115_ended` and `C115_violated_silenced` have cases: an empty component carries no name. -/
example : Plain exDC ∧ ReachableKeys exDC exServer ∧ exServer.ended = false ∧ (∀ n, ¬ Carries exDC.r.nbr ⟨8, []⟩ n) ∧
    (receive exDC exServer ⟨⟨exR1 ++ nm ["nlsr", "INFO"] ++ [⟨8, []⟩], none⟩, 3⟩).ended = true := by
  refine ⟨exDC_plain, exServer_keys, by decide +kernel, fun n h => ?_, by decide +kernel⟩
  have h := (carries_iff _ _ _).1 h
  have e : Nbr.nameFromValue exDC.r.nbr [] = none := by decide +kernel
  rw [e] at h
  cases h

/-- C115 fails for a router whose name starts with `/localhost/nlsr`: it runs and answers no command and no data set under
`/localhost/nlsr`. -/
theorem C115_violated_local : ∃ (c : DConf) (d : Daemon), ReachableKeys c d ∧ d.ended = false ∧
    ∀ rel ∈ [nm ["prefix-update", "advertise"], nm ["prefix-update", "withdraw"], nm ["lsdb", "adjacencies"], nm ["lsdb", "coordinates"],
      nm ["lsdb", "names"], nm ["routing-table"]], ∀ (p : List Comp) (key : Option Name) (ver : Nat),
      receive c d ⟨⟨nm ["localhost", "nlsr"] ++ rel ++ p, key⟩, ver⟩ = d := by
  obtain ⟨c, d, h1, h2, h3⟩ := C114_violated_local
  refine ⟨c, d, h1, h2, fun rel hr p key ver => ?_⟩
  unfold receive
  dsimp only
  rw [h3 rel hr p]
  rfl

end Daemon
end Nlsr
