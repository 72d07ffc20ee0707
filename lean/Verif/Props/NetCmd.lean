import Verif.Model.NetCmd
import Verif.Props.Cmd
import Verif.Props.NetSettles
/-
C93: what commands advertise and withdraw decides where packets go.
-/
namespace Nlsr
namespace Net
open Router (Mild)
open Lsdb (NodeInv)

section
variable {ι : Type} [DecidableEq ι]

/-- States the network can be in, with the prefixes each router was last started with and the commands it has got
since then. -/
inductive CReachable (c : ι → RConf) : CState ι → (ι → List (Name × Ext Rat)) → (ι → List Cmd) → Prop
  | start (disk : ι → Option Seqs) (adjs : ι → AdjacencyList) (start : ι → List (Name × Ext Rat)) (sys : ι → Int)
      (hf : ∀ i, Nbr.Fresh (adjs i)) (hw : ∀ i, Whole (adjs i)) (hd : ∀ i, ∀ q ∈ disk i, Room q)
      (hr : ∀ i, Room (Router.init (c i) (disk i) (adjs i) (configured (start i)).infos (sys i)).core.lsdb.seqs) :
      CReachable c ⟨fun i => ⟨Router.init (c i) (disk i) (adjs i) (configured (start i)).infos (sys i), []⟩,
        fun i => configured (start i)⟩ start (fun _ => [])
  | act {N : CState ι} {st : ι → List (Name × Ext Rat)} {H : ι → List Cmd} (h : CReachable c N st H) (i : ι) (op : Router.Op)
      (ha : CAllowed c N (.act i op)) (hr : ∀ j, Room ((cstep c N (.act i op)).net j).r.core.lsdb.seqs) :
      CReachable c (cstep c N (.act i op)) st H
  | cmd {N : CState ι} {st : ι → List (Name × Ext Rat)} {H : ι → List Cmd} (h : CReachable c N st H) (i : ι) (x : Cmd)
      (he : (N.net i).r.ended = false) (hr : ∀ j, Room ((cstep c N (.cmd i x)).net j).r.core.lsdb.seqs) :
      CReachable c (cstep c N (.cmd i x)) st (fun j => if j = i then H j ++ [x] else H j)
  | restart {N : CState ι} {st : ι → List (Name × Ext Rat)} {H : ι → List Cmd} (h : CReachable c N st H) (i : ι)
      (adjs : AdjacencyList) (start : List (Name × Ext Rat)) (sys : Int) (kill : Kill)
      (ha : CAllowed c N (.restart i adjs start sys kill))
      (hr : ∀ j, Room ((cstep c N (.restart i adjs start sys kill)).net j).r.core.lsdb.seqs) :
      CReachable c (cstep c N (.restart i adjs start sys kill)) (fun j => if j = i then start else st j)
        (fun j => if j = i then [] else H j)

/-! ### the own Name LSA -/

/-- The list of prefixes, what the LSDB sees of it, and the router's own Name LSA. -/
structure Lists (c : RConf) (s : Router) (l : Npl) : Prop where
  sorted : Npl.Sorted l
  plain : Npl.Plain l
  mirror : s.core.lsdb.npl = l.infos
  own : ∃ cost, OwnNames c.lsdb s.core.lsdb s.core.lsdb.seqs.name cost ∧ ∀ n, cost n = none ↔ n ∉ l.names

theorem infos_none {l : Npl} (h : Npl.Sorted l) (n : Name) : PrefixMap.get (PrefixMap.ofList l.infos) n = none ↔ n ∉ l.names := by
  rw [PrefixMap.ofList_of_sorted (Npl.infos_sorted h), Npl.get_infos, Npl.mem_names_iff]
  cases l.get n <;> simp

theorem OwnNames.congr {c : LConf} {s s' : Lsdb} {seq : Nat} {cost : Name → Option (Ext Rat)} (h : OwnNames c s seq cost)
    (e : s'.db = s.db) : OwnNames c s' seq cost := by
  obtain ⟨o, m, hf, r⟩ := h
  refine ⟨o, m, ?_, r⟩
  unfold Lsdb.find at hf ⊢
  rw [e]
  exact hf

theorem Lists.mild {c : RConf} {s s' : Router} {l : Npl} (h : Lists c s l) (hm : Mild s s') : Lists c s' l := by
  refine ⟨h.sorted, h.plain, hm.npl.trans h.mirror, ?_⟩
  obtain ⟨cost, h1, h2⟩ := h.own
  refine ⟨cost, ?_, h2⟩
  rw [hm.seqs]
  exact OwnNames.congr h1 hm.db

theorem Lists.init (c : RConf) (disk : Option Seqs) (adjs : AdjacencyList) (start : List (Name × Ext Rat)) (sys : Int) :
    Lists c (Router.init c disk adjs (configured start).infos sys) (configured start) := by
  have hok := CmdState.startList_ok start
  refine Lists.mild (s := ⟨Nbr.init c.nbr adjs, Core.init c.core disk adjs (configured start).infos sys, { adjs := adjs }, false⟩)
    ⟨hok.1, hok.2, ?_, PrefixMap.get (PrefixMap.ofList (configured start).infos), ?_, infos_none hok.1⟩ (Router.init_mild c disk adjs _ sys)
  · show (Core.init c.core disk adjs (configured start).infos sys).lsdb.npl = _
    exact (CmdState.init_inv c.lsdb disk adjs start sys none).mirror
  · show OwnNames c.lsdb (Core.init c.core disk adjs (configured start).infos sys).lsdb _ _
    exact Lsdb.own_init c.lsdb disk adjs _ sys

theorem Lists.act {c : ι → RConf} (hs : Sane c) {N : State ι} (hN : NInv c N) {i : ι} {op : Router.Op} {l : Npl}
    (h : Lists (c i) (N i).r l) (ha : Allowed c N (.act i op)) (hb : byCommand op = false)
    (hpos : Out.publish .name 0 ∉ (Router.step (c i) (N i).r op).core.lsdb.log) :
    Lists (c i) (Router.step (c i) (N i).r op) l := by
  obtain ⟨-, hpl⟩ := Allowed.plain hs hN ha
  cases Router.step_does (c i) (N i).r op with
  | nothing hm => exact h.mild hm
  | lsdb o hop ho x hx hn hm =>
    have hp := hpl o hop ho
    have hnot : ∀ l, o ≠ .setNpl l := by
      rintro l rfl
      rcases hop with rfl | ⟨_, _, -, e⟩
      · cases hb
      · cases e
    refine Lists.mild (s := x) ⟨h.sorted, h.plain, ?_, ?_⟩ hm
    · rw [hx, CmdState.lsdb_npl _ _ _ hnot]; exact h.mirror
    · obtain ⟨cost, h1, h2⟩ := h.own
      refine ⟨cost, ?_, h2⟩
      rw [hx]
      refine Lsdb.own_step (hN.node i).reach o ?_ h1 ?_ ?_
      · rintro m y rfl e
        exact absurd e hp
      · intro n
        rw [h2, h.mirror, infos_none h.sorted]
      · rw [← hx, ← hm.log]; exact hpos

theorem listed_eq (l : Npl) (x : Cmd) : (listed l x).2 = CmdState.nplAfter l x := by
  unfold listed CmdState.nplAfter
  cases x.verb <;> rfl

theorem mem_listed {l : Npl} (hs : Npl.Sorted l) (hp : Npl.Plain l) (x : Cmd) (n : Name) :
    n ∈ (listed l x).2.names ↔ if x.name = n then x.verb = .advertise else n ∈ l.names := by
  unfold listed
  by_cases hn : x.name = n
  · rw [if_pos hn]
    split
    · rename_i h; rw [Npl.mem_names_insert hs]; simp [hn, h]
    · rename_i h; rw [Npl.mem_names_erase hp]; simp [hn, h]
  · rw [if_neg hn]
    split
    · rw [Npl.mem_names_insert hs]
      exact ⟨fun h => h.resolve_left (fun e => hn e.symm), Or.inr⟩
    · rw [Npl.mem_names_erase hp]
      exact ⟨fun h => h.2, fun h => ⟨fun e => hn e.symm, h⟩⟩

/-- If a command does not change the list, the names on it stay. -/
theorem listed_same {l : Npl} (hs : Npl.Sorted l) (hp : Npl.Plain l) (x : Cmd) (h : (listed l x).1 = false) (n : Name) :
    n ∈ (listed l x).2.names ↔ n ∈ l.names := by
  rw [mem_listed hs hp]
  by_cases hn : x.name = n
  · rw [if_pos hn]
    subst hn
    unfold listed at h
    cases hv : x.verb with
    | advertise =>
      rw [hv] at h
      dsimp only at h
      rw [Npl.insert_fst_plain hs hp] at h
      simp at h
      exact ⟨fun _ => h, fun _ => rfl⟩
    | withdraw =>
      rw [hv] at h
      dsimp only at h
      rw [Npl.erase_fst_plain hp] at h
      simp at h
      exact ⟨fun e => (by cases e), fun e => absurd e h⟩
  · rw [if_neg hn]

theorem act_self (c : ι → RConf) (N : State ι) (i : ι) (op : Router.Op) :
    Net.step c N (.act i op) i = { N i with r := Router.step (c i) (N i).r op } := by
  show (if i = i then _ else _) = _
  rw [if_pos rfl]

theorem act_other (c : ι → RConf) (N : State ι) {i j : ι} (op : Router.Op) (h : j ≠ i) : Net.step c N (.act i op) j = N j := by
  show (if j = i then _ else _) = _
  rw [if_neg h]

/-! ### C93 -/

/-- All that holds along a run. -/
structure CInv (c : ι → RConf) (N : CState ι) (st : ι → List (Name × Ext Rat)) (H : ι → List Cmd) : Prop where
  reach : Reachable c N.net
  lists : ∀ i, Lists (c i) (N.net i).r (N.npl i)
  said : ∀ i n, n ∈ (N.npl i).names ↔ Advertised (st i) ((H i).map .cmd) n

theorem pos_act {c : ι → RConf} (hs : Sane c) {N : State ι} {i : ι} {op : Router.Op} (h : Reachable c (Net.step c N (.act i op))) :
    Out.publish .name 0 ∉ (Router.step (c i) (N i).r op).core.lsdb.log := by
  have := ((h.ninv hs).node i).pos .name
  rw [act_self] at this
  exact this

/-- The command changes the list only. -/
theorem setNpl_does (c : RConf) (s : Router) (l : List PrefixInfo) (he : s.ended = false) :
    ∃ x : Router, x.core.lsdb = { s.core.lsdb with npl := l } ∧ Mild x (Router.step c s (.core (.lsdb (.setNpl l)))) :=
  Router.live_lsdb c s (.setNpl l) he rfl

theorem setNpl_live (c : RConf) (s : Router) (l : List PrefixInfo) (he : s.ended = false) :
    (Router.step c s (.core (.lsdb (.setNpl l)))).ended = false := by
  have e : Router.step c s (.core (.lsdb (.setNpl l))) = Router.coreStep c s (.lsdb (.setNpl l)) := by
    unfold Router.step
    rw [if_neg (by rw [he]; decide)]
    rfl
  rw [e, Router.coreStep_told]
  have h := Router.told_same c s (.lsdb (.setNpl l))
  have hl : (Core.step c.core s.core (.lsdb (.setNpl l))).lsdb.log = s.core.lsdb.log := by
    rw [Core.step_lsdb]
    rfl
  rw [hl, List.drop_length]
  show (Router.told c s (.lsdb (.setNpl l))).ended = false
  unfold Router.ended at he ⊢
  rw [h.1, h.2, hl]
  exact he

theorem CInv.commanded {c : ι → RConf} (hs : Sane c) {N : CState ι} {st : ι → List (Name × Ext Rat)} {H : ι → List Cmd}
    (h : CInv c N st H) (i : ι) (x : Cmd) (he : (N.net i).r.ended = false)
    (hr : ∀ j, Room ((command c N i x).net j).r.core.lsdb.seqs) :
    CInv c (command c N i x) st (fun j => if j = i then H j ++ [x] else H j) := by
  have hL := h.lists i
  obtain ⟨y, hy, hm⟩ := setNpl_does (c i) (N.net i).r (listed (N.npl i) x).2.infos he
  have hsort : Npl.Sorted (listed (N.npl i) x).2 := by rw [listed_eq]; exact CmdState.nplAfter_sorted hL.sorted x
  have hplain : Npl.Plain (listed (N.npl i) x).2 := by rw [listed_eq]; exact CmdState.nplAfter_plain hL.sorted hL.plain x
  have hseqs : (Router.step (c i) (N.net i).r (.core (.lsdb (.setNpl (listed (N.npl i) x).2.infos)))).core.lsdb.seqs =
      (N.net i).r.core.lsdb.seqs := by rw [hm.seqs, hy]
  have hroom : ∀ j, Room (N.net j).r.core.lsdb.seqs := by
    intro j
    have := ((h.reach.ninv hs).node j).room
    exact ⟨this .name, this .adjacency, this .coordinate⟩
  have hR1 : Reachable c (Net.step c N.net (.act i (.core (.lsdb (.setNpl (listed (N.npl i) x).2.infos))))) := by
    refine .step h.reach _ trivial ?_
    intro j
    by_cases hj : j = i
    · subst hj
      rw [act_self]
      show Room (Router.step _ _ _).core.lsdb.seqs
      rw [hseqs]
      exact hroom j
    · rw [act_other c N.net _ hj]; exact hroom j
  have hsaid : ∀ j n, n ∈ ((command c N i x).npl j).names ↔
      Advertised (st j) ((if j = i then H j ++ [x] else H j).map .cmd) n := by
    intro j n
    show n ∈ (if j = i then _ else _ : Npl).names ↔ _
    by_cases hj : j = i
    · subst hj
      rw [if_pos rfl, if_pos rfl, List.map_append, List.map_singleton, Advertised_snoc, mem_listed hL.sorted hL.plain]
      dsimp only
      by_cases hn : x.name = n
      · rw [if_pos hn, if_pos hn]
      · rw [if_neg hn, if_neg hn]; exact h.said j n
    · rw [if_neg hj, if_neg hj]; exact h.said j n
  have hl1 : (command c N i x).npl i = (listed (N.npl i) x).2 := by
    show (if i = i then _ else _ : Npl) = _
    rw [if_pos rfl]
  have hlo : ∀ j, j ≠ i → (command c N i x).npl j = N.npl j := by
    intro j hj
    show (if j = i then _ else _ : Npl) = _
    rw [if_neg hj]
  cases hch : (listed (N.npl i) x).1 with
  | false =>
    have en : (command c N i x).net = Net.step c N.net (.act i (.core (.lsdb (.setNpl (listed (N.npl i) x).2.infos)))) := by
      unfold command
      dsimp only
      rw [hch]
      rfl
    refine ⟨by rw [en]; exact hR1, ?_, hsaid⟩
    intro j
    by_cases hj : j = i
    · subst hj
      rw [en, act_self, hl1]
      refine Lists.mild (s := y) ⟨hsort, hplain, by rw [hy], ?_⟩ hm
      obtain ⟨cost, h1, h2⟩ := hL.own
      refine ⟨cost, ?_, fun n => by rw [h2, listed_same hL.sorted hL.plain x hch]⟩
      rw [hy]
      exact OwnNames.congr h1 rfl
    · rw [en, act_other c N.net _ hj, hlo j hj]; exact h.lists j
  | true =>
    have en : (command c N i x).net = Net.step c (Net.step c N.net (.act i (.core (.lsdb (.setNpl (listed (N.npl i) x).2.infos)))))
        (.act i (.core (.lsdb .buildName))) := by
      unfold command
      dsimp only
      rw [hch]
      rfl
    rw [en] at hr
    have hR2 := Reachable.step hR1 (.act i (.core (.lsdb .buildName))) trivial hr
    refine ⟨by rw [en]; exact hR2, ?_, hsaid⟩
    have hlive : (Net.step c N.net (.act i (.core (.lsdb (.setNpl (listed (N.npl i) x).2.infos)))) i).r.ended = false := by
      rw [act_self]
      exact setNpl_live (c i) _ _ he
    obtain ⟨z, hz, hmz⟩ := Router.live_lsdb (c i) (Net.step c N.net (.act i (.core (.lsdb (.setNpl (listed (N.npl i) x).2.infos)))) i).r
      .buildName hlive rfl
    intro j
    by_cases hj : j = i
    · subst hj
      rw [en, act_self, hl1]
      refine Lists.mild (s := z) ?_ hmz
      have hinv := ((hR1.ninv hs).node j).reach.inv
      have hnpl : (Net.step c N.net (.act j (.core (.lsdb (.setNpl (listed (N.npl j) x).2.infos)))) j).r.core.lsdb.npl =
          (listed (N.npl j) x).2.infos := by
        rw [act_self]
        show (Router.step _ _ _).core.lsdb.npl = _
        rw [hm.npl, hy]
      have hown : OwnNames (c j).lsdb (Net.step c N.net (.act j (.core (.lsdb (.setNpl (listed (N.npl j) x).2.infos)))) j).r.core.lsdb
          (N.net j).r.core.lsdb.seqs.name (Classical.choose hL.own) := by
        rw [act_self]
        refine OwnNames.congr (s := y.core.lsdb) ?_ hm.db
        rw [hy]
        exact OwnNames.congr (Classical.choose_spec hL.own).1 rfl
      have hsq : (Net.step c N.net (.act j (.core (.lsdb (.setNpl (listed (N.npl j) x).2.infos)))) j).r.core.lsdb.seqs =
          (N.net j).r.core.lsdb.seqs := by rw [act_self]; exact hseqs
      generalize (Net.step c N.net (.act j (.core (.lsdb (.setNpl (listed (N.npl j) x).2.infos)))) j).r.core.lsdb = s1 at *
      have hlt : (N.net j).r.core.lsdb.seqs.name < inc64 (N.net j).r.core.lsdb.seqs.name := by
        have := (hroom j).1
        unfold inc64
        omega
      have hb := Lsdb.own_built hinv hown _ hlt
      have e1 : { s1 with seqs := s1.seqs.set .name (N.net j).r.core.lsdb.seqs.name } = s1 := by
        rw [← hsq]
        exact Lsdb.seqs_set_self s1 .name
      rw [e1] at hb
      have hst : (Lsdb.buildName (c j).lsdb s1).seqs.name = inc64 (N.net j).r.core.lsdb.seqs.name := by
        have := Lsdb.buildName_announced hinv (N.net j).r.core.lsdb.seqs.name
        rw [e1] at this
        rw [this.seqs]
        rfl
      refine ⟨hsort, hplain, ?_, fun n => (PrefixMap.get (PrefixMap.ofList s1.npl) n).map
        (fun k => (Classical.choose hL.own n).getD k), ?_, ?_⟩
      · rw [hz, CmdState.lsdb_npl _ _ _ (fun l e => by cases e)]; exact hnpl
      · rw [hz]
        show OwnNames _ (Lsdb.buildName (c j).lsdb s1) (Lsdb.buildName (c j).lsdb s1).seqs.name _
        rw [hst]
        exact hb
      · intro n
        rw [hnpl]
        dsimp only
        rw [Option.map_eq_none_iff]
        exact infos_none hsort n
    · rw [en, act_other c _ _ hj, act_other c _ _ hj, hlo j hj]; exact h.lists j

theorem CReachable.inv {c : ι → RConf} (hs : Sane c) {N : CState ι} {st : ι → List (Name × Ext Rat)} {H : ι → List Cmd}
    (h : CReachable c N st H) : CInv c N st H := by
  induction h with
  | start disk adjs start sys hf hw hd hr =>
    refine ⟨.start disk adjs (fun i => (configured (start i)).infos) sys hf hw hd hr, fun i => Lists.init (c i) _ _ _ _, ?_⟩
    intro i n
    exact startList_names (start i) n
  | @act N st H h i op ha hr ih =>
    unfold cstep at hr ⊢
    dsimp only at hr ⊢
    cases hb : byCommand op with
    | true => rw [if_pos rfl]; exact ih
    | false =>
      rw [hb, if_neg (by decide)] at hr
      rw [if_neg (by decide)]
      have hR := Reachable.step ih.reach (.act i op) ha hr
      refine ⟨hR, ?_, ih.said⟩
      intro j
      show Lists (c j) (Net.step c N.net (.act i op) j).r (N.npl j)
      by_cases hj : j = i
      · subst hj
        rw [act_self]
        exact Lists.act hs (ih.reach.ninv hs) (ih.lists j) ha hb (pos_act hs hR)
      · rw [act_other c N.net op hj]; exact ih.lists j
  | @cmd N st H h i x he hr ih =>
    have e : cstep c N (.cmd i x) = command c N i x := by
      unfold cstep
      dsimp only
      rw [he]
      rfl
    rw [e] at hr ⊢
    exact ih.commanded hs i x he hr
  | @restart N st H h i adjs start sys kill ha hr ih =>
    have hR := Reachable.step ih.reach (.restart i adjs (configured start).infos sys kill) ha hr
    refine ⟨hR, ?_, ?_⟩
    · intro j
      show Lists (c j) (if j = i then _ else N.net j : Site).r (if j = i then _ else N.npl j)
      by_cases hj : j = i
      · subst hj
        rw [if_pos rfl, if_pos rfl]
        exact Lists.init (c j) _ _ _ _
      · rw [if_neg hj, if_neg hj]; exact ih.lists j
    · intro j n
      show n ∈ (if j = i then _ else N.npl j : Npl).names ↔ _
      by_cases hj : j = i
      · subst hj
        rw [if_pos rfl]
        show _ ↔ Advertised (if j = j then start else st j) ((if j = j then [] else H j).map .cmd) n
        rw [if_pos rfl, if_pos rfl]
        exact startList_names start n
      · rw [if_neg hj]
        show _ ↔ Advertised (if j = i then start else st j) ((if j = i then [] else H j).map .cmd) n
        rw [if_neg hj, if_neg hj]
        exact ih.said j n

/-- C93: what a router says of its prefixes.  In every state of every run of a network, whatever packets, reports,
refreshes and restarts there were, the Name LSA that a router stores of itself lists exactly the prefixes that its
configuration file gave it at its last start or that an advertise command gave it since, and that were not
withdrawn after that. -/
theorem C93_lists {c : ι → RConf} (hs : Sane c) {N : CState ι} {st : ι → List (Name × Ext Rat)} {H : ι → List Cmd}
    (h : CReachable c N st H) (i : ι) (p : Name) :
    Serves c N.net p i ↔ Advertised (st i) ((H i).map .cmd) p := by
  have hi := h.inv hs
  rw [← hi.said i p]
  obtain ⟨cost, ⟨o, m, h1, -, h2, h3, h4⟩, h5⟩ := (hi.lists i).own
  obtain ⟨hmem, horg, htyp⟩ := Lsdb.find_some h1
  have hinv := ((hi.reach.ninv hs).node i).reach.inv
  constructor
  · rintro ⟨x, o', ho', horg', m', hm', hx⟩
    have htyp' : o'.lsa.type = .name := by unfold Lsa.type; rw [hm']; rfl
    have e : o' = o := by
      have := Lsdb.find_of_mem hinv ho'
      rw [horg', htyp', h1] at this
      exact (Option.some.inj this).symm
    subst e
    rw [h2] at hm'
    injection hm' with hm'
    subst hm'
    refine Classical.byContradiction fun hn => ?_
    have h6 := (h5 p).2 hn
    rw [← h4 p] at h6
    exact PrefixMap.get_none h6 _ hx rfl
  · intro hp
    cases hc : cost p with
    | none => exact absurd hp ((h5 p).1 hc)
    | some k =>
      refine ⟨k, o, hmem, horg, m, h2, ?_⟩
      rw [← h4 p] at hc
      exact PrefixMap.get_some hc

/-- C93: where packets go.  In a network whose routers have nothing left to exchange or compute (C92 says when), a
packet for a prefix that is advertised at some router to which there is a way over links that are up comes to a
router at which it is advertised, to a nearest one, by links that add up to the least possible cost.  Advertised at
a router means: configured at its last start or advertised by a command since, and not withdrawn after that.
Missing for the full property: what C89 leaves out. -/
theorem C93_delivered_partial {c : ι → RConf} (hs : Sane c) {N : CState ι} {st : ι → List (Name × Ext Rat)} {H : ι → List Cmd}
    (h : CReachable c N st H) (hq : Settled c N.net) (hn : NamesExchanged c N.net) (hw : Wired N.net)
    (hu : ∀ i, (N.net i).r.undef = false) {p : Name} (hp : Plain c N.net p) (i d : ι)
    (hd : Advertised (st d) ((H d).map .cmd) p) (k : Int) (hk : Path (Up c N.net) i d k) (hlim : k < costLimit) :
    ∃ k', k' ≤ k ∧ (∃ d, Advertised (st d) ((H d).map .cmd) p ∧ Path (Up c N.net) i d k') ∧
      (∀ d k'', Advertised (st d) ((H d).map .cmd) p → Path (Up c N.net) i d k'' → k' ≤ k'') ∧
      Fwd.Inevitable (Up c N.net) (ForwardsTo c N.net p) (fun d => Advertised (st d) ((H d).map .cmd) p) i k' := by
  have e : Serves c N.net p = fun d => Advertised (st d) ((H d).map .cmd) p := funext fun d => propext (C93_lists hs h d p)
  obtain ⟨k', h1, h2, h3⟩ := C89_delivered_partial hs (h.inv hs).reach hq hn hw hu hp i d ((C93_lists hs h d p).2 hd) k hk hlim
  unfold Nearest at h2
  rw [e] at h2 h3
  exact ⟨k', h1, h2.1, h2.2, h3⟩

/-- C93: a prefix that is advertised at no router, because it never was or because it was withdrawn, is forwarded
by no router of such a network. -/
theorem C93_gone {c : ι → RConf} (hs : Sane c) {N : CState ι} {st : ι → List (Name × Ext Rat)} {H : ι → List Cmd}
    (h : CReachable c N st H) (hq : Settled c N.net) (hn : NamesExchanged c N.net) (hw : Wired N.net)
    (hu : ∀ i, (N.net i).r.undef = false) {p : Name} (hp : Plain c N.net p) (hno : ∀ d, ¬ Advertised (st d) ((H d).map .cmd) p) (i : ι) :
    (N.net i).r.fib.faces p = [] := by
  cases hf : (N.net i).r.fib.faces p with
  | nil => rfl
  | cons u us =>
    obtain ⟨-, -, d, -, -, -, h1, -⟩ := C89_listed hs (h.inv hs).reach hq hn hw hu hp i u (by rw [hf]; exact List.mem_cons_self)
    exact absurd ((C93_lists hs h d p).1 h1) (hno d)

end

/-! ### the hypotheses can be met

The three routers of C89.  r3 advertises /p from its configuration file.  When all links are up and all routes are
computed, /p is withdrawn at r3 and /q advertised at r2, and the others learn of it. -/

/-- Only events other than commands and restarts. -/
def plainAct {n : Nat} : Op (Fin n) → Bool
  | .act _ op => !byCommand op
  | .restart .. => false

theorem go_creachable {n : Nat} {c : Fin n → RConf} {d : Site} {m : Fin n → Npl} {st : Fin n → List (Name × Ext Rat)}
    {H : Fin n → List Cmd} : ∀ {ops : List (Op (Fin n))} {l l' : List Site}, l.length = n →
    go false c d l ops = some l' → ops.all plainAct = true → CReachable c ⟨ofList l d, m⟩ st H → CReachable c ⟨ofList l' d, m⟩ st H := by
  intro ops
  induction ops with
  | nil => intro l l' _ h _ hr; cases h; exact hr
  | cons op ops ih =>
    intro l l' hl h hp hr
    rw [List.all_cons, Bool.and_eq_true] at hp
    unfold go at h
    split at h
    · rename_i ha
      split at h
      · rename_i hroom
        have hlen := (stepList_length c d l op).trans hl
        refine ih hlen h hp.2 ?_
        have e := step_ofList c (d := d) hl op
        cases op with
        | restart => exact absurd (show false = true from hp.1) (by decide)
        | act i op =>
          have hb : byCommand op = false := by simpa [plainAct] using hp.1
          have e2 : cstep c ⟨ofList l d, m⟩ (.act i op) = ⟨ofList (stepList c d l (.act i op)) d, m⟩ := by
            unfold cstep
            dsimp only
            rw [hb, if_neg (by decide), e]
          rw [← e2]
          exact hr.act i op ((allowed_sound ha).1 rfl) (fun j => by rw [e2]; exact go_room hlen hroom j)
      · cases h
    · cases h

/-- `command`, computed. -/
def cmdList {n : Nat} (c : Fin n → RConf) (d : Site) (l : List Site) (m : Fin n → Npl) (i : Fin n) (x : Cmd) : List Site :=
  let l1 := stepList c d l (.act i (.core (.lsdb (.setNpl (listed (m i) x).2.infos))))
  if (listed (m i) x).1 then stepList c d l1 (.act i (.core (.lsdb .buildName))) else l1

theorem cmdList_length {n : Nat} (c : Fin n → RConf) (d : Site) (l : List Site) (m : Fin n → Npl) (i : Fin n) (x : Cmd) :
    (cmdList c d l m i x).length = l.length := by
  unfold cmdList
  dsimp only
  split
  · rw [stepList_length, stepList_length]
  · rw [stepList_length]

theorem cmd_creachable {n : Nat} {c : Fin n → RConf} {d : Site} {m : Fin n → Npl} {st : Fin n → List (Name × Ext Rat)}
    {H : Fin n → List Cmd} {l : List Site} (hl : l.length = n) (h : CReachable c ⟨ofList l d, m⟩ st H) (i : Fin n) (x : Cmd)
    (he : (ofList l d i).r.ended = false) (hr : (cmdList c d l m i x).all (fun s => roomB s.r.core.lsdb.seqs) = true) :
    CReachable c ⟨ofList (cmdList c d l m i x) d, fun j => if j = i then (listed (m i) x).2 else m j⟩ st
      (fun j => if j = i then H j ++ [x] else H j) := by
  have e : cstep c ⟨ofList l d, m⟩ (.cmd i x) = ⟨ofList (cmdList c d l m i x) d, fun j => if j = i then (listed (m i) x).2 else m j⟩ := by
    unfold cstep
    dsimp only
    rw [he, if_neg (by decide)]
    unfold command cmdList
    dsimp only
    rw [step_ofList c hl]
    split
    · rw [step_ofList c (by rw [stepList_length]; exact hl)]
    · rfl
  rw [← e]
  exact h.cmd i x he (fun j => by rw [e]; exact go_room (by rw [cmdList_length]; exact hl) hr j)

def exStarts (i : Fin 3) : List (Name × Ext Rat) := [[], [], [(nm ["p"], .fin 0)]].getD i.val []

def exWithdrawP : Cmd := { verb := .withdraw, name := nm ["p"] }
def exAdvertiseQ : Cmd := { verb := .advertise, name := nm ["q"], cost := some 3 }

def exNpl0 (i : Fin 3) : Npl := configured (exStarts i)
def exNpl1 (i : Fin 3) : Npl := if i = 2 then (listed (exNpl0 2) exWithdrawP).2 else exNpl0 i
def exCmd1 : List Site := cmdList exConf3 (exRingSite 0) exRisen exNpl0 2 exWithdrawP
def exCmd2 : List Site := cmdList exConf3 (exRingSite 0) exCmd1 exNpl1 1 exAdvertiseQ

/-- All learn the new Name LSAs of r2 and r3. -/
def exTell : List (Op (Fin 3)) :=
  exLearnsTill 3615 0 1 .name 2 (.names [⟨nm ["q"], .fin 3⟩]) ++ exLearnsTill 3615 0 2 .name 2 (.names []) ++
  exLearnsTill 3615 1 2 .name 2 (.names []) ++ exLearnsTill 3615 2 1 .name 2 (.names [⟨nm ["q"], .fin 3⟩])

def exTold : List Site := (go false exConf3 (exRingSite 0) exCmd2 exTell).getD []

theorem exTold_go : go false exConf3 (exRingSite 0) exCmd2 exTell = some exTold := by
  have h : (go false exConf3 (exRingSite 0) exCmd2 exTell).isSome = true := by decide +kernel
  obtain ⟨l, hl⟩ := Option.isSome_iff_exists.1 h
  unfold exTold
  rw [hl]; rfl

theorem exStart_creachable : CReachable exConf3 ⟨ofList exRingSites (exRingSite 0), exNpl0⟩ exStarts (fun _ => []) := by
  have h := CReachable.start (c := exConf3) (fun _ => none) (exRing 1) exStarts (fun _ => 0)
    (fun i => freshB_fresh (by revert i; decide +kernel)) (fun i => wholeB_whole (by revert i; decide +kernel))
    (fun i q hq => by cases hq) (fun i => roomB_room (by revert i; decide +kernel))
  have hc : ∀ i, (configured (exStarts i)).infos = exServe i := by decide +kernel
  have e : ofList exRingSites (exRingSite 0) =
      fun i : Fin 3 => (⟨Router.init (exConf3 i) none (exRing 1 i) (configured (exStarts i)).infos 0, []⟩ : Site) := by
    funext i
    rw [hc]
    rcases i with ⟨i, hi⟩
    match i, hi with
    | 0, _ => rfl
    | 1, _ => rfl
    | 2, _ => rfl
  rw [e]
  exact h

/-- The commands each router has got. -/
def exHist (i : Fin 3) : List Cmd := [[], [exAdvertiseQ], [exWithdrawP]].getD i.val []

theorem exTold_creachable : CReachable exConf3 ⟨ofList exTold (exRingSite 0), fun j => if j = 1 then (listed (exNpl1 1) exAdvertiseQ).2 else exNpl1 j⟩
    exStarts exHist := by
  have h0 : CReachable exConf3 ⟨ofList exRisen (exRingSite 0), exNpl0⟩ exStarts (fun _ => []) :=
    go_creachable rfl exRisen_go (by decide +kernel) exStart_creachable
  have h1 := cmd_creachable (by decide +kernel) h0 2 exWithdrawP (by decide +kernel) (by decide +kernel)
  have h2 := cmd_creachable (m := exNpl1) (l := exCmd1) (by decide +kernel) h1 1 exAdvertiseQ (by decide +kernel) (by decide +kernel)
  have h3 := go_creachable (l := exCmd2) (by decide +kernel) exTold_go (by decide +kernel) h2
  have e : (fun j : Fin 3 => if j = 1 then (if j = 2 then [] ++ [exWithdrawP] else []) ++ [exAdvertiseQ] else
      if j = 2 then [] ++ [exWithdrawP] else []) = exHist := by
    funext i
    revert i
    decide +kernel
  rw [← e]
  exact h3

/-- The hypotheses of C93 can be met, with /q advertised at r2 only and /p nowhere; before the commands r1 had routes for /p. -/
example : Sane exConf3 ∧ Settled exConf3 (ofList exTold (exRingSite 0)) ∧ NamesExchanged exConf3 (ofList exTold (exRingSite 0)) ∧
    Wired (ofList exTold (exRingSite 0) : State (Fin 3)) ∧ (∀ i : Fin 3, (ofList exTold (exRingSite 0) i).r.undef = false) ∧
    Plain exConf3 (ofList exTold (exRingSite 0)) (nm ["p"]) ∧ Plain exConf3 (ofList exTold (exRingSite 0)) (nm ["q"]) ∧
    (∀ i, Advertised (exStarts i) ((exHist i).map .cmd) (nm ["q"]) ↔ i = 1) ∧
    (∀ i, ¬ Advertised (exStarts i) ((exHist i).map .cmd) (nm ["p"])) ∧
    Up exConf3 (ofList exTold (exRingSite 0)) 0 1 1 ∧
    (ofList exRisen (exRingSite 0) (0 : Fin 3)).r.fib.faces (nm ["p"]) = ["udp4://10.0.0.2", "udp4://10.0.0.3"] ∧
    (ofList exTold (exRingSite 0) (0 : Fin 3)).r.fib.faces (nm ["p"]) = [] ∧
    (ofList exTold (exRingSite 0) (0 : Fin 3)).r.fib.faces (nm ["q"]) = ["udp4://10.0.0.2", "udp4://10.0.0.3"] := by
  refine ⟨exSane, ⟨exchanged_of (by decide +kernel), fun i => ⟨_, List.Perm.refl _, ?_⟩⟩,
    namesExchanged_of (by decide +kernel), wired_int (by decide +kernel), by decide +kernel, ⟨by decide +kernel, by decide +kernel⟩,
    ⟨by decide +kernel, by decide +kernel⟩, ?_, ?_, ⟨1, 1, ⟨"udp4://10.0.0.2", ?_⟩, ⟨"udp4://10.0.0.1", ?_⟩, rfl⟩,
    by decide +kernel, by decide +kernel, by decide +kernel⟩
  · revert i; decide +kernel
  · intro i
    rcases i with ⟨i, hi⟩
    match i, hi with
    | 0, _ => simp [Advertised, AdvertisedFrom, exStarts, exHist]
    | 1, _ => simp [Advertised, AdvertisedFrom, exHist, exAdvertiseQ]
    | 2, _ => simp [Advertised, AdvertisedFrom, exStarts, exHist, exWithdrawP, nm, Comp.str]
  · intro i
    rcases i with ⟨i, hi⟩
    match i, hi with
    | 0, _ => simp [Advertised, AdvertisedFrom, exStarts, exHist]
    | 1, _ => simp [Advertised, AdvertisedFrom, exStarts, exHist, exAdvertiseQ]; decide +kernel
    | 2, _ => simp [Advertised, AdvertisedFrom, exStarts, exHist, exWithdrawP]
  all_goals unfold LinkUp; decide +kernel

end Net
end Nlsr
