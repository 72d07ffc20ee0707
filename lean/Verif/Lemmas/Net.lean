import Verif.Lemmas.NodeCut
import Verif.Lemmas.RouterOwn
import Verif.Props.Names
import Verif.Props.Adjacency
/- A network of routers: every stored LSA is a copy of one that its origin has put out. -/
namespace Nlsr
namespace Router
open Adjacent (ident)

/-- The LSAs, the numbers and the replies stay, and so do the neighbours' names, URIs and costs. -/
structure Mild (s s' : Router) : Prop where
  db : s'.core.lsdb.db = s.core.lsdb.db
  seqs : s'.core.lsdb.seqs = s.core.lsdb.seqs
  log : s'.core.lsdb.log = s.core.lsdb.log
  fifo : s'.core.lsdb.fifo = s.core.lsdb.fifo
  ident : s'.nbr.adjs.map ident = s.nbr.adjs.map ident
  fetches : s'.core.lsdb.fetches = s.core.lsdb.fetches
  retries : s'.core.lsdb.retries = s.core.lsdb.retries
  highest : s'.core.lsdb.highest = s.core.lsdb.highest
  npl : s'.core.lsdb.npl = s.core.lsdb.npl

theorem Mild.refl (s : Router) : Mild s s := ⟨rfl, rfl, rfl, rfl, rfl, rfl, rfl, rfl, rfl⟩

theorem Mild.trans {a b d : Router} (h : Mild a b) (h' : Mild b d) : Mild a d :=
  ⟨h'.db.trans h.db, h'.seqs.trans h.seqs, h'.log.trans h.log, h'.fifo.trans h.fifo, h'.ident.trans h.ident,
   h'.fetches.trans h.fetches, h'.retries.trans h.retries, h'.highest.trans h.highest, h'.npl.trans h.npl⟩

theorem Mild.of {s s' : Router} (h : s'.core.lsdb = s.core.lsdb) (hn : s'.nbr = s.nbr) : Mild s s' := by
  refine ⟨?_, ?_, ?_, ?_, ?_, ?_, ?_, ?_, ?_⟩ <;> first | rw [h] | rw [hn]

theorem apply_mild (c : RConf) (s : Router) (o : NOut) : Mild s (apply c s o) := by
  unfold Router.apply
  split
  · have : (Lsdb.scheduleBuild c.core.lsdb s.core.lsdb).db = s.core.lsdb.db ∧
        (Lsdb.scheduleBuild c.core.lsdb s.core.lsdb).seqs = s.core.lsdb.seqs ∧
        (Lsdb.scheduleBuild c.core.lsdb s.core.lsdb).log = s.core.lsdb.log ∧
        (Lsdb.scheduleBuild c.core.lsdb s.core.lsdb).fifo = s.core.lsdb.fifo ∧
        (Lsdb.scheduleBuild c.core.lsdb s.core.lsdb).fetches = s.core.lsdb.fetches ∧
        (Lsdb.scheduleBuild c.core.lsdb s.core.lsdb).retries = s.core.lsdb.retries ∧
        (Lsdb.scheduleBuild c.core.lsdb s.core.lsdb).highest = s.core.lsdb.highest ∧
        (Lsdb.scheduleBuild c.core.lsdb s.core.lsdb).npl = s.core.lsdb.npl := by
      unfold Lsdb.scheduleBuild
      dsimp only
      split <;> exact ⟨rfl, rfl, rfl, rfl, rfl, rfl, rfl, rfl⟩
    rw [Core.step_build]
    obtain ⟨h1, h2, h3, h4, h5, h6, h7, h8⟩ := this
    exact ⟨h1, h2, h3, h4, rfl, h5, h6, h7, h8⟩
  · exact Mild.of rfl rfl
  · split
    · exact Mild.refl _
    · exact Mild.of (by rw [(register_fib c s _ _ _).2.1]) (register_fib c s _ _ _).2.2
  · exact Mild.of (by rw [(register_fib c s _ _ _).2.1]) (register_fib c s _ _ _).2.2
  · exact Mild.of rfl rfl
  · exact Mild.refl _

theorem applies_mild (c : RConf) : ∀ (l : List NOut) (s : Router), Mild s (l.foldl (apply c) s) := by
  intro l
  induction l with
  | nil => intro s; exact Mild.refl _
  | cons o os ih => intro s; exact (apply_mild c s o).trans (ih _)

theorem sync_mild (c : RConf) (s : Router) : Mild s (sync c s) := by
  have : (sync c s).core.lsdb = { s.core.lsdb with adjs := s.nbr.adjs } := by
    unfold sync
    dsimp only
    rw [Core.step_setAdjs]
  exact ⟨by rw [this], by rw [this], by rw [this], by rw [this], rfl, by rw [this], by rw [this], by rw [this], by rw [this]⟩

theorem nbrStep_mild (c : RConf) (s : Router) (op : Nbr.Op) : Mild s (Router.nbrStep c s op) := by
  unfold Router.nbrStep
  dsimp only
  have h1 : Mild s { s with nbr := Nbr.step c.nbr s.nbr op } :=
    ⟨rfl, rfl, rfl, rfl, Nbr.step_ident c.nbr s.nbr op, rfl, rfl, rfl, rfl⟩
  exact (h1.trans (sync_mild c _)).trans (applies_mild c _ _)

theorem newLsas_mild (c : RConf) : ∀ (l : List Name) (s : Router),
    Mild s (l.foldl (fun s r => Router.nbrStep c s (.newLsa r)) s) := by
  intro l
  induction l with
  | nil => intro s; exact Mild.refl _
  | cons r rs ih => intro s; exact (nbrStep_mild c s _).trans (ih _)

/-- What a step does to the LSDB. -/
inductive Does (c : RConf) (s : Router) (op : Op) (s' : Router) : Prop
  | nothing (h : Mild s s')
  | lsdb (o : Lsdb.Op) (hop : op = .core (.lsdb o) ∨ ∃ dt sys, op = .clock dt sys ∧ o = .clock dt sys)
      (ho : ∀ l, o ≠ .setAdjs l) (x : Router) (hx : x.core.lsdb = Lsdb.step c.lsdb s.core.lsdb o) (hn : x.nbr.adjs.map ident = s.nbr.adjs.map ident)
      (h : Mild x s')

theorem step_does (c : RConf) (s : Router) (op : Op) : Does c s op (Router.step c s op) := by
  unfold Router.step
  split
  · exact .nothing (Mild.refl _)
  · cases op with
    | nbr op =>
      show Does c s _ (if outsideNbr op then Router.nbrStep c s op else s)
      split
      · exact .nothing (nbrStep_mild c s op)
      · exact .nothing (Mild.refl _)
    | core op =>
      show Does c s _ (if outsideCore op then Router.coreStep c s op else s)
      split
      · rename_i ho
        rw [coreStep_told]
        have hs := told_same c s op
        have hl : (Router.told c s op).core.lsdb = _ := (congrArg Core.lsdb hs.2).trans (Core.step_lsdb c.core s.core op)
        cases op with
        | lsdb o =>
          exact .lsdb o (Or.inl rfl) (fun l e => by subst e; cases ho) (told c s (.lsdb o)) hl (by rw [hs.1]) (newLsas_mild c _ _)
        | _ => exact .nothing ((Mild.of hl hs.1).trans (newLsas_mild c _ _))
      · exact .nothing (Mild.refl _)
    | regOk i =>
      show Does c s _ (Router.regOk c s i)
      unfold Router.regOk
      split
      · exact .nothing (Mild.refl _)
      · refine .nothing (Mild.trans ?_ (nbrStep_mild c _ _))
        refine Mild.trans ?_ (nbrStep_mild c _ _)
        exact Mild.of rfl rfl
    | regFail i => exact .nothing (Mild.of rfl rfl)
    | stratOk i => exact .nothing (Mild.of rfl rfl)
    | stratFail i => exact .nothing (Mild.of rfl rfl)
    | refresh n => exact .nothing (Mild.of rfl rfl)
    | clock dt sys =>
      refine .lsdb (.clock dt sys) (Or.inr ⟨dt, sys, rfl, rfl⟩) nofun
        { s with nbr := Nbr.step c.nbr s.nbr (.clock dt), core := Core.step c.core s.core (.lsdb (.clock dt sys))
                 fib := Fib.step c.fib s.fib (.clock dt) } ?_ ?_ (Mild.refl _)
      · exact Core.step_lsdb c.core s.core (.lsdb (.clock dt sys))
      · exact Nbr.step_ident c.nbr s.nbr _

theorem init_mild (c : RConf) (disk : Option Seqs) (adjs : AdjacencyList) (npl : List PrefixInfo) (sys : Int) :
    Mild ⟨Nbr.init c.nbr adjs, Core.init c.core disk adjs npl sys, { adjs := adjs }, false⟩ (Router.init c disk adjs npl sys) := by
  unfold Router.init
  dsimp only
  exact (sync_mild c _).trans (applies_mild c _ _)

theorem Trusted.step {c : RConf} {s : Router} (h : Trusted c s) (op : Op) (ho : Honest c op) : Trusted c (Router.step c s op) := by
  obtain ⟨d, a, n, y, ops, hf, hop, rfl⟩ := h
  refine ⟨d, a, n, y, ops ++ [op], hf, ?_, by unfold run; rw [List.foldl_append]; rfl⟩
  intro o hm
  rcases List.mem_append.1 hm with h1 | h1
  · exact hop o h1
  · rw [List.mem_singleton] at h1; subst h1; exact ho

theorem Trusted.reachable {c : RConf} {s : Router} (h : Trusted c s) : Reachable c s := by
  obtain ⟨d, a, n, y, ops, hf, -, e⟩ := h
  exact ⟨d, a, n, y, ops, hf, e⟩

end Router

/-- Two LSAs say the same.  Adjacencies: the same neighbours with the same URIs and costs, in any order.
Coordinates: the same.  Names: the same names, whatever their costs. -/
def Agree : Content → Content → Prop
  | .adj l, .adj l' => (l.map Adjacent.ident).Perm (l'.map Adjacent.ident)
  | .coord r as, .coord r' as' => r = r' ∧ as = as'
  | .names m, .names m' => ∀ n, (∃ k, ⟨n, k⟩ ∈ m) ↔ ∃ k, ⟨n, k⟩ ∈ m'
  | _, _ => False

theorem Agree.refl (x : Content) : Agree x x := by
  cases x with
  | adj l => exact List.Perm.refl _
  | coord r as => exact ⟨rfl, rfl⟩
  | names m => exact fun _ => Iff.rfl

theorem Agree.symm {x y : Content} (h : Agree x y) : Agree y x := by
  cases x <;> cases y <;> first | exact h.elim | skip
  · exact List.Perm.symm h
  · exact ⟨h.1.symm, h.2.symm⟩
  · exact fun n => (h n).symm

theorem Agree.trans {x y z : Content} (h : Agree x y) (h' : Agree y z) : Agree x z := by
  cases x <;> cases y <;> cases z <;> first | exact h.elim | exact h'.elim | skip
  · exact List.Perm.trans h h'
  · exact ⟨h.1.trans h'.1, h.2.trans h'.2⟩
  · exact fun n => (h n).trans (h' n)

theorem Agree.type {x y : Content} (h : Agree x y) : x.type = y.type := by
  cases x <;> cases y <;> first | exact h.elim | rfl

namespace Net
open Adjacent (ident)
open Lsdb (NodeInv Roomy Plain PlainContent Made)
open Router (Mild)

theorem whole_ident {l l' : AdjacencyList} (h : Whole l) (hs : ∀ i ∈ l'.map ident, i ∈ l.map ident) : Whole l' := by
  intro a ha
  obtain ⟨b, hb, e⟩ := List.mem_map.1 (hs a.ident (List.mem_map_of_mem ha))
  have : b.cost = a.cost := congrArg (fun p => p.2.2) e
  rw [← this]
  exact h b hb

theorem Room.roomy {q : Seqs} (h : Room q) : Roomy q := by
  intro t
  cases t
  · exact h.2.1
  · exact h.2.2
  · exact h.1
  · exact Nat.zero_lt_succ _

theorem _root_.Nlsr.Lsdb.NodeInv.congr {c : LConf} {s s' : Lsdb} {past : List Out} (h : NodeInv c s past) (hr : Lsdb.Reachable c s')
    (h1 : s'.db = s.db) (h2 : s'.seqs = s.seqs) (h3 : s'.log = s.log) (h4 : s'.fifo = s.fifo) (hw : Whole s'.adjs) :
    NodeInv c s' past := by
  have hm : ∀ l, Made c s' past l → Made c s past l := by
    intro l hl
    cases hl with
    | sent d hd e => exact .sent d (h3 ▸ hd) e
    | kept d hd e => exact .kept d (h4 ▸ hd) e
    | own ho =>
      obtain ⟨o, ho, hr, e⟩ := ho
      exact .own ⟨o, h1 ▸ ho, hr, e⟩
  refine ⟨hr, by rw [h3, h2]; exact h.disk, ?_, ?_, ?_, ?_, ?_, by rw [h3]; exact h.pos, by rw [h2]; exact h.room, hw⟩
  · intro t m hst
    rw [Lsdb.storedAt_frame h1] at hst
    rw [h2]; exact h.num t m hst
  · intro l hl; rw [h2]; exact h.made l (hm l hl)
  · intro l l' hl hl'; exact h.uniq l l' (hm l hl) (hm l' hl')
  · intro t k hk; rw [h2]; exact h.pub t k (h3 ▸ hk)
  · intro l hl; rw [h3]; exact h.told l (hm l hl)

/-- A router that has just been started. -/
theorem start_node {c : RConf} (disk : Option Seqs) {adjs : AdjacencyList} (npl : List PrefixInfo) (sys : Int) {past : List Out}
    (hf : Nbr.Fresh adjs) (hw : Whole adjs) (hb : Lsdb.Before c.lsdb disk past)
    (hr : Room (Router.init c disk adjs npl sys).core.lsdb.seqs) :
    NodeInv c.lsdb (Router.init c disk adjs npl sys).core.lsdb past ∧
    ∀ o ∈ (Router.init c disk adjs npl sys).core.lsdb.db, o.lsa.origin = c.lsdb.router := by
  have hm := Router.init_mild c disk adjs npl sys
  have hall := Router.All.init c disk npl sys hf
  generalize Router.init c disk adjs npl sys = s at *
  have hn : NodeInv c.lsdb (Lsdb.init c.lsdb disk adjs npl sys) past :=
    NodeInv.init hb npl sys hw (by
      have := hr.roomy
      rw [hm.seqs] at this
      exact this)
  refine ⟨hn.congr hall.base.core.lsdb hm.db hm.seqs hm.log hm.fifo ?_, ?_⟩
  · rw [hall.synced.lsdb]
    have hid := hm.ident
    intro a ha
    have h1 : a.ident ∈ s.nbr.adjs.map ident := List.mem_map_of_mem ha
    rw [hid] at h1
    obtain ⟨b, hb, e⟩ := List.mem_map.1 h1
    have e2 : b.cost = a.cost := congrArg (fun p => p.2.2) e
    rw [← e2]
    have hb' : b ∈ (Nbr.init c.nbr adjs).adjs := hb
    unfold Nbr.init at hb'
    dsimp only at hb'
    split at hb'
    · obtain ⟨x, -, rfl⟩ := List.mem_map.1 hb'
      exact ⟨0, rfl⟩
    · exact hw b hb'
  · intro o ho
    rw [hm.db] at ho
    exact (Lsdb.init_db c.lsdb disk adjs npl sys o ho).1

variable {ι : Type} [DecidableEq ι]

/-- The stored LSA says what its origin has put out under its number. -/
def Copied (N : State ι) (o : Obj) : Prop :=
  ∃ j d, .data d ∈ (N j).log ∧ d.lsa.origin = o.lsa.origin ∧ d.lsa.seq = o.lsa.seq ∧ Agree d.lsa.content o.lsa.content

structure NInv (c : ι → RConf) (N : State ι) : Prop where
  trusted : ∀ i, Router.Trusted (c i) (N i).r
  node : ∀ i, NodeInv (c i).lsdb (N i).r.core.lsdb (N i).past
  copied : ∀ i, ∀ o ∈ (N i).r.core.lsdb.db, o.lsa.origin ≠ (c i).lsdb.router → Copied N o

/-- An LSA that was put out, as its receiver sees it. -/
theorem carried {c : LConf} {l l' : Lsa} (hp : PlainContent c l.content) (h : Transmits l l') :
    Agree l.content l'.content.norm ∧ PlainContent c l'.content.norm := by
  have hc := h.content
  obtain ⟨hn, hs⟩ := hp
  cases e : l.content with
  | adj a =>
    rw [e] at hc hn hs
    cases e' : l'.content with
    | adj b =>
      rw [e'] at hc
      have ht : b.map ident = a.map ident := by
        have := congrArg (List.map ident) (Content.adj.inj hc)
        rw [List.map_map, List.map_map] at this
        exact this
      have hnm : (b.map (·.name)).Nodup := by
        have h1 : b.map (·.name) = a.map (·.name) := by
          have := congrArg (List.map Prod.fst) ht
          rw [List.map_map, List.map_map] at this
          exact this
        rw [h1]; exact Lsdb.norm_adj.1 hn
      have h2 := Lsdb.norm_adj.2 hnm
      rw [h2]
      refine ⟨?_, h2, whole_ident hs.1 (by rw [ht]; exact fun _ h => h), hs.2⟩
      show (a.map ident).Perm (b.map ident)
      rw [ht]
    | coord r as => rw [e'] at hc; cases hc
    | names m => rw [e'] at hc; cases hc
  | coord r as =>
    rw [e] at hc hn hs
    cases e' : l'.content with
    | adj b => rw [e'] at hc; cases hc
    | coord r' as' =>
      rw [e'] at hc
      obtain ⟨rfl, rfl⟩ := Content.coord.inj hc
      exact ⟨⟨rfl, rfl⟩, rfl, hs⟩
    | names m => rw [e'] at hc; cases hc
  | names m =>
    rw [e] at hc hn hs
    cases e' : l'.content with
    | adj b => rw [e'] at hc; cases hc
    | coord r' as' => rw [e'] at hc; cases hc
    | names m' =>
      rw [e'] at hc
      cases Content.names.inj hc
      rw [hn]
      exact ⟨Agree.refl _, hn, hs⟩

theorem Agree.update {c : LConf} {x y z : Content} (hx : PlainContent c x) (hxy : Agree x y) (hy : y.norm = y)
    (hz : PlainContent c z) (ht : y.type = z.type) : Agree z (y.update z).content := by
  cases y with
  | adj a =>
    cases z with
    | adj b =>
      cases x with
      | adj e =>
        show Agree (.adj b) (updateAdj a b).content
        unfold updateAdj
        split
        · rename_i he
          have ha : Whole a := whole_ident hx.2.1 (fun i hi => (List.Perm.mem_iff hxy).2 hi)
          have := (C46_equality_partial a b (Lsdb.norm_adj.1 hy) (Lsdb.norm_adj.1 hz.1) ha hz.2.1).1.1 he
          exact this.symm
        · have : Content.adj (AdjacencyList.ofList b) = .adj b := hz.1
          rw [this]
          exact Agree.refl _
      | _ => exact hxy.elim
    | _ => cases ht
  | coord r as =>
    cases z with
    | coord r' as' =>
      cases x with
      | coord r2 as2 =>
        obtain ⟨rfl, rfl⟩ := hxy
        obtain ⟨-, rfl, rfl, -⟩ := hx
        obtain ⟨-, rfl, rfl, -⟩ := hz
        show Agree _ (updateCoord c.radius c.angles c.radius c.angles).content
        unfold updateCoord
        split <;> exact Agree.refl _
      | _ => exact hxy.elim
    | _ => cases ht
  | names m =>
    cases z with
    | names m' =>
      obtain ⟨q, h1, h2, h3⟩ := get_updateNames (Lsdb.norm_names.1 hy) (Lsdb.norm_names.1 hz.1)
      show Agree _ (updateNames m m').content
      rw [h1]
      intro n
      have key : ∀ {m : PrefixMap}, PrefixMap.Sorted m → ((∃ k, ⟨n, k⟩ ∈ m) ↔ ∃ k, PrefixMap.get m n = some k) := by
        intro m hm
        constructor
        · rintro ⟨k, hk⟩
          exact ⟨k, PrefixMap.get_mem hm hk⟩
        · rintro ⟨k, hk⟩
          exact ⟨k, PrefixMap.get_some hk⟩
      rw [key (Lsdb.norm_names.1 hz.1), key h2, h3 n]
      cases PrefixMap.get m' n <;> simp
    | _ => cases ht

theorem log_grows {c : ι → RConf} {N : State ι} (h : NInv c N) (op : Op ι) (j : ι) :
    ∃ outs, (step c N op j).log = (N j).log ++ outs := by
  cases op with
  | act i op =>
    show ∃ outs, (set N i _ j).log = _
    unfold set
    split
    · rename_i e
      subst e
      show ∃ outs, (N j).past ++ (Router.step (c j) (N j).r op).core.lsdb.log = _
      cases Router.step_does (c j) (N j).r op with
      | nothing hm => exact ⟨[], by rw [hm.log]; simp [Site.log]⟩
      | lsdb o _ _ x hx _ hm =>
        obtain ⟨outs, e⟩ := step_log_prefix (h.node j).reach o
        exact ⟨outs, by rw [hm.log, hx, e]; simp [Site.log]⟩
    · exact ⟨[], by simp⟩
  | restart i adjs npl sys kill =>
    show ∃ outs, (set N i _ j).log = _
    unfold set
    split
    · rename_i e
      subst e
      exact ⟨_, List.append_assoc _ _ _⟩
    · exact ⟨[], by simp⟩

theorem Copied.step {c : ι → RConf} {N : State ι} (h : NInv c N) (op : Op ι) {o : Obj} (ho : Copied N o) :
    Copied (step c N op) o := by
  obtain ⟨j, d, hd, h1⟩ := ho
  obtain ⟨outs, e⟩ := log_grows h op j
  exact ⟨j, d, by rw [e]; exact List.mem_append_left _ hd, h1⟩

theorem Copied.congr {N : State ι} {o o' : Obj} (ho : Copied N o) (e : o'.lsa = o.lsa) : Copied N o' := by
  obtain ⟨j, d, hd, h1⟩ := ho
  exact ⟨j, d, hd, by rw [e]; exact h1⟩

/-- The last component of the name of an announcement is the type. -/
theorem lsaUserPrefix_last {r : RouterConf} {t : LsaType} {last : Comp} (h : (r.lsaUserPrefix t).fromEnd 1 = some last) :
    LsaType.ofComp last = t := by
  have : (r.lsaUserPrefix t).fromEnd 1 = some (Comp.str t.text) := by
    simp [RouterConf.lsaUserPrefix, Name.fromEnd]
  rw [this] at h
  rw [← Option.some.inj h]
  exact LsaType.ofComp_text t

/-- An allowed step is plain for the LSDB it changes. -/
theorem Allowed.plain {c : ι → RConf} (hs : Sane c) {N : State ι} (h : NInv c N) {i : ι} {op : Router.Op}
    (ha : Allowed c N (.act i op)) : Router.Honest (c i) op ∧
    ∀ o, (op = .core (.lsdb o) ∨ ∃ dt sys, op = .clock dt sys ∧ o = .clock dt sys) → (∀ l, o ≠ .setAdjs l) →
      Plain (c i).lsdb (N i).log o := by
  have hf : ∀ m l, op = .core (.lsdb (.fetched m (some l))) → l.origin ≠ (c i).lsdb.router := by
    rintro m l rfl
    obtain ⟨j, d, hj, hd, hc⟩ := ha
    have := ((h.node j).made d.lsa (.sent d hd rfl)).1
    rw [hc.origin, this]
    exact fun e => hj (hs.distinct _ _ e)
  constructor
  · unfold Router.Honest
    split
    · exact fun e => absurd e (hf _ _ rfl)
    · trivial
  · rintro o (rfl | ⟨dt, sys, rfl, rfl⟩) hl
    · cases o with
      | setAdjs l => exact absurd rfl (hl l)
      | sync u k =>
        obtain ⟨j, t, rfl, hk, hj⟩ := ha
        intro ho last hl
        rw [C57_sync_origin_partial _ t (hs.short j) (hs.nlsr j) (hs.lsa j)] at ho
        have hji : j = i := hs.distinct j i (Option.some.inj ho)
        subst hji
        obtain ⟨g1, g2⟩ := (h.node j).pub t k hk
        refine ⟨Nat.lt_of_le_of_lt g1 ((h.node j).room t), ?_⟩
        rw [lsaUserPrefix_last hl]
        exact hj rfl
      | fetched m p =>
        cases p with
        | none => trivial
        | some l => exact hf m l rfl
      | _ => trivial
    · trivial

/-- A router that was stopped at any time has not lost the numbers it used. -/
theorem Kill.Fine.before {c : ι → RConf} (hs : Sane c) {N : State ι} (h : NInv c N) {i : ι} (hd : (c i).lsdb.hyp ≠ .dryRun)
    {kill : Kill} (hk : kill.Fine c N i) :
    Lsdb.Before (c i).lsdb (lastPersist ((N i).log ++ kill.outs (c i) (N i))) ((N i).log ++ kill.outs (c i) (N i)) := by
  induction kill with
  | idle =>
    rw [Kill.outs, List.append_nil]
    exact (h.node i).before hd
  | event op k =>
    obtain ⟨ha, hr⟩ := hk
    obtain ⟨-, hpl⟩ := Allowed.plain hs h (i := i) (op := op) ha
    rw [Kill.outs]
    cases Router.step_does (c i) (N i).r op with
    | nothing hm =>
      rw [hm.log, List.drop_length, List.take_nil, List.append_nil]
      exact (h.node i).before hd
    | lsdb o hop ho x hx hn hm =>
      rw [hm.log, hx]
      refine (h.node i).cut (hs.lsa i) hd o (hpl o hop ho) ?_ k
      rw [← hx, ← hm.seqs]; exact hr.roomy
  | start b adjs npl sys k ih =>
    obtain ⟨hb, -, -, hr⟩ := hk
    have hm := Router.init_mild (c i) (lastPersist ((N i).log ++ b.outs (c i) (N i))) adjs npl sys
    rw [Kill.outs, hm.log, ← List.append_assoc]
    refine (ih hb).cut hd adjs npl sys ?_ k
    have := hr.roomy
    rw [hm.seqs] at this
    exact this

/-- What is stored after an allowed step is a copy. -/
theorem copied_lsdb {c : ι → RConf} (hs : Sane c) {N : State ι} (h : NInv c N) {i : ι} {op : Router.Op}
    (ha : Allowed c N (.act i op)) {o : Lsdb.Op} (ho : op = .core (.lsdb o) ∨ ∃ dt sys, op = .clock dt sys ∧ o = .clock dt sys)
    {x : Obj} (hx : x ∈ (Lsdb.step (c i).lsdb (N i).r.core.lsdb o).db) (hr : x.lsa.origin ≠ (c i).lsdb.router) : Copied N x := by
  have hnode := h.node i
  cases Lsdb.change_step hnode.reach o x hx with
  | kept y hy e => exact (h.copied i y hy (by rw [← e]; exact hr)).congr e
  | refreshed y hy hry h1 h2 h3 hs => exact absurd (h1.trans hry) hr
  | built l b hb hrl ht hn hs hsrc hmode => exact absurd (ht.origin.trans hrl) hr
  | fetched m l l' hop ht h1 h2 h3 h4 =>
    subst hop
    rcases ho with rfl | ⟨dt, sys, -, e⟩
    · obtain ⟨j, d, hj, hd, hc⟩ := ha
      obtain ⟨m1, m2, m3⟩ := (h.node j).made d.lsa (.sent d hd rfl)
      obtain ⟨k1, k2⟩ := carried m3 hc
      refine ⟨j, d, hd, ?_, ?_, ?_⟩
      · rw [ht.origin, h1, hc.origin]
      · rw [ht.seq, h3, hc.seq]
        have := (h.node j).room d.lsa.type
        omega
      · rw [← h4] at k1 k2
        rcases ht.content with e | ⟨y, hy, g1, g2, -, g3⟩
        · rw [e]; exact k1
        · have hyr : y.lsa.origin = (c j).lsdb.router := by rw [g1, h1, hc.origin, m1]
          obtain ⟨j2, d2, hd2, f1, f2, f3⟩ := h.copied i y hy (by rw [hyr]; exact fun e => hj (hs.distinct _ _ e))
          obtain ⟨n1, n2, n3⟩ := (h.node j2).made d2.lsa (.sent d2 hd2 rfl)
          have hj2 : j2 = j := hs.distinct _ _ (n1.symm.trans (f1.trans hyr))
          subst hj2
          rw [g3]
          exact k1.trans (Agree.update n3 f3 (hnode.reach.inv.norm y hy) k2 g2)
    · cases e

theorem mild_node {c : ι → RConf} {N : State ι} (h : NInv c N) {i : ι} {x s' : Router}
    (hx : NodeInv (c i).lsdb x.core.lsdb (N i).past) (hw : Whole (N i).r.nbr.adjs) (hn : x.nbr.adjs.map ident = (N i).r.nbr.adjs.map ident)
    (hm : Mild x s') (ha : Router.All (c i) s') : NodeInv (c i).lsdb s'.core.lsdb (N i).past := by
  refine hx.congr ha.base.core.lsdb hm.db hm.seqs hm.log hm.fifo ?_
  rw [ha.synced.lsdb]
  exact whole_ident hw (by rw [hm.ident, hn]; exact fun _ h => h)

theorem NInv.step {c : ι → RConf} (hs : Sane c) {N : State ι} (h : NInv c N) (op : Op ι) (ha : Allowed c N op)
    (hr : ∀ i, Room (step c N op i).r.core.lsdb.seqs) : NInv c (step c N op) := by
  cases op with
  | act i op =>
    obtain ⟨hh, hpl⟩ := Allowed.plain hs h ha
    have hcop := fun o : Obj => Copied.step h (.act i op) (o := o)
    have hcl := @copied_lsdb ι _ c hs N h i op ha
    have hri := hr i
    have e : ∀ j, Net.step c N (.act i op) j = if j = i then { N i with r := Router.step (c i) (N i).r op } else N j := fun j => rfl
    generalize Net.step c N (.act i op) = N' at hcop hri e
    have ei := e i
    rw [if_pos rfl] at ei
    rw [ei] at hri
    have htr : Router.Trusted (c i) (Router.step (c i) (N i).r op) := (h.trusted i).step op hh
    have hall := htr.reachable.all
    have hw : Whole (N i).r.nbr.adjs := by
      rw [← (h.trusted i).reachable.all.synced.lsdb]; exact (h.node i).whole
    have main : NodeInv (c i).lsdb (Router.step (c i) (N i).r op).core.lsdb (N i).past ∧
        ∀ o ∈ (Router.step (c i) (N i).r op).core.lsdb.db, o.lsa.origin ≠ (c i).lsdb.router → Copied N o := by
      cases Router.step_does (c i) (N i).r op with
      | nothing hm =>
        exact ⟨mild_node h (h.node i) hw rfl hm hall, fun o ho => h.copied i o (hm.db ▸ ho)⟩
      | lsdb o hop ho x hx hn hm =>
        have hp := hpl o hop ho
        have hroom : Roomy (Lsdb.step (c i).lsdb (N i).r.core.lsdb o).seqs := by
          rw [← hx, ← hm.seqs]; exact hri.roomy
        have hnx := (h.node i).step (hs.lsa i) o hp hroom
        rw [← hx] at hnx
        refine ⟨mild_node h hnx hw hn hm hall, fun y hy hyr => hcl hop ?_ hyr⟩
        rw [← hx, ← hm.db]; exact hy
    refine ⟨?_, ?_, ?_⟩
    all_goals
      intro j
      rw [e j]
      split
    · rename_i hj; subst hj; exact htr
    · exact h.trusted j
    · rename_i hj; subst hj; exact main.1
    · exact h.node j
    · rename_i hj
      subst hj
      exact fun o ho hor => hcop o (main.2 o ho hor)
    · exact fun o ho hor => hcop o (h.copied j o ho hor)
  | restart i adjs npl sys kill =>
    obtain ⟨hf, hwh, hdr, hk⟩ := ha
    have hcop := fun o : Obj => Copied.step h (.restart i adjs npl sys kill) (o := o)
    have hri := hr i
    have e : ∀ j, Net.step c N (.restart i adjs npl sys kill) j =
      if j = i then ⟨Router.init (c i) (lastPersist ((N i).log ++ kill.outs (c i) (N i))) adjs npl sys,
        (N i).log ++ kill.outs (c i) (N i)⟩ else N j := fun j => rfl
    generalize Net.step c N (.restart i adjs npl sys kill) = N' at hcop hri e
    have ei := e i
    rw [if_pos rfl] at ei
    rw [ei] at hri
    obtain ⟨g1, g2⟩ := start_node (c := c i) _ npl sys hf hwh (hk.before hs h hdr) hri
    refine ⟨?_, ?_, ?_⟩
    all_goals
      intro j
      rw [e j]
      split
    · rename_i hj; subst hj
      exact ⟨_, adjs, npl, sys, [], hf, by simp, rfl⟩
    · exact h.trusted j
    · rename_i hj; subst hj; exact g1
    · exact h.node j
    · rename_i hj
      subst hj
      exact fun o ho hor => absurd (g2 o ho) hor
    · exact fun o ho hor => hcop o (h.copied j o ho hor)

theorem NInv.start {c : ι → RConf} (disk : ι → Option Seqs) (adjs : ι → AdjacencyList) (npl : ι → List PrefixInfo)
    (sys : ι → Int) (hf : ∀ i, Nbr.Fresh (adjs i)) (hw : ∀ i, Whole (adjs i)) (hd : ∀ i, ∀ q ∈ disk i, Room q)
    (hr : ∀ i, Room (Router.init (c i) (disk i) (adjs i) (npl i) (sys i)).core.lsdb.seqs) :
    NInv c (fun i => ⟨Router.init (c i) (disk i) (adjs i) (npl i) (sys i), []⟩) := by
  have hst := fun i => start_node (c := c i) (disk i) (npl i) (sys i) (hf i) (hw i)
    (Lsdb.Before.none _ (disk i) (fun q hq => (hd i q hq).roomy)) (hr i)
  exact ⟨fun i => ⟨disk i, adjs i, npl i, sys i, [], hf i, by simp, rfl⟩, fun i => (hst i).1,
    fun i o ho hor => absurd ((hst i).2 o ho) hor⟩

theorem Reachable.ninv {c : ι → RConf} (hs : Sane c) {N : State ι} (h : Reachable c N) : NInv c N := by
  induction h with
  | start disk adjs npl sys hf hw hd hr => exact NInv.start disk adjs npl sys hf hw hd hr
  | step _ op ha hr ih => exact ih.step hs op ha hr

end Net
end Nlsr
