import Verif.Lemmas.Net
import Verif.Model.Outsider
/- Whatever strangers send, what a router stores in another's name was signed by that router. -/
namespace Nlsr
namespace Lsdb

theorem inc64_lt (n : Nat) : inc64 n < 2 ^ 64 := by
  unfold inc64; omega

theorem install_small {c : LConf} {s : Lsdb} (hi : Inv c s) (h : ∀ o ∈ s.db, o.lsa.seq < 2 ^ 64) {l : Lsa} (hl : l.seq < 2 ^ 64) :
    ∀ o ∈ (installLsa c s l).db, o.lsa.seq < 2 ^ 64 := by
  intro o ho
  rcases mem_install hi l ho with h1 | h1
  · exact h o h1
  · rw [h1.seq]; exact hl

/-- The numbers of stored LSAs are numbers of 64 bits. -/
theorem small_reachable {c : LConf} {s : Lsdb} (h : Reachable c s) : ∀ o ∈ s.db, o.lsa.seq < 2 ^ 64 := by
  refine Reachable.induct_step (P := fun s => ∀ o ∈ s.db, o.lsa.seq < 2 ^ 64) ?_ ?_ h
  · intro disk adjs npl sys
    have hi0 := (boot_inv c disk adjs npl sys)
    have h1 : ∀ o ∈ (buildName c (boot c disk adjs npl sys)).db, o.lsa.seq < 2 ^ 64 := by
      refine install_small (hi0.frame (announce_frame _ _ _)) ?_ (inc64_lt _)
      intro o ho
      rw [(announce_frame _ _ _).db] at ho
      cases ho
    have hib : Inv c (buildName c (boot c disk adjs npl sys)) := trs_inv hi0 (trs_buildName c _)
    unfold init
    dsimp only
    split
    · exact h1
    · refine install_small (hib.frame (announce_frame _ _ _)) ?_ (inc64_lt _)
      intro o ho
      rw [(announce_frame _ _ _).db] at ho
      exact h1 o ho
  · intro s op hr ih o ho
    cases change_step hr op o ho with
    | kept y hy e => rw [e]; exact ih y hy
    | refreshed y hy _ _ _ h3 _ => rw [h3]; exact inc64_lt _
    | built l b _ _ ht hn _ _ _ => rw [ht.seq, hn]; exact inc64_lt _
    | fetched i l l' _ ht _ _ h3 _ => rw [ht.seq, h3]; omega

/-- What always holds of an LSDB and its earlier lives, whatever numbers are reported to it. -/
structure Ours (c : LConf) (s : Lsdb) (past : List Out) : Prop where
  reach : Reachable c s
  made : ∀ l, Made c s past l → l.origin = c.router ∧ l.seq < 2 ^ 64 ∧ PlainContent c l.content
  whole : Net.Whole s.adjs

/-- An LSA in the router's own name that comes in is plain. -/
def Fair (c : LConf) : Op → Prop
  | .fetched _ (some l) => l.origin = c.router → PlainContent c l.content.norm
  | .setAdjs l => Net.Whole l
  | _ => True

theorem Ours.step {c : LConf} (hnet : Comp.str "LSA" ∉ c.names.network) {s : Lsdb} {past : List Out} (h : Ours c s past) (op : Op)
    (hp : Fair c op) : Ours c (Lsdb.step c s op) past := by
  obtain ⟨hf, outs, hl, ho⟩ := fifo_step hnet s op
  refine ⟨h.reach.step op, ?_, ?_⟩
  · intro l hm
    cases hm with
    | sent d hd e =>
      rw [hl, ← List.append_assoc] at hd
      rcases List.mem_append.1 hd with h1 | h1
      · exact h.made l (.sent d h1 e)
      · rcases ho d h1 with h2 | h2
        · exact h.made l (.kept d h2 e)
        · exact h.made l (.own (e ▸ h2))
    | kept d hd e =>
      rcases hf d hd with h2 | h2
      · exact h.made l (.kept d h2 e)
      · exact h.made l (.own (e ▸ h2))
    | own ho' =>
      obtain ⟨o', ho1, hr, rfl⟩ := ho'
      cases change_step h.reach op o' ho1 with
      | kept o ho2 e =>
        rw [e] at hr ⊢
        exact h.made _ (.own ⟨o, ho2, hr, rfl⟩)
      | refreshed o ho2 hro h1 h2 h3 hs =>
        refine ⟨hr, by rw [h3]; exact inc64_lt _, ?_⟩
        rw [h2]; exact (h.made o.lsa (.own ⟨o, ho2, hro, rfl⟩)).2.2
      | built l b hb hrl ht hn hs hsrc hmode =>
        have hpl : PlainContent c l.content := plain_builds h.whole hb hmode
        refine ⟨hr, by rw [ht.seq, hn]; exact inc64_lt _, ?_⟩
        rcases ht.content with h1 | ⟨o, ho2, h1, h2, -, h3⟩
        · rw [h1]; exact hpl
        · rw [h3]
          exact plain_update (h.made o.lsa (.own ⟨o, ho2, h1.trans hrl, rfl⟩)).2.2 hpl h2
      | fetched i l l' hop ht h1 h2 h3 h4 =>
        subst hop
        have hlr : l'.origin = c.router := ht.origin.symm.trans hr
        have hpl : PlainContent c l'.content := by rw [h4]; exact hp (h1.symm.trans hlr)
        refine ⟨hr, by rw [ht.seq, h3]; omega, ?_⟩
        rcases ht.content with e | ⟨o, ho2, g1, g2, -, g3⟩
        · rw [e]; exact hpl
        · rw [g3]
          exact plain_update (h.made o.lsa (.own ⟨o, ho2, g1.trans hlr, rfl⟩)).2.2 hpl g2
  · cases op with
    | setAdjs l => exact hp
    | _ =>
      rw [step_adjs _ (by intro l; nofun)]
      exact h.whole

theorem Ours.congr {c : LConf} {s s' : Lsdb} {past : List Out} (h : Ours c s past) (hr : Reachable c s')
    (h1 : s'.db = s.db) (h3 : s'.log = s.log) (h4 : s'.fifo = s.fifo) (hw : Net.Whole s'.adjs) : Ours c s' past := by
  refine ⟨hr, ?_, hw⟩
  intro l hl
  refine h.made l ?_
  cases hl with
  | sent d hd e => exact .sent d (h3 ▸ hd) e
  | kept d hd e => exact .kept d (h4 ▸ hd) e
  | own ho =>
    obtain ⟨o, ho, hr, e⟩ := ho
    exact .own ⟨o, h1 ▸ ho, hr, e⟩

end Lsdb

namespace Net
open Adjacent (ident)
open Lsdb (Ours PlainContent Made Fair)
open Router (Mild)
variable {ι : Type} [DecidableEq ι]

/-- The router has signed this LSA: in LSA data or in a data set. -/
def World.hasSigned (W : World ι) (j : ι) (l : Lsa) : Prop := (∃ d, .data d ∈ (W.net j).log ∧ d.lsa = l) ∨ (j, l) ∈ W.shown

/-- The router of that name has signed this under this number. -/
def World.genuine (c : ι → RConf) (W : World ι) (l : Lsa) : Prop :=
  ∃ j x, (c j).lsdb.router = l.origin ∧ W.hasSigned j x ∧ x.origin = l.origin ∧ x.seq = l.seq ∧ Agree x.content l.content

structure WInv (c : ι → RConf) (W : World ι) : Prop where
  reach : ∀ i, Router.Reachable (c i) (W.net i).r
  ours : ∀ i, Ours (c i).lsdb (W.net i).r.core.lsdb (W.net i).past
  copied : ∀ i, ∀ o ∈ (W.net i).r.core.lsdb.db, o.lsa.origin ≠ (c i).lsdb.router → W.genuine c o.lsa
  shown : ∀ j l, (j, l) ∈ W.shown → l.content.norm = l.content ∧ l.seq < 2 ^ 64 ∧
    (l.origin = (c j).lsdb.router → PlainContent (c j).lsdb l.content) ∧ (l.origin ≠ (c j).lsdb.router → W.genuine c l)

theorem plain_agree {c : LConf} {x y : Content} (hx : PlainContent c x) (h : Agree x y) (hy : y.norm = y) : PlainContent c y := by
  refine ⟨hy, ?_⟩
  cases x with
  | adj a => cases y with
    | adj b => exact ⟨whole_ident hx.2.1 (fun i hi => (List.Perm.mem_iff h).2 hi), hx.2.2⟩
    | _ => exact h.elim
  | coord r as => cases y with
    | coord r' as' => obtain ⟨rfl, rfl⟩ := h; exact hx.2
    | _ => exact h.elim
  | names m => cases y with
    | names m' => trivial
    | _ => exact h.elim

/-- What a router signs in its own name is plain. -/
theorem WInv.own {c : ι → RConf} {W : World ι} (h : WInv c W) {j : ι} {x : Lsa} (hx : W.hasSigned j x)
    (hr : x.origin = (c j).lsdb.router) : x.seq < 2 ^ 64 ∧ PlainContent (c j).lsdb x.content := by
  rcases hx with ⟨d, hd, rfl⟩ | hx
  · exact ((h.ours j).made d.lsa (.sent d hd rfl)).2
  · obtain ⟨-, h1, h2, -⟩ := h.shown j x hx
    exact ⟨h1, h2 hr⟩

theorem Closed.owner {p : Pki ι} (hc : p.Closed) {k : Name} {l : List Cert} (h : Schema.Vouched Schema.shipped p.anchors k l) :
    ∀ ct l', l = ct :: l' → p.signed l → p.owner ct ≠ .stranger := by
  induction h with
  | anchor ha hk =>
    intro ct l' e hs
    cases e
    exact hc.anchors _ ha
  | step hk hv hl hp h ih =>
    intro ct l' e hs
    cases e
    cases h with
    | anchor ha hk' => exact hc.issued _ (by rw [hs.1]; exact ih _ _ rfl trivial)
    | step _ _ _ _ _ => exact hc.issued _ (by rw [hs.1]; exact ih _ _ rfl hs.2)

/-- Data that counts holds a genuine LSA. -/
theorem WInv.received {c : ι → RConf} {W : World ι} (h : WInv c W) {p : Pki ι} (hc : p.Closed) {d : Packet ι} (ha : p.accepts d)
    (hs : W.signs d.signer d) {l : Lsa} (hl : d.holds = some l) : ∃ j x, (c j).lsdb.router = l.origin ∧ W.hasSigned j x ∧ x.origin = l.origin ∧
      x.seq = l.seq ∧ l.seq < 2 ^ 64 ∧ Agree x.content l.content.norm ∧ PlainContent (c j).lsdb l.content.norm := by
  obtain ⟨k, ct, cs, -, -, hv, hg, ho⟩ := ha
  have hn := Closed.owner hc hv ct cs rfl hg
  rw [ho] at hn
  cases e : d.signer with
  | stranger => exact absurd e hn
  | authority =>
    rw [e] at hs
    exact absurd (hl.symm.trans hs) (by simp)
  | router j =>
    rw [e] at hs
    rcases hs with ⟨s, l', hd, -, h1, ht⟩ | ⟨s, l', hd, h1, ht⟩ | h1
    · cases Option.some.inj (hl.symm.trans h1)
      obtain ⟨m1, m2, m3⟩ := (h.ours j).made s.lsa (.sent s hd rfl)
      obtain ⟨k1, k2⟩ := carried m3 ht
      exact ⟨j, s.lsa, by rw [ht.origin, m1], Or.inl ⟨s, hd, rfl⟩, ht.origin.symm, ht.seq.symm, by rw [ht.seq]; exact m2, k1, k2⟩
    · cases Option.some.inj (hl.symm.trans h1)
      obtain ⟨g1, g2, g3, g4⟩ := h.shown j s hd
      by_cases hr : s.origin = (c j).lsdb.router
      · obtain ⟨k1, k2⟩ := carried (g3 hr) ht
        exact ⟨j, s, by rw [ht.origin, hr], Or.inr hd, ht.origin.symm, ht.seq.symm, by rw [ht.seq]; exact g2, k1, k2⟩
      · obtain ⟨j', x, f1, f2, f3, f4, f5⟩ := g4 hr
        obtain ⟨q1, q2⟩ := h.own f2 (by rw [f3, f1])
        obtain ⟨k1, k2⟩ := carried (plain_agree q2 f5 g1) ht
        exact ⟨j', x, by rw [ht.origin, f1], f2, by rw [ht.origin, f3], by rw [ht.seq, f4], by rw [ht.seq]; exact g2, f5.trans k1, k2⟩
    · rw [hl] at h1; cases h1

theorem world_log_grows {c : ι → RConf} {W : World ι} (h : WInv c W) (e : Ev ι) (j : ι) :
    ∃ outs, ((W.step c e).net j).log = (W.net j).log ++ outs := by
  cases e with
  | dataset i => exact ⟨[], by simp [World.step]⟩
  | net op =>
    cases op with
    | act i op =>
      show ∃ outs, (set W.net i _ j).log = _
      unfold set
      split
      · rename_i e
        subst e
        show ∃ outs, (W.net j).past ++ (Router.step (c j) (W.net j).r op).core.lsdb.log = _
        cases Router.step_does (c j) (W.net j).r op with
        | nothing hm => exact ⟨[], by rw [hm.log]; simp [Site.log]⟩
        | lsdb o _ _ x hx _ hm =>
          obtain ⟨outs, e⟩ := step_log_prefix (h.ours j).reach o
          exact ⟨outs, by rw [hm.log, hx, e]; simp [Site.log]⟩
      · exact ⟨[], by simp⟩
    | restart i adjs npl sys kill =>
      show ∃ outs, (set W.net i _ j).log = _
      unfold set
      split
      · rename_i e
        subst e
        exact ⟨_, List.append_assoc _ _ _⟩
      · exact ⟨[], by simp⟩

theorem shown_grows (c : ι → RConf) (W : World ι) (e : Ev ι) {x : ι × Lsa} (h : x ∈ W.shown) : x ∈ (W.step c e).shown := by
  cases e with
  | net op => exact h
  | dataset j => exact List.mem_append_left _ h

theorem genuine_step {c : ι → RConf} {W : World ι} (h : WInv c W) (e : Ev ι) {l : Lsa} (hl : W.genuine c l) : (W.step c e).genuine c l := by
  obtain ⟨j, x, h1, h2, h3⟩ := hl
  refine ⟨j, x, h1, ?_, h3⟩
  rcases h2 with ⟨d, hd, e'⟩ | h2
  · obtain ⟨outs, e2⟩ := world_log_grows h e j
    exact Or.inl ⟨d, by rw [e2]; exact List.mem_append_left _ hd, e'⟩
  · exact Or.inr (shown_grows c W e h2)

/-- What is stored after a step is genuine. -/
theorem genuine_lsdb {c : ι → RConf} (hs : Named c) {W : World ι} (h : WInv c W) {p : Pki ι} (hc : p.Closed) {i : ι} {op : Router.Op}
    (ha : Exposed p W (.net (.act i op))) {o : Lsdb.Op} (ho : op = .core (.lsdb o) ∨ ∃ dt sys, op = .clock dt sys ∧ o = .clock dt sys)
    {x : Obj} (hx : x ∈ (Lsdb.step (c i).lsdb (W.net i).r.core.lsdb o).db) (hr : x.lsa.origin ≠ (c i).lsdb.router) : W.genuine c x.lsa := by
  have hnode := h.ours i
  cases Lsdb.change_step hnode.reach o x hx with
  | kept y hy e => rw [e] at hr ⊢; exact h.copied i y hy hr
  | refreshed y hy hry h1 h2 h3 hs => exact absurd (h1.trans hry) hr
  | built l b hb hrl ht hn hs hsrc hmode => exact absurd (ht.origin.trans hrl) hr
  | fetched m l l' hop ht h1 h2 h3 h4 =>
    subst hop
    rcases ho with rfl | ⟨dt, sys, -, e⟩
    · cases hf : (W.net i).r.core.lsdb.fetches[m]? with
      | none =>
        have : Lsdb.step (c i).lsdb (W.net i).r.core.lsdb (.fetched m (some l)) = (W.net i).r.core.lsdb := by
          show Lsdb.fetched _ _ _ _ = _
          unfold Lsdb.fetched
          rw [hf]
        rw [this] at hx
        exact h.copied i x hx hr
      | some f =>
        obtain ⟨d, d1, d2, -, d3⟩ := ha f hf
        obtain ⟨j, s, r1, r2, r3, r4, r5, r6, r7⟩ := h.received hc d1 d2 d3
        rw [← h4] at r6 r7
        refine ⟨j, s, by rw [ht.origin, h1]; exact r1, r2, by rw [ht.origin, h1]; exact r3, ?_, ?_⟩
        · rw [ht.seq, h3, r4]; omega
        · rcases ht.content with e | ⟨y, hy, g1, g2, -, g3⟩
          · rw [e]; exact r6
          · have hyr : y.lsa.origin ≠ (c i).lsdb.router := by rw [g1, ← ht.origin]; exact hr
            obtain ⟨j2, x2, f1, f2, f3, f4, f5⟩ := h.copied i y hy hyr
            have hj2 : j2 = j := hs.distinct _ _ (by rw [f1, g1, h1, r1])
            subst hj2
            have q := (h.own f2 (by rw [f3, f1])).2
            rw [g3]
            exact r6.trans (Agree.update q f5 (hnode.reach.inv.norm y hy) r7 g2)
    · cases e

/-- An LSA in the router's own name that comes in is one that it has signed. -/
theorem fair_act {c : ι → RConf} (hs : Named c) {W : World ι} (h : WInv c W) {p : Pki ι} (hc : p.Closed) {i : ι} {op : Router.Op}
    (ha : Exposed p W (.net (.act i op))) {o : Lsdb.Op} (ho : op = .core (.lsdb o) ∨ ∃ dt sys, op = .clock dt sys ∧ o = .clock dt sys)
    (hl : ∀ l, o ≠ .setAdjs l) : Fair (c i).lsdb o ∨ Lsdb.step (c i).lsdb (W.net i).r.core.lsdb o = (W.net i).r.core.lsdb := by
  rcases ho with rfl | ⟨dt, sys, rfl, rfl⟩
  · cases o with
    | setAdjs l => exact absurd rfl (hl l)
    | fetched m q =>
      cases q with
      | none => exact Or.inl trivial
      | some l =>
        cases hf : (W.net i).r.core.lsdb.fetches[m]? with
        | none =>
          right
          show Lsdb.fetched _ _ _ _ = _
          unfold Lsdb.fetched
          rw [hf]
        | some f =>
          left
          intro e
          obtain ⟨d, d1, d2, -, d3⟩ := ha f hf
          obtain ⟨j, s, r1, r2, r3, r4, r5, r6, r7⟩ := h.received hc d1 d2 d3
          have : j = i := hs.distinct _ _ (r1.trans e)
          exact this ▸ r7
    | _ => exact Or.inl trivial
  · exact Or.inl trivial

theorem mild_ours {c : RConf} {r x s' : Router} {past : List Out}
    (hx : Ours c.lsdb x.core.lsdb past) (hw : Whole r.nbr.adjs) (hn : x.nbr.adjs.map ident = r.nbr.adjs.map ident)
    (hm : Mild x s') (ha : Router.All c s') : Ours c.lsdb s'.core.lsdb past := by
  refine hx.congr ha.base.core.lsdb hm.db hm.log hm.fifo ?_
  rw [ha.synced.lsdb]
  exact whole_ident hw (by rw [hm.ident, hn]; exact fun _ h => h)

theorem start_ours {c : RConf} (disk : Option Seqs) {adjs : AdjacencyList} (npl : List PrefixInfo) (sys : Int) {past : List Out}
    (hf : Nbr.Fresh adjs) (hw : Whole adjs) (hb : ∀ d, .data d ∈ past → d.lsa.origin = c.lsdb.router ∧ d.lsa.seq < 2 ^ 64 ∧ PlainContent c.lsdb d.lsa.content) :
    Ours c.lsdb (Router.init c disk adjs npl sys).core.lsdb past ∧
    ∀ o ∈ (Router.init c disk adjs npl sys).core.lsdb.db, o.lsa.origin = c.lsdb.router := by
  have hm := Router.init_mild c disk adjs npl sys
  have hall := Router.All.init c disk npl sys hf
  generalize Router.init c disk adjs npl sys = s at *
  have hk := Lsdb.init_keep c.lsdb disk adjs npl sys
  have hn : Ours c.lsdb (Lsdb.init c.lsdb disk adjs npl sys) past := by
    have hre : Lsdb.Reachable c.lsdb (Lsdb.init c.lsdb disk adjs npl sys) := ⟨disk, adjs, npl, sys, [], rfl⟩
    refine ⟨hre, ?_, by rw [hk.adjs]; exact hw⟩
    intro l hl
    cases hl with
    | sent d hd e =>
      rcases List.mem_append.1 hd with h1 | h1
      · exact e ▸ hb d h1
      · obtain ⟨outs, h2, h3⟩ := hk.log
        rw [h2] at h1
        have := h3 _ h1
        cases this
    | kept d hd e => rw [hk.fifo] at hd; cases hd
    | own ho =>
      obtain ⟨o, ho, hr, rfl⟩ := ho
      exact ⟨hr, Lsdb.small_reachable hre o ho, (Lsdb.init_db c.lsdb disk adjs npl sys o ho).2.1⟩
  refine ⟨hn.congr hall.base.core.lsdb hm.db hm.log hm.fifo ?_, ?_⟩
  · rw [hall.synced.lsdb]
    have hid := hm.ident
    intro a ha
    have h1 : a.ident ∈ s.nbr.adjs.map ident := List.mem_map_of_mem ha
    rw [hid] at h1
    obtain ⟨b, hb, e⟩ := List.mem_map.1 h1
    have e2 : b.cost = a.cost := congrArg (fun p => p.2.2) e
    rw [← e2]
    have hb' : b ∈ (Nbr.init c.nbr adjs).adjs := hb
    unfold Nbr.init at hb'
    dsimp only at hb'
    split at hb'
    · obtain ⟨x, -, rfl⟩ := List.mem_map.1 hb'
      exact ⟨0, rfl⟩
    · exact hw b hb'
  · intro o ho
    rw [hm.db] at ho
    exact (Lsdb.init_db c.lsdb disk adjs npl sys o ho).1

/-- One event at a router. -/
theorem act_ours {c : ι → RConf} (hs : Named c) {W : World ι} (h : WInv c W) {p : Pki ι} (hc : p.Closed) {i : ι} {op : Router.Op}
    (ha : Gets p W i op) : Ours (c i).lsdb (Router.step (c i) (W.net i).r op).core.lsdb (W.net i).past ∧
      ∀ o ∈ (Router.step (c i) (W.net i).r op).core.lsdb.db, o.lsa.origin ≠ (c i).lsdb.router → W.genuine c o.lsa := by
  have hre : Router.Reachable (c i) (Router.step (c i) (W.net i).r op) := (h.reach i).step op
  have hall := hre.all
  have hw : Whole (W.net i).r.nbr.adjs := by
    rw [← (h.reach i).all.synced.lsdb]; exact (h.ours i).whole
  cases Router.step_does (c i) (W.net i).r op with
  | nothing hm => exact ⟨mild_ours (h.ours i) hw rfl hm hall, fun o ho => h.copied i o (hm.db ▸ ho)⟩
  | lsdb o hop ho x hx hn hm =>
    have hnx : Ours (c i).lsdb x.core.lsdb (W.net i).past := by
      rw [hx]
      rcases fair_act hs h hc ha hop ho with h1 | h1
      · exact (h.ours i).step (hs.lsa i) o h1
      · rw [h1]; exact h.ours i
    refine ⟨mild_ours hnx hw hn hm hall, fun y hy hyr => genuine_lsdb hs h hc ha hop ?_ hyr⟩
    rw [← hx, ← hm.db]; exact hy

/-- What a router has put out before it was stopped is its own. -/
theorem stopped_ours {c : ι → RConf} (hs : Named c) {W : World ι} (h : WInv c W) {p : Pki ι} (hc : p.Closed) {i : ι} {kill : Kill}
    (ha : Stops p W i kill) {d : Seg} (hd : .data d ∈ kill.outs (c i) (W.net i)) :
    d.lsa.origin = (c i).lsdb.router ∧ d.lsa.seq < 2 ^ 64 ∧ PlainContent (c i).lsdb d.lsa.content := by
  induction kill with
  | idle => cases hd
  | event op k =>
    have hd := List.mem_of_mem_drop (List.mem_of_mem_take hd)
    exact (act_ours hs h hc (op := op) ha).1.made d.lsa (.sent d (List.mem_append_right _ hd) rfl)
  | start b adjs npl sys k ih =>
    rcases List.mem_append.1 hd with h1 | h1
    · exact ih ha h1
    · have h1 := List.mem_of_mem_take h1
      rw [(Router.init_mild _ _ adjs npl sys).log] at h1
      change _ ∈ (Lsdb.init (c i).lsdb _ adjs npl sys).log at h1
      obtain ⟨outs, e1, e2⟩ := (Lsdb.init_keep (c i).lsdb (lastPersist ((W.net i).log ++ b.outs (c i) (W.net i))) adjs npl sys).log
      rw [e1] at h1
      have := e2 _ h1
      cases this

theorem WInv.step {c : ι → RConf} (hs : Named c) {W : World ι} (h : WInv c W) {p : Pki ι} (hc : p.Closed) (e : Ev ι)
    (ha : Exposed p W e) : WInv c (W.step c e) := by
  have hgen := fun l : Lsa => genuine_step h e (l := l)
  cases e with
  | dataset i =>
    refine ⟨h.reach, h.ours, fun j o ho hr => hgen _ (h.copied j o ho hr), ?_⟩
    intro j l hl
    rcases List.mem_append.1 hl with h1 | h1
    · obtain ⟨a, b, d, e⟩ := h.shown j l h1
      exact ⟨a, b, d, fun hr => hgen _ (e hr)⟩
    · obtain ⟨o, ho, e⟩ := List.mem_map.1 h1
      cases e
      exact ⟨(h.ours i).reach.inv.norm o ho, Lsdb.small_reachable (h.ours i).reach o ho,
        fun hr => ((h.ours i).made o.lsa (.own ⟨o, ho, hr, rfl⟩)).2.2, fun hr => hgen _ (h.copied i o ho hr)⟩
  | net op =>
    have hsh : ∀ j l, (j, l) ∈ (W.step c (.net op)).shown → l.content.norm = l.content ∧ l.seq < 2 ^ 64 ∧
        (l.origin = (c j).lsdb.router → PlainContent (c j).lsdb l.content) ∧
        (l.origin ≠ (c j).lsdb.router → (W.step c (.net op)).genuine c l) := by
      intro j l hl
      obtain ⟨a, b, d, e⟩ := h.shown j l hl
      exact ⟨a, b, d, fun hr => hgen _ (e hr)⟩
    cases op with
    | act i op =>
      have hre : Router.Reachable (c i) (Router.step (c i) (W.net i).r op) := (h.reach i).step op
      have main := act_ours hs h hc ha
      have e : ∀ j, (W.step c (.net (.act i op))).net j = if j = i then { W.net i with r := Router.step (c i) (W.net i).r op } else W.net j :=
        fun j => rfl
      generalize W.step c (.net (.act i op)) = W' at hgen hsh e
      refine ⟨?_, ?_, ?_, hsh⟩
      all_goals
        intro j
        rw [e j]
        split
      · rename_i hj; subst hj; exact hre
      · exact h.reach j
      · rename_i hj; subst hj; exact main.1
      · exact h.ours j
      · rename_i hj
        subst hj
        exact fun o ho hor => hgen _ (main.2 o ho hor)
      · exact fun o ho hor => hgen _ (h.copied j o ho hor)
    | restart i adjs npl sys kill =>
      obtain ⟨hf, hwh, hk⟩ := ha
      obtain ⟨g1, g2⟩ := start_ours (c := c i) (lastPersist ((W.net i).log ++ kill.outs (c i) (W.net i))) npl sys hf hwh
        (past := (W.net i).log ++ kill.outs (c i) (W.net i)) (fun d hd => by
          rcases List.mem_append.1 hd with h1 | h1
          · exact (h.ours i).made d.lsa (.sent d h1 rfl)
          · exact stopped_ours hs h hc hk h1)
      have e : ∀ j, (W.step c (.net (.restart i adjs npl sys kill))).net j =
        if j = i then ⟨Router.init (c i) (lastPersist ((W.net i).log ++ kill.outs (c i) (W.net i))) adjs npl sys,
          (W.net i).log ++ kill.outs (c i) (W.net i)⟩ else W.net j := fun j => rfl
      generalize W.step c (.net (.restart i adjs npl sys kill)) = W' at hgen hsh e
      refine ⟨?_, ?_, ?_, hsh⟩
      all_goals
        intro j
        rw [e j]
        split
      · rename_i hj; subst hj
        exact ⟨_, adjs, npl, sys, [], hf, rfl⟩
      · exact h.reach j
      · rename_i hj; subst hj; exact g1
      · exact h.ours j
      · rename_i hj
        subst hj
        exact fun o ho hor => absurd (g2 o ho) hor
      · exact fun o ho hor => hgen _ (h.copied j o ho hor)

theorem Attacked.winv {c : ι → RConf} (hs : Named c) {p : Pki ι} (hc : p.Closed) {W : World ι} (h : Attacked p c W) : WInv c W := by
  induction h with
  | start disk adjs npl sys hf hw =>
    have hst := fun i => start_ours (c := c i) (disk i) (npl i) (sys i) (past := []) (hf i) (hw i) nofun
    exact ⟨fun i => ⟨disk i, adjs i, npl i, sys i, [], hf i, rfl⟩, fun i => (hst i).1,
      fun i o ho hor => absurd ((hst i).2 o ho) hor, nofun⟩
  | step _ e ha ih => exact ih.step hs hc e ha

end Net
end Nlsr
