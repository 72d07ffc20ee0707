import Verif.Lemmas.NetObtain
import Verif.Props.NetPrefix
import Verif.Props.LsdbTimers
/-
C92: when all announcements have come through and no request is left, every router has every LSA.
-/
namespace Nlsr
open LS

namespace Net
variable {ι : Type} [DecidableEq ι]

/-- The routers belong to one network, and their names have fewer than 2^61 components. -/
structure OneNetwork (c : ι → RConf) : Prop where
  same : ∀ i j, (c i).lsdb.names.network = (c j).lsdb.names.network
  short : ∀ i, (c i).lsdb.names.network.length + (c i).lsdb.names.site.length + (c i).lsdb.names.router.length < 2 ^ 61

/-- Sync reports to router `i` the number `k` of router `j`'s LSA. -/
def report (c : ι → RConf) (i j : ι) (t : LsaType) (k : Nat) : Op ι :=
  .act i (.core (.lsdb (.sync ((c j).lsdb.names.lsaUserPrefix t) k)))

/-- What must not go wrong at router `i` between the report of the number `k` and the arrival of the LSA: `i` is not
restarted; Data that answers the request holds the LSA asked for; the request does not fail after its deadline; and
`i` does not lose an LSA of this router and type that it has. -/
structure Kindly (c : ι → RConf) (i j : ι) (t : LsaType) (k : Nat) (N : State ι) (op : Op ι) : Prop where
  up : ∀ adjs npl sys kill, op ≠ .restart i adjs npl sys kill
  answer : ∀ x p d, op = .act i (.core (.lsdb (.fetched x p))) →
    (N i).r.core.lsdb.fetches[x]? = some ⟨(c j).lsdb.names.lsaUserPrefix t, k, d⟩ →
    ∃ l, p = some l ∧ l.origin = (c j).lsdb.router ∧ l.type = t ∧ l.seq = k
  time : ∀ x b d, op = .act i (.core (.lsdb (.fetchError x b))) →
    (N i).r.core.lsdb.fetches[x]? = some ⟨(c j).lsdb.names.lsaUserPrefix t, k, d⟩ → (N i).r.core.lsdb.now < d
  stays : ∀ o ∈ (N i).r.core.lsdb.db, o.lsa.origin = (c j).lsdb.router → o.lsa.type = t →
    ∃ o' ∈ (step c N op i).r.core.lsdb.db, o'.lsa.origin = (c j).lsdb.router ∧ o'.lsa.type = t

/-- At some time sync reported to router `i`, which was running, the number `k` of router `j`'s LSA, and nothing went
wrong since. -/
def Told (c : ι → RConf) (N : State ι) (i j : ι) (t : LsaType) (k : Nat) : Prop :=
  ∃ M, Reachable c M ∧ (M i).r.ended = false ∧ Allowed c M (report c i j t k) ∧
    (∀ x, Room (step c M (report c i j t k) x).r.core.lsdb.seqs) ∧
    Goes c (Kindly c i j t k) (step c M (report c i j t k)) N

/-- `k` is the last number that router `j` has announced for LSAs of this type. -/
def Last (N : State ι) (j : ι) (t : LsaType) (k : Nat) : Prop :=
  .publish t k ∈ (N j).log ∧ ∀ k', .publish t k' ∈ (N j).log → k' ≤ k

/-- Router `i` is not waiting for the LSA. -/
def Idle (c : ι → RConf) (N : State ι) (i j : ι) (t : LsaType) (k : Nat) : Prop :=
  ∀ d, ¬ Asking (N i).r.core.lsdb ⟨(c j).lsdb.names.lsaUserPrefix t, k, d⟩

/-- Router `i` stores the LSA of router `j` of this type with this number. -/
def Stores (c : ι → RConf) (N : State ι) (i j : ι) (t : LsaType) (k : Nat) : Prop :=
  ∃ o ∈ (N i).r.core.lsdb.db, o.lsa.origin = (c j).lsdb.router ∧ o.lsa.type = t ∧ o.lsa.seq = k

section
variable {c : ι → RConf} {N : State ι}

theorem peer (hs : Sane c) (ho : OneNetwork c) {i j : ι} (h : i ≠ j) : Peer (c i).lsdb (c j).lsdb.names :=
  ⟨ho.same j i, fun e => h (hs.distinct _ _ e).symm, hs.nlsr j, hs.lsa j, ho.short j⟩

/-- A published type is one that there are LSAs of. -/
theorem published_type (hi : NInv c N) {j : ι} {t : LsaType} {k : Nat} (hk : .publish t k ∈ (N j).log) : t ≠ .base := by
  rintro rfl
  exact absurd ((hi.node j).pub _ _ hk).2 (by unfold Lsdb.Kind; simp)

theorem obtaining_step (hs : Sane c) (hN : Reachable c N) {i j : ι} {t : LsaType} {k : Nat} (hp : Peer (c i).lsdb (c j).lsdb.names)
    (ht : t ≠ .base) (hk : k < 2 ^ 63) (hl : ∀ k', .publish t k' ∈ (N j).log → k' ≤ k) (op : Op ι) (hd : Kindly c i j t k N op)
    (ho : Obtaining (N i).r.core.lsdb (c j).lsdb.names t k) :
    Obtaining (step c N op i).r.core.lsdb (c j).lsdb.names t k := by
  have hst := hd.stays
  cases op with
  | restart i' adjs npl sys kill =>
    have hne : i ≠ i' := fun e => hd.up adjs npl sys kill (by rw [e])
    have e : step c N (.restart i' adjs npl sys kill) i = N i := if_neg hne
    rw [e]; exact ho
  | act i' op =>
    by_cases e : i = i'
    · subst e
      have e : step c N (.act i op) i = { N i with r := Router.step (c i) (N i).r op } := if_pos rfl
      rw [e] at hst ⊢
      change ∀ o ∈ _, _ → _ → ∃ o' ∈ (Router.step (c i) (N i).r op).core.lsdb.db, _ at hst
      show Obtaining (Router.step (c i) (N i).r op).core.lsdb _ t k
      have same : ∀ {a b : Router}, Router.Mild a b → Obtaining a.core.lsdb (c j).lsdb.names t k → Obtaining b.core.lsdb (c j).lsdb.names t k := by
        intro a b hm h
        unfold Obtaining Asking Newer at h ⊢
        rw [hm.db, hm.fetches, hm.retries]
        exact h
      cases Router.step_does (c i) (N i).r op with
      | nothing hm => exact same hm ho
      | lsdb o hop hna x hx _ hm =>
        refine same hm ?_
        rw [hm.db] at hst
        rw [hx] at hst ⊢
        refine Obtaining.step ((hN.ninv hs).node i).reach hp ht (by omega) ?_ ?_ ho
        · exact Heard.le hs (hN.heard hs) hl
        · refine ⟨?_, ?_, hst⟩
          · rintro y p d rfl hf
            rcases hop with rfl | ⟨_, _, _, e⟩
            · exact hd.answer y p d rfl hf
            · cases e
          · rintro y b d rfl hf
            rcases hop with rfl | ⟨_, _, _, e⟩
            · exact hd.time y b d rfl hf
            · cases e
    · have e : step c N (.act i' op) i = N i := if_neg e
      rw [e]; exact ho

/-- C92: a router that was told of another router's last announcement, and has nothing more to ask, stores the LSA,
if nothing went wrong in between. -/
theorem C92_obtained (hs : Sane c) (hone : OneNetwork c) {i j : ι} (hij : i ≠ j) {t : LsaType} (hu : Used (c i).lsdb t) {k : Nat}
    (htold : Told c N i j t k) (hlast : Last N j t k) (hidle : Idle c N i j t k) : Stores c N i j t k := by
  obtain ⟨M, hM, hend, ha, hroom, hg⟩ := htold
  have hp := peer hs hone hij
  have hM' : Reachable c (step c M (report c i j t k)) := hM.step _ ha hroom
  have hN := hg.reachable hM'
  have ht := published_type (hN.ninv hs) hlast.1
  have hk := published_small (hN.ninv hs) hlast.1
  have hlog : ∀ o, o ∈ (M j).log → o ∈ (step c M (report c i j t k) j).log := by
    intro o ho
    obtain ⟨outs, e⟩ := log_grows (hM.ninv hs) (report c i j t k) j
    rw [e]; exact List.mem_append_left _ ho
  have main : Obtaining (N i).r.core.lsdb (c j).lsdb.names t k := by
    have h0 : Obtaining (step c M (report c i j t k) i).r.core.lsdb (c j).lsdb.names t k := by
      have e : step c M (report c i j t k) i =
        { M i with r := Router.step (c i) (M i).r (.core (.lsdb (.sync ((c j).lsdb.names.lsaUserPrefix t) k))) } := if_pos rfl
      rw [e]
      obtain ⟨x, hx, hm⟩ := Router.live_lsdb (c i) (M i).r (.sync ((c j).lsdb.names.lsaUserPrefix t) k) hend rfl
      have h1 := Obtaining.reported ((hM.ninv hs).node i).reach hp ht (show k < 2 ^ 64 by omega) hu
        (Heard.le hs (hM.heard hs) (fun k' hk' => hlast.2 k' (hg.log hs hM' (hlog _ hk'))))
      rw [← hx] at h1
      show Obtaining (Router.step (c i) (M i).r _).core.lsdb _ t k
      unfold Obtaining Asking Newer at h1 ⊢
      rw [hm.db, hm.fetches, hm.retries]
      exact h1
    clear hidle hN
    revert hlast
    induction hg with
    | refl => exact fun _ => h0
    | @step N' hg op ha' hr' hd ih =>
      intro hlast
      have hN' := hg.reachable hM'
      have hl : ∀ k', .publish t k' ∈ (N' j).log → k' ≤ k := by
        intro k' hk'
        refine hlast.2 k' ?_
        obtain ⟨outs, e⟩ := log_grows (hN'.ninv hs) op j
        rw [e]; exact List.mem_append_left _ hk'
      have hpub : .publish t k ∈ (N' j).log := by
        refine hg.log hs hM' (hlog _ ?_)
        obtain ⟨j', t', h1, h2, -⟩ := ha
        obtain ⟨rfl, rfl⟩ := prefix_inj hs h1
        exact h2
      exact obtaining_step hs hN' hp ht hk hl op hd (ih ⟨hpub, hl⟩)
  rcases main with ⟨d, hd⟩ | hn
  · exact absurd hd (hidle d)
  · obtain ⟨o, h1, h2, h3, h4⟩ := not_newer.1 hn
    refine ⟨o, h1, h2, h3, ?_⟩
    obtain ⟨j', g1, g2⟩ := C85_source hs hN (.stored i o h1 rfl)
    have : j' = j := hs.distinct _ _ (g1.symm.trans h2)
    subst this
    rw [h3] at g2
    have := hlast.2 _ g2
    omega

/-- The number of a router's own LSA is the last one it has announced. -/
theorem own_last (hs : Sane c) (h : Reachable c N) {j : ι} {t : LsaType} {k : Nat} (ho : Stores c N j j t k) : Last N j t k := by
  obtain ⟨o, h1, h2, rfl, rfl⟩ := ho
  have hi := h.ninv hs
  obtain ⟨j', g1, g2⟩ := C85_source hs h (.stored j o h1 rfl)
  have : j' = j := hs.distinct _ _ (g1.symm.trans h2)
  subst this
  refine ⟨g2, fun k' hk' => ?_⟩
  have h3 := (hi.node j').num o.lsa.type o.lsa.seq (by rw [← h2]; exact Lsdb.storedAt_mem (hi.node j').reach.inv h1)
  rw [h3]
  exact ((hi.node j').pub _ _ hk').1

theorem stores_one (hs : Sane c) (h : Reachable c N) {i j : ι} {t : LsaType} {k k' : Nat} (h1 : Stores c N i j t k) (h2 : Stores c N i j t k') :
    k = k' := by
  obtain ⟨o, a1, a2, a3, rfl⟩ := h1
  obtain ⟨o', b1, b2, b3, rfl⟩ := h2
  have e1 := Lsdb.storedAt_mem ((h.ninv hs).node i).reach.inv a1
  have e2 := Lsdb.storedAt_mem ((h.ninv hs).node i).reach.inv b1
  rw [a2, a3] at e1
  rw [b2, b3] at e2
  rw [e1] at e2
  exact Option.some.inj e2

/-- C92: when every router was told of the last announcement of every other, nothing went wrong since, and no request
is left, all routers store the same LSAs of a type: those that their origins store of themselves.  (A router that
has announced an LSA of the type must still have one, see `C92_violated_links_gone`.) -/
theorem C92_same (hs : Sane c) (hone : OneNetwork c) (hN : Reachable c N) (t : LsaType) (hu : ∀ i, Used (c i).lsdb t)
    (htold : ∀ i j k, i ≠ j → Last N j t k → Told c N i j t k ∧ Idle c N i j t k)
    (hown : ∀ j k, .publish t k ∈ (N j).log → ∃ k', Stores c N j j t k') (i j : ι) (k : Nat) :
    Stores c N i j t k ↔ Stores c N j j t k := by
  by_cases hij : i = j
  · subst hij; exact Iff.rfl
  constructor
  · intro h
    obtain ⟨o, h1, h2, h3, h4⟩ := h
    obtain ⟨j', g1, g2⟩ := C85_source hs hN (.stored i o h1 rfl)
    have : j' = j := hs.distinct _ _ (g1.symm.trans h2)
    subst this
    rw [h3] at g2
    obtain ⟨k', hk'⟩ := hown j' _ g2
    have hl := own_last hs hN hk'
    obtain ⟨a, b⟩ := htold i j' k' hij hl
    have := C92_obtained hs hone hij (hu i) a hl b
    rw [stores_one hs hN ⟨o, h1, h2, h3, h4⟩ this]
    exact hk'
  · intro h
    have hl := own_last hs hN h
    obtain ⟨a, b⟩ := htold i j k hij hl
    exact C92_obtained hs hone hij (hu i) a hl b

/-- A router's own Name LSA is always there. -/
theorem _root_.Nlsr.Lsdb.Reachable.own_name {c : LConf} {s : Lsdb} (h : Lsdb.Reachable c s) :
    ∃ o ∈ s.db, o.lsa.origin = c.router ∧ o.lsa.type = .name := by
  refine Lsdb.Reachable.induct_step (P := fun s => ∃ o ∈ s.db, o.lsa.origin = c.router ∧ o.lsa.type = .name) ?_ ?_ h
  · intro disk adjs npl sys
    have h1 : ∃ o, (Lsdb.buildName c (Lsdb.boot c disk adjs npl sys)).db = [o] ∧ o.lsa.origin = c.router ∧ o.lsa.type = .name :=
      ⟨_, rfl, rfl, rfl⟩
    obtain ⟨o, h2, h3, h4⟩ := h1
    unfold Lsdb.init
    dsimp only
    split
    · exact ⟨o, by rw [h2]; exact List.mem_cons_self, h3, h4⟩
    · refine ⟨o, ?_, h3, h4⟩
      generalize Lsdb.buildName c (Lsdb.boot c disk adjs npl sys) = s at h2
      unfold Lsdb.buildCoord
      dsimp only
      have hc := Lsdb.install_cases c (Lsdb.announce s .coordinate (c.hyp ≠ .off))
        ⟨c.router, inc64 s.seqs.cor, s.expirationPoint c, .coord c.radius c.angles⟩
      have hdb : (Lsdb.announce s .coordinate (c.hyp ≠ .off)).db = [o] := (Lsdb.announce_frame s _ _).db.trans h2
      have hno : ∀ p, Lsdb.find (Lsdb.announce s .coordinate (c.hyp ≠ .off)) c.router .coordinate = some p → False := by
        intro p hp
        obtain ⟨g1, -, g3⟩ := Lsdb.find_some hp
        rw [hdb, List.mem_singleton] at g1
        rw [g1, h4] at g3
        cases g3
      generalize Lsdb.installLsa c _ _ = s' at hc ⊢
      cases hc with
      | rejected p hf _ => exact (hno p hf).elim
      | fresh _ =>
        refine List.mem_append_left _ ?_
        show o ∈ (Lsdb.announce s .coordinate (c.hyp ≠ .off)).db
        rw [hdb]; exact List.mem_cons_self
      | newer p hf _ => exact (hno p hf).elim
  · rintro s op hs ⟨o, h1, h2, h3⟩
    obtain ⟨o', g1, g2, g3⟩ := C31_own_stays hs h1 h2 op (fun _ e => by rw [h3] at e; cases e)
    exact ⟨o', g1, g2, g3.trans h3⟩

/-- Nothing is left to be announced, reported, asked for or answered. -/
structure Quiet (c : ι → RConf) (N : State ι) : Prop where
  /-- link-state routing -/
  mode : ∀ i, (c i).lsdb.hyp ≠ .on
  retry : ∀ i, (c i).lsdb.retry < 2 ^ 32
  /-- no router has a build of its Adjacency LSA pending -/
  built : ∀ i, (N i).r.core.lsdb.buildDue = none
  /-- a router that has announced links still has one -/
  linked : ∀ j k, .publish .adjacency k ∈ (N j).log → ∃ n u x, LinkUp (N j).r n u x
  /-- every router was told of the last announcements of the others, and has nothing more to ask -/
  told : ∀ i j t k, i ≠ j → t = .adjacency ∨ t = .name → Last N j t k → Told c N i j t k ∧ Idle c N i j t k

/-- C92: in a quiet network every router has the others' last Adjacency LSAs and Name LSAs, and no others. -/
theorem C92_exchanged (hs : Sane c) (hone : OneNetwork c) (hN : Reachable c N) (hq : Quiet c N) :
    Exchanged c N ∧ NamesExchanged c N := by
  refine ⟨⟨hq.mode, hq.retry, hq.built, fun i j k => ?_⟩, fun i j k => ?_⟩
  · refine C92_same hs hone hN .adjacency (fun i => Or.inr (Or.inl ⟨rfl, hq.mode i⟩)) (fun i j k hij => hq.told i j _ k hij (Or.inl rfl)) ?_ i j k
    intro j k hk
    obtain ⟨n, u, x, hl⟩ := hq.linked j k hk
    obtain ⟨o, ho, horg, l, hl, -⟩ := (C84_links_partial ((hN.ninv hs).trusted j) (hq.mode j) (hq.retry j)
      (((hN.ninv hs).node j).pos .adjacency) (hq.built j) n u x).2 hl
    exact ⟨o.lsa.seq, o, ho, horg, by unfold Lsa.type; rw [hl]; rfl, rfl⟩
  · refine C92_same hs hone hN .name (fun i => Or.inl rfl) (fun i j k hij => hq.told i j _ k hij (Or.inr rfl)) ?_ i j k
    intro j k hk
    obtain ⟨o, ho, h1, h2⟩ := ((hN.ninv hs).node j).reach.own_name
    exact ⟨o.lsa.seq, o, ho, h1, h2, rfl⟩

/-- Every routing table was computed since its router's LSDB changed last. -/
def Computed (c : ι → RConf) (N : State ι) : Prop :=
  ∀ i, ∃ db, db.Perm (N i).r.core.lsdb.db ∧ Core.lsTable (c i).core (N i).r.core.lsdb.adjs db = some (N i).r.core.rt.table

/-- C92: a quiet network whose routing tables are up to date delivers packets for a prefix to a nearest router that
advertises it.  Missing for the full property: what C89 leaves out. -/
theorem C92_delivered_partial (hs : Sane c) (hone : OneNetwork c) (hN : Reachable c N) (hq : Quiet c N) (hcomp : Computed c N)
    (hw : Wired N) (hu : ∀ i, (N i).r.undef = false) {p : Name} (hp : Plain c N p) (i d : ι) (hd : Serves c N p d) (k : Int)
    (hk : Path (Up c N) i d k) (hlim : k < costLimit) :
    ∃ k', k' ≤ k ∧ Nearest c N p i k' ∧ Fwd.Inevitable (Up c N) (ForwardsTo c N p) (Serves c N p) i k' := by
  obtain ⟨h1, h2⟩ := C92_exchanged hs hone hN hq
  exact C89_delivered_partial hs hN ⟨h1, hcomp⟩ h2 hw hu hp i d hd k hk hlim

end

/-! ### the hypotheses can be met, and the missing parts -/

/-- `Kindly`, computed. -/
def kindlyB {n : Nat} (c : Fin n → RConf) (d : Site) (i j : Fin n) (t : LsaType) (k : Nat) (l : List Site) (op : Op (Fin n)) : Bool :=
  let s := (l.getD i.val d).r.core.lsdb
  let asks := fun x => match s.fetches[x]? with
    | some f => f.lsaName == (c j).lsdb.names.lsaUserPrefix t && f.seq == k
    | none => false
  let key := fun (o : Obj) => o.lsa.origin == (c j).lsdb.router && o.lsa.type == t
  (!s.db.any key || ((stepList c d l op).getD i.val d).r.core.lsdb.db.any key) &&
  match op with
  | .restart i' _ _ _ _ => i' != i
  | .act i' (.core (.lsdb (.fetched x p))) => i' != i || !asks x || match p with
    | some l => l.origin == (c j).lsdb.router && l.type == t && l.seq == k
    | none => false
  | .act i' (.core (.lsdb (.fetchError x _))) => i' != i || !asks x || match s.fetches[x]? with
    | some f => decide (s.now < f.deadline)
    | none => false
  | _ => true

theorem kindlyB_kindly {n : Nat} {c : Fin n → RConf} {d : Site} {i j : Fin n} {t : LsaType} {k : Nat} {l : List Site} (hl : l.length = n)
    {op : Op (Fin n)} (h : kindlyB c d i j t k l op = true) : Kindly c i j t k (ofList l d) op := by
  unfold kindlyB at h
  rw [Bool.and_eq_true] at h
  obtain ⟨h1, h2⟩ := h
  refine ⟨?_, ?_, ?_, ?_⟩
  · rintro adjs npl sys kill rfl
    simp at h2
  · rintro x p dl rfl hf
    change (l.getD i.val d).r.core.lsdb.fetches[x]? = _ at hf
    dsimp only at h2
    rw [hf] at h2
    cases p with
    | none => simp at h2
    | some y =>
      simp only [bne_self_eq_false, beq_self_eq_true, Bool.and_self, Bool.not_true, Bool.or_self, Bool.false_or, Bool.and_eq_true, beq_iff_eq] at h2
      exact ⟨y, rfl, h2.1.1, h2.1.2, h2.2⟩
  · rintro x b dl rfl hf
    change (l.getD i.val d).r.core.lsdb.fetches[x]? = _ at hf
    dsimp only at h2
    rw [hf] at h2
    show (l.getD i.val d).r.core.lsdb.now < dl
    simpa using h2
  · intro o ho h3 h4
    rw [step_ofList c hl]
    have : (l.getD i.val d).r.core.lsdb.db.any (fun o => o.lsa.origin == (c j).lsdb.router && o.lsa.type == t) = true :=
      List.any_eq_true.2 ⟨o, ho, by simp [h3, h4]⟩
    rw [this] at h1
    simp only [Bool.not_true, Bool.false_or] at h1
    obtain ⟨o', g1, g2⟩ := List.any_eq_true.1 h1
    simp only [Bool.and_eq_true, beq_iff_eq] at g2
    exact ⟨o', g1, g2⟩

/-- Nothing goes wrong in this run. -/
def kindlyAll {n : Nat} (c : Fin n → RConf) (d : Site) (i j : Fin n) (t : LsaType) (k : Nat) : List Site → List (Op (Fin n)) → Bool
  | _, [] => true
  | l, op :: ops => kindlyB c d i j t k l op && kindlyAll c d i j t k (stepList c d l op) ops

theorem kindlyAll_goes {n : Nat} {c : Fin n → RConf} {d : Site} {i j : Fin n} {t : LsaType} {k : Nat} {M : State (Fin n)} :
    ∀ {ops : List (Op (Fin n))} {l l' : List Site}, l.length = n → go false c d l ops = some l' → kindlyAll c d i j t k l ops = true →
    Goes c (Kindly c i j t k) M (ofList l d) → Goes c (Kindly c i j t k) M (ofList l' d) := by
  intro ops
  induction ops with
  | nil => intro l l' _ h _ hr; cases h; exact hr
  | cons op ops ih =>
    intro l l' hl h hk hr
    unfold kindlyAll at hk
    rw [Bool.and_eq_true] at hk
    unfold go at h
    split at h
    · rename_i ha
      split at h
      · rename_i hroom
        have hlen := (stepList_length c d l op).trans hl
        refine ih hlen h hk.2 ?_
        have e := step_ofList c (d := d) hl op
        rw [← e]
        exact hr.step op ((allowed_sound ha).1 rfl) (fun i => by rw [e]; exact go_room hlen hroom i) (kindlyB_kindly hl hk.1)
      · cases h
    · cases h

/-- The event is the report. -/
def isReport {n : Nat} (c : Fin n → RConf) (i j : Fin n) (t : LsaType) (k : Nat) : Op (Fin n) → Bool
  | .act i' (.core (.lsdb (.sync u k'))) => i' == i && u == (c j).lsdb.names.lsaUserPrefix t && k' == k
  | _ => false

/-- `Told`, computed. -/
def toldB {n : Nat} (c : Fin n → RConf) (d : Site) (i j : Fin n) (t : LsaType) (k : Nat) : List Site → List (Op (Fin n)) → Bool
  | _, [] => false
  | l, op :: ops => (isReport c i j t k op && !(l.getD i.val d).r.ended && kindlyAll c d i j t k (stepList c d l op) ops) ||
      toldB c d i j t k (stepList c d l op) ops

theorem toldB_told {n : Nat} {c : Fin n → RConf} {d : Site} {i j : Fin n} {t : LsaType} {k : Nat} :
    ∀ {ops : List (Op (Fin n))} {l l' : List Site}, l.length = n → go false c d l ops = some l' → toldB c d i j t k l ops = true →
    Reachable c (ofList l d) → Told c (ofList l' d) i j t k := by
  intro ops
  induction ops with
  | nil => intro l l' _ _ h; cases h
  | cons op ops ih =>
    intro l l' hl h hk hr
    unfold go at h
    split at h
    · rename_i ha
      split at h
      · rename_i hroom
        have hlen := (stepList_length c d l op).trans hl
        have e := step_ofList c (d := d) hl op
        have hroom' : ∀ x, Room (step c (ofList l d) op x).r.core.lsdb.seqs := fun i => by rw [e]; exact go_room hlen hroom i
        unfold toldB at hk
        rw [Bool.or_eq_true] at hk
        rcases hk with hk | hk
        · simp only [Bool.and_eq_true] at hk
          obtain ⟨⟨k1, k2⟩, k3⟩ := hk
          have hop : op = report c i j t k := by
            unfold isReport at k1
            split at k1
            · simp only [Bool.and_eq_true, beq_iff_eq] at k1
              obtain ⟨⟨rfl, rfl⟩, rfl⟩ := k1
              rfl
            · cases k1
          subst hop
          refine ⟨ofList l d, hr, show (l.getD i.val d).r.ended = false by simpa using k2, (allowed_sound ha).1 rfl, hroom', ?_⟩
          rw [e]
          exact kindlyAll_goes hlen h k3 (.refl _)
        · refine ih hlen h hk ?_
          rw [← e]
          exact hr.step op ((allowed_sound ha).1 rfl) hroom'
      · cases h
    · cases h

/-- The last number announced, computed. -/
def lastB (l : List Out) (t : LsaType) : Option Nat :=
  (l.filterMap (fun o => match o with | .publish t' k => if t' = t then some k else none | _ => none)).max?

theorem last_lastB {ι : Type} {N : State ι} {j : ι} {t : LsaType} {k : Nat} (h : Last N j t k) : lastB (N j).log t = some k := by
  unfold lastB
  rw [List.max?_eq_some_iff]
  constructor
  · exact List.mem_filterMap.2 ⟨_, h.1, by simp⟩
  · intro b hb
    obtain ⟨o, ho, he⟩ := List.mem_filterMap.1 hb
    split at he
    · split at he
      · rename_i t' k' e
        subst e
        injection he with he
        subst he
        exact h.2 _ ho
      · cases he
    · cases he

theorem idle_of {ι : Type} {c : ι → RConf} {N : State ι} {i : ι} (h : (N i).r.core.lsdb.fetches = [] ∧ (N i).r.core.lsdb.retries = []) (j : ι)
    (t : LsaType) (k : Nat) : Idle c N i j t k := by
  intro d hd
  unfold Asking at hd
  rw [h.1, h.2] at hd
  rcases hd with hd | ⟨_, hd⟩ <;> cases hd

/-- Every router was told of the last announcements of the others, and has nothing more to ask: computed. -/
theorem told_of {n : Nat} {c : Fin n → RConf} {d : Site} {l l' : List Site} {ops : List (Op (Fin n))} (hl : l.length = n)
    (hr : Reachable c (ofList l d)) (hg : go false c d l ops = some l')
    (h1 : ∀ i : Fin n, (ofList l' d i).r.core.lsdb.fetches = [] ∧ (ofList l' d i).r.core.lsdb.retries = []) (t : LsaType)
    (h2 : ∀ i j : Fin n, i ≠ j → ∃ k, lastB (ofList l' d j).log t = some k ∧ toldB c d i j t k l ops = true)
    (i j : Fin n) (k : Nat) (hij : i ≠ j) (hk : Last (ofList l' d) j t k) :
    Told c (ofList l' d) i j t k ∧ Idle c (ofList l' d) i j t k := by
  obtain ⟨k', g1, g2⟩ := h2 i j hij
  rw [last_lastB hk] at g1
  rw [← Option.some.inj g1] at g2
  exact ⟨toldB_told hl hg g2 hr, idle_of (h1 i) j t k⟩

/-- The hypotheses of C92 can be met: the three routers of C89, which have learnt each other's LSAs. -/
example : Sane exConf3 ∧ OneNetwork exConf3 ∧ Reachable exConf3 (ofList exRisen (exRingSite 0)) ∧
    Quiet exConf3 (ofList exRisen (exRingSite 0)) ∧ Computed exConf3 (ofList exRisen (exRingSite 0)) := by
  refine ⟨exSane, ⟨by decide +kernel, by decide +kernel⟩, go_reachable rfl exRisen_go exRingSites_reachable,
    ⟨by decide +kernel, by decide +kernel, by decide +kernel, ?_, ?_⟩, fun i => ⟨_, List.Perm.refl _, ?_⟩⟩
  · intro j k _
    have : ∀ j : Fin 3, (ofList exRisen (exRingSite 0) j).r.nbr.adjs.any (fun a => a.status == .active) = true := by decide +kernel
    obtain ⟨a, ha, hx⟩ := List.any_eq_true.1 (this j)
    exact ⟨_, _, _, a, ha, by simpa using hx, rfl, rfl, rfl⟩
  · intro i j t k hij ht
    rcases ht with rfl | rfl
    · exact told_of (n := 3) rfl exRingSites_reachable exRisen_go (by decide +kernel) .adjacency
        (fun i j h => ⟨1, by revert i j; decide +kernel, by revert i j; decide +kernel⟩) i j k hij
    · exact told_of (n := 3) rfl exRingSites_reachable exRisen_go (by decide +kernel) .name
        (fun i j h => ⟨1, by revert i j; decide +kernel, by revert i j; decide +kernel⟩) i j k hij
  · revert i; decide +kernel

/-- The routers of C86 in a row; r3's face to r2 goes, r3 builds its Adjacency LSA anew, and all compute their
routes again. -/
def exAlone : List (Op (Fin 3)) :=
  exMeet ++ exAll 1 1 1 [exL2] [exL1, exL3] [exL2] ++ [.act 2 (.nbr (.faceDown 300)), .act 2 exPause, .act 2 (.core (.lsdb .buildTimer))] ++
  exEach [exPause, .core (.calcTimer 0 [])]

def exAloneSites : List Site := (go false exConf3 (exSite 0) exSites exAlone).getD []

theorem exAlone_go : go false exConf3 (exSite 0) exSites exAlone = some exAloneSites := by
  have h : (go false exConf3 (exSite 0) exSites exAlone).isSome = true := by decide +kernel
  obtain ⟨l, hl⟩ := Option.isSome_iff_exists.1 h
  unfold exAloneSites
  rw [hl]; rfl

/-- C92 fails for a router that loses its last link: it removes its Adjacency LSA but announces nothing
(src/lsdb.cpp:373-380; the others are to find out when the LSA expires), so the others, which were told of all that
was announced and have nothing to ask, keep what it said before, and route packets over the link.  Here r3 no longer has r2 as an active neighbour; r2, which still
hears r3, and r1 keep their routes to r3. -/
theorem C92_violated_links_gone : ∃ (c : Fin 3 → RConf) (N : State (Fin 3)), Sane c ∧ OneNetwork c ∧ Reachable c N ∧
    (∀ i, (c i).lsdb.hyp = .off ∧ (N i).r.core.lsdb.buildDue = none) ∧
    (∀ i j k, i ≠ j → Last N j .adjacency k → Told c N i j .adjacency k ∧ Idle c N i j .adjacency k) ∧
    ∃ i j k, Stores c N i j .adjacency k ∧ (∀ k, ¬ Stores c N j j .adjacency k) ∧ (∀ n u x, ¬ LinkUp (N j).r n u x) ∧
      ∃ e ∈ (N i).r.core.rt.table, e.dest = (c j).lsdb.router := by
  refine ⟨exConf3, ofList exAloneSites (exSite 0), exSane, ⟨by decide +kernel, by decide +kernel⟩,
    go_reachable rfl exAlone_go exSites_reachable, by decide +kernel,
    fun i j k hij => told_of (n := 3) rfl exSites_reachable exAlone_go (by decide +kernel) .adjacency
      (fun i j h => ⟨1, by revert i j; decide +kernel, by revert i j; decide +kernel⟩) i j k hij,
    0, 2, 1, by unfold Stores; decide +kernel, ?_, ?_, by decide +kernel⟩
  · rintro k ⟨o, h1, h2, h3, -⟩
    have : ∀ o ∈ (ofList exAloneSites (exSite 0) (2 : Fin 3)).r.core.lsdb.db, o.lsa.origin = (exConf3 2).lsdb.router → o.lsa.type = .adjacency → False := by
      decide +kernel
    exact this o h1 h2 h3
  · rintro n u x ⟨b, h1, h2, -⟩
    have : ∀ b ∈ (ofList exAloneSites (exSite 0) (2 : Fin 3)).r.nbr.adjs, b.status ≠ .active := by decide +kernel
    exact this b h1 h2

end Net
end Nlsr
