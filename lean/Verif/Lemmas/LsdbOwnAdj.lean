import Verif.Lemmas.LsdbOwn
import Verif.Lemmas.Router
import Verif.Props.LsdbBuild
/- The own Adjacency LSA and the neighbours. -/
namespace Nlsr
open Adjacent (ident)

theorem names_of_zip : ∀ (s s' : List Adjacent), s.length = s'.length → (s.zip s').all (fun p => p.1.eqv p.2) = true →
    s.map (·.name) = s'.map (·.name) := by
  intro s
  induction s with
  | nil => intro s' h _; cases s' with
    | nil => rfl
    | cons _ _ => simp at h
  | cons a as ih =>
    intro s' h h1
    cases s' with
    | nil => simp at h
    | cons b bs =>
      simp only [List.zip_cons_cons, List.all_cons, Bool.and_eq_true] at h1
      rw [List.map_cons, List.map_cons, ih bs (by simpa using h) h1.2]
      have : a.name = b.name := by
        have := h1.1
        unfold Adjacent.eqv at this
        simp only [Bool.and_eq_true, beq_iff_eq] at this
        exact this.1.1
      rw [this]

/-- Lists that compare equal name the same neighbours. -/
theorem names_of_eqv {l l' : AdjacencyList} (hn : (l.map (·.name)).Nodup) (hn' : (l'.map (·.name)).Nodup)
    (h : AdjacencyList.eqv l l' = true) : (l.map (·.name)).Perm (l'.map (·.name)) := by
  obtain ⟨p, -⟩ := toSet_spec l hn
  obtain ⟨p', -⟩ := toSet_spec l' hn'
  unfold AdjacencyList.eqv at h
  simp only [Bool.and_eq_true, beq_iff_eq] at h
  have := names_of_zip _ _ h.1.2 h.2
  have e1 := p.map (fun x : Adjacent => x.name)
  have e2 := p'.map (fun x : Adjacent => x.name)
  rw [this] at e1
  exact e1.symm.trans e2

theorem same_of_name {l : AdjacencyList} (hn : (l.map (·.name)).Nodup) {a b : Adjacent} (ha : a ∈ l) (hb : b ∈ l)
    (h : a.name = b.name) : a = b := by
  induction l with
  | nil => cases ha
  | cons x xs ih =>
    rw [List.map_cons, List.nodup_cons] at hn
    rcases List.mem_cons.1 ha with rfl | ha'
    · rcases List.mem_cons.1 hb with rfl | hb
      · rfl
      · exact absurd (h ▸ List.mem_map_of_mem (f := (·.name)) hb) hn.1
    · rcases List.mem_cons.1 hb with rfl | hb
      · exact absurd (h ▸ List.mem_map_of_mem (f := fun x : Adjacent => x.name) ha' : b.name ∈ xs.map (·.name)) hn.1
      · exact ih hn.2 ha' hb

namespace Lsdb

/-- What the own Adjacency LSA lists. -/
def ownLinks (c : LConf) (s : Lsdb) : AdjacencyList :=
  match view s c.router .adjacency with
  | some (.adj l) => l
  | _ => []

/-- The own Adjacency LSA lists the active neighbours. -/
def Matched (c : LConf) (s : Lsdb) : Prop :=
  ∀ i, (∃ a ∈ ownLinks c s, a.ident = i) ↔ ∃ b ∈ s.adjs, b.status = .active ∧ b.ident = i

structure OwnAdj (c : LConf) (s : Lsdb) : Prop where
  num : ∀ p, storedAt s c.router .adjacency = some p → p ≤ s.seqs.adj
  lt : s.seqs.adj < 18446744073709551616
  sub : ∀ a ∈ ownLinks c s, ∃ b ∈ s.adjs, b.ident = a.ident

theorem ownLinks_view {c : LConf} {s s' : Lsdb} (h : view s' c.router .adjacency = view s c.router .adjacency) :
    ownLinks c s' = ownLinks c s := by
  unfold ownLinks; rw [h]

/-- After a build the own Adjacency LSA lists the active neighbours. -/
theorem built_matched {c : LConf} {s : Lsdb} (hi : Inv c s) (hnd : (s.adjs.map (·.name)).Nodup)
    (hsub : ∀ a ∈ ownLinks c s, ∃ b ∈ s.adjs, b.ident = a.ident) (b : Nat)
    (hb : ∀ p, storedAt s c.router .adjacency = some p → p < inc64 b) :
    Matched c (buildAdj c { s with seqs := s.seqs.set .adjacency b }) := by
  have hL := lsaList_eq s.adjs hnd
  have hadj : (buildAdj c { s with seqs := s.seqs.set .adjacency b }).adjs = s.adjs :=
    (buildAdj_keep c { s with seqs := s.seqs.set .adjacency b }).adjs
  let s0 : Lsdb := { s with seqs := s.seqs.set .adjacency b }
  have hi0 : Inv c s0 := hi.frame (frame_quiet rfl rfl rfl rfl rfl)
  let s1 := announce s0 .adjacency (decide (c.hyp ≠ .on))
  let l : Lsa := ⟨c.router, inc64 b, s.expirationPoint c, .adj (AdjacencyList.lsaList s.adjs)⟩
  have eb : buildAdj c s0 = installLsa c s1 l := rfl
  have hfr := announce_frame s0 .adjacency (decide (c.hyp ≠ .on))
  have hi1 : Inv c s1 := hi0.frame hfr
  have hdb : s1.db = s.db := hfr.db
  have hnl : l.content.norm = l.content := norm_adj.2 (lsaList_names _)
  -- the list
  have key : ∃ m, view (buildAdj c s0) c.router .adjacency = some (.adj m) ∧
      ((m = AdjacencyList.lsaList s.adjs) ∨ (m = ownLinks c s ∧ (m.map (·.name)).Perm ((AdjacencyList.lsaList s.adjs).map (·.name)))) := by
    cases hf : s.find c.router .adjacency with
    | none =>
      refine ⟨_, ?_, Or.inl rfl⟩
      have hf1 : s1.find l.origin l.type = none := by
        show s1.find c.router .adjacency = none
        unfold find at hf ⊢
        rw [hdb]; exact hf
      have hi2 := install_inv hi1 l hnl
      have hm : (⟨s1.nextId, l, s1.nextId + 1⟩ : Obj) ∈ (installLsa c s1 l).db := by
        unfold installLsa
        rw [hf1]
        show _ ∈ s1.db ++ [_]
        simp
      have := (find_iff hi2 (r := c.router) (t := .adjacency)).2 ⟨hm, rfl, rfl⟩
      rw [eb]
      unfold view
      rw [this]
      rfl
    | some o =>
      obtain ⟨h1, h2, h3⟩ := find_some hf
      obtain ⟨q, hbc⟩ : ∃ q, o.lsa.content = .adj q := by
        have : o.lsa.content.type = .adjacency := h3
        cases hcc : o.lsa.content with
        | adj b => exact ⟨b, rfl⟩
        | names _ => rw [hcc] at this; cases this
        | coord _ _ => rw [hcc] at this; cases this
      have hq : ownLinks c s = q := by
        unfold ownLinks view
        rw [hf]
        simp [hbc]
      have hnb : (q.map (·.name)).Nodup := norm_adj.1 (hbc ▸ hi.norm o h1)
      have hlt : o.lsa.seq < l.seq := hb _ (by unfold storedAt; rw [hf]; rfl)
      obtain ⟨o', k1, -, -, k4⟩ := installed_content (l := l) hi1 (show o ∈ s1.db from hdb ▸ h1) h2 (h3.trans rfl) hlt hnl
      have hcont : (o.lsa.content.update l.content).content = .adj (if AdjacencyList.eqv q (AdjacencyList.lsaList s.adjs) then q
          else AdjacencyList.lsaList s.adjs) := by
        rw [hbc]
        show (updateAdj q (AdjacencyList.lsaList s.adjs)).content = _
        unfold updateAdj
        split
        · rfl
        · rw [adj_ofList_nodup _ (lsaList_names _)]
      refine ⟨if AdjacencyList.eqv q (AdjacencyList.lsaList s.adjs) then q else AdjacencyList.lsaList s.adjs, ?_, ?_⟩
      · rw [eb]
        unfold view
        have k1 : (installLsa c s1 l).find c.router .adjacency = some o' := k1
        rw [k1]
        show some o'.lsa.content = _
        rw [k4, hcont]
      · split
        · rename_i heq
          exact Or.inr ⟨hq.symm, names_of_eqv hnb (lsaList_names _) heq⟩
        · exact Or.inl rfl
  obtain ⟨m, hv, hm⟩ := key
  have hown : ownLinks c (buildAdj c s0) = m := by
    unfold ownLinks; rw [hv]
  intro i
  show (∃ a ∈ ownLinks c (buildAdj c s0), _) ↔ _
  rw [hown, hadj]
  rcases hm with rfl | ⟨rfl, hp⟩
  · rw [hL]
    constructor
    · rintro ⟨a, ha, e⟩
      obtain ⟨h1, h2⟩ := List.mem_filter.1 ha
      exact ⟨a, h1, by simpa using h2, e⟩
    · rintro ⟨a, h1, h2, e⟩
      exact ⟨a, List.mem_filter.2 ⟨h1, by simpa using h2⟩, e⟩
  · rw [hL] at hp
    have nm : ∀ {a b : Adjacent}, a.ident = b.ident → a.name = b.name := fun h => congrArg Prod.fst h
    constructor
    · rintro ⟨a, ha, e⟩
      obtain ⟨x, hx, hxa⟩ := hsub a ha
      have : a.name ∈ (s.adjs.filter (fun a => decide (a.status = .active))).map (·.name) :=
        hp.mem_iff.1 (List.mem_map_of_mem ha)
      obtain ⟨y, hy, hya⟩ := List.mem_map.1 this
      obtain ⟨h1, h2⟩ := List.mem_filter.1 hy
      have hxy : x = y := same_of_name hnd hx h1 ((nm hxa).trans hya.symm)
      subst hxy
      exact ⟨x, hx, by simpa using h2, hxa.trans e⟩
    · rintro ⟨y, h1, h2, e⟩
      have : y.name ∈ (ownLinks c s).map (·.name) :=
        hp.mem_iff.2 (List.mem_map_of_mem (f := fun x : Adjacent => x.name) (List.mem_filter.2 ⟨h1, by simpa using h2⟩))
      obtain ⟨a, ha, hay⟩ := List.mem_map.1 this
      obtain ⟨x, hx, hxa⟩ := hsub a ha
      have hxy : x = y := same_of_name hnd hx h1 ((nm hxa).trans hay)
      subst hxy
      exact ⟨a, ha, hxa.symm.trans e⟩

/-- Building an LSA of another type does not touch the own Adjacency LSA. -/
theorem viewAdj_build_ne {c : LConf} {s : Lsdb} (h : Inv c s) (t : LsaType) (b : Bool) (l : Lsa)
    (hn : l.content.norm = l.content) (ht : l.type ≠ .adjacency) (r : Name) :
    view (installLsa c (announce s t b) l) r .adjacency = view s r .adjacency := by
  unfold view
  rw [find_install_ne (h.frame (announce_frame s t b)) l hn (fun hk => ht hk.2.symm)]
  unfold find
  rw [(announce_frame _ _ _).db]

/-- What happens to the own Adjacency LSA in a step. -/
inductive AdjStep (c : LConf) (s : Lsdb) (op : Op) (s' : Lsdb) : Prop
  | same (hv : view s' c.router .adjacency = view s c.router .adjacency) (hd : s'.buildDue = none → s.buildDue = none)
  | built (b : Nat) (s0 : Lsdb) (h0 : s0.db = s.db) (ha : s0.adjs = s.adjs) (hi : Inv c s0)
      (hb : b = s.seqs.adj ∨ (b < 18446744073709551616 ∧ ∀ p, storedAt s c.router .adjacency = some p → p < b))
      (hv : view s' c.router .adjacency = view (buildAdj c { s0 with seqs := s0.seqs.set .adjacency b }) c.router .adjacency)
      (hlog : Out.publish .adjacency (inc64 b) ∈ s'.log)
  | removed (hv : view s' c.router .adjacency = none) (hn : ∀ a ∈ s.adjs, a.status ≠ .active)
  | fetched (i : Nat) (l : Lsa) (h : op = .fetched i (some l)) (ho : l.origin = c.router) (ht : l.type = .adjacency)

theorem adjStep {c : LConf} (hh : c.hyp ≠ .on) {s : Lsdb} (h : Reachable c s) (op : Op) : AdjStep c s op (step c s op) := by
  have hi := h.inv
  have keep : Op.special op = false → view (step c s op) c.router .adjacency = view s c.router .adjacency →
      AdjStep c s op (step c s op) := fun hs hv => .same hv (fun hd => by rw [← (step_keep c s op hs).buildDue]; exact hd)
  have frame : ∀ s', s'.db = s.db → view s' c.router .adjacency = view s c.router .adjacency := fun s' e => by rw [view_frame e]
  cases op with
  | clock dt sys => exact keep rfl (frame _ rfl)
  | setAdjs l => exact .same (frame _ rfl) id
  | setNpl l => exact .same (frame _ rfl) id
  | segment n => exact keep rfl (frame _ rfl)
  | segmentGone n => exact keep rfl (frame _ rfl)
  | fifoGone n => exact .same (frame _ rfl) id
  | buildName =>
    refine keep rfl ?_
    show view (buildName c s) _ _ = _
    exact viewAdj_build_ne hi .name true _ (norm_names.2 (PrefixMap.ofList_sorted _)) (by simp [Lsa.type, Content.type]) c.router
  | scheduleBuild =>
    refine .same (frame _ ?_) ?_
    · show (scheduleBuild c s).db = s.db
      unfold scheduleBuild
      dsimp only
      split <;> rfl
    · show (scheduleBuild c s).buildDue = none → _
      unfold scheduleBuild
      dsimp only
      rw [if_neg hh]
      intro hd; cases hd
  | buildTimer =>
    show AdjStep c s .buildTimer (buildTimer c s)
    unfold buildTimer
    split
    · exact .same rfl id
    · rename_i d hd
      split
      · exact .same rfl id
      · unfold buildAdjLsa
        dsimp only
        split
        · unfold buildOrRemove
          dsimp only
          rw [if_pos (h.sched.count (by rw [hd]; rfl))]
          have hi0 : Inv c { s with buildFlag := false, buildDue := none } := hi.frame (frame_quiet rfl rfl rfl rfl rfl)
          split
          · refine .built s.seqs.adj { s with buildFlag := false, buildDue := none } rfl rfl hi0 (Or.inl rfl) ?_ ?_
            · have := seqs_set_self { s with buildFlag := false, buildDue := none } .adjacency
              dsimp only [Seqs.get] at this
              rw [this]
              exact congrFun (congrFun (view_frame rfl) _) _
            · have ha := buildAdj_announced hi0 hh s.seqs.adj
              have := seqs_set_self { s with buildFlag := false, buildDue := none } .adjacency
              dsimp only [Seqs.get] at this
              rw [this] at ha
              obtain ⟨outs, hl, -⟩ := ha.log
              show _ ∈ (buildAdj c { s with buildFlag := false, buildDue := none }).log
              rw [hl]
              simp
          · rename_i hna
            refine .removed ?_ ?_
            · show Option.map _ (Lsdb.find (removeLsa { s with buildFlag := false, buildDue := none } c.router .adjacency) _ _) = none
              rw [find_none_iff.2]
              · rfl
              · intro o ho; exact ((mem_removeLsa o).1 ho).2
            · intro a ha hact
              refine hna ?_
              unfold AdjacencyList.numActive
              exact List.length_pos_of_mem (List.mem_filter.2 ⟨ha, by simpa using hact⟩)
        · exact .same (frame _ rfl) (fun hd => by cases hd)
  | timer eid =>
    refine keep rfl ?_
    show view (fire c s eid) _ _ = _
    have hi' := fire_inv hi eid
    have hc := fire_cases hi eid
    generalize fire c s eid = s' at hc hi'
    cases hc with
    | idle => rfl
    | own ev o hev he hdue ho hoid hevt hr =>
      subst he
      obtain ⟨h1, -⟩ := drop_inv hi (List.mem_append_left _ ho) hev hoid
      rw [view_refresh (s := drop s ev.eid) h1 ho hi']
      rfl
    | other ev o hev he hdue ho hoid hevt hr =>
      show Option.map _ (Lsdb.find _ _ _) = Option.map _ (Lsdb.find _ _ _)
      congr 1
      exact find_remove_ne (s := drop s eid) (fun hk => hr hk.1.symm)
    | stale ev o hev he hdue ho hoid hr ht => rfl
    | hit ev o p hev he hdue ho hoid hr ht hp hpr hpt hseq =>
      subst he
      obtain ⟨h1, -⟩ := drop_inv hi (List.mem_append_right _ ho) hev hoid
      rw [view_refresh (s := drop s ev.eid) h1 hp hi']
      rfl
  | sync n k =>
    by_cases hown : ∃ b, step c s (.sync n k) = buildAdj c { s with seqs := s.seqs.set .adjacency b } ∧
        b < 18446744073709551616 ∧ ∀ p, storedAt s c.router .adjacency = some p → p < b
    · obtain ⟨b, e, hb⟩ := hown
      refine .built b s rfl rfl hi (Or.inr hb) (by rw [e]) ?_
      obtain ⟨outs, hl, -⟩ := (buildAdj_announced hi hh b).log
      rw [e, hl]
      simp
    · refine keep rfl ?_
      have hne : ∀ b, b < 18446744073709551616 → (∀ p, storedAt s c.router .adjacency = some p → p < b) →
          sync c s n (k % 18446744073709551616) ≠ buildAdj c { s with seqs := s.seqs.set .adjacency b } :=
        fun b h1 h2 e => hown ⟨b, e, h1, h2⟩
      show view (sync c s n (k % 18446744073709551616)) _ _ = _
      revert hne
      unfold sync
      split
      · unfold processUpdate
        split
        · rename_i hor
          split
          · rename_i hnew
            have hnew := isLsaNew_iff.1 hnew
            unfold ownUpdate
            split
            · intro _
              have hi0 : Inv c { s with seqs := s.seqs.set .name (k % 18446744073709551616) } :=
                hi.frame (frame_quiet rfl rfl rfl rfl rfl)
              exact viewAdj_build_ne hi0 .name true _ (norm_names.2 (PrefixMap.ofList_sorted _))
                (by simp [Lsa.type, Content.type]) c.router
            · rename_i ht
              split
              · intro hne
                rw [ht, hor] at hnew
                exact absurd rfl (hne _ (Nat.mod_lt _ (by decide)) hnew)
              · intro _; rfl
            · split
              · rename_i e; exact absurd e hh
              · intro _; rfl
            · intro _; rfl
          · intro _; rfl
        · split
          · split
            · intro _; rfl
            · intro _; exact frame _ (expressInterest_still (s.emit _) _ _ _).db
          · intro _; rfl
      · intro _; rfl
  | fetched i p =>
    by_cases hk : ∃ l, p = some l ∧ l.origin = c.router ∧ l.type = .adjacency
    · obtain ⟨l, rfl, h1, h2⟩ := hk
      exact .fetched i l rfl h1 h2
    refine keep rfl ?_
    show view (fetched c s i p) _ _ = _
    unfold fetched
    split
    · rfl
    · rename_i f hf
      unfold fetchDone
      dsimp only
      generalize hs0 : ({ s with
        fetches := s.fetches.eraseIdx i
        storage := s.storage.filter (fun n => !Name.isPrefixOf (f.lsaName ++ [Comp.number ((f.seq + 18446744073709551615) % 18446744073709551616)]) n) } : Lsdb) = s0
      have h0 : s0.db = s.db := by rw [← hs0]
      have hi0 : Inv c s0 := by rw [← hs0]; exact hi.frame (frame_quiet rfl rfl rfl rfl rfl)
      unfold afterFetch
      split
      · exact frame _ h0
      · rename_i s1 h1
        have h2 := (noteSeq_frame h1).db.trans h0
        have hi1 : Inv c s1 := hi0.frame (noteSeq_frame h1)
        dsimp only
        split
        · exact frame _ h2
        · split
          · exact frame _ h2
          · unfold installFetched
            cases p with
            | none => exact frame _ h2
            | some l =>
              dsimp only [Option.map]
              split
              · show Option.map _ (Lsdb.find _ _ _) = Option.map _ (Lsdb.find _ _ _)
                congr 1
                rw [find_install_ne hi1 _ (norm_norm _)]
                · unfold find; rw [h2]
                · rintro ⟨e1, e2⟩
                  refine hk ⟨l, rfl, e1.symm, ?_⟩
                  have : l.content.norm.type = l.content.type := by cases l.content <;> rfl
                  exact (e2.trans this).symm
              · exact frame _ h2
  | fetchError i t => exact keep rfl (frame _ (fetchError_frame c s i t).db)
  | retryTimer i => exact keep rfl (frame _ (retryTimer_frame s i).db)
  | interest n v =>
    refine .same (frame _ ?_) ?_
    · show (if n.length ≤ maxComponents then processInterest c s n v else s).db = s.db
      split
      · exact (processInterest_frame c s n v).db
      · rfl
    · obtain ⟨f, l, e⟩ := step_interest c s n v
      rw [e]; exact id

theorem inc64_pos {b : Nat} (h : inc64 b ≠ 0) : inc64 b = b % 18446744073709551616 + 1 := by
  unfold inc64 at h ⊢
  omega

/-- The neighbours are not changed by this operation, and no own Adjacency LSA arrives. -/
def PlainAdj (c : LConf) : Op → Prop
  | .setAdjs _ => False
  | .fetched _ (some l) => l.origin = c.router → l.type ≠ .adjacency
  | _ => True

theorem PlainAdj.fetched {c : LConf} {op : Op} (h : PlainAdj c op) (i : Nat) (l : Lsa) (e : op = .fetched i (some l))
    (ho : l.origin = c.router) : l.type ≠ .adjacency := by
  subst e; exact h ho

theorem step_adjs {c : LConf} {s : Lsdb} (op : Op) (h : ∀ l, op ≠ .setAdjs l) :
    (step c s op).adjs = s.adjs := by
  by_cases hs : Op.special op = false
  · exact (step_keep c s op hs).adjs
  · cases op with
    | setAdjs l => exact absurd rfl (h l)
    | setNpl l => rfl
    | scheduleBuild =>
      show (scheduleBuild c s).adjs = _
      unfold scheduleBuild
      dsimp only
      split <;> rfl
    | buildTimer =>
      show (buildTimer c s).adjs = _
      unfold buildTimer
      split
      · rfl
      · split
        · rfl
        · exact (buildAdjLsa_spec c s).1
    | interest n v =>
      obtain ⟨f, l, e⟩ := step_interest c s n v
      rw [e]
    | fifoGone n => rfl
    | _ => exact absurd rfl hs

theorem ownAdj_step {c : LConf} (hh : c.hyp ≠ .on) {s : Lsdb} (h : Reachable c s) (hnd : (s.adjs.map (·.name)).Nodup)
    (ho : OwnAdj c s) (op : Op) (hp : PlainAdj c op) (hw : Out.publish .adjacency 0 ∉ (step c s op).log) :
    OwnAdj c (step c s op) ∧
    ((s.buildDue = none → Matched c s) → (step c s op).buildDue = none → Matched c (step c s op)) := by
  have hadj : (step c s op).adjs = s.adjs := step_adjs op (fun l e => by subst e; exact hp)
  -- the numbers
  have hnum : (∀ p, storedAt (step c s op) c.router .adjacency = some p → p ≤ (step c s op).seqs.adj) ∧
      (step c s op).seqs.adj < 18446744073709551616 := by
    cases step_seq h op with
    | quiet q =>
      rw [q.seqs]
      refine ⟨?_, ho.lt⟩
      rcases q.own .adjacency with e | ⟨-, -, e⟩ | ⟨i, l, e, h1, h2, -⟩
      · rw [e]; exact ho.num
      · rw [e]; intro p hp; cases hp
      · exact absurd h2 (hp.fetched i l e h1)
    | announced t b src a =>
      by_cases ht : t = .adjacency
      · subst ht
        have hseq : (step c s op).seqs.adj = inc64 b := by rw [a.seqs]; rfl
        rw [hseq]
        refine ⟨?_, Nat.mod_lt _ (by decide)⟩
        rcases a.own with e | ⟨m, h1, h2, h3⟩
        · intro p hp; rw [e] at hp; injection hp with hp; omega
        · exfalso
          have hz : inc64 b ≠ 0 := by
            intro hz
            obtain ⟨outs, hl, -⟩ := a.log
            refine hw ?_
            rw [hl, hz]
            simp
          have hb := inc64_pos hz
          have hm := ho.num m h1
          have hlt := ho.lt
          have hlt2 : b < 18446744073709551616 ∧ m ≤ b := by
            cases src with
            | build hb' _ =>
              have : b = s.seqs.adj := hb'
              omega
            | adopt u k last hop hb' hu hl ht hnew hmode =>
              have := hnew m h1
              omega
            | refresh eid hop hb' =>
              rw [h1] at hb'
              injection hb' with hb'
              omega
          rw [Nat.mod_eq_of_lt hlt2.1] at hb
          omega
      · have hseq : (step c s op).seqs.adj = s.seqs.adj := by
          rw [a.seqs]
          exact Seqs.get_set_ne (t := t) (t' := .adjacency) s.seqs (inc64 b) (fun e => ht e.symm)
        rw [a.rest .adjacency (fun e => ht e.symm), hseq]
        exact ⟨ho.num, ho.lt⟩
  cases adjStep hh h op with
  | same hv hd =>
    have e := ownLinks_view hv
    refine ⟨⟨hnum.1, hnum.2, by rw [e, hadj]; exact ho.sub⟩, fun hm hd' => ?_⟩
    have := hm (hd hd')
    unfold Matched at this ⊢
    rw [e, hadj]
    exact this
  | built b s0 h0 ha hi0 hb hv hlog =>
    have hz : inc64 b ≠ 0 := fun hz => hw (hz ▸ hlog)
    have hb1 := inc64_pos hz
    have hst : ∀ p, storedAt s0 c.router .adjacency = some p → storedAt s c.router .adjacency = some p := by
      intro p hp
      unfold storedAt find at hp ⊢
      rw [h0] at hp; exact hp
    have hlt : ∀ p, storedAt s0 c.router .adjacency = some p → p < inc64 b := by
      intro p hp
      have hp := hst p hp
      have h1 := ho.num p hp
      have h2 := ho.lt
      rcases hb with rfl | ⟨hb2, hb3⟩
      · rw [Nat.mod_eq_of_lt h2] at hb1; omega
      · have := hb3 p hp
        rw [Nat.mod_eq_of_lt hb2] at hb1; omega
    have e0 : ownLinks c s0 = ownLinks c s := ownLinks_view (by rw [view_frame h0])
    have hm := built_matched hi0 (by rw [ha]; exact hnd) (by rw [e0, ha]; exact ho.sub) b hlt
    have e := ownLinks_view hv
    have hm' : Matched c (step c s op) := by
      unfold Matched at hm ⊢
      rw [e, hadj]
      rw [(buildAdj_keep c { s0 with seqs := s0.seqs.set .adjacency b }).adjs] at hm
      rw [← ha]; exact hm
    refine ⟨⟨hnum.1, hnum.2, ?_⟩, fun _ _ => hm'⟩
    intro a ha
    obtain ⟨x, hx, -, hxa⟩ := (hm' a.ident).1 ⟨a, ha, rfl⟩
    exact ⟨x, hx, hxa⟩
  | removed hv hn =>
    have e : ownLinks c (step c s op) = [] := by unfold ownLinks; rw [hv]
    refine ⟨⟨hnum.1, hnum.2, by rw [e]; intro a ha; cases ha⟩, fun _ _ i => ?_⟩
    rw [e, hadj]
    constructor
    · rintro ⟨a, ha, -⟩; cases ha
    · rintro ⟨a, ha, hact, -⟩; exact absurd hact (hn a ha)
  | fetched i l e h1 h2 => exact absurd h2 (hp.fetched i l e h1)

end Lsdb
end Nlsr
