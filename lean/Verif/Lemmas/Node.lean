import Verif.Lemmas.LsdbChange
import Verif.Lemmas.LsdbOwnAdj
import Verif.Model.Net
import Verif.Props.LsdbInterest
import Verif.Props.LsdbContent
/- One LSDB and its earlier lives: every LSA ever put out under a number has the same content. -/
namespace Nlsr
namespace Lsdb

/-- An own LSA is stored. -/
def HasOwn (c : LConf) (s : Lsdb) (l : Lsa) : Prop := ∃ o ∈ s.db, o.lsa.origin = c.router ∧ o.lsa = l

theorem mem_fifoInsert {l new : List Seg} {d : Seg} (h : d ∈ fifoInsert l new) : d ∈ l ∨ d ∈ new :=
  List.mem_append.1 (List.mem_of_mem_drop h)

/-- Segments and replies carry LSAs of the segment store or own stored LSAs. -/
theorem fifo_step {c : LConf} (hnet : Comp.str "LSA" ∉ c.names.network) (s : Lsdb) (op : Op) :
    (∀ d ∈ (step c s op).fifo, d ∈ s.fifo ∨ HasOwn c s d.lsa) ∧
    ∃ outs, (step c s op).log = s.log ++ outs ∧ ∀ d, .data d ∈ outs → d ∈ s.fifo ∨ HasOwn c s d.lsa := by
  have quiet : ∀ s' : Lsdb, s'.fifo = s.fifo → Logs (fun o => Out.isReply o = false) s s' →
      (∀ d ∈ s'.fifo, d ∈ s.fifo ∨ HasOwn c s d.lsa) ∧
      ∃ outs, s'.log = s.log ++ outs ∧ ∀ d, .data d ∈ outs → d ∈ s.fifo ∨ HasOwn c s d.lsa := by
    intro s' hf hl
    obtain ⟨outs, h1, h2⟩ := hl
    refine ⟨fun d hd => Or.inl (hf ▸ hd), outs, h1, fun d hd => ?_⟩
    have := h2 _ hd
    cases this
  have still : ∀ s' : Lsdb, s'.fifo = s.fifo → s'.log = s.log →
      (∀ d ∈ s'.fifo, d ∈ s.fifo ∨ HasOwn c s d.lsa) ∧
      ∃ outs, s'.log = s.log ++ outs ∧ ∀ d, .data d ∈ outs → d ∈ s.fifo ∨ HasOwn c s d.lsa :=
    fun s' hf hl => quiet s' hf ⟨[], by simp [hl], by simp⟩
  by_cases hs : Op.special op = false
  · have hk := step_keep c s op hs
    exact quiet _ hk.fifo hk.log
  · cases op with
    | setAdjs l => exact still _ rfl rfl
    | setNpl l => exact still _ rfl rfl
    | scheduleBuild =>
      have : (scheduleBuild c s).fifo = s.fifo ∧ (scheduleBuild c s).log = s.log := by
        unfold scheduleBuild
        dsimp only
        split <;> exact ⟨rfl, rfl⟩
      exact still _ this.1 this.2
    | buildTimer =>
      show (∀ d ∈ (buildTimer c s).fifo, _) ∧ ∃ outs, (buildTimer c s).log = _ ∧ _
      unfold buildTimer
      split
      · exact still _ rfl rfl
      · split
        · exact still _ rfl rfl
        · have := buildAdjLsa_spec c s
          exact quiet _ this.2.2.1 this.2.2.2.1
    | fifoGone n =>
      exact ⟨fun d hd => Or.inl (List.mem_filter.1 hd).1, [], by simp [step], by simp⟩
    | interest n v =>
      rcases step_interest_cases c s n v with ⟨h1, h2⟩ | ⟨d, hd, -, -, h1, h2⟩ | ⟨iname, hl, hp, hpre, -, he⟩
      · exact still _ h1 h2
      · refine ⟨fun x hx => Or.inl (h1 ▸ hx), _, h2, ?_⟩
        intro x hx
        rw [List.mem_singleton] at hx
        cases hx
        exact Or.inl hd
      · rw [he]
        have hlen : iname.length < 2 ^ 62 :=
          Nat.lt_of_le_of_lt (Nat.le_trans hpre.length_le hl) (by decide)
        rcases processStripped_cases c s n iname v hnet hlen hp hpre with ⟨h1, h2⟩ | ⟨o, ho, hr, -, h1, h2⟩
        · rcases h2 with h2 | ⟨last, -, -, -, h2⟩ | ⟨m, -, -, h2⟩
          · exact still _ h1 h2
          · exact ⟨fun x hx => Or.inl (h1 ▸ hx), _, h2, by simp⟩
          · exact ⟨fun x hx => Or.inl (h1 ▸ hx), _, h2, by simp⟩
        · refine ⟨fun d hd => ?_, ?_⟩
          · rw [h1] at hd
            rcases mem_fifoInsert hd with h3 | h3
            · exact Or.inl h3
            · obtain ⟨i, -, rfl⟩ := List.mem_map.1 h3
              exact Or.inr ⟨o, ho, hr, rfl⟩
          · rcases h2 with h2 | ⟨i, -, h2⟩
            · exact ⟨[], by simp [h2], by simp⟩
            · refine ⟨_, h2, fun d hd => ?_⟩
              rw [List.mem_singleton] at hd
              cases hd
              exact Or.inr ⟨o, ho, hr, rfl⟩
    | _ => exact absurd rfl hs

/-- An LSA the router has put out, may put out again, or stores as its own. -/
inductive Made (c : LConf) (s : Lsdb) (past : List Out) (l : Lsa) : Prop
  | sent (d : Seg) (h : .data d ∈ past ++ s.log) (e : d.lsa = l)
  | kept (d : Seg) (h : d ∈ s.fifo) (e : d.lsa = l)
  | own (h : HasOwn c s l)

/-- What own LSAs of each type say. -/
def Says (c : LConf) : Content → Prop
  | .adj l => Net.Whole l ∧ c.hyp ≠ .on
  | .coord r as => r = c.radius ∧ as = c.angles ∧ c.hyp ≠ .off
  | .names _ => True

/-- The contents own LSAs have. -/
def PlainContent (c : LConf) (x : Content) : Prop := x.norm = x ∧ Says c x

/-- The types of LSA a router has in its mode. -/
def Kind (c : LConf) (t : LsaType) : Prop := (t = .adjacency → c.hyp ≠ .on) ∧ (t = .coordinate → c.hyp ≠ .off) ∧ t ≠ .base

theorem PlainContent.kind {c : LConf} {x : Content} (h : PlainContent c x) : Kind c x.type := by
  cases x with
  | adj l => exact ⟨fun _ => h.2.2, nofun, nofun⟩
  | coord r as => exact ⟨nofun, fun _ => h.2.2.2, nofun⟩
  | names m => exact ⟨nofun, nofun, nofun⟩

/-- The counter of every type is far from its end. -/
def Roomy (q : Seqs) : Prop := ∀ t, q.get t < 2 ^ 63

/-- What always holds of an LSDB and its earlier lives. -/
structure NodeInv (c : LConf) (s : Lsdb) (past : List Out) : Prop where
  reach : Reachable c s
  disk : lastPersist (past ++ s.log) = some s.seqs
  num : ∀ t m, storedAt s c.router t = some m → m = s.seqs.get t
  made : ∀ l, Made c s past l → l.origin = c.router ∧ l.seq ≤ s.seqs.get l.type ∧ PlainContent c l.content
  uniq : ∀ l l', Made c s past l → Made c s past l' → l.type = l'.type → l.seq = l'.seq → l = l'
  pub : ∀ t k, .publish t k ∈ past ++ s.log → k ≤ s.seqs.get t ∧ Kind c t
  told : ∀ l, Made c s past l → .publish l.type l.seq ∈ past ++ s.log
  pos : ∀ t, .publish t 0 ∉ s.log
  room : Roomy s.seqs
  whole : Net.Whole s.adjs

/-- A report of an own number is of the last one announced (`out` is all that was done so far), no LSA comes in the
router's own name, and whole costs. -/
def Plain (c : LConf) (out : List Out) : Op → Prop
  | .sync u k => syncOrigin u = some c.router → ∀ last, u.fromEnd 1 = some last →
      k < 2 ^ 63 ∧ ∀ k', .publish (LsaType.ofComp last) k' ∈ out → k' ≤ k
  | .fetched _ (some l) => l.origin ≠ c.router
  | .setAdjs l => Net.Whole l
  | _ => True

theorem storedAt_mem {c : LConf} {s : Lsdb} (h : Inv c s) {o : Obj} (ho : o ∈ s.db) :
    storedAt s o.lsa.origin o.lsa.type = some o.lsa.seq := by
  unfold storedAt
  rw [find_of_mem h ho]
  rfl

theorem lastPersist_append (a b : List Out) :
    lastPersist (a ++ b) = (lastPersist b).or (lastPersist a) := by
  unfold lastPersist
  rw [List.filterMap_append, List.getLast?_append]

theorem lastPersist_quiet {l : List Out} (h : ∀ o ∈ l, Out.isSeq o = false) : lastPersist l = none := by
  unfold lastPersist
  have : l.filterMap persisted = [] := by
    rw [List.filterMap_eq_nil_iff]
    intro o ho
    have := h o ho
    cases o <;> first | rfl | cases this
  rw [this]
  rfl

theorem inc64_small {n : Nat} (h : n < 2 ^ 63 + 10) : inc64 n = n + 1 := by
  unfold inc64; omega

/-- What a plain step does to the numbers. -/
inductive Numbers (c : LConf) (past : List Out) (s s' : Lsdb) : Prop
  | same (h1 : s'.seqs = s.seqs) (h2 : ∃ outs, s'.log = s.log ++ outs ∧ ∀ o ∈ outs, Out.isSeq o = false)
  | next (t : LsaType) (b : Nat) (h0 : Kind c t) (hb : ∀ k, .publish t k ∈ past ++ s.log → k ≤ b)
      (h1 : s'.seqs = s.seqs.set t (b + 1))
      (h2 : ∃ outs, s'.log = s.log ++ .persist s'.seqs :: .publish t (b + 1) :: outs ∧ ∀ o ∈ outs, Out.isSeq o = false)

/-- The number of a stored own LSA was announced. -/
theorem NodeInv.stored_told {c : LConf} {s : Lsdb} {past : List Out} (h : NodeInv c s past) {t : LsaType} {m : Nat}
    (hm : storedAt s c.router t = some m) : .publish t m ∈ past ++ s.log := by
  unfold storedAt at hm
  obtain ⟨o, ho, rfl⟩ := Option.map_eq_some_iff.1 hm
  obtain ⟨m, h1, h2⟩ := find_some ho
  exact h2 ▸ h.told o.lsa (.own ⟨o, m, h1, rfl⟩)

theorem numbers_step {c : LConf} {s : Lsdb} {past : List Out} (h : NodeInv c s past) (op : Op) (hp : Plain c (past ++ s.log) op) :
    Numbers c past s (step c s op) ∧
    (∀ t m, storedAt (step c s op) c.router t = some m → m = (step c s op).seqs.get t) ∧
    (∀ t m, storedAt (step c s op) c.router t = some m → .publish t m ∈ past ++ (step c s op).log) := by
  have hs := step_seq h.reach op
  generalize step c s op = s' at hs
  cases hs with
  | quiet hq =>
    have key : ∀ t m, storedAt s' c.router t = some m → storedAt s c.router t = some m := by
      intro t m hm
      rcases hq.own t with h1 | ⟨-, -, h1⟩ | ⟨i, l, h1, h2, -⟩
      · exact h1 ▸ hm
      · rw [h1] at hm; cases hm
      · subst h1; exact absurd h2 hp
    refine ⟨.same hq.seqs hq.log, ?_, ?_⟩
    · intro t m hm
      rw [hq.seqs]; exact h.num t m (key t m hm)
    · intro t m hm
      obtain ⟨outs, e, -⟩ := hq.log
      rw [e, ← List.append_assoc]
      exact List.mem_append_left _ (h.stored_told (key t m hm))
  | announced t b src ha =>
    have hb : b < 2 ^ 63 ∧ ∀ k, .publish t k ∈ past ++ s.log → k ≤ b := by
      have cnt : b = s.seqs.get t → b < 2 ^ 63 ∧ ∀ k, .publish t k ∈ past ++ s.log → k ≤ b := by
        rintro rfl
        exact ⟨h.room t, fun k hk => (h.pub t k hk).1⟩
      cases src with
      | build h1 _ => exact cnt h1
      | adopt u k last hop hb hu hl ht hnew hmode =>
        subst hop
        obtain ⟨g1, g2⟩ := hp hu last hl
        have : b = k := by rw [hb]; omega
        subst this
        exact ⟨g1, ht ▸ g2⟩
      | refresh eid hop hb => exact cnt (h.num t b hb)
    have hi : inc64 b = b + 1 := inc64_small (Nat.lt_of_lt_of_le hb.1 (by decide))
    have hk : Kind c t := by
      cases src with
      | build h1 h2 =>
        rcases h2 with ⟨-, rfl⟩ | ⟨-, rfl, h3⟩
        · exact ⟨nofun, nofun, nofun⟩
        · exact ⟨fun _ => h3, nofun, nofun⟩
      | adopt u k last hop hb hu hl ht hnew hmode =>
        rcases hmode with rfl | ⟨rfl, h3⟩ | ⟨rfl, h3⟩
        · exact ⟨nofun, nofun, nofun⟩
        · exact ⟨fun _ => by rw [h3]; simp, nofun, nofun⟩
        · exact ⟨nofun, fun _ => by rw [h3]; simp, nofun⟩
      | refresh eid hop hb =>
        unfold storedAt at hb
        obtain ⟨o, ho, -⟩ := Option.map_eq_some_iff.1 hb
        obtain ⟨m, h1, h2⟩ := find_some ho
        have := (h.made o.lsa (.own ⟨o, m, h1, rfl⟩)).2.2.kind
        exact h2 ▸ this
    have hst : storedAt s' c.router t = some (b + 1) := by
      rcases ha.own with h1 | ⟨p, h1, h2, h3⟩
      · rw [h1, hi]
      · have := hb.2 _ (h.stored_told h1)
        rw [hi] at h3
        omega
    refine ⟨.next t b hk hb.2 (by rw [ha.seqs, hi]) (by rw [← hi]; exact ha.log), ?_, ?_⟩
    · intro t' m hm
      by_cases ht : t' = t
      · subst ht
        rw [hst] at hm
        rw [ha.seqs, Seqs.get_set_self _ _ _ ha.type, hi]
        exact (Option.some.inj hm).symm
      · rw [ha.rest t' ht] at hm
        rw [ha.seqs, Seqs.get_set_ne _ _ ht]
        exact h.num t' m hm
    · intro t' m hm
      obtain ⟨outs, e, -⟩ := ha.log
      by_cases ht : t' = t
      · subst ht
        rw [hst] at hm
        rw [e, hi, ← Option.some.inj hm]
        simp
      · rw [ha.rest t' ht] at hm
        rw [e, ← List.append_assoc]
        exact List.mem_append_left _ (h.stored_told hm)

theorem type_ne_base (l : Lsa) : l.type ≠ .base := by
  unfold Lsa.type Content.type
  split <;> simp

theorem whole_insert {l : AdjacencyList} (h : Net.Whole l) {a : Adjacent} (ha : ∃ z : Int, a.cost = .fin (z : Rat)) :
    Net.Whole (AdjacencyList.insert l a).1 := by
  unfold AdjacencyList.insert
  split
  · exact h
  · intro x hx
    rcases List.mem_append.1 hx with h3 | h3
    · exact h x h3
    · rw [List.mem_singleton] at h3
      subst h3
      exact ha

theorem whole_fold (f : AdjacencyList → Adjacent → AdjacencyList)
    (hf : ∀ l a, Net.Whole l → (∃ z : Int, a.cost = .fin (z : Rat)) → Net.Whole (f l a)) :
    ∀ (l acc : AdjacencyList), Net.Whole l → Net.Whole acc → Net.Whole (l.foldl f acc) := by
  intro l
  induction l with
  | nil => intro acc _ h; exact h
  | cons a as ih =>
    intro acc h1 h2
    exact ih _ (fun x hx => h1 x (by simp [hx])) (hf _ _ h2 (h1 a (by simp)))

theorem whole_lsaList {l : AdjacencyList} (h : Net.Whole l) : Net.Whole (AdjacencyList.lsaList l) :=
  whole_fold _ (fun l a h1 h2 => by
    split
    · exact whole_insert h1 h2
    · exact h1) l [] h (by intro a ha; cases ha)

theorem whole_ofList {l : AdjacencyList} (h : Net.Whole l) : Net.Whole (AdjacencyList.ofList l) :=
  whole_fold _ (fun _ _ h1 h2 => whole_insert h1 h2) l [] h (by intro a ha; cases ha)

/-- An update of a plain content with a plain content of its type is plain. -/
theorem plain_update {c : LConf} {a b : Content} (ha : PlainContent c a) (hb : PlainContent c b) (ht : a.type = b.type) :
    PlainContent c (a.update b).content := by
  refine ⟨update_norm ha.1 hb.1, ?_⟩
  cases a with
  | adj l => cases b with
    | adj l' =>
      have h : (updateAdj l l').content = .adj l ∨ (updateAdj l l').content = .adj (AdjacencyList.ofList l') := by
        unfold updateAdj
        split <;> simp
      show Says c (updateAdj l l').content
      rcases h with h | h <;> rw [h]
      · exact ha.2
      · exact ⟨whole_ofList hb.2.1, hb.2.2⟩
    | _ => cases ht
  | coord r as => cases b with
    | coord r' as' =>
      have h : (updateCoord r as r' as').content = .coord r as ∨ (updateCoord r as r' as').content = .coord r' as' := by
        unfold updateCoord
        split <;> simp
      show Says c (updateCoord r as r' as').content
      rcases h with h | h <;> rw [h]
      · exact ha.2
      · exact hb.2
    | _ => cases ht
  | names l => cases b with
    | names l' => trivial
    | _ => cases ht

theorem plain_builds {c : LConf} {s : Lsdb} (hw : Net.Whole s.adjs) {x : Content} (hb : Builds c s x)
    (hmode : (x.type = .adjacency → c.hyp ≠ .on) ∧ (x.type = .coordinate → c.hyp ≠ .off)) : PlainContent c x := by
  cases x with
  | adj l =>
    cases (show l = AdjacencyList.lsaList s.adjs from hb)
    exact ⟨norm_adj.2 (lsaList_names _), whole_lsaList hw, hmode.1 rfl⟩
  | coord r as =>
    obtain ⟨rfl, rfl⟩ := (show r = c.radius ∧ as = c.angles from hb)
    exact ⟨rfl, rfl, rfl, hmode.2 rfl⟩
  | names m =>
    cases (show m = PrefixMap.ofList s.npl from hb)
    exact ⟨norm_names.2 (PrefixMap.ofList_sorted _), trivial⟩

/-- What was made before a plain step, or the own LSA made in it. -/
theorem made_step {c : LConf} (hnet : Comp.str "LSA" ∉ c.names.network) {s : Lsdb} {past : List Out} (h : NodeInv c s past)
    (op : Op) (hp : Plain c (past ++ s.log) op) {l : Lsa} (hm : Made c (step c s op) past l) :
    Made c s past l ∨ (HasOwn c (step c s op) l ∧ l.origin = c.router ∧
      (∀ k, .publish l.type k ∈ past ++ s.log → k < l.seq) ∧ PlainContent c l.content) := by
  obtain ⟨hf, outs, hl, ho⟩ := fifo_step hnet s op
  have hi := h.reach.inv
  cases hm with
  | sent d hd e =>
    rw [hl, ← List.append_assoc] at hd
    rcases List.mem_append.1 hd with h1 | h1
    · exact Or.inl (.sent d h1 e)
    · rcases ho d h1 with h2 | h2
      · exact Or.inl (.kept d h2 e)
      · exact Or.inl (.own (e ▸ h2))
  | kept d hd e =>
    rcases hf d hd with h2 | h2
    · exact Or.inl (.kept d h2 e)
    · exact Or.inl (.own (e ▸ h2))
  | own ho' =>
    obtain ⟨o', ho1, hr, rfl⟩ := ho'
    cases change_step h.reach op o' ho1 with
    | kept o ho2 e => exact Or.inl (.own ⟨o, ho2, by rw [← e]; exact hr, e.symm⟩)
    | refreshed o ho2 hro h1 h2 h3 hs =>
      have hty : o'.lsa.type = o.lsa.type := congrArg Content.type h2
      have hnum := h.num o.lsa.type o.lsa.seq (by rw [← hro]; exact storedAt_mem hi ho2)
      have hseq : o'.lsa.seq = s.seqs.get o'.lsa.type + 1 := by
        rw [h3, hty, hnum]; exact inc64_small (Nat.lt_of_lt_of_le (h.room _) (by decide))
      refine Or.inr ⟨⟨o', ho1, hr, rfl⟩, hr, ?_, ?_⟩
      · intro k hk
        have := (h.pub _ k hk).1
        omega
      · rw [h2]; exact (h.made o.lsa (.own ⟨o, ho2, hro, rfl⟩)).2.2
    | built l b hb hrl ht hn hs hsrc hmode =>
      have hbe : b < 2 ^ 63 ∧ ∀ k, .publish l.type k ∈ past ++ s.log → k ≤ b := by
        rcases hsrc with rfl | ⟨u, k, last, rfl, h2, h3, h4, h5⟩
        · exact ⟨h.room _, fun k hk => (h.pub _ k hk).1⟩
        · obtain ⟨g1, g2⟩ := hp h2 last h3
          have : b = k := by rw [h5]; omega
          subst this
          exact ⟨g1, h4 ▸ g2⟩
      have hinc : inc64 b = b + 1 := inc64_small (Nat.lt_of_lt_of_le hbe.1 (by decide))
      have hpl : PlainContent c l.content := plain_builds h.whole hb hmode
      refine Or.inr ⟨⟨o', ho1, hr, rfl⟩, hr, ?_, ?_⟩
      · intro k hk
        rw [ht.type] at hk
        rw [ht.seq, hn, hinc]
        exact Nat.lt_succ_of_le (hbe.2 k hk)
      · rcases ht.content with h1 | ⟨o, ho2, h1, h2, -, h3⟩
        · rw [h1]; exact hpl
        · rw [h3]
          exact plain_update (h.made o.lsa (.own ⟨o, ho2, h1.trans hrl, rfl⟩)).2.2 hpl h2
    | fetched i l l' hop ht h1 h2 h3 h4 =>
      subst hop
      exact absurd (h1.symm.trans (ht.origin.symm.trans hr)) hp

theorem NodeInv.step {c : LConf} (hnet : Comp.str "LSA" ∉ c.names.network) {s : Lsdb} {past : List Out} (h : NodeInv c s past)
    (op : Op) (hp : Plain c (past ++ s.log) op) (hroom : Roomy (Lsdb.step c s op).seqs) : NodeInv c (Lsdb.step c s op) past := by
  obtain ⟨hn, hnum, htold⟩ := numbers_step h op hp
  have hm := fun l => made_step hnet h op hp (l := l)
  have hi' := (h.reach.step op).inv
  have hpre : ∃ outs, (Lsdb.step c s op).log = s.log ++ outs := by
    cases hn with
    | same _ h2 => obtain ⟨outs, h3, -⟩ := h2; exact ⟨_, h3⟩
    | next _ _ _ _ _ h2 => obtain ⟨outs, h3, -⟩ := h2; exact ⟨_, h3⟩
  have told : ∀ l, Made c (Lsdb.step c s op) past l → .publish l.type l.seq ∈ past ++ (Lsdb.step c s op).log := by
    intro l hl
    rcases hm l hl with h1 | ⟨⟨o, ho, hr, rfl⟩, -⟩
    · obtain ⟨outs, e⟩ := hpre
      rw [e, ← List.append_assoc]
      exact List.mem_append_left _ (h.told l h1)
    · exact htold _ _ (by rw [← hr]; exact storedAt_mem hi' ho)
  have pub : ∀ t k, .publish t k ∈ past ++ (Lsdb.step c s op).log → k ≤ (Lsdb.step c s op).seqs.get t ∧ Kind c t := by
    intro t k hk
    cases hn with
    | same h1 h2 =>
      obtain ⟨outs, h3, h4⟩ := h2
      rw [h3, ← List.append_assoc] at hk
      rcases List.mem_append.1 hk with h5 | h5
      · rw [h1]; exact h.pub t k h5
      · have := h4 _ h5; cases this
    | next t' b h0 hb h1 h2 =>
      obtain ⟨outs, h3, h4⟩ := h2
      rw [h3, ← List.append_assoc] at hk
      rcases List.mem_append.1 hk with h5 | h5
      · refine ⟨?_, (h.pub t k h5).2⟩
        rw [h1]
        by_cases ht : t = t'
        · subst ht
          rw [Seqs.get_set_self _ _ _ h0.2.2]
          exact Nat.le_succ_of_le (hb k h5)
        · rw [Seqs.get_set_ne _ _ ht]
          exact (h.pub t k h5).1
      · rcases List.mem_cons.1 h5 with h6 | h6
        · cases h6
        · rcases List.mem_cons.1 h6 with h7 | h7
          · cases h7
            rw [h1, Seqs.get_set_self _ _ _ h0.2.2]
            exact ⟨Nat.le_refl _, h0⟩
          · have := h4 _ h7; cases this
  have pos : ∀ t, .publish t 0 ∉ (Lsdb.step c s op).log := by
    intro t hk
    cases hn with
    | same h1 h2 =>
      obtain ⟨outs, h3, h4⟩ := h2
      rw [h3] at hk
      rcases List.mem_append.1 hk with h5 | h5
      · exact h.pos t h5
      · have := h4 _ h5; cases this
    | next t' b h0 hb h1 h2 =>
      obtain ⟨outs, h3, h4⟩ := h2
      rw [h3] at hk
      rcases List.mem_append.1 hk with h5 | h5
      · exact h.pos t h5
      · rcases List.mem_cons.1 h5 with h6 | h6
        · cases h6
        · rcases List.mem_cons.1 h6 with h7 | h7
          · cases h7
          · have := h4 _ h7; cases this
  refine ⟨h.reach.step op, ?_, hnum, ?_, ?_, pub, told, pos, hroom, ?_⟩
  · cases hn with
    | same h1 h2 =>
      obtain ⟨outs, h3, h4⟩ := h2
      rw [h3, ← List.append_assoc, lastPersist_append, lastPersist_quiet h4, h1]
      exact h.disk
    | next t b h0 hb h1 h2 =>
      obtain ⟨outs, h3, h4⟩ := h2
      have : past ++ (Lsdb.step c s op).log = (past ++ s.log) ++ ([Out.persist (Lsdb.step c s op).seqs] ++
          (.publish t (b + 1) :: outs)) := by rw [h3]; simp
      rw [this, lastPersist_append, lastPersist_append]
      have e : lastPersist (.publish t (b + 1) :: outs) = none := by
        have := lastPersist_quiet h4
        exact this
      rw [e]
      rfl
  · intro l hl
    refine ⟨?_, (pub _ _ (told l hl)).1, ?_⟩
    · rcases hm l hl with h1 | ⟨-, h1, -⟩
      · exact (h.made l h1).1
      · exact h1
    · rcases hm l hl with h1 | ⟨-, -, -, h4⟩
      · exact (h.made l h1).2.2
      · exact h4
  · intro l l' hl hl' ht hs
    rcases hm l hl with h1 | ⟨⟨o, ho, hr, rfl⟩, h1, h2, h4⟩ <;> rcases hm l' hl' with h1' | ⟨⟨o', ho', hr', rfl⟩, h1', h2', h4'⟩
    · exact h.uniq l l' h1 h1' ht hs
    · have := h2' l.seq (ht ▸ h.told l h1)
      omega
    · have := h2 l'.seq (ht ▸ h.told l' h1')
      omega
    · have : o = o' := nodup_inj hi'.keys ho ho' (by unfold keyOf; rw [hr, hr', ht])
      rw [this]
  · cases op with
    | setAdjs l => exact hp
    | _ =>
      rw [step_adjs _ (by intro l; nofun)]
      exact h.whole

/-- What happened before the daemon was started with this state file. -/
structure Before (c : LConf) (disk : Option Seqs) (past : List Out) : Prop where
  made : ∀ d, .data d ∈ past → d.lsa.origin = c.router ∧ d.lsa.seq ≤ (Seqs.init c.hyp disk).get d.lsa.type ∧
    PlainContent c d.lsa.content
  uniq : ∀ d d', .data d ∈ past → .data d' ∈ past → d.lsa.type = d'.lsa.type → d.lsa.seq = d'.lsa.seq →
    d.lsa = d'.lsa
  pub : ∀ t k, .publish t k ∈ past → k ≤ (Seqs.init c.hyp disk).get t ∧ Kind c t
  told : ∀ d, .data d ∈ past → .publish d.lsa.type d.lsa.seq ∈ past
  room : ∀ t, (Seqs.init c.hyp disk).get t < 2 ^ 63 + 10

theorem Roomy.init {h : HypState} {disk : Option Seqs} (hd : ∀ q ∈ disk, Roomy q) (t : LsaType) :
    (Seqs.init h disk).get t < 2 ^ 63 + 10 := by
  cases disk with
  | none => cases h <;> cases t <;> decide
  | some q =>
    have h1 := hd q rfl .name
    have h2 := hd q rfl .adjacency
    have h3 := hd q rfl .coordinate
    unfold Seqs.get at h1 h2 h3
    dsimp only at h1 h2 h3
    unfold Seqs.init Seqs.initB Seqs.initA Seqs.plus10
    cases h <;> cases t <;> simp [Seqs.get] <;> omega

theorem Before.none (c : LConf) (disk : Option Seqs) (hd : ∀ q ∈ disk, Roomy q) : Before c disk [] :=
  ⟨nofun, nofun, nofun, nofun, Roomy.init hd⟩

theorem NodeInv.before {c : LConf} {s : Lsdb} {past : List Out} (h : NodeInv c s past) (hh : c.hyp ≠ .dryRun) : Before c (lastPersist (past ++ s.log)) (past ++ s.log) := by
  rw [h.disk]
  have mono : ∀ t, Kind c t → s.seqs.get t ≤ (Seqs.init c.hyp (some s.seqs)).get t := by
    intro t ht
    have hp : ∀ t, Seqs.plus10 (s.seqs.get t) = s.seqs.get t + 10 := fun t => by
      have := h.room t
      unfold Seqs.plus10; omega
    have h1 := hp .name
    have h2 := hp .adjacency
    have h3 := hp .coordinate
    unfold Seqs.get at h1 h2 h3
    dsimp only at h1 h2 h3
    unfold Seqs.init Seqs.initB Seqs.initA
    cases hc : c.hyp with
    | dryRun => exact absurd hc hh
    | off =>
      cases t with
      | name => simp [Seqs.get, h1]
      | adjacency => simp [Seqs.get, h2]
      | coordinate => exact absurd hc (ht.2.1 rfl)
      | base => exact absurd rfl ht.2.2
    | on =>
      cases t with
      | name => simp [Seqs.get, h1]
      | coordinate => simp [Seqs.get, h3]
      | adjacency => exact absurd hc (ht.1 rfl)
      | base => exact absurd rfl ht.2.2
  refine ⟨?_, ?_, ?_, fun d hd => h.told d.lsa (.sent d hd rfl), Roomy.init (by rintro q ⟨⟩; exact h.room)⟩
  · intro d hd
    obtain ⟨a, b, e⟩ := h.made d.lsa (.sent d hd rfl)
    exact ⟨a, Nat.le_trans b (mono _ e.kind), e⟩
  · intro d d' hd hd'
    exact h.uniq d.lsa d'.lsa (.sent d hd rfl) (.sent d' hd' rfl)
  · intro t k hk
    obtain ⟨a, b⟩ := h.pub t k hk
    exact ⟨Nat.le_trans a (mono _ b), b⟩

/-- The own LSAs at the start. -/
theorem init_db (c : LConf) (disk : Option Seqs) (adjs : AdjacencyList) (npl : List PrefixInfo) (sys : Int) :
    ∀ o ∈ (init c disk adjs npl sys).db, o.lsa.origin = c.router ∧ PlainContent c o.lsa.content ∧ o.lsa.type ≠ .adjacency := by
  have hb : ∀ o ∈ (buildName c (boot c disk adjs npl sys)).db, o.lsa.origin = c.router ∧ PlainContent c o.lsa.content ∧
      o.lsa.type = .name := by
    intro o ho
    rcases mem_install ((boot_inv c disk adjs npl sys).frame (announce_frame _ _ _)) _ ho with h1 | h1
    · rw [(announce_frame _ _ _).db] at h1
      cases h1
    · refine ⟨h1.origin, ?_, h1.type⟩
      rcases h1.content with h2 | ⟨x, hx, -⟩
      · rw [h2]
        exact ⟨norm_names.2 (PrefixMap.ofList_sorted _), trivial⟩
      · rw [(announce_frame _ _ _).db] at hx
        cases hx
  have hib : Inv c (buildName c (boot c disk adjs npl sys)) := trs_inv (boot_inv c disk adjs npl sys) (trs_buildName c _)
  intro o ho
  unfold init at ho
  dsimp only at ho
  split at ho
  · obtain ⟨a, b, d⟩ := hb o ho
    exact ⟨a, b, by rw [d]; nofun⟩
  · rename_i hh
    rcases mem_install (hib.frame (announce_frame _ _ _)) _ ho with h1 | h1
    · rw [(announce_frame _ _ _).db] at h1
      obtain ⟨a, b, d⟩ := hb o h1
      exact ⟨a, b, by rw [d]; nofun⟩
    · refine ⟨h1.origin, ?_, by rw [h1.type]; nofun⟩
      rcases h1.content with h2 | ⟨x, hx, -, h3, -⟩
      · rw [h2]
        exact ⟨rfl, rfl, rfl, hh⟩
      · rw [(announce_frame _ _ _).db] at hx
        have := (hb x hx).2.2
        rw [this] at h3
        cases h3

theorem NodeInv.init {c : LConf} {disk : Option Seqs} {past : List Out} (h : Before c disk past) {adjs : AdjacencyList}
    (npl : List PrefixInfo) (sys : Int) (hw : Net.Whole adjs) (hroom : Roomy (Lsdb.init c disk adjs npl sys).seqs) :
    NodeInv c (Lsdb.init c disk adjs npl sys) past := by
  have hre : Reachable c (Lsdb.init c disk adjs npl sys) := ⟨disk, adjs, npl, sys, [], rfl⟩
  have hi := hre.inv
  have hk := init_keep c disk adjs npl sys
  have hdb := init_db c disk adjs npl sys
  obtain ⟨s1, ha, hb⟩ := init_seq c disk adjs npl sys
  generalize Lsdb.init c disk adjs npl sys = s at *
  have e0 : (boot c disk adjs npl sys).seqs = Seqs.init c.hyp disk := rfl
  have n1 : inc64 ((boot c disk adjs npl sys).seqs.get .name) = (Seqs.init c.hyp disk).get .name + 1 :=
    inc64_small (h.room .name)
  have n2 : inc64 ((boot c disk adjs npl sys).seqs.get .coordinate) = (Seqs.init c.hyp disk).get .coordinate + 1 :=
    inc64_small (h.room .coordinate)
  have none0 : ∀ t, storedAt (boot c disk adjs npl sys) c.router t = none := fun t => rfl
  obtain ⟨o1, l1, q1⟩ := ha.log
  -- the state after the Name LSA
  have s1name : storedAt s1 c.router .name = some ((Seqs.init c.hyp disk).get .name + 1) := by
    rcases ha.own with h1 | ⟨m, h1, -⟩
    · rw [h1, n1]
    · rw [none0] at h1; cases h1
  have s1rest : ∀ t, t ≠ .name → storedAt s1 c.router t = none := fun t ht => ha.rest t ht
  have main : (∀ t m, storedAt s c.router t = some m → m = s.seqs.get t ∧ m = (Seqs.init c.hyp disk).get t + 1) ∧
      (∀ t, (Seqs.init c.hyp disk).get t ≤ s.seqs.get t) ∧
      (∀ t k, .publish t k ∈ s.log → k = s.seqs.get t ∧ 0 < k ∧ Kind c t) ∧
      lastPersist (past ++ s.log) = some s.seqs ∧ ∀ t m, storedAt s c.router t = some m → .publish t m ∈ s.log := by
    have p1 : lastPersist (.publish .name (inc64 ((boot c disk adjs npl sys).seqs.get .name)) :: o1) = none :=
      (show lastPersist _ = lastPersist o1 from rfl).trans (lastPersist_quiet q1)
    rcases hb with ⟨hh, rfl⟩ | ⟨hh, hb⟩
    · refine ⟨?_, ?_, ?_, ?_, ?_⟩
      · intro t m hm
        by_cases ht : t = .name
        · subst ht
          rw [s1name] at hm
          rw [ha.seqs, Seqs.get_set_self _ _ _ (by simp), n1]
          exact ⟨(Option.some.inj hm).symm, (Option.some.inj hm).symm⟩
        · rw [s1rest t ht] at hm; cases hm
      · intro t
        rw [ha.seqs]
        by_cases ht : t = .name
        · subst ht; rw [Seqs.get_set_self _ _ _ (by simp), n1]; omega
        · rw [Seqs.get_set_ne _ _ ht, e0]; exact Nat.le_refl _
      · intro t k hk
        rw [l1] at hk
        rcases List.mem_cons.1 hk with h6 | h6
        · cases h6
        · rcases List.mem_cons.1 h6 with h7 | h7
          · cases h7
            rw [ha.seqs, Seqs.get_set_self _ _ _ (by simp)]
            exact ⟨rfl, by rw [n1]; exact Nat.succ_pos _, nofun, nofun, nofun⟩
          · have := q1 _ h7; cases this
      · have : past ++ s.log = past ++ ([Out.persist s.seqs] ++
            (.publish .name (inc64 ((boot c disk adjs npl sys).seqs.get .name)) :: o1)) := by rw [l1]; rfl
        rw [this, lastPersist_append, lastPersist_append, p1]
        rfl
      · intro t m hm
        by_cases ht : t = .name
        · subst ht
          rw [s1name] at hm
          rw [l1, n1, ← Option.some.inj hm]
          simp
        · rw [s1rest t ht] at hm; cases hm
    · obtain ⟨o2, l2, q2⟩ := hb.log
      have hs : s.seqs = ((Seqs.init c.hyp disk).set .name ((Seqs.init c.hyp disk).get .name + 1)).set .coordinate
          ((Seqs.init c.hyp disk).get .coordinate + 1) := by
        rw [hb.seqs, ha.seqs, n1, n2, e0]
      have gn : s.seqs.get .name = (Seqs.init c.hyp disk).get .name + 1 := by
        rw [hs, Seqs.get_set_ne _ _ (by nofun), Seqs.get_set_self _ _ _ (by simp)]
      have gc : s.seqs.get .coordinate = (Seqs.init c.hyp disk).get .coordinate + 1 := by
        rw [hs, Seqs.get_set_self _ _ _ (by simp)]
      refine ⟨?_, ?_, ?_, ?_, ?_⟩
      · intro t m hm
        by_cases hc : t = .coordinate
        · subst hc
          rcases hb.own with h1 | ⟨p, h1, -⟩
          · rw [h1, n2] at hm
            rw [gc]
            exact ⟨(Option.some.inj hm).symm, (Option.some.inj hm).symm⟩
          · rw [s1rest .coordinate (by simp)] at h1; cases h1
        · rw [hb.rest t hc] at hm
          by_cases ht : t = .name
          · subst ht
            rw [s1name] at hm
            rw [gn]
            exact ⟨(Option.some.inj hm).symm, (Option.some.inj hm).symm⟩
          · rw [s1rest t ht] at hm; cases hm
      · intro t
        cases t with
        | name => rw [gn]; omega
        | coordinate => rw [gc]; omega
        | adjacency => rw [hs, Seqs.get_set_ne _ _ (by nofun), Seqs.get_set_ne _ _ (by nofun)]; exact Nat.le_refl _
        | base => exact Nat.le_refl _
      · intro t k hk
        rw [l2, l1] at hk
        rcases List.mem_append.1 hk with h5 | h5
        · rcases List.mem_cons.1 h5 with h6 | h6
          · cases h6
          · rcases List.mem_cons.1 h6 with h7 | h7
            · cases h7
              rw [gn, n1]
              exact ⟨rfl, Nat.succ_pos _, nofun, nofun, nofun⟩
            · have := q1 _ h7; cases this
        · rcases List.mem_cons.1 h5 with h6 | h6
          · cases h6
          · rcases List.mem_cons.1 h6 with h7 | h7
            · cases h7
              rw [gc, n2]
              exact ⟨rfl, Nat.succ_pos _, nofun, fun _ => hh, nofun⟩
            · have := q2 _ h7; cases this
      · have p2 : lastPersist (.publish .coordinate (inc64 ((boot c disk adjs npl sys).seqs.get .coordinate)) :: o2) = none :=
          (show lastPersist _ = lastPersist o2 from rfl).trans (lastPersist_quiet q2)
        have : past ++ s.log = (past ++ s1.log) ++ ([Out.persist s.seqs] ++
            (.publish .coordinate (inc64 ((boot c disk adjs npl sys).seqs.get .coordinate)) :: o2)) := by rw [l2]; simp
        rw [this, lastPersist_append, lastPersist_append, p2]
        rfl
      · intro t m hm
        by_cases hc : t = .coordinate
        · subst hc
          rcases hb.own with h1 | ⟨p, h1, -⟩
          · rw [h1] at hm
            rw [l2, ← Option.some.inj hm]
            simp
          · rw [s1rest .coordinate (by simp)] at h1; cases h1
        · rw [hb.rest t hc] at hm
          by_cases ht : t = .name
          · subst ht
            rw [s1name] at hm
            rw [l2, l1, n1, ← Option.some.inj hm]
            simp
          · rw [s1rest t ht] at hm; cases hm
  obtain ⟨m1, m2, m3, m4, m5⟩ := main
  have nodata : ∀ d, .data d ∉ s.log := by
    intro d hd
    obtain ⟨outs, h1, h2⟩ := hk.log
    rw [h1] at hd
    have := h2 _ hd
    cases this
  have hmade : ∀ l, Made c s past l → (∃ d, .data d ∈ past ∧ d.lsa = l) ∨ HasOwn c s l := by
    intro l hl
    cases hl with
    | sent d hd e =>
      rcases List.mem_append.1 hd with h1 | h1
      · exact Or.inl ⟨d, h1, e⟩
      · exact absurd h1 (nodata d)
    | kept d hd e => rw [hk.fifo] at hd; cases hd
    | own ho => exact Or.inr ho
  have hown : ∀ o ∈ s.db, o.lsa.seq = s.seqs.get o.lsa.type ∧ o.lsa.seq = (Seqs.init c.hyp disk).get o.lsa.type + 1 := by
    intro o ho
    refine m1 o.lsa.type o.lsa.seq ?_
    rw [← (hdb o ho).1]
    exact storedAt_mem hi ho
  refine ⟨hre, m4, fun t m hm => (m1 t m hm).1, ?_, ?_, ?_, ?_, fun t ht => Nat.lt_irrefl 0 (m3 t 0 ht).2.1, hroom, by rw [hk.adjs]; exact hw⟩
  · intro l hl
    rcases hmade l hl with ⟨d, hd, rfl⟩ | ⟨o, ho, hr, rfl⟩
    · obtain ⟨a, b, e⟩ := h.made d hd
      exact ⟨a, Nat.le_trans b (m2 _), e⟩
    · exact ⟨hr, Nat.le_of_eq (hown o ho).1, (hdb o ho).2.1⟩
  · intro l l' hl hl' ht hs
    rcases hmade l hl with ⟨d, hd, rfl⟩ | ⟨o, ho, hr, rfl⟩ <;> rcases hmade l' hl' with ⟨d', hd', rfl⟩ | ⟨o', ho', hr', rfl⟩
    · exact h.uniq d d' hd hd' ht hs
    · have h1 := (h.made d hd).2.1
      have h2 := (hown o' ho').2
      rw [ht] at h1; omega
    · have h1 := (h.made d' hd').2.1
      have h2 := (hown o ho).2
      rw [← ht] at h1; omega
    · have : o = o' := nodup_inj hi.keys ho ho' (by unfold keyOf; rw [hr, hr', ht])
      rw [this]
  · intro t k hk'
    rcases List.mem_append.1 hk' with h1 | h1
    · obtain ⟨a, b⟩ := h.pub t k h1
      exact ⟨Nat.le_trans a (m2 t), b⟩
    · obtain ⟨a, -, b⟩ := m3 t k h1
      exact ⟨Nat.le_of_eq a, b⟩
  · intro l hl
    rcases hmade l hl with ⟨d, hd, rfl⟩ | ⟨o, ho, hr, rfl⟩
    · exact List.mem_append_left _ (h.told d hd)
    · exact List.mem_append_right _ (m5 _ _ (by rw [← (hdb o ho).1]; exact storedAt_mem hi ho))

end Lsdb
end Nlsr
