import Verif.Lemmas.Segments
/- C105: an LSA of any size arrives whole. -/
namespace Nlsr
namespace Segments
open Lsdb

theorem eq_of_prefix {α : Type} {a b n : List α} (ha : a <+: n) (hb : b <+: n) (h : a.length = b.length) : a = b := by
  obtain ⟨t, rfl⟩ := List.prefix_of_prefix_length_le ha hb (Nat.le_of_eq h)
  rw [List.length_append] at h
  have : t = [] := List.length_eq_zero_iff.1 (by omega)
  rw [this, List.append_nil]

theorem lsaUser_eq (c : RouterConf) (t : LsaType) : c.lsaUserPrefix t = c.syncUserPrefix ++ [Comp.str t.text] := rfl

/-- A packet whose name is under the name of an LSA carries a segment of that LSA. -/
theorem Sent.under {c : LConf} {d : Seg} (h : Sent c d) {t : LsaType} {k : Nat} (hk : k < 2 ^ 64)
    (hp : c.names.lsaInterest t k <+: d.name) : d.lsa.type = t ∧ d.lsa.seq = k ∧ c.names.lsaInterest t k ≠ d.name := by
  obtain ⟨last, h1, h2, -⟩ := h.exact
  have e := eq_of_prefix hp h1 (by simp [RouterConf.lsaInterest, lsaUser_eq])
  rw [RouterConf.lsaInterest, lsaUser_eq, lsaUser_eq, List.append_assoc, List.append_assoc] at e
  have e := List.append_cancel_left e
  simp only [List.cons_append, List.nil_append, List.cons.injEq, and_true] at e
  refine ⟨?_, ?_, ?_⟩
  · have := congrArg LsaType.ofComp e.1
    rw [LsaType.ofComp_text, LsaType.ofComp_text] at this
    exact this.symm
  · rw [← e.2] at h2
    have : (Comp.number k).toNumber = some k := Tlv.decNni_encNni k hk
    rw [this] at h2
    exact (Option.some.inj h2).symm
  · intro e
    obtain ⟨n, v, e2, -⟩ := h.named
    rw [e2] at e
    have := congrArg (fun l : Name => l.getLast?) e
    simp [RouterConf.lsaInterest, segName, Comp.number] at this

theorem number_seg (b : Name) {i : Nat} (hi : i < 2 ^ 64) : number (b ++ [⟨50, Tlv.encNni i⟩]) = some i := by
  unfold number
  rw [Name.fromEnd_append]
  simp [Comp.isSegment, Tlv.decNni_encNni i hi]

theorem Sent.number {c : LConf} {d : Seg} (h : Sent c d) (hb : c.segments d.lsa < 2 ^ 64) : number d.name = some d.idx := by
  obtain ⟨n, v, e, -⟩ := h.named
  rw [e, segName, show n ++ [(⟨54, Tlv.encNni v⟩ : Comp), ⟨50, Tlv.encNni d.idx⟩] = (n ++ [⟨54, Tlv.encNni v⟩]) ++ [⟨50, Tlv.encNni d.idx⟩] by simp]
  exact number_seg _ (Nat.lt_trans h.lt hb)

/-- What the fetcher knows while all packets under the name asked for are pieces of `b`. -/
structure Fetcher.Holds (f : Fetcher) (ask : Name) (b : List UInt8) : Prop where
  asked : f.ask = ask
  got : ∀ x ∈ f.got, x.2 = piece b x.1
  total : f.total = 0 ∨ f.total = count b
  base : ∀ n, f.base = some n → ask <+: n

theorem prefix_dropLast {a n : Name} (h : a <+: n) (hne : a ≠ n) : a <+: n.dropLast := by
  obtain ⟨t, rfl⟩ := h
  have ht : t ≠ [] := fun e => hne (by simp [e])
  rw [List.dropLast_append_of_ne_nil ht]
  exact List.prefix_append _ _

theorem Fetcher.wants_under {f : Fetcher} {ask : Name} {b : List UInt8} (h : f.Holds ask b) {n : Name}
    (hw : f.wants n = true) : ask <+: n := by
  unfold wants at hw
  split at hw
  · rw [h.asked] at hw; exact List.isPrefixOf_iff_prefix.1 hw
  · rename_i m hm
    rw [Bool.and_eq_true, beq_iff_eq] at hw
    exact (h.base m hm).trans (hw.1 ▸ List.dropLast_prefix n)

theorem Fetcher.Holds.receive {f : Fetcher} {ask : Name} {b : List UInt8} (h : f.Holds ask b) {d : Data}
    (hd : ask <+: d.name → ask ≠ d.name ∧ d.final + 1 = count b ∧ ∃ i, number d.name = some i ∧ d.content = piece b i) :
    (f.receive d).Holds ask b := by
  unfold Fetcher.receive
  split
  · exact h
  · rename_i hc
    have hw : f.wants d.name = true := by
      cases e : f.wants d.name with
      | true => rfl
      | false => simp [e] at hc
    have hu := wants_under h hw
    obtain ⟨h1, h2, i, h3, h4⟩ := hd hu
    rw [h3]
    refine ⟨h.asked, ?_, Or.inr h2, ?_⟩
    · intro x hx
      dsimp only at hx
      split at hx
      · exact h.got x hx
      · rcases List.mem_append.1 hx with hx | hx
        · exact h.got x hx
        · rw [List.mem_singleton] at hx
          rw [hx]; exact h4
    · intro n hn
      cases hb : f.base with
      | none =>
        simp only [hb, Option.getD_none, Option.some.injEq] at hn
        rw [← hn]
        exact prefix_dropLast hu h1
      | some m =>
        simp only [hb, Option.getD_some, Option.some.injEq] at hn
        exact h.base n (by rw [hb, hn])

theorem Fetcher.Holds.result {f : Fetcher} {ask : Name} {b : List UInt8} (h : f.Holds ask b) {r : List UInt8}
    (hr : f.result = some r) : r = b := by
  unfold Fetcher.result at hr
  split at hr
  · cases hr
  · rename_i hc
    have ht : f.total = count b := by
      rcases h.total with h1 | h1
      · simp [h1] at hc
      · exact h1
    split at hr
    · rename_i hall
      rw [← Option.some.inj hr, ht]
      rw [ht] at hall
      refine Eq.trans ?_ (pieces_all b)
      refine congrArg List.flatten (List.map_congr_left fun i hi => ?_)
      have := List.all_eq_true.1 hall i hi
      obtain ⟨x, hx, e⟩ := List.any_eq_true.1 this
      cases hf : f.got.find? (·.1 == i) with
      | none => exact absurd e (List.find?_eq_none.1 hf x hx)
      | some y =>
        have h1 := List.find?_some hf
        rw [beq_iff_eq] at h1
        have := h.got y (List.mem_of_find?_eq_some hf)
        rw [h1] at this
        simpa using this
    · cases hr

theorem Fetcher.Holds.fetch {f : Fetcher} {ask : Name} {b : List UInt8} (h : f.Holds ask b) {ds : List Data}
    (hd : ∀ d ∈ ds, ask <+: d.name → ask ≠ d.name ∧ d.final + 1 = count b ∧
      ∃ i, number d.name = some i ∧ d.content = piece b i) {r : List UInt8}
    (hr : f.fetch ds = some r) : r = b := by
  induction ds generalizing f with
  | nil => exact h.result hr
  | cons d ds ih =>
    unfold Fetcher.fetch at hr
    split at hr
    · rename_i x hx
      cases hr
      exact h.result hx
    · exact ih (h.receive (hd d List.mem_cons_self)) (fun d' hd' => hd d' (List.mem_cons_of_mem _ hd')) hr

theorem fetch_used {f : Fetcher} {ask : Name} (ha : f.ask = ask) (hb : f.base = none) (ht : f.total = 0) {ds : List Data}
    (hn : ∀ d ∈ ds, ¬ ask <+: d.name) : f.fetch ds = none := by
  have h0 : f.result = none := by unfold Fetcher.result; simp [ht]
  induction ds with
  | nil => exact h0
  | cons d ds ih =>
    unfold Fetcher.fetch
    rw [h0]
    dsimp only
    have : f.receive d = f := by
      unfold Fetcher.receive
      rw [if_pos]
      have : f.wants d.name = false := by
        unfold Fetcher.wants
        rw [hb]
        cases e : Name.isPrefixOf f.ask d.name with
        | false => rfl
        | true => exact absurd (ha ▸ List.isPrefixOf_iff_prefix.1 e) (hn d List.mem_cons_self)
      simp [this]
    rw [this]
    exact ih (fun d' hd' => hn d' (List.mem_cons_of_mem _ hd'))

variable {ι : Type} [DecidableEq ι]

/-- **C105, whole.** Whatever packets of the router's come, from its different lives, in any order, with any missing or
twice: if the fetch of an LSA ends, its result is the encoding of an LSA of that router, type and number, all of it and
nothing else.  All packets with that type and number carry that LSA. -/
theorem C105_octets {c : ι → RConf} (hs : Net.Sane c) {N : Net.State ι} (h : Net.Reachable c N) (j : ι) (t : LsaType) (k : Nat)
    (hk : k < 2 ^ 64) (enc : Lsa → List UInt8) (hbig : ∀ l, (c j).lsdb.segments l < 2 ^ 64) (ds : List Seg)
    (hds : ∀ d ∈ ds, .data d ∈ (N j).log) (r : List UInt8)
    (hr : Fetcher.fetch { ask := (c j).lsdb.names.lsaInterest t k } (ds.map (ofSeg enc)) = some r) :
    ∃ l, l.origin = (c j).lsdb.router ∧ l.type = t ∧ l.seq = k ∧ r = enc l ∧ .publish t k ∈ (N j).log ∧
      ∀ d, .data d ∈ (N j).log → d.lsa.type = t → d.lsa.seq = k → d.lsa = l := by
  have hn := (h.ninv hs).node j
  by_cases hex : ∃ d ∈ ds, (c j).lsdb.names.lsaInterest t k <+: d.name
  · obtain ⟨d, hd, hp⟩ := hex
    have hsent := fun d hd => net_named hs h j d (hds d hd)
    obtain ⟨h1, h2, -⟩ := (hsent d hd).under hk hp
    have hm : Made (c j).lsdb (N j).r.core.lsdb (N j).past d.lsa := .sent d (hds d hd) rfl
    have huniq : ∀ d', .data d' ∈ (N j).log → d'.lsa.type = t → d'.lsa.seq = k → d'.lsa = d.lsa := fun d' hd' g1 g2 =>
      hn.uniq _ _ (.sent d' hd' rfl) hm (g1.trans h1.symm) (g2.trans h2.symm)
    refine ⟨d.lsa, (hn.made _ hm).1, h1, h2, ?_, ?_, huniq⟩
    · refine Fetcher.Holds.fetch (b := enc d.lsa) (ask := (c j).lsdb.names.lsaInterest t k)
        (f := { ask := (c j).lsdb.names.lsaInterest t k })
        ⟨rfl, by simp, Or.inl rfl, by simp⟩ ?_ hr
      intro x hx hpx
      obtain ⟨d', hd', rfl⟩ := List.mem_map.1 hx
      obtain ⟨g1, g2, g3⟩ := (hsent d' hd').under hk hpx
      have e := huniq d' (hds d' hd') g1 g2
      have hc := count_pos (enc d.lsa)
      refine ⟨g3, ?_, d'.idx, (hsent d' hd').number (hbig _), ?_⟩
      · show count (enc d'.lsa) - 1 + 1 = _
        rw [e]; omega
      · show piece (enc d'.lsa) _ = _
        rw [e]
    · have := hn.told _ hm
      rw [h1, h2] at this
      exact this
  · rw [fetch_used rfl rfl rfl] at hr
    · cases hr
    · intro x hx hpx
      obtain ⟨d', hd', rfl⟩ := List.mem_map.1 hx
      exact hex ⟨d', hd', hpx⟩

/-! ### What is still kept is served -/

theorem fifo_same {c : LConf} {s : Lsdb} {op : Op} (h1 : ∀ n v, op ≠ .interest n v) (h2 : ∀ n, op ≠ .fifoGone n) :
    (step c s op).fifo = s.fifo := by
  by_cases hs : Op.special op = false
  · exact (step_keep c s op hs).fifo
  · cases op with
    | setAdjs l => rfl
    | setNpl l => rfl
    | scheduleBuild =>
      show (scheduleBuild c s).fifo = _
      unfold scheduleBuild
      dsimp only
      split <;> rfl
    | buildTimer =>
      show (buildTimer c s).fifo = _
      unfold buildTimer
      split
      · rfl
      · split
        · rfl
        · exact (buildAdjLsa_spec c s).2.2.1
    | fifoGone n => exact absurd rfl (h2 n)
    | interest n v => exact absurd rfl (h1 n v)
    | _ => exact absurd rfl hs

theorem encNni_inj {a b : Nat} (ha : a < 2 ^ 64) (hb : b < 2 ^ 64) (h : Tlv.encNni a = Tlv.encNni b) : a = b := by
  have := congrArg Tlv.decNni h
  rw [Tlv.decNni_encNni a ha, Tlv.decNni_encNni b hb] at this
  exact Option.some.inj this

theorem segName_inj {n n' : Name} {v v' i i' : Nat} (h : segName n v i = segName n' v' i') :
    n = n' ∧ Tlv.encNni v = Tlv.encNni v' ∧ Tlv.encNni i = Tlv.encNni i' := by
  unfold segName at h
  obtain ⟨h1, h2⟩ := List.append_inj' h rfl
  simp only [List.cons.injEq, Comp.mk.injEq, true_and, and_true] at h2
  exact ⟨h1, h2.1, h2.2⟩

/-- A segment that is kept is what an interest for its name gets. -/
theorem hit {c : LConf} {s : Lsdb} {n : Name} {v i : Nat} (hv : v < 2 ^ 64) (hp : c.names.lsaPrefix <+: n)
    (hlen : (segName n v i).length ≤ 8800) {d : Seg} (hd : d ∈ s.fifo) (e : d.name = segName n v i) (w : Nat) :
    ∃ d' ∈ s.fifo, d'.name = segName n v i ∧ step c s (.interest (segName n v i) w) = s.emit (.data d') := by
  obtain ⟨d', h1, h2, h3⟩ := least_exact (key := fun d : Seg => d.name) hd e
  refine ⟨d', h2, h3, ?_⟩
  show (if (segName n v i).length ≤ maxComponents then processInterest c s (segName n v i) w else s) = _
  rw [if_pos (show _ ≤ maxComponents from hlen)]
  unfold processInterest
  have hp' : Name.isPrefixOf c.names.lsaPrefix (segName n v i) = true :=
    List.isPrefixOf_iff_prefix.2 (hp.trans (List.prefix_append _ _))
  rw [if_pos hp', show (segName n v i).fromEnd 2 = some ⟨54, Tlv.encNni v⟩ from Name.fromEnd_append2]
  dsimp only
  rw [if_pos (by simp [Comp.isVersion, Tlv.decNni_encNni v hv]), h1]

/-- Segments that are kept together, with at most `p` newer ones behind them and no others of the same names. -/
def Behind (mine : List Seg) (p : Nat) (l : List Seg) : Prop :=
  ∃ pre post, l = pre ++ mine ++ post ∧ post.length ≤ p ∧ ∀ d ∈ pre ++ post, ∀ x ∈ mine, d.name ≠ x.name

theorem Behind.insert {mine : List Seg} {p : Nat} {l new : List Seg} (h : Behind mine p l)
    (hn : ∀ d ∈ new, ∀ x ∈ mine, d.name ≠ x.name) (hroom : mine.length + p + new.length ≤ 100) :
    Behind mine (p + new.length) (fifoInsert l new) := by
  obtain ⟨pre, post, rfl, h1, h2⟩ := h
  refine ⟨pre.drop ((pre ++ mine ++ post ++ new).length - 100), post ++ new, ?_, by simp; omega, ?_⟩
  · unfold fifoInsert
    rw [show pre ++ mine ++ post ++ new = pre ++ (mine ++ (post ++ new)) by simp]
    rw [List.drop_append, show (pre ++ (mine ++ (post ++ new))).length - 100 - pre.length = 0 by simp; omega]
    simp
  · intro d hd x hx
    rcases List.mem_append.1 hd with hd | hd
    · exact h2 d (List.mem_append_left _ (List.mem_of_mem_drop hd)) x hx
    · rcases List.mem_append.1 hd with hd | hd
      · exact h2 d (List.mem_append_right _ hd) x hx
      · exact hn d hd x hx

theorem Behind.filter {mine : List Seg} {p : Nat} {l : List Seg} (h : Behind mine p l) (f : Seg → Bool)
    (hf : ∀ d ∈ mine, f d = true) : Behind mine p (l.filter f) := by
  obtain ⟨pre, post, rfl, h1, h2⟩ := h
  refine ⟨pre.filter f, post.filter f, ?_, Nat.le_trans (List.length_filter_le _ _) h1, ?_⟩
  · rw [List.filter_append, List.filter_append, List.filter_eq_self.2 hf]
  · intro d hd x hx
    rw [← List.filter_append] at hd
    exact h2 d (List.mem_filter.1 hd).1 x hx

theorem Behind.mono {mine : List Seg} {p q : Nat} {l : List Seg} (h : Behind mine p l) (hq : p ≤ q) : Behind mine q l := by
  obtain ⟨pre, post, e, h1, h2⟩ := h
  exact ⟨pre, post, e, Nat.le_trans h1 hq, h2⟩

/-- The segments made of an LSA for one interest. -/
def segsOf (c : LConf) (n : Name) (v : Nat) (l : Lsa) : List Seg :=
  (List.range (c.segments l)).map (fun i => ⟨segName n v i, l, i⟩)

/-- An interest other than for the segments of the given version. -/
def isOther (n : Name) (v : Nat) : Op → Bool
  | .interest m _ => !Name.isPrefixOf (n ++ [⟨54, Tlv.encNni v⟩]) m
  | _ => false

theorem kept_step {c : LConf} (hnet : Comp.str "LSA" ∉ c.names.network) {n : Name} {v : Nat} {l : Lsa} {B p : Nat}
    (hp : c.names.lsaPrefix <+: n) (hv : v < 2 ^ 64) (hlen : n.length + 2 ≤ 8800)
    (hB : ∀ l, c.segments l ≤ B) {s : Lsdb} (h : Behind (segsOf c n v l) p s.fifo) (op : Op)
    (hroom : isOther n v op = true → c.segments l + p + B ≤ 100)
    (hint : ∀ m w, op = .interest m w → (∃ i < c.segments l, m = segName n v i) ∨ (isOther n v op = true ∧ w < 2 ^ 64 ∧ (m = n → w ≠ v)))
    (hgone : ∀ m, op = .fifoGone m → ∀ i, ¬ m <+: segName n v i) :
    Behind (segsOf c n v l) (p + if isOther n v op then B else 0) (step c s op).fifo := by
  cases op with
  | interest m w =>
    rcases hint m w rfl with ⟨i, hi, rfl⟩ | ⟨ho, hw, hne⟩
    · have hmem : (⟨segName n v i, l, i⟩ : Seg) ∈ s.fifo := by
        obtain ⟨pre, post, e, -, -⟩ := h
        rw [e]
        exact List.mem_append_left _ (List.mem_append_right _ (List.mem_map.2 ⟨i, List.mem_range.2 hi, rfl⟩))
      obtain ⟨d', -, -, e⟩ := hit (c := c) hv hp (by simpa [segName] using hlen) hmem rfl w
      rw [e]
      exact Behind.mono h (Nat.le_add_right _ _)
    · rw [if_pos ho]
      rcases step_interest_cases c s m w with ⟨h1, -⟩ | ⟨d, -, -, -, h1, -⟩ | ⟨iname, hl, hp', hpre, -, he⟩
      · rw [h1]; exact h.mono (Nat.le_add_right _ _)
      · rw [h1]; exact h.mono (Nat.le_add_right _ _)
      · rw [he]
        have hlen' : iname.length < 2 ^ 62 :=
          Nat.lt_of_le_of_lt (Nat.le_trans hpre.length_le hl) (by decide)
        rcases processStripped_cases c s m iname w hnet hlen' hp' hpre with ⟨h1, -⟩ | ⟨o, -, -, -, h1, -⟩
        · rw [h1]; exact h.mono (Nat.le_add_right _ _)
        · rw [h1]
          refine Behind.mono (Behind.insert h ?_ ?_) ?_
          · intro d hd x hx e
            obtain ⟨i, -, rfl⟩ := List.mem_map.1 hd
            obtain ⟨i', -, rfl⟩ := List.mem_map.1 hx
            obtain ⟨e1, e2, -⟩ := segName_inj e
            exact hne e1 (encNni_inj hw hv e2)
          · have := hroom ho
            have := hB o.lsa
            simp [segsOf]
            omega
          · have := hB o.lsa
            simp
            omega
  | fifoGone m =>
    refine Behind.mono (Behind.filter h _ ?_) (Nat.le_add_right _ _)
    intro d hd
    obtain ⟨i, -, rfl⟩ := List.mem_map.1 hd
    cases e : Name.isPrefixOf m (segName n v i) with
    | false => rfl
    | true => exact absurd (List.isPrefixOf_iff_prefix.1 e) (hgone m rfl i)
  | _ =>
    rw [fifo_same (by intro n v; nofun) (by intro n; nofun)]
    exact Behind.mono h (Nat.le_add_right _ _)

theorem kept_run {c : LConf} (hnet : Comp.str "LSA" ∉ c.names.network) {n : Name} {v : Nat} {l : Lsa} {B : Nat}
    (hp : c.names.lsaPrefix <+: n) (hv : v < 2 ^ 64) (hlen : n.length + 2 ≤ 8800)
    (hB : ∀ l, c.segments l ≤ B) (ops : List Op) : ∀ {s : Lsdb} {p : Nat}, Behind (segsOf c n v l) p s.fifo →
    c.segments l + p + (ops.filter (isOther n v)).length * B ≤ 100 →
    (∀ m w, .interest m w ∈ ops → (∃ i < c.segments l, m = segName n v i) ∨
      (isOther n v (.interest m w) = true ∧ w < 2 ^ 64 ∧ (m = n → w ≠ v))) →
    (∀ m, .fifoGone m ∈ ops → ∀ i, ¬ m <+: segName n v i) →
    ∃ q, Behind (segsOf c n v l) q (run c s ops).fifo := by
  induction ops with
  | nil => intro s p h _ _ _; exact ⟨p, h⟩
  | cons op ops ih =>
    intro s p h hroom hint hgone
    have hcount : (List.filter (isOther n v) (op :: ops)).length * B =
        (if isOther n v op then B else 0) + (List.filter (isOther n v) ops).length * B := by
      by_cases ho : isOther n v op = true
      · rw [List.filter_cons_of_pos ho, if_pos ho, List.length_cons, Nat.succ_mul, Nat.add_comm]
      · rw [List.filter_cons_of_neg ho, if_neg ho, Nat.zero_add]
    rw [hcount] at hroom
    have h1 := kept_step hnet hp hv hlen hB h op
      (by intro ho; rw [if_pos ho] at hroom; omega)
      (by rintro m w rfl; exact hint m w List.mem_cons_self)
      (by rintro m rfl; exact hgone m List.mem_cons_self)
    exact ih (s := step c s op) h1 (by omega) (fun m w hm => hint m w (List.mem_cons_of_mem _ hm))
      (fun m hm => hgone m (List.mem_cons_of_mem _ hm))

/-- The first interest for an LSA puts its segments into the store. -/
theorem first_interest {c : LConf} (hnet : Comp.str "LSA" ∉ c.names.network) {s : Lsdb} {t : LsaType} (ht : t ≠ .base) {k v : Nat}
    (hk : k < 2 ^ 64) (hlen : (c.names.lsaInterest t k).length ≤ 8800) {o : Obj} (ho : s.find c.router t = some o)
    (hseq : o.lsa.seq = k) :
    (step c s (.interest (c.names.lsaInterest t k) v)).fifo = fifoInsert s.fifo (segsOf c (c.names.lsaInterest t k) v o.lsa) := by
  rw [own_interest_step c s t k v ht hnet hlen hk]
  unfold replyOwn
  rw [ho]
  dsimp only
  rw [if_pos hseq]
  split <;> rfl

theorem lsaPrefix_prefix (c : LConf) (hnet : Comp.str "LSA" ∉ c.names.network) (t : LsaType) (k : Nat)
    (hlen : (c.names.lsaInterest t k).length ≤ 8800) : c.names.lsaPrefix <+: c.names.lsaInterest t k :=
  (own_interest_parts (c := c) t (Comp.number k) hnet (Nat.lt_of_le_of_lt hlen (by decide))).1

theorem segment_is {c : LConf} {n : Name} {v i : Nat} {l : Lsa} {p : Nat} {s : Lsdb} (hv : v < 2 ^ 64)
    (hp : c.names.lsaPrefix <+: n) (hlen : n.length + 2 ≤ 8800) (hbig : c.segments l < 2 ^ 64) (hi : i < c.segments l)
    (h : Behind (segsOf c n v l) p s.fifo) (w : Nat) :
    step c s (.interest (segName n v i) w) = s.emit (.data ⟨segName n v i, l, i⟩) := by
  obtain ⟨pre, post, e, -, hne⟩ := h
  have hmine : (⟨segName n v i, l, i⟩ : Seg) ∈ segsOf c n v l := List.mem_map.2 ⟨i, List.mem_range.2 hi, rfl⟩
  obtain ⟨d, hd, h1, h2⟩ := hit (c := c) (s := s) (i := i) hv hp (by simpa [segName] using hlen)
    (by rw [e]; exact List.mem_append_left _ (List.mem_append_right _ hmine)) rfl w
  rw [h2]
  congr 2
  rw [e] at hd
  have hd' : d ∈ pre ++ post ∨ d ∈ segsOf c n v l := by
    simp only [List.mem_append] at hd ⊢
    rcases hd with (h | h) | h
    · exact Or.inl (Or.inl h)
    · exact Or.inr h
    · exact Or.inl (Or.inr h)
  rcases hd' with hd' | hd'
  · exact absurd h1 (hne d hd' _ hmine)
  · obtain ⟨i', hi', rfl⟩ := List.mem_map.1 hd'
    have := encNni_inj (Nat.lt_trans (List.mem_range.1 hi') hbig) (Nat.lt_trans hi hbig) (segName_inj h1).2.2
    rw [this]

/-- The segments are kept from the first interest on, as long as there is room. -/
theorem kept_after {c : LConf} (hnet : Comp.str "LSA" ∉ c.names.network) {s : Lsdb} {t : LsaType} (ht : t ≠ .base)
    {k v B : Nat} (hk : k < 2 ^ 64) (hv : v < 2 ^ 64) (hlen : (c.names.lsaInterest t k).length + 2 ≤ 8800)
    {o : Obj} (ho : s.find c.router t = some o) (hseq : o.lsa.seq = k)
    (hnew : ∀ d ∈ s.fifo, ∀ i, d.name ≠ segName (c.names.lsaInterest t k) v i)
    (hB : ∀ l, c.segments l ≤ B) (ops : List Op)
    (hroom : c.segments o.lsa + (ops.filter (isOther (c.names.lsaInterest t k) v)).length * B ≤ 100)
    (hint : ∀ m w, .interest m w ∈ ops → (∃ i < c.segments o.lsa, m = segName (c.names.lsaInterest t k) v i) ∨
      (isOther (c.names.lsaInterest t k) v (.interest m w) = true ∧ w < 2 ^ 64 ∧ (m = c.names.lsaInterest t k → w ≠ v)))
    (hgone : ∀ m, .fifoGone m ∈ ops → ∀ i, ¬ m <+: segName (c.names.lsaInterest t k) v i) :
    ∃ q, Behind (segsOf c (c.names.lsaInterest t k) v o.lsa) q (run c s (.interest (c.names.lsaInterest t k) v :: ops)).fifo := by
  have hp := lsaPrefix_prefix c hnet t k (by omega)
  have h0 : Behind (segsOf c (c.names.lsaInterest t k) v o.lsa) 0 (step c s (.interest (c.names.lsaInterest t k) v)).fifo := by
    rw [first_interest hnet ht hk (by omega) ho hseq]
    refine ⟨s.fifo.drop ((s.fifo ++ segsOf c (c.names.lsaInterest t k) v o.lsa).length - 100), [], ?_, Nat.le_refl _, ?_⟩
    · unfold fifoInsert
      rw [List.drop_append, show (s.fifo ++ segsOf c (c.names.lsaInterest t k) v o.lsa).length - 100 - s.fifo.length = 0 by
        simp [segsOf]; omega]
      simp
    · intro d hd x hx
      obtain ⟨i', -, rfl⟩ := List.mem_map.1 hx
      rw [List.append_nil] at hd
      exact hnew d (List.mem_of_mem_drop hd) i'
  exact kept_run hnet hp hv hlen hB ops h0 (by omega) hint hgone

theorem serve_all {c : LConf} {n : Name} {v : Nat} {l : Lsa} {p : Nat} (hv : v < 2 ^ 64)
    (hp : c.names.lsaPrefix <+: n) (hlen : n.length + 2 ≤ 8800) (hbig : c.segments l < 2 ^ 64) (w : Nat)
    (is : List Nat) : ∀ {s : Lsdb}, (∀ i ∈ is, i < c.segments l) → Behind (segsOf c n v l) p s.fifo →
    (run c s (is.map (fun i => .interest (segName n v i) w))).log =
      s.log ++ is.map (fun i => .data ⟨segName n v i, l, i⟩) := by
  induction is with
  | nil => intro s _ _; simp [run]
  | cons i is ih =>
    intro s hi h
    have e := segment_is hv hp hlen hbig (hi i List.mem_cons_self) h w
    have := ih (s := s.emit (.data ⟨segName n v i, l, i⟩)) (fun i hi' => hi i (List.mem_cons_of_mem _ hi')) h
    show (run c (step c s (.interest (segName n v i) w)) (is.map _)).log = _
    rw [e, this]
    simp [emit]

theorem fetch_none {ds : List Data} {f : Fetcher} (h : f.fetch ds = none) : (ds.foldl Fetcher.receive f).result = none := by
  induction ds generalizing f with
  | nil => exact h
  | cons d ds ih =>
    unfold Fetcher.fetch at h
    split at h
    · cases h
    · exact ih h

/-- The pieces of one version, all of them, in any order: the fetcher has the whole. -/
theorem assembled (b : List UInt8) (hb : count b < 2 ^ 64) (n : Name) (v : Nat) (is : List Nat) (hi : ∀ i ∈ is, i < count b)
    (hall : ∀ i < count b, i ∈ is) :
    Fetcher.fetch { ask := n } (is.map (fun i => ⟨segName n v i, piece b i, count b - 1⟩)) = some b := by
  have hc := count_pos b
  have hnum : ∀ i < count b, number (segName n v i) = some i := fun i hi => by
    rw [segName, show n ++ [(⟨54, Tlv.encNni v⟩ : Comp), ⟨50, Tlv.encNni i⟩] = (n ++ [⟨54, Tlv.encNni v⟩]) ++ [⟨50, Tlv.encNni i⟩] by simp]
    exact number_seg _ (Nat.lt_trans hi hb)
  cases hr : Fetcher.fetch { ask := n } (is.map (fun i => ⟨segName n v i, piece b i, count b - 1⟩)) with
  | some r =>
    refine congrArg some (Fetcher.Holds.fetch (b := b) (ask := n) (f := { ask := n }) ⟨rfl, by simp, Or.inl rfl, by simp⟩ ?_ hr)
    intro d hd _
    obtain ⟨i, hi', rfl⟩ := List.mem_map.1 hd
    refine ⟨?_, by show count b - 1 + 1 = _; omega, i, hnum i (hi i hi'), rfl⟩
    intro e
    have := congrArg List.length e
    simp [segName] at this
  | none =>
    exfalso
    have key : ∀ (is' : List Nat) (f : Fetcher), (∀ i ∈ is', i < count b) → f.failed = false → f.ask = n →
        (f.base = none ∨ f.base = some (n ++ [⟨54, Tlv.encNni v⟩])) →
        (is' = [] → f.total = count b) →
        ∃ g : Fetcher, (is'.map (fun i => (⟨segName n v i, piece b i, count b - 1⟩ : Data))).foldl Fetcher.receive f = g ∧
          g.failed = false ∧ g.total = count b ∧ (∀ i, (i ∈ is' ∨ f.got.any (·.1 == i) = true) → g.got.any (·.1 == i) = true) := by
      intro is'
      induction is' with
      | nil => intro f _ h1 h2 h3 h4; exact ⟨f, rfl, h1, h4 rfl, fun i hi => by simpa using hi⟩
      | cons j is' ih =>
        intro f hj h1 h2 h3 h4
        have hw : f.wants (segName n v j) = true := by
          unfold Fetcher.wants
          rcases h3 with h3 | h3 <;> rw [h3]
          · rw [h2]; exact List.isPrefixOf_iff_prefix.2 (List.prefix_append _ _)
          · simp [segName, List.dropLast_append_of_ne_nil]
        have hrec : f.receive ⟨segName n v j, piece b j, count b - 1⟩ =
            { f with base := some (n ++ [⟨54, Tlv.encNni v⟩]), total := count b,
                     got := if f.got.any (·.1 == j) then f.got else f.got ++ [(j, piece b j)] } := by
          unfold Fetcher.receive
          rw [h1, hw, if_neg (by simp), hnum j (hj j List.mem_cons_self)]
          dsimp only
          rw [show count b - 1 + 1 = count b by omega]
          congr 2
          rcases h3 with h3 | h3 <;> rw [h3]
          · simp [segName, List.dropLast_append_of_ne_nil]
          · rfl
        obtain ⟨g, g1, g2, g3, g4⟩ := ih (f.receive ⟨segName n v j, piece b j, count b - 1⟩)
          (fun i hi => hj i (List.mem_cons_of_mem _ hi)) (by rw [hrec]; exact h1) (by rw [hrec]; exact h2)
          (by rw [hrec]; exact Or.inr rfl) (by rw [hrec]; intro; rfl)
        refine ⟨g, g1, g2, g3, ?_⟩
        intro i hi'
        refine g4 i ?_
        rw [hrec]
        dsimp only
        rcases hi' with hi' | hi'
        · rcases List.mem_cons.1 hi' with rfl | hi'
          · right
            split
            · assumption
            · simp
          · exact Or.inl hi'
        · right
          split
          · exact hi'
          · rw [List.any_append, hi']; rfl
    obtain ⟨g, g1, g2, g3, g4⟩ := key is { ask := n } hi rfl rfl (Or.inl rfl)
      (by intro e; have := hall 0 hc; rw [e] at this; cases this)
    have := fetch_none hr
    rw [g1] at this
    unfold Fetcher.result at this
    rw [if_neg (by simp [g2, g3]; omega), if_pos] at this
    · cases this
    · rw [g3]
      exact List.all_eq_true.2 fun i hi' => g4 i (Or.inl (hall i (List.mem_range.1 hi')))

/-- **C105, served and put together.** A router is asked for its LSA, under the version `v`, and has since answered
interests `ops` of any kind.  Then the first answer is the first segment, the interests for the other segments of that
version are answered with exactly those segments of the LSA as it was when first asked for (also if it has changed since),
and the fetcher that gets them has the whole encoding.  This is so as long as the other interests that came in between
leave room in the store of a hundred segments (each may need as many as the largest LSA), the store's entries have not
been taken out, and the clock has not given the same version again.  Missing for the full claim: larger LSAs and more
interests, see `C105_violated_large` and `C105_violated_crowd`. -/
theorem C105_fetched_partial {c : LConf} (hnet : Comp.str "LSA" ∉ c.names.network) {s : Lsdb} {t : LsaType} (ht : t ≠ .base)
    {k v B : Nat} (hk : k < 2 ^ 64) (hv : v < 2 ^ 64) (hlen : (c.names.lsaInterest t k).length + 2 ≤ 8800)
    (enc : Lsa → List UInt8) (henc : ∀ l, c.segments l = count (enc l))
    {o : Obj} (ho : s.find c.router t = some o) (hseq : o.lsa.seq = k)
    (hnew : ∀ d ∈ s.fifo, ∀ i, d.name ≠ segName (c.names.lsaInterest t k) v i)
    (hB : ∀ l, c.segments l ≤ B) (ops : List Op)
    (hroom : c.segments o.lsa + (ops.filter (isOther (c.names.lsaInterest t k) v)).length * B ≤ 100)
    (hint : ∀ m w, .interest m w ∈ ops → (∃ i < c.segments o.lsa, m = segName (c.names.lsaInterest t k) v i) ∨
      (isOther (c.names.lsaInterest t k) v (.interest m w) = true ∧ w < 2 ^ 64 ∧ (m = c.names.lsaInterest t k → w ≠ v)))
    (hgone : ∀ m, .fifoGone m ∈ ops → ∀ i, ¬ m <+: segName (c.names.lsaInterest t k) v i)
    (is : List Nat) (hi : ∀ i ∈ is, i < c.segments o.lsa) (hall : ∀ i < c.segments o.lsa, i = 0 ∨ i ∈ is) (w : Nat) :
    (step c s (.interest (c.names.lsaInterest t k) v)).log =
      s.log ++ [.data ⟨segName (c.names.lsaInterest t k) v 0, o.lsa, 0⟩] ∧
    (run c s (.interest (c.names.lsaInterest t k) v :: ops ++
        is.map (fun i => .interest (segName (c.names.lsaInterest t k) v i) w))).log =
      (run c s (.interest (c.names.lsaInterest t k) v :: ops)).log ++
        is.map (fun i => .data ⟨segName (c.names.lsaInterest t k) v i, o.lsa, i⟩) ∧
    Fetcher.fetch { ask := c.names.lsaInterest t k }
      ((0 :: is).map (fun i => ofSeg enc ⟨segName (c.names.lsaInterest t k) v i, o.lsa, i⟩)) = some (enc o.lsa) := by
  have hp := lsaPrefix_prefix c hnet t k (by omega)
  have hpos : ∀ l, 0 < c.segments l := fun l => by rw [henc]; exact count_pos _
  refine ⟨(C33_own_interest c s t k v ht hnet (by omega) hk hpos).1 o ho hseq, ?_, ?_⟩
  · obtain ⟨q, hq⟩ := kept_after hnet ht hk hv hlen ho hseq hnew hB ops hroom hint hgone
    have := serve_all hv hp hlen (by omega) w is hi hq
    rw [← this]
    unfold run
    rw [List.foldl_append]
  · rw [henc] at hi hall hroom
    refine assembled (enc o.lsa) (by omega) _ v (0 :: is) ?_ ?_
    · intro i hi'
      rcases List.mem_cons.1 hi' with rfl | hi'
      · exact count_pos _
      · exact hi i hi'
    · intro i hi'
      rcases hall i hi' with rfl | h
      · exact List.mem_cons_self
      · exact List.mem_cons_of_mem _ h

/-! ### What is no longer kept -/

/-- All contents the fetcher has came in packets of one version. -/
theorem got_from {ds : List Data} : ∀ {f : Fetcher} {P : Data → Prop}, (∀ d ∈ ds, P d) →
    (∀ d, P d → f.ask ≠ d.name) →
    (∀ x ∈ f.got, ∃ d b, P d ∧ f.base = some b ∧ d.name.dropLast = b ∧ number d.name = some x.1) →
    (f.base = none → f.got = []) → (f.total ≠ 0 → ∃ d, P d ∧ Name.isPrefixOf f.ask d.name = true ∧ f.total = d.final + 1) →
    (∀ b, f.base = some b → Name.isPrefixOf f.ask b = true) →
    ∀ {r}, f.fetch ds = some r → ∃ g : Fetcher, g.ask = f.ask ∧
      (∀ x ∈ g.got, ∃ d b, P d ∧ g.base = some b ∧ d.name.dropLast = b ∧ number d.name = some x.1) ∧
      (∃ d, P d ∧ Name.isPrefixOf f.ask d.name = true ∧ g.total = d.final + 1) ∧
      (∀ i < g.total, ∃ x ∈ g.got, x.1 = i) ∧ (∀ b, g.base = some b → Name.isPrefixOf f.ask b = true) := by
  have hres : ∀ {f : Fetcher} {r}, f.result = some r → f.total ≠ 0 ∧ ∀ i < f.total, ∃ x ∈ f.got, x.1 = i := by
    intro f r h
    unfold Fetcher.result at h
    split at h
    · cases h
    · rename_i hc
      split at h
      · rename_i hall
        refine ⟨by intro e; simp [e] at hc, fun i hi => ?_⟩
        obtain ⟨x, hx, e⟩ := List.any_eq_true.1 (List.all_eq_true.1 hall i (List.mem_range.2 hi))
        exact ⟨x, hx, by simpa using e⟩
      · cases h
  induction ds with
  | nil =>
    intro f P hds hne h1 h2 h3 h5 r hr
    obtain ⟨h4, h6⟩ := hres hr
    exact ⟨f, rfl, h1, h3 h4, h6, h5⟩
  | cons d ds ih =>
    intro f P hds hne h1 h2 h3 h5 r hr
    unfold Fetcher.fetch at hr
    split at hr
    · rename_i x hx
      obtain ⟨h4, h6⟩ := hres hx
      exact ⟨f, rfl, h1, h3 h4, h6, h5⟩
    · have hask : (f.receive d).ask = f.ask := by
        unfold Fetcher.receive
        split
        · rfl
        · split <;> rfl
      have := ih (f := f.receive d) (P := P) (fun d' hd' => hds d' (List.mem_cons_of_mem _ hd'))
        (by rw [hask]; exact hne) ?_ ?_ ?_ ?_ hr
      · rw [hask] at this; exact this
      all_goals rw [Fetcher.receive]; split
      · exact h1
      · rename_i hc
        have hw : f.wants d.name = true := by
          cases e : f.wants d.name with
          | true => rfl
          | false => simp [e] at hc
        split
        · exact h1
        · rename_i i hi
          dsimp only
          have hbase : d.name.dropLast = f.base.getD d.name.dropLast := by
            unfold Fetcher.wants at hw
            split at hw
            · rename_i e; rw [e]; rfl
            · rename_i b e
              rw [Bool.and_eq_true, beq_iff_eq] at hw
              rw [e]; exact hw.1
          have hold : ∀ x ∈ f.got, ∃ d' b, P d' ∧ some (f.base.getD d.name.dropLast) = some b ∧ d'.name.dropLast = b ∧
              number d'.name = some x.1 := by
            intro x hx
            obtain ⟨d', b, g1, g2, g3⟩ := h1 x hx
            exact ⟨d', b, g1, by rw [g2]; rfl, g3⟩
          intro x hx
          split at hx
          · exact hold x hx
          · rcases List.mem_append.1 hx with hx | hx
            · exact hold x hx
            · rw [List.mem_singleton] at hx
              exact ⟨d, _, hds d List.mem_cons_self, rfl, hbase, by rw [hx]; exact hi⟩
      · exact h2
      · split
        · exact h2
        · intro e; cases e
      · exact h3
      · rename_i hc
        have hw : f.wants d.name = true := by
          cases e : f.wants d.name with
          | true => rfl
          | false => simp [e] at hc
        split
        · exact h3
        · intro _
          refine ⟨d, hds d List.mem_cons_self, ?_, rfl⟩
          unfold Fetcher.wants at hw
          split at hw
          · exact hw
          · rename_i b e
            rw [Bool.and_eq_true, beq_iff_eq] at hw
            exact List.isPrefixOf_iff_prefix.2
              ((List.isPrefixOf_iff_prefix.1 (h5 b e)).trans (hw.1 ▸ List.dropLast_prefix _))
      · exact h5
      · rename_i hc
        have hw : f.wants d.name = true := by
          cases e : f.wants d.name with
          | true => rfl
          | false => simp [e] at hc
        split
        · exact h5
        · rename_i i hi
          intro b hb
          dsimp only at hb
          cases e : f.base with
          | some b' => rw [e] at hb; cases hb; exact h5 b' e
          | none =>
            rw [e] at hb
            cases hb
            unfold Fetcher.wants at hw
            rw [e] at hw
            dsimp only at hw
            exact List.isPrefixOf_iff_prefix.2
              (prefix_dropLast (List.isPrefixOf_iff_prefix.1 hw) (hne d (hds d List.mem_cons_self)))

theorem dropLast_seg (n : Name) (v i : Nat) : (segName n v i).dropLast = n ++ [⟨54, Tlv.encNni v⟩] := by
  simp [segName, List.dropLast_append_of_ne_nil]

/-- A large LSA never arrives: when it takes more than 101 segments, no packets of the router, from any of its lives, in
any order and number, make a fetch of it succeed.  Putting the segments into the store of a hundred pushes the first ones
out at once; the interest for one of them is then taken as a new one and answered under a longer name, which is not the
name the fetcher waits for (src/lsdb.cpp:222-234, 278-296). -/
theorem C105_violated_large {c : ι → RConf} (hs : Net.Sane c) {N : Net.State ι} (h : Net.Reachable c N) (j : ι) (t : LsaType)
    (k : Nat) (hk : k < 2 ^ 64) (enc : Lsa → List UInt8) (henc : ∀ l, (c j).lsdb.segments l = count (enc l))
    (hbig : ∀ l, (c j).lsdb.segments l < 2 ^ 64)
    (hl : ∀ d, .data d ∈ (N j).log → d.lsa.type = t → d.lsa.seq = k → 101 < (c j).lsdb.segments d.lsa)
    (ds : List Seg) (hds : ∀ d ∈ ds, .data d ∈ (N j).log) :
    Fetcher.fetch { ask := (c j).lsdb.names.lsaInterest t k } (ds.map (ofSeg enc)) = none := by
  cases hr : Fetcher.fetch { ask := (c j).lsdb.names.lsaInterest t k } (ds.map (ofSeg enc)) with
  | none => rfl
  | some r =>
    exfalso
    have hsent := fun d hd => net_named hs h j d (hds d hd)
    let ask := (c j).lsdb.names.lsaInterest t k
    have hwhole := hr
    obtain ⟨g, g1, g2, ⟨x, ⟨d, hd, rfl⟩, hx2, hx3⟩, g4, g5⟩ := got_from (P := fun x => ∃ d ∈ ds, x = ofSeg enc d)
      (fun x hx => by obtain ⟨d, hd, e⟩ := List.mem_map.1 hx; exact ⟨d, hd, e.symm⟩)
      (by
        rintro x ⟨d, hd, rfl⟩ e
        exact ((hsent d hd).under hk (by rw [show d.name = ask from e.symm]; exact List.prefix_rfl)).2.2 e)
      (by simp) (by simp) (by simp) (by simp) hr
    have hunder : ∀ d ∈ ds, ask <+: d.name → 101 < (c j).lsdb.segments d.lsa := fun d hd hp =>
      have h1 := (hsent d hd).under hk hp
      hl d (hds d hd) h1.1 h1.2.1
    have htot : 101 < g.total := by
      have h1 := hunder d hd (List.isPrefixOf_iff_prefix.1 hx2)
      rw [henc] at h1
      rw [hx3]
      show 101 < count (enc d.lsa) - 1 + 1
      omega
    obtain ⟨x0, hx0, e0⟩ := g4 0 (by omega)
    obtain ⟨x1, hx1, e1⟩ := g4 1 (by omega)
    obtain ⟨y0, b, ⟨d0, hd0, rfl⟩, k1, k2, k3⟩ := g2 x0 hx0
    obtain ⟨y1, b', ⟨d1, hd1, rfl⟩, k4, k5, k6⟩ := g2 x1 hx1
    rw [k1] at k4
    cases k4
    have hb := List.isPrefixOf_iff_prefix.1 (g5 b k1)
    have hn0 : number d0.name = some 0 := by rw [← e0]; exact k3
    have hn1 : number d1.name = some 1 := by rw [← e1]; exact k6
    have k2' : d0.name.dropLast = b := k2
    have k5' : d1.name.dropLast = b := k5
    have s0 := hsent d0 hd0
    have s1 := hsent d1 hd1
    have l0 := hunder d0 hd0 (hb.trans (k2' ▸ List.dropLast_prefix _))
    have l1 := hunder d1 hd1 (hb.trans (k5' ▸ List.dropLast_prefix _))
    have i0 : d0.idx = 0 := Option.some.inj ((s0.number (hbig _)).symm.trans hn0)
    have i1 : d1.idx = 1 := Option.some.inj ((s1.number (hbig _)).symm.trans hn1)
    obtain ⟨n0, v0, m0, w0⟩ := s0.named
    obtain ⟨n1, v1, m1, w1⟩ := s1.named
    rw [m0, dropLast_seg] at k2'
    rw [m1, dropLast_seg, ← k2'] at k5'
    have hn : n1 = n0 := (List.append_inj' k5' rfl).1
    rw [hn] at w1
    rcases w0 with w0 | w0
    · omega
    · rcases w1 with w1 | w1
      · omega
      · omega

/-- Once the segments of a version have been pushed out of the store, the interest for one of them is not answered with
Data of that name: what the router sends, if anything, has a longer name. -/
theorem C105_violated_pushed_out (c : LConf) (hnet : Comp.str "LSA" ∉ c.names.network) (s : Lsdb) (n : Name) (v i w : Nat)
    (hgone : ∀ d ∈ s.fifo, ¬ segName n v i <+: d.name) (d : Seg)
    (hd : .data d ∈ (step c s (.interest (segName n v i) w)).log) (hold : .data d ∉ s.log) :
    (segName n v i).length < d.name.length := by
  rcases step_interest_cases c s (segName n v i) w with ⟨-, h1⟩ | ⟨d', hd', hp, -, -, h1⟩ | ⟨iname, hl, hp', hpre, -, he⟩
  · rw [h1] at hd
    exact absurd hd hold
  · exact absurd hp (hgone d' hd')
  · rw [he] at hd
    have hlen' : iname.length < 2 ^ 62 :=
      Nat.lt_of_le_of_lt (Nat.le_trans hpre.length_le hl) (by decide)
    rcases processStripped_cases c s (segName n v i) iname w hnet hlen' hp' hpre with ⟨-, h2⟩ | ⟨o, -, -, -, -, h2⟩
    · rcases h2 with h2 | ⟨last, -, -, -, h2⟩ | ⟨m, -, -, h2⟩ <;> rw [h2] at hd
      · exact absurd hd hold
      all_goals
        rcases List.mem_append.1 hd with hd | hd
        · exact absurd hd hold
        · simp at hd
    · rcases h2 with h2 | ⟨i', -, h2⟩ <;> rw [h2] at hd
      · exact absurd hd hold
      · rcases List.mem_append.1 hd with hd | hd
        · exact absurd hd hold
        · simp only [List.mem_singleton, Out.data.injEq] at hd
          rw [hd]
          simp [segName]

/-! ### A router whose LSAs take two segments -/

def exConf2 : LConf := { exConf .off with segments := fun _ => 2 }
def exStart2 : Lsdb := init exConf2 none [exNeighbor .active] [⟨nm ["a"], .fin 5⟩] 0
def exAsk : Name := exConf2.names.lsaInterest .name 1

/-- Many fetches of the same LSA get in each other's way: a router whose Name LSA takes two segments is asked for it 51
times, by 51 others say, each getting the first segment under a version of its own.  The first of them then asks for the
second segment, which is no longer stored; the answer is the right segment, but under the name of the interest with
another version and segment number behind, and the fetcher does not take it. -/
theorem C105_violated_crowd :
    (exStart2.find exConf2.router .name).map (·.lsa.seq) = some 1 ∧
    (∃ l, (run exConf2 exStart2 ((List.range 51).map (fun v => .interest exAsk v) ++ [.interest (segName exAsk 0 1) 51])).log =
      (run exConf2 exStart2 ((List.range 51).map (fun v => .interest exAsk v))).log ++
        [.data ⟨segName (segName exAsk 0 1) 51 1, l, 1⟩]) ∧
    ∀ enc : Lsa → List UInt8, ∀ l, count (enc l) = 2 →
      Fetcher.fetch { ask := exAsk } ([⟨segName exAsk 0 0, l, 0⟩, ⟨segName (segName exAsk 0 1) 51 1, l, 1⟩].map (ofSeg enc)) = none := by
  refine ⟨by decide +kernel, ⟨((exStart2.find exConf2.router .name).map (·.lsa)).getD ⟨[], 0, 0, .names []⟩, by decide +kernel⟩, ?_⟩
  intro enc l h
  simp only [List.map_cons, List.map_nil, ofSeg, h]
  rw [show 2 - 1 = 1 from rfl]
  generalize piece (enc l) 0 = a
  generalize piece (enc l) 1 = b
  have e0 : Fetcher.receive { ask := exAsk } ⟨segName exAsk 0 0, a, 1⟩ =
      { ask := exAsk, base := some (exAsk ++ [⟨54, Tlv.encNni 0⟩]), total := 2, got := [(0, a)] } := by
    have h1 : Fetcher.wants { ask := exAsk } (segName exAsk 0 0) = true := by decide +kernel
    have h2 : number (segName exAsk 0 0) = some 0 := by decide +kernel
    unfold Fetcher.receive
    rw [h1, h2]
    simp [dropLast_seg]
  have e1 : Fetcher.receive { ask := exAsk, base := some (exAsk ++ [⟨54, Tlv.encNni 0⟩]), total := 2, got := [(0, a)] }
      ⟨segName (segName exAsk 0 1) 51 1, b, 1⟩ =
      { ask := exAsk, base := some (exAsk ++ [⟨54, Tlv.encNni 0⟩]), total := 2, got := [(0, a)] } := by
    have h1 : ((segName (segName exAsk 0 1) 51 1).dropLast == exAsk ++ [⟨54, Tlv.encNni 0⟩]) = false := by decide +kernel
    unfold Fetcher.receive Fetcher.wants
    simp only [h1, Bool.false_and, Bool.not_false, Bool.or_true, if_true]
  have r0 : Fetcher.result { ask := exAsk } = none := rfl
  have r1 : Fetcher.result { ask := exAsk, base := some (exAsk ++ [⟨54, Tlv.encNni 0⟩]), total := 2, got := [(0, a)] } = none := by
    unfold Fetcher.result
    rw [if_neg (by simp), if_neg (by simp [List.range_succ])]
  unfold Fetcher.fetch
  rw [r0]
  dsimp only
  rw [e0]
  unfold Fetcher.fetch
  rw [r1]
  dsimp only
  rw [e1]
  exact r1

/-- The hypotheses of `C105_fetched_partial`: other interests and a change of the LSA come in between. -/
example : ∃ o, exStart2.find exConf2.router .name = some o ∧
    ∀ enc : Lsa → List UInt8, (∀ l, count (enc l) = 2) →
    Fetcher.fetch { ask := exAsk }
      ([0, 1].map (fun i => ofSeg enc ⟨segName exAsk 7 i, o.lsa, i⟩)) = some (enc o.lsa) := by
  obtain ⟨o, ho⟩ : ∃ o, exStart2.find exConf2.router .name = some o := by
    cases e : exStart2.find exConf2.router .name with
    | some o => exact ⟨o, rfl⟩
    | none => exact absurd e (by decide +kernel)
  refine ⟨o, ho, fun enc henc => ?_⟩
  have hseq : o.lsa.seq = 1 := by
    have : (exStart2.find exConf2.router .name).map (·.lsa.seq) = some 1 := C105_violated_crowd.1
    rw [ho] at this
    exact Option.some.inj this
  refine (C105_fetched_partial (c := exConf2) (by decide +kernel) (t := .name) (by decide) (v := 7) (B := 2)
    (by decide) (by decide) (by decide +kernel) enc (fun l => (henc l).symm) ho hseq
    (by rw [show exStart2.fifo = [] by decide +kernel]; intro d hd; cases hd) (fun _ => Nat.le_refl _)
    ([.interest exAsk 8, .setNpl [⟨nm ["b"], .fin 5⟩], .buildName, .interest (exConf2.names.lsaInterest .name 2) 9])
    (by show 2 + _ * 2 ≤ 100; decide +kernel)
    ?_ (by intro m hm; simp at hm) [1] (by intro i hi; rw [List.mem_singleton] at hi; subst hi; show 1 < 2; decide)
    (by
      intro i hi
      have : i < 2 := hi
      rw [List.mem_singleton]
      omega) 0).2.2
  intro m w hm
  right
  simp only [List.mem_cons, Op.interest.injEq, reduceCtorEq, List.not_mem_nil, or_false, false_or] at hm
  rcases hm with ⟨rfl, rfl⟩ | ⟨rfl, rfl⟩
  · exact ⟨by decide +kernel, by decide, fun _ => by decide⟩
  · exact ⟨by decide +kernel, by decide, fun _ => by decide⟩

/-- The encodings of the example exist. -/
example : ∃ enc : Lsa → List UInt8, ∀ l, count (enc l) = 2 :=
  ⟨fun _ => 0 :: List.replicate 4400 0, fun _ => by
    rw [count, List.isEmpty_cons, List.length_cons, List.length_replicate]
    decide⟩

end Segments
end Nlsr
