import Verif.Props.Schema
/- For C100 and C101: chains of certificates under the shipped rules, in terms of the patterns. -/
namespace Nlsr.Schema

/-- The part of a router's name before the component `%C1.Router` (all of it if there is none). -/
def siteFits (p : Name) : Name := p.takeWhile (fun c => !fits "%C1.Router".toList (Uri.ofComp c))

/-- The name is that of the router's NLSR, or of something above it, or of an operator of the router's site. -/
def AboveFits (p i : Name) : Prop :=
  i <+: p ++ [Comp.str "nlsr"] ∨ ∃ o, fits "%C1.Operator".toList (Uri.ofComp o) = true ∧ siteFits p ++ [o] <+: i

theorem siteFits_prefix (p : Name) : siteFits p <+: p := List.takeWhile_prefix _

theorem siteFits_free (p : Name) : ∀ c ∈ siteFits p, ¬ Is "%C1.Router" c := by
  intro c hc h
  have hall : ∀ (l : Name), ∀ c ∈ l.takeWhile (fun c => !fits "%C1.Router".toList (Uri.ofComp c)), fits "%C1.Router".toList (Uri.ofComp c) = false := by
    intro l
    induction l with
    | nil => intro c hc; cases hc
    | cons d l ih =>
      intro c hc
      rw [List.takeWhile_cons] at hc
      split at hc
      · rename_i hd
        rcases List.mem_cons.1 hc with rfl | hc
        · simpa using hd
        · exact ih c hc
      · cases hc
  have := hall p c hc
  unfold Is at h
  rw [h] at this
  cases this

theorem siteFits_eq {a t : Name} {r : Comp} (ha : ∀ c ∈ a, ¬ Is "%C1.Router" c) (hr : Is "%C1.Router" r) : siteFits (a ++ r :: t) = a := by
  unfold siteFits
  induction a with
  | nil =>
    rw [List.nil_append, List.takeWhile_cons]
    unfold Is at hr
    rw [hr]; rfl
  | cons c a ih =>
    have hc : fits "%C1.Router".toList (Uri.ofComp c) = false := by
      cases h : fits "%C1.Router".toList (Uri.ofComp c) with
      | false => rfl
      | true => exact absurd h (ha c (by simp))
    rw [List.cons_append, List.takeWhile_cons, hc]
    simp only [Bool.not_false, if_true]
    rw [ih (fun d hd => ha d (by simp [hd]))]

theorem is_len {s : String} {c : Comp} (h : Is s c) : (Uri.ofComp c).length = s.toList.length := fits_len h

theorem operator_not_router {c : Comp} (h : Is "%C1.Operator" c) (h' : Is "%C1.Router" c) : False := by
  have h1 := is_len h
  have h2 := is_len h'
  rw [h1] at h2
  exact absurd h2 (by decide +kernel)

theorem above_prefix {p a i : Name} (h : AboveFits p i) (ha : a <+: i) : AboveFits p a := by
  rcases h with h | ⟨o, ho, h⟩
  · exact Or.inl (ha.trans h)
  · by_cases hl : a.length ≤ (siteFits p).length
    · refine Or.inl ?_
      have h1 : a <+: siteFits p := List.prefix_of_prefix_length_le ha ((List.prefix_append _ _).trans h) hl
      exact (h1.trans (siteFits_prefix p)).trans (List.prefix_append _ _)
    · exact Or.inr ⟨o, ho, List.prefix_of_prefix_length_le h ha (by simp; omega)⟩

/-- A prefix without `KEY` ends before the first `KEY`. -/
theorem before_key {a i u : Name} (ha : cKey ∉ a) (h : a <+: i ++ cKey :: u) : a <+: i := by
  by_cases hl : a.length ≤ i.length
  · exact List.prefix_of_prefix_length_le h (List.prefix_append _ _) hl
  · exfalso
    have : i ++ [cKey] <+: a := List.prefix_of_prefix_length_le (l₃ := i ++ cKey :: u) ⟨u, by simp⟩ h (by simp; omega)
    exact ha (this.subset (by simp))

/-- A key or certificate that may sign for the router. -/
def Signs (p k : Name) : Prop := ∃ i u, k = i ++ cKey :: u ∧ cKey ∉ i ∧ AboveFits p i

theorem signs_prefix {p k n : Name} (h : Signs p k) (hp : k <+: n) : Signs p n := by
  obtain ⟨i, u, rfl, hi, ha⟩ := h
  obtain ⟨v, rfl⟩ := hp
  exact ⟨i, u ++ v, by simp, hi, ha⟩

theorem localhop_not_above {p i : Name} (hp : p.head? ≠ some cLocalhop) (h : AboveFits p (cLocalhop :: i)) : False := by
  rcases h with ⟨t, h⟩ | ⟨o, ho, t, h⟩
  · cases p with
    | nil => simp at h; exact nlsr_ne_localhop h.1.symm
    | cons c p => simp at h hp; exact hp h.1.symm
  · cases hs : siteFits p with
    | nil =>
      rw [hs] at h
      simp at h
      have := fits_len ho
      rw [h.1] at this
      exact absurd this (by decide +kernel)
    | cons c q =>
      rw [hs] at h
      simp at h
      have hc := siteFits_prefix p
      rw [hs] at hc
      obtain ⟨v, rfl⟩ := hc
      simp at hp
      exact hp h.1

/-- The step: whoever may sign a certificate of someone who may sign for the router may sign for the router. -/
theorem signs_step {p n k : Name} (hp : p.head? ≠ some cLocalhop) (h : Signs p n) (hk : passes shipped n k = true) : Signs p k := by
  obtain ⟨i, u, rfl, hi, ha⟩ := h
  rcases shipped_cases hk with h | ⟨-, h⟩ | h | h | ⟨-, -, h⟩
  · obtain ⟨a, x, y, t, he, -, rfl, hf, -⟩ := hello_holds.1 h
    have hf := (free_two lit_key lit_nlsr).1 hf
    have hn : cKey ∉ a ++ [cNlsr] := by
      intro hm
      rcases List.mem_append.1 hm with hm | hm
      · exact hf.1 hm
      · exact nlsr_ne_key (List.mem_singleton.1 hm).symm
    exact ⟨a ++ [cNlsr], t, by simp, hn, above_prefix ha (before_key hn ⟨[cInfo, x, y], by rw [he]; simp⟩)⟩
  · obtain ⟨a, b, w, x, y, z, t, he, -⟩ := lsa_holds.1 h
    exfalso
    cases i with
    | nil =>
      have := (List.cons.inj he).1
      exact absurd this (by decide +kernel)
    | cons c i =>
      have := (List.cons.inj he).1
      rw [this] at ha
      exact localhop_not_above hp ha
  · obtain ⟨a, x, m, t, he, -, -, rfl, hf, -⟩ := dataset_holds.1 h
    have hf := (free_one lit_key).1 hf
    exact ⟨a, t, rfl, hf, above_prefix ha (before_key hf ⟨cNlsr :: x :: m, by rw [he]⟩)⟩
  · obtain ⟨a, r, b, x, y, z, o, b', t, he, hra, hr, hb, rfl, hoa, ho, hb', -⟩ := exception_holds.1 h
    have hka := free_mem hra (s := "KEY") (by simp) lit_key.is
    have hrk : r ≠ cKey := by
      intro e
      have := is_len hr
      rw [e] at this
      exact absurd this (by decide +kernel)
    have hok : o ≠ cKey := by
      intro e
      have := is_len ho
      rw [e] at this
      exact absurd this (by decide +kernel)
    have hra' : ∀ c ∈ a, ¬ Is "%C1.Router" c := fun c hc hi => free_mem hra (by simp) hi hc
    have hoa' : ∀ c ∈ a, ¬ Is "%C1.Operator" c := fun c hc hi => free_mem hoa (by simp) hi hc
    have hkey : cKey ∉ a ++ o :: b' := by
      intro hm
      rcases List.mem_append.1 hm with hm | hm
      · exact hka hm
      · rcases List.mem_cons.1 hm with hm | hm
        · exact hok hm.symm
        · exact (free_one lit_key).1 hb' hm
    have hpre : a ++ [r] <+: i := by
      refine before_key ?_ (u := u) ⟨b ++ [cKey, x, y, z], by rw [he]; simp⟩
      intro hm
      rcases List.mem_append.1 hm with hm | hm
      · exact hka hm
      · exact hrk (List.mem_singleton.1 hm).symm
    refine ⟨a ++ o :: b', t, by simp, hkey, Or.inr ⟨o, ho, ?_⟩⟩
    have hsite : siteFits p = a := by
      rcases ha with ha | ⟨o', ho', ha⟩
      · have h1 : a ++ [r] <+: p ++ [cNlsr] := hpre.trans ha
        have hle : (a ++ [r]).length ≤ p.length := by
          have := h1.length_le
          rcases Nat.lt_or_ge p.length (a ++ [r]).length with hlt | hge
          · exfalso
            have e : a ++ [r] = p ++ [cNlsr] := h1.eq_of_length (by simp at this hlt ⊢; omega)
            have := (List.append_inj' e rfl).2
            have hrn : r = cNlsr := by simpa using this
            have := is_len hr
            rw [hrn] at this
            exact absurd this (by decide +kernel)
          · exact hge
        have h2 : a ++ [r] <+: p := List.prefix_of_prefix_length_le h1 (List.prefix_append _ _) hle
        obtain ⟨v, rfl⟩ := h2
        rw [List.append_assoc]
        exact siteFits_eq hra' hr
      · exfalso
        rcases Nat.lt_trichotomy a.length (siteFits p).length with hl | hl | hl
        · have : a ++ [r] <+: siteFits p := List.prefix_of_prefix_length_le hpre ((List.prefix_append _ _).trans ha) (by simp; omega)
          exact siteFits_free p r (this.subset (by simp)) hr
        · have : a ++ [r] = siteFits p ++ [o'] :=
            (List.prefix_of_prefix_length_le hpre ha (by simp; omega)).eq_of_length (by simp; omega)
          have h' := (List.append_inj' this rfl).2
          have hro : r = o' := by simpa using h'
          exact operator_not_router (hro ▸ ho') hr
        · have : siteFits p ++ [o'] <+: a :=
            List.prefix_of_prefix_length_le ha ((List.prefix_append _ _).trans hpre) (by simp; omega)
          exact hoa' o' (this.subset (by simp)) ho'
    rw [hsite]
    exact ⟨b', by simp⟩
  · obtain ⟨a, t, rfl, hf, -, -, hpre⟩ := hierarchical_holds.1 h
    have hf := (free_one lit_key).1 hf
    exact ⟨a, t, rfl, hf, above_prefix ha (before_key hf hpre)⟩

theorem vouched_signs {p : Name} (hp : p.head? ≠ some cLocalhop) {anchors : List Cert} {k : Name} {l : List Cert}
    (h : Vouched shipped anchors k l) : Signs p k → ∀ c ∈ l, Signs p c.name := by
  induction h with
  | anchor hc hk =>
    intro hs c hm
    rw [List.mem_singleton.1 hm]
    exact signs_prefix hs (List.isPrefixOf_iff_prefix.1 hk)
  | step hk hv hl hpass _ ih =>
    intro hs c hm
    have h1 := signs_prefix hs (List.isPrefixOf_iff_prefix.1 hk)
    rcases List.mem_cons.1 hm with rfl | hm
    · exact h1
    · exact ih (signs_step hp h1 hpass) c hm

/-- For C100: every certificate that takes part in accepting an LSA of a router is one of the router's NLSR, of a name above
it, or of an operator of the router's own site: no other router and no other site's operator can vouch for it, however
long the chain is and whichever certificates are offered. -/
theorem vouch_lsa (r : RouterConf) (h1 : Comp.str "nlsr" ∉ r.network) (h2 : Comp.str "LSA" ∉ r.network)
    (h3 : r.routerPrefix.head? ≠ some (Comp.str "localhop")) (ty : LsaType) (seq ver i : Nat) {anchors : List Cert} {k : Name} {l : List Cert}
    (hp : passes shipped (Lsdb.segName (r.lsaInterest ty seq) ver i) k = true) (h : Vouched shipped anchors k l) :
    ∀ c ∈ l, ∃ i u, c.name = i ++ Comp.str "KEY" :: u ∧ Comp.str "KEY" ∉ i ∧ AboveFits r.routerPrefix i := by
  obtain ⟨hk, hn, t, rfl, -⟩ := (C99_lsa r ty seq ver i h1 h2 k).1 hp
  refine vouched_signs (p := r.routerPrefix) h3 h ⟨r.routerPrefix ++ [cNlsr], t, by simp [Nbr.nlsrComp, Nbr.keyComp], ?_, Or.inl (List.prefix_refl _)⟩
  intro hm
  rcases List.mem_append.1 hm with hm | hm
  · exact hk hm
  · exact nlsr_ne_key (List.mem_singleton.1 hm).symm

/-- For C100: the same for hello data of a neighbour. -/
theorem vouch_hello {a : Name} (h1 : Comp.str "nlsr" ∉ a) (h2 : Comp.str "INFO" ∉ a) (h3 : a.head? ≠ some (Comp.str "localhop"))
    (x y : Comp) {anchors : List Cert} {k : Name} {l : List Cert}
    (hp : passes shipped (a ++ [Comp.str "nlsr", Comp.str "INFO", x, y]) k = true) (h : Vouched shipped anchors k l) :
    ∀ c ∈ l, ∃ i u, c.name = i ++ Comp.str "KEY" :: u ∧ Comp.str "KEY" ∉ i ∧ AboveFits a i := by
  obtain ⟨hk, t, rfl, -⟩ := (C99_hello h1 h2 x y k).1 hp
  refine vouched_signs (p := a) h3 h ⟨a ++ [cNlsr], t, by simp [Nbr.nlsrComp, Nbr.keyComp], ?_, Or.inl (List.prefix_refl _)⟩
  intro hm
  rcases List.mem_append.1 hm with hm | hm
  · exact hk hm
  · exact nlsr_ne_key (List.mem_singleton.1 hm).symm

/-- For C100: and for data sets. -/
theorem vouch_dataset {a : Name} (h1 : Comp.str "nlsr" ∉ a) (h3 : a.head? ≠ some (Comp.str "localhop"))
    {x : Comp} (hx : x = Comp.str "lsdb" ∨ x = Comp.str "routing-table") (m : Name) {anchors : List Cert} {k : Name} {l : List Cert}
    (hp : passes shipped (a ++ Comp.str "nlsr" :: x :: m) k = true) (h : Vouched shipped anchors k l) :
    ∀ c ∈ l, ∃ i u, c.name = i ++ Comp.str "KEY" :: u ∧ Comp.str "KEY" ∉ i ∧ AboveFits a i := by
  obtain ⟨hk, t, rfl, -⟩ := (C99_dataset h1 hx m k).1 hp
  exact vouched_signs (p := a) h3 h ⟨a, t, rfl, hk, Or.inl (List.prefix_append _ _)⟩

/-- For C100: in particular a router of the same site, or of any other, whose name is not above this router's is not among them. -/
theorem vouch_not_router {p q : Name} {r : Comp} {t : Name} (hr : fits "%C1.Router".toList (Uri.ofComp r) = true) (hq : q = siteFits p ++ r :: t)
    (hne : ¬ q <+: p ++ [Comp.str "nlsr"]) : ¬ AboveFits p q := by
  rintro (h | ⟨o, ho, v, h⟩)
  · exact hne h
  · rw [hq, List.append_assoc] at h
    have := List.append_cancel_left h
    simp at this
    exact operator_not_router (this.1 ▸ ho) hr

/-- For C100: a router's own certificate, `/<site>/%C1.Router/<router>/KEY/…`, can be signed by an operator of its site only. -/
theorem vouch_operator {s b : Name} {r x y z : Comp} (hs : ∀ c ∈ s, fits "%C1.Router".toList (Uri.ofComp c) = false ∧ c ≠ Comp.str "KEY" ∧ c ≠ Comp.str "nlsr")
    (hr : fits "%C1.Router".toList (Uri.ofComp r) = true) (hb : ∀ c ∈ b, c ≠ Comp.str "KEY" ∧ c ≠ Comp.str "nlsr")
    (hx : x ≠ Comp.str "nlsr") (hy : y ≠ Comp.str "nlsr") (k : Name) :
    passes shipped (s ++ r :: (b ++ [Comp.str "KEY", x, y, z])) k = true ↔
      ∃ o c t, k = s ++ o :: (c ++ Comp.str "KEY" :: t) ∧ fits "%C1.Operator".toList (Uri.ofComp o) = true ∧
        (∀ c ∈ s, fits "%C1.Operator".toList (Uri.ofComp c) = false) ∧ Comp.str "KEY" ∉ c ∧ 1 ≤ t.length ∧ t.length ≤ 3 := by
  have hrn : r ≠ cNlsr := by
    intro e
    have := fits_len hr
    rw [e] at this
    exact absurd this (by decide +kernel)
  have hno : ∀ m, ∀ a : Name, cNlsr ∉ a → a ++ cNlsr :: m = s ++ r :: (b ++ [cKey, x, y, z]) → m = [] := by
    intro m a ha he
    have e : s ++ r :: (b ++ [cKey, x, y, z]) = (s ++ r :: (b ++ [cKey, x, y])) ++ [z] := by simp
    rw [e] at he
    cases m with
    | nil => rfl
    | cons c m =>
      exfalso
      have hm : a ++ [cNlsr] <+: s ++ r :: (b ++ [cKey, x, y]) := by
        refine List.prefix_of_prefix_length_le (l₃ := a ++ cNlsr :: c :: m) ⟨c :: m, by simp⟩ ⟨[z], he.symm⟩ ?_
        have := congrArg List.length he
        simp at this ⊢
        omega
      have := hm.subset (a := cNlsr) (by simp)
      rcases List.mem_append.1 this with h | h
      · exact (hs _ h).2.2 rfl
      rcases List.mem_cons.1 h with h | h
      · exact hrn h.symm
      rcases List.mem_append.1 h with h | h
      · exact (hb _ h).2 rfl
      simp at h
      rcases h with h | h | h
      · exact nlsr_ne_key h
      · exact hx h.symm
      · exact hy h.symm
  have hfree : Free ["KEY", "%C1.Router"] s := by
    intro c hc p hp
    simp only [List.mem_cons, List.not_mem_nil, or_false] at hp
    rcases hp with rfl | rfl
    · exact (free_one lit_key).2 (fun h => (hs _ h).2.1 rfl) c hc _ (by simp)
    · exact (hs c hc).1
  have hf1 : ¬ (helloRule.filter.run (s ++ r :: (b ++ [cKey, x, y, z]))).isSome = true := by
    rw [helloF_some]
    rintro ⟨a, x', y', he, ha⟩
    cases hno _ a (free_mem ha (by simp) lit_nlsr.is) he.symm
  have hf2 : ¬ (lsaRule.filter.run (s ++ r :: (b ++ [cKey, x, y, z]))).isSome = true := by
    rw [lsaF_some]
    rintro ⟨a, m, he, ha⟩
    cases hno _ a (free_mem ha (by simp) lit_nlsr.is) he.symm
  have hf3 : ¬ (datasetRule.filter.run (s ++ r :: (b ++ [cKey, x, y, z]))).isSome = true := by
    rw [datasetF_some]
    rintro ⟨a, c, m, he, -, ha⟩
    cases hno _ a (free_mem ha (by simp) lit_nlsr.is) he.symm
  have hf4 : (exceptionRule.filter.run (s ++ r :: (b ++ [cKey, x, y, z]))).isSome = true :=
    (exceptionF_some _).2 ⟨s, r, b, x, y, z, rfl, hfree, hr,
      (free_two lit_key lit_nlsr).2 ⟨fun h => (hb _ h).1 rfl, fun h => (hb _ h).2 rfl⟩⟩
  show passes shipped (s ++ r :: (b ++ [cKey, x, y, z])) k = true ↔ _
  unfold shipped
  rw [passes_cons, if_neg hf1, passes_cons, if_neg hf2, passes_cons, if_neg hf3, passes_cons, if_pos hf4, exception_holds]
  constructor
  · rintro ⟨a, r', b', x', y', z', o, c, t, he, hra, hr', -, rfl, hoa, ho, hc, h5, h6⟩
    obtain ⟨rfl, -⟩ := free_cut (s := "%C1.Router") (by simp) hfree hra hr hr' he
    exact ⟨o, c, t, rfl, ho, fun d hd => hoa d hd _ (by simp), (free_one lit_key).1 hc, h5, h6⟩
  · rintro ⟨o, c, t, rfl, ho, hso, hc, h5, h6⟩
    refine ⟨s, r, b, x, y, z, o, c, t, rfl, hfree, hr, (free_one lit_key).2 (fun h => (hb _ h).1 rfl), rfl, ?_, ho, (free_one lit_key).2 hc, h5, h6⟩
    intro d hd p hp
    simp only [List.mem_cons, List.not_mem_nil, or_false] at hp
    rcases hp with rfl | rfl
    · exact hfree d hd _ (by simp)
    · exact hso d hd

/-! ### The documented hierarchy is accepted -/

theorem plain_filters {n : Name} (h : ∀ a m, cNlsr ∉ a → a ++ cNlsr :: m = n → m = [] ∨ m.head? = some cKey) :
    ¬ (helloRule.filter.run n).isSome = true ∧ ¬ (lsaRule.filter.run n).isSome = true ∧ ¬ (datasetRule.filter.run n).isSome = true := by
  refine ⟨?_, ?_, ?_⟩
  · rw [helloF_some]
    rintro ⟨a, x, y, he, ha⟩
    rcases h a _ (free_mem ha (by simp) lit_nlsr.is) he.symm with h | h
    · cases h
    · exact info_ne_key (Option.some.inj h)
  · rw [lsaF_some]
    rintro ⟨a, m, he, ha⟩
    rcases h a _ (free_mem ha (by simp) lit_nlsr.is) he.symm with h | h
    · cases h
    · exact lsa_ne_key (Option.some.inj h)
  · rw [datasetF_some]
    rintro ⟨a, c, m, he, hc, ha⟩
    rcases h a _ (free_mem ha (by simp) lit_nlsr.is) he.symm with h | h
    · cases h
    · have := Option.some.inj h
      rcases hc with rfl | rfl <;> exact absurd this (by decide +kernel)

/-- `nlsr` comes only where it is said to. -/
theorem no_nlsr {i : Name} (hi : cNlsr ∉ i) {x y z : Comp} (hx : x ≠ cNlsr) (hy : y ≠ cNlsr) (a m : Name)
    (h : a ++ cNlsr :: m = i ++ [cKey, x, y, z]) : m = [] ∨ m.head? = some cKey := by
  cases m with
  | nil => exact Or.inl rfl
  | cons c m =>
    exfalso
    have e : i ++ [cKey, x, y, z] = (i ++ [cKey, x, y]) ++ [z] := by simp
    rw [e] at h
    have hm : a ++ [cNlsr] <+: i ++ [cKey, x, y] := by
      refine List.prefix_of_prefix_length_le (l₃ := a ++ cNlsr :: c :: m) ⟨c :: m, by simp⟩ ⟨[z], h.symm⟩ ?_
      have := congrArg List.length h
      simp at this ⊢
      omega
    have := hm.subset (a := cNlsr) (by simp)
    rcases List.mem_append.1 this with h | h
    · exact hi h
    simp at h
    rcases h with h | h | h
    · exact nlsr_ne_key h
    · exact hx h.symm
    · exact hy h.symm

/-- Certificates that are not a router's are signed by anyone above. -/
theorem hier_passes {i x y z : Comp} {n a t : Name} (hn : ∀ a m, cNlsr ∉ a → a ++ cNlsr :: m = n ++ [cKey, x, y, z] → m = [] ∨ m.head? = some cKey)
    (hk : cKey ∉ n) (he : ¬ (exceptionRule.filter.run (n ++ [cKey, x, y, z])).isSome = true) (ha : a <+: n) (h1 : 1 ≤ t.length) (h2 : t.length ≤ 3) :
    passes shipped (n ++ [cKey, x, y, z]) (a ++ cKey :: t) = true := by
  obtain ⟨f1, f2, f3⟩ := plain_filters hn
  unfold shipped
  rw [passes_cons, if_neg f1, passes_cons, if_neg f2, passes_cons, if_neg f3, passes_cons, if_neg he, passes_cons,
    if_pos ((hierarchicalF_some _).2 ⟨n, x, y, z, rfl, (free_one lit_key).2 hk⟩)]
  exact hierarchical_holds.2 ⟨a, t, rfl, (free_one lit_key).2 (fun h => hk (ha.subset h)), h1, h2, ha.trans (List.prefix_append _ _)⟩

theorem no_exception {n : Name} {x y z : Comp} (hk : cKey ∉ n) (h : ∀ c ∈ n, ¬ Is "%C1.Router" c) :
    ¬ (exceptionRule.filter.run (n ++ [cKey, x, y, z])).isSome = true := by
  rw [exceptionF_some]
  rintro ⟨a, r, b, x', y', z', he, ha, hr, hb⟩
  have e : a ++ r :: (b ++ [cKey, x', y', z']) = (a ++ r :: b) ++ [cKey, x', y', z'] := by simp
  rw [e] at he
  have := (List.append_inj' he rfl).1
  exact h r (by rw [this]; simp) hr

/-- The names of a site, as NLSR's documentation has them: `s` the site, `b` the router after `%C1.Router`, `q` the operator
after `%C1.Operator`, `g` the root. -/
structure HierFits (s b q g : Name) : Prop where
  site : Comp.str "KEY" ∉ s ∧ Comp.str "nlsr" ∉ s ∧ ∀ c ∈ s, fits "%C1.Router".toList (Uri.ofComp c) = false ∧ fits "%C1.Operator".toList (Uri.ofComp c) = false
  router : Comp.str "KEY" ∉ b ∧ Comp.str "nlsr" ∉ b
  operator : Comp.str "KEY" ∉ q ∧ Comp.str "nlsr" ∉ q ∧ ∀ c ∈ q, fits "%C1.Router".toList (Uri.ofComp c) = false
  root : g <+: s

/-- A certificate of this name with a key locator of that one: the key, or one of its certificates. -/
def CertOf (c : Cert) (i : Name) (signer : Name) : Prop :=
  (∃ x y z, c.name = i ++ [Comp.str "KEY", x, y, z] ∧ x ≠ Comp.str "nlsr" ∧ y ≠ Comp.str "nlsr") ∧ c.locator = some signer

theorem prefix_tail {a t u : Name} (h : a ++ cKey :: t <+: a ++ cKey :: u) : t <+: u := by
  obtain ⟨v, h⟩ := h
  rw [List.append_assoc] at h
  have := List.append_cancel_left h
  exact ⟨v, (List.cons.inj this).2⟩

/-- A non-empty prefix of the three components after `KEY` is a key locator the patterns take. -/
theorem locator_len {a t : Name} {x y z : Comp} (h : a ++ cKey :: t <+: a ++ [cKey, x, y, z]) (h1 : t ≠ []) : 1 ≤ t.length ∧ t.length ≤ 3 := by
  have := (prefix_tail h).length_le
  exact ⟨List.length_pos_iff.2 h1, by simpa using this⟩

/-- For C100: the documented hierarchy is accepted.  A router's NLSR key with a certificate by the router's key, the router's by
an operator of its site, the operator's by the site and the site's by the root, which is an anchor: the key is vouched for,
whichever of key name and certificate names the key locators are. -/
theorem vouch_genuine {s b q g : Name} (h : HierFits s b q g) (ci cr co cs cg : Cert) (ki kr ko ks kg : Name)
    (hi : CertOf ci (s ++ Nbr.routerTag :: b ++ [Comp.str "nlsr"]) (s ++ Nbr.routerTag :: b ++ Comp.str "KEY" :: kr))
    (hr : CertOf cr (s ++ Nbr.routerTag :: b) (s ++ Nbr.operatorTag :: q ++ Comp.str "KEY" :: ko))
    (ho : CertOf co (s ++ Nbr.operatorTag :: q) (s ++ Comp.str "KEY" :: ks))
    (hs : CertOf cs s (g ++ Comp.str "KEY" :: kg))
    (hg : ∃ x y z, cg.name = g ++ [Comp.str "KEY", x, y, z])
    (lr : kr ≠ [] ∧ s ++ Nbr.routerTag :: b ++ Comp.str "KEY" :: kr <+: cr.name)
    (lo : ko ≠ [] ∧ s ++ Nbr.operatorTag :: q ++ Comp.str "KEY" :: ko <+: co.name)
    (ls : ks ≠ [] ∧ s ++ Comp.str "KEY" :: ks <+: cs.name)
    (lg : kg ≠ [] ∧ g ++ Comp.str "KEY" :: kg <+: cg.name)
    (li : s ++ Nbr.routerTag :: b ++ [Comp.str "nlsr"] ++ Comp.str "KEY" :: ki <+: ci.name) {anchors : List Cert} (ha : cg ∈ anchors) :
    Vouched shipped anchors (s ++ Nbr.routerTag :: b ++ [Comp.str "nlsr"] ++ Comp.str "KEY" :: ki) [ci, cr, co, cs, cg] := by
  obtain ⟨⟨i1, i2, i3, ein, hi1, hi2⟩, eil⟩ := hi
  obtain ⟨⟨r1, r2, r3, ern, hr1, hr2⟩, erl⟩ := hr
  obtain ⟨⟨o1, o2, o3, eon, ho1, ho2⟩, eol⟩ := ho
  obtain ⟨⟨s1, s2, s3, esn, hs1, hs2⟩, esl⟩ := hs
  obtain ⟨g1, g2, g3, egn⟩ := hg
  obtain ⟨⟨sk, sn, sf⟩, ⟨bk, bn⟩, ⟨qk, qn, qf⟩, hroot⟩ := h
  have hrt : Is "%C1.Router" Nbr.routerTag := by unfold Is; decide +kernel
  have hot : Is "%C1.Operator" Nbr.operatorTag := by unfold Is; decide +kernel
  have hrn : Nbr.routerTag ≠ cNlsr := by decide +kernel
  have hrk : Nbr.routerTag ≠ cKey := by decide +kernel
  have hon : Nbr.operatorTag ≠ cNlsr := by decide +kernel
  have hok : Nbr.operatorTag ≠ cKey := by decide +kernel
  have hor : ¬ Is "%C1.Router" Nbr.operatorTag := by unfold Is; decide +kernel
  have pk : cKey ∉ s ++ Nbr.routerTag :: b := by
    intro h
    rcases List.mem_append.1 h with h | h
    · exact sk h
    · rcases List.mem_cons.1 h with h | h
      · exact hrk h.symm
      · exact bk h
  have pn : cNlsr ∉ s ++ Nbr.routerTag :: b := by
    intro h
    rcases List.mem_append.1 h with h | h
    · exact sn h
    · rcases List.mem_cons.1 h with h | h
      · exact hrn h.symm
      · exact bn h
  have ok' : cKey ∉ s ++ Nbr.operatorTag :: q := by
    intro h
    rcases List.mem_append.1 h with h | h
    · exact sk h
    · rcases List.mem_cons.1 h with h | h
      · exact hok h.symm
      · exact qk h
  have on' : cNlsr ∉ s ++ Nbr.operatorTag :: q := by
    intro h
    rcases List.mem_append.1 h with h | h
    · exact sn h
    · rcases List.mem_cons.1 h with h | h
      · exact hon h.symm
      · exact qn h
  have vn : ∀ {c : Cert} {i : Name} {x y z : Comp}, c.name = i ++ [cKey, x, y, z] → Cert.validName c.name = true := by
    intro c i x y z e
    rw [e]
    unfold Cert.validName Name.fromEnd
    simp [Nbr.keyComp]
  have toPre : ∀ {a b : Name}, a <+: b → Name.isPrefixOf a b = true := fun h => List.isPrefixOf_iff_prefix.2 h
  rw [ern] at lr
  rw [eon] at lo
  rw [esn] at ls
  rw [egn] at lg
  refine .step (toPre li) (vn ein) eil ?_ (.step (toPre (by rw [ern]; exact lr.2)) (vn ern) erl ?_ (.step (toPre (by rw [eon]; exact lo.2)) (vn eon) eol ?_
    (.step (toPre (by rw [esn]; exact ls.2)) (vn esn) esl ?_ (.anchor ha (toPre (by rw [egn]; exact lg.2))))))
  · -- the NLSR's certificate, by the router
    rw [ein]
    have hl := locator_len lr.2 lr.1
    refine hier_passes (i := cKey) ?_ ?_ ?_ (List.prefix_append _ _) hl.1 hl.2
    · intro a m hna he
      have e : s ++ Nbr.routerTag :: b ++ [cNlsr] ++ [cKey, i1, i2, i3] = (s ++ Nbr.routerTag :: b) ++ cNlsr :: [cKey, i1, i2, i3] := by simp
      rw [show (s ++ Nbr.routerTag :: b ++ [Comp.str "nlsr"] ++ [cKey, i1, i2, i3]) = (s ++ Nbr.routerTag :: b) ++ cNlsr :: [cKey, i1, i2, i3] from e] at he
      obtain ⟨-, -, hm⟩ := cut_unique (P := fun c => c = cNlsr) (fun c hc h => hna (h ▸ hc)) (fun c hc h => pn (h ▸ hc)) rfl rfl he
      right
      rw [hm]; rfl
    · intro h
      rcases List.mem_append.1 h with h | h
      · exact pk h
      · exact nlsr_ne_key (List.mem_singleton.1 h).symm
    · rw [exceptionF_some]
      rintro ⟨a, r, c, x, y, z, he, hra, hr', hc⟩
      have e : a ++ r :: (c ++ [cKey, x, y, z]) = (a ++ r :: c) ++ [cKey, x, y, z] := by simp
      rw [e] at he
      have h1 := (List.append_inj' he rfl).1
      rw [List.append_assoc, List.cons_append] at h1
      obtain ⟨-, -, h3⟩ := cut_unique (P := Is "%C1.Router") (fun d hd h => by have := (sf d hd).1; unfold Is at h; rw [h] at this; cases this)
        (fun d hd h => free_mem hra (by simp) h hd) hrt hr' h1
      exact free_mem hc (by simp) lit_nlsr.is (by rw [← h3]; simp [Nbr.nlsrComp])
  · -- the router's, by an operator
    rw [ern]
    have hl := locator_len lo.2 lo.1
    have := (vouch_operator (s := s) (b := b) (r := Nbr.routerTag) (x := r1) (y := r2) (z := r3)
      (fun c hc => ⟨(sf c hc).1, fun e => sk (e ▸ hc), fun e => sn (e ▸ hc)⟩) hrt (fun c hc => ⟨fun e => bk (e ▸ hc), fun e => bn (e ▸ hc)⟩)
      hr1 hr2 (s ++ Nbr.operatorTag :: q ++ Comp.str "KEY" :: ko)).2
      ⟨Nbr.operatorTag, q, ko, by simp, hot, fun c hc => (sf c hc).2, qk, hl.1, hl.2⟩
    rw [List.append_assoc, List.cons_append]
    exact this
  · -- the operator's, by the site
    rw [eon]
    have hl := locator_len ls.2 ls.1
    refine hier_passes (i := cKey) (fun a m _ he => no_nlsr on' ho1 ho2 a m he) ok' (no_exception ok' ?_) (List.prefix_append _ _) hl.1 hl.2
    intro c hc hir
    rcases List.mem_append.1 hc with h | h
    · have := (sf c h).1; unfold Is at hir; rw [hir] at this; cases this
    · rcases List.mem_cons.1 h with rfl | h
      · exact hor hir
      · have := qf c h; unfold Is at hir; rw [hir] at this; cases this
  · -- the site's, by the root
    rw [esn]
    have hl := locator_len lg.2 lg.1
    refine hier_passes (i := cKey) (fun a m _ he => no_nlsr sn hs1 hs2 a m he) sk (no_exception sk ?_) hroot hl.1 hl.2
    intro c hc hir
    have := (sf c hc).1; unfold Is at hir; rw [hir] at this; cases this

/-! ### C101 -/

/-- For C101: the shipped rules for prefix updates let exactly these commands pass: `/localhost/nlsr/prefix-update/advertise` or
`/withdraw` with three components (parameters, time, nonce) and a signature, with a key of an operator. -/
theorem command_command (n k : Name) (hl : n.length < 2 ^ 63) : commandPasses n k = true ↔
    (∃ v x y z u w, n = [Comp.str "localhost", Comp.str "nlsr", Comp.str "prefix-update", v, x, y, z, u, w] ∧
      (v = Comp.str "advertise" ∨ v = Comp.str "withdraw")) ∧
    (∃ s o q t, k = s ++ o :: (q ++ Comp.str "KEY" :: t) ∧ fits "%C1.Operator".toList (Uri.ofComp o) = true ∧
      (∀ c ∈ s, fits "%C1.Operator".toList (Uri.ofComp c) = false) ∧ Comp.str "KEY" ∉ s ∧ Comp.str "KEY" ∉ q ∧ 1 ≤ t.length ∧ t.length ≤ 3) := by
  unfold commandPasses
  rw [Bool.and_eq_true, decide_eq_true_eq, passes_cons, passes_nil]
  have hfree : ∀ a : Name, Free ["KEY", "%C1.Operator"] a ↔ (∀ c ∈ a, fits "%C1.Operator".toList (Uri.ofComp c) = false) ∧ cKey ∉ a := by
    intro a
    constructor
    · intro h; exact ⟨fun c hc => h c hc _ (by simp), free_mem h (by simp) lit_key.is⟩
    · rintro ⟨h1, h2⟩ c hc p hp
      simp only [List.mem_cons, List.not_mem_nil, or_false] at hp
      rcases hp with rfl | rfl
      · exact (free_one lit_key).2 h2 c hc _ (by simp)
      · exact h1 c hc
  have hkey : commandRule.check.holds (Name.getPrefix n (-2)) k = true ↔
      ∃ s o q t, k = s ++ o :: (q ++ cKey :: t) ∧ fits "%C1.Operator".toList (Uri.ofComp o) = true ∧
        (∀ c ∈ s, fits "%C1.Operator".toList (Uri.ofComp c) = false) ∧ cKey ∉ s ∧ cKey ∉ q ∧ 1 ≤ t.length ∧ t.length ≤ 3 := by
    show (kOperator.run k).isSome = true ↔ _
    rw [Option.isSome_iff_exists]
    simp only [kOperator_run, hfree, free_one lit_key]
    constructor
    · rintro ⟨_, s, o, q, t, rfl, ⟨h1, h2⟩, ho, hq, h3, h4, rfl⟩
      exact ⟨s, o, q, t, rfl, ho, h1, h2, hq, h3, h4⟩
    · rintro ⟨s, o, q, t, rfl, ho, h1, h2, hq, h3, h4⟩
      exact ⟨_, s, o, q, t, rfl, ⟨h1, h2⟩, ho, hq, h3, h4, rfl⟩
  constructor
  · rintro ⟨h2, h⟩
    split at h
    · rename_i hf
      refine ⟨?_, hkey.1 h⟩
      obtain ⟨v, x, y, z, he, hv⟩ := (commandF_some _).1 hf
      have hg := Name.getPrefix_neg (n := n) 2 (by omega) h2 (by omega)
      have e2 : (-((2 : Nat) : Int)) = -2 := by omega
      rw [e2] at hg
      rw [hg] at he
      have hlen := congrArg List.length he
      rw [List.length_take] at hlen
      simp only [List.length_cons, List.length_nil] at hlen
      have hd : (n.drop (n.length - 2)).length = 2 := by rw [List.length_drop]; omega
      obtain ⟨u, w, huw⟩ : ∃ u w, n.drop (n.length - 2) = [u, w] := by
        match hm : n.drop (n.length - 2), hd with
        | [u, w], _ => exact ⟨u, w, rfl⟩
      have hn := List.take_append_drop (n.length - 2) n
      rw [he, huw] at hn
      exact ⟨v, x, y, z, u, w, hn.symm, hv⟩
    · cases h
  · rintro ⟨⟨v, x, y, z, u, w, rfl, hv⟩, hk⟩
    refine ⟨by simp, ?_⟩
    have hg : Name.getPrefix [Comp.str "localhost", Comp.str "nlsr", Comp.str "prefix-update", v, x, y, z, u, w] (-2) =
        [Comp.str "localhost", Comp.str "nlsr", Comp.str "prefix-update", v, x, y, z] := by
      have hg := Name.getPrefix_neg (n := [Comp.str "localhost", Comp.str "nlsr", Comp.str "prefix-update", v, x, y, z, u, w]) 2 (by omega)
        (by simp) (by simp)
      have e2 : (-((2 : Nat) : Int)) = -2 := by omega
      rw [e2] at hg
      rw [hg]; rfl
    rw [if_pos (by rw [hg]; exact (commandF_some _).2 ⟨v, x, y, z, rfl, hv⟩)]
    exact hkey.2 hk

theorem vouched_update {anchors : List Cert} {k : Name} {l : List Cert} (h : Vouched updateShipped anchors k l) :
    ∀ i u, k = i ++ cKey :: u → cKey ∉ i → ∀ c ∈ l, ∃ j v, c.name = j ++ cKey :: v ∧ cKey ∉ j ∧ j <+: i := by
  induction h with
  | anchor hc hk =>
    rintro i u rfl hi c hm
    rw [List.mem_singleton.1 hm]
    obtain ⟨v, hv⟩ := List.isPrefixOf_iff_prefix.1 hk
    exact ⟨i, u ++ v, by rw [← hv]; simp, hi, List.prefix_refl _⟩
  | step hk hv hl hpass _ ih =>
    rintro i u rfl hi c hm
    obtain ⟨v, hv⟩ := List.isPrefixOf_iff_prefix.1 hk
    rcases List.mem_cons.1 hm with rfl | hm
    · exact ⟨i, u ++ v, by rw [← hv]; simp, hi, List.prefix_refl _⟩
    · unfold updateShipped at hpass
      rw [passes_cons, passes_nil] at hpass
      split at hpass
      · obtain ⟨a, t, rfl, hf, -, -, hp⟩ := hierarchical_holds.1 hpass
        have hf := (free_one lit_key).1 hf
        have ha : a <+: i := before_key hf (u := u ++ v) (by rw [← hv] at hp; simpa using hp)
        obtain ⟨j, w, h1, h2, h3⟩ := ih a t rfl hf c hm
        exact ⟨j, w, h1, h2, h3.trans ha⟩
      · cases hpass

/-- For C101: whoever sends an accepted command is an operator below the owner of an anchor: with the site's certificate as the
only anchor, one of that site. -/
theorem command_site {site : Name} {x y z : Comp} (hs : Comp.str "KEY" ∉ site) {anchor : Cert} (ha : anchor.name = site ++ [Comp.str "KEY", x, y, z])
    {n k : Name} (hl : n.length < 2 ^ 63) (hc : commandPasses n k = true) {l : List Cert} (h : Vouched updateShipped [anchor] k l) :
    ∃ i t, k = i ++ Comp.str "KEY" :: t ∧ site <+: i ∧ (∃ o ∈ i, fits "%C1.Operator".toList (Uri.ofComp o) = true) := by
  obtain ⟨-, s, o, q, t, rfl, ho, -, hks, hkq, -⟩ := (command_command n k hl).1 hc
  have hok : o ≠ cKey := by
    intro e
    have := fits_len ho
    rw [e] at this
    exact absurd this (by decide +kernel)
  have hi : cKey ∉ s ++ o :: q := by
    intro hm
    rcases List.mem_append.1 hm with hm | hm
    · exact hks hm
    · rcases List.mem_cons.1 hm with hm | hm
      · exact hok hm.symm
      · exact hkq hm
  have hlast : anchor ∈ l := by
    clear hc hl
    generalize s ++ o :: (q ++ Comp.str "KEY" :: t) = k at h
    induction h with
    | anchor hc _ => rw [List.mem_singleton.1 hc]; simp
    | step _ _ _ _ _ ih => exact List.mem_cons_of_mem _ ih
  obtain ⟨j, v, h1, h2, h3⟩ := vouched_update h (s ++ o :: q) t (by simp [Nbr.keyComp]) hi anchor hlast
  rw [ha] at h1
  have hs' : cKey ∉ site := hs
  obtain ⟨rfl, -⟩ := cut_unique (P := fun c => c = cKey) (fun c hc h => hs' (h ▸ hc)) (fun c hc h => h2 (h ▸ hc)) rfl rfl h1
  exact ⟨s ++ o :: q, t, by simp, h3, o, by simp, ho⟩

end Nlsr.Schema
