import Verif.Lemmas.Schema
import Verif.Lemmas.Names
import Verif.Props.HelloLedger
import Verif.Props.Lsdb
/-
C99: what the shipped rules accept from other routers.  C100: whose certificates take part.  C101: prefix updates.

First, that the patterns of the model are those of nlsr.conf.
-/
namespace Nlsr.Schema

/-! ### The patterns as they are written, nlsr.conf:143-304 -/

example : helloRule.filter.text = "^[^<nlsr><INFO>]*<nlsr><INFO><><>$".toList := by decide +kernel
example : helloRule.check = .equal kInstance { elems := [noneOf ["nlsr", "INFO"] true, one "nlsr", one "INFO", anyOne, anyOne] } := rfl
example : kInstance.text = "^([^<KEY><nlsr>]*)<nlsr><KEY><>{1,3}$".toList := by decide +kernel
example : Regex.text { elems := [noneOf ["nlsr", "INFO"] true, one "nlsr", one "INFO", anyOne, anyOne] } =
    "^([^<nlsr><INFO>]*)<nlsr><INFO><><>$".toList := by decide +kernel
example : lsaRule.filter.text = "^[^<nlsr><LSA>]*<nlsr><LSA>".toList := by decide +kernel
example : Regex.text { elems := [one "localhop", noneOf ["nlsr", "LSA"] true, one "nlsr", one "LSA", anyCap, anyOne, anyOne, anyOne, anyOne] } =
    "^<localhop>([^<nlsr><LSA>]*)<nlsr><LSA>(<>*)<><><><>$".toList := by decide +kernel
example : datasetRule.filter.text = "^[^<nlsr>]*<nlsr>[<lsdb><routing-table>]".toList := by decide +kernel
example : Regex.text { elems := [noneOf ["nlsr"] true, one "nlsr", among ["lsdb", "routing-table"]], closed := false } =
    "^([^<nlsr>]*)<nlsr>[<lsdb><routing-table>]".toList := by decide +kernel
example : kAny.text = "^([^<KEY>]*)<KEY><>{1,3}$".toList := by decide +kernel
example : exceptionRule.filter.text = "^[^<KEY><%C1.Router>]*<%C1.Router>[^<KEY><nlsr>]*<KEY><><><>$".toList := by decide +kernel
example : kOperator.text = "^([^<KEY><%C1.Operator>]*)<%C1.Operator>[^<KEY>]*<KEY><>{1,3}$".toList := by decide +kernel
example : Regex.text { elems := [noneOf ["KEY", "%C1.Router"] true, one "%C1.Router", noneOf ["KEY"], one "KEY", anyOne, anyOne, anyOne] } =
    "^([^<KEY><%C1.Router>]*)<%C1.Router>[^<KEY>]*<KEY><><><>$".toList := by decide +kernel
example : hierarchicalRule.filter.text = "^[^<KEY>]*<KEY><><><>$".toList := by decide +kernel
example : commandRule.filter.text = "^<localhost><nlsr><prefix-update>[<advertise><withdraw>]<><><>$".toList := by decide +kernel

/-! ### The checks -/

theorem equal_holds {k p : Regex} {n key : Name} : (Check.equal k p).holds n key = true ↔
    ∃ g g', k.run key = some g ∧ p.run n = some g' ∧ g.flatten = g'.flatten := by
  unfold Check.holds
  dsimp only
  split
  · rename_i a b ha hb
    constructor
    · intro h; exact ⟨a, b, ha, hb, of_decide_eq_true h⟩
    · rintro ⟨g, g', h1, h2, he⟩
      rw [ha] at h1; rw [hb] at h2
      cases h1; cases h2
      exact decide_eq_true he
  · rename_i hno
    constructor
    · intro h; cases h
    · rintro ⟨g, g', h1, h2, -⟩
      exact absurd h2 (hno g g' h1)

theorem hello_holds {n k : Name} : helloRule.check.holds n k = true ↔
    ∃ a x y t, n = a ++ [cNlsr, cInfo, x, y] ∧ Free ["nlsr", "INFO"] a ∧ k = a ++ cNlsr :: cKey :: t ∧ Free ["KEY", "nlsr"] a ∧
      1 ≤ t.length ∧ t.length ≤ 3 := by
  unfold helloRule
  dsimp only
  rw [equal_holds]
  simp only [kInstance_run, helloP_run]
  constructor
  · rintro ⟨_, _, ⟨a, t, rfl, ha, h1, h2, rfl⟩, ⟨b, x, y, rfl, hb, rfl⟩, he⟩
    simp at he
    subst he
    exact ⟨a, x, y, t, rfl, hb, rfl, ha, h1, h2⟩
  · rintro ⟨a, x, y, t, rfl, hb, rfl, ha, h1, h2⟩
    exact ⟨_, _, ⟨a, t, rfl, ha, h1, h2, rfl⟩, ⟨a, x, y, rfl, hb, rfl⟩, rfl⟩

theorem lsa_holds {n k : Name} : lsaRule.check.holds n k = true ↔
    ∃ a b w x y z t, n = cLocalhop :: (a ++ cNlsr :: cLsa :: (b ++ [w, x, y, z])) ∧ Free ["nlsr", "LSA"] a ∧
      k = a ++ b ++ cNlsr :: cKey :: t ∧ Free ["KEY", "nlsr"] (a ++ b) ∧ 1 ≤ t.length ∧ t.length ≤ 3 := by
  unfold lsaRule
  dsimp only
  rw [equal_holds]
  simp only [kInstance_run, lsaP_run]
  constructor
  · rintro ⟨_, _, ⟨i, t, rfl, hi, h1, h2, rfl⟩, ⟨a, b, w, x, y, z, rfl, ha, rfl⟩, he⟩
    simp at he
    subst he
    exact ⟨a, b, w, x, y, z, t, rfl, ha, rfl, hi, h1, h2⟩
  · rintro ⟨a, b, w, x, y, z, t, rfl, ha, rfl, hi, h1, h2⟩
    exact ⟨_, _, ⟨_, t, rfl, hi, h1, h2, rfl⟩, ⟨a, b, w, x, y, z, rfl, ha, rfl⟩, by simp⟩

theorem dataset_holds {n k : Name} : datasetRule.check.holds n k = true ↔
    ∃ a x m t, n = a ++ cNlsr :: x :: m ∧ (x = Comp.str "lsdb" ∨ x = Comp.str "routing-table") ∧ Free ["nlsr"] a ∧
      k = a ++ cKey :: t ∧ Free ["KEY"] a ∧ 1 ≤ t.length ∧ t.length ≤ 3 := by
  unfold datasetRule
  dsimp only
  rw [equal_holds]
  simp only [kAny_run, datasetP_run]
  constructor
  · rintro ⟨_, _, ⟨i, t, rfl, hi, h1, h2, rfl⟩, ⟨a, x, m, rfl, hx, ha, rfl⟩, he⟩
    simp at he
    subst he
    exact ⟨i, x, m, t, rfl, hx, ha, rfl, hi, h1, h2⟩
  · rintro ⟨a, x, m, t, rfl, hx, ha, rfl, hi, h1, h2⟩
    exact ⟨_, _, ⟨a, t, rfl, hi, h1, h2, rfl⟩, ⟨a, x, m, rfl, hx, ha, rfl⟩, rfl⟩

theorem exception_holds {n k : Name} : exceptionRule.check.holds n k = true ↔
    ∃ a r b x y z o b' t, n = a ++ r :: (b ++ [cKey, x, y, z]) ∧ Free ["KEY", "%C1.Router"] a ∧ Is "%C1.Router" r ∧ Free ["KEY"] b ∧
      k = a ++ o :: (b' ++ cKey :: t) ∧ Free ["KEY", "%C1.Operator"] a ∧ Is "%C1.Operator" o ∧ Free ["KEY"] b' ∧
      1 ≤ t.length ∧ t.length ≤ 3 := by
  unfold exceptionRule
  dsimp only
  rw [equal_holds]
  simp only [kOperator_run, exceptionP_run]
  constructor
  · rintro ⟨_, _, ⟨i, o, b', t, rfl, hi, ho, hb', h1, h2, rfl⟩, ⟨a, r, b, x, y, z, rfl, ha, hr, hb, rfl⟩, he⟩
    simp at he
    subst he
    exact ⟨i, r, b, x, y, z, o, b', t, rfl, ha, hr, hb, rfl, hi, ho, hb', h1, h2⟩
  · rintro ⟨a, r, b, x, y, z, o, b', t, rfl, ha, hr, hb, rfl, hi, ho, hb', h1, h2⟩
    exact ⟨_, _, ⟨a, o, b', t, rfl, hi, ho, hb', h1, h2, rfl⟩, ⟨a, r, b, x, y, z, rfl, ha, hr, hb, rfl⟩, rfl⟩

theorem hierarchical_holds {n k : Name} : Check.hierarchical.holds n k = true ↔
    ∃ a t, k = a ++ cKey :: t ∧ Free ["KEY"] a ∧ 1 ≤ t.length ∧ t.length ≤ 3 ∧ a <+: n := by
  unfold Check.holds
  dsimp only
  split
  · rename_i g hg
    obtain ⟨a, t, rfl, ha, h1, h2, rfl⟩ := (kAny_run _ _).1 hg
    constructor
    · intro h
      exact ⟨a, t, rfl, ha, h1, h2, List.isPrefixOf_iff_prefix.1 (by simpa [Name.isPrefixOf] using h)⟩
    · rintro ⟨a', t', he, ha', h1', h2', hp⟩
      obtain ⟨rfl, -⟩ := free_cut (s := "KEY") (by simp) ha ha' lit_key.is lit_key.is he
      simpa [Name.isPrefixOf] using List.isPrefixOf_iff_prefix.2 hp
  · rename_i hg
    constructor
    · intro h; cases h
    · rintro ⟨a, t, rfl, ha, h1, h2, hp⟩
      rw [(kAny_run _ _).2 ⟨a, t, rfl, ha, h1, h2, rfl⟩] at hg
      cases hg

theorem passes_cons (r : Rule) (rs : List Rule) (n k : Name) :
    passes (r :: rs) n k = if (r.filter.run n).isSome = true then r.check.holds n k else passes rs n k := by
  unfold passes
  rw [List.find?_cons]
  cases (r.filter.run n).isSome with
  | true => rfl
  | false => rfl

theorem passes_nil (n k : Name) : passes [] n k = false := rfl

/-- Every way to pass the shipped rules. -/
theorem shipped_cases {n k : Name} (h : passes shipped n k = true) :
    helloRule.check.holds n k = true ∨ ((lsaRule.filter.run n).isSome = true ∧ lsaRule.check.holds n k = true) ∨
    datasetRule.check.holds n k = true ∨
    exceptionRule.check.holds n k = true ∨
    ((hierarchicalRule.filter.run n).isSome = true ∧ ¬ (exceptionRule.filter.run n).isSome = true ∧ Check.hierarchical.holds n k = true) := by
  unfold shipped at h
  simp only [passes_cons, passes_nil] at h
  split at h
  · exact Or.inl h
  split at h
  · rename_i h2; exact Or.inr (Or.inl ⟨h2, h⟩)
  split at h
  · exact Or.inr (Or.inr (Or.inl h))
  split at h
  · exact Or.inr (Or.inr (Or.inr (Or.inl h)))
  split at h
  · rename_i h4 h5; exact Or.inr (Or.inr (Or.inr (Or.inr ⟨h5, h4, h⟩)))
  · cases h

theorem free_two {s s' : String} {x x' : Comp} (l : Lit s x) (l' : Lit s' x') {a : Name} : Free [s, s'] a ↔ x ∉ a ∧ x' ∉ a := by
  constructor
  · intro h; exact ⟨free_mem h (by simp) l.is, free_mem h (by simp) l'.is⟩
  · rintro ⟨h1, h2⟩ c hc p hp
    cases hf : fits p.toList (Uri.ofComp c) with
    | false => rfl
    | true =>
      simp only [List.mem_cons, List.not_mem_nil, or_false] at hp
      rcases hp with rfl | rfl
      · exact absurd (l.eq hf ▸ hc) h1
      · exact absurd (l'.eq hf ▸ hc) h2

theorem free_one {s : String} {x : Comp} (l : Lit s x) {a : Name} : Free [s] a ↔ x ∉ a := by
  constructor
  · intro h; exact free_mem h (by simp) l.is
  · intro h1 c hc p hp
    cases hf : fits p.toList (Uri.ofComp c) with
    | false => rfl
    | true =>
      simp only [List.mem_cons, List.not_mem_nil, or_false] at hp
      subst hp
      exact absurd (l.eq hf ▸ hc) h1

/-! ### C99 -/

theorem nlsr_ne_key : cNlsr ≠ cKey := by decide +kernel
theorem nlsr_ne_localhop : cNlsr ≠ cLocalhop := by decide +kernel
theorem info_ne_lsa : cInfo ≠ cLsa := by decide +kernel
theorem info_ne_key : cInfo ≠ cKey := by decide +kernel
theorem lsa_ne_key : cLsa ≠ cKey := by decide +kernel

/-- What follows the first `nlsr`. -/
theorem after_nlsr {l : List String} (hl : "nlsr" ∈ l) {a b m m' : Name} (ha : Free l a) (hb : cNlsr ∉ b) (h : a ++ cNlsr :: m = b ++ cNlsr :: m') :
    a = b ∧ m = m' := by
  obtain ⟨h1, -, h2⟩ := cut_unique (P := fun c => c = cNlsr) (fun c hc hi => free_mem ha hl lit_nlsr.is (hi ▸ hc))
    (fun c hc hi => hb (hi ▸ hc)) rfl rfl h
  exact ⟨h1, h2⟩

/-- C99: hello data of a router, `/<router>/nlsr/INFO/<peer>/<version>`, passes exactly with keys of that router's NLSR:
`/<router>/nlsr/KEY/<id>`, or one of their certificates. -/
theorem C99_hello {a : Name} (h1 : Comp.str "nlsr" ∉ a) (h2 : Comp.str "INFO" ∉ a) (x y : Comp) (k : Name) :
    passes shipped (a ++ [Comp.str "nlsr", Comp.str "INFO", x, y]) k = true ↔
      Comp.str "KEY" ∉ a ∧ ∃ t, k = a ++ Comp.str "nlsr" :: Comp.str "KEY" :: t ∧ 1 ≤ t.length ∧ t.length ≤ 3 := by
  have hf : (helloRule.filter.run (a ++ [cNlsr, cInfo, x, y])).isSome = true :=
    (helloF_some _).2 ⟨a, x, y, rfl, (free_two lit_nlsr lit_info).2 ⟨h1, h2⟩⟩
  show passes shipped (a ++ [cNlsr, cInfo, x, y]) k = true ↔ _
  unfold shipped
  rw [passes_cons, if_pos hf, hello_holds]
  constructor
  · rintro ⟨b, x', y', t, he, hb, rfl, hb', h3, h4⟩
    obtain ⟨rfl, -⟩ := after_nlsr (by simp) hb h1 he.symm
    exact ⟨((free_two lit_key lit_nlsr).1 hb').1, t, rfl, h3, h4⟩
  · rintro ⟨hk, t, rfl, h3, h4⟩
    exact ⟨a, x, y, t, rfl, (free_two lit_nlsr lit_info).2 ⟨h1, h2⟩, rfl, (free_two lit_key lit_nlsr).2 ⟨hk, h1⟩, h3, h4⟩

/-- C99: LSA data, named by the interest for router `r`'s LSA with a version and a segment, passes exactly with keys of that
router's NLSR. -/
theorem C99_lsa (r : RouterConf) (ty : LsaType) (seq ver i : Nat) (h1 : Comp.str "nlsr" ∉ r.network) (h2 : Comp.str "LSA" ∉ r.network) (k : Name) :
    passes shipped (Lsdb.segName (r.lsaInterest ty seq) ver i) k = true ↔
      Comp.str "KEY" ∉ r.routerPrefix ∧ Comp.str "nlsr" ∉ r.routerPrefix ∧
      ∃ t, k = r.routerPrefix ++ Comp.str "nlsr" :: Comp.str "KEY" :: t ∧ 1 ≤ t.length ∧ t.length ≤ 3 := by
  have e : Lsdb.segName (r.lsaInterest ty seq) ver i = cLocalhop :: (r.network ++ cNlsr :: cLsa :: ((r.site ++ r.router) ++
      [Comp.str ty.text, Comp.number seq, ⟨54, Tlv.encNni ver⟩, ⟨50, Tlv.encNni i⟩])) := by
    simp [Lsdb.segName, RouterConf.lsaInterest, RouterConf.lsaUserPrefix, RouterConf.syncUserPrefix, RouterConf.lsaPrefix, Nbr.nlsrComp]
  rw [e]
  generalize Comp.str ty.text = w
  generalize Comp.number seq = x
  generalize (⟨54, Tlv.encNni ver⟩ : Comp) = y
  generalize (⟨50, Tlv.encNni i⟩ : Comp) = z
  have hln : cNlsr ∉ cLocalhop :: r.network := by
    intro h
    rcases List.mem_cons.1 h with h | h
    · exact nlsr_ne_localhop h
    · exact h1 h
  have hll : cLsa ∉ cLocalhop :: r.network := by
    intro h
    rcases List.mem_cons.1 h with h | h
    · exact absurd h (by decide +kernel)
    · exact h2 h
  have hf1 : ¬ (helloRule.filter.run (cLocalhop :: (r.network ++ cNlsr :: cLsa :: ((r.site ++ r.router) ++ [w, x, y, z])))).isSome = true := by
    rw [helloF_some]
    rintro ⟨a, x', y', he, ha⟩
    obtain ⟨-, he⟩ := after_nlsr (b := cLocalhop :: r.network) (by simp) ha hln he.symm
    simp only [List.cons.injEq] at he
    exact info_ne_lsa he.1
  have hf2 : (lsaRule.filter.run (cLocalhop :: (r.network ++ cNlsr :: cLsa :: ((r.site ++ r.router) ++ [w, x, y, z])))).isSome = true :=
    (lsaF_some _).2 ⟨cLocalhop :: r.network, _, rfl, (free_two lit_nlsr lit_lsa).2 ⟨hln, hll⟩⟩
  unfold shipped
  rw [passes_cons, if_neg hf1, passes_cons, if_pos hf2, lsa_holds]
  constructor
  · rintro ⟨a, b, w', x', y', z', t, he, ha, rfl, hk, h3, h4⟩
    obtain ⟨rfl, he2⟩ := after_nlsr (by simp) ha h1 (List.cons.inj he).2.symm
    obtain ⟨rfl, -⟩ := List.append_inj' (List.cons.inj he2).2 rfl
    rw [← List.append_assoc] at hk ⊢
    exact ⟨((free_two lit_key lit_nlsr).1 hk).1, ((free_two lit_key lit_nlsr).1 hk).2, t, rfl, h3, h4⟩
  · rintro ⟨hk, hn, t, rfl, h3, h4⟩
    refine ⟨r.network, r.site ++ r.router, w, x, y, z, t, rfl, (free_two lit_nlsr lit_lsa).2 ⟨h1, h2⟩, ?_, ?_, h3, h4⟩
    · simp [RouterConf.routerPrefix, Nbr.nlsrComp, Nbr.keyComp]
    · rw [← List.append_assoc]; exact (free_two lit_key lit_nlsr).2 ⟨hk, hn⟩

/-- C99: data sets, `/<router>/nlsr/lsdb/…` and `/<router>/nlsr/routing-table/…`, pass exactly with keys of that router. -/
theorem C99_dataset {a : Name} (h1 : Comp.str "nlsr" ∉ a) {x : Comp} (hx : x = Comp.str "lsdb" ∨ x = Comp.str "routing-table") (m k : Name) :
    passes shipped (a ++ Comp.str "nlsr" :: x :: m) k = true ↔
      Comp.str "KEY" ∉ a ∧ ∃ t, k = a ++ Comp.str "KEY" :: t ∧ 1 ≤ t.length ∧ t.length ≤ 3 := by
  have hxi : cInfo ≠ x := by rcases hx with rfl | rfl <;> decide +kernel
  have hxl : cLsa ≠ x := by rcases hx with rfl | rfl <;> decide +kernel
  show passes shipped (a ++ cNlsr :: x :: m) k = true ↔ _
  have hf1 : ¬ (helloRule.filter.run (a ++ cNlsr :: x :: m)).isSome = true := by
    rw [helloF_some]
    rintro ⟨b, x', y', he, hb⟩
    obtain ⟨-, he⟩ := after_nlsr (by simp) hb h1 he.symm
    simp only [List.cons.injEq] at he
    exact hxi he.1
  have hf2 : ¬ (lsaRule.filter.run (a ++ cNlsr :: x :: m)).isSome = true := by
    rw [lsaF_some]
    rintro ⟨b, m', he, hb⟩
    obtain ⟨-, he⟩ := after_nlsr (by simp) hb h1 he.symm
    simp only [List.cons.injEq] at he
    exact hxl he.1
  have hf3 : (datasetRule.filter.run (a ++ cNlsr :: x :: m)).isSome = true :=
    (datasetF_some _).2 ⟨a, x, m, rfl, hx, (free_one lit_nlsr).2 h1⟩
  unfold shipped
  rw [passes_cons, if_neg hf1, passes_cons, if_neg hf2, passes_cons, if_pos hf3, dataset_holds]
  constructor
  · rintro ⟨b, x', m', t, he, -, hb, rfl, hk, h3, h4⟩
    obtain ⟨rfl, -⟩ := after_nlsr (by simp) hb h1 he.symm
    exact ⟨(free_one lit_key).1 hk, t, rfl, h3, h4⟩
  · rintro ⟨hk, t, rfl, h3, h4⟩
    exact ⟨a, x, m, t, rfl, hx, (free_one lit_nlsr).2 h1, rfl, (free_one lit_key).2 hk, h3, h4⟩

/-- C99: nothing else passes: the data is hello data, LSA data, a data set or a certificate. -/
theorem C99_only {n k : Name} (h : passes shipped n k = true) :
    (∃ a x y, n = a ++ [Comp.str "nlsr", Comp.str "INFO", x, y]) ∨
    (∃ a m, n = Comp.str "localhop" :: (a ++ Comp.str "nlsr" :: Comp.str "LSA" :: m) ∧ 4 ≤ m.length) ∨
    (∃ a x m, n = a ++ Comp.str "nlsr" :: x :: m ∧ (x = Comp.str "lsdb" ∨ x = Comp.str "routing-table")) ∨
    (∃ a x y z, n = a ++ [Comp.str "KEY", x, y, z]) := by
  rcases shipped_cases h with h | ⟨-, h⟩ | h | h | ⟨h, -⟩
  · obtain ⟨a, x, y, -, rfl, -⟩ := hello_holds.1 h
    exact Or.inl ⟨a, x, y, rfl⟩
  · obtain ⟨a, b, w, x, y, z, -, rfl, -⟩ := lsa_holds.1 h
    exact Or.inr (Or.inl ⟨a, b ++ [w, x, y, z], rfl, by simp⟩)
  · obtain ⟨a, x, m, -, rfl, hx, -⟩ := dataset_holds.1 h
    exact Or.inr (Or.inr (Or.inl ⟨a, x, m, rfl, hx⟩))
  · obtain ⟨a, r, b, x, y, z, -, -, -, rfl, -⟩ := exception_holds.1 h
    exact Or.inr (Or.inr (Or.inr ⟨a ++ r :: b, x, y, z, by simp [Nbr.keyComp]⟩))
  · obtain ⟨a, x, y, z, rfl, -⟩ := (hierarchicalF_some n).1 h
    exact Or.inr (Or.inr (Or.inr ⟨a, x, y, z, rfl⟩))

/-- C99: a neighbour comes up only by data signed with a key of its own NLSR, whatever data are offered. -/
theorem C99_up {c : NConf} (hr : c.retry < 4294967296) {s : Nbr} (h : Nbr.Reachable c s)
    (hs : ∀ a ∈ s.adjs, Comp.str "nlsr" ∉ a.name ∧ Comp.str "INFO" ∉ a.name) (op : Nbr.Op) (n : Name) (hn : Comp.str "nlsr" ∉ n)
    (h1 : AdjacencyList.getStatus s.adjs n ≠ .active) (h2 : AdjacencyList.getStatus (Nbr.step c s op).adjs n = .active) (k : Name)
    (hk : ∀ d, (Nbr.step c s op).hist = s.hist ++ [.valid d] → passes shipped d k = true) :
    ∃ t, k = n ++ Comp.str "nlsr" :: Comp.str "KEY" :: t ∧ 1 ≤ t.length ∧ t.length ≤ 3 := by
  obtain ⟨o, -, hc⟩ := Nbr.step_status hr h.ninv op
  rcases hc with ⟨hsame, -⟩ | ⟨m, -, hne, hc⟩
  · rw [hsame] at h2; exact absurd h2 h1
  by_cases hmn : n = m
  · subst hmn
    rcases hc with ⟨-, hina, -⟩ | ⟨-, -, d, hd, hh, hrep⟩
    · rw [hina] at h2; cases h2
    · have hp := hk d hh
      obtain ⟨⟨y, ⟨b, hb, rfl⟩, hpre⟩, -⟩ := h.ninv.valid d hd
      obtain ⟨b', hb', rfl⟩ := List.mem_map.1 hb
      obtain ⟨hb1, hb2⟩ := hs b' hb'
      obtain ⟨rest, rfl⟩ := hpre
      obtain ⟨hlen, ⟨u, hu⟩, hinfo⟩ := hrep
      unfold Nbr.helloName at hu hlen
      rw [List.append_assoc] at hu hlen
      have hnb : n = b'.name := by
        have hul : u.length = 4 := by
          have := congrArg List.length hu
          simp only [List.length_append] at this hlen
          omega
        have hrl : b'.name.length ≤ n.length ∨ n.length < b'.name.length := by omega
        rcases hrl with hle | hlt
        · have hpx : b'.name <+: n := by
            apply List.prefix_of_prefix_length_le (l₃ := n ++ u)
            · exact ⟨_, hu.symm⟩
            · exact ⟨u, rfl⟩
            · exact hle
          obtain ⟨v, rfl⟩ := hpx
          cases v with
          | nil => simp
          | cons q v =>
            rw [List.append_assoc] at hu
            have := List.append_cancel_left hu
            simp at this
            exact absurd (by rw [this.1]; simp [Nbr.nlsrComp]) hn
        · -- the data is at least three components longer than that neighbour's name
          exfalso
          have hle : n <+: b'.name := by
            apply List.prefix_of_prefix_length_le (l₃ := n ++ u)
            · exact ⟨u, rfl⟩
            · exact ⟨_, hu.symm⟩
            · omega
          obtain ⟨v, hv⟩ := hle
          rw [← hv] at hu hlen hlt
          rw [List.append_assoc] at hu
          have hu := List.append_cancel_left hu
          have hvl := congrArg List.length hu
          simp only [List.length_append, List.length_cons, List.length_nil] at hvl hlt
          have hv1 : v.length = 1 := by omega
          obtain ⟨q, rfl⟩ := List.length_eq_one_iff.1 hv1
          rw [← hv] at hinfo
          simp [Nbr.helloName] at hinfo
          exact absurd hinfo (by decide +kernel)
      subst hnb
      have hrest : rest.length = 1 := by
        simp at hlen
        omega
      obtain ⟨q, rfl⟩ := List.length_eq_one_iff.1 hrest
      have e : Nbr.helloName c b'.name ++ [q] = b'.name ++ [Comp.str "nlsr", Comp.str "INFO", ⟨8, Tlv.encName c.router⟩, q] := by
        simp [Nbr.helloName, Nbr.nlsrComp, Nbr.infoComp]
      rw [e] at hp
      obtain ⟨-, ht⟩ := (C99_hello hb1 hb2 _ _ k).1 hp
      exact ht
  · rw [hne n hmn] at h2; exact absurd h2 h1

/-! ### Examples -/

/-- A reply of `b` brings it up, and passes with a key of `b` and no other. -/
example :
    let s := Nbr.run HelloWitness.conf (Nbr.init HelloWitness.conf HelloWitness.adjs) (HelloWitness.upOps.take 3)
    AdjacencyList.getStatus s.adjs (nm ["net", "b"]) ≠ .active ∧
    AdjacencyList.getStatus (Nbr.step HelloWitness.conf s (.valid 0)).adjs (nm ["net", "b"]) = .active ∧
    (Nbr.step HelloWitness.conf s (.valid 0)).hist = s.hist ++ [.valid HelloWitness.reply] ∧
    passes shipped HelloWitness.reply (nm ["net", "b", "nlsr", "KEY", "1"]) = true ∧
    passes shipped HelloWitness.reply (nm ["net", "b", "nlsr", "KEY", "1", "i", "v"]) = true ∧
    passes shipped HelloWitness.reply (nm ["net", "b", "KEY", "1"]) = false ∧
    passes shipped HelloWitness.reply (nm ["net", "c", "nlsr", "KEY", "1"]) = false ∧
    passes shipped HelloWitness.reply (nm ["net", "nlsr", "KEY", "1"]) = false := by
  decide +kernel

/-- An LSA passes with the key of its router and not with that of another. -/
example :
    let d := Lsdb.segName (RouterConf.lsaInterest ⟨nm ["net"], nm ["site"], nm ["r2"]⟩ .name 5) 1 0
    passes shipped d (nm ["net", "site", "r2", "nlsr", "KEY", "1"]) = true ∧
    passes shipped d (nm ["net", "site", "r3", "nlsr", "KEY", "1"]) = false ∧
    passes shipped d (nm ["net", "site", "nlsr", "KEY", "1"]) = false ∧
    passes shipped d (nm ["net", "site", "r2", "KEY", "1"]) = false := by
  decide +kernel

example : passes shipped (nm ["net", "r2", "nlsr", "lsdb", "names", "v", "s"]) (nm ["net", "r2", "KEY", "1"]) = true ∧
    passes shipped (nm ["net", "r2", "nlsr", "lsdb", "names", "v", "s"]) (nm ["net", "r2", "nlsr", "KEY", "1"]) = false := by
  decide +kernel

/-- C99 fails in what is done with the data: the LSA inside is not compared with the name it was fetched under.  A router
whose own LSA is fetched, with its own key, can put an LSA of another router into it, and it is installed as that router's. -/
theorem C99_violated_origin : ∃ (ops : List Lsdb.Op) (d k : Name),
    Name.isPrefixOf (exUpdate "r2" "NAME" ++ [Comp.number 5]) d = true ∧
    passes shipped d k = true ∧ k = nm ["net", "site", "r2", "nlsr", "KEY", "1"] ∧
    (exStart .off).find (nm ["net", "site", "r3"]) .name = none ∧
    ops = [.sync (exUpdate "r2" "NAME") 5, .fetched 0 (some ⟨nm ["net", "site", "r3"], 999, 3600000000000, .names [⟨nm ["bank"], .fin 0⟩]⟩)] ∧
    ((Lsdb.run (exConf .off) (exStart .off) ops).find (nm ["net", "site", "r3"]) .name).map (fun o => (o.lsa.seq, o.lsa.content)) =
      some (999, .names [⟨nm ["bank"], .fin 0⟩]) :=
  ⟨_, Lsdb.segName (exUpdate "r2" "NAME" ++ [Comp.number 5]) 1 0, nm ["net", "site", "r2", "nlsr", "KEY", "1"], by decide +kernel, by decide +kernel,
    rfl, by decide +kernel, rfl, by decide +kernel⟩

/-- C99 fails for LSA data without a version, which is under the name asked for as well: the key of whoever has the router's
name without its last component passes, and the key of the router itself does not. -/
theorem C99_violated_unversioned : ∃ (r : RouterConf) (d : Name),
    d = r.lsaInterest .name 5 ++ [⟨50, Tlv.encNni 0⟩] ∧ r.routerPrefix = nm ["net", "site", "r2"] ∧
    passes shipped d (nm ["net", "site", "nlsr", "KEY", "1"]) = true ∧
    passes shipped d (nm ["net", "site", "r2", "nlsr", "KEY", "1"]) = false :=
  ⟨⟨nm ["net"], nm ["site"], nm ["r2"]⟩, _, rfl, by decide +kernel, by decide +kernel, by decide +kernel⟩

end Nlsr.Schema
