import Verif.Model.Security
/- C98: the `security` section. -/
namespace Nlsr
open Security

/-- The files named by `cert-to-publish`, in order, with their certificates. -/
inductive Files (env : SecEnv) : List (Text × Tree) → List (Text × Cert) → Prop
  | nil : Files env [] []
  | cons {t : Tree} {path : Text} {c : Cert} {xs : List (Text × Tree)} {l : List (Text × Cert)}
      (hf : env.file t.data = .cert path c) (h : Files env xs l) : Files env (("cert-to-publish".toList, t) :: xs) ((path, c) :: l)

theorem certs_done {env : SecEnv} : ∀ (xs : List (Text × Tree)) (s s' : Security), Security.certs env xs s = .done s' ↔
    ∃ l, Files env xs l ∧ s' = l.foldl (fun s p => s.add p.1 p.2) s
  | [], s, s' => by
    constructor
    · intro h; cases h; exact ⟨[], .nil, rfl⟩
    · rintro ⟨l, h, rfl⟩; cases h; rfl
  | x :: xs, s, s' => by
    unfold Security.certs
    constructor
    · intro h
      split at h
      · cases h
      rename_i hk
      have hk := Decidable.not_not.1 hk
      split at h
      · cases h
      · cases h
      · rename_i path c hf
        obtain ⟨l, hl, rfl⟩ := (certs_done xs _ s').1 h
        obtain ⟨k, t⟩ := x
        dsimp only at hk
        subst hk
        exact ⟨(path, c) :: l, .cons hf hl, rfl⟩
    · rintro ⟨l, h, rfl⟩
      cases h with
      | cons hf h =>
        rw [if_neg (fun h => h rfl)]
        dsimp only
        rw [hf]
        exact (certs_done xs _ _).2 ⟨_, h, rfl⟩

theorem add_all (l : List (Text × Cert)) : ∀ s : Security, let r := l.foldl (fun s p => s.add p.1 p.2) s
    r.validator = s.validator ∧ r.updates = s.updates ∧ r.anchors = s.anchors ++ l.map (·.2) ∧
    (∀ p, p ∈ r.paths ↔ p ∈ s.paths ∨ p ∈ l.map (·.1)) ∧
    (∀ c ∈ r.publish, c ∈ s.publish ∨ c ∈ l.map (·.2)) ∧ (∀ c ∈ s.publish, c ∈ r.publish) ∧
    (∀ p ∈ l, p.1 ∉ s.paths → (∀ q ∈ l, q.1 = p.1 → q.2 = p.2) → p.2 ∈ r.publish) := by
  induction l with
  | nil => intro s; simp
  | cons p l ih =>
    intro s
    obtain ⟨h1, h2, h3, h4, h5, h6, h7⟩ := ih (s.add p.1 p.2)
    have hp : ∀ q, q ∈ (s.add p.1 p.2).paths ↔ q ∈ s.paths ∨ q = p.1 := by
      intro q
      unfold Security.add
      dsimp only
      split
      · rename_i hm
        constructor
        · exact Or.inl
        · rintro (h | rfl)
          · exact h
          · exact hm
      · simp
    have hc : ∀ c, c ∈ (s.add p.1 p.2).publish ↔ c ∈ s.publish ∨ (p.1 ∉ s.paths ∧ c = p.2) := by
      intro c
      unfold Security.add
      dsimp only
      split
      · rename_i hm; simp [hm]
      · rename_i hm; simp [hm]
    show _ ∧ _
    rw [List.foldl_cons]
    refine ⟨h1, h2, ?_, ?_, ?_, ?_, ?_⟩
    · rw [h3]; simp [Security.add]
    · intro q
      rw [h4, hp]
      simp [or_assoc]
    · intro c hcm
      rcases h5 c hcm with h | h
      · rcases (hc c).1 h with h | ⟨-, rfl⟩
        · exact Or.inl h
        · exact Or.inr (by simp)
      · exact Or.inr (by simp at h ⊢; exact Or.inr h)
    · intro c hcm
      exact h6 c ((hc c).2 (Or.inl hcm))
    · intro q hq hn hsame
      rcases List.mem_cons.1 hq with rfl | hq
      · exact h6 _ ((hc _).2 (Or.inr ⟨hn, rfl⟩))
      · by_cases hqp : q.1 = p.1
        · have : p.2 = q.2 := hsame p (by simp) hqp.symm
          rw [← this]
          exact h6 _ ((hc _).2 (Or.inr ⟨hqp ▸ hn, rfl⟩))
        · exact h7 q hq (by rw [hp]; exact fun h => h.elim hn hqp) (fun x hx => hsame x (List.mem_cons_of_mem _ hx))

theorem load_two {env : SecEnv} {t : Tree} {s : Security} {k k' : Text} {v u : Tree} {xs : List (Text × Tree)}
    (ht : t.kids = (k, v) :: (k', u) :: xs) (hk : k = "validator".toList) (hk' : k' = "prefix-update-validator".toList)
    (hv : env.rules v = true) (hu : env.rules u = true) :
    Security.load env t s = Security.certs env xs { s with validator := some v, updates := some u } := by
  unfold Security.load
  rw [ht]
  simp only [hk, hk', hv, hu, ne_eq, not_true_eq_false, if_false, if_true, Bool.true_eq_false]

theorem load_one {env : SecEnv} {t : Tree} {s : Security} {k : Text} {v : Tree} {xs : List (Text × Tree)}
    (ht : t.kids = (k, v) :: xs) (hk : k = "validator".toList) (hx : xs.head?.map (·.1) ≠ some "prefix-update-validator".toList)
    (hv : env.rules v = true) : Security.load env t s = .done { s with validator := some v } := by
  unfold Security.load
  rw [ht]
  simp only [hk, hv, ne_eq, not_true_eq_false, if_false, Bool.true_eq_false]
  cases xs with
  | nil => rfl
  | cons y ys =>
    have : ¬ y.1 = "prefix-update-validator".toList := fun h => hx (congrArg some h)
    simp only [this, if_false]

/-- C98: exactly which sections are accepted, and what they set.  The first entry is a validator's, with rules that load.  If
the second is the update validator's, with rules that load, all others name certificate files: all these certificates are
published, and trusted by both validators, and no others.  Any other second entry is ignored with all that follows it (the
claim fails there: `C98_violated_documented`). -/
theorem C98_accepted_partial (env : SecEnv) (t : Tree) (s : Security) :
    Security.load env t {} = .done s ↔
      (∃ v, env.rules v = true ∧ s.validator = some v ∧
        ((∃ u xs l, t.kids = ("validator".toList, v) :: ("prefix-update-validator".toList, u) :: xs ∧ env.rules u = true ∧
            s.updates = some u ∧ Files env xs l ∧ s = l.foldl (fun s p => s.add p.1 p.2) { validator := some v, updates := some u }) ∨
         (∃ xs, t.kids = ("validator".toList, v) :: xs ∧ xs.head?.map (·.1) ≠ some "prefix-update-validator".toList ∧
            s = { validator := some v }))) := by
  constructor
  · intro h
    unfold Security.load at h
    split at h
    · cases h
    rename_i x xs hk
    split at h
    · cases h
    rename_i hx
    have hx := Decidable.not_not.1 hx
    split at h
    · cases h
    rename_i hr
    replace hr : env.rules x.2 = true := by cases hb : env.rules x.2 with | true => rfl | false => exact absurd hb hr
    obtain ⟨k, v⟩ := x
    dsimp only at hx hr h
    subst hx
    split at h
    · cases h
      exact ⟨v, hr, rfl, Or.inr ⟨[], hk, by simp, rfl⟩⟩
    · rename_i y ys
      split at h
      · rename_i hy
        obtain ⟨k, u⟩ := y
        dsimp only at hy
        subst hy
        split at h
        · cases h
        rename_i hu
        replace hu : env.rules u = true := by cases hb : env.rules u with | true => rfl | false => exact absurd hb hu
        obtain ⟨l, hl, rfl⟩ := (certs_done _ _ _).1 h
        obtain ⟨a1, a2, -⟩ := add_all l { validator := some v, updates := some u }
        exact ⟨v, hr, a1, Or.inl ⟨u, ys, l, hk, hu, a2, hl, rfl⟩⟩
      · rename_i hy
        cases h
        exact ⟨v, hr, rfl, Or.inr ⟨y :: ys, hk, fun e => hy (Option.some.inj e), rfl⟩⟩
  · rintro ⟨v, hr, -, (⟨u, xs, l, hk, hu, -, hl, rfl⟩ | ⟨xs, hk, hx, rfl⟩)⟩
    · exact (load_two hk rfl rfl hr hu).trans ((certs_done _ _ _).2 ⟨l, hl, rfl⟩)
    · exact load_one hk rfl hx hr

/-- C98: in the order the sample file has, every certificate named is published and trusted, and no other. -/
theorem C98_published (env : SecEnv) (d : Text) (v u : Tree) (xs : List (Text × Tree)) (l : List (Text × Cert)) (hv : env.rules v = true)
    (hu : env.rules u = true) (hl : Files env xs l) (hsame : ∀ p ∈ l, ∀ q ∈ l, q.1 = p.1 → q.2 = p.2) :
    ∃ s, Security.load env (.node d (("validator".toList, v) :: ("prefix-update-validator".toList, u) :: xs)) {} = .done s ∧
      s.validator = some v ∧ s.updates = some u ∧ (∀ c, c ∈ s.publish ↔ c ∈ l.map (·.2)) ∧ s.anchors = l.map (·.2) := by
  obtain ⟨a1, a2, a3, -, a5, -, a7⟩ := add_all l { validator := some v, updates := some u }
  refine ⟨l.foldl (fun s p => s.add p.1 p.2) { validator := some v, updates := some u },
    (C98_accepted_partial env _ _).2 ⟨v, hv, a1, Or.inl ⟨u, xs, l, rfl, hu, a2, hl, rfl⟩⟩, a1, a2, ?_, ?_⟩
  · intro c
    constructor
    · intro h
      rcases a5 c h with h | h
      · cases h
      · exact h
    · intro h
      obtain ⟨p, hp, rfl⟩ := List.mem_map.1 h
      exact a7 p hp (by simp) (hsame p hp)
  · rw [a3]; rfl

/-- C98: anything else than a validator first, and anything else than certificate files after the two validators, is refused. -/
theorem C98_refused (env : SecEnv) (d : Text) (xs : List (Text × Tree)) :
    (xs.head?.map (·.1) ≠ some "validator".toList → Security.load env (.node d xs) {} = .refused) ∧
    (∀ v u pre k t post l, env.rules v = true → env.rules u = true → Files env pre l → k ≠ "cert-to-publish".toList →
      Security.load env (.node d (("validator".toList, v) :: ("prefix-update-validator".toList, u) :: (pre ++ (k, t) :: post))) {} = .refused) := by
  constructor
  · intro h
    cases xs with
    | nil => rfl
    | cons x xs =>
      unfold Security.load
      dsimp only [Tree.kids]
      rw [if_pos (fun e => h (congrArg some e))]
  · intro v u pre k t post l hv hu hl hk
    rw [load_two rfl rfl rfl hv hu]
    generalize ({ ({} : Security) with validator := some v, updates := some u } : Security) = s
    induction hl generalizing s with
    | nil =>
      rw [List.nil_append]
      unfold Security.certs
      rw [if_pos hk]
    | cons hf _ ih =>
      rw [List.cons_append]
      unfold Security.certs
      rw [if_neg (fun h => h rfl)]
      dsimp only
      rw [hf]
      exact ih _

namespace SecWitness
def cert (s : String) : Cert := { name := nm [s, "KEY", "1", "i", "v"], locator := none }
def leaf (t : String) : Tree := .node t.toList []
/-- Every file has a certificate of its own. -/
def env : SecEnv where
  rules _ := true
  file t := if t = "site.cert".toList then .cert "/site.cert".toList (cert "site")
    else if t = "router.cert".toList then .cert "/router.cert".toList (cert "router") else .missing
end SecWitness
open SecWitness

example : Files env [("cert-to-publish".toList, leaf "site.cert"), ("cert-to-publish".toList, leaf "router.cert")]
    [("/site.cert".toList, cert "site"), ("/router.cert".toList, cert "router")] :=
  .cons (by rfl) (.cons (by rfl) .nil)

/-- C98 fails for the section that docs/SECURITY-CONFIG.rst:56-67 gives as an example: certificates named right after the
validator are silently ignored, none is published and none is trusted. -/
theorem C98_violated_documented :
    Security.load env (.node [] [("validator".toList, leaf "any"), ("cert-to-publish".toList, leaf "site.cert"),
      ("cert-to-publish".toList, leaf "router.cert")]) {} = .done { validator := some (leaf "any") } ∧
    (∃ s, Security.load env (.node [] [("validator".toList, leaf "any"), ("prefix-update-validator".toList, leaf "any"),
      ("cert-to-publish".toList, leaf "site.cert"), ("cert-to-publish".toList, leaf "router.cert")]) {} = .done s ∧
      s.publish = [cert "site", cert "router"]) :=
  ⟨rfl, _, rfl, rfl⟩

/-- C98 fails for anything else in that place, even nonsense: the update validator behind it is not loaded, and nobody is
told. -/
theorem C98_violated_ignored :
    Security.load env (.node [] [("validator".toList, leaf "any"), ("prefix-update-validators".toList, leaf "typo"),
      ("prefix-update-validator".toList, leaf "any"), ("cert-to-publish".toList, leaf "no such file")]) {} =
      .done { validator := some (leaf "any") } := rfl

/-- C98 fails for a file that does not exist: the daemon is aborted by an exception where a file without a certificate is
refused with a message. -/
theorem C98_violated_missing :
    Security.load env (.node [] [("validator".toList, leaf "any"), ("prefix-update-validator".toList, leaf "any"),
      ("cert-to-publish".toList, leaf "no such file")]) {} = .aborted := rfl

end Nlsr
