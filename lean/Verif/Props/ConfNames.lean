import Verif.Props.Conf
import Verif.Props.NplList
import Verif.Lemmas.Uri
/- C72-C75: which values, names, neighbours and prefixes an accepted configuration has. -/
namespace Nlsr
open Conf

/-- The only section of that name. -/
def OnlySection (t : Tree) (name : String) (x : Text × Tree) : Prop :=
  t.kids.filter (fun y => y.1 = name.toList) = [x]

theorem OnlySection.split {t : Tree} {name : String} {x : Text × Tree} (h : OnlySection t name x) :
    x.1 = name.toList ∧ ∃ pre post, t.kids = pre ++ x :: post ∧ (∀ y ∈ pre, y.1 ≠ name.toList) ∧
      ∀ y ∈ post, y.1 ≠ name.toList := by
  obtain ⟨l1, l2, e, h1, h2, h3⟩ := List.filter_eq_cons_iff.1 h
  refine ⟨by simpa using h2, l1, l2, e, ?_, ?_⟩
  · intro y hy; simpa using h1 y hy
  · intro y hy
    simpa using List.filter_eq_nil_iff.1 h3 y hy

/-- The fields `f` that only sections called `name` set: after loading they are what that section made of them. -/
theorem only_section {env : ConfEnv} {t : Tree} {p : Params} {name : String} {x : Text × Tree} {α : Type}
    (f : Params → α) (hf : ∀ p, f (buildPrefixes p) = f p) (h : load env t = some p) (hx : OnlySection t name x)
    (keep : ∀ (y : Text × Tree) a b, y.1 ≠ name.toList → section_ env y.1 y.2 a = some b → f b = f a) :
    ∃ a b, section_ env x.1 x.2 a = some b ∧ f a = f {} ∧ f p = f b := by
  unfold load at h
  simp only [Option.map_eq_some_iff] at h
  obtain ⟨q, hq, rfl⟩ := h
  obtain ⟨-, pre, post, e, hpre, hpost⟩ := hx.split
  rw [e] at hq
  obtain ⟨a, ha, b, hb, hq⟩ := sections_mid hq
  refine ⟨a, b, hb, ?_, ?_⟩
  · exact sections_ind (P := fun z => f z = f {}) (fun y hy a b h1 h2 => (keep y a b (hpre y hy) h2).trans h1) rfl ha
  · rw [hf]
    exact sections_ind (P := fun z => f z = f b) (fun y hy a b h1 h2 => (keep y a b (hpost y hy) h2).trans h1) rfl hq

theorem generalTimes_vals {t : Tree} {a b : Params} (h : generalTimes t a = some b) :
    b.refresh = getU32 t "lsa-refresh-time" 1800 ∧ b.dead = getU32 t "router-dead-interval" (2 * b.refresh) ∧
    b.lifetime = getInt t "lsa-interest-lifetime" 4 ∧ b.syncLifetime = getU32 t "sync-interest-lifetime" 60000 := by
  unfold generalTimes at h
  dsimp only at h
  split at h
  · cases h
  · split at h
    · cases h
    · split at h
      · cases h
      · split at h
        · cases h
        · injection h with h
          subst h
          exact ⟨rfl, rfl, rfl, rfl⟩

theorem helloTimes_vals {t : Tree} {a b : Params} (h : helloTimes t a = some b) :
    b.retries = getInt t "hello-retries" 3 ∧ b.timeout = getU32 t "hello-timeout" 1 ∧
    b.helloInterval = getU32 t "hello-interval" 60 ∧
    configVar t "adj-lsa-build-interval" 5 30 10 = some b.buildInterval ∧
    configVar t "face-dataset-fetch-tries" 1 10 3 = b.fetchTries ∧
    configVar t "face-dataset-fetch-interval" 1800 5400 3600 = some b.fetchInterval := by
  unfold helloTimes at h
  dsimp only at h
  split at h
  · cases h
  · split at h
    · cases h
    · split at h
      · cases h
      · simp only [bind, Option.bind_eq_some_iff] at h
        obtain ⟨x, hx, y, hy, z, hz, h⟩ := h
        injection h with h
        subst h
        exact ⟨rfl, rfl, rfl, hx, hy, hz⟩

theorem fib_vals {t : Tree} {a b : Params} (h : fib t a = some b) :
    b.maxFaces = getInt t "max-faces-per-prefix" 0 ∧ configVar t "routing-calc-interval" 0 15 15 = some b.calcInterval := by
  unfold fib at h
  dsimp only at h
  split at h
  · cases h
  · simp only [bind, Option.bind_eq_some_iff] at h
    obtain ⟨x, hx, h⟩ := h
    injection h with h
    subst h
    exact ⟨rfl, hx⟩

/-- The fields a `general` section sets. -/
def Params.gen (p : Params) : (SyncProtocol × Name × Name × Name × Name × Name) × (Nat × Nat × Int × Nat × Option Text) :=
  ((p.protocol, p.network, p.site, p.router, p.syncPrefix, p.lsaPrefix),
   (p.refresh, p.dead, p.lifetime, p.syncLifetime, p.stateDir))

theorem keep_gen {env : ConfEnv} (y : Text × Tree) (a b : Params) (hn : y.1 ≠ "general".toList)
    (h : section_ env y.1 y.2 a = some b) : b.gen = a.gen := by
  cases section_cases h with
  | general e _ => exact absurd e hn
  | neighbors _ h =>
    obtain ⟨p1, h1, h2⟩ := neighbors_spec h
    obtain ⟨-, -, -, -, -, -, g7⟩ := helloTimes_spec h1
    rw [neighborsLoop_other h2, g7]; rfl
  | hyperbolic _ h => rw [hyperbolic_other h]; rfl
  | fib _ h => rw [(fib_spec h).2.2]; rfl
  | advertising _ h => rw [advertising_other h]; rfl
  | same h => rw [h]

/-- The fields a `neighbors` section sets. -/
def Params.hello (p : Params) : (Int × Nat × Nat × Nat × Option Nat × Nat) × AdjacencyList :=
  ((p.retries, p.timeout, p.helloInterval, p.buildInterval, p.fetchTries, p.fetchInterval), p.adjl)

theorem keep_hello {env : ConfEnv} (y : Text × Tree) (a b : Params) (hn : y.1 ≠ "neighbors".toList)
    (h : section_ env y.1 y.2 a = some b) : b.hello = a.hello := by
  cases section_cases h with
  | general _ h =>
    obtain ⟨proto, n, s, r, p1, p2, dir, -, -, -, -, -, -, h1, h2, -, -, h3⟩ := general_spec h
    obtain ⟨-, -, -, -, g5⟩ := generalTimes_spec h2
    subst h1
    rw [h3, g5]; rfl
  | neighbors e _ => exact absurd e hn
  | hyperbolic _ h => rw [hyperbolic_other h]; rfl
  | fib _ h => rw [(fib_spec h).2.2]; rfl
  | advertising _ h => rw [advertising_other h]; rfl
  | same h => rw [h]

theorem keep_fib {env : ConfEnv} (y : Text × Tree) (a b : Params) (hn : y.1 ≠ "fib".toList)
    (h : section_ env y.1 y.2 a = some b) : (b.maxFaces, b.calcInterval) = (a.maxFaces, a.calcInterval) := by
  cases section_cases h with
  | general _ h =>
    obtain ⟨proto, n, s, r, p1, p2, dir, -, -, -, -, -, -, h1, h2, -, -, h3⟩ := general_spec h
    obtain ⟨-, -, -, -, g5⟩ := generalTimes_spec h2
    subst h1
    rw [h3, g5]; rfl
  | neighbors _ h =>
    obtain ⟨p1, h1, h2⟩ := neighbors_spec h
    obtain ⟨-, -, -, -, -, -, g7⟩ := helloTimes_spec h1
    rw [neighborsLoop_other h2, g7]
  | hyperbolic _ h => rw [hyperbolic_other h]
  | fib e _ => exact absurd e hn
  | advertising _ h => rw [advertising_other h]
  | same h => rw [h]

/-- The file has one section `sec`, and in it the value of `key` is `n` written in decimal. -/
def Written (t : Tree) (sec key : String) (n : Nat) : Prop :=
  ∃ x, OnlySection t sec x ∧ Line x.2 key (Uri.dec n)

theorem getU32_dec {t : Tree} {key : String} {n d : Nat} (h : Line t key (Uri.dec n)) (hn : n < 2 ^ 32) :
    getU32 t key d = n := by
  unfold getU32
  rw [lookup_line.2 h]
  dsimp only
  rw [Num.parseUnsigned_dec hn]
  rfl

theorem getInt_dec {t : Tree} {key : String} {n : Nat} {d : Int} (h : Line t key (Uri.dec n)) (hn : n < 2 ^ 31) :
    getInt t key d = n := by
  unfold getInt
  rw [lookup_line.2 h]
  dsimp only
  rw [Num.parseSigned_dec hn]
  rfl

theorem configVar_dec {t : Tree} {key : String} {n lo hi d k : Nat} (h : Line t key (Uri.dec n)) (hn : n < 2 ^ 32)
    (hk : configVar t key lo hi d = some k) : k = n := by
  unfold configVar at hk
  rw [lookup_line.2 h] at hk
  dsimp only at hk
  rw [Num.parseUnsigned_dec hn] at hk
  dsimp only at hk
  split at hk
  · cases hk
  · injection hk with hk; exact hk.symm

theorem general_of {env : ConfEnv} {x : Text × Tree} {a b : Params} (hx : x.1 = "general".toList)
    (h : section_ env x.1 x.2 a = some b) : general env x.2 a = some b := by
  unfold section_ at h
  rwa [if_pos hx] at h

theorem neighbors_of {env : ConfEnv} {x : Text × Tree} {a b : Params} (hx : x.1 = "neighbors".toList)
    (h : section_ env x.1 x.2 a = some b) : neighbors env x.2 a = some b := by
  unfold section_ at h
  rwa [if_neg (by rw [hx]; decide), if_pos hx] at h

theorem fib_of {env : ConfEnv} {x : Text × Tree} {a b : Params} (hx : x.1 = "fib".toList)
    (h : section_ env x.1 x.2 a = some b) : fib x.2 a = some b := by
  unfold section_ at h
  rwa [if_neg (by rw [hx]; decide), if_neg (by rw [hx]; decide), if_neg (by rw [hx]; decide), if_pos hx] at h

/-- The numbers that the only `general` section sets. -/
theorem general_read {env : ConfEnv} {t : Tree} {p : Params} (h : load env t = some p) : ∀ x, OnlySection t "general" x →
    p.refresh = getU32 x.2 "lsa-refresh-time" 1800 ∧ p.dead = getU32 x.2 "router-dead-interval" (2 * p.refresh) ∧
    p.lifetime = getInt x.2 "lsa-interest-lifetime" 4 ∧ p.syncLifetime = getU32 x.2 "sync-interest-lifetime" 60000 := by
  intro x hx
  obtain ⟨a, b, hb, -, e⟩ := only_section Params.gen (fun _ => rfl) h hx keep_gen
  obtain ⟨proto, nn, s, r, p1, p2, dir, -, -, -, -, -, -, -, h2, -, -, h3⟩ := general_spec (general_of hx.split.1 hb)
  simp only [Params.gen, Prod.mk.injEq] at e
  rw [h3] at e
  obtain ⟨-, e1, e2, e3, e4, -⟩ := e
  have gv := generalTimes_vals h2
  rw [e1, e2, e3, e4]
  exact gv

/-- The numbers that the only `neighbors` section sets. -/
theorem neighbors_read {env : ConfEnv} {t : Tree} {p : Params} (h : load env t = some p) : ∀ x, OnlySection t "neighbors" x →
    p.retries = getInt x.2 "hello-retries" 3 ∧ p.timeout = getU32 x.2 "hello-timeout" 1 ∧
    p.helloInterval = getU32 x.2 "hello-interval" 60 ∧
    configVar x.2 "adj-lsa-build-interval" 5 30 10 = some p.buildInterval ∧
    configVar x.2 "face-dataset-fetch-tries" 1 10 3 = p.fetchTries ∧
    configVar x.2 "face-dataset-fetch-interval" 1800 5400 3600 = some p.fetchInterval := by
  intro x hx
  obtain ⟨a, b, hb, -, e⟩ := only_section Params.hello (fun _ => rfl) h hx keep_hello
  obtain ⟨p1, h1, h2⟩ := neighbors_spec (neighbors_of hx.split.1 hb)
  simp only [Params.hello, Prod.mk.injEq] at e
  rw [neighborsLoop_other h2] at e
  obtain ⟨⟨e1, e2, e3, e4, e5, e6⟩, -⟩ := e
  have gv := helloTimes_vals h1
  rw [e1, e2, e3, e4, e5, e6]
  exact gv

/-- The numbers that the only `fib` section sets. -/
theorem fib_read {env : ConfEnv} {t : Tree} {p : Params} (h : load env t = some p) : ∀ x, OnlySection t "fib" x → p.maxFaces = getInt x.2 "max-faces-per-prefix" 0 ∧
    configVar x.2 "routing-calc-interval" 0 15 15 = some p.calcInterval := by
  intro x hx
  obtain ⟨a, b, hb, -, e⟩ := only_section (fun p : Params => (p.maxFaces, p.calcInterval)) (fun _ => rfl) h hx keep_fib
  simp only [Prod.mk.injEq] at e
  rw [e.1, e.2]
  exact fib_vals (fib_of hx.split.1 hb)

/-- C72 for numbers written with decimal digits only and below 2^32 (2^31 where the code reads an `int`): an accepted
configuration uses exactly the value written.  Missing: other texts, which are replaced by the default or wrapped around
without a message (`C72_default_partial`, `C72_large_partial`, `C72_violated_unit`, `C72_violated_negative`). -/
theorem C72_as_written_partial {env : ConfEnv} {t : Tree} {p : Params} (h : load env t = some p) (n : Nat)
    (hn : n < 2 ^ 32) :
    (Written t "general" "lsa-refresh-time" n → p.refresh = n) ∧
    (Written t "general" "router-dead-interval" n → p.dead = n) ∧
    (Written t "general" "lsa-interest-lifetime" n → n < 2 ^ 31 → p.lifetime = n) ∧
    (Written t "general" "sync-interest-lifetime" n → p.syncLifetime = n) ∧
    (Written t "neighbors" "hello-retries" n → n < 2 ^ 31 → p.retries = n) ∧
    (Written t "neighbors" "hello-timeout" n → p.timeout = n) ∧
    (Written t "neighbors" "hello-interval" n → p.helloInterval = n) ∧
    (Written t "neighbors" "adj-lsa-build-interval" n → p.buildInterval = n) ∧
    (Written t "neighbors" "face-dataset-fetch-tries" n → p.fetchTries = some n) ∧
    (Written t "neighbors" "face-dataset-fetch-interval" n → p.fetchInterval = n) ∧
    (Written t "fib" "max-faces-per-prefix" n → n < 2 ^ 31 → p.maxFaces = n) ∧
    (Written t "fib" "routing-calc-interval" n → p.calcInterval = n) := by
  have gen' := general_read h
  have nei := neighbors_read h
  have fb := fib_read h
  refine ⟨?_, ?_, ?_, ?_, ?_, ?_, ?_, ?_, ?_, ?_, ?_, ?_⟩
  · rintro ⟨x, hx, hl⟩; rw [(gen' x hx).1]; exact getU32_dec hl hn
  · rintro ⟨x, hx, hl⟩; rw [(gen' x hx).2.1]; exact getU32_dec hl hn
  · rintro ⟨x, hx, hl⟩ hn; rw [(gen' x hx).2.2.1]; exact getInt_dec hl hn
  · rintro ⟨x, hx, hl⟩; rw [(gen' x hx).2.2.2]; exact getU32_dec hl hn
  · rintro ⟨x, hx, hl⟩ hn; rw [(nei x hx).1]; exact getInt_dec hl hn
  · rintro ⟨x, hx, hl⟩; rw [(nei x hx).2.1]; exact getU32_dec hl hn
  · rintro ⟨x, hx, hl⟩; rw [(nei x hx).2.2.1]; exact getU32_dec hl hn
  · rintro ⟨x, hx, hl⟩; exact configVar_dec hl hn (nei x hx).2.2.2.1
  · rintro ⟨x, hx, hl⟩
    have h1 := (nei x hx).2.2.2.2.1
    cases hk : configVar x.2 "face-dataset-fetch-tries" 1 10 3 with
    | some k => rw [← h1, hk, configVar_dec hl hn hk]
    | none =>
      obtain ⟨k, h2, -⟩ := C52_fetch_tries h ⟨x, by
        obtain ⟨-, pre, post, e, -⟩ := hx.split
        rw [e]; simp, hx.split.1⟩
      rw [← h1, hk] at h2
      cases h2
  · rintro ⟨x, hx, hl⟩; exact configVar_dec hl hn (nei x hx).2.2.2.2.2
  · rintro ⟨x, hx, hl⟩ hn; rw [(fb x hx).1]; exact getInt_dec hl hn
  · rintro ⟨x, hx, hl⟩; exact configVar_dec hl hn (fb x hx).2

/-- A general section with one more value. -/
def exGeneralWith (k v : String) : Text × Tree :=
  confSection "general" [("network", "/ndn"), ("site", "/edu/a"), ("router", "/%C1.Router/r1"), ("state-dir", "/var/lib/nlsr"), (k, v)]

example : ∃ p, load exEnv (.node [] [exGeneralWith "lsa-refresh-time" "240"]) = some p ∧
    Written (.node [] [exGeneralWith "lsa-refresh-time" "240"]) "general" "lsa-refresh-time" 240 ∧ p.refresh = 240 := by
  have h : (load exEnv (.node [] [exGeneralWith "lsa-refresh-time" "240"])).isSome = true := by decide +kernel
  obtain ⟨p, hp⟩ := Option.isSome_iff_exists.1 h
  have hw : Written (.node [] [exGeneralWith "lsa-refresh-time" "240"]) "general" "lsa-refresh-time" 240 :=
    ⟨exGeneralWith "lsa-refresh-time" "240", by simp [OnlySection, Tree.kids, exGeneralWith, confSection], lookup_line.1 (by decide +kernel)⟩
  exact ⟨p, hp, hw, (C72_as_written_partial hp 240 (by decide)).1 hw⟩

/-- The file has one section `sec`, and in it `key` is missing, or its value has a character that is neither a digit, a sign,
nor white space. -/
def Unreadable (t : Tree) (sec key : String) : Prop :=
  ∃ x, OnlySection t sec x ∧ ((∀ y ∈ x.2.kids, y.1 ≠ key.toList) ∨ ∃ v, Line x.2 key v ∧ ∃ ch ∈ v,
    ¬ (ch ∈ ['0', '1', '2', '3', '4', '5', '6', '7', '8', '9', '+', '-', ' ', '\t', '\n', '\x0b', '\x0c', '\r']))

theorem mem_dropWhile {α : Type} {q : α → Bool} {l : List α} {x : α} (h : x ∈ l) (hq : q x = false) : x ∈ l.dropWhile q := by
  induction l with
  | nil => cases h
  | cons a as ih =>
    rw [List.dropWhile_cons]
    split
    · rename_i ha
      rcases List.mem_cons.1 h with rfl | h
      · rw [hq] at ha; cases ha
      · exact ih h
    · exact h

theorem mem_sign {t : Text} {ch : Char} (h : ch ∈ t) (h1 : ch ≠ '-') (h2 : ch ≠ '+') : ch ∈ (Num.sign t).2 := by
  unfold Num.sign
  split
  · exact (List.mem_cons.1 h).elim (fun e => absurd e h1) id
  · exact (List.mem_cons.1 h).elim (fun e => absurd e h2) id
  · exact h

/-- What is left of a text after an integer has every character that cannot be part of it. -/
theorem readInt_rest {t r : Text} {neg : Bool} {n : Nat} {ch : Char} (h : Num.readInt t = some (neg, n, r)) (hm : ch ∈ t)
    (h1 : ch ≠ '-') (h2 : ch ≠ '+') (h3 : Num.isSpace ch = false) (h4 : Num.isDigit ch = false) : ch ∈ r := by
  unfold Num.readInt at h
  dsimp only at h
  split at h
  · cases h
  · injection h with h
    injection h with _ h
    injection h with _ h
    rw [← h]
    exact mem_dropWhile (mem_sign (mem_dropWhile hm h3) h1 h2) h4

theorem decVal_none {ch : Char} (h : ¬ ch ∈ ['0', '1', '2', '3', '4', '5', '6', '7', '8', '9']) : Num.isDigit ch = false := by
  unfold Num.isDigit Uri.decVal
  split
  · rename_i hx
    exfalso
    apply h
    have e : ch = Char.ofNat ch.toNat := (Char.ofNat_toNat ch).symm
    have h1 : 48 ≤ ch.toNat := hx.1
    have h2 : ch.toNat ≤ 57 := hx.2
    generalize ch.toNat = k at e h1 h2
    subst e
    have : ∀ j : Fin 10, Char.ofNat (48 + j.val) ∈ ['0', '1', '2', '3', '4', '5', '6', '7', '8', '9'] := by decide
    have := this ⟨k - 48, by omega⟩
    rwa [show 48 + (k - 48) = k by omega] at this
  · rfl

theorem unreadable_unsigned {v : Text} {ch : Char} (hm : ch ∈ v)
    (hc : ¬ (ch ∈ ['0', '1', '2', '3', '4', '5', '6', '7', '8', '9', '+', '-', ' ', '\t', '\n', '\x0b', '\x0c', '\r'])) :
    (∀ bits, Num.parseUnsigned bits v = none) ∧ ∀ bits, Num.parseSigned bits v = none := by
  have hd : Num.isDigit ch = false := decVal_none (fun h => hc (by
    simp only [List.mem_cons, List.not_mem_nil, or_false] at h ⊢
    rcases h with h | h | h | h | h | h | h | h | h | h <;> simp [h]))
  have hs : Num.isSpace ch = false := by
    unfold Num.isSpace
    cases hx : [' ', '\t', '\n', '\x0b', '\x0c', '\r'].contains ch with
    | false => rfl
    | true =>
      exfalso
      apply hc
      rw [List.contains_iff_mem] at hx
      simp only [List.mem_cons, List.not_mem_nil, or_false] at hx ⊢
      rcases hx with h | h | h | h | h | h <;> simp [h]
  have h1 : ch ≠ '-' := fun e => hc (by rw [e]; decide)
  have h2 : ch ≠ '+' := fun e => hc (by rw [e]; decide)
  have hall : ∀ r : Text, ch ∈ r → r.all Num.isSpace = false := by
    intro r hr
    cases hx : r.all Num.isSpace with
    | false => rfl
    | true => rw [List.all_eq_true.1 hx ch hr] at hs; cases hs
  constructor
  · intro bits
    unfold Num.parseUnsigned Num.readUnsigned
    cases hr : Num.readInt v with
    | none => rfl
    | some x =>
      obtain ⟨neg, n, r⟩ := x
      have := hall r (readInt_rest hr hm h1 h2 hs hd)
      dsimp only
      split
      · unfold Num.entire; dsimp only; rw [this]; rfl
      · rfl
  · intro bits
    unfold Num.parseSigned Num.readSigned
    cases hr : Num.readInt v with
    | none => rfl
    | some x =>
      obtain ⟨neg, n, r⟩ := x
      have := hall r (readInt_rest hr hm h1 h2 hs hd)
      dsimp only
      split
      · split
        · unfold Num.entire; dsimp only; rw [this]; rfl
        · rfl
      · split
        · unfold Num.entire; dsimp only; rw [this]; rfl
        · rfl

theorem unreadable_get {x : Text × Tree} {key : String} (h : (∀ y ∈ x.2.kids, y.1 ≠ key.toList) ∨ ∃ v, Line x.2 key v ∧ ∃ ch ∈ v,
    ¬ (ch ∈ ['0', '1', '2', '3', '4', '5', '6', '7', '8', '9', '+', '-', ' ', '\t', '\n', '\x0b', '\x0c', '\r'])) :
    (∀ d, getU32 x.2 key d = d) ∧ (∀ d, getInt x.2 key d = d) ∧ ∀ lo hi d k, configVar x.2 key lo hi d = some k → k = d := by
  rcases h with h | ⟨v, h, ch, hm, hc⟩
  · replace h := lookup_none.2 h
    refine ⟨fun d => ?_, fun d => ?_, fun lo hi d k hk => ?_⟩
    · unfold getU32; rw [h]
    · unfold getInt; rw [h]
    · unfold configVar at hk
      rw [h] at hk
      exact (Option.some.inj hk).symm
  · replace h := lookup_line.2 h
    obtain ⟨hu, hs⟩ := unreadable_unsigned hm hc
    refine ⟨fun d => ?_, fun d => ?_, fun lo hi d k hk => ?_⟩
    · unfold getU32; rw [h]; dsimp only; rw [hu]; rfl
    · unfold getInt; rw [h]; dsimp only; rw [hs]; rfl
    · unfold configVar at hk
      rw [h] at hk
      dsimp only at hk
      rw [hu] at hk
      exact (Option.some.inj hk).symm

/-- C72, what happens to other values: one that is missing, or has a character that no number has, is the documented
default; it is not refused. -/
theorem C72_default_partial {env : ConfEnv} {t : Tree} {p : Params} (h : load env t = some p) :
    (Unreadable t "general" "lsa-refresh-time" → p.refresh = 1800) ∧
    (Unreadable t "general" "router-dead-interval" → p.dead = 2 * p.refresh) ∧
    (Unreadable t "general" "lsa-interest-lifetime" → p.lifetime = 4) ∧
    (Unreadable t "general" "sync-interest-lifetime" → p.syncLifetime = 60000) ∧
    (Unreadable t "neighbors" "hello-retries" → p.retries = 3) ∧
    (Unreadable t "neighbors" "hello-timeout" → p.timeout = 1) ∧
    (Unreadable t "neighbors" "hello-interval" → p.helloInterval = 60) ∧
    (Unreadable t "neighbors" "adj-lsa-build-interval" → p.buildInterval = 10) ∧
    (Unreadable t "neighbors" "face-dataset-fetch-tries" → p.fetchTries = some 3) ∧
    (Unreadable t "neighbors" "face-dataset-fetch-interval" → p.fetchInterval = 3600) ∧
    (Unreadable t "fib" "max-faces-per-prefix" → p.maxFaces = 0) ∧
    (Unreadable t "fib" "routing-calc-interval" → p.calcInterval = 15) := by
  have gen' := general_read h
  have nei := neighbors_read h
  have fb := fib_read h
  refine ⟨?_, ?_, ?_, ?_, ?_, ?_, ?_, ?_, ?_, ?_, ?_, ?_⟩
  · rintro ⟨x, hx, hl⟩; rw [(gen' x hx).1]; exact (unreadable_get hl).1 _
  · rintro ⟨x, hx, hl⟩; rw [(gen' x hx).2.1]; exact (unreadable_get hl).1 _
  · rintro ⟨x, hx, hl⟩; rw [(gen' x hx).2.2.1]; exact (unreadable_get hl).2.1 _
  · rintro ⟨x, hx, hl⟩; rw [(gen' x hx).2.2.2]; exact (unreadable_get hl).1 _
  · rintro ⟨x, hx, hl⟩; rw [(nei x hx).1]; exact (unreadable_get hl).2.1 _
  · rintro ⟨x, hx, hl⟩; rw [(nei x hx).2.1]; exact (unreadable_get hl).1 _
  · rintro ⟨x, hx, hl⟩; rw [(nei x hx).2.2.1]; exact (unreadable_get hl).1 _
  · rintro ⟨x, hx, hl⟩; exact (unreadable_get hl).2.2 _ _ _ _ (nei x hx).2.2.2.1
  · rintro ⟨x, hx, hl⟩
    have h1 := (nei x hx).2.2.2.2.1
    obtain ⟨k, h2, -⟩ := C52_fetch_tries h ⟨x, by
      obtain ⟨-, pre, post, e, -⟩ := hx.split
      rw [e]; simp, hx.split.1⟩
    rw [h2] at h1 ⊢
    rw [(unreadable_get hl).2.2 _ _ _ _ h1]
  · rintro ⟨x, hx, hl⟩; exact (unreadable_get hl).2.2 _ _ _ _ (nei x hx).2.2.2.2.2
  · rintro ⟨x, hx, hl⟩; rw [(fb x hx).1]; exact (unreadable_get hl).2.1 _
  · rintro ⟨x, hx, hl⟩; exact (unreadable_get hl).2.2 _ _ _ _ (fb x hx).2

/-- `60m` has a character that no number has. -/
example : ∃ p, load exEnv (.node [] [exGeneralWith "lsa-refresh-time" "60m"]) = some p ∧
    Unreadable (.node [] [exGeneralWith "lsa-refresh-time" "60m"]) "general" "lsa-refresh-time" := by
  have h : (load exEnv (.node [] [exGeneralWith "lsa-refresh-time" "60m"])).isSome = true := by decide +kernel
  obtain ⟨p, hp⟩ := Option.isSome_iff_exists.1 h
  exact ⟨p, hp, exGeneralWith "lsa-refresh-time" "60m", by simp [OnlySection, Tree.kids, exGeneralWith, confSection],
    Or.inr ⟨"60m".toList, lookup_line.1 (by decide +kernel), 'm', by decide +kernel, by decide⟩⟩

theorem large_get {x : Tree} {key : String} {n : Nat} (h : Line x key (Uri.dec n)) :
    (2 ^ 32 ≤ n → (∀ d, getU32 x key d = d) ∧ ∀ lo hi d k, configVar x key lo hi d = some k → k = d) ∧
    (2 ^ 31 ≤ n → ∀ d, getInt x key d = d) := by
  refine ⟨fun hn => ?_, fun hn d => ?_⟩
  · have hu : Num.parseUnsigned 32 (Uri.dec n) = none := by
      unfold Num.parseUnsigned Num.readUnsigned
      rw [Num.readInt_dec]
      dsimp only
      rw [if_neg (by omega)]
      rfl
    refine ⟨fun d => ?_, fun lo hi d k hk => ?_⟩
    · unfold getU32; rw [lookup_line.2 h]; dsimp only; rw [hu]; rfl
    · unfold configVar at hk
      rw [lookup_line.2 h] at hk
      dsimp only at hk
      rw [hu] at hk
      exact (Option.some.inj hk).symm
  · have hs : Num.parseSigned 32 (Uri.dec n) = none := by
      unfold Num.parseSigned Num.readSigned
      rw [Num.readInt_dec]
      dsimp only
      rw [if_neg (by decide), if_neg (by omega)]
      rfl
    unfold getInt; rw [lookup_line.2 h]; dsimp only; rw [hs]; rfl

/-- C72, larger numbers: one written in digits that does not fit the type the code reads is not refused, the default is
used (a number that fits but is out of range is refused: `C52_in_range_partial`). -/
theorem C72_large_partial {env : ConfEnv} {t : Tree} {p : Params} (h : load env t = some p) (n : Nat) :
    (2 ^ 32 ≤ n →
      (Written t "general" "lsa-refresh-time" n → p.refresh = 1800) ∧
      (Written t "general" "router-dead-interval" n → p.dead = 2 * p.refresh) ∧
      (Written t "general" "sync-interest-lifetime" n → p.syncLifetime = 60000) ∧
      (Written t "neighbors" "hello-timeout" n → p.timeout = 1) ∧
      (Written t "neighbors" "hello-interval" n → p.helloInterval = 60) ∧
      (Written t "neighbors" "adj-lsa-build-interval" n → p.buildInterval = 10) ∧
      (Written t "neighbors" "face-dataset-fetch-interval" n → p.fetchInterval = 3600) ∧
      (Written t "fib" "routing-calc-interval" n → p.calcInterval = 15)) ∧
    (2 ^ 31 ≤ n →
      (Written t "general" "lsa-interest-lifetime" n → p.lifetime = 4) ∧
      (Written t "neighbors" "hello-retries" n → p.retries = 3) ∧
      (Written t "fib" "max-faces-per-prefix" n → p.maxFaces = 0)) := by
  have gen' := general_read h
  have nei := neighbors_read h
  have fb := fib_read h
  refine ⟨fun hn => ⟨?_, ?_, ?_, ?_, ?_, ?_, ?_, ?_⟩, fun hn => ⟨?_, ?_, ?_⟩⟩ <;> rintro ⟨x, hx, hl⟩
  · rw [(gen' x hx).1]; exact ((large_get hl).1 hn).1 _
  · rw [(gen' x hx).2.1]; exact ((large_get hl).1 hn).1 _
  · rw [(gen' x hx).2.2.2]; exact ((large_get hl).1 hn).1 _
  · rw [(nei x hx).2.1]; exact ((large_get hl).1 hn).1 _
  · rw [(nei x hx).2.2.1]; exact ((large_get hl).1 hn).1 _
  · exact ((large_get hl).1 hn).2 _ _ _ _ (nei x hx).2.2.2.1
  · exact ((large_get hl).1 hn).2 _ _ _ _ (nei x hx).2.2.2.2.2
  · exact ((large_get hl).1 hn).2 _ _ _ _ (fb x hx).2
  · rw [(gen' x hx).2.2.1]; exact (large_get hl).2 hn _
  · rw [(nei x hx).1]; exact (large_get hl).2 hn _
  · rw [(fb x hx).1]; exact (large_get hl).2 hn _

example : ∃ p, load exEnv (.node [] [exGeneralWith "router-dead-interval" "4294967296"]) = some p ∧
    Written (.node [] [exGeneralWith "router-dead-interval" "4294967296"]) "general" "router-dead-interval" (2 ^ 32) ∧
    p.dead = 3600 := by
  have h : (load exEnv (.node [] [exGeneralWith "router-dead-interval" "4294967296"])).map (·.dead) = some 3600 := by
    decide +kernel
  obtain ⟨p, hp, h2⟩ := Option.map_eq_some_iff.1 h
  exact ⟨p, hp, ⟨exGeneralWith "router-dead-interval" "4294967296",
    by simp [OnlySection, Tree.kids, exGeneralWith, confSection], lookup_line.1 (by decide +kernel)⟩, h2⟩

/-- C72 fails: `lsa-refresh-time 60m` is not refused, the default of 1800 s is used. -/
theorem C72_violated_unit : ∃ (env : ConfEnv) (t : Tree) (p : Params) (x : Text × Tree), load env t = some p ∧
    OnlySection t "general" x ∧ Line x.2 "lsa-refresh-time" "60m".toList ∧ p.refresh = 1800 := by
  have h : (load exEnv (.node [] [exGeneralWith "lsa-refresh-time" "60m"])).map (·.refresh) = some 1800 := by decide +kernel
  obtain ⟨p, hp, h2⟩ := Option.map_eq_some_iff.1 h
  exact ⟨exEnv, _, p, exGeneralWith "lsa-refresh-time" "60m", hp, by simp [OnlySection, Tree.kids, exGeneralWith, confSection], lookup_line.1 (by decide +kernel), h2⟩

/-- C72 fails: `router-dead-interval -5` is accepted as 136 years. -/
theorem C72_violated_negative : ∃ (env : ConfEnv) (t : Tree) (p : Params) (x : Text × Tree), load env t = some p ∧
    OnlySection t "general" x ∧ Line x.2 "router-dead-interval" "-5".toList ∧ p.dead = 4294967291 := by
  have h : (load exEnv (.node [] [exGeneralWith "router-dead-interval" "-5"])).map (·.dead) = some 4294967291 := by
    decide +kernel
  obtain ⟨p, hp, h2⟩ := Option.map_eq_some_iff.1 h
  exact ⟨exEnv, _, p, exGeneralWith "router-dead-interval" "-5", hp, by simp [OnlySection, Tree.kids, exGeneralWith, confSection], lookup_line.1 (by decide +kernel), h2⟩

/-! C73: the names derived from the configuration. -/

/-- C73 for files with exactly one `general` section: the router, LSA and sync prefixes are built from the network, site
and router names written there, none of which is empty, and the state directory is the one written there.  Missing:
files with none or several such sections, which are accepted too (`C73_violated_none`, `C73_violated_twice`). -/
theorem C73_prefixes_partial {env : ConfEnv} {t : Tree} {p : Params} (h : load env t = some p) {x : Text × Tree}
    (hx : OnlySection t "general" x) :
    ∃ network site router dir,
      (∃ w, Line x.2 "network" w ∧ Uri.parseName w = some network) ∧ network ≠ [] ∧
      (∃ w, Line x.2 "site" w ∧ Uri.parseName w = some site) ∧ site ≠ [] ∧
      (∃ w, Line x.2 "router" w ∧ Uri.parseName w = some router) ∧ router ≠ [] ∧
      Line x.2 "state-dir" dir ∧ p.stateDir = some dir ∧
      p.routerPrefix = network ++ site ++ router ∧
      p.lsaPrefix = nm ["localhop"] ++ network ++ nm ["nlsr", "LSA"] ∧
      p.syncUserPrefix = nm ["localhop"] ++ network ++ nm ["nlsr", "LSA"] ++ site ++ router ∧
      p.syncPrefix = (if p.protocol = .svs then [] else nm ["localhop"]) ++ network ++ nm ["nlsr", "sync"] ++ [⟨54, [12]⟩] := by
  obtain ⟨a, b, hb, ha, e⟩ := only_section Params.gen (fun _ => rfl) h hx keep_gen
  obtain ⟨proto, network, site, router, p1, p2, dir, hn, hs, hr, en, es, er, h1, h2, h3, h4, h5⟩ :=
    general_spec (general_of hx.split.1 hb)
  obtain ⟨-, -, -, -, g5⟩ := generalTimes_spec h2
  subst h1
  have e2 := congrArg Prod.fst e
  have e3 := congrArg Prod.snd e
  rw [h5, g5] at e2
  rw [h5, g5] at e3
  simp only [Params.gen, Prod.mk.injEq, setNetwork] at e2 e3 ha
  obtain ⟨f1, f2, f3, f4, f5, f6⟩ := e2
  obtain ⟨-, -, -, -, f7⟩ := e3
  have hp : p.routerPrefix = p.network ++ p.site ++ p.router ∧ p.syncUserPrefix = p.lsaPrefix ++ p.site ++ p.router := by
    unfold load at h
    simp only [Option.map_eq_some_iff] at h
    obtain ⟨q, -, rfl⟩ := h
    exact ⟨rfl, rfl⟩
  have ha5 : a.syncPrefix = [] := ha.1.2.2.2.2.1
  have ha6 : a.lsaPrefix = [] := ha.1.2.2.2.2.2
  rw [ha5] at f5
  rw [ha6] at f6
  have hv : (⟨54, Tlv.encNni 12⟩ : Comp) = ⟨54, [12]⟩ := by decide +kernel
  have toLine : ∀ {key : String} {n : Name}, (lookup key x.2).bind Uri.parseName = some n →
      ∃ w, Line x.2 key w ∧ Uri.parseName w = some n := by
    intro key n h
    obtain ⟨w, hw, e⟩ := Option.bind_eq_some_iff.1 h
    exact ⟨w, lookup_line.1 hw, e⟩
  refine ⟨network, site, router, dir, toLine en, hn, toLine es, hs, toLine er, hr, lookup_line.1 h3, f7, ?_, ?_, ?_, ?_⟩
  · rw [hp.1, f2, f3, f4]
  · rw [f6]; rfl
  · rw [hp.2, f6, f3, f4]; rfl
  · rw [f5, f1, hv]
    simp [nm]

theorem exTwice_general : OnlySection (.node [] [exGeneral]) "general" exGeneral := by
  simp [OnlySection, Tree.kids, exGeneral, confSection]

example : (load exEnv (.node [] [exGeneral])).map (fun p => (p.routerPrefix, p.lsaPrefix)) =
    some (nm ["ndn", "edu", "a"] ++ [⟨8, [193, 46, 82, 111, 117, 116, 101, 114]⟩] ++ nm ["r1"], nm ["localhop", "ndn", "nlsr", "LSA"]) := by
  decide +kernel

/-- C73 fails: with two `general` sections, even equal ones, the network appears twice in the LSA prefix, so the router
answers none of its neighbours. -/
theorem C73_violated_twice : ∃ (env : ConfEnv) (t : Tree) (p : Params), load env t = some p ∧
    p.network = nm ["ndn"] ∧ p.lsaPrefix = nm ["localhop", "ndn", "nlsr", "LSA", "localhop", "ndn", "nlsr", "LSA"] := by
  have h : (load exEnv (.node [] [exGeneral, exGeneral])).map (fun p => (p.network, p.lsaPrefix)) =
      some (nm ["ndn"], nm ["localhop", "ndn", "nlsr", "LSA", "localhop", "ndn", "nlsr", "LSA"]) := by decide +kernel
  obtain ⟨p, hp, h2⟩ := Option.map_eq_some_iff.1 h
  simp only [Prod.mk.injEq] at h2
  exact ⟨exEnv, _, p, hp, h2⟩

/-- C73 fails: a file without a `general` section is accepted; the router has the empty name and no LSA prefix. -/
theorem C73_violated_none : ∃ (env : ConfEnv) (t : Tree) (p : Params), load env t = some p ∧
    p.routerPrefix = [] ∧ p.lsaPrefix = [] ∧ p.stateDir = none := by
  have h : (load exEnv (.node [] [exNeighbors])).map (fun p => (p.routerPrefix, p.lsaPrefix, p.stateDir)) =
      some ([], [], none) := by decide +kernel
  obtain ⟨p, hp, h2⟩ := Option.map_eq_some_iff.1 h
  simp only [Prod.mk.injEq] at h2
  exact ⟨exEnv, _, p, hp, h2⟩

/-! C74: the configured neighbours. -/

/-- What is true of every neighbour of an accepted configuration. -/
structure NeighborOk (a : Adjacent) : Prop where
  name : a.name ≠ []
  status : a.status = .inactive
  timedOut : a.timedOut = 0
  faceId : a.faceId = 0
  cost : ∃ c : Rat, a.cost = .fin c ∧ (0 ≤ c ∨ c = -12345)

theorem neighbor_adjl {env : ConfEnv} {t : Tree} {a b : Params} (h : neighbor env t a = some b)
    (ha : (a.adjl.map (·.name)).Nodup ∧ ∀ x ∈ a.adjl, NeighborOk x) :
    (b.adjl.map (·.name)).Nodup ∧ ∀ x ∈ b.adjl, NeighborOk x := by
  rcases neighbor_spec h with rfl | ⟨n, uri, cost, hn, hc, rfl⟩
  · exact ha
  · dsimp only
    refine ⟨Lsdb.adj_insert_names _ _ ha.1, ?_⟩
    intro x hx
    unfold AdjacencyList.insert at hx
    split at hx
    · exact ha.2 x hx
    · rcases List.mem_append.1 hx with hx | hx
      · exact ha.2 x hx
      · rw [List.mem_singleton] at hx
        rw [hx]
        exact ⟨hn, rfl, rfl, rfl, cost, rfl, hc⟩

/-- C74 but for the special cost: in an accepted configuration neighbours have different, non-empty names, start
inactive without a face, and their link costs are not negative, except that -12345 is let through. -/
theorem C74_neighbors_partial {env : ConfEnv} {t : Tree} {p : Params} (h : load env t = some p) :
    (p.adjl.map (·.name)).Nodup ∧ ∀ x ∈ p.adjl, NeighborOk x := by
  unfold load at h
  simp only [Option.map_eq_some_iff] at h
  obtain ⟨q, hq, rfl⟩ := h
  show (q.adjl.map (·.name)).Nodup ∧ ∀ x ∈ q.adjl, NeighborOk x
  refine sections_ind (P := fun q => (q.adjl.map (·.name)).Nodup ∧ ∀ x ∈ q.adjl, NeighborOk x) ?_ ?_ hq
  · intro x _ a b ha hb
    by_cases hn : x.1 = "neighbors".toList
    · obtain ⟨p1, h1, h2⟩ := neighbors_spec (neighbors_of hn hb)
      obtain ⟨-, -, -, -, -, -, g7⟩ := helloTimes_spec h1
      refine neighborsLoop_ind (P := fun q => (q.adjl.map (·.name)).Nodup ∧ ∀ x ∈ q.adjl, NeighborOk x) ?_ ?_ h2
      · intro y _ _ c d hc hd
        exact neighbor_adjl hd hc
      · rw [g7]; exact ha
    · have := keep_hello x a b hn hb
      have e : b.adjl = a.adjl := congrArg Prod.snd this
      rw [e]; exact ha
  · exact ⟨List.nodup_nil, nofun⟩

example : (load exEnv (.node [] [exGeneral, exNeighbors])).map (fun p => p.adjl.map (fun a => (a.name, a.cost))) =
    some [(nm ["ndn", "edu", "b", "r2"], .fin (51 / 2))] := by decide +kernel

/-- C74, the constructor and the setter of `Adjacent` (also used for costs of 0 in hyperbolic mode): a cost is refused exactly if it is
negative and not -12345; otherwise it is taken and nothing else changes. -/
theorem C74_cost_checked (a : Adjacent) (lc : Ext Rat) :
    (a.setLinkCost lc = none ↔ lc = .ninf ∨ ∃ q : Rat, lc = .fin q ∧ q < 0 ∧ q ≠ -12345) ∧
    ∀ b, a.setLinkCost lc = some b → b = { a with cost := lc } := by
  refine ⟨?_, fun b h => (setLinkCost_spec h).2⟩
  unfold Adjacent.setLinkCost
  cases lc with
  | nan => simp [Ext.rlt]
  | pinf => simp [Ext.rlt]
  | ninf => simp [Ext.rlt]
  | fin q => simp [Ext.rlt]

/-- C74 fails: a neighbour with `link-cost -12345`, the value that stands for "no link", is accepted. -/
theorem C74_violated_special_cost : ∃ (env : ConfEnv) (t : Tree) (p : Params), load env t = some p ∧
    ∃ a ∈ p.adjl, a.cost = .fin (-12345) := by
  let nb : Text × Tree := ("neighbors".toList, .node [] [("neighbor".toList,
    .node [] [confLeaf "name" "/ndn/edu/b/r2", confLeaf "face-uri" "udp4://10.0.0.2:6363", confLeaf "link-cost" "-12345"])])
  have h : (load exEnv (.node [] [exGeneral, nb])).map (fun p => p.adjl.map (·.cost)) = some [.fin (-12345)] := by
    decide +kernel
  obtain ⟨p, hp, h2⟩ := Option.map_eq_some_iff.1 h
  have : (Ext.fin (-12345) : Ext Rat) ∈ p.adjl.map (·.cost) := by rw [h2]; simp
  obtain ⟨a, ha, e⟩ := List.mem_map.1 this
  exact ⟨exEnv, _, p, hp, a, ha, e⟩

end Nlsr
