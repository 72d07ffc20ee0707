import Verif.Model.Conf
import Verif.Lemmas.Lsdb
/- C52, C53, C72-C75: what an accepted configuration guarantees. -/
namespace Nlsr
open Conf

/-- The first line of the section that begins with `key` has the value `v`. -/
def Line (t : Tree) (key : String) (v : Text) : Prop :=
  ∃ a y b, t.kids = a ++ (key.toList, y) :: b ∧ (∀ z ∈ a, z.1 ≠ key.toList) ∧ y.data = v

theorem lookup_line {t : Tree} {key : String} {v : Text} : lookup key t = some v ↔ Line t key v := by
  unfold lookup
  rw [Option.map_eq_some_iff]
  constructor
  · rintro ⟨z, hz, rfl⟩
    obtain ⟨h, a, b, e, ha⟩ := List.find?_eq_some_iff_append.1 hz
    obtain ⟨k, y⟩ := z
    have hk : k = key.toList := by simpa using h
    subst hk
    exact ⟨a, y, b, e, fun z hz => by simpa using ha z hz, rfl⟩
  · rintro ⟨a, y, b, e, ha, rfl⟩
    refine ⟨(key.toList, y), List.find?_eq_some_iff_append.2 ⟨by simp, a, b, e, fun z hz => ?_⟩, rfl⟩
    simpa using ha z hz

theorem lookup_none {t : Tree} {key : String} : lookup key t = none ↔ ∀ y ∈ t.kids, y.1 ≠ key.toList := by
  unfold lookup
  rw [Option.map_eq_none_iff, List.find?_eq_none]
  simp

/-- Induction over the sections of a file. -/
theorem sections_ind {env : ConfEnv} {P : Params → Prop} : ∀ {kids : List (Text × Tree)} {p q : Params},
    (∀ x ∈ kids, ∀ a b, P a → section_ env x.1 x.2 a = some b → P b) → P p → sections env kids p = some q → P q
  | [], p, q, _, hp, h => by injection h with h; rwa [← h]
  | x :: xs, p, q, hs, hp, h => by
    unfold sections at h
    cases hx : section_ env x.1 x.2 p with
    | none => rw [hx] at h; cases h
    | some p1 =>
      rw [hx] at h
      exact sections_ind (fun y hy => hs y (List.mem_cons_of_mem _ hy)) (hs x (List.mem_cons_self ..) p p1 hp hx) h

theorem sections_append {env : ConfEnv} : ∀ (l m : List (Text × Tree)) (p : Params),
    sections env (l ++ m) p = (sections env l p).bind (sections env m)
  | [], _, _ => rfl
  | x :: xs, m, p => by
    simp only [List.cons_append, sections]
    cases section_ env x.1 x.2 p with
    | none => rfl
    | some q => exact sections_append xs m q

/-- A section in the middle of a file. -/
theorem sections_mid {env : ConfEnv} {pre post : List (Text × Tree)} {x : Text × Tree} {p q : Params}
    (h : sections env (pre ++ x :: post) p = some q) :
    ∃ a, sections env pre p = some a ∧ ∃ b, section_ env x.1 x.2 a = some b ∧ sections env post b = some q := by
  rw [sections_append] at h
  obtain ⟨a, ha, h⟩ := Option.bind_eq_some_iff.1 h
  refine ⟨a, ha, ?_⟩
  unfold sections at h
  cases hx : section_ env x.1 x.2 a with
  | none => rw [hx] at h; cases h
  | some b => rw [hx] at h; exact ⟨b, rfl, h⟩

/-- Which function handled a section. -/
inductive SectionCase (env : ConfEnv) (x : Text × Tree) (a b : Params) : Prop
  | general (hn : x.1 = "general".toList) (h : general env x.2 a = some b)
  | neighbors (hn : x.1 = "neighbors".toList) (h : neighbors env x.2 a = some b)
  | hyperbolic (hn : x.1 = "hyperbolic".toList) (h : hyperbolic x.2 a = some b)
  | fib (hn : x.1 = "fib".toList) (h : fib x.2 a = some b)
  | advertising (hn : x.1 = "advertising".toList) (h : advertising x.2.kids a = some b)
  | same (h : b = a) (h1 : x.1 ≠ "general".toList) (h2 : x.1 ≠ "neighbors".toList) (h3 : x.1 ≠ "hyperbolic".toList)
      (h4 : x.1 ≠ "advertising".toList)

theorem section_cases {env : ConfEnv} {x : Text × Tree} {a b : Params} (h : section_ env x.1 x.2 a = some b) :
    SectionCase env x a b := by
  unfold section_ at h
  split at h
  · exact .general ‹_› h
  split at h
  · exact .neighbors ‹_› h
  split at h
  · exact .hyperbolic ‹_› h
  split at h
  · exact .fib ‹_› h
  split at h
  · exact .advertising ‹_› h
  split at h
  · split at h
    · injection h with h
      exact .same h.symm ‹_› ‹_› ‹_› ‹_›
    · cases h
  · injection h with h
    exact .same h.symm ‹_› ‹_› ‹_› ‹_›

/-- The fields the interval and count parameters are in. -/
structure Times where
  refresh : Nat
  dead : Nat
  lifetime : Int
  syncLifetime : Nat
  retries : Int
  timeout : Nat
  helloInterval : Nat
  buildInterval : Nat
  fetchTries : Option Nat
  fetchInterval : Nat
  maxFaces : Int
  calcInterval : Nat

def Params.times (p : Params) : Times where
  refresh := p.refresh
  dead := p.dead
  lifetime := p.lifetime
  syncLifetime := p.syncLifetime
  retries := p.retries
  timeout := p.timeout
  helloInterval := p.helloInterval
  buildInterval := p.buildInterval
  fetchTries := p.fetchTries
  fetchInterval := p.fetchInterval
  maxFaces := p.maxFaces
  calcInterval := p.calcInterval

/-- Every parameter but face-dataset-fetch-tries within its documented range. -/
structure Times.InRange (p : Times) : Prop where
  refresh : 240 ≤ p.refresh ∧ p.refresh ≤ 7200
  dead : p.refresh < p.dead
  lifetime : 1 ≤ p.lifetime ∧ p.lifetime ≤ 60
  syncLifetime : 1000 ≤ p.syncLifetime ∧ p.syncLifetime ≤ 120000
  retries : 1 ≤ p.retries ∧ p.retries ≤ 15
  timeout : 1 ≤ p.timeout ∧ p.timeout ≤ 15
  helloInterval : 30 ≤ p.helloInterval ∧ p.helloInterval ≤ 90
  buildInterval : 5 ≤ p.buildInterval ∧ p.buildInterval ≤ 30
  fetchTries : ∀ k, p.fetchTries = some k → 1 ≤ k ∧ k ≤ 10
  fetchInterval : 1800 ≤ p.fetchInterval ∧ p.fetchInterval ≤ 5400
  maxFaces : 0 ≤ p.maxFaces ∧ p.maxFaces ≤ 60
  calcInterval : p.calcInterval ≤ 15

theorem configVar_range {t : Tree} {key : String} {lo hi d n : Nat} (h : configVar t key lo hi d = some n)
    (hd : lo ≤ d ∧ d ≤ hi) : lo ≤ n ∧ n ≤ hi := by
  unfold configVar at h
  split at h
  · injection h with h; omega
  · split at h
    · injection h with h; omega
    · split at h
      · cases h
      · injection h with h; omega

theorem generalTimes_spec {t : Tree} {a b : Params} (h : generalTimes t a = some b) :
    (240 ≤ b.refresh ∧ b.refresh ≤ 7200) ∧ b.refresh < b.dead ∧ (1 ≤ b.lifetime ∧ b.lifetime ≤ 60) ∧
    (1000 ≤ b.syncLifetime ∧ b.syncLifetime ≤ 120000) ∧
    b = { a with refresh := b.refresh, dead := b.dead, lifetime := b.lifetime, syncLifetime := b.syncLifetime } := by
  unfold generalTimes at h
  dsimp only at h
  split at h
  · cases h
  · rename_i h1
    split at h
    · cases h
    · rename_i h2
      split at h
      · cases h
      · rename_i h3
        split at h
        · cases h
        · rename_i h4
          injection h with h
          subst h
          exact ⟨Decidable.not_not.1 h1, Decidable.not_not.1 h2, Decidable.not_not.1 h3, Decidable.not_not.1 h4, rfl⟩

theorem nonEmptyName_ne {t : Text} {n : Name} (h : nonEmptyName t = some n) : n ≠ [] := by
  unfold nonEmptyName at h
  split at h
  · split at h
    · cases h
    · injection h with h; rwa [← h]
  · cases h

theorem generalNames_spec {t : Tree} {a b : Params} (h : generalNames t a = some b) :
    ∃ network site router, network ≠ [] ∧ site ≠ [] ∧ router ≠ [] ∧
      (lookup "network" t).bind Uri.parseName = some network ∧
      (lookup "site" t).bind Uri.parseName = some site ∧ (lookup "router" t).bind Uri.parseName = some router ∧
      b = { setNetwork a network with site := site, router := router } := by
  unfold generalNames at h
  simp only [bind, Option.bind_eq_some_iff] at h
  obtain ⟨n, hn, s, hs, r, hr, n', hn', s', hs', r', hr', h⟩ := h
  injection h with h
  have key : ∀ {t : Text} {m : Name}, nonEmptyName t = some m → Uri.parseName t = some m := by
    intro t m hm
    unfold nonEmptyName at hm
    split at hm
    · rename_i x hx
      split at hm
      · cases hm
      · rw [hx]; exact hm
    · cases hm
  exact ⟨n', s', r', nonEmptyName_ne hn', nonEmptyName_ne hs', nonEmptyName_ne hr', by rw [hn]; exact key hn',
    by rw [hs]; exact key hs', by rw [hr]; exact key hr', h.symm⟩

/-- What a `general` section does. -/
theorem general_spec {env : ConfEnv} {t : Tree} {a b : Params} (h : general env t a = some b) :
    ∃ proto network site router p1 p2 dir, network ≠ [] ∧ site ≠ [] ∧ router ≠ [] ∧
      (lookup "network" t).bind Uri.parseName = some network ∧
      (lookup "site" t).bind Uri.parseName = some site ∧ (lookup "router" t).bind Uri.parseName = some router ∧
      p1 = { setNetwork { a with protocol := proto } network with site := site, router := router } ∧
      generalTimes t p1 = some p2 ∧ lookup "state-dir" t = some dir ∧ env.stateDir dir = true ∧
      b = { p2 with stateDir := some dir } := by
  unfold general at h
  simp only [bind, Option.bind_eq_some_iff] at h
  obtain ⟨proto, -, p1, h1, p2, h2, dir, h3, h4⟩ := h
  obtain ⟨n, s, r, hn, hs, hr, en, es, er, e⟩ := generalNames_spec h1
  split at h4
  · rename_i h5
    injection h4 with h4
    exact ⟨proto, n, s, r, p1, p2, dir, hn, hs, hr, en, es, er, e, h2, h3, h5, h4.symm⟩
  · cases h4

theorem helloTimes_spec {t : Tree} {a b : Params} (h : helloTimes t a = some b) :
    (1 ≤ b.retries ∧ b.retries ≤ 15) ∧ (1 ≤ b.timeout ∧ b.timeout ≤ 15) ∧
    (30 ≤ b.helloInterval ∧ b.helloInterval ≤ 90) ∧ (5 ≤ b.buildInterval ∧ b.buildInterval ≤ 30) ∧
    (∃ k, b.fetchTries = some k ∧ 1 ≤ k ∧ k ≤ 10) ∧ (1800 ≤ b.fetchInterval ∧ b.fetchInterval ≤ 5400) ∧
    b = { a with retries := b.retries, timeout := b.timeout, helloInterval := b.helloInterval
                 buildInterval := b.buildInterval, fetchTries := b.fetchTries, fetchInterval := b.fetchInterval } := by
  unfold helloTimes at h
  dsimp only at h
  split at h
  · cases h
  · rename_i h1
    split at h
    · cases h
    · rename_i h2
      split at h
      · cases h
      · rename_i h3
        simp only [bind, Option.bind_eq_some_iff] at h
        obtain ⟨x, hx, y, hy, z, hz, h⟩ := h
        injection h with h
        subst h
        exact ⟨Decidable.not_not.1 h1, Decidable.not_not.1 h2, Decidable.not_not.1 h3,
          configVar_range hx (by decide), ⟨y, rfl, configVar_range hy (by decide)⟩, configVar_range hz (by decide), rfl⟩

theorem setLinkCost_spec {a b : Adjacent} {lc : Ext Rat} (h : a.setLinkCost lc = some b) :
    (lc = .nan ∨ lc = .pinf ∨ ∃ q, lc = .fin q ∧ (0 ≤ q ∨ q = -12345)) ∧ b = { a with cost := lc } := by
  unfold Adjacent.setLinkCost at h
  split at h
  · cases h
  · rename_i hc
    refine ⟨?_, (Option.some.inj h).symm⟩
    cases lc with
    | nan => exact Or.inl rfl
    | pinf => exact Or.inr (Or.inl rfl)
    | ninf => exact absurd rfl hc
    | fin q =>
      refine Or.inr (Or.inr ⟨q, rfl, ?_⟩)
      by_cases h0 : q < 0
      · refine Or.inr (Decidable.not_not.1 fun hne => hc ?_)
        simp [Ext.rlt, h0, hne]
      · exact Or.inl (Rat.not_lt.1 h0)

theorem neighbor_spec {env : ConfEnv} {t : Tree} {a b : Params} (h : neighbor env t a = some b) :
    b = a ∨ ∃ n uri, ∃ cost : Rat, n ≠ [] ∧ (0 ≤ cost ∨ cost = -12345) ∧
      b = { a with adjl := (AdjacencyList.insert a.adjl
        { name := n, uri := uri, cost := .fin cost, status := .inactive, timedOut := 0, faceId := 0 }).1 } := by
  unfold neighbor at h
  simp only [bind, Option.bind_eq_some_iff] at h
  obtain ⟨name, hname, uri, huri, uri', huri', n, hn, h⟩ := h
  split at h
  · injection h with h; exact Or.inl h.symm
  · rename_i hne
    obtain ⟨x, hx, h⟩ := Option.bind_eq_some_iff.1 h
    injection h with h
    obtain ⟨hc, rfl⟩ := setLinkCost_spec hx
    refine Or.inr ⟨n, uri', linkCost t, hne, ?_, h.symm⟩
    rcases hc with hc | hc | ⟨q, hq, hc⟩
    · cases hc
    · cases hc
    · cases hq; exact hc

/-- Induction over the neighbours of a section. -/
theorem neighborsLoop_ind {env : ConfEnv} {P : Params → Prop} : ∀ {kids : List (Text × Tree)} {p q : Params},
    (∀ x ∈ kids, x.1 = "neighbor".toList → ∀ a b, P a → neighbor env x.2 a = some b → P b) → P p →
    neighborsLoop env kids p = some q → P q
  | [], p, q, _, hp, h => by injection h with h; rwa [← h]
  | x :: xs, p, q, hs, hp, h => by
    unfold neighborsLoop at h
    split at h
    · rename_i hx0
      cases hx : neighbor env x.2 p with
      | none => rw [hx] at h; cases h
      | some p1 =>
        rw [hx] at h
        exact neighborsLoop_ind (fun y hy => hs y (List.mem_cons_of_mem _ hy)) (hs x (List.mem_cons_self ..) hx0 p p1 hp hx) h
    · exact neighborsLoop_ind (fun y hy => hs y (List.mem_cons_of_mem _ hy)) hp h

theorem neighborsLoop_other {env : ConfEnv} {kids : List (Text × Tree)} {p q : Params}
    (h : neighborsLoop env kids p = some q) : q = { p with adjl := q.adjl } := by
  refine neighborsLoop_ind (P := fun x => x = { p with adjl := x.adjl }) ?_ rfl h
  intro x _ _ a b ha hb
  rcases neighbor_spec hb with rfl | ⟨n, uri, cost, -, -, rfl⟩
  · exact ha
  · rw [ha]

theorem neighbors_spec {env : ConfEnv} {t : Tree} {a b : Params} (h : neighbors env t a = some b) :
    ∃ p, helloTimes t a = some p ∧ neighborsLoop env t.kids p = some b := by
  unfold neighbors at h
  simp only [bind, Option.bind_eq_some_iff] at h
  exact h

theorem hyperbolic_other {t : Tree} {a b : Params} (h : hyperbolic t a = some b) :
    b = { a with hyp := b.hyp, corR := b.corR, corTheta := b.corTheta } := by
  unfold hyperbolic at h
  dsimp only at h
  split at h
  · cases h
  · split at h
    · split at h
      · injection h with h; subst h; rfl
      · cases h
    · split at h
      · cases h
      · injection h with h; subst h; rfl

theorem fib_spec {t : Tree} {a b : Params} (h : fib t a = some b) :
    (0 ≤ b.maxFaces ∧ b.maxFaces ≤ 60) ∧ b.calcInterval ≤ 15 ∧
    b = { a with maxFaces := b.maxFaces, calcInterval := b.calcInterval } := by
  unfold fib at h
  dsimp only at h
  split at h
  · cases h
  · rename_i h1
    simp only [bind, Option.bind_eq_some_iff] at h
    obtain ⟨x, hx, h⟩ := h
    injection h with h
    subst h
    exact ⟨Decidable.not_not.1 h1, (configVar_range hx (by decide)).2, rfl⟩

theorem advertising_other : ∀ {kids : List (Text × Tree)} {a b : Params}, advertising kids a = some b →
    b = { a with npl := b.npl }
  | [], a, b, h => by injection h with h; subst h; rfl
  | x :: xs, a, b, h => by
    unfold advertising at h
    split at h
    · have := advertising_other h
      rw [this]
    · cases h

/-- C52 but for face-dataset-fetch-tries when there is no `neighbors` section: whatever the sections, their order and
repetition, an accepted configuration has every interval and count within its documented range, and
router-dead-interval exceeds lsa-refresh-time. -/
theorem C52_in_range_partial {env : ConfEnv} {t : Tree} {p : Params} (h : load env t = some p) : p.times.InRange := by
  unfold load at h
  simp only [Option.map_eq_some_iff] at h
  obtain ⟨q, hq, rfl⟩ := h
  show q.times.InRange
  refine sections_ind (P := fun q => q.times.InRange) ?_ ?_ hq
  · intro x _ a b ha hb
    cases section_cases hb with
    | general _ h =>
      obtain ⟨proto, n, s, r, p1, p2, dir, -, -, -, -, -, -, h1, h2, -, -, h3⟩ := general_spec h
      obtain ⟨g1, g2, g3, g4, g5⟩ := generalTimes_spec h2
      have e1 : p2.times = { a.times with refresh := p2.refresh, dead := p2.dead, lifetime := p2.lifetime,
                                          syncLifetime := p2.syncLifetime } := by
        rw [g5, h1]; rfl
      have e2 : b.times = p2.times := by rw [h3]; rfl
      rw [e2, e1]
      exact { ha with refresh := g1, dead := g2, lifetime := g3, syncLifetime := g4 }
    | neighbors _ h =>
      obtain ⟨p1, h1, h2⟩ := neighbors_spec h
      obtain ⟨g1, g2, g3, g4, ⟨k, g5, g5'⟩, g6, g7⟩ := helloTimes_spec h1
      have e2 : b.times = p1.times := by rw [neighborsLoop_other h2]; rfl
      have e1 : p1.times = { a.times with
          retries := p1.retries, timeout := p1.timeout, helloInterval := p1.helloInterval,
          buildInterval := p1.buildInterval, fetchTries := p1.fetchTries, fetchInterval := p1.fetchInterval } := by
        rw [g7]; rfl
      rw [e2, e1]
      refine { ha with retries := g1, timeout := g2, helloInterval := g3, buildInterval := g4, fetchInterval := g6
                       fetchTries := ?_ }
      intro j hj
      dsimp only at hj
      rw [g5] at hj
      injection hj with hj
      subst hj
      exact g5'
    | hyperbolic _ h =>
      have : b.times = a.times := by rw [hyperbolic_other h]; rfl
      rw [this]; exact ha
    | fib _ h =>
      obtain ⟨g1, g2, g3⟩ := fib_spec h
      have : b.times = { a.times with maxFaces := b.maxFaces, calcInterval := b.calcInterval } := by rw [g3]; rfl
      rw [this]
      exact { ha with maxFaces := g1, calcInterval := g2 }
    | advertising _ h =>
      have : b.times = a.times := by rw [advertising_other h]; rfl
      rw [this]; exact ha
    | same h => rw [h]; exact ha
  · exact ⟨by decide, by decide, by decide, by decide, by decide, by decide, by decide, by decide, nofun,
      by decide, by decide, by decide⟩

/-- With a `neighbors` section, face-dataset-fetch-tries is within its range too. -/
theorem C52_fetch_tries {env : ConfEnv} {t : Tree} {p : Params} (h : load env t = some p)
    (hn : ∃ x ∈ t.kids, x.1 = "neighbors".toList) : ∃ k, p.fetchTries = some k ∧ 1 ≤ k ∧ k ≤ 10 := by
  have hr := (C52_in_range_partial h).fetchTries
  have : ∃ k, p.fetchTries = some k := by
    unfold load at h
    simp only [Option.map_eq_some_iff] at h
    obtain ⟨q, hq, rfl⟩ := h
    show ∃ k, q.fetchTries = some k
    obtain ⟨x, hx, hname⟩ := hn
    obtain ⟨pre, post, hsplit⟩ := List.append_of_mem hx
    rw [hsplit] at hq
    have keep : ∀ {a b : Params} {y : Text × Tree}, section_ env y.1 y.2 a = some b →
        (∃ k, a.fetchTries = some k) → ∃ k, b.fetchTries = some k := by
      intro a b y hb ⟨k, hk⟩
      cases section_cases hb with
      | general _ h =>
        obtain ⟨proto, n, s, r, p1, p2, dir, -, -, -, -, -, -, h1, h2, -, -, h3⟩ := general_spec h
        obtain ⟨-, -, -, -, g5⟩ := generalTimes_spec h2
        exact ⟨k, by rw [h3, g5, h1]; exact hk⟩
      | neighbors _ h =>
        obtain ⟨p1, h1, h2⟩ := neighbors_spec h
        obtain ⟨-, -, -, -, ⟨k, g5, -⟩, -⟩ := helloTimes_spec h1
        exact ⟨k, by rw [neighborsLoop_other h2]; exact g5⟩
      | hyperbolic _ h => exact ⟨k, by rw [hyperbolic_other h]; exact hk⟩
      | fib _ h => exact ⟨k, by rw [(fib_spec h).2.2]; exact hk⟩
      | advertising _ h => exact ⟨k, by rw [advertising_other h]; exact hk⟩
      | same h => exact ⟨k, by rw [h]; exact hk⟩
    obtain ⟨p0, -, p1, hx, hq⟩ := sections_mid hq
    have h1 : ∃ k, p1.fetchTries = some k := by
      cases section_cases hx with
      | neighbors _ h =>
        obtain ⟨p1, h1, h2⟩ := neighbors_spec h
        obtain ⟨-, -, -, -, ⟨k, g5, -⟩, -⟩ := helloTimes_spec h1
        exact ⟨k, by rw [neighborsLoop_other h2]; exact g5⟩
      | general e => rw [hname] at e; exact absurd e (by decide)
      | hyperbolic e => rw [hname] at e; exact absurd e (by decide)
      | fib e => rw [hname] at e; exact absurd e (by decide)
      | advertising e => rw [hname] at e; exact absurd e (by decide)
      | same _ _ h2 => exact absurd hname h2
    exact sections_ind (P := fun q => ∃ k, q.fetchTries = some k) (fun y _ a b ha hb => keep hb ha) h1 hq
  obtain ⟨k, hk⟩ := this
  exact ⟨k, hk, hr k hk⟩

/-- Key and data of a leaf. -/
def confLeaf (k v : String) : Text × Tree := (k.toList, .node v.toList [])

/-- A section of leaves. -/
def confSection (k : String) (l : List (String × String)) : Text × Tree :=
  (k.toList, .node [] (l.map fun x => confLeaf x.1 x.2))

/-- Every face URI is canonical, every directory can be used. -/
def exEnv : ConfEnv := ⟨fun t => some (String.ofList t), fun _ => true, fun _ => true⟩

def exGeneral : Text × Tree :=
  confSection "general" [("network", "/ndn"), ("site", "/edu/a"), ("router", "/%C1.Router/r1"), ("lsa-refresh-time", "1800"),
    ("router-dead-interval", "3600"), ("state-dir", "/var/lib/nlsr")]

def exNeighbors : Text × Tree :=
  ("neighbors".toList, .node [] [confLeaf "hello-retries" "3",
    ("neighbor".toList, .node [] [confLeaf "name" "/ndn/edu/b/r2", confLeaf "face-uri" "udp4://10.0.0.2:6363", confLeaf "link-cost" "25.5"])])

example : ∃ p, load exEnv (.node [] [exGeneral, exNeighbors, confSection "advertising" [("/ndn/edu/a/x", "7")]]) = some p ∧
    p.times.InRange ∧ p.fetchTries = some 3 := by
  have h : (load exEnv (.node [] [exGeneral, exNeighbors, confSection "advertising" [("/ndn/edu/a/x", "7")]])).isSome = true := by
    decide +kernel
  obtain ⟨p, hp⟩ := Option.isSome_iff_exists.1 h
  refine ⟨p, hp, C52_in_range_partial hp, ?_⟩
  have h3 : (load exEnv (.node [] [exGeneral, exNeighbors, confSection "advertising" [("/ndn/edu/a/x", "7")]])).map (·.fetchTries) =
      some (some 3) := by decide +kernel
  rw [hp] at h3
  exact Option.some.inj h3

/-- C52 fails for face-dataset-fetch-tries: without a `neighbors` section the daemon starts with a value nothing ever
set (src/conf-parameter.cpp:38-60 has no initialiser for it). -/
theorem C52_violated_fetch_tries : ∃ (env : ConfEnv) (t : Tree) (p : Params),
    load env t = some p ∧ ¬ ∃ k, p.fetchTries = some k ∧ 1 ≤ k ∧ k ≤ 10 := by
  have h : (load exEnv (.node [] [exGeneral])).map (·.fetchTries) = some none := by decide +kernel
  obtain ⟨p, hp, h2⟩ := Option.map_eq_some_iff.1 h
  refine ⟨exEnv, .node [] [exGeneral], p, hp, ?_⟩
  rintro ⟨k, hk, -⟩
  rw [h2] at hk
  cases hk

/-! C53 -/

theorem iequals_lower {t : Text} {w : String} (h : iequals t w = true) (hl : t.map Char.toLower = t) : t = w.toList := by
  unfold iequals at h
  rw [hl] at h
  simpa using h

/-- What a `hyperbolic` section does. -/
theorem hyperbolic_spec {t : Tree} {a b : Params} (h : hyperbolic t a = some b) :
    (∃ radius angle, ∃ r : Rat, lookup "radius" t = some radius ∧ Num.parseDouble radius = some r ∧ 0 ≤ r ∧
      lookup "angle" t = some angle ∧ b.corR = r ∧ b.corTheta = readAngles (angle.length + 1) angle) ∨
    (∀ st, lookup "state" t = some st → st.map Char.toLower = st → b.hyp = .off) ∧
      (lookup "state" t = none → b.hyp = .off) ∧ b.corR = a.corR ∧ b.corTheta = a.corTheta := by
  unfold hyperbolic at h
  dsimp only at h
  split at h
  · cases h
  · rename_i hst hh
    split at h
    · rename_i r angle h1 h2
      split at h
      · rename_i h3
        injection h with h
        subst h
        obtain ⟨radius, hr, hp⟩ := Option.bind_eq_some_iff.1 h1
        exact Or.inl ⟨radius, angle, r, hr, hp, h3, h2, rfl, rfl⟩
      · cases h
    · split at h
      · cases h
      · rename_i hne
        injection h with h
        subst h
        refine Or.inr ⟨?_, ?_, rfl, rfl⟩
        · intro st hs hl
          rw [hs] at hh hne
          dsimp only [Option.getD] at hh hne
          show hst = .off
          split at hh
          · injection hh with hh; exact hh.symm
          · split at hh
            · rename_i h5
              exact absurd (Or.inl (iequals_lower h5 hl)) hne
            · split at hh
              · rename_i h5
                exact absurd (Or.inr (iequals_lower h5 hl)) hne
              · cases hh
        · intro hs
          rw [hs] at hh
          show hst = .off
          have e : iequals (Option.getD none "off".toList) "off" = true := by decide +kernel
          rw [if_pos e] at hh
          injection hh with hh
          exact hh.symm

theorem readAngles_ne {n : Nat} {t : Text} (h : (Num.readDouble t).isSome = true) : readAngles (n + 1) t ≠ [] := by
  unfold readAngles
  cases hd : Num.readDouble t with
  | none => rw [hd] at h; cases h
  | some x => simp

/-- Everything a section other than `hyperbolic` leaves alone about coordinates. -/
theorem section_coords {env : ConfEnv} {x : Text × Tree} {a b : Params} (h : section_ env x.1 x.2 a = some b)
    (hn : x.1 ≠ "hyperbolic".toList) : b.hyp = a.hyp ∧ b.corR = a.corR ∧ b.corTheta = a.corTheta := by
  cases section_cases h with
  | general _ h =>
    obtain ⟨proto, n, s, r, p1, p2, dir, -, -, -, -, -, -, h1, h2, -, -, h3⟩ := general_spec h
    obtain ⟨-, -, -, -, g5⟩ := generalTimes_spec h2
    subst h1
    rw [h3, g5]
    exact ⟨rfl, rfl, rfl⟩
  | neighbors _ h =>
    obtain ⟨p1, h1, h2⟩ := neighbors_spec h
    obtain ⟨-, -, -, -, -, -, g7⟩ := helloTimes_spec h1
    rw [neighborsLoop_other h2, g7]
    exact ⟨rfl, rfl, rfl⟩
  | hyperbolic e _ => exact absurd e hn
  | fib _ h => rw [(fib_spec h).2.2]; exact ⟨rfl, rfl, rfl⟩
  | advertising _ h => rw [advertising_other h]; exact ⟨rfl, rfl, rfl⟩
  | same h => rw [h]; exact ⟨rfl, rfl, rfl⟩

/-- C53 for files that spell the state in lower case and whose `angle` values begin with a number: hyperbolic routing
is on, or in dry-run, only with a radius and at least one angle that were configured.  Missing: other spellings of the
state, and angles that cannot be read (`C53_violated_spelling`, `C53_violated_angle`). -/
theorem C53_coordinates_partial {env : ConfEnv} {t : Tree} {p : Params} (h : load env t = some p)
    (hlow : ∀ x ∈ t.kids, x.1 = "hyperbolic".toList → ∀ st, Line x.2 "state" st → st.map Char.toLower = st)
    (hang : ∀ x ∈ t.kids, x.1 = "hyperbolic".toList → ∀ v, Line x.2 "angle" v → (Num.readDouble v).isSome = true)
    (hon : p.hyp ≠ .off) :
    p.corTheta ≠ [] ∧ ∃ x ∈ t.kids, x.1 = "hyperbolic".toList ∧ ∃ radius angle,
      Line x.2 "radius" radius ∧ Num.parseDouble radius = some p.corR ∧ 0 ≤ p.corR ∧
      Line x.2 "angle" angle := by
  unfold load at h
  simp only [Option.map_eq_some_iff] at h
  obtain ⟨q, hq, rfl⟩ := h
  have key : q.hyp ≠ .off → q.corTheta ≠ [] ∧ ∃ x ∈ t.kids, x.1 = "hyperbolic".toList ∧ ∃ radius angle,
      Line x.2 "radius" radius ∧ Num.parseDouble radius = some q.corR ∧ 0 ≤ q.corR ∧
      Line x.2 "angle" angle := by
    refine sections_ind (P := fun q => q.hyp ≠ .off → q.corTheta ≠ [] ∧ ∃ x ∈ t.kids, x.1 = "hyperbolic".toList ∧
      ∃ radius angle, Line x.2 "radius" radius ∧ Num.parseDouble radius = some q.corR ∧ 0 ≤ q.corR ∧
      Line x.2 "angle" angle) ?_ (fun h => absurd rfl h) hq
    intro x hx a b ha hb hbon
    by_cases hn : x.1 = "hyperbolic".toList
    · cases section_cases hb with
      | hyperbolic _ h =>
        rcases hyperbolic_spec h with ⟨radius, angle, r, h1, h2, h3, h4, h5, h6⟩ | ⟨h1, h2, -⟩
        · refine ⟨?_, x, hx, hn, radius, angle, lookup_line.1 h1, by rw [h5]; exact h2, by rw [h5]; exact h3, lookup_line.1 h4⟩
          rw [h6]
          exact readAngles_ne (hang x hx hn angle (lookup_line.1 h4))
        · cases hs : lookup "state" x.2 with
          | none => exact absurd (h2 hs) hbon
          | some st => exact absurd (h1 st hs (hlow x hx hn st (lookup_line.1 hs))) hbon
      | general e => rw [hn] at e; exact absurd e (by decide)
      | neighbors e => rw [hn] at e; exact absurd e (by decide)
      | fib e => rw [hn] at e; exact absurd e (by decide)
      | advertising e => rw [hn] at e; exact absurd e (by decide)
      | same _ _ _ h3 => exact absurd hn h3
    · obtain ⟨e1, e2, e3⟩ := section_coords hb hn
      rw [e1] at hbon
      rw [e2, e3]
      exact ha hbon
  exact key hon

example : ∃ p, load exEnv (.node [] [exGeneral, confSection "hyperbolic" [("state", "on"), ("radius", "123.5"), ("angle", "1.45,2.5")]]) = some p ∧
    p.hyp = .on ∧ p.corR = 247 / 2 ∧ p.corTheta = [29 / 20, 5 / 2] := by
  have h : (load exEnv (.node [] [exGeneral, confSection "hyperbolic" [("state", "on"), ("radius", "123.5"), ("angle", "1.45,2.5")]])).map
      (fun p => (p.hyp, p.corR, p.corTheta)) = some (.on, 247 / 2, [29 / 20, 5 / 2]) := by decide +kernel
  obtain ⟨p, hp, h2⟩ := Option.map_eq_some_iff.1 h
  simp only [Prod.mk.injEq] at h2
  exact ⟨p, hp, h2⟩

/-- C53 fails: `state ON` (which is understood as on) without any coordinates is accepted. -/
theorem C53_violated_spelling : ∃ (env : ConfEnv) (t : Tree) (p : Params), load env t = some p ∧ p.hyp = .on ∧
    p.corTheta = [] ∧ ∀ x ∈ t.kids, ∀ y ∈ x.2.kids, y.1 ≠ "radius".toList ∧ y.1 ≠ "angle".toList := by
  have h : (load exEnv (.node [] [exGeneral, confSection "hyperbolic" [("state", "ON")]])).map (fun p => (p.hyp, p.corTheta)) =
      some (.on, []) := by decide +kernel
  obtain ⟨p, hp, h2⟩ := Option.map_eq_some_iff.1 h
  simp only [Prod.mk.injEq] at h2
  exact ⟨exEnv, _, p, hp, h2.1, h2.2, by decide +kernel⟩

/-- C53 fails: an angle that is no number gives an empty list of angles, which is accepted. -/
theorem C53_violated_angle : ∃ (env : ConfEnv) (t : Tree) (p : Params), load env t = some p ∧ p.hyp = .on ∧
    p.corTheta = [] := by
  have h : (load exEnv (.node [] [exGeneral, confSection "hyperbolic" [("state", "on"), ("radius", "1"), ("angle", "pi")]])).map
      (fun p => (p.hyp, p.corTheta)) = some (.on, []) := by decide +kernel
  obtain ⟨p, hp, h2⟩ := Option.map_eq_some_iff.1 h
  simp only [Prod.mk.injEq] at h2
  exact ⟨exEnv, _, p, hp, h2.1, h2.2⟩

end Nlsr
