import Verif.Spec.ConfOk
import Verif.Props.ConfNames

/-!
C123: the daemon starts with exactly the configuration files whose sections say what nlsr.conf documents.
-/

namespace Nlsr.ConfOk
open Conf

theorem getU32_num (t : Tree) (key : String) (d : Nat) : getU32 t key d = num t key d := by
  unfold getU32 num
  cases lookup key t <;> rfl

theorem getInt_int (t : Tree) (key : String) (d : Int) : getInt t key d = int t key d := by
  unfold getInt int
  cases lookup key t <;> rfl

theorem configVar_isSome (t : Tree) (key : String) {lo hi d : Nat} (hd : lo ≤ d ∧ d ≤ hi) :
    (configVar t key lo hi d).isSome = true ↔ lo ≤ num t key d ∧ num t key d ≤ hi := by
  unfold configVar num
  cases lookup key t with
  | none => simpa using hd
  | some v =>
    dsimp only
    rw [Option.bind_some]
    cases Num.parseUnsigned 32 v with
    | none => simpa using hd
    | some n =>
      dsimp only
      rw [Option.getD_some]
      split
      · constructor
        · intro h; cases h
        · intro h; omega
      · constructor
        · intro _; omega
        · intro _; rfl

theorem nonEmpty_isSome (w : Text) : (nonEmptyName w).isSome = true ↔ ∃ n, Uri.parseName w = some n ∧ n ≠ [] := by
  unfold nonEmptyName
  cases Uri.parseName w with
  | none => simp
  | some n =>
    dsimp only
    split
    · rename_i h; simp [h]
    · rename_i h; simp [h]

theorem names_isSome (t : Tree) (p : Params) : (generalNames t p).isSome = true ↔
    ∀ key ∈ ["network", "site", "router"], ∃ w n, lookup key t = some w ∧ Uri.parseName w = some n ∧ n ≠ [] := by
  have hk : ∀ key, (∃ w n, lookup key t = some w ∧ Uri.parseName w = some n ∧ n ≠ []) ↔ ((lookup key t).bind nonEmptyName).isSome = true := by
    intro key
    cases h : lookup key t with
    | none => simp
    | some w =>
      rw [Option.bind_some, nonEmpty_isSome]
      constructor
      · rintro ⟨w', n, e, h1, h2⟩; cases e; exact ⟨n, h1, h2⟩
      · rintro ⟨n, h1, h2⟩; exact ⟨w, n, rfl, h1, h2⟩
  simp only [List.mem_cons, List.not_mem_nil, or_false, forall_eq_or_imp, forall_eq, hk]
  unfold generalNames
  cases lookup "network" t with
  | none => simp
  | some a =>
    cases lookup "site" t with
    | none => simp
    | some b =>
      cases lookup "router" t with
      | none => simp
      | some c =>
        simp only [Option.bind_eq_bind, Option.bind_some]
        cases nonEmptyName a <;> cases nonEmptyName b <;> cases nonEmptyName c <;> simp

theorem times_isSome (t : Tree) (p : Params) : (generalTimes t p).isSome = true ↔
    (240 ≤ num t "lsa-refresh-time" 1800 ∧ num t "lsa-refresh-time" 1800 ≤ 7200) ∧
    num t "lsa-refresh-time" 1800 < num t "router-dead-interval" (2 * num t "lsa-refresh-time" 1800) ∧
    (1 ≤ int t "lsa-interest-lifetime" 4 ∧ int t "lsa-interest-lifetime" 4 ≤ 60) ∧
    (1000 ≤ num t "sync-interest-lifetime" 60000 ∧ num t "sync-interest-lifetime" 60000 ≤ 120000) := by
  unfold generalTimes
  simp only [getU32_num, getInt_int]
  split
  · rename_i h; exact ⟨fun h' => (nomatch h'), fun h' => absurd h'.1 h⟩
  · rename_i h1
    split
    · rename_i h; exact ⟨fun h' => (nomatch h'), fun h' => absurd h'.2.1 h⟩
    · rename_i h2
      split
      · rename_i h; exact ⟨fun h' => (nomatch h'), fun h' => absurd h'.2.2.1 h⟩
      · rename_i h3
        split
        · rename_i h; exact ⟨fun h' => (nomatch h'), fun h' => absurd h'.2.2.2 h⟩
        · rename_i h4
          exact ⟨fun _ => ⟨Decidable.not_not.1 h1, Decidable.not_not.1 h2, Decidable.not_not.1 h3, Decidable.not_not.1 h4⟩, fun _ => rfl⟩

theorem protocol_isSome (t : Tree) : (protocolOf ((lookup "sync-protocol" t).getD "psync".toList)).isSome = true ↔
    ∀ w, lookup "sync-protocol" t = some w → w ∈ ["chronosync".toList, "psync".toList, "svs".toList] := by
  cases lookup "sync-protocol" t with
  | none => exact ⟨fun _ w h => (nomatch h), fun _ => by decide⟩
  | some w =>
    rw [Option.getD_some]
    unfold protocolOf
    constructor
    · intro h w' e
      cases e
      split at h
      · rename_i e; rw [e]; exact List.mem_cons_self
      · split at h
        · rename_i e; rw [e]; exact List.mem_cons_of_mem _ List.mem_cons_self
        · split at h
          · rename_i e; rw [e]; exact List.mem_cons_of_mem _ (List.mem_cons_of_mem _ List.mem_cons_self)
          · cases h
    · intro h
      have := h w rfl
      simp only [List.mem_cons, List.not_mem_nil, or_false] at this
      split
      · rfl
      · rename_i h1
        split
        · rfl
        · rename_i h2
          split
          · rfl
          · rename_i h3
            rcases this with e | e | e
            · exact absurd e h1
            · exact absurd e h2
            · exact absurd e h3

theorem general_isSome (env : ConfEnv) (t : Tree) (p : Params) : (general env t p).isSome = true ↔ General env t := by
  unfold General
  rw [← protocol_isSome]
  unfold general
  cases protocolOf ((lookup "sync-protocol" t).getD "psync".toList) with
  | none => simp
  | some proto =>
    have h1 := names_isSome t { p with protocol := proto }
    rw [← h1]
    cases h2 : generalNames t { p with protocol := proto } with
    | none => simp [h2]
    | some p1 =>
      have h3 := times_isSome t p1
      cases h4 : generalTimes t p1 with
      | none =>
        rw [h4] at h3
        simp only [Option.bind_eq_bind, Option.bind_some, h2, h4, Option.bind_none]
        constructor
        · intro h; cases h
        · rintro ⟨-, -, a, b, c, d, -⟩
          exact absurd (h3.2 ⟨a, b, c, d⟩) (by simp)
      | some p2 =>
        rw [h4] at h3
        obtain ⟨a, b, c, d⟩ := h3.1 rfl
        simp only [Option.bind_eq_bind, Option.bind_some, h2, h4]
        cases h5 : lookup "state-dir" t with
        | none => simp
        | some dir =>
          rw [Option.bind_some]
          split
          · rename_i h6; exact ⟨fun _ => ⟨rfl, rfl, a, b, c, d, dir, rfl, h6⟩, fun _ => rfl⟩
          · rename_i h6
            refine ⟨fun h => (nomatch h), ?_⟩
            rintro ⟨-, -, -, -, -, -, dir', e, h7⟩
            cases e
            exact absurd h7 h6

theorem neighbor_isSome (env : ConfEnv) (t : Tree) (p : Params) : (neighbor env t p).isSome = true ↔ Neighbor env t := by
  have hcost : ∀ a : Adjacent, (a.setLinkCost (.fin (linkCost t))).isSome = true ↔
      ∀ q, (lookup "link-cost" t).bind Num.parseDouble = some q → 0 ≤ q ∨ q = -12345 := by
    intro a
    have hs : ∀ q : Rat, (a.setLinkCost (.fin q)).isSome = true ↔ 0 ≤ q ∨ q = -12345 := by
      intro q
      constructor
      · intro h
        obtain ⟨b, hb⟩ := Option.isSome_iff_exists.1 h
        rcases (setLinkCost_spec hb).1 with h | h | ⟨q', e, h⟩
        · cases h
        · cases h
        · cases e; exact h
      · intro h
        unfold Adjacent.setLinkCost
        rw [if_neg]
        · rfl
        · rcases h with h | h
          · have : ¬ q < 0 := Rat.not_lt.2 h
            simp [Ext.rlt, this]
          · simp [h]
    unfold linkCost
    cases lookup "link-cost" t with
    | none =>
      dsimp only
      rw [hs]
      exact ⟨fun _ q h => (nomatch h), fun _ => Or.inl (by decide +kernel)⟩
    | some v =>
      dsimp only
      rw [Option.bind_some, hs]
      cases Num.parseDouble v with
      | none => exact ⟨fun _ q h => (nomatch h), fun _ => Or.inl (by decide +kernel)⟩
      | some x => exact ⟨fun h q e => by cases e; exact h, fun h => h x rfl⟩
  unfold neighbor Neighbor
  cases h1 : lookup "name" t with
  | none => simp
  | some w =>
    cases h2 : lookup "face-uri" t with
    | none => simp
    | some u =>
      simp only [Option.bind_eq_bind, Option.bind_some]
      cases h3 : env.faceUri u with
      | none =>
        refine ⟨fun h => (nomatch h), ?_⟩
        rintro ⟨w', u', n, e1, e2, h, -⟩
        cases e2
        rw [h3] at h
        cases h
      | some uri =>
        rw [Option.bind_some]
        cases h4 : Uri.parseName w with
        | none =>
          refine ⟨fun h => (nomatch h), ?_⟩
          rintro ⟨w', u', n, e1, e2, -, h, -⟩
          cases e1
          rw [h4] at h
          cases h
        | some n =>
          rw [Option.bind_some]
          have key : (∃ w' u' n', some w = some w' ∧ some u = some u' ∧ (env.faceUri u').isSome = true ∧ Uri.parseName w' = some n' ∧
              (n' = [] ∨ ∀ q, (lookup "link-cost" t).bind Num.parseDouble = some q → 0 ≤ q ∨ q = -12345)) ↔
              (n = [] ∨ ∀ q, (lookup "link-cost" t).bind Num.parseDouble = some q → 0 ≤ q ∨ q = -12345) := by
            constructor
            · rintro ⟨w', u', n', e1, e2, -, h, h'⟩
              cases e1
              rw [h4] at h
              cases h
              exact h'
            · intro h
              exact ⟨w, u, n, rfl, rfl, by rw [h3]; rfl, h4, h⟩
          rw [key]
          split
          · rename_i h; exact ⟨fun _ => Or.inl h, fun _ => rfl⟩
          · rename_i hn
            rw [← hcost { name := n, uri := uri, status := .inactive, timedOut := 0, faceId := 0 }]
            cases Adjacent.setLinkCost { name := n, uri := uri, status := .inactive, timedOut := 0, faceId := 0 } (.fin (linkCost t)) with
            | none => simp [hn]
            | some a => simp

theorem loop_isSome (env : ConfEnv) : ∀ (kids : List (Text × Tree)) (p : Params), (neighborsLoop env kids p).isSome = true ↔
    ∀ x ∈ kids, x.1 = "neighbor".toList → Neighbor env x.2 := by
  intro kids
  induction kids with
  | nil => exact fun p => ⟨fun _ x h => (nomatch h), fun _ => rfl⟩
  | cons x xs ih =>
    intro p
    rw [List.forall_mem_cons]
    unfold neighborsLoop
    split
    · rename_i hx
      have hn := neighbor_isSome env x.2 p
      cases h : neighbor env x.2 p with
      | none =>
        rw [h] at hn
        exact ⟨fun h => (nomatch h), fun h => absurd (hn.2 (h.1 hx)) (by simp)⟩
      | some p1 =>
        rw [h] at hn
        dsimp only
        rw [ih p1]
        exact ⟨fun h => ⟨fun _ => hn.1 rfl, h⟩, fun h => h.2⟩
    · rename_i hx
      rw [ih p]
      exact ⟨fun h => ⟨fun e => absurd e hx, h⟩, fun h => h.2⟩

theorem neighbors_isSome (env : ConfEnv) (t : Tree) (p : Params) : (neighbors env t p).isSome = true ↔ Neighbors env t := by
  have hh : (helloTimes t p).isSome = true ↔
      (1 ≤ int t "hello-retries" 3 ∧ int t "hello-retries" 3 ≤ 15) ∧ (1 ≤ num t "hello-timeout" 1 ∧ num t "hello-timeout" 1 ≤ 15) ∧
      (30 ≤ num t "hello-interval" 60 ∧ num t "hello-interval" 60 ≤ 90) ∧
      (5 ≤ num t "adj-lsa-build-interval" 10 ∧ num t "adj-lsa-build-interval" 10 ≤ 30) ∧
      (1 ≤ num t "face-dataset-fetch-tries" 3 ∧ num t "face-dataset-fetch-tries" 3 ≤ 10) ∧
      (1800 ≤ num t "face-dataset-fetch-interval" 3600 ∧ num t "face-dataset-fetch-interval" 3600 ≤ 5400) := by
    rw [← configVar_isSome t "adj-lsa-build-interval" (by decide), ← configVar_isSome t "face-dataset-fetch-tries" (by decide),
      ← configVar_isSome t "face-dataset-fetch-interval" (by decide)]
    unfold helloTimes
    simp only [getU32_num, getInt_int]
    split
    · rename_i h; exact ⟨fun h' => (nomatch h'), fun h' => absurd h'.1 h⟩
    · rename_i h1
      split
      · rename_i h; exact ⟨fun h' => (nomatch h'), fun h' => absurd h'.2.1 h⟩
      · rename_i h2
        split
        · rename_i h; exact ⟨fun h' => (nomatch h'), fun h' => absurd h'.2.2.1 h⟩
        · rename_i h3
          have h1 := Decidable.not_not.1 h1
          have h2 := Decidable.not_not.1 h2
          have h3 := Decidable.not_not.1 h3
          cases configVar t "adj-lsa-build-interval" 5 30 10 <;> cases configVar t "face-dataset-fetch-tries" 1 10 3 <;>
            cases configVar t "face-dataset-fetch-interval" 1800 5400 3600 <;> simp [h1, h2, h3]
  unfold neighbors Neighbors
  cases h : helloTimes t p with
  | none =>
    rw [h] at hh
    refine ⟨fun h => (nomatch h), fun h' => ?_⟩
    obtain ⟨a, b, c, d, e, f, -⟩ := h'
    exact absurd (hh.2 ⟨a, b, c, d, e, f⟩) (by simp)
  | some p1 =>
    rw [h] at hh
    obtain ⟨a, b, c, d, e, f⟩ := hh.1 rfl
    show (neighborsLoop env t.kids p1).isSome = true ↔ _
    rw [loop_isSome]
    exact ⟨fun h => ⟨a, b, c, d, e, f, h⟩, fun h => h.2.2.2.2.2.2⟩

theorem hyperbolic_isSome (t : Tree) (p : Params) : (hyperbolic t p).isSome = true ↔ Hyperbolic t := by
  unfold Hyperbolic
  have hw : ∀ w : Text, ((if iequals w "off" then some HypState.off else if iequals w "on" then some .on
      else if iequals w "dry-run" then some .dryRun else none) : Option HypState).isSome = true ↔
      w.map Char.toLower ∈ ["off".toList, "on".toList, "dry-run".toList] := by
    intro w
    unfold iequals
    simp only [List.mem_cons, List.not_mem_nil, or_false, beq_iff_eq]
    split
    · rename_i h; simp [h]
    · rename_i h1
      split
      · rename_i h; simp [h]
      · rename_i h2
        split
        · rename_i h; simp [h]
        · rename_i h3
          refine ⟨fun h => (nomatch h), ?_⟩
          rintro (h | h | h)
          · exact absurd h h1
          · exact absurd h h2
          · exact absurd h h3
  have hs : (∀ w, lookup "state" t = some w → w.map Char.toLower ∈ ["off".toList, "on".toList, "dry-run".toList]) ↔
      ((lookup "state" t).getD "off".toList).map Char.toLower ∈ ["off".toList, "on".toList, "dry-run".toList] := by
    cases lookup "state" t with
    | none => exact ⟨fun _ => by decide +kernel, fun _ w h => (nomatch h)⟩
    | some w => exact ⟨fun h => h w rfl, fun h w' e => by cases e; exact h⟩
  have hq : ∀ w : Text, w ≠ "off".toList → ((lookup "state" t).getD "off".toList = w ↔ lookup "state" t = some w) := by
    intro w hw
    cases lookup "state" t with
    | none => exact ⟨fun h => absurd h.symm hw, fun h => (nomatch h)⟩
    | some w' => simp
  have honoff : "on".toList ≠ "off".toList := by decide
  have hdryoff : "dry-run".toList ≠ "off".toList := by decide
  rw [hs, ← hw]
  unfold hyperbolic
  dsimp only
  cases hst : ((if iequals ((lookup "state" t).getD "off".toList) "off" then some HypState.off
      else if iequals ((lookup "state" t).getD "off".toList) "on" then some .on
      else if iequals ((lookup "state" t).getD "off".toList) "dry-run" then some .dryRun else none) : Option HypState) with
  | none => simp
  | some h =>
    dsimp only
    cases hr : (lookup "radius" t).bind Num.parseDouble with
    | none =>
      dsimp only
      simp only [hq _ honoff, hq _ hdryoff]
      split
      · rename_i h1
        refine ⟨fun h => (nomatch h), fun h => ?_⟩
        have := h.2.2 (Or.inl (by trivial))
        rcases h1 with h1 | h1
        · exact absurd h1 this.1
        · exact absurd h1 this.2
      · rename_i h1
        exact ⟨fun _ => ⟨rfl, fun r e => (nomatch e), fun _ => ⟨fun e => h1 (Or.inl e), fun e => h1 (Or.inr e)⟩⟩, fun _ => rfl⟩
    | some r =>
      cases ha : lookup "angle" t with
      | none =>
        dsimp only
        simp only [hq _ honoff, hq _ hdryoff]
        split
        · rename_i h1
          refine ⟨fun h => (nomatch h), fun h => ?_⟩
          have := h.2.2 (Or.inr (by trivial))
          rcases h1 with h1 | h1
          · exact absurd h1 this.1
          · exact absurd h1 this.2
        · rename_i h1
          exact ⟨fun _ => ⟨rfl, fun r _ e => (nomatch e), fun _ => ⟨fun e => h1 (Or.inl e), fun e => h1 (Or.inr e)⟩⟩, fun _ => rfl⟩
      | some a =>
        dsimp only
        split
        · rename_i h1
          refine ⟨fun _ => ⟨rfl, fun r' e _ => by cases e; exact h1, ?_⟩, fun _ => rfl⟩
          rintro (e | e) <;> cases e
        · rename_i h1
          exact ⟨fun h => (nomatch h), fun h => absurd (h.2.1 r rfl rfl) h1⟩

theorem fib_isSome (t : Tree) (p : Params) : (fib t p).isSome = true ↔ Fib t := by
  unfold Fib
  have hc := configVar_isSome t "routing-calc-interval" (lo := 0) (hi := 15) (d := 15) (by decide)
  unfold fib
  simp only [getInt_int]
  split
  · rename_i h; exact ⟨fun h' => (nomatch h'), fun h' => absurd h'.1 h⟩
  · rename_i h1
    have h1 := Decidable.not_not.1 h1
    cases h : configVar t "routing-calc-interval" 0 15 15 with
    | none =>
      rw [h] at hc
      exact ⟨fun h => (nomatch h), fun h => absurd (hc.2 ⟨Nat.zero_le _, h.2⟩) (by simp)⟩
    | some k =>
      rw [h] at hc
      exact ⟨fun _ => ⟨h1, (hc.1 rfl).2⟩, fun _ => rfl⟩

theorem advertising_isSome : ∀ (kids : List (Text × Tree)) (p : Params), (advertising kids p).isSome = true ↔
    ∀ x ∈ kids, (∃ n, Uri.parseName (x.1.takeWhile (· != '\x00')) = some n ∧ n ≠ []) ∧ (Num.parseUnsigned 64 x.2.data).isSome = true := by
  intro kids
  induction kids with
  | nil => exact fun p => ⟨fun _ x h => (nomatch h), fun _ => rfl⟩
  | cons x xs ih =>
    intro p
    rw [List.forall_mem_cons]
    unfold advertising
    have hn := nonEmpty_isSome (x.1.takeWhile (· != '\x00'))
    rw [← hn]
    split
    · rename_i n cost h1 h2
      rw [ih, h1, h2]
      exact ⟨fun h => ⟨⟨rfl, rfl⟩, h⟩, fun h => h.2⟩
    · rename_i hno
      refine ⟨fun h => (nomatch h), ?_⟩
      rintro ⟨⟨h1, h2⟩, -⟩
      obtain ⟨n, h1⟩ := Option.isSome_iff_exists.1 h1
      obtain ⟨k, h2⟩ := Option.isSome_iff_exists.1 h2
      exact (hno n k h1 h2).elim

theorem section_isSome (env : ConfEnv) (x : Text × Tree) (p : Params) : (section_ env x.1 x.2 p).isSome = true ↔ Section env x := by
  obtain ⟨name, t⟩ := x
  unfold section_ Section
  dsimp only
  split
  · rename_i h
    subst h
    rw [general_isSome]
    exact ⟨fun h => ⟨fun _ => h, fun e => absurd e (by decide), fun e => absurd e (by decide), fun e => absurd e (by decide), fun e => absurd e (by decide), fun e => absurd e (by decide)⟩, fun h => h.1 rfl⟩
  · rename_i n1
    split
    · rename_i h
      subst h
      rw [neighbors_isSome]
      exact ⟨fun h => ⟨fun e => absurd e n1, fun _ => h, fun e => absurd e (by decide), fun e => absurd e (by decide), fun e => absurd e (by decide), fun e => absurd e (by decide)⟩, fun h => h.2.1 rfl⟩
    · rename_i n2
      split
      · rename_i h
        subst h
        rw [hyperbolic_isSome]
        exact ⟨fun h => ⟨fun e => absurd e n1, fun e => absurd e n2, fun _ => h, fun e => absurd e (by decide), fun e => absurd e (by decide), fun e => absurd e (by decide)⟩, fun h => h.2.2.1 rfl⟩
      · rename_i n3
        split
        · rename_i h
          subst h
          rw [fib_isSome]
          exact ⟨fun h => ⟨fun e => absurd e n1, fun e => absurd e n2, fun e => absurd e n3, fun _ => h, fun e => absurd e (by decide), fun e => absurd e (by decide)⟩,
            fun h => h.2.2.2.1 rfl⟩
        · rename_i n4
          split
          · rename_i h
            subst h
            rw [advertising_isSome]
            exact ⟨fun h => ⟨fun e => absurd e n1, fun e => absurd e n2, fun e => absurd e n3, fun e => absurd e n4, fun _ => h, fun e => absurd e (by decide)⟩,
              fun h => h.2.2.2.2.1 rfl⟩
          · rename_i n5
            split
            · rename_i h
              subst h
              cases hs : env.security t with
              | true =>
                exact ⟨fun _ => ⟨fun e => absurd e n1, fun e => absurd e n2, fun e => absurd e n3, fun e => absurd e n4,
                  fun e => absurd e n5, fun _ => rfl⟩, fun _ => rfl⟩
              | false =>
                exact ⟨fun h => (nomatch h), fun h => (nomatch h.2.2.2.2.2 rfl)⟩
            · rename_i n6
              exact ⟨fun _ => ⟨fun e => absurd e n1, fun e => absurd e n2, fun e => absurd e n3, fun e => absurd e n4,
                fun e => absurd e n5, fun e => absurd e n6⟩, fun _ => rfl⟩

end Nlsr.ConfOk

namespace Nlsr
open Conf

/-- C123: the daemon starts with a configuration file iff each of its sections says what is documented; sections that are
missing, repeated, in another order or unknown make no difference. -/
theorem C123_accepted (env : ConfEnv) (t : Tree) : (load env t).isSome = true ↔ ∀ x ∈ t.kids, ConfOk.Section env x := by
  have : ∀ (kids : List (Text × Tree)) (p : Params), (sections env kids p).isSome = true ↔ ∀ x ∈ kids, ConfOk.Section env x := by
    intro kids
    induction kids with
    | nil => exact fun p => ⟨fun _ x h => (nomatch h), fun _ => rfl⟩
    | cons x xs ih =>
      intro p
      rw [List.forall_mem_cons]
      unfold sections
      have hn := ConfOk.section_isSome env x p
      cases h : section_ env x.1 x.2 p with
      | none =>
        rw [h] at hn
        exact ⟨fun h => (nomatch h), fun h => absurd (hn.2 h.1) (by simp)⟩
      | some p1 =>
        rw [h] at hn
        dsimp only
        rw [ih p1]
        exact ⟨fun h => ⟨hn.1 rfl, h⟩, fun h => h.2⟩
  unfold load
  rw [Option.isSome_map, this]

/-- A file at the bounds of all ranges. -/
def exBounds : Tree := .node [] [
  ("general".toList, .node [] ([("network", "/ndn"), ("site", "/edu/a"), ("router", "/r"), ("state-dir", "/var"), ("sync-protocol", "svs"),
    ("lsa-refresh-time", "7200"), ("router-dead-interval", "7201"), ("lsa-interest-lifetime", "1"),
    ("sync-interest-lifetime", "120000")].map fun x => (x.1.toList, .node x.2.toList []))),
  confSection "fib" [("max-faces-per-prefix", "60"), ("routing-calc-interval", "0")],
  ("neighbors".toList, .node [] ([("hello-retries", "1"), ("hello-timeout", "15"), ("hello-interval", "30"), ("adj-lsa-build-interval", "5"),
    ("face-dataset-fetch-tries", "10"), ("face-dataset-fetch-interval", "5400")].map fun x => (x.1.toList, .node x.2.toList []))),
  confSection "unknown" []]

/-- It is accepted. -/
example : ∀ x ∈ exBounds.kids, ConfOk.Section exEnv x := (C123_accepted exEnv exBounds).1 (by decide +kernel)

/-- And with a refresh time one second longer it is not: the section `general` is not as documented. -/
example : ¬ ConfOk.Section exEnv (exGeneralWith "lsa-refresh-time" "7201") := by
  intro h
  have := (C123_accepted exEnv (.node [] [exGeneralWith "lsa-refresh-time" "7201"])).2 (fun x hx => by
    rw [List.mem_singleton.1 hx]; exact h)
  revert this
  decide +kernel

end Nlsr
