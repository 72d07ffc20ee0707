import Verif.Props.NlsrcMain
import Verif.Props.Nlsrc
/- C78, C97: the exit status of nlsrc when nothing is asked of any router. -/
namespace Nlsr

/-- A prefix update as it has to be written, with the text that has to be a name. -/
inductive UpdateShape : List Text → Text → Prop
  | advertise (t : Text) : UpdateShape ["advertise".toList, t] t
  | save (t : Text) : UpdateShape ["advertise".toList, t, "save".toList] t
  | cost (t : Text) {ct : Text} {k : Nat} (h : CostText ct k) : UpdateShape ["advertise".toList, t, "cost".toList, ct] t
  | costSave (t : Text) {ct : Text} {k : Nat} (h : CostText ct k) : UpdateShape ["advertise".toList, t, "cost".toList, ct, "save".toList] t
  | withdraw (t : Text) : UpdateShape ["withdraw".toList, t] t
  | delete (t : Text) : UpdateShape ["withdraw".toList, t, "delete".toList] t

/-- A command that shows something. -/
def ShowLine (args : List Text) : Prop := args = ["lsdb".toList] ∨ args = ["routing".toList] ∨ args = ["status".toList]

theorem update_cases (verb : CmdVerb) (t : Text) (flag : Bool) (cost : Nat) :
    (Nlsrc.update verb t flag cost = .failed ↔ Uri.parseName t = none) ∧ Nlsrc.update verb t flag cost ≠ .usage ∧
    ∀ w, Nlsrc.update verb t flag cost ≠ .status w := by
  unfold Nlsrc.update
  cases Uri.parseName t <;> simp

theorem stoi_some {ct : Text} : Nlsrc.stoi ct ≠ none ↔ ∃ k, CostText ct k := by
  constructor
  · intro h
    cases hs : Nlsrc.stoi ct with
    | none => exact absurd hs h
    | some v => exact ⟨_, (stoi_iff _ _).1 ⟨v, hs, rfl⟩⟩
  · rintro ⟨k, hk⟩
    obtain ⟨v, hv, -⟩ := (stoi_iff _ _).2 hk
    rw [hv]; simp

theorem costly_cases (t kw ct : Text) (save : Bool) :
    (Nlsrc.costly t kw ct save = .failed ↔ kw = "cost".toList ∧ (∃ k, CostText ct k) ∧ Uri.parseName t = none) ∧
    (Nlsrc.costly t kw ct save = .usage ↔ ¬ (kw = "cost".toList ∧ ∃ k, CostText ct k)) ∧ ∀ w, Nlsrc.costly t kw ct save ≠ .status w := by
  unfold Nlsrc.costly
  by_cases hk : kw = "cost".toList
  · rw [if_neg (fun h => h hk)]
    have hs := stoi_some (ct := ct)
    cases hv : Nlsrc.stoi ct with
    | none =>
      have hn : ¬ ∃ k, CostText ct k := fun h => (hs.2 h) hv
      simp [hn]
    | some v =>
      have hy : ∃ k, CostText ct k := hs.1 (by rw [hv]; simp)
      obtain ⟨h1, h2, h3⟩ := update_cases .advertise t save (Nlsrc.toU64 v)
      refine ⟨⟨fun h => ⟨hk, hy, h1.1 h⟩, fun h => h1.2 h.2.2⟩, ⟨fun h => absurd h h2, fun h => absurd ⟨hk, hy⟩ h⟩, h3⟩
  · rw [if_pos hk]
    exact ⟨⟨fun e => (by cases e), fun h => absurd h.1 hk⟩, ⟨fun _ h => hk h.1, fun _ => rfl⟩, fun w e => (by cases e)⟩

/-- Every command is written in one of three ways or misused. -/
theorem dispatch_cases (args : List Text) :
    (Nlsrc.dispatch args = .failed ↔ ∃ t, UpdateShape args t ∧ Uri.parseName t = none) ∧
    (Nlsrc.dispatch args = .usage ↔ (∀ t, ¬ UpdateShape args t) ∧ ¬ ShowLine args) ∧
    ((∃ w, Nlsrc.dispatch args = .status w) ↔ ShowLine args) := by
  have named : ∀ {verb : CmdVerb} {t : Text} {flag : Bool} {cost : Nat}, UpdateShape args t → (∀ t', UpdateShape args t' → t' = t) →
      ¬ ShowLine args → Nlsrc.dispatch args = Nlsrc.update verb t flag cost →
      (Nlsrc.dispatch args = .failed ↔ ∃ t, UpdateShape args t ∧ Uri.parseName t = none) ∧
      (Nlsrc.dispatch args = .usage ↔ (∀ t, ¬ UpdateShape args t) ∧ ¬ ShowLine args) ∧
      ((∃ w, Nlsrc.dispatch args = .status w) ↔ ShowLine args) := by
    intro verb t flag cost hs hu hn hd
    obtain ⟨h1, h2, h3⟩ := update_cases verb t flag cost
    rw [hd]
    refine ⟨⟨fun h => ⟨t, hs, h1.1 h⟩, ?_⟩, ⟨fun h => absurd h h2, fun h => absurd hs (h.1 t)⟩, ⟨fun ⟨w, h⟩ => absurd h (h3 w), fun h => absurd h hn⟩⟩
    rintro ⟨t', ht', hp⟩
    rw [hu t' ht'] at hp
    exact h1.2 hp
  have wrong : (∀ t, ¬ UpdateShape args t) → ¬ ShowLine args → Nlsrc.dispatch args = .usage →
      (Nlsrc.dispatch args = .failed ↔ ∃ t, UpdateShape args t ∧ Uri.parseName t = none) ∧
      (Nlsrc.dispatch args = .usage ↔ (∀ t, ¬ UpdateShape args t) ∧ ¬ ShowLine args) ∧
      ((∃ w, Nlsrc.dispatch args = .status w) ↔ ShowLine args) := by
    intro h1 h2 hd
    rw [hd]
    exact ⟨⟨fun e => (by cases e), fun ⟨t, h, _⟩ => absurd h (h1 t)⟩, ⟨fun _ => ⟨h1, h2⟩, fun _ => rfl⟩,
      ⟨fun ⟨w, e⟩ => (by cases e), fun h => absurd h h2⟩⟩
  have costed : ∀ {t kw ct : Text} {save : Bool}, (∀ t', UpdateShape args t' ↔ t' = t ∧ kw = "cost".toList ∧ ∃ k, CostText ct k) →
      ¬ ShowLine args → Nlsrc.dispatch args = Nlsrc.costly t kw ct save →
      (Nlsrc.dispatch args = .failed ↔ ∃ t, UpdateShape args t ∧ Uri.parseName t = none) ∧
      (Nlsrc.dispatch args = .usage ↔ (∀ t, ¬ UpdateShape args t) ∧ ¬ ShowLine args) ∧
      ((∃ w, Nlsrc.dispatch args = .status w) ↔ ShowLine args) := by
    intro t kw ct save hs hn hd
    obtain ⟨h1, h2, h3⟩ := costly_cases t kw ct save
    rw [hd]
    refine ⟨⟨fun h => ?_, ?_⟩, ⟨fun h => ⟨fun t' ht' => h2.1 h ((hs t').1 ht').2, hn⟩, fun h => h2.2 (fun e => h.1 t ((hs t).2 ⟨rfl, e⟩))⟩,
      ⟨fun ⟨w, h⟩ => absurd h (h3 w), fun h => absurd h hn⟩⟩
    · obtain ⟨a, b, c⟩ := h1.1 h
      exact ⟨t, (hs t).2 ⟨rfl, a, b⟩, c⟩
    · rintro ⟨t', ht', hp⟩
      obtain ⟨rfl, a, b⟩ := (hs t').1 ht'
      exact h1.2 ⟨a, b, hp⟩
  cases args with
  | nil =>
    refine wrong (fun t h => by cases h) ?_ rfl
    rintro (h | h | h) <;> cases h
  | cons sub args =>
    by_cases h1 : sub = "advertise".toList
    · subst h1
      have hshow : ∀ l : List Text, ¬ ShowLine ("advertise".toList :: l) := by
        rintro l (h | h | h) <;>
        · injection h with h _
          revert h
          decide +kernel
      match args with
      | [] => exact wrong (fun t h => by cases h) (hshow _) rfl
      | [t] => exact named (verb := .advertise) (flag := false) (cost := 0) (.advertise t) (fun t' h => by cases h; rfl) (hshow _) rfl
      | [t, a] =>
        by_cases ha : a = "save".toList
        · subst ha
          refine named (verb := .advertise) (flag := true) (cost := 0) (.save t) (fun t' h => ?_) (hshow _) rfl
          generalize hw : "save".toList = w at h
          generalize hw' : "advertise".toList = w' at h
          cases h <;> first | rfl | (exfalso; revert hw'; decide +kernel)
        · refine wrong (fun t' h => ?_) (hshow _) ?_
          · generalize hw' : "advertise".toList = w' at h
            cases h with
            | save => exact ha rfl
            | delete => revert hw'; decide +kernel
          · show (if a ≠ "save".toList then NlsrcAct.usage else _) = _
            rw [if_pos ha]
      | [t, kw, ct] =>
        refine costed (t := t) (kw := kw) (ct := ct) (save := false) (fun t' => ⟨fun h => ?_, ?_⟩) (hshow _) rfl
        · generalize hw' : "advertise".toList = w' at h
          cases h with
          | cost _ hk => exact ⟨rfl, rfl, _, hk⟩
        · rintro ⟨rfl, rfl, k, hk⟩
          exact .cost _ hk
      | [t, kw, ct, sv] =>
        by_cases ha : sv = "save".toList
        · subst ha
          refine costed (t := t) (kw := kw) (ct := ct) (save := true) (fun t' => ⟨fun h => ?_, ?_⟩) (hshow _) rfl
          · generalize hw : "save".toList = w at h
            generalize hw' : "advertise".toList = w' at h
            cases h with
            | costSave _ hk => exact ⟨rfl, rfl, _, hk⟩
          · rintro ⟨rfl, rfl, k, hk⟩
            exact .costSave _ hk
        · refine wrong (fun t' h => ?_) (hshow _) ?_
          · generalize hw' : "advertise".toList = w' at h
            cases h with
            | costSave => exact ha rfl
          · show (if sv ≠ "save".toList then NlsrcAct.usage else _) = _
            rw [if_pos ha]
      | t :: a :: b :: c :: e :: l => exact wrong (fun t h => by cases h) (hshow _) rfl
    by_cases h2 : sub = "withdraw".toList
    · subst h2
      have hshow : ∀ l : List Text, ¬ ShowLine ("withdraw".toList :: l) := by
        rintro l (h | h | h) <;>
        · injection h with h _
          revert h
          decide +kernel
      match args with
      | [] => exact wrong (fun t h => by cases h) (hshow _) rfl
      | [t] => exact named (verb := .withdraw) (flag := false) (cost := 0) (.withdraw t) (fun t' h => by cases h; rfl) (hshow _) rfl
      | [t, a] =>
        by_cases ha : a = "delete".toList
        · subst ha
          refine named (verb := .withdraw) (flag := true) (cost := 0) (.delete t) (fun t' h => ?_) (hshow _) rfl
          generalize hw : "delete".toList = w at h
          generalize hw' : "withdraw".toList = w' at h
          cases h <;> first | rfl | (exfalso; revert hw'; decide +kernel)
        · refine wrong (fun t' h => ?_) (hshow _) ?_
          · generalize hw' : "withdraw".toList = w' at h
            cases h with
            | delete => exact ha rfl
            | save => revert hw'; decide +kernel
          · show (if a ≠ "delete".toList then NlsrcAct.usage else _) = _
            rw [if_pos ha]
      | t :: a :: b :: l =>
        refine wrong (fun t' h => ?_) (hshow _) rfl
        generalize hw' : "withdraw".toList = w' at h
        cases h <;> (revert hw'; decide +kernel)
    · have hno : ∀ t, ¬ UpdateShape (sub :: args) t := by
        intro t h
        cases h <;> first | exact h1 rfl | exact h2 rfl
      have hd : Nlsrc.dispatch (sub :: args) = if sub = "lsdb".toList ∨ sub = "routing".toList ∨ sub = "status".toList then
          (match args with | [] => NlsrcAct.status sub | _ => .usage) else .usage := by
        show (if sub = "advertise".toList then _ else _) = _
        rw [if_neg h1, if_neg h2]
        cases args <;> rfl
      by_cases h3 : sub = "lsdb".toList ∨ sub = "routing".toList ∨ sub = "status".toList
      · cases args with
        | nil =>
          have hs : ShowLine [sub] := by
            rcases h3 with rfl | rfl | rfl
            · exact Or.inl rfl
            · exact Or.inr (Or.inl rfl)
            · exact Or.inr (Or.inr rfl)
          rw [hd, if_pos h3]
          exact ⟨⟨fun e => (by cases e), fun ⟨t, h, _⟩ => absurd h (hno t)⟩, ⟨fun e => (by cases e), fun h => absurd hs h.2⟩,
            ⟨fun _ => hs, fun _ => ⟨_, rfl⟩⟩⟩
        | cons a l =>
          refine wrong hno ?_ (by rw [hd, if_pos h3])
          rintro (h | h | h) <;> cases h
      · refine wrong hno ?_ (by rw [hd, if_neg h3])
        rintro (h | h | h) <;> injection h with h _
        · exact h3 (Or.inl h)
        · exact h3 (Or.inr (Or.inl h))
        · exact h3 (Or.inr (Or.inr h))

/-- C78: a command that is not written as it has to be ends with status 2, one with a text that is no name with status 1, whatever
anybody answers; any other update ends with 0 or 1. -/
theorem C78_refused (args : List Text) (a : Nlsrc.Answer) :
    (((∀ t, ¬ UpdateShape args t) ∧ ¬ ShowLine args) ↔ Nlsrc.exitStatus args a = some 2) ∧
    (∀ t, UpdateShape args t → Uri.parseName t = none → Nlsrc.exitStatus args a = some 1) ∧
    (Nlsrc.exitStatus args a = none ↔ ShowLine args) := by
  obtain ⟨h1, h2, h3⟩ := dispatch_cases args
  unfold Nlsrc.exitStatus
  cases hd : Nlsrc.dispatch args with
  | usage =>
    have := h2.1 hd
    exact ⟨⟨fun _ => rfl, fun _ => this⟩, fun t h => absurd h (this.1 t), ⟨fun e => (by cases e), fun h => absurd h this.2⟩⟩
  | failed =>
    refine ⟨⟨fun h => ?_, fun e => by cases e⟩, fun _ _ _ => rfl, ⟨fun e => (by cases e), fun h => ?_⟩⟩
    · rw [h2.2 h] at hd; cases hd
    · obtain ⟨w, hw⟩ := h3.2 h; rw [hw] at hd; cases hd
  | send x =>
    refine ⟨⟨fun h => ?_, fun e => ?_⟩, fun t ht hp => ?_, ⟨fun e => (by cases e), fun h => ?_⟩⟩
    · rw [h2.2 h] at hd; cases hd
    · exfalso
      revert e
      cases a with
      | nackData => simp [Nlsrc.answered]
      | garbage => simp [Nlsrc.answered]
      | lost => simp [Nlsrc.answered]
      | code k =>
        unfold Nlsrc.answered
        dsimp only
        split
        · split <;> simp
        · simp
    · rw [h1.2 ⟨t, ht, hp⟩] at hd; cases hd
    · obtain ⟨w, hw⟩ := h3.2 h; rw [hw] at hd; cases hd
  | status w =>
    refine ⟨⟨fun h => ?_, fun e => by cases e⟩, fun t ht hp => ?_, ⟨fun _ => h3.1 ⟨w, hd⟩, fun _ => rfl⟩⟩
    · rw [h2.2 h] at hd; cases hd
    · rw [h1.2 ⟨t, ht, hp⟩] at hd; cases hd

example : UpdateShape ["advertise".toList, "/sha256digest=1".toList] "/sha256digest=1".toList ∧ Uri.parseName "/sha256digest=1".toList = none ∧
    Nlsrc.exitStatus ["advertise".toList, "/sha256digest=1".toList] .lost = some 1 ∧
    Nlsrc.exitStatus ["advertise".toList, "/a".toList, "cost".toList] .lost = some 2 :=
  ⟨.advertise _, by decide +kernel, by decide +kernel, by decide +kernel⟩

namespace Nlsrc
open Getopt

/-- Help or the version is asked for, and nothing is wrong before that. -/
inductive Asks (permute : Bool) : List Text → Prop
  | here {c : Char} (cs : Text) (r : List Text) (hc : c = 'h' ∨ c = 'V') : Asks permute (('-' :: c :: cs) :: r)
  | word {a : Text} {r : List Text} (ha : ¬ Dash a) (hp : permute = true) (h : Asks permute r) : Asks permute (a :: r)
  | k {r : List Text} (h : Asks permute r) : Asks permute (['-', 'k'] :: r)
  | more {c : Char} {cs : Text} {r : List Text} (hc : c ≠ '-') (h : Asks permute (('-' :: c :: cs) :: r)) :
      Asks permute (('-' :: 'k' :: c :: cs) :: r)
  | router (t : Text) {r : List Text} (ht : Uri.parseName t ≠ none) (h : Asks permute r) : Asks permute (['-', 'R'] :: t :: r)
  | routerAt {t : Text} {r : List Text} (hne : t ≠ []) (ht : Uri.parseName t ≠ none) (h : Asks permute r) :
      Asks permute (('-' :: 'R' :: t) :: r)
  | conf (t : Text) {r : List Text} (h : Asks permute r) : Asks permute (['-', 'c'] :: t :: r)
  | confAt {t : Text} {r : List Text} (hne : t ≠ []) (h : Asks permute r) : Asks permute (('-' :: 'c' :: t) :: r)

theorem asks_exit {permute : Bool} {args : List Text} (h : Asks permute args) :
    ∀ o, options o (getopt takes permute args).1 = .exit 0 := by
  induction h with
  | @here c cs r hc =>
    intro o
    have hne : ('-' :: c :: cs : Text) ≠ ['-', '-'] := by intro e; simp at e; rcases hc with hc | hc <;> rw [hc] at e <;> simp at e
    rw [getopt_dash _ _ _ _ hne]
    have hk : cluster takes (c :: cs) = (.opt c none :: (cluster takes cs).1, (cluster takes cs).2) := by
      rcases hc with rfl | rfl <;> rfl
    rw [hk]
    generalize cluster takes cs = x
    obtain ⟨g, q⟩ := x
    rcases hc with rfl | rfl <;> cases q <;> cases r <;> rfl
  | word ha hp _ ih => intro o; rw [getopt_word _ _ _ ha, hp, if_pos rfl, ← hp]; exact ih o
  | k _ ih => intro o; rw [getopt_dash _ _ _ _ (by decide)]; exact ih _
  | @more c cs r hc _ ih =>
    intro o
    have h1 : ('-' :: c :: cs : Text) ≠ ['-', '-'] := by intro e; simp at e; exact hc e.1
    have h2 : ('-' :: 'k' :: c :: cs : Text) ≠ ['-', '-'] := by intro e; simp at e
    have ih := ih { o with noVerify := true }
    rw [getopt_dash _ _ _ _ h1] at ih
    rw [getopt_dash _ _ _ _ h2]
    have hk : cluster takes ('k' :: c :: cs) = (.opt 'k' none :: (cluster takes (c :: cs)).1, (cluster takes (c :: cs)).2) := rfl
    rw [hk]
    generalize cluster takes (c :: cs) = x at ih ⊢
    obtain ⟨g, q⟩ := x
    cases q <;> cases r <;> exact ih
  | router t ht _ ih =>
    intro o
    rw [getopt_dash _ _ _ _ (by decide)]
    show (match Uri.parseName t with | none => Began.aborted | some n => options { o with router := n } _) = _
    cases hp : Uri.parseName t with
    | none => exact absurd hp ht
    | some n => exact ih _
  | @routerAt t r hne ht _ ih =>
    intro o
    rw [getopt_dash _ _ _ _ (by intro e; simp at e)]
    have hk : cluster takes ('R' :: t) = ([.opt 'R' (some t)], none) := by
      show (if t = [] then _ else _) = _
      rw [if_neg hne]
    rw [hk]
    show (match Uri.parseName t with | none => Began.aborted | some n => options { o with router := n } _) = _
    cases hp : Uri.parseName t with
    | none => exact absurd hp ht
    | some n => exact ih _
  | conf t _ ih => intro o; rw [getopt_dash _ _ _ _ (by decide)]; exact ih _
  | @confAt t r hne _ ih =>
    intro o
    rw [getopt_dash _ _ _ _ (by intro e; simp at e)]
    have hk : cluster takes ('c' :: t) = ([.opt 'c' (some t)], none) := by
      show (if t = [] then _ else _) = _
      rw [if_neg hne]
    rw [hk]
    exact ih _

/-- The options end only with 0 or 2. -/
theorem options_exit : ∀ (g : List Got) (o : Options) (n : Nat), options o g = .exit n → n = 2 ∨ n = 0
  | [], o, n, h => by cases h
  | .bad :: _, o, n, h => by cases h; exact Or.inl rfl
  | .opt c arg :: gs, o, n, h => by
    unfold options at h
    split at h
    · cases h; exact Or.inr rfl
    split at h
    · cases h; exact Or.inr rfl
    split at h
    · split at h
      · cases h
      · exact options_exit gs _ n h
    split at h
    · exact options_exit gs _ n h
    split at h
    · exact options_exit gs _ n h
    · cases h; exact Or.inl rfl

/-- Whether answers have to pass the rules of a file. -/
def Needs (es : List Eff) : Prop := Uri.parseName (routerOf es) ≠ some (nm ["localhost"]) ∧ .insecure ∉ es

theorem launch_exit (router : Name) (verify : Option Text) (words : List Text) (n : Nat) :
    launch router verify words = .exit n ↔
      (n = 2 ∧ (∀ t, ¬ UpdateShape words t) ∧ ¬ ShowLine words) ∨ (n = 1 ∧ ∃ t, UpdateShape words t ∧ Uri.parseName t = none) := by
  obtain ⟨h1, h2, h3⟩ := dispatch_cases words
  unfold launch
  cases hd : dispatch words with
  | usage =>
    have := h2.1 hd
    constructor
    · intro e; cases e; exact Or.inl ⟨rfl, this⟩
    · rintro (⟨rfl, -⟩ | ⟨-, t, ht, -⟩)
      · rfl
      · exact absurd ht (this.1 t)
  | failed =>
    have := h1.1 hd
    constructor
    · intro e; cases e; exact Or.inr ⟨rfl, this⟩
    · rintro (⟨-, h⟩ | ⟨rfl, -⟩)
      · obtain ⟨t, ht, -⟩ := this; exact absurd ht (h.1 t)
      · rfl
  | send x =>
    constructor
    · intro e; cases e
    · rintro (⟨-, h⟩ | ⟨-, h⟩)
      · rw [h2.2 h] at hd; cases hd
      · rw [h1.2 h] at hd; cases hd
  | status w =>
    constructor
    · intro e; cases e
    · rintro (⟨-, h⟩ | ⟨-, h⟩)
      · rw [h2.2 h] at hd; cases hd
      · rw [h1.2 h] at hd; cases hd

/-- C97: the status of a command line that can be read and starts nothing.  It is 2 if there is no command or it is not written as
it has to be, 1 if the rules that are needed are refused or a text in the command is no name, and never anything else. -/
theorem C97_exit (permute : Bool) (dflt : Text) (load : Text → Load) (args : List Text) (es : List Eff) (h : Reads permute args es)
    (hr : ∀ t, .router t ∈ es → Uri.parseName t ≠ none) (n : Nat) :
    main permute dflt load args = .exit n ↔
      (n = 2 ∧ (wordsOf es = [] ∨ ((Needs es → load (confOf dflt es) = .ok) ∧ (∀ t, ¬ UpdateShape (wordsOf es) t) ∧ ¬ ShowLine (wordsOf es)))) ∨
      (n = 1 ∧ wordsOf es ≠ [] ∧ ((Needs es ∧ load (confOf dflt es) = .refused) ∨
        ((Needs es → load (confOf dflt es) = .ok) ∧ ∃ t, UpdateShape (wordsOf es) t ∧ Uri.parseName t = none))) := by
  have hloc : Uri.parseName "/localhost".toList = some (nm ["localhost"]) := by decide +kernel
  have hname : ∃ r, Uri.parseName (routerOf es) = some r := by
    unfold routerOf
    cases hl : (es.filterMap (fun | .router t => some t | _ => none)).getLast? with
    | none => exact ⟨_, hloc⟩
    | some t =>
      have hm := List.mem_of_getLast? hl
      rw [List.mem_filterMap] at hm
      obtain ⟨e, he, hte⟩ := hm
      cases e with
      | router t' => cases hte; exact Option.ne_none_iff_exists'.1 (hr _ he)
      | insecure => cases hte
      | conf t => cases hte
      | word t => cases hte
  obtain ⟨r, hrn⟩ := hname
  have hgo : options { conf := dflt } (gotsOf es) = .go ⟨r, confOf dflt es, decide (.insecure ∈ es)⟩ := by
    refine (options_eq es { conf := dflt } ⟨r, confOf dflt es, decide (.insecure ∈ es)⟩).2 ⟨hr, ?_, rfl, by simp⟩
    rw [← hrn]
    unfold routerOf
    generalize (es.filterMap (fun | .router t => some t | _ => none)).getLast? = l
    cases l with
    | none => exact hloc
    | some t => rfl
  have hneeds : Needs es ↔ (r ≠ nm ["localhost"] ∧ decide (.insecure ∈ es) = false) := by
    unfold Needs
    rw [hrn]
    simp
  by_cases hargs : args = []
  · subst hargs
    have hw : wordsOf es = [] := by cases h; rfl
    unfold main
    rw [if_pos rfl]
    constructor
    · intro e; cases e; exact Or.inl ⟨rfl, Or.inl hw⟩
    · rintro (⟨rfl, -⟩ | ⟨-, h, -⟩)
      · rfl
      · exact absurd hw h
  unfold main
  rw [if_neg hargs]
  dsimp only
  rw [getopt_of_reads h]
  dsimp only
  rw [hgo]
  dsimp only
  by_cases hw : wordsOf es = []
  · rw [if_pos hw]
    constructor
    · intro e; cases e; exact Or.inl ⟨rfl, Or.inl hw⟩
    · rintro (⟨rfl, -⟩ | ⟨-, h, -⟩)
      · rfl
      · exact absurd hw h
  rw [if_neg hw]
  have hl := launch_exit r none (wordsOf es) n
  have hl' := launch_exit r (some (confOf dflt es)) (wordsOf es) n
  by_cases hn : Needs es
  · rw [if_pos (hneeds.1 hn)]
    cases hld : load (confOf dflt es) with
    | refused =>
      dsimp only
      constructor
      · intro e; cases e; exact Or.inr ⟨rfl, hw, Or.inl ⟨hn, rfl⟩⟩
      · rintro (⟨-, h | ⟨h, -⟩⟩ | ⟨rfl, -⟩)
        · exact absurd h hw
        · cases h hn
        · rfl
    | threw =>
      dsimp only
      constructor
      · intro e; cases e
      · rintro (⟨-, h | ⟨h, -⟩⟩ | ⟨-, -, ⟨-, h⟩ | ⟨h, -⟩⟩)
        · exact absurd h hw
        · cases h hn
        · cases h
        · cases h hn
    | ok =>
      dsimp only
      rw [hl']
      constructor
      · rintro (⟨rfl, h⟩ | ⟨rfl, h⟩)
        · exact Or.inl ⟨rfl, Or.inr ⟨fun _ => rfl, h⟩⟩
        · exact Or.inr ⟨rfl, hw, Or.inr ⟨fun _ => rfl, h⟩⟩
      · rintro (⟨rfl, h | ⟨-, h⟩⟩ | ⟨rfl, -, ⟨-, h⟩ | ⟨-, h⟩⟩)
        · exact absurd h hw
        · exact Or.inl ⟨rfl, h⟩
        · cases h
        · exact Or.inr ⟨rfl, h⟩
  · rw [if_neg (fun e => hn (hneeds.2 e)), hl]
    constructor
    · rintro (⟨rfl, h⟩ | ⟨rfl, h⟩)
      · exact Or.inl ⟨rfl, Or.inr ⟨fun e => absurd e hn, h⟩⟩
      · exact Or.inr ⟨rfl, hw, Or.inr ⟨fun e => absurd e hn, h⟩⟩
    · rintro (⟨rfl, h | ⟨-, h⟩⟩ | ⟨rfl, -, ⟨h, -⟩ | ⟨-, h⟩⟩)
      · exact absurd h hw
      · exact Or.inl ⟨rfl, h⟩
      · exact absurd h hn
      · exact Or.inr ⟨rfl, h⟩

/-- C97: help and version end with status 0; a command line that cannot be read ends with 0 or 2, or is aborted by a router
that is no name (`C97_violated_abort`): it never starts anything and never fails otherwise. -/
theorem C97_help (permute : Bool) (dflt : Text) (load : Text → Load) (args : List Text) :
    (Asks permute args → main permute dflt load args = .exit 0) ∧
    ((∀ es, ¬ Reads permute args es) → main permute dflt load args = .exit 0 ∨ main permute dflt load args = .exit 2 ∨
      main permute dflt load args = .aborted) := by
  constructor
  · intro h
    unfold main
    rw [if_neg (by rintro rfl; cases h)]
    dsimp only
    rw [asks_exit h]
  · intro h
    unfold main
    by_cases ha : args = []
    · rw [if_pos ha]; exact Or.inr (Or.inl rfl)
    rw [if_neg ha]
    dsimp only
    cases ho : options { conf := dflt } (getopt takes permute args).1 with
    | exit n =>
      rcases options_exit _ _ _ ho with rfl | rfl
      · exact Or.inr (Or.inl rfl)
      · exact Or.inl rfl
    | aborted => exact Or.inr (Or.inr rfl)
    | go o =>
      obtain ⟨es, he⟩ := reads_of_getopt args.length args (Nat.le_refl _) (options_bad _ _ _ ho)
      exact absurd he (h es)

example : Asks true (line ["status", "-kR", "/a", "-Vx"]) ∧ main true [] (fun _ => .ok) (line ["status", "-kR", "/a", "-Vx"]) = .exit 0 ∧
    Reads true (line ["-R", "/a", "advertise", "/b", "x"]) [.router "/a".toList, .word "advertise".toList, .word "/b".toList, .word "x".toList] ∧
    main true [] (fun _ => .ok) (line ["-R", "/a", "advertise", "/b", "x"]) = .exit 2 ∧
    main true [] (fun _ => .refused) (line ["-R", "/a", "advertise", "/b", "x"]) = .exit 1 ∧
    main true [] (fun _ => .ok) (line ["-R", "/a", "advertise", "/sha256digest=1"]) = .exit 1 := by
  refine ⟨.word (by rintro ⟨c, cs, e⟩; revert e; simp) rfl (.more (by decide) (.router _ (by decide +kernel) (.here _ _ (Or.inr rfl)))),
    by decide +kernel, .router _ (.word ?_ rfl (.word ?_ rfl (.word ?_ rfl .nil))), by decide +kernel, by decide +kernel, by decide +kernel⟩ <;>
  · rintro ⟨c, cs, e⟩; revert e; simp

end Nlsrc
end Nlsr
