import Verif.Lemmas.Boot
import Verif.Props.ConfNames
/- C111: from the command line of the daemon to a running router, and what that does to the files. -/
namespace Nlsr.Boot
open Getopt

/-- What a word of a command line is for. -/
inductive Eff
  | file (t : Text)
  | word (t : Text)
deriving DecidableEq, Repr

/-- How a command line of the daemon is to be read: `-f file`, `-ffile`, `--` before words that are not options; with `permute`,
options may come after words. -/
inductive Given (permute : Bool) : List Text → List Eff → Prop
  | nil : Given permute [] []
  | stop (r : List Text) : Given permute (['-', '-'] :: r) (r.map .word)
  | word {a : Text} {r : List Text} {es : List Eff} (ha : ¬ Dash a) (hp : permute = true) (h : Given permute r es) :
      Given permute (a :: r) (.word a :: es)
  | words {a : Text} (r : List Text) (ha : ¬ Dash a) (hp : permute = false) : Given permute (a :: r) ((a :: r).map .word)
  | file (t : Text) {r : List Text} {es : List Eff} (h : Given permute r es) : Given permute (['-', 'f'] :: t :: r) (.file t :: es)
  | fileAt {t : Text} {r : List Text} {es : List Eff} (ht : t ≠ []) (h : Given permute r es) :
      Given permute (('-' :: 'f' :: t) :: r) (.file t :: es)

/-- The configuration file named last, `nlsr.conf` in the current directory if none is. -/
def fileOf (es : List Eff) : Text :=
  (es.filterMap (fun | .file t => some t | _ => none)).getLast?.getD "nlsr.conf".toList

/-- Help or the version is asked for, and nothing is wrong before that. -/
inductive Asks (permute : Bool) : List Text → Prop
  | here {c : Char} (cs : Text) (r : List Text) (hc : c = 'h' ∨ c = 'V') : Asks permute (('-' :: c :: cs) :: r)
  | word {a : Text} {r : List Text} (ha : ¬ Dash a) (hp : permute = true) (h : Asks permute r) : Asks permute (a :: r)
  | file (t : Text) {r : List Text} (h : Asks permute r) : Asks permute (['-', 'f'] :: t :: r)
  | fileAt {t : Text} {r : List Text} (ht : t ≠ []) (h : Asks permute r) : Asks permute (('-' :: 'f' :: t) :: r)

/-- The options as `getopt` gives them. -/
def gotsOf (es : List Eff) : List Got := es.filterMap (fun | .file t => some (.opt 'f' (some t)) | .word _ => none)

theorem gots_words (l : List Text) : gotsOf (l.map .word) = [] := by
  unfold gotsOf; induction l with
  | nil => rfl
  | cons a l ih => rw [List.map_cons, List.filterMap_cons]; dsimp only; rw [ih]

theorem getopt_given {permute : Bool} {args : List Text} {es : List Eff} (h : Given permute args es) :
    (getopt takes permute args).1 = gotsOf es := by
  induction h with
  | nil => rfl
  | stop r => rw [getopt_stop, gots_words]
  | word ha hp _ ih =>
    rw [getopt_word _ _ _ ha, hp, if_pos rfl, ← hp]
    exact ih
  | words r ha hp => rw [getopt_word _ _ _ ha, hp, if_neg (by decide), gots_words]
  | file t _ ih => rw [getopt_f, ih]; rfl
  | fileAt ht _ ih => rw [getopt_fat _ ht, ih]; rfl

theorem options_gots : ∀ (es : List Eff) (f : Text), options f (gotsOf es) =
    .go ((es.filterMap (fun | .file t => some t | _ => none)).getLast?.getD f)
  | [], _ => rfl
  | .word t :: es, f => by
    show options f (gotsOf es) = _
    rw [options_gots es f]
    rfl
  | .file t :: es, f => by
    show options t (gotsOf es) = _
    rw [options_gots es t]
    simp [List.getLast?_cons]

theorem takes_h {c : Char} (hc : c = 'h' ∨ c = 'V') : takes c = some false := by
  unfold takes; rw [if_pos hc]

theorem takes_none {c : Char} (h1 : ¬ (c = 'h' ∨ c = 'V')) (h2 : c ≠ 'f') : takes c = none := by
  unfold takes; rw [if_neg h1, if_neg h2]

/-- Every command line is of exactly one of three kinds. -/
theorem kinds (permute : Bool) : ∀ (n : Nat) (args : List Text), args.length ≤ n →
    (∃ es, Given permute args es) ∨
    (Asks permute args ∧ ∀ f, options f (getopt takes permute args).1 = .exit 0) ∨
    (¬ Asks permute args ∧ (∀ es, ¬ Given permute args es) ∧ ∀ f, options f (getopt takes permute args).1 = .exit 2) := by
  intro n
  induction n with
  | zero =>
    intro args hl
    cases args with
    | nil => exact Or.inl ⟨_, .nil⟩
    | cons a r => simp at hl
  | succ n ih =>
    intro args hl
    cases args with
    | nil => exact Or.inl ⟨_, .nil⟩
    | cons a r =>
      have hr : r.length ≤ n := by simpa using hl
      by_cases hd : Dash a
      · obtain ⟨c, cs, rfl⟩ := hd
        by_cases hs : ('-' :: c :: cs : Text) = ['-', '-']
        · left; rw [hs]; exact ⟨_, .stop r⟩
        by_cases hh : c = 'h' ∨ c = 'V'
        · right; left
          refine ⟨.here cs r hh, fun f => ?_⟩
          obtain ⟨gs, hg⟩ := getopt_first permute cs r (takes_h hh) hs (Or.inr ⟨rfl, rfl⟩)
          rw [hg]
          rcases hh with rfl | rfl <;> rfl
        by_cases hf : c = 'f'
        · subst hf
          cases cs with
          | nil =>
            cases r with
            | nil =>
              right; right
              refine ⟨fun h => ?_, fun es h => ?_, fun f => ?_⟩
              · cases h with
                | here cs r hc => exact hh hc
                | word ha => exact ha ⟨_, _, rfl⟩
                | fileAt ht => exact ht rfl
              · cases h with
                | word ha => exact ha ⟨_, _, rfl⟩
                | words r ha => exact ha ⟨_, _, rfl⟩
                | fileAt ht => exact ht rfl
              · rw [getopt_f_end]; rfl
            | cons b r' =>
              have hr' : r'.length ≤ n := by simp at hr; omega
              rcases ih r' hr' with ⟨es, h⟩ | ⟨h1, h2⟩ | ⟨h1, h2, h3⟩
              · exact Or.inl ⟨_, .file b h⟩
              · refine Or.inr (Or.inl ⟨.file b h1, fun f => ?_⟩)
                rw [getopt_f]
                exact h2 b
              · refine Or.inr (Or.inr ⟨fun h => ?_, fun es h => ?_, fun f => ?_⟩)
                · cases h with
                  | here cs r hc => exact hh hc
                  | word ha => exact ha ⟨_, _, rfl⟩
                  | file _ h => exact h1 h
                  | fileAt ht => exact ht rfl
                · cases h with
                  | word ha => exact ha ⟨_, _, rfl⟩
                  | words r ha => exact ha ⟨_, _, rfl⟩
                  | file _ h => exact h2 _ h
                  | fileAt ht => exact ht rfl
                · rw [getopt_f]
                  exact h3 b
          | cons x xs =>
            have hne : (x :: xs : Text) ≠ [] := by simp
            rcases ih r hr with ⟨es, h⟩ | ⟨h1, h2⟩ | ⟨h1, h2, h3⟩
            · exact Or.inl ⟨_, .fileAt hne h⟩
            · refine Or.inr (Or.inl ⟨.fileAt hne h1, fun f => ?_⟩)
              rw [getopt_fat _ hne]
              exact h2 _
            · refine Or.inr (Or.inr ⟨fun h => ?_, fun es h => ?_, fun f => ?_⟩)
              · cases h with
                | here cs r hc => exact hh hc
                | word ha => exact ha ⟨_, _, rfl⟩
                | fileAt _ h => exact h1 h
              · cases h with
                | word ha => exact ha ⟨_, _, rfl⟩
                | words r ha => exact ha ⟨_, _, rfl⟩
                | fileAt _ h => exact h2 _ h
              · rw [getopt_fat _ hne]
                exact h3 _
        · right; right
          obtain ⟨gs, hg⟩ := getopt_first permute cs r (takes_none hh hf) hs (Or.inl ⟨rfl, rfl⟩)
          refine ⟨fun h => ?_, fun es h => ?_, fun f => by rw [hg]; rfl⟩
          · cases h with
            | here cs r hc => exact hh hc
            | word ha => exact ha ⟨_, _, rfl⟩
            | file _ h => exact hf rfl
            | fileAt _ h => exact hf rfl
          · cases h with
            | stop r => exact hs rfl
            | word ha => exact ha ⟨_, _, rfl⟩
            | words r ha => exact ha ⟨_, _, rfl⟩
            | file _ h => exact hf rfl
            | fileAt _ h => exact hf rfl
      · cases hp : permute with
        | false =>
          subst hp
          exact Or.inl ⟨_, .words r hd rfl⟩
        | true =>
          have hw : (getopt takes true (a :: r)).1 = (getopt takes true r).1 := by rw [getopt_word _ _ _ hd, if_pos rfl]
          have := ih r hr
          rw [hp] at this
          rcases this with ⟨es, h⟩ | ⟨h1, h2⟩ | ⟨h1, h2, h3⟩
          · exact Or.inl ⟨_, .word hd rfl h⟩
          · exact Or.inr (Or.inl ⟨.word hd rfl h1, fun f => by rw [hw]; exact h2 f⟩)
          · refine Or.inr (Or.inr ⟨fun h => ?_, fun es h => ?_, fun f => by rw [hw]; exact h3 f⟩)
            · cases h with
              | here cs r hc => exact hd ⟨_, _, rfl⟩
              | word _ _ h => exact h1 h
              | file => exact hd ⟨_, _, rfl⟩
              | fileAt => exact hd ⟨_, _, rfl⟩
            · cases h with
              | stop => exact hd ⟨_, _, rfl⟩
              | word _ _ h => exact h2 _ h
              | words _ _ e => cases e
              | file => exact hd ⟨_, _, rfl⟩
              | fileAt => exact hd ⟨_, _, rfl⟩

theorem main_given {permute : Bool} {pl : Place} {faceUri : Text → Option String} {sec : SecEnv} {args : List Text} {es : List Eff}
    (h : Given permute args es) (d : Disk) : main permute pl faceUri sec args d =
      match load pl faceUri sec (fileOf es) d with
      | (d, .refused) => (d, .exit 2)
      | (d, .aborted) => (d, .aborted)
      | (d, .done p s) => (d, .run p s) := by
  unfold main
  rw [getopt_given h, options_gots]
  rfl

/-- C111: exactly the command lines that ask for help or the version, with nothing wrong before that, end with status 0 and do
nothing; one that cannot be understood ends with status 2 and does nothing either. -/
theorem C111_options (permute : Bool) (pl : Place) (faceUri : Text → Option String) (sec : SecEnv) (args : List Text) (d : Disk) :
    ((main permute pl faceUri sec args d).2 = .exit 0 ↔ Asks permute args) ∧
    (Asks permute args → (main permute pl faceUri sec args d).1 = d) ∧
    (¬ Asks permute args → (∀ es, ¬ Given permute args es) → main permute pl faceUri sec args d = (d, .exit 2)) := by
  rcases kinds permute args.length args (Nat.le_refl _) with ⟨es, h⟩ | ⟨h1, h2⟩ | ⟨h1, h2, h3⟩
  · have hm := main_given (pl := pl) (faceUri := faceUri) (sec := sec) h d
    have hna : ¬ Asks permute args := by
      have key : ∀ {args : List Text} {es : List Eff}, Given permute args es → ¬ Asks permute args := by
        intro args es h
        induction h with
        | nil => intro e; cases e
        | stop r =>
          intro e
          cases e with
          | here _ _ hc => rcases hc with hc | hc <;> cases hc
          | word ha => exact ha ⟨_, _, rfl⟩
        | word ha hp _ ih =>
          intro e
          cases e with
          | here => exact ha ⟨_, _, rfl⟩
          | word _ _ h => exact ih h
          | file => exact ha ⟨_, _, rfl⟩
          | fileAt => exact ha ⟨_, _, rfl⟩
        | words r ha hp =>
          intro e
          cases e with
          | here => exact ha ⟨_, _, rfl⟩
          | word _ hp' => rw [hp] at hp'; cases hp'
          | file => exact ha ⟨_, _, rfl⟩
          | fileAt => exact ha ⟨_, _, rfl⟩
        | file t _ ih =>
          intro e
          cases e with
          | here _ _ hc => rcases hc with hc | hc <;> cases hc
          | word ha => exact ha ⟨_, _, rfl⟩
          | file _ h => exact ih h
          | fileAt ht => exact ht rfl
        | fileAt ht _ ih =>
          intro e
          cases e with
          | here _ _ hc => rcases hc with hc | hc <;> cases hc
          | word ha => exact ha ⟨_, _, rfl⟩
          | file => exact ht rfl
          | fileAt _ h => exact ih h
      exact key h
    refine ⟨⟨fun e => ?_, fun e => absurd e hna⟩, fun e => absurd e hna, fun _ e => absurd h (e es)⟩
    rw [hm] at e
    exfalso
    generalize load pl faceUri sec (fileOf es) d = q at e
    obtain ⟨d', r⟩ := q
    cases r <;> cases e
  · have hm : main permute pl faceUri sec args d = (d, .exit 0) := by unfold main; rw [h2]
    rw [hm]
    exact ⟨⟨fun _ => h1, fun _ => rfl⟩, fun _ => rfl, fun e => absurd h1 e⟩
  · have hm : main permute pl faceUri sec args d = (d, .exit 2) := by unfold main; rw [h3]
    rw [hm]
    exact ⟨⟨fun e => (by cases e), fun e => absurd e h1⟩, fun _ => rfl, fun _ _ => rfl⟩

theorem section_conf {pl : Place} {faceUri : Text → Option String} {sec : SecEnv} {conf name : Text} {t : Tree} {p : Params}
    {s : Security} {d : Disk} (hseq : ∀ dir, pl.real (join dir "test.seq") ≠ pl.real conf) :
    (section_ pl faceUri sec conf name t p s d).1 (pl.real conf) = d (pl.real conf) := by
  rcases section_disk (pl := pl) (faceUri := faceUri) (sec := sec) (conf := conf) (name := name) (t := t) (p := p) (s := s) (d := d) with
    h | ⟨-, dir, -, h⟩
  · rw [h]
  · rw [h]
    rcases prepare_disk pl conf dir d (pl.real conf) with h | ⟨h, -⟩ | ⟨-, h, -⟩
    · exact h
    · exact absurd h.symm (hseq dir)
    · exact absurd rfl h

/-- The parameters that loading ended with. -/
def params? : Disk × Loaded → Option Params
  | (_, .done p _) => some p
  | _ => none

theorem sections_sim {pl : Place} {faceUri : Text → Option String} {sec : SecEnv} {conf : Text}
    (hseq : ∀ dir, pl.real (join dir "test.seq") ≠ pl.real conf) : ∀ (xs : List (Text × Tree)) (p : Params) (s : Security) (d : Disk),
    d (pl.real conf) ≠ none →
    params? (sections pl faceUri sec conf xs p s d) = Conf.sections (envOf pl faceUri sec conf) xs p ∧
      (sections pl faceUri sec conf xs p s d).1 (pl.real conf) = d (pl.real conf)
  | [], p, s, d, _ => ⟨rfl, rfl⟩
  | x :: xs, p, s, d, hd => by
    have h1 := section_sim (faceUri := faceUri) (sec := sec) (name := x.1) (t := x.2) (p := p) (s := s) hd
    have h2 := section_conf (faceUri := faceUri) (sec := sec) (name := x.1) (t := x.2) (p := p) (s := s) (d := d) hseq
    unfold sections Conf.sections
    rw [← h1]
    generalize section_ pl faceUri sec conf x.1 x.2 p s d = q at h2 ⊢
    obtain ⟨d', r⟩ := q
    cases r with
    | refused => exact ⟨rfl, h2⟩
    | aborted => exact ⟨rfl, h2⟩
    | done p' s' =>
      obtain ⟨i1, i2⟩ := sections_sim hseq xs p' s' d' (by intro e; exact hd (h2.symm.trans e))
      exact ⟨i1, i2.trans h2⟩

/-- C111: the daemon runs exactly if the command line can be read and the configuration file named last can be read, parsed and
accepted; and then it runs with the parameters that file gives (what these are is C72, C73, C74, C98 and C107). -/
theorem C111_runs (permute : Bool) (pl : Place) (faceUri : Text → Option String) (sec : SecEnv) (args : List Text) (d : Disk)
    (hseq : ∀ es, Given permute args es → ∀ dir, pl.real (join dir "test.seq") ≠ pl.real (fileOf es)) (p : Params) :
    (∃ d' s, main permute pl faceUri sec args d = (d', .run p s)) ↔
      ∃ es v t, Given permute args es ∧ d (pl.real (fileOf es)) = some v ∧ pl.parse v = some t ∧
        Conf.load (envOf pl faceUri sec (fileOf es)) t = some p := by
  have key : ∀ es, Given permute args es → ((∃ d' s, main permute pl faceUri sec args d = (d', .run p s)) ↔
      ∃ v t, d (pl.real (fileOf es)) = some v ∧ pl.parse v = some t ∧ Conf.load (envOf pl faceUri sec (fileOf es)) t = some p) := by
    intro es h
    rw [main_given h d]
    unfold load
    cases hv : d (pl.real (fileOf es)) with
    | none =>
      constructor
      · rintro ⟨d', s, e⟩; cases e
      · rintro ⟨v, t, e, -⟩; cases e
    | some v =>
      dsimp only
      cases ht : pl.parse v with
      | none =>
        constructor
        · rintro ⟨d', s, e⟩; cases e
        · rintro ⟨v', t, e, e', -⟩; cases e; rw [ht] at e'; cases e'
      | some t =>
        have hs := (sections_sim (faceUri := faceUri) (sec := sec) (hseq es h) t.kids {} {} d (by rw [hv]; simp)).1
        dsimp only
        generalize sections pl faceUri sec (fileOf es) t.kids {} {} d = q at hs
        obtain ⟨d', r⟩ := q
        constructor
        · rintro ⟨d2, s, e⟩
          refine ⟨v, t, rfl, ht, ?_⟩
          unfold Conf.load
          rw [← hs]
          cases r with
          | refused => cases e
          | aborted => cases e
          | done p' s' => cases e; rfl
        · rintro ⟨v', t', e, e', hl⟩
          cases e
          rw [ht] at e'
          cases e'
          unfold Conf.load at hl
          rw [← hs] at hl
          cases r with
          | refused => cases hl
          | aborted => cases hl
          | done p' s' =>
            have : Conf.buildPrefixes p' = p := Option.some.inj hl
            subst this
            exact ⟨d', s', rfl⟩
  constructor
  · intro hm
    rcases kinds permute args.length args (Nat.le_refl _) with ⟨es, h⟩ | ⟨-, h2⟩ | ⟨-, -, h3⟩
    · obtain ⟨v, t, h1, h2, h3⟩ := (key es h).1 hm
      exact ⟨es, v, t, h, h1, h2, h3⟩
    · obtain ⟨d', s, e⟩ := hm
      unfold main at e
      rw [h2] at e
      cases e
    · obtain ⟨d', s, e⟩ := hm
      unfold main at e
      rw [h3] at e
      cases e
  · rintro ⟨es, v, t, h, h1, h2, h3⟩
    exact (key es h).2 ⟨v, t, h1, h2, h3⟩

/-- A section that throws. -/
def Throws (sec : SecEnv) (t : Tree) : Prop := ∃ x ∈ t.kids, x.1 = "security".toList ∧ Security.load sec x.2 {} = .aborted

theorem sections_throws {pl : Place} {faceUri : Text → Option String} {sec : SecEnv} {conf : Text} :
    ∀ (xs : List (Text × Tree)) (p : Params) (s : Security) (d : Disk), (sections pl faceUri sec conf xs p s d).2 = .aborted →
      ∃ x ∈ xs, x.1 = "security".toList ∧ Security.load sec x.2 {} = .aborted
  | [], p, s, d, h => by cases h
  | x :: xs, p, s, d, h => by
    unfold sections at h
    generalize hq : section_ pl faceUri sec conf x.1 x.2 p s d = q at h
    obtain ⟨d', r⟩ := q
    cases r with
    | refused => cases h
    | aborted =>
      refine ⟨x, List.mem_cons_self, ?_⟩
      unfold section_ at hq
      split at hq
      · split at hq <;> cases hq
      · split at hq
        · rename_i hx
          refine ⟨hx, ?_⟩
          generalize hl : Security.load sec x.2 s = r at hq
          cases r with
          | refused => cases hq
          | aborted => exact ((load_kind sec x.2 s {}).2.1 hl)
          | done s => cases hq
        · split at hq <;> cases hq
    | done p' s' =>
      obtain ⟨y, hy, h⟩ := sections_throws xs p' s' d' h
      exact ⟨y, List.mem_cons_of_mem _ hy, h⟩

/-- C111 but for security sections that throw: if the daemon does not run it ends with status 2 (or 0, see `C111_options`).
Missing: those sections (`C111_violated_aborted`). -/
theorem C111_status_partial (permute : Bool) (pl : Place) (faceUri : Text → Option String) (sec : SecEnv) (args : List Text) (d : Disk)
    (ht : ∀ es v t, Given permute args es → d (pl.real (fileOf es)) = some v → pl.parse v = some t → ¬ Throws sec t) :
    (∃ p s, (main permute pl faceUri sec args d).2 = .run p s) ∨ (main permute pl faceUri sec args d).2 = .exit 2 ∨
      ((main permute pl faceUri sec args d).2 = .exit 0 ∧ Asks permute args) := by
  rcases kinds permute args.length args (Nat.le_refl _) with ⟨es, h⟩ | ⟨h1, h2⟩ | ⟨-, -, h3⟩
  · have ht := ht es
    rw [main_given h d]
    unfold load
    cases hv : d (pl.real (fileOf es)) with
    | none => exact Or.inr (Or.inl rfl)
    | some v =>
      dsimp only
      cases hp : pl.parse v with
      | none => exact Or.inr (Or.inl rfl)
      | some t =>
        dsimp only
        have hn := ht v t h hv hp
        have ha := sections_throws (pl := pl) (faceUri := faceUri) (sec := sec) (conf := fileOf es) t.kids {} {} d
        generalize sections pl faceUri sec (fileOf es) t.kids {} {} d = q at ha
        obtain ⟨d', r⟩ := q
        cases r with
        | refused => exact Or.inr (Or.inl rfl)
        | aborted => exact absurd (ha rfl) hn
        | done p s => exact Or.inl ⟨_, _, rfl⟩
  · refine Or.inr (Or.inr ⟨?_, h1⟩)
    unfold main; rw [h2]
  · right; left
    unfold main; rw [h3]

theorem sections_disk {pl : Place} {faceUri : Text → Option String} {sec : SecEnv} {conf : Text} (x : Text) :
    ∀ (xs : List (Text × Tree)) (p : Params) (s : Security) (d : Disk), (sections pl faceUri sec conf xs p s d).1 x ≠ d x →
      ∃ y ∈ xs, y.1 = "general".toList ∧ ∃ dir, Conf.lookup "state-dir" y.2 = some dir ∧
        (x = pl.real (join dir "test.seq") ∨ (x = pl.real (join dir "nlsr.conf") ∧ x ≠ pl.real conf))
  | [], p, s, d, h => absurd rfl h
  | y :: ys, p, s, d, h => by
    by_cases hc : (section_ pl faceUri sec conf y.1 y.2 p s d).1 x = d x
    · unfold sections at h
      generalize section_ pl faceUri sec conf y.1 y.2 p s d = q at h hc
      obtain ⟨d', r⟩ := q
      dsimp only at hc
      cases r with
      | refused => exact absurd hc h
      | aborted => exact absurd hc h
      | done p' s' =>
        obtain ⟨z, hz, h⟩ := sections_disk x ys p' s' d' (by intro e; exact h (e.trans hc))
        exact ⟨z, List.mem_cons_of_mem _ hz, h⟩
    · rcases section_disk (pl := pl) (faceUri := faceUri) (sec := sec) (conf := conf) (name := y.1) (t := y.2) (p := p) (s := s) (d := d) with
        e | ⟨hg, dir, hdir, e⟩
      · rw [e] at hc; exact absurd rfl hc
      · refine ⟨y, List.mem_cons_self, hg, dir, hdir, ?_⟩
        rw [e] at hc
        rcases prepare_disk pl conf dir d x with h | ⟨h, -⟩ | ⟨h, h', -⟩
        · exact absurd h hc
        · exact Or.inl h
        · exact Or.inr ⟨h, h'⟩

theorem files_join (permute : Bool) (pl : Place) (faceUri : Text → Option String) (sec : SecEnv) (args : List Text) (d : Disk) (x : Text)
    (hx : (main permute pl faceUri sec args d).1 x ≠ d x) :
    ∃ es v t y dir, Given permute args es ∧ d (pl.real (fileOf es)) = some v ∧ pl.parse v = some t ∧ y ∈ t.kids ∧
      y.1 = "general".toList ∧ Conf.lookup "state-dir" y.2 = some dir ∧
      (x = pl.real (join dir "test.seq") ∨ (x = pl.real (join dir "nlsr.conf") ∧ x ≠ pl.real (fileOf es))) := by
  rcases kinds permute args.length args (Nat.le_refl _) with ⟨es, h⟩ | ⟨h1, h2⟩ | ⟨-, -, h3⟩
  · rw [main_given h d] at hx
    unfold load at hx
    cases hv : d (pl.real (fileOf es)) with
    | none => rw [hv] at hx; exact absurd rfl hx
    | some v =>
      rw [hv] at hx
      dsimp only at hx
      cases hp : pl.parse v with
      | none => rw [hp] at hx; exact absurd rfl hx
      | some t =>
        rw [hp] at hx
        dsimp only at hx
        have hs := sections_disk (pl := pl) (faceUri := faceUri) (sec := sec) (conf := fileOf es) x t.kids {} {} d
        generalize sections pl faceUri sec (fileOf es) t.kids {} {} d = q at hs hx
        obtain ⟨d', r⟩ := q
        have hx' : d' x ≠ d x := by cases r <;> exact hx
        obtain ⟨y, hy, hg, dir, hdir, h'⟩ := hs hx'
        exact ⟨es, v, t, y, dir, h, hv, hp, hy, hg, hdir, h'⟩
  · unfold main at hx; rw [h2] at hx; exact absurd rfl hx
  · unfold main at hx; rw [h3] at hx; exact absurd rfl hx

theorem sections_split {pl : Place} {faceUri : Text → Option String} {sec : SecEnv} {conf : Text} :
    ∀ (xs ys : List (Text × Tree)) (p p' : Params) (s s' : Security) (d d' : Disk),
      sections pl faceUri sec conf (xs ++ ys) p s d = (d', .done p' s') →
      ∃ d1 p1 s1, sections pl faceUri sec conf xs p s d = (d1, .done p1 s1) ∧ sections pl faceUri sec conf ys p1 s1 d1 = (d', .done p' s')
  | [], ys, p, p', s, s', d, d', h => ⟨d, p, s, rfl, h⟩
  | x :: xs, ys, p, p', s, s', d, d', h => by
    rw [List.cons_append] at h
    unfold sections at h
    cases hq : section_ pl faceUri sec conf x.1 x.2 p s d with
    | mk d1 r =>
    rw [hq] at h
    cases r with
    | refused => cases h
    | aborted => cases h
    | done p1 s1 =>
      obtain ⟨d2, p2, s2, e1, e2⟩ := sections_split xs ys p1 p' s1 s' d1 d' h
      refine ⟨d2, p2, s2, ?_, e2⟩
      rw [sections, hq]
      exact e1

theorem copy_join (permute : Bool) (pl : Place) (faceUri : Text → Option String) (sec : SecEnv) (args : List Text) (d d' : Disk)
    (p : Params) (s : Security) (hm : main permute pl faceUri sec args d = (d', .run p s)) :
    ∃ es v t, Given permute args es ∧ d (pl.real (fileOf es)) = some v ∧ pl.parse v = some t ∧
      ∀ y, OnlySection t "general" y → ∃ dir, Conf.lookup "state-dir" y.2 = some dir ∧
        (pl.real (join dir "nlsr.conf") ≠ pl.real (join dir "test.seq") → d' (pl.real (join dir "nlsr.conf")) = some v) := by
  rcases kinds permute args.length args (Nat.le_refl _) with ⟨es, h⟩ | ⟨h1, h2⟩ | ⟨-, -, h3⟩
  · rw [main_given h d] at hm
    unfold load at hm
    cases hv : d (pl.real (fileOf es)) with
    | none => rw [hv] at hm; cases hm
    | some v =>
      rw [hv] at hm
      dsimp only at hm
      cases hp : pl.parse v with
      | none => rw [hp] at hm; cases hm
      | some t =>
        rw [hp] at hm
        dsimp only at hm
        generalize hq : sections pl faceUri sec (fileOf es) t.kids {} {} d = q at hm
        obtain ⟨d2, r⟩ := q
        cases r with
        | refused => cases hm
        | aborted => cases hm
        | done p2 s2 =>
          have hd2 : d2 = d' := by cases hm; rfl
          subst hd2
          refine ⟨es, v, t, h, hv, hp, fun y hy => ?_⟩
          obtain ⟨hyn, pre, post, hkids, hpre, hpost⟩ := hy.split
          rw [hkids] at hq
          obtain ⟨d1, p1, s1, e1, e2⟩ := sections_split _ _ _ _ _ _ _ _ hq
          have same : ∀ (zs : List (Text × Tree)) p s d d' p' s', (∀ z ∈ zs, z.1 ≠ "general".toList) →
              sections pl faceUri sec (fileOf es) zs p s d = (d', .done p' s') → d' = d := by
            intro zs p s d d' p' s' hz e
            funext x
            apply Classical.byContradiction
            intro hx
            have := sections_disk (pl := pl) (faceUri := faceUri) (sec := sec) (conf := fileOf es) x zs p s d (by rw [e]; exact hx)
            obtain ⟨z, hz', hg, -⟩ := this
            exact hz z hz' hg
          have hd1 : d1 = d := same _ _ _ _ _ _ _ hpre e1
          subst hd1
          unfold sections at e2
          generalize hsec : section_ pl faceUri sec (fileOf es) y.1 y.2 p1 s1 d1 = q at e2
          obtain ⟨d3, r⟩ := q
          cases r with
          | refused => cases e2
          | aborted => cases e2
          | done p3 s3 =>
            have hd3 : d2 = d3 := same _ _ _ _ _ _ _ hpost e2
            subst hd3
            unfold section_ at hsec
            rw [if_pos hyn] at hsec
            generalize hg : general pl (fileOf es) y.2 p1 d1 = q at hsec
            obtain ⟨d4, o⟩ := q
            cases o with
            | none => cases hsec
            | some p4 =>
              have hd4 : d4 = d2 := by cases hsec; rfl
              subst hd4
              obtain ⟨dir, hdir, -, hprep⟩ := general_prepared hg
              refine ⟨dir, hdir, fun hne => ?_⟩
              have := prepare_copy (pl := pl) (conf := fileOf es) (dir := dir) (d := d1) (by rw [hv]; simp) (by rw [hprep]) hne
              rw [hprep] at this
              exact this.trans hv
  · unfold main at hm; rw [h2] at hm; cases hm
  · unfold main at hm; rw [h3] at hm; cases hm

/-- `f` is the path of the file `name` in the directory `dir` (the empty path: the current directory). -/
def InDir (dir : Text) (name : String) (f : Text) : Prop :=
  (dir = [] ∧ f = name.toList) ∨ (∃ b, dir = b ++ ['/'] ∧ f = b ++ ['/'] ++ name.toList) ∨
    (∃ b c, dir = b ++ [c] ∧ c ≠ '/' ∧ f = b ++ [c] ++ ['/'] ++ name.toList)

theorem join_inDir (dir : Text) (name : String) : InDir dir name (join dir name) := by
  unfold join
  rcases List.eq_nil_or_concat dir with rfl | ⟨b, c, rfl⟩
  · exact Or.inl ⟨rfl, by simp⟩
  · by_cases hc : c = '/'
    · subst hc
      exact Or.inr (Or.inl ⟨b, by simp, by simp⟩)
    · exact Or.inr (Or.inr ⟨b, c, by simp, hc, by simp [hc]⟩)

/-- C111: however the start ends, no file is changed but `nlsr.conf` and `test.seq` in a state directory that a general section
of the configuration file names; the configuration file itself is not, unless it is such a `test.seq`. -/
theorem C111_files (permute : Bool) (pl : Place) (faceUri : Text → Option String) (sec : SecEnv) (args : List Text) (d : Disk) (x : Text)
    (hx : (main permute pl faceUri sec args d).1 x ≠ d x) :
    ∃ es v t y dir f, Given permute args es ∧ d (pl.real (fileOf es)) = some v ∧ pl.parse v = some t ∧ y ∈ t.kids ∧
      y.1 = "general".toList ∧ Conf.lookup "state-dir" y.2 = some dir ∧ x = pl.real f ∧
      (InDir dir "test.seq" f ∨ (InDir dir "nlsr.conf" f ∧ x ≠ pl.real (fileOf es))) := by
  obtain ⟨es, v, t, y, dir, h1, h2, h3, h4, h5, h6, h | ⟨h, hn⟩⟩ := files_join permute pl faceUri sec args d x hx
  · exact ⟨es, v, t, y, dir, _, h1, h2, h3, h4, h5, h6, h, Or.inl (join_inDir _ _)⟩
  · exact ⟨es, v, t, y, dir, _, h1, h2, h3, h4, h5, h6, h, Or.inr ⟨join_inDir _ _, hn⟩⟩

/-- C111: when the daemon runs, with a file that has one general section, the state directory it names holds a copy of that file:
what the daemon's update commands go on to change (C49) is the configuration it was started with. -/
theorem C111_copy (permute : Bool) (pl : Place) (faceUri : Text → Option String) (sec : SecEnv) (args : List Text) (d d' : Disk)
    (p : Params) (s : Security) (hm : main permute pl faceUri sec args d = (d', .run p s)) :
    ∃ es v t, Given permute args es ∧ d (pl.real (fileOf es)) = some v ∧ pl.parse v = some t ∧
      ∀ y, OnlySection t "general" y → ∃ dir f g, Conf.lookup "state-dir" y.2 = some dir ∧ InDir dir "nlsr.conf" f ∧
        InDir dir "test.seq" g ∧ (pl.real f ≠ pl.real g → d' (pl.real f) = some v) := by
  obtain ⟨es, v, t, h1, h2, h3, h⟩ := copy_join permute pl faceUri sec args d d' p s hm
  refine ⟨es, v, t, h1, h2, h3, fun y hy => ?_⟩
  obtain ⟨dir, hd, hc⟩ := h y hy
  exact ⟨dir, _, _, hd, join_inDir _ _, join_inDir _ _, hc⟩

/-! ### examples -/

/-- A command line. -/
def line (l : List String) : List Text := l.map String.toList

/-- What is saved from the last run, what is to be started with, and the latter with a mistake in its last section. -/
def exTree (fib : String) (adv : List (String × String)) : Tree :=
  .node [] [exGeneral, confSection "fib" [("max-faces-per-prefix", fib)], confSection "advertising" adv]

/-- Three files, everything can be written. -/
def exPlace : Place where
  real := id
  dir := fun t => if t = "/var/lib/nlsr".toList then some true else none
  canWrite := fun _ => true
  parse := fun v =>
    if v = "saved".toList then some (exTree "3" [("/a", "1"), ("/b", "1")])
    else if v = "good".toList then some (exTree "3" [("/a", "1")])
    else if v = "wrong".toList then some (exTree "61" [("/a", "1")])
    else if v = "lost".toList then some (.node [] [exGeneral, ("security".toList, .node [] [confLeaf "validator" "",
      confLeaf "prefix-update-validator" "", confLeaf "cert-to-publish" "site.cert"])])
    else none

def exSec : SecEnv := ⟨fun _ => true, fun _ => .missing⟩

def exDisk : Disk := fun t =>
  if t = "/var/lib/nlsr/nlsr.conf".toList then some "saved".toList
  else if t = "nlsr.conf".toList then some "good".toList
  else if t = "/etc/new.conf".toList then some "wrong".toList
  else if t = "/etc/lost.conf".toList then some "lost".toList
  else none

def exUri : Text → Option String := fun t => some (String.ofList t)

/-- What can be compared of an outcome. -/
def shown : Disk × Start → Option Text × Option Nat × Option (Name × List Name)
  | (d, .exit n) => (d "/var/lib/nlsr/nlsr.conf".toList, some n, none)
  | (d, .aborted) => (d "/var/lib/nlsr/nlsr.conf".toList, none, none)
  | (d, .run p _) => (d "/var/lib/nlsr/nlsr.conf".toList, none, some (p.routerPrefix, p.npl.names))

/-- No `test.seq` is the configuration file. -/
theorem exPlace_seq (es : List Eff) (hf : (fileOf es).getLast? = some 'f') (dir : Text) :
    exPlace.real (join dir "test.seq") ≠ exPlace.real (fileOf es) := by
  intro e
  have e : join dir "test.seq" = fileOf es := e
  rw [← e] at hf
  have : (join dir "test.seq").getLast? = some 'q' := by
    unfold join
    split <;> rw [List.getLast?_append] <;> rfl
  rw [this] at hf
  cases hf

example : (shown (main true exPlace exUri exSec (line []) exDisk)).1 = some "good".toList ∧
    (shown (main true exPlace exUri exSec (line []) exDisk)).2.2.map (·.2) = some [nm ["a"]] ∧
    shown (main true exPlace exUri exSec (line ["-f", "/etc/lost.conf", "-V"]) exDisk) = (some "saved".toList, some 0, none) ∧
    shown (main true exPlace exUri exSec (line ["-x", "-V"]) exDisk) = (some "saved".toList, some 2, none) ∧
    shown (main true exPlace exUri exSec (line ["-f"]) exDisk) = (some "saved".toList, some 2, none) ∧
    Given true (line ["-f", "/etc/lost.conf", "-fnlsr.conf"]) [.file "/etc/lost.conf".toList, .file "nlsr.conf".toList] ∧
    (shown (main true exPlace exUri exSec (line ["-f", "/etc/lost.conf", "-fnlsr.conf"]) exDisk)).2.2.map (·.2) = some [nm ["a"]] ∧
    (∀ dir, exPlace.real (join dir "test.seq") ≠ exPlace.real (fileOf [.file "/etc/lost.conf".toList, .file "nlsr.conf".toList])) ∧
    Asks true (line ["-f", "/etc/lost.conf", "-V"]) := by
  refine ⟨by decide +kernel, by decide +kernel, by decide +kernel, by decide +kernel, by decide +kernel, .file _ (.fileAt (by decide) .nil),
    by decide +kernel, exPlace_seq _ (by decide +kernel), .file _ (.here _ _ (Or.inr rfl))⟩

/-- C111 fails for words that are not options: `nlsr /etc/new.conf` does not complain, it starts with `nlsr.conf`. -/
theorem C111_violated_words : ∃ (pl : Place) (d : Disk) (es : List Eff) (p : Params),
    Given true (line ["/etc/new.conf"]) es ∧ fileOf es = "nlsr.conf".toList ∧
    (main true pl exUri exSec (line ["/etc/new.conf"]) d).2 = .run p {} ∧ p.npl.names = [nm ["a"]] := by
  have h : (shown (main true exPlace exUri exSec (line ["/etc/new.conf"]) exDisk)).2.2.map (·.2) = some [nm ["a"]] := by decide +kernel
  refine ⟨exPlace, exDisk, [.word "/etc/new.conf".toList], ?_⟩
  have hg : Given true (line ["/etc/new.conf"]) [.word "/etc/new.conf".toList] := .word (by rintro ⟨c, cs, e⟩; revert e; simp) rfl .nil
  generalize hm : main true exPlace exUri exSec (line ["/etc/new.conf"]) exDisk = q at h
  obtain ⟨d', r⟩ := q
  cases r with
  | exit n => cases h
  | aborted => cases h
  | run p s =>
    refine ⟨p, hg, by decide +kernel, ?_, Option.some.inj h⟩
    have hs : (match (main true exPlace exUri exSec (line ["/etc/new.conf"]) exDisk).2 with
      | .run _ s => s.validator.isNone && s.updates.isNone && s.paths.isEmpty && s.publish.isEmpty && s.anchors.isEmpty
      | _ => false) = true := by decide +kernel
    rw [hm] at hs
    obtain ⟨v, u, ps, pb, an⟩ := s
    simp only [Bool.and_eq_true, Option.isNone_iff_eq_none, List.isEmpty_iff] at hs
    obtain ⟨⟨⟨⟨rfl, rfl⟩, rfl⟩, rfl⟩, rfl⟩ := hs
    rfl

/-- C111 fails for a certificate that is not there: the exception is not caught, so instead of a message and status 2 the daemon is
aborted. -/
theorem C111_violated_aborted : ∃ (pl : Place) (sec : SecEnv) (d : Disk),
    (main true pl exUri sec (line ["-f", "/etc/lost.conf"]) d).2 = .aborted := by
  refine ⟨exPlace, exSec, exDisk, ?_⟩
  have h : shown (main true exPlace exUri exSec (line ["-f", "/etc/lost.conf"]) exDisk) = (some "lost".toList, none, none) := by decide +kernel
  have h := congrArg (·.2) h
  generalize main true exPlace exUri exSec (line ["-f", "/etc/lost.conf"]) exDisk = q at h
  obtain ⟨d', r⟩ := q
  cases r with
  | exit n => cases h
  | aborted => rfl
  | run p s => cases h

/-- C111 fails for a file that is refused late: the daemon ends with status 2, but by then the file in the state directory, with the
prefixes saved in the last run, has been overwritten. -/
theorem C111_violated_saved : ∃ (pl : Place) (d : Disk),
    (d (pl.real "/var/lib/nlsr/nlsr.conf".toList)).bind pl.parse = some (exTree "3" [("/a", "1"), ("/b", "1")]) ∧
    (main true pl exUri exSec (line ["-f", "/etc/new.conf"]) d).2 = .exit 2 ∧
    (((main true pl exUri exSec (line ["-f", "/etc/new.conf"]) d).1 (pl.real "/var/lib/nlsr/nlsr.conf".toList)).bind pl.parse) =
      some (exTree "61" [("/a", "1")]) := by
  refine ⟨exPlace, exDisk, by rfl, ?_, ?_⟩
  · have h : shown (main true exPlace exUri exSec (line ["-f", "/etc/new.conf"]) exDisk) = (some "wrong".toList, some 2, none) := by
      decide +kernel
    have h := congrArg (·.2) h
    generalize main true exPlace exUri exSec (line ["-f", "/etc/new.conf"]) exDisk = q at h
    obtain ⟨d', r⟩ := q
    cases r with
    | exit n => cases h; rfl
    | aborted => cases h
    | run p s => cases h
  · have h : (main true exPlace exUri exSec (line ["-f", "/etc/new.conf"]) exDisk).1 "/var/lib/nlsr/nlsr.conf".toList = some "wrong".toList := by
      decide +kernel
    show ((main true exPlace exUri exSec (line ["-f", "/etc/new.conf"]) exDisk).1 "/var/lib/nlsr/nlsr.conf".toList).bind _ = _
    rw [h]
    rfl

end Nlsr.Boot
