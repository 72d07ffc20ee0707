import Verif.Model.NlsrcMain
import Verif.Props.NlsrcData
/- C97: the command line of nlsrc, and what it believes. -/
namespace Nlsr.Nlsrc
open Tlv Wire Getopt CacheWitness

/-- What one item of a command line is for. -/
inductive Eff
  /-- `-k` -/
  | insecure
  /-- `-R` -/
  | router (t : Text)
  /-- `-c` -/
  | conf (t : Text)
  /-- a word of the command -/
  | word (t : Text)
deriving DecidableEq, Repr

/-- A word that `getopt` takes for options. -/
def Dash (a : Text) : Prop := ∃ c cs, a = '-' :: c :: cs

/-- How a command line is to be read: `-k`, `-R name`, `-Rname`, `-c file`, `-cfile`, several letters in one word, `--` before
words that are not options; with `permute`, options may come after words of the command. -/
inductive Reads (permute : Bool) : List Text → List Eff → Prop
  | nil : Reads permute [] []
  | stop (r : List Text) : Reads permute (['-', '-'] :: r) (r.map .word)
  | word {a : Text} {r : List Text} {es : List Eff} (ha : ¬ Dash a) (hp : permute = true) (h : Reads permute r es) :
      Reads permute (a :: r) (.word a :: es)
  | words {a : Text} (r : List Text) (ha : ¬ Dash a) (hp : permute = false) : Reads permute (a :: r) ((a :: r).map .word)
  | k {r : List Text} {es : List Eff} (h : Reads permute r es) : Reads permute (['-', 'k'] :: r) (.insecure :: es)
  | more {c : Char} {cs : Text} {r : List Text} {es : List Eff} (hc : c ≠ '-') (h : Reads permute (('-' :: c :: cs) :: r) es) :
      Reads permute (('-' :: 'k' :: c :: cs) :: r) (.insecure :: es)
  | router (t : Text) {r : List Text} {es : List Eff} (h : Reads permute r es) : Reads permute (['-', 'R'] :: t :: r) (.router t :: es)
  | routerAt {t : Text} {r : List Text} {es : List Eff} (ht : t ≠ []) (h : Reads permute r es) :
      Reads permute (('-' :: 'R' :: t) :: r) (.router t :: es)
  | conf (t : Text) {r : List Text} {es : List Eff} (h : Reads permute r es) : Reads permute (['-', 'c'] :: t :: r) (.conf t :: es)
  | confAt {t : Text} {r : List Text} {es : List Eff} (ht : t ≠ []) (h : Reads permute r es) :
      Reads permute (('-' :: 'c' :: t) :: r) (.conf t :: es)

/-- The words of the command. -/
def wordsOf (es : List Eff) : List Text := es.filterMap (fun | .word t => some t | _ => none)

/-- The router named last, `/localhost` if none is. -/
def routerOf (es : List Eff) : Text := (es.filterMap (fun | .router t => some t | _ => none)).getLast?.getD "/localhost".toList

/-- The configuration file named last. -/
def confOf (dflt : Text) (es : List Eff) : Text := (es.filterMap (fun | .conf t => some t | _ => none)).getLast?.getD dflt

/-- The options as `getopt` gives them. -/
def gotsOf (es : List Eff) : List Got :=
  es.filterMap (fun | .insecure => some (.opt 'k' none) | .router t => some (.opt 'R' (some t)) | .conf t => some (.opt 'c' (some t))
                    | .word _ => none)

theorem not_dash {a : Text} (h : ¬ Dash a) : a ≠ ['-', '-'] ∧ ¬ (a.head? = some '-' ∧ a ≠ ['-']) := by
  constructor
  · rintro rfl; exact h ⟨_, _, rfl⟩
  · rintro ⟨h1, h2⟩
    cases a with
    | nil => cases h1
    | cons x xs =>
      cases xs with
      | nil => simp at h1; subst h1; exact h2 rfl
      | cons y ys => simp at h1; subst h1; exact h ⟨_, _, rfl⟩

theorem words_map (l : List Text) : wordsOf (l.map .word) = l ∧ gotsOf (l.map .word) = [] := by
  constructor
  · unfold wordsOf; induction l with
    | nil => rfl
    | cons a l ih => rw [List.map_cons, List.filterMap_cons]; dsimp only; rw [ih]
  · unfold gotsOf; induction l with
    | nil => rfl
    | cons a l ih => rw [List.map_cons, List.filterMap_cons]; dsimp only; rw [ih]

theorem getopt_dash (permute : Bool) (c : Char) (cs : Text) (r : List Text) (h : ('-' :: c :: cs : Text) ≠ ['-', '-']) :
    getopt takes permute (('-' :: c :: cs) :: r) =
      match cluster takes (c :: cs) with
      | (g, none) => (g ++ (getopt takes permute r).1, (getopt takes permute r).2)
      | (g, some c) =>
        match r with
        | [] => (g ++ [.bad], [])
        | b :: r' => (g ++ .opt c (some b) :: (getopt takes permute r').1, (getopt takes permute r').2) := by
  rw [getopt]
  rw [if_neg h, if_pos ⟨rfl, by simp⟩]
  rfl

theorem getopt_word (permute : Bool) (a : Text) (r : List Text) (h : ¬ Dash a) :
    getopt takes permute (a :: r) = if permute then ((getopt takes permute r).1, a :: (getopt takes permute r).2) else ([], a :: r) := by
  rw [getopt]
  rw [if_neg (not_dash h).1, if_neg (not_dash h).2]

/-- The C library reads a command line as `Reads` says. -/
theorem getopt_of_reads {permute : Bool} {args : List Text} {es : List Eff} (h : Reads permute args es) :
    getopt takes permute args = (gotsOf es, wordsOf es) := by
  induction h with
  | nil => rfl
  | stop r =>
    rw [getopt, if_pos rfl, (words_map r).1, (words_map r).2]
  | word ha hp _ ih =>
    rw [getopt_word _ _ _ ha, hp, if_pos rfl, ← hp, ih]
    rfl
  | words r ha hp =>
    rw [getopt_word _ _ _ ha, hp, if_neg (by decide), (words_map _).1, (words_map _).2]
  | k _ ih =>
    rw [getopt_dash _ _ _ _ (by decide)]
    show ((.opt 'k' none :: _ : List Got), _) = _
    rw [ih]
    rfl
  | @more c cs r es hc _ ih =>
    have h1 : ('-' :: c :: cs : Text) ≠ ['-', '-'] := by intro e; simp at e; exact hc e.1
    have h2 : ('-' :: 'k' :: c :: cs : Text) ≠ ['-', '-'] := by intro e; simp at e
    rw [getopt_dash _ _ _ _ h1] at ih
    rw [getopt_dash _ _ _ _ h2]
    have hk : cluster takes ('k' :: c :: cs) = (.opt 'k' none :: (cluster takes (c :: cs)).1, (cluster takes (c :: cs)).2) := rfl
    rw [hk]
    generalize cluster takes (c :: cs) = x at ih ⊢
    obtain ⟨g, o⟩ := x
    cases o with
    | none =>
      dsimp only at ih ⊢
      injection ih with i1 i2
      rw [List.cons_append, i1, i2]
      rfl
    | some d =>
      cases r with
      | nil =>
        dsimp only at ih ⊢
        injection ih with i1 i2
        rw [List.cons_append, i1]
        show _ = (_ :: _, wordsOf es)
        rw [← i2]; rfl
      | cons b r' =>
        dsimp only at ih ⊢
        injection ih with i1 i2
        rw [List.cons_append, i1, i2]
        rfl
  | router t _ ih =>
    rw [getopt_dash _ _ _ _ (by decide)]
    show ((.opt 'R' (some t) :: _ : List Got), _) = _
    rw [ih]
    rfl
  | @routerAt t r es ht _ ih =>
    rw [getopt_dash _ _ _ _ (by intro e; simp at e)]
    have hk : cluster takes ('R' :: t) = ([.opt 'R' (some t)], none) := by
      show (if t = [] then _ else _) = _
      rw [if_neg ht]
    rw [hk]
    show ((.opt 'R' (some t) :: _ : List Got), _) = _
    rw [ih]
    rfl
  | conf t _ ih =>
    rw [getopt_dash _ _ _ _ (by decide)]
    show ((.opt 'c' (some t) :: _ : List Got), _) = _
    rw [ih]
    rfl
  | @confAt t r es ht _ ih =>
    rw [getopt_dash _ _ _ _ (by intro e; simp at e)]
    have hk : cluster takes ('c' :: t) = ([.opt 'c' (some t)], none) := by
      show (if t = [] then _ else _) = _
      rw [if_neg ht]
    rw [hk]
    show ((.opt 'c' (some t) :: _ : List Got), _) = _
    rw [ih]
    rfl

/-- Options that `main` goes on after. -/
def Fine (g : List Got) : Prop := .bad ∉ g ∧ ∀ a, .opt 'h' a ∉ g ∧ .opt 'V' a ∉ g

theorem Fine.tail {x : Got} {g : List Got} (h : Fine (x :: g)) : Fine g :=
  ⟨fun e => h.1 (List.mem_cons_of_mem _ e), fun a => ⟨fun e => (h.2 a).1 (List.mem_cons_of_mem _ e), fun e => (h.2 a).2 (List.mem_cons_of_mem _ e)⟩⟩

/-- One word of options. -/
theorem reads_cluster {permute : Bool} (r : List Text) : ∀ (cs : Text) (c : Char), ('-' :: c :: cs : Text) ≠ ['-', '-'] →
    (∀ l : List Text, l.length ≤ r.length → Fine (getopt takes permute l).1 → ∃ es, Reads permute l es) →
    Fine (getopt takes permute (('-' :: c :: cs) :: r)).1 → ∃ es, Reads permute (('-' :: c :: cs) :: r) es := by
  intro cs
  induction cs with
  | nil =>
    intro c hne ih hf
    rw [getopt_dash _ _ _ _ hne] at hf
    by_cases h1 : c = 'h'
    · subst h1; exact absurd (List.mem_cons_self) (hf.2 none).1
    by_cases h2 : c = 'V'
    · subst h2; exact absurd (List.mem_cons_self) (hf.2 none).2
    by_cases h3 : c = 'k'
    · subst h3
      obtain ⟨es, he⟩ := ih r (Nat.le_refl _) (Fine.tail hf)
      exact ⟨_, .k he⟩
    by_cases h4 : c = 'R'
    · subst h4
      cases r with
      | nil => exact absurd List.mem_cons_self hf.1
      | cons b r' =>
        obtain ⟨es, he⟩ := ih r' (by simp) (Fine.tail hf)
        exact ⟨_, .router b he⟩
    by_cases h5 : c = 'c'
    · subst h5
      cases r with
      | nil => exact absurd List.mem_cons_self hf.1
      | cons b r' =>
        obtain ⟨es, he⟩ := ih r' (by simp) (Fine.tail hf)
        exact ⟨_, .conf b he⟩
    have ht : takes c = none := by unfold takes; rw [if_neg (by simp [h1, h2, h3]), if_neg (by simp [h4, h5])]
    have hk : cluster takes [c] = ([.bad], none) := by unfold cluster; rw [ht]; rfl
    rw [hk] at hf
    exact absurd List.mem_cons_self hf.1
  | cons d ds ihc =>
    intro c hne ih hf
    rw [getopt_dash _ _ _ _ hne] at hf
    by_cases h1 : c = 'h'
    · subst h1
      have hk : cluster takes ('h' :: d :: ds) = (.opt 'h' none :: (cluster takes (d :: ds)).1, (cluster takes (d :: ds)).2) := rfl
      rw [hk] at hf
      refine absurd ?_ (hf.2 none).1
      generalize cluster takes (d :: ds) = x
      obtain ⟨g, o⟩ := x
      cases o <;> cases r <;> simp
    by_cases h2 : c = 'V'
    · subst h2
      have hk : cluster takes ('V' :: d :: ds) = (.opt 'V' none :: (cluster takes (d :: ds)).1, (cluster takes (d :: ds)).2) := rfl
      rw [hk] at hf
      refine absurd ?_ (hf.2 none).2
      generalize cluster takes (d :: ds) = x
      obtain ⟨g, o⟩ := x
      cases o <;> cases r <;> simp
    by_cases h3 : c = 'k'
    · subst h3
      have hk : cluster takes ('k' :: d :: ds) = (.opt 'k' none :: (cluster takes (d :: ds)).1, (cluster takes (d :: ds)).2) := rfl
      rw [hk] at hf
      by_cases hd : d = '-'
      · subst hd
        have hk' : cluster takes ('-' :: ds) = (.bad :: (cluster takes ds).1, (cluster takes ds).2) := rfl
        rw [hk'] at hf
        refine absurd ?_ hf.1
        generalize cluster takes ds = x
        obtain ⟨g, o⟩ := x
        cases o <;> cases r <;> simp
      · have hne' : ('-' :: d :: ds : Text) ≠ ['-', '-'] := by intro e; simp at e; exact hd e.1
        have : Fine (getopt takes permute (('-' :: d :: ds) :: r)).1 := by
          rw [getopt_dash _ _ _ _ hne']
          generalize cluster takes (d :: ds) = x at hf ⊢
          obtain ⟨g, o⟩ := x
          cases o with
          | none => exact Fine.tail hf
          | some q => cases r <;> exact Fine.tail hf
        obtain ⟨es, he⟩ := ihc d hne' ih this
        exact ⟨_, .more hd he⟩
    by_cases h4 : c = 'R'
    · subst h4
      obtain ⟨es, he⟩ := ih r (Nat.le_refl _) (Fine.tail hf)
      exact ⟨_, .routerAt (by simp) he⟩
    by_cases h5 : c = 'c'
    · subst h5
      obtain ⟨es, he⟩ := ih r (Nat.le_refl _) (Fine.tail hf)
      exact ⟨_, .confAt (by simp) he⟩
    have ht : takes c = none := by unfold takes; rw [if_neg (by simp [h1, h2, h3]), if_neg (by simp [h4, h5])]
    have hk : cluster takes (c :: d :: ds) = (.bad :: (cluster takes (d :: ds)).1, (cluster takes (d :: ds)).2) := by
      rw [cluster, ht]
    rw [hk] at hf
    refine absurd ?_ hf.1
    generalize cluster takes (d :: ds) = x
    obtain ⟨g, o⟩ := x
    cases o <;> cases r <;> simp

theorem reads_of_getopt {permute : Bool} : ∀ (n : Nat) (args : List Text), args.length ≤ n →
    Fine (getopt takes permute args).1 → ∃ es, Reads permute args es := by
  intro n
  induction n with
  | zero =>
    intro args hl _
    cases args with
    | nil => exact ⟨_, .nil⟩
    | cons a r => simp at hl
  | succ n ih =>
    intro args hl hf
    cases args with
    | nil => exact ⟨_, .nil⟩
    | cons a r =>
      have hr : r.length ≤ n := by simpa using hl
      by_cases hd : Dash a
      · obtain ⟨c, cs, rfl⟩ := hd
        by_cases hs : ('-' :: c :: cs : Text) = ['-', '-']
        · rw [hs]; exact ⟨_, .stop r⟩
        · exact reads_cluster r cs c hs (fun l hl' => ih l (by omega)) hf
      · rw [getopt_word _ _ _ hd] at hf
        cases permute with
        | true =>
          obtain ⟨es, he⟩ := ih r hr hf
          exact ⟨_, .word hd rfl he⟩
        | false => exact ⟨_, .words r hd rfl⟩

theorem options_bad (o : Options) : ∀ (g : List Got) (o' : Options), options o g = .go o' → Fine g
  | [], _, _ => ⟨by simp, fun _ => ⟨by simp, by simp⟩⟩
  | .bad :: _, _, h => by cases h
  | .opt c arg :: gs, o', h => by
    unfold options at h
    by_cases h1 : c = 'h'
    · rw [if_pos h1] at h; cases h
    rw [if_neg h1] at h
    by_cases h2 : c = 'V'
    · rw [if_pos h2] at h; cases h
    rw [if_neg h2] at h
    have key : ∀ o1, options o1 gs = .go o' → Fine (.opt c arg :: gs) := by
      intro o1 e
      have := options_bad o1 gs o' e
      refine ⟨?_, fun a => ⟨?_, ?_⟩⟩
      · intro m; rcases List.mem_cons.1 m with m | m
        · cases m
        · exact this.1 m
      · intro m; rcases List.mem_cons.1 m with m | m
        · cases m; exact h1 rfl
        · exact (this.2 a).1 m
      · intro m; rcases List.mem_cons.1 m with m | m
        · cases m; exact h2 rfl
        · exact (this.2 a).2 m
    by_cases h3 : c = 'R'
    · rw [if_pos h3] at h
      split at h
      · cases h
      · exact key _ h
    rw [if_neg h3] at h
    by_cases h4 : c = 'c'
    · rw [if_pos h4] at h; exact key _ h
    rw [if_neg h4] at h
    by_cases h5 : c = 'k'
    · rw [if_pos h5] at h; exact key _ h
    · rw [if_neg h5] at h; cases h

/-- What the options amount to. -/
theorem options_eq : ∀ (es : List Eff) (o o' : Options), options o (gotsOf es) = .go o' ↔
    (∀ t, .router t ∈ es → Uri.parseName t ≠ none) ∧
    some o'.router = (match (es.filterMap (fun | .router t => some t | _ => none)).getLast? with
      | some t => Uri.parseName t | none => some o.router) ∧
    o'.conf = (es.filterMap (fun | .conf t => some t | _ => none)).getLast?.getD o.conf ∧
    (o'.noVerify = true ↔ o.noVerify = true ∨ .insecure ∈ es)
  | [], o, o' => by
    constructor
    · intro h; cases h; simp
    · rintro ⟨-, h1, h2, h3⟩
      cases o; cases o'
      simp at h1 h2 h3
      show Began.go _ = _
      simp [h1, h2, h3]
  | .word t :: es, o, o' => by
    have := options_eq es o o'
    show options o (gotsOf es) = _ ↔ _
    rw [this]
    simp
  | .insecure :: es, o, o' => by
    have := options_eq es { o with noVerify := true } o'
    show options { o with noVerify := true } (gotsOf es) = _ ↔ _
    rw [this]
    simp
  | .conf t :: es, o, o' => by
    have := options_eq es { o with conf := t } o'
    show options { o with conf := t } (gotsOf es) = _ ↔ _
    rw [this]
    simp [List.getLast?_cons]
  | .router t :: es, o, o' => by
    show (match Uri.parseName t with | none => Began.aborted | some n => options { o with router := n } (gotsOf es)) = _ ↔ _
    cases hp : Uri.parseName t with
    | none =>
      constructor
      · intro h; cases h
      · rintro ⟨h, -⟩; exact absurd hp (h t (by simp))
    | some n =>
      have := options_eq es { o with router := n } o'
      dsimp only
      rw [this]
      constructor
      · rintro ⟨h1, h2, h3, h4⟩
        refine ⟨?_, ?_, by simpa using h3, by simpa using h4⟩
        · intro x hx; rcases List.mem_cons.1 hx with hx | hx
          · cases hx; rw [hp]; simp
          · exact h1 x hx
        · rw [h2]
          simp only [List.filterMap_cons, List.getLast?_cons]
          generalize (es.filterMap (fun | .router t => some t | _ => none)).getLast? = l
          cases l <;> simp [hp]
      · rintro ⟨h1, h2, h3, h4⟩
        refine ⟨fun x hx => h1 x (List.mem_cons_of_mem _ hx), ?_, by simpa using h3, by simpa using h4⟩
        rw [h2]
        simp only [List.filterMap_cons, List.getLast?_cons]
        generalize (es.filterMap (fun | .router t => some t | _ => none)).getLast? = l
        cases l <;> simp [hp]

/-- The words start this. -/
def Starts (words : List Text) (act : NlsrcAct) : Prop := dispatch words = act ∧ act ≠ .usage ∧ act ≠ .failed

theorem launch_iff (router : Name) (verify : Option Text) (words : List Text) (j : Job) :
    launch router verify words = .run j ↔ j.router = router ∧ j.verify = verify ∧ Starts words j.act := by
  unfold launch Starts
  cases h : dispatch words with
  | usage => simp; intro _ _ e; exact absurd e.symm
  | failed => simp; intro _ _ e _; exact e.symm
  | send x =>
    cases j
    simp
    constructor
    · rintro ⟨rfl, rfl, rfl⟩; simp
    · rintro ⟨rfl, rfl, rfl, -⟩; simp
  | status w =>
    cases j
    simp
    constructor
    · rintro ⟨rfl, rfl, rfl⟩; simp
    · rintro ⟨rfl, rfl, rfl, -⟩; simp

theorem dispatch_nil {act : NlsrcAct} : ¬ Starts [] act := by
  rintro ⟨h, h1, -⟩; exact h1 h.symm

/-- C97: exactly which command lines start something, and what: the options may be written in any of the usual ways, the
router and the file named last count, and the answers of another router than the local one must pass the rules of that file
unless `-k` is given; if the rules do not load nothing is started. -/
theorem C97_options (permute : Bool) (dflt : Text) (load : Text → Load) (args : List Text) (j : Job) :
    main permute dflt load args = .run j ↔
      ∃ es, Reads permute args es ∧ (∀ t, .router t ∈ es → Uri.parseName t ≠ none) ∧
        Uri.parseName (routerOf es) = some j.router ∧ Starts (wordsOf es) j.act ∧
        (j.verify = none ↔ j.router = nm ["localhost"] ∨ .insecure ∈ es) ∧
        (∀ f, j.verify = some f → f = confOf dflt es ∧ load f = .ok) := by
  have hloc : Uri.parseName "/localhost".toList = some (nm ["localhost"]) := by decide +kernel
  have hrouter : ∀ (es : List Eff) (n : Name), some n = (match (es.filterMap (fun | .router t => some t | _ => none)).getLast? with
      | some t => Uri.parseName t | none => some (nm ["localhost"])) ↔ Uri.parseName (routerOf es) = some n := by
    intro es n
    unfold routerOf
    generalize (es.filterMap (fun | .router t => some t | _ => none)).getLast? = l
    cases l with
    | none => dsimp only [Option.getD_none]; rw [hloc]; exact eq_comm
    | some t => exact eq_comm
  constructor
  · intro h
    unfold main at h
    split at h
    · cases h
    dsimp only at h
    split at h
    · cases h
    · cases h
    · rename_i o ho
      obtain ⟨es, he⟩ := reads_of_getopt args.length args (Nat.le_refl _) (options_bad _ _ _ ho)
      rw [getopt_of_reads he] at ho h
      obtain ⟨o1, o2, o3, o4⟩ := (options_eq _ _ _).1 ho
      have o2' := (hrouter es o.router).1 o2
      dsimp only at h
      split at h
      · cases h
      split at h
      · rename_i hv
        split at h
        · cases h
        · cases h
        · rename_i hl
          obtain ⟨l1, l2, l3⟩ := (launch_iff _ _ _ _).1 h
          refine ⟨es, he, o1, by rw [l1]; exact o2', l3, ?_, ?_⟩
          · rw [l2, l1]
            constructor
            · intro e; cases e
            · rintro (e | e)
              · exact absurd e hv.1
              · have := o4.2 (Or.inr e)
                rw [hv.2] at this; cases this
          · intro f hf
            rw [l2] at hf
            injection hf with hf
            subst hf
            exact ⟨o3, hl⟩
      · rename_i hv
        obtain ⟨l1, l2, l3⟩ := (launch_iff _ _ _ _).1 h
        refine ⟨es, he, o1, by rw [l1]; exact o2', l3, ?_, ?_⟩
        · rw [l2, l1]
          refine ⟨fun _ => ?_, fun _ => rfl⟩
          by_cases hn : o.router = nm ["localhost"]
          · exact Or.inl hn
          · have : o.noVerify = true := by
              cases hb : o.noVerify with
              | true => rfl
              | false => exact absurd ⟨hn, hb⟩ hv
            rcases o4.1 this with h | h
            · cases h
            · exact Or.inr h
        · intro f hf; rw [l2] at hf; cases hf
  · rintro ⟨es, he, h1, h2, h3, h4, h5⟩
    have hw : wordsOf es ≠ [] := by intro e; rw [e] at h3; exact dispatch_nil h3
    have hargs : args ≠ [] := by
      rintro rfl
      have := getopt_of_reads he
      rw [getopt] at this
      injection this with _ e
      exact hw e.symm
    unfold main
    rw [if_neg hargs]
    dsimp only
    rw [getopt_of_reads he]
    have hgo : options { conf := dflt } (gotsOf es) = .go ⟨j.router, confOf dflt es, decide (.insecure ∈ es)⟩ :=
      (options_eq es { conf := dflt } ⟨j.router, confOf dflt es, decide (.insecure ∈ es)⟩).2
        ⟨h1, (hrouter es j.router).2 h2, rfl, by simp⟩
    dsimp only
    rw [hgo]
    dsimp only
    rw [if_neg hw]
    cases hv : j.verify with
    | none =>
      have hc : ¬ (j.router ≠ nm ["localhost"] ∧ decide (.insecure ∈ es) = false) := by
        rintro ⟨a, b⟩
        rcases h4.1 hv with h | h
        · exact a h
        · simp [h] at b
      rw [if_neg hc]
      exact (launch_iff _ _ _ _).2 ⟨rfl, hv, h3⟩
    | some f =>
      obtain ⟨hf, hl⟩ := h5 f hv
      have hc : j.router ≠ nm ["localhost"] ∧ decide (.insecure ∈ es) = false := by
        constructor
        · intro e; have := h4.2 (Or.inl e); rw [hv] at this; cases this
        · rw [decide_eq_false_iff_not]; intro e; have := h4.2 (Or.inr e); rw [hv] at this; cases this
      rw [if_pos hc, ← hf, hl]
      exact (launch_iff _ _ _ _).2 ⟨rfl, hv, h3⟩

/-- The words a command line is made of, for the examples. -/
def line (l : List String) : List Text := l.map String.toList

example : main true [] (fun _ => .ok) (line ["status", "-kR", "/a", "-c/f"]) = .run ⟨nm ["a"], none, .status "status".toList⟩ ∧
    main true [] (fun _ => .ok) (line ["-R/x", "status", "-R", "/a", "-c", "/f"]) =
      .run ⟨nm ["a"], some "/f".toList, .status "status".toList⟩ ∧
    main false [] (fun _ => .ok) (line ["status", "-R", "/a"]) = .exit 2 ∧
    main true [] (fun _ => .refused) (line ["status", "-R", "/a"]) = .exit 1 ∧
    main true [] (fun _ => .refused) (line ["routing"]) = .run ⟨nm ["localhost"], none, .status "routing".toList⟩ := by
  decide +kernel

/-- C97: with a file whose rules are not met by a packet of some data set, nothing is shown; what is shown comes from packets
that all pass. -/
theorem C97_verified (C : Codec) (R : RtCodec) (j : Job) (f w : Text) (hv : j.verify = some f) (hw : j.act = .status w)
    (reply : What → Reply) (a : Answer) (p : Text → Bool) :
    (∀ n s, finish C R j reply a p = (n, some s) → ∀ x ∈ fetches w, ∃ b pass, reply x = .data b pass ∧ pass f = true) ∧
    ((∃ x ∈ fetches w, ∀ b pass, reply x = .data b pass → pass f = false) → finish C R j reply a p = (1, none)) := by
  have key : ∀ (l : List What) (s0 : Shown),
      (∀ n s, fetchAll C R (some f) reply l s0 = (n, some s) → ∀ x ∈ l, ∃ b pass, reply x = .data b pass ∧ pass f = true) ∧
      ((∃ x ∈ l, ∀ b pass, reply x = .data b pass → pass f = false) → fetchAll C R (some f) reply l s0 = (1, none)) := by
    intro l
    induction l with
    | nil => intro s0; exact ⟨fun _ _ _ x hx => absurd hx (by simp), fun ⟨x, hx, _⟩ => absurd hx (by simp)⟩
    | cons y l ih =>
      intro s0
      unfold fetchAll
      cases hr : reply y with
      | lost =>
        exact ⟨fun n s h => (by cases h), fun _ => rfl⟩
      | data b pass =>
        have ha : accepted (some f) (.data b pass) = if pass f then some b else none := rfl
        rw [ha]
        cases hp : pass f with
        | false =>
          rw [if_neg (by simp)]
          exact ⟨fun n s h => (by cases h), fun _ => rfl⟩
        | true =>
          rw [if_pos rfl]
          dsimp only
          cases ht : take C R b s0 y with
          | none => exact ⟨fun n s h => (by cases h), fun _ => rfl⟩
          | some s1 =>
            dsimp only
            constructor
            · intro n s h x hx
              rcases List.mem_cons.1 hx with hx | hx
              · subst hx; exact ⟨b, pass, hr, hp⟩
              · exact (ih s1).1 n s h x hx
            · rintro ⟨x, hx, hb⟩
              rcases List.mem_cons.1 hx with hx | hx
              · subst hx; have := hb b pass hr; rw [hp] at this; cases this
              · exact (ih s1).2 ⟨x, hx, hb⟩
  unfold finish
  rw [hw, hv]
  exact key _ _

example : ∃ j, main true [] (fun _ => .ok) (line ["lsdb", "-R", "/a", "-c", "/f"]) = .run j ∧ j.verify = some "/f".toList ∧
    j.act = .status "lsdb".toList := ⟨⟨nm ["a"], some "/f".toList, .status "lsdb".toList⟩, by decide +kernel, rfl, rfl⟩

theorem dataset_length {α : Type} (dec : Bytes → Option α) (hdec : ∀ b x, dec b = some x → ∃ t v, decBlock b = some (t, v, []))
    (l : List (Bytes × α)) (h : ∀ p ∈ l, dec p.1 = some p.2) : l.length < (dataset (·.1) l).length + 1 := by
  induction l with
  | nil => simp
  | cons p l ih =>
    have := ih (fun q hq => h q (List.mem_cons_of_mem _ hq))
    have hp : p.1 ≠ [] := by
      intro e
      obtain ⟨t, v, hb⟩ := hdec _ _ (h p List.mem_cons_self)
      rw [e] at hb; cases hb
    have hpos : 0 < p.1.length := List.length_pos_iff.2 hp
    unfold dataset at this ⊢
    rw [List.map_cons, List.flatten_cons, List.length_append, List.length_cons]
    omega

/-- What a daemon publishes: its LSAs with the octets they are encoded by, and its routing table. -/
structure Published where
  adj : List (Bytes × WAdjLsa)
  cor : List (Bytes × WCoordLsa)
  name : List (Bytes × WNameLsa)
  rt : Bytes
  tables : RTable × RTable

/-- One LSA for each origin and type, encoded such that they decode. -/
structure Published.Ok (C : Codec) (R : RtCodec) (d : Published) : Prop where
  adj : ∀ p ∈ d.adj, decAdjLsa C p.1 = some p.2
  cor : ∀ p ∈ d.cor, decCoordLsa C p.1 = some p.2
  name : ∀ p ∈ d.name, decNameLsa C p.1 = some p.2
  adj1 : (d.adj.map (·.2.base.origin)).Nodup
  cor1 : (d.cor.map (·.2.base.origin)).Nodup
  name1 : (d.name.map (·.2.base.origin)).Nodup
  rt : decRt R d.rt = some d.tables

/-- The octets of each data set. -/
def Published.octets (d : Published) : What → Bytes
  | .adj => dataset (·.1) d.adj
  | .cor => dataset (·.1) d.cor
  | .name => dataset (·.1) d.name
  | .rt => d.rt

theorem rt_block {R : RtCodec} {b : Bytes} {x : RTable × RTable} (h : decRt R b = some x) : ∃ t v, decBlock b = some (t, v, []) := by
  unfold decRt at h
  cases ht : top 144 b with
  | none => rw [ht] at h; cases h
  | some v => exact ⟨_, _, top_decBlock ht⟩

/-- C97: when the answers are what a daemon publishes and pass, or need not pass, the rules, all of it is shown, nothing
else, and the exit status is 0. -/
theorem C97_shows (C : Codec) (R : RtCodec) (d : Published) (hd : d.Ok C R) (router : Name) (verify : Option Text)
    (pass : Text → Bool) (hp : ∀ f, verify = some f → pass f = true) (a : Answer) (p : Text → Bool) :
    let A := d.adj.map (fun p => (p.2.base.origin, p.2))
    let B := d.cor.map (fun p => (p.2.base.origin, p.2))
    let N := d.name.map (fun p => (p.2.base.origin, p.2))
    let reply := fun x => Reply.data (d.octets x) pass
    finish C R ⟨router, verify, .status "lsdb".toList⟩ reply a p = (0, some ⟨A, B, N, none⟩) ∧
    finish C R ⟨router, verify, .status "routing".toList⟩ reply a p = (0, some ⟨[], [], [], some d.tables⟩) ∧
    finish C R ⟨router, verify, .status "status".toList⟩ reply a p = (0, some ⟨A, B, N, some d.tables⟩) := by
  intro A B N reply
  have hacc : ∀ x, accepted verify (reply x) = some (d.octets x) := by
    intro x
    cases hv : verify with
    | none => rfl
    | some f =>
      show (if pass f then some (d.octets x) else none) = _
      rw [hp f hv, if_pos rfl]
  obtain ⟨c1, c2, c3⟩ := C79_lsdb C
  have t1 : ∀ s, take C R (d.octets .adj) s .adj = some { s with adj := A } := by
    intro s
    obtain ⟨e1, e2⟩ := c1 d.adj hd.adj hd.adj1 ((d.octets .adj).length + 1) (dataset_length _ (fun _ _ h => adj_block h) _ hd.adj)
    unfold take
    dsimp only
    rw [if_neg (by rw [show Published.octets d .adj = dataset (·.1) d.adj from rfl] at *; rw [e1]; simp)]
    congr 2
  have t2 : ∀ s, take C R (d.octets .cor) s .cor = some { s with cor := B } := by
    intro s
    obtain ⟨e1, e2⟩ := c3 d.cor hd.cor hd.cor1 ((d.octets .cor).length + 1) (dataset_length _ (fun _ _ h => coord_block h) _ hd.cor)
    unfold take
    dsimp only
    rw [if_neg (by rw [show Published.octets d .cor = dataset (·.1) d.cor from rfl] at *; rw [e1]; simp)]
    congr 2
  have t3 : ∀ s, take C R (d.octets .name) s .name = some { s with name := N } := by
    intro s
    obtain ⟨e1, e2⟩ := c2 d.name hd.name hd.name1 ((d.octets .name).length + 1) (dataset_length _ (fun _ _ h => name_block h) _ hd.name)
    unfold take
    dsimp only
    rw [if_neg (by rw [show Published.octets d .name = dataset (·.1) d.name from rfl] at *; rw [e1]; simp)]
    congr 2
  have t4 : ∀ s, take C R (d.octets .rt) s .rt = some { s with rt := some d.tables } := by
    intro s
    have e := records_concat (decRt R) (fun _ _ h => rt_block h) [(d.rt, d.tables)] (by intro q hq; simp at hq; subst hq; exact hd.rt)
      ((d.octets .rt).length + 1) (by
        have := dataset_length (decRt R) (fun _ _ h => rt_block h) [(d.rt, d.tables)] (by intro q hq; simp at hq; subst hq; exact hd.rt)
        simpa [dataset, Published.octets] using this)
    have hb : (([(d.rt, d.tables)] : List (Bytes × (RTable × RTable))).map (·.1)).flatten = d.octets .rt := by simp [Published.octets]
    rw [hb] at e
    unfold take
    dsimp only
    rw [e]
    rfl
  refine ⟨?_, ?_, ?_⟩
  · show fetchAll C R verify reply [.adj, .cor, .name] {} = _
    simp only [fetchAll, hacc, t1, t2, t3]
  · show fetchAll C R verify reply [.rt] {} = _
    simp only [fetchAll, hacc, t4]
  · show fetchAll C R verify reply [.adj, .cor, .name, .rt] {} = _
    simp only [fetchAll, hacc, t1, t2, t3, t4]

/-- A small daemon. -/
def exPublished : Published :=
  let a : WAdjLsa := ⟨⟨nm ["ndn", "r1"], 70000, 12⟩, [⟨nm ["r2"], [117, 58], 5⟩, ⟨nm ["r3"], [117], 7⟩]⟩
  let n1 : WNameLsa := ⟨⟨nm ["r1"], 3, 12⟩, [⟨nm ["a"], 5⟩, ⟨nm ["a", "b"], 7⟩]⟩
  let n2 : WNameLsa := ⟨⟨nm ["r2"], 3, 12⟩, [⟨nm ["a"], 5⟩]⟩
  let t : RTable := [⟨nm ["r2"], [⟨"udp4://1", 5, false⟩]⟩]
  ⟨[(encAdjLsa toyCodec a, a)], [(encCoordLsa toyCodec coordLsa, coordLsa)], [(encNameLsa toyCodec n1, n1), (encNameLsa toyCodec n2, n2)],
    encRt toyRt t [], (t, [])⟩

example : exPublished.Ok toyCodec toyRt where
  adj := by
    intro p hp
    obtain rfl := List.mem_singleton.1 hp
    decide +kernel
  cor := by
    intro p hp
    obtain rfl := List.mem_singleton.1 hp
    decide +kernel
  name := by
    intro p hp
    rcases List.mem_cons.1 hp with rfl | hp
    · decide +kernel
    · obtain rfl := List.mem_singleton.1 hp
      decide +kernel
  adj1 := by decide +kernel
  cor1 := by decide +kernel
  name1 := by decide +kernel
  rt := by decide +kernel

/-- The last component of a data set's name. -/
def lastOf : What → Comp
  | .adj => Comp.str "adjacencies"
  | .cor => Comp.str "coordinates"
  | .name => Comp.str "names"
  | .rt => Comp.str "routing-table"

/-- C97: the exit status is 0 exactly if something was fetched and is shown, or an update was sent and the answer says that
it was applied, saved or without effect (or is of content type Nack, C78).  Only what was asked for as a status is shown. -/
theorem C97_status (C : Codec) (R : RtCodec) (j : Job) (reply : What → Reply) (a : Answer) (p : Text → Bool) :
    ((finish C R j reply a p).1 = 0 ↔ (∃ s, (finish C R j reply a p).2 = some s) ∨
      ((∃ x, j.act = .send x) ∧ (a = .code 200 ∨ a = .code 204 ∨ a = .code 205 ∨ a = .nackData))) ∧
    (∀ s, (finish C R j reply a p).2 = some s → ∃ w, j.act = .status w ∧ ∀ x ∈ fetches w, ∃ b pass, reply x = .data b pass) := by
  have key : ∀ (l : List What) (s0 : Shown),
      ((fetchAll C R j.verify reply l s0).1 = 0 ↔ ∃ s, (fetchAll C R j.verify reply l s0).2 = some s) ∧
      (∀ s, (fetchAll C R j.verify reply l s0).2 = some s → ∀ x ∈ l, ∃ b pass, reply x = .data b pass) := by
    intro l
    induction l with
    | nil => intro s0; exact ⟨⟨fun _ => ⟨s0, rfl⟩, fun _ => rfl⟩, fun _ _ x hx => absurd hx (by simp)⟩
    | cons y l ih =>
      intro s0
      unfold fetchAll
      cases hr : reply y with
      | lost => exact ⟨⟨fun h => (by cases h), fun ⟨s, h⟩ => (by cases h)⟩, fun s h => (by cases h)⟩
      | data b pass =>
        cases ha : accepted j.verify (.data b pass) with
        | none => exact ⟨⟨fun h => (by cases h), fun ⟨s, h⟩ => (by cases h)⟩, fun s h => (by cases h)⟩
        | some b' =>
          dsimp only
          cases ht : take C R b' s0 y with
          | none => exact ⟨⟨fun h => (by cases h), fun ⟨s, h⟩ => (by cases h)⟩, fun s h => (by cases h)⟩
          | some s' =>
            dsimp only
            refine ⟨(ih s').1, fun s h x hx => ?_⟩
            rcases List.mem_cons.1 hx with rfl | hx
            · exact ⟨b, pass, hr⟩
            · exact (ih s').2 s h x hx
  unfold finish
  cases hj : j.act with
  | usage => exact ⟨⟨fun h => (by cases h), by rintro (⟨s, h⟩ | ⟨⟨x, h⟩, -⟩) <;> cases h⟩, fun s h => (by cases h)⟩
  | failed => exact ⟨⟨fun h => (by cases h), by rintro (⟨s, h⟩ | ⟨⟨x, h⟩, -⟩) <;> cases h⟩, fun s h => (by cases h)⟩
  | status w =>
    dsimp only
    refine ⟨⟨fun h => Or.inl ((key _ _).1.1 h), ?_⟩, fun s h => ⟨w, rfl, (key _ _).2 s h⟩⟩
    rintro (h | ⟨⟨x, h⟩, -⟩)
    · exact (key _ _).1.2 h
    · cases h
  | send x =>
    dsimp only
    refine ⟨⟨fun h => Or.inr ⟨⟨x, rfl⟩, ?_⟩, ?_⟩, fun s h => (by cases h)⟩
    · cases a with
      | nackData => simp
      | garbage => cases h
      | lost => cases h
      | code k =>
        unfold answered at h
        dsimp only at h
        by_cases h1 : k = 200
        · simp [h1]
        · by_cases h2 : k = 205
          · simp [h2]
          · rw [if_pos ⟨h1, h2⟩] at h
            by_cases h3 : k = 204
            · simp [h3]
            · rw [if_neg h3] at h; cases h
    · rintro (⟨s, h⟩ | ⟨-, rfl | rfl | rfl | rfl⟩)
      · cases h
      all_goals decide

/-- C97: what is asked for is what a router of that name serves, and the local one. -/
theorem C97_asks (router : Name) (x : What) :
    (asked router x, x) ∈ served router ∧ (asked (nm ["localhost"]) x, x) ∈ served router ∧
    (∀ y, (asked router x, y) ∈ served router → y = x) := by
  refine ⟨?_, ?_, ?_⟩
  · cases x <;> simp [served, asked, nm]
  · cases x <;> simp [served, asked, nm]
  · intro y h
    have h1 : (asked router x).getLast? = some (lastOf x) := by
      cases x <;> simp [asked, nm, lastOf, List.getLast?_append]
    have h2 : ∀ n, (n, y) ∈ served router → n.getLast? = some (lastOf y) := by
      intro n hn
      simp only [served, List.flatMap_cons, List.flatMap_nil, List.append_nil, List.mem_append, List.mem_cons, Prod.mk.injEq,
        List.not_mem_nil, or_false] at hn
      rcases hn with (⟨rfl, rfl⟩ | ⟨rfl, rfl⟩ | ⟨rfl, rfl⟩ | ⟨rfl, rfl⟩) | (⟨rfl, rfl⟩ | ⟨rfl, rfl⟩ | ⟨rfl, rfl⟩ | ⟨rfl, rfl⟩) <;>
        simp [nm, lastOf, List.getLast?_append]
    have h3 := h2 _ h
    rw [h1] at h3
    clear h1 h2 h
    revert h3
    cases x <;> cases y <;> decide +kernel

/-- C97: where options may come after words (glibc), a word that looks like an unknown option ends nlsrc with its usage:
negative costs, which C63 shows to be misread, can only be given behind `--`. -/
theorem C97_negative (dflt : Text) (load : Text → Load) (words rest : List Text) (c : Char) (cs : Text) (hw : ∀ a ∈ words, ¬ Dash a)
    (hc : takes c = none) (hs : ('-' :: c :: cs : Text) ≠ ['-', '-']) :
    main true dflt load (words ++ ('-' :: c :: cs) :: rest) = .exit 2 := by
  have hg : ∀ (l : List Text), (∀ a ∈ l, ¬ Dash a) → ∃ g, (getopt takes true (l ++ ('-' :: c :: cs) :: rest)).1 = .bad :: g := by
    intro l
    induction l with
    | nil =>
      intro _
      rw [List.nil_append, getopt_dash _ _ _ _ hs]
      have hk : cluster takes (c :: cs) = (.bad :: (cluster takes cs).1, (cluster takes cs).2) := by rw [cluster, hc]
      rw [hk]
      generalize cluster takes cs = x
      obtain ⟨g, o⟩ := x
      cases o with
      | none => exact ⟨_, rfl⟩
      | some d => cases rest <;> exact ⟨_, rfl⟩
    | cons a l ih =>
      intro h
      obtain ⟨g, hg⟩ := ih (fun b hb => h b (List.mem_cons_of_mem _ hb))
      rw [List.cons_append, getopt_word _ _ _ (h a List.mem_cons_self), if_pos rfl]
      exact ⟨g, hg⟩
  obtain ⟨g, hg⟩ := hg words hw
  unfold main
  rw [if_neg (by simp)]
  dsimp only
  rw [hg]
  rfl

example : main true [] (fun _ => .ok) (line ["advertise", "/a", "cost", "-1"]) = .exit 2 ∧
    main true [] (fun _ => .ok) (line ["--", "advertise", "/a", "cost", "-1"]) =
      .run ⟨nm ["localhost"], none, .send { verb := .advertise, name := nm ["a"], cost := some (2 ^ 64 - 1) }⟩ := by
  decide +kernel

/-- C97 fails for prefix updates: the answer to an update sent to another router is believed without looking at its
signature, `-c` or not.  An answer that passes no rules makes nlsrc report success. -/
theorem C97_violated_unverified (C : Codec) (R : RtCodec) : ∃ j, main true [] (fun _ => .ok) (line ["-R", "/r", "-c", "/f", "advertise", "/a"]) = .run j ∧
    j.router = nm ["r"] ∧ j.verify = some "/f".toList ∧ ∀ reply, finish C R j reply (.code 200) (fun _ => false) = (0, none) :=
  ⟨⟨nm ["r"], some "/f".toList, .send { verb := .advertise, name := nm ["a"] }⟩, by decide +kernel, rfl, rfl, fun _ => rfl⟩

/-- C97 fails for a router that is no name: the exception is thrown before `main` catches any, and nlsrc is aborted instead of
ending with an error message and status 1. -/
theorem C97_violated_abort : ∀ permute dflt load, main permute dflt load (line ["-R", "/.", "status"]) = .aborted := by
  intro permute dflt load
  have : getopt takes permute (line ["-R", "/.", "status"]) = ([.opt 'R' (some "/.".toList)], ["status".toList]) := by
    cases permute <;> decide +kernel
  unfold main
  rw [if_neg (by decide +kernel)]
  dsimp only
  rw [this]
  have hp : Uri.parseName "/.".toList = none := by decide +kernel
  dsimp only
  have : options { conf := dflt } [.opt 'R' (some "/.".toList)] = .aborted := by
    show (match Uri.parseName "/.".toList with | none => Began.aborted | some n => options { conf := dflt, router := n } []) = _
    rw [hp]
  rw [this]

/-- C97 fails for a data set that breaks off: what came before is shown as if it were all, and the exit status is 0. -/
theorem C97_violated_cut (R : RtCodec) : let b := encCoordLsa toyCodec coordLsa
    fetchAll toyCodec R none (fun _ => .data (b ++ b.take 5) (fun _ => true)) [.cor] {} =
      (0, some { cor := [(coordLsa.base.origin, coordLsa)] }) := by
  intro b
  have h : records (decCoordLsa toyCodec) ((b ++ b.take 5).length + 1) (b ++ b.take 5) = ([coordLsa], .cut) := by
    decide +kernel
  show (match take toyCodec R (b ++ b.take 5) {} .cor with | none => (1, none) | some s' => (0, some s')) = _
  unfold take
  dsimp only
  rw [h]
  rfl

end Nlsr.Nlsrc
