import Verif.Model.Boot
/- Lemmas for C111: the options of the daemon, and loading with the files on disk. -/
namespace Nlsr.Boot
open Getopt

/-! ### options -/

/-- A word that `getopt` takes for options. -/
def Dash (a : Text) : Prop := ∃ c cs, a = '-' :: c :: cs

theorem not_dash {a : Text} (h : ¬ Dash a) : a ≠ ['-', '-'] ∧ ¬ (a.head? = some '-' ∧ a ≠ ['-']) := by
  constructor
  · rintro rfl; exact h ⟨_, _, rfl⟩
  · rintro ⟨h1, h2⟩
    cases a with
    | nil => cases h1
    | cons x xs =>
      cases xs with
      | nil => simp at h1; subst h1; exact h2 rfl
      | cons y ys => simp at h1; subst h1; exact h ⟨_, _, rfl⟩

theorem getopt_dash (permute : Bool) (c : Char) (cs : Text) (r : List Text) (h : ('-' :: c :: cs : Text) ≠ ['-', '-']) :
    getopt takes permute (('-' :: c :: cs) :: r) =
      match cluster takes (c :: cs) with
      | (g, none) => (g ++ (getopt takes permute r).1, (getopt takes permute r).2)
      | (g, some c) =>
        match r with
        | [] => (g ++ [.bad], [])
        | b :: r' => (g ++ .opt c (some b) :: (getopt takes permute r').1, (getopt takes permute r').2) := by
  rw [getopt]
  rw [if_neg h, if_pos ⟨rfl, by simp⟩]
  rfl

theorem getopt_word (permute : Bool) (a : Text) (r : List Text) (h : ¬ Dash a) :
    getopt takes permute (a :: r) = if permute then ((getopt takes permute r).1, a :: (getopt takes permute r).2) else ([], a :: r) := by
  rw [getopt]
  rw [if_neg (not_dash h).1, if_neg (not_dash h).2]

theorem getopt_stop (permute : Bool) (r : List Text) : getopt takes permute (['-', '-'] :: r) = ([], r) := by
  rw [getopt, if_pos rfl]

/-- `-f` and a word. -/
theorem getopt_f (permute : Bool) (t : Text) (r : List Text) : (getopt takes permute (['-', 'f'] :: t :: r)).1 =
    .opt 'f' (some t) :: (getopt takes permute r).1 := by
  rw [getopt_dash _ _ _ _ (by decide)]
  rfl

/-- `-f` at the end. -/
theorem getopt_f_end (permute : Bool) : (getopt takes permute [['-', 'f']]).1 = [.bad] := by
  rw [getopt_dash _ _ _ _ (by decide)]
  rfl

/-- `-f` with the file in the same word. -/
theorem getopt_fat (permute : Bool) {t : Text} (ht : t ≠ []) (r : List Text) : (getopt takes permute (('-' :: 'f' :: t) :: r)).1 =
    .opt 'f' (some t) :: (getopt takes permute r).1 := by
  rw [getopt_dash _ _ _ _ (by intro e; simp at e)]
  have hk : cluster takes ('f' :: t) = ([.opt 'f' (some t)], none) := by
    show (if t = [] then _ else _) = _
    rw [if_neg ht]
  rw [hk]
  rfl

theorem getopt_first (permute : Bool) {c : Char} (cs : Text) (r : List Text) {g : Got} {o : Option Bool} (ho : takes c = o)
    (hs : ('-' :: c :: cs : Text) ≠ ['-', '-'])
    (hg : (o = none ∧ g = .bad) ∨ (o = some false ∧ g = .opt c none)) :
    ∃ gs, (getopt takes permute (('-' :: c :: cs) :: r)).1 = g :: gs := by
  rw [getopt_dash _ _ _ _ hs]
  have hk : ∃ gs o', cluster takes (c :: cs) = (g :: gs, o') := by
    rcases hg with ⟨rfl, rfl⟩ | ⟨rfl, rfl⟩
    · refine ⟨(cluster takes cs).1, (cluster takes cs).2, ?_⟩
      rw [cluster, ho]
    · refine ⟨(cluster takes cs).1, (cluster takes cs).2, ?_⟩
      rw [cluster, ho]
  obtain ⟨gs, o', hk⟩ := hk
  rw [hk]
  cases o' with
  | none => exact ⟨_, rfl⟩
  | some d => cases r <;> exact ⟨_, rfl⟩

/-! ### loading -/

/-- Whether a state directory passes all tests. -/
def usable (pl : Place) (conf dir : Text) : Bool :=
  decide (pl.dir dir = some true ∧ conf ≠ join dir "nlsr.conf" ∧ pl.real conf ≠ pl.real (join dir "nlsr.conf") ∧
    pl.canWrite (join dir "nlsr.conf") = true ∧ pl.canWrite (join dir "test.seq") = true)

theorem prepare_ok {pl : Place} {conf dir : Text} {d : Disk} (hd : d (pl.real conf) ≠ none) :
    (prepare pl conf dir d).2 = usable pl conf dir := by
  unfold prepare usable
  split
  · rename_i h
    rw [h]
    by_cases h1 : conf = join dir "nlsr.conf"
    · rw [if_pos h1]; symm; apply decide_eq_false; intro e; exact e.2.1 h1
    rw [if_neg h1]
    unfold copy
    by_cases h2 : pl.real conf = pl.real (join dir "nlsr.conf")
    · rw [if_pos h2]; symm; apply decide_eq_false; intro e; exact e.2.2.1 h2
    rw [if_neg h2]
    cases hv : d (pl.real conf) with
    | none => exact absurd hv hd
    | some v =>
      dsimp only
      by_cases h3 : pl.canWrite (join dir "nlsr.conf") = true
      · rw [if_pos h3]
        dsimp only
        by_cases h4 : pl.canWrite (join dir "test.seq") = true
        · rw [if_pos h4]; symm; exact decide_eq_true ⟨rfl, h1, h2, h3, h4⟩
        · rw [if_neg h4]; symm; apply decide_eq_false; intro e; exact h4 e.2.2.2.2
      · rw [if_neg h3]; symm; apply decide_eq_false; intro e; exact h3 e.2.2.2.1
  · rename_i h
    symm; apply decide_eq_false; intro e; exact h e.1

/-- Only two files can change, and what the first of them gets is the configuration file. -/
theorem prepare_disk (pl : Place) (conf dir : Text) (d : Disk) (x : Text) :
    (prepare pl conf dir d).1 x = d x ∨ (x = pl.real (join dir "test.seq") ∧ (prepare pl conf dir d).1 x = none) ∨
    (x = pl.real (join dir "nlsr.conf") ∧ x ≠ pl.real conf ∧ (prepare pl conf dir d).1 x = d (pl.real conf)) := by
  unfold prepare
  split
  · split
    · exact Or.inl rfl
    · cases hc : copy pl conf (join dir "nlsr.conf") d with
      | none => exact Or.inl rfl
      | some d1 =>
        have hset : ∀ y, d1 y = d y ∨ (y = pl.real (join dir "nlsr.conf") ∧ y ≠ pl.real conf ∧ d1 y = d (pl.real conf)) := by
          intro y
          unfold copy at hc
          split at hc
          · cases hc
          · rename_i hne
            cases hv : d (pl.real conf) with
            | none => rw [hv] at hc; cases hc
            | some v =>
              rw [hv] at hc
              dsimp only at hc
              split at hc
              · injection hc with hc
                subst hc
                by_cases hy : y = pl.real (join dir "nlsr.conf")
                · refine Or.inr ⟨hy, fun e => hne (by rw [← hy, e]), ?_⟩
                  show (if y = _ then some v else _) = some v
                  rw [if_pos hy]
                · left
                  show (if y = _ then some v else _) = d y
                  rw [if_neg hy]
              · cases hc
        dsimp only
        split
        · by_cases hx : x = pl.real (join dir "test.seq")
          · right; left
            refine ⟨hx, ?_⟩
            show (if x = _ then none else _) = none
            rw [if_pos hx]
          · have : (d1.set (pl.real (join dir "test.seq")) none) x = d1 x := by
              show (if x = _ then none else _) = _
              rw [if_neg hx]
            dsimp only
            rw [this]
            rcases hset x with h | h
            · exact Or.inl h
            · exact Or.inr (Or.inr h)
        · rcases hset x with h | h
          · exact Or.inl h
          · exact Or.inr (Or.inr h)
  · exact Or.inl rfl

/-- A directory that passes all tests ends up with a copy. -/
theorem prepare_copy {pl : Place} {conf dir : Text} {d : Disk} (hd : d (pl.real conf) ≠ none) (h : (prepare pl conf dir d).2 = true)
    (hs : pl.real (join dir "nlsr.conf") ≠ pl.real (join dir "test.seq")) :
    (prepare pl conf dir d).1 (pl.real (join dir "nlsr.conf")) = d (pl.real conf) := by
  have hu := of_decide_eq_true ((prepare_ok hd).symm.trans h)
  obtain ⟨h0, h1, h2, h3, h4⟩ := hu
  unfold prepare copy
  rw [h0]
  dsimp only
  rw [if_neg h1, if_neg h2]
  cases hv : d (pl.real conf) with
  | none => exact absurd hv hd
  | some v =>
    dsimp only
    rw [if_pos h3]
    dsimp only
    rw [if_pos h4]
    show (if _ then none else (if _ then some v else _)) = some v
    rw [if_neg hs, if_pos rfl]

/-- What the pure model of loading needs to know. -/
def envOf (pl : Place) (faceUri : Text → Option String) (sec : SecEnv) (conf : Text) : ConfEnv where
  faceUri := faceUri
  stateDir := usable pl conf
  security := fun t => match Security.load sec t {} with | .done _ => true | _ => false

theorem general_eq {pl : Place} {conf : Text} {t : Tree} {p : Params} {d : Disk} (faceUri : Text → Option String) (sec : SecEnv)
    (hd : d (pl.real conf) ≠ none) : (general pl conf t p d).2 = Conf.general (envOf pl faceUri sec conf) t p := by
  unfold general Conf.general
  cases h1 : Conf.protocolOf ((Conf.lookup "sync-protocol" t).getD "psync".toList) with
  | none => rfl
  | some proto =>
    simp only [bind, Option.bind]
    cases h2 : Conf.generalNames t { p with protocol := proto } with
    | none => rfl
    | some p1 =>
      dsimp only
      cases h3 : Conf.generalTimes t p1 with
      | none => rfl
      | some p2 =>
        dsimp only
        cases h4 : Conf.lookup "state-dir" t with
        | none => rfl
        | some dir =>
          dsimp only
          have hp := prepare_ok (dir := dir) hd
          generalize hq : prepare pl conf dir d = q at hp
          obtain ⟨d', b⟩ := q
          dsimp only at hp
          subst hp
          show _ = if usable pl conf dir = true then _ else _
          cases usable pl conf dir <;> rfl

theorem general_disk {pl : Place} {conf : Text} {t : Tree} {p : Params} {d : Disk} :
    (general pl conf t p d).1 = d ∨ ∃ dir, Conf.lookup "state-dir" t = some dir ∧ (general pl conf t p d).1 = (prepare pl conf dir d).1 := by
  unfold general
  cases h1 : Conf.protocolOf ((Conf.lookup "sync-protocol" t).getD "psync".toList) with
  | none => exact Or.inl rfl
  | some proto =>
    dsimp only
    cases h2 : (Conf.generalNames t { p with protocol := proto }).bind (Conf.generalTimes t) with
    | none => exact Or.inl rfl
    | some p1 =>
      dsimp only
      cases h4 : Conf.lookup "state-dir" t with
      | none => exact Or.inl rfl
      | some dir =>
        refine Or.inr ⟨dir, rfl, ?_⟩
        dsimp only
        generalize prepare pl conf dir d = q
        obtain ⟨d', b⟩ := q
        cases b <;> rfl

/-- An accepted general section has prepared the directory it names. -/
theorem general_prepared {pl : Place} {conf : Text} {t : Tree} {p p' : Params} {d d' : Disk} (h : general pl conf t p d = (d', some p')) :
    ∃ dir, Conf.lookup "state-dir" t = some dir ∧ p'.stateDir = some dir ∧ prepare pl conf dir d = (d', true) := by
  unfold general at h
  split at h
  · cases h
  · split at h
    · cases h
    · split at h
      · cases h
      · rename_i dir hdir
        split at h
        · rename_i d1 hq
          cases h
          exact ⟨dir, hdir, rfl, hq⟩
        · cases h

/-- The way a security section ends does not depend on what was there before. -/
theorem certs_kind (sec : SecEnv) : ∀ (xs : List (Text × Tree)) (s s' : Security),
    (Security.certs sec xs s = .refused ↔ Security.certs sec xs s' = .refused) ∧
    (Security.certs sec xs s = .aborted ↔ Security.certs sec xs s' = .aborted)
  | [], _, _ => ⟨⟨fun e => (by cases e), fun e => (by cases e)⟩, ⟨fun e => (by cases e), fun e => (by cases e)⟩⟩
  | x :: xs, s, s' => by
    unfold Security.certs
    split
    · exact ⟨Iff.rfl, Iff.rfl⟩
    · split
      · exact ⟨Iff.rfl, Iff.rfl⟩
      · exact ⟨Iff.rfl, Iff.rfl⟩
      · exact certs_kind sec xs _ _

theorem load_kind (sec : SecEnv) (t : Tree) (s s' : Security) :
    (Security.load sec t s = .refused ↔ Security.load sec t s' = .refused) ∧
    (Security.load sec t s = .aborted ↔ Security.load sec t s' = .aborted) := by
  unfold Security.load
  split
  · exact ⟨Iff.rfl, Iff.rfl⟩
  · split
    · exact ⟨Iff.rfl, Iff.rfl⟩
    · split
      · exact ⟨Iff.rfl, Iff.rfl⟩
      · dsimp only
        split
        · exact ⟨⟨fun e => (by cases e), fun e => (by cases e)⟩, ⟨fun e => (by cases e), fun e => (by cases e)⟩⟩
        · split
          · split
            · exact ⟨Iff.rfl, Iff.rfl⟩
            · exact certs_kind sec _ _ _
          · exact ⟨⟨fun e => (by cases e), fun e => (by cases e)⟩, ⟨fun e => (by cases e), fun e => (by cases e)⟩⟩

theorem section_env (e e' : ConfEnv) (hf : e.faceUri = e'.faceUri) {name : Text} {t : Tree} {p : Params}
    (h1 : name ≠ "general".toList) (h2 : name ≠ "security".toList) : Conf.section_ e name t p = Conf.section_ e' name t p := by
  have hn : ∀ t p, Conf.neighbor e t p = Conf.neighbor e' t p := by intro t p; unfold Conf.neighbor; rw [hf]
  have hl : ∀ xs p, Conf.neighborsLoop e xs p = Conf.neighborsLoop e' xs p := by
    intro xs
    induction xs with
    | nil => intro p; rfl
    | cons x xs ih => intro p; unfold Conf.neighborsLoop; simp only [hn, ih]
  unfold Conf.section_ Conf.neighbors
  rw [if_neg h1, if_neg h1]
  simp only [if_neg h2, hl]

/-- One section: it goes on exactly if the pure model does, and it leaves the configuration file alone. -/
theorem section_sim {pl : Place} {faceUri : Text → Option String} {sec : SecEnv} {conf name : Text} {t : Tree} {p : Params}
    {s : Security} {d : Disk} (hd : d (pl.real conf) ≠ none) :
    (match section_ pl faceUri sec conf name t p s d with
      | (_, .done p' _) => some p'
      | (_, _) => none) = Conf.section_ (envOf pl faceUri sec conf) name t p := by
  unfold section_
  by_cases h1 : name = "general".toList
  · rw [if_pos h1]
    have hg := general_eq (t := t) (p := p) faceUri sec hd
    have : Conf.section_ (envOf pl faceUri sec conf) name t p = Conf.general (envOf pl faceUri sec conf) t p := by
      unfold Conf.section_; rw [if_pos h1]
    rw [this, ← hg]
    generalize general pl conf t p d = q
    obtain ⟨d', o⟩ := q
    cases o <;> rfl
  rw [if_neg h1]
  by_cases h2 : name = "security".toList
  · rw [if_pos h2]
    have : Conf.section_ (envOf pl faceUri sec conf) name t p =
        if (envOf pl faceUri sec conf).security t then some p else none := by
      subst h2
      unfold Conf.section_
      rw [if_neg (by decide), if_neg (by decide), if_neg (by decide), if_neg (by decide), if_neg (by decide), if_pos rfl]
    rw [this]
    have hk := load_kind sec t s {}
    show _ = if (match Security.load sec t {} with | .done _ => true | _ => false) = true then some p else none
    generalize hx : Security.load sec t s = x at hk
    generalize Security.load sec t {} = y at hk
    cases x <;> cases y <;> simp_all
  · rw [if_neg h2, section_env (envOf pl faceUri sec conf) ⟨faceUri, fun _ => false, fun _ => false⟩ rfl h1 h2]
    generalize Conf.section_ ⟨faceUri, fun _ => false, fun _ => false⟩ name t p = o
    cases o <;> rfl

/-- What one section does to the files. -/
theorem section_disk {pl : Place} {faceUri : Text → Option String} {sec : SecEnv} {conf name : Text} {t : Tree} {p : Params}
    {s : Security} {d : Disk} :
    (section_ pl faceUri sec conf name t p s d).1 = d ∨ (name = "general".toList ∧
      ∃ dir, Conf.lookup "state-dir" t = some dir ∧ (section_ pl faceUri sec conf name t p s d).1 = (prepare pl conf dir d).1) := by
  unfold section_
  by_cases h1 : name = "general".toList
  · rw [if_pos h1]
    have hg := general_disk (pl := pl) (conf := conf) (t := t) (p := p) (d := d)
    generalize general pl conf t p d = q at hg ⊢
    obtain ⟨d', o⟩ := q
    cases o <;>
    · rcases hg with hg | hg
      · exact Or.inl hg
      · exact Or.inr ⟨h1, hg⟩
  · left
    rw [if_neg h1]
    split
    · split <;> rfl
    · split <;> rfl

end Nlsr.Boot
