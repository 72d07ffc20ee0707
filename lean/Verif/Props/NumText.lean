import Verif.Spec.NumText
import Verif.Props.Nlsrc
import Verif.Props.ConfWords
/- C72: which value every text of a number has. -/
namespace Nlsr.NumText
open Conf

theorem blank_iff (t : Text) : Blank t ↔ ∀ c ∈ t, Num.isSpace c = true := by
  unfold Blank Num.isSpace
  simp only [List.contains_iff_mem]

theorem blank_all (t : Text) : Blank t ↔ t.all Num.isSpace = true := by
  rw [blank_iff, List.all_eq_true]

theorem digit_iff (c : Char) : c ∈ ['0', '1', '2', '3', '4', '5', '6', '7', '8', '9'] ↔ Num.isDigit c = true := by
  constructor
  · have : ∀ d ∈ ['0', '1', '2', '3', '4', '5', '6', '7', '8', '9'], Num.isDigit d = true := by decide
    exact this c
  · intro h
    apply Classical.byContradiction
    intro hn
    rw [decVal_none hn] at h
    cases h

theorem digits_iff (t : Text) : Digits t ↔ ∀ c ∈ t, Num.isDigit c = true := by
  unfold Digits
  simp only [digit_iff]

theorem decVal_of {c : Char} (h : Num.isDigit c = true) : (Uri.decVal c).getD 0 = c.toNat - '0'.toNat := by
  unfold Num.isDigit at h
  unfold Uri.decVal at h ⊢
  split at h
  · rename_i hc; rw [if_pos hc]; rfl
  · cases h

theorem decOf_value {t : Text} (h : ∀ c ∈ t, Num.isDigit c = true) : Num.decOf t = value t := by
  have key : ∀ (t : Text) (a : Nat), (∀ c ∈ t, Num.isDigit c = true) →
      t.foldl (fun a c => a * 10 + (Uri.decVal c).getD 0) a = a * 10 ^ t.length + value t := by
    intro t
    induction t with
    | nil => intro a _; simp [value]
    | cons c t ih =>
      intro a h
      rw [List.foldl_cons, ih _ (fun d hd => h d (List.mem_cons_of_mem _ hd)), decVal_of (h c List.mem_cons_self)]
      have e : value (c :: t) = (c.toNat - '0'.toNat) * 10 ^ t.length + value t := rfl
      rw [e, List.length_cons, Nat.pow_succ, Nat.add_mul, Nat.mul_assoc, Nat.mul_comm 10, Nat.add_assoc]
  have := key t 0 h
  unfold Num.decOf
  rw [this, Nat.zero_mul, Nat.zero_add]

theorem sign_split (u : Text) : ∃ sg, u = sg ++ (Num.sign u).2 ∧ Sign (Num.sign u).1 sg := by
  unfold Num.sign
  split
  · exact ⟨['-'], rfl, Or.inl ⟨rfl, rfl⟩⟩
  · exact ⟨['+'], rfl, Or.inr ⟨rfl, Or.inr rfl⟩⟩
  · exact ⟨[], rfl, Or.inr ⟨rfl, Or.inl rfl⟩⟩

theorem sign_of {neg : Bool} {sg u : Text} (h : Sign neg sg) (hu : ∀ c, u.head? = some c → c ≠ '-' ∧ c ≠ '+') :
    Num.sign (sg ++ u) = (neg, u) := by
  rcases h with ⟨rfl, rfl⟩ | ⟨rfl, rfl | rfl⟩
  · rfl
  · rw [List.nil_append]
    unfold Num.sign
    split
    · exact absurd rfl (hu _ rfl).1
    · exact absurd rfl (hu _ rfl).2
    · rfl
  · rfl

/-- What may follow a sign: neither white space nor another sign. -/
def Solid (u : Text) : Prop := ∀ c, u.head? = some c → Num.isSpace c = false ∧ c ≠ '-' ∧ c ≠ '+'

theorem skip_of {neg : Bool} {sp sg u : Text} (h1 : Blank sp) (h2 : Sign neg sg) (hu : Solid u) :
    Num.sign ((sp ++ (sg ++ u)).dropWhile Num.isSpace) = (neg, u) := by
  rw [(dropWhile_split sp (sg ++ u) ((blank_iff _).1 h1) ?_).1]
  · exact sign_of h2 (fun c hc => (hu c hc).2)
  · intro c hc
    rcases h2 with ⟨-, rfl⟩ | ⟨-, rfl | rfl⟩
    · cases hc; decide
    · exact (hu c hc).1
    · cases hc; decide

theorem solid_digits {ds r : Text} (hd : ∀ c ∈ ds, Num.isDigit c = true) (h : ds ≠ []) : Solid (ds ++ r) := by
  intro c hc
  cases ds with
  | nil => exact absurd rfl h
  | cons d ds =>
    cases hc
    exact digit_not_space (hd _ List.mem_cons_self)

theorem blank_head {sp : Text} (h : Blank sp) : ∀ c, sp.head? = some c → Num.isDigit c = false := by
  intro c hc
  have hs := (blank_iff _).1 h c (List.mem_of_mem_head? hc)
  cases hd : Num.isDigit c with
  | false => rfl
  | true => rw [(digit_not_space hd).1] at hs; cases hs

theorem readInt_full (t : Text) (neg : Bool) (n : Nat) :
    (∃ r, Num.readInt t = some (neg, n, r) ∧ r.all Num.isSpace = true) ↔ IsInt t neg n := by
  constructor
  · rintro ⟨r, h, hr⟩
    unfold Num.readInt at h
    dsimp only at h
    split at h
    · cases h
    · rename_i hds
      injection h with h
      injection h with h1 h
      injection h with h2 h3
      obtain ⟨sg, e, hsg⟩ := sign_split (t.dropWhile Num.isSpace)
      refine ⟨t.takeWhile Num.isSpace, sg, _, _, ?_, (blank_iff _).2 (mem_takeWhile t), h1 ▸ hsg, hds,
        (digits_iff _).2 (mem_takeWhile _), (blank_all _).2 hr, ?_⟩
      · rw [← h3, List.takeWhile_append_dropWhile, ← e, List.takeWhile_append_dropWhile]
      · rw [← h2, decOf_value (mem_takeWhile _)]
  · rintro ⟨sp, sg, ds, sp', rfl, h1, h2, h3, h4, h5, rfl⟩
    have hd := (digits_iff _).1 h4
    refine ⟨sp', ?_, (blank_all _).1 h5⟩
    unfold Num.readInt
    rw [skip_of h1 h2 (solid_digits hd h3)]
    dsimp only
    have e := dropWhile_split ds sp' hd (blank_head h5)
    rw [e.1, e.2, if_neg h3, decOf_value hd]

theorem parseUnsigned_iff (bits : Nat) (t : Text) (k : Nat) : Num.parseUnsigned bits t = some k ↔ IsUnsigned bits t k := by
  unfold Num.parseUnsigned Num.readUnsigned IsUnsigned
  simp only [← readInt_full]
  cases h : Num.readInt t with
  | none => simp [Num.entire]
  | some x =>
    obtain ⟨neg, n, r⟩ := x
    dsimp only
    have hm : n < 2 ^ bits → (if neg = true then (2 ^ bits - n) % 2 ^ bits else n) = if neg = true ∧ n ≠ 0 then 2 ^ bits - n else n := by
      intro hn
      cases neg with
      | false => simp
      | true =>
        by_cases h0 : n = 0
        · subst h0; simp
        · rw [if_pos rfl, if_pos ⟨rfl, h0⟩, Nat.mod_eq_of_lt (by omega)]
    by_cases hn : n < 2 ^ bits
    · rw [if_pos hn, hm hn]
      unfold Num.entire
      dsimp only
      constructor
      · intro e
        split at e
        · rename_i hr
          injection e with e
          exact ⟨neg, n, ⟨r, rfl, hr⟩, hn, e.symm⟩
        · cases e
      · rintro ⟨neg', n', ⟨r', e, hr⟩, -, rfl⟩
        injection e with e
        injection e with e1 e
        injection e with e2 e3
        subst e1; subst e2; subst e3
        rw [if_pos hr]
    · rw [if_neg hn]
      constructor
      · intro e; cases e
      · rintro ⟨neg', n', ⟨r', e, hr⟩, hn', -⟩
        injection e with e
        injection e with e1 e
        injection e with e2 e3
        exact absurd (e2 ▸ hn') hn

theorem parseSigned_iff (bits : Nat) (t : Text) (k : Int) : Num.parseSigned bits t = some k ↔ IsSigned bits t k := by
  unfold Num.parseSigned Num.readSigned IsSigned
  simp only [← readInt_full]
  cases h : Num.readInt t with
  | none => simp [Num.entire]
  | some x =>
    obtain ⟨neg, n, r⟩ := x
    dsimp only
    cases neg with
    | false =>
      rw [if_neg (by decide)]
      constructor
      · intro e
        split at e
        · rename_i hn
          unfold Num.entire at e
          dsimp only at e
          split at e
          · rename_i hr
            injection e with e
            exact Or.inl ⟨n, ⟨r, rfl, hr⟩, hn, e.symm⟩
          · cases e
        · cases e
      · rintro (⟨n', ⟨r', e, hr⟩, hn, rfl⟩ | ⟨n', ⟨r', e, hr⟩, hn, rfl⟩)
        · injection e with e
          injection e with e1 e
          injection e with e2 e3
          subst e2; subst e3
          rw [if_pos hn]
          unfold Num.entire
          dsimp only
          rw [if_pos hr]
        · injection e with e
          injection e with e1 e
          cases e1
    | true =>
      rw [if_pos rfl]
      constructor
      · intro e
        split at e
        · rename_i hn
          unfold Num.entire at e
          dsimp only at e
          split at e
          · rename_i hr
            injection e with e
            exact Or.inr ⟨n, ⟨r, rfl, hr⟩, hn, e.symm⟩
          · cases e
        · cases e
      · rintro (⟨n', ⟨r', e, hr⟩, hn, rfl⟩ | ⟨n', ⟨r', e, hr⟩, hn, rfl⟩)
        · injection e with e
          injection e with e1 e
          cases e1
        · injection e with e
          injection e with e1 e
          injection e with e2 e3
          subst e2; subst e3
          rw [if_pos hn]
          unfold Num.entire
          dsimp only
          rw [if_pos hr]

theorem exp_e (t : Text) : Num.readExp ('e' :: t) =
    if (Num.sign t).2.takeWhile Num.isDigit = [] then none
    else some (if (Num.sign t).1 = true then -(Num.decOf ((Num.sign t).2.takeWhile Num.isDigit) : Int)
      else (Num.decOf ((Num.sign t).2.takeWhile Num.isDigit) : Int), (Num.sign t).2.dropWhile Num.isDigit) := rfl

theorem exp_E (t : Text) : Num.readExp ('E' :: t) =
    if (Num.sign t).2.takeWhile Num.isDigit = [] then none
    else some (if (Num.sign t).1 = true then -(Num.decOf ((Num.sign t).2.takeWhile Num.isDigit) : Int)
      else (Num.decOf ((Num.sign t).2.takeWhile Num.isDigit) : Int), (Num.sign t).2.dropWhile Num.isDigit) := rfl

theorem readExp_full (u : Text) (e : Int) (r : Text) : (Num.readExp u = some (e, r) ∧ Blank r) ↔
    ∃ et, u = et ++ r ∧ Exponent et e ∧ Blank r := by
  have fwd : ∀ (c : Char) (t : Text), (c = 'e' ∨ c = 'E') →
      (if (Num.sign t).2.takeWhile Num.isDigit = [] then none
        else some (if (Num.sign t).1 = true then -(Num.decOf ((Num.sign t).2.takeWhile Num.isDigit) : Int)
          else (Num.decOf ((Num.sign t).2.takeWhile Num.isDigit) : Int), (Num.sign t).2.dropWhile Num.isDigit)) = some (e, r) →
      ∃ et, c :: t = et ++ r ∧ Exponent et e := by
    intro c t hc h
    split at h
    · cases h
    · rename_i hds
      injection h with h
      injection h with h1 h2
      obtain ⟨sg, es, hsg⟩ := sign_split t
      refine ⟨c :: (sg ++ (Num.sign t).2.takeWhile Num.isDigit), ?_, Or.inr ⟨c, _, sg, _, rfl, hc, hsg, hds,
        (digits_iff _).2 (mem_takeWhile _), ?_⟩⟩
      · rw [← h2, List.cons_append, List.append_assoc, List.takeWhile_append_dropWhile, ← es]
      · rw [← h1, decOf_value (mem_takeWhile _)]
  constructor
  · rintro ⟨h, hr⟩
    unfold Num.readExp at h
    split at h
    · obtain ⟨et, h1, h2⟩ := fwd 'e' _ (Or.inl rfl) h
      exact ⟨et, h1, h2, hr⟩
    · obtain ⟨et, h1, h2⟩ := fwd 'E' _ (Or.inr rfl) h
      exact ⟨et, h1, h2, hr⟩
    · injection h with h
      injection h with h1 h2
      exact ⟨[], by rw [h2]; rfl, Or.inl ⟨rfl, h1.symm⟩, hr⟩
  · rintro ⟨et, rfl, h, hr⟩
    refine ⟨?_, hr⟩
    rcases h with ⟨rfl, rfl⟩ | ⟨c, neg, sg, ds, rfl, hc, hsg, hds, hd, rfl⟩
    · rw [List.nil_append]
      unfold Num.readExp
      split
      · exact absurd (hr 'e' List.mem_cons_self) (by decide)
      · exact absurd (hr 'E' List.mem_cons_self) (by decide)
      · rfl
    · have hd' := (digits_iff _).1 hd
      have hs : Num.sign (sg ++ (ds ++ r)) = (neg, ds ++ r) := sign_of hsg (fun c hc => (solid_digits hd' hds c hc).2)
      have hw := dropWhile_split ds r hd' (blank_head hr)
      rw [List.cons_append, List.append_assoc]
      rcases hc with rfl | rfl
      · rw [exp_e, hs]
        dsimp only
        rw [hw.1, hw.2, if_neg hds, decOf_value hd']
      · rw [exp_E, hs]
        dsimp only
        rw [hw.1, hw.2, if_neg hds, decOf_value hd']

theorem exp_head {et r : Text} {e : Int} (h : Exponent et e) (hr : Blank r) :
    ∀ c, (et ++ r).head? = some c → Num.isDigit c = false ∧ c ≠ '.' := by
  intro c hc
  rcases h with ⟨rfl, rfl⟩ | ⟨c', neg, sg, ds, rfl, hc', -⟩
  · refine ⟨blank_head hr c hc, ?_⟩
    rintro rfl
    exact absurd (hr '.' (List.mem_of_mem_head? hc)) (by decide)
  · cases hc
    rcases hc' with rfl | rfl <;> decide

/-- The digits after the dot, and the rest. -/
def frac : Text → Text × Text
  | '.' :: q => (q.takeWhile Num.isDigit, q.dropWhile Num.isDigit)
  | q => ([], q)

theorem frac_dot (q : Text) : frac ('.' :: q) = (q.takeWhile Num.isDigit, q.dropWhile Num.isDigit) := rfl

theorem frac_other {q : Text} (h : q.head? ≠ some '.') : frac q = ([], q) := by
  unfold frac
  split
  · exact absurd rfl h
  · rfl

theorem readDouble_eq (t : Text) : Num.readDouble t =
    let s := Num.sign (t.dropWhile Num.isSpace)
    let f := frac (s.2.dropWhile Num.isDigit)
    if s.2.takeWhile Num.isDigit = [] ∧ f.1 = [] then none
    else match Num.readExp f.2 with
      | none => none
      | some (e, r3) =>
        if (Num.decOf (s.2.takeWhile Num.isDigit ++ f.1) : Rat) * Num.pow10 (e - f.1.length) ≤ Num.dblMax then
          some (if s.1 = true then -((Num.decOf (s.2.takeWhile Num.isDigit ++ f.1) : Rat) * Num.pow10 (e - f.1.length))
            else (Num.decOf (s.2.takeWhile Num.isDigit ++ f.1) : Rat) * Num.pow10 (e - f.1.length), r3)
        else none := rfl

theorem parseDouble_iff (t : Text) (q : Rat) : Num.parseDouble t = some q ↔ IsReal t q := by
  have hq : ∀ (neg : Bool) (v : Rat), (if neg = true then -v else v) = (if neg = true then -1 else 1) * v := by
    intro neg v
    cases neg
    · rw [if_neg (by decide), if_neg (by decide), Rat.one_mul]
    · rw [if_pos rfl, if_pos rfl, Rat.neg_mul, Rat.one_mul]
  constructor
  · intro h
    unfold Num.parseDouble Num.entire at h
    split at h
    · rename_i v r hr
      split at h
      · rename_i hb
        injection h with h
        subst h
        rw [readDouble_eq] at hr
        dsimp only at hr
        obtain ⟨sg, es, hsg⟩ := sign_split (t.dropWhile Num.isSpace)
        generalize Num.sign (t.dropWhile Num.isSpace) = s at hr es hsg
        obtain ⟨neg, u⟩ := s
        dsimp only at hr es hsg
        have hu : u = u.takeWhile Num.isDigit ++ u.dropWhile Num.isDigit := List.takeWhile_append_dropWhile.symm
        have hf : ∃ ft fp r2, u.dropWhile Num.isDigit = ft ++ r2 ∧ Fraction ft fp ∧ frac (u.dropWhile Num.isDigit) = (fp, r2) := by
          generalize u.dropWhile Num.isDigit = w
          unfold frac
          split
          · rename_i q
            exact ⟨'.' :: q.takeWhile Num.isDigit, _, _, by rw [List.cons_append, List.takeWhile_append_dropWhile],
              Or.inr ⟨rfl, (digits_iff _).2 (mem_takeWhile _)⟩, rfl⟩
          · exact ⟨[], _, _, rfl, Or.inl ⟨rfl, rfl⟩, rfl⟩
        obtain ⟨ft, fp, r2, e1, e2, e3⟩ := hf
        rw [e3] at hr
        dsimp only at hr
        split at hr
        · cases hr
        · rename_i hne
          split at hr
          · cases hr
          · rename_i e r3 he
            split at hr
            · rename_i hle
              injection hr with hr
              injection hr with h1 h2
              subst h2
              obtain ⟨et, h3, h4, h5⟩ := (readExp_full ..).1 ⟨he, (blank_all _).2 hb⟩
              have hdd : ∀ c ∈ u.takeWhile Num.isDigit ++ fp, Num.isDigit c = true := by
                intro c hc
                rcases List.mem_append.1 hc with hc | hc
                · exact mem_takeWhile _ c hc
                · rcases e2 with ⟨-, rfl⟩ | ⟨-, e2⟩
                  · cases hc
                  · exact (digits_iff _).1 e2 c hc
              rw [decOf_value hdd] at hle h1
              refine ⟨t.takeWhile Num.isSpace, neg, sg, _, ft, fp, et, e, r3, ?_, (blank_iff _).2 (mem_takeWhile t), hsg,
                (digits_iff _).2 (mem_takeWhile u), e2, h4, h5, hne, hle, ?_⟩
              · rw [← h3, ← e1, ← hu, ← es, List.takeWhile_append_dropWhile]
              · rw [← h1, hq]
            · cases hr
      · cases h
    · cases h
  · rintro ⟨sp, neg, sg, ip, ft, fp, et, e, sp', rfl, h1, h2, h3, h4, h5, h6, h7, h8, rfl⟩
    have hip := (digits_iff _).1 h3
    have hsol : Solid (ip ++ (ft ++ (et ++ sp'))) := by
      by_cases hi : ip = []
      · subst hi
        rcases h4 with ⟨rfl, rfl⟩ | ⟨rfl, -⟩
        · exact absurd ⟨rfl, rfl⟩ h7
        · intro c hc
          cases hc
          decide
      · exact solid_digits hip hi
    have hw := dropWhile_split ip (ft ++ (et ++ sp')) hip (by
      intro c hc
      rcases h4 with ⟨rfl, rfl⟩ | ⟨rfl, -⟩
      · exact (exp_head h5 h6 c hc).1
      · cases hc; decide)
    have hf : frac (ft ++ (et ++ sp')) = (fp, et ++ sp') := by
      rcases h4 with ⟨rfl, rfl⟩ | ⟨rfl, h4⟩
      · exact frac_other (fun e' => absurd rfl (exp_head h5 h6 '.' e').2)
      · have := dropWhile_split fp (et ++ sp') ((digits_iff _).1 h4) (fun c hc => (exp_head h5 h6 c hc).1)
        rw [List.cons_append, frac_dot, this.1, this.2]
    have hdd : ∀ c ∈ ip ++ fp, Num.isDigit c = true := by
      intro c hc
      rcases List.mem_append.1 hc with hc | hc
      · exact hip c hc
      · rcases h4 with ⟨-, rfl⟩ | ⟨-, e2⟩
        · cases hc
        · exact (digits_iff _).1 e2 c hc
    have he := ((readExp_full (et ++ sp') e sp').2 ⟨et, rfl, h5, h6⟩).1
    unfold Num.parseDouble
    rw [readDouble_eq]
    dsimp only
    rw [skip_of h1 h2 hsol]
    dsimp only
    rw [hw.1, hw.2, hf]
    dsimp only
    rw [if_neg h7, he]
    dsimp only
    rw [decOf_value hdd, if_pos h8]
    unfold Num.entire
    dsimp only
    rw [if_pos ((blank_all _).1 h6), hq]

/-- The value of the parameter called `key`: that of its text if it is one, and the default otherwise. -/
def UsesU (x : Tree) (key : String) (d used : Nat) : Prop :=
  (∃ v, Line x key v ∧ IsUnsigned 32 v used) ∨ (used = d ∧ ∀ v, Line x key v → ¬ ∃ k, IsUnsigned 32 v k)

/-- The same for signed parameters. -/
def UsesI (x : Tree) (key : String) (d used : Int) : Prop :=
  (∃ v, Line x key v ∧ IsSigned 32 v used) ∨ (used = d ∧ ∀ v, Line x key v → ¬ ∃ k, IsSigned 32 v k)

theorem uses_getU32 (x : Tree) (key : String) (d : Nat) : UsesU x key d (getU32 x key d) := by
  unfold getU32
  cases h : lookup key x with
  | none =>
    refine Or.inr ⟨rfl, fun v hv => ?_⟩
    rw [lookup_line.2 hv] at h
    cases h
  | some v =>
    dsimp only
    cases hp : Num.parseUnsigned 32 v with
    | some k => exact Or.inl ⟨v, lookup_line.1 h, (parseUnsigned_iff ..).1 hp⟩
    | none =>
      refine Or.inr ⟨rfl, fun v' hv => ?_⟩
      have e := lookup_line.2 hv
      rw [h] at e
      cases e
      rintro ⟨k, hk⟩
      rw [(parseUnsigned_iff ..).2 hk] at hp
      cases hp

theorem uses_getInt (x : Tree) (key : String) (d : Int) : UsesI x key d (getInt x key d) := by
  unfold getInt
  cases h : lookup key x with
  | none =>
    refine Or.inr ⟨rfl, fun v hv => ?_⟩
    rw [lookup_line.2 hv] at h
    cases h
  | some v =>
    dsimp only
    cases hp : Num.parseSigned 32 v with
    | some k => exact Or.inl ⟨v, lookup_line.1 h, (parseSigned_iff ..).1 hp⟩
    | none =>
      refine Or.inr ⟨rfl, fun v' hv => ?_⟩
      have e := lookup_line.2 hv
      rw [h] at e
      cases e
      rintro ⟨k, hk⟩
      rw [(parseSigned_iff ..).2 hk] at hp
      cases hp

theorem configVar_getU32 {x : Tree} {key : String} {lo hi d k : Nat} (h : configVar x key lo hi d = some k) : k = getU32 x key d := by
  unfold configVar at h
  unfold getU32
  split at h
  · injection h with h; exact h.symm
  · split at h
    · rename_i hp; rw [hp]; injection h with h; exact h.symm
    · rename_i hp
      rw [hp]
      split at h
      · cases h
      · injection h with h; exact h.symm

/-- C72 for every text: which value each parameter of an accepted configuration has, whatever is written in the file.  What is
missing of C72 is refuted: a text that is no number is not refused (`C72_violated_unit`), and minus signs wrap around
(`C72_violated_negative`). -/
theorem C72_every_text_partial {env : ConfEnv} {t : Tree} {p : Params} (h : load env t = some p) :
    (∀ x, OnlySection t "general" x →
      UsesU x.2 "lsa-refresh-time" 1800 p.refresh ∧ UsesU x.2 "router-dead-interval" (2 * p.refresh) p.dead ∧
      UsesI x.2 "lsa-interest-lifetime" 4 p.lifetime ∧ UsesU x.2 "sync-interest-lifetime" 60000 p.syncLifetime) ∧
    (∀ x, OnlySection t "neighbors" x →
      UsesI x.2 "hello-retries" 3 p.retries ∧ UsesU x.2 "hello-timeout" 1 p.timeout ∧ UsesU x.2 "hello-interval" 60 p.helloInterval ∧
      UsesU x.2 "adj-lsa-build-interval" 10 p.buildInterval ∧
      (∃ k, p.fetchTries = some k ∧ UsesU x.2 "face-dataset-fetch-tries" 3 k) ∧
      UsesU x.2 "face-dataset-fetch-interval" 3600 p.fetchInterval) ∧
    (∀ x, OnlySection t "fib" x →
      UsesI x.2 "max-faces-per-prefix" 0 p.maxFaces ∧ UsesU x.2 "routing-calc-interval" 15 p.calcInterval) := by
  refine ⟨fun x hx => ?_, fun x hx => ?_, fun x hx => ?_⟩
  · obtain ⟨h1, h2, h3, h4⟩ := general_read h x hx
    rw [h2, h3, h4]
    exact ⟨by rw [h1]; exact uses_getU32 .., uses_getU32 .., uses_getInt .., uses_getU32 ..⟩
  · obtain ⟨h1, h2, h3, h4, h5, h6⟩ := neighbors_read h x hx
    rw [h1, h2, h3, configVar_getU32 h4, configVar_getU32 h6]
    refine ⟨uses_getInt .., uses_getU32 .., uses_getU32 .., uses_getU32 .., ?_, uses_getU32 ..⟩
    obtain ⟨k, hk, -⟩ := C52_fetch_tries h ⟨x, by
      obtain ⟨-, pre, post, e, -⟩ := hx.split
      rw [e]; simp, hx.split.1⟩
    rw [hk] at h5
    exact ⟨k, hk, by rw [configVar_getU32 h5]; exact uses_getU32 ..⟩
  · obtain ⟨h1, h2⟩ := fib_read h x hx
    rw [h1, configVar_getU32 h2]
    exact ⟨uses_getInt .., uses_getU32 ..⟩

/-- A file with spaces, a sign, zeros in front: `  +0600 ` is 600; `6 00` and `6e2` are not numbers of this kind. -/
example : (∃ p, load exEnv (.node [] [exGeneralWith "lsa-refresh-time" "  +0600 "]) = some p ∧ p.refresh = 600) ∧
    OnlySection (.node [] [exGeneralWith "lsa-refresh-time" "  +0600 "]) "general" (exGeneralWith "lsa-refresh-time" "  +0600 ") ∧
    IsUnsigned 32 "  +0600 ".toList 600 ∧ (¬ ∃ k, IsUnsigned 32 "6 00".toList k) ∧ (¬ ∃ k, IsUnsigned 32 "6e2".toList k) ∧
    ¬ ∃ k, IsUnsigned 32 "4294967296".toList k := by
  have no : ∀ t, Num.parseUnsigned 32 t = none → ¬ ∃ k, IsUnsigned 32 t k := by
    rintro t h ⟨k, hk⟩
    rw [(parseUnsigned_iff ..).2 hk] at h
    cases h
  refine ⟨?_, by simp [OnlySection, Tree.kids, exGeneralWith, confSection], (parseUnsigned_iff ..).1 (by decide +kernel),
    no _ (by decide +kernel), no _ (by decide +kernel), no _ (by decide +kernel)⟩
  have h : (load exEnv (.node [] [exGeneralWith "lsa-refresh-time" "  +0600 "])).map (·.refresh) = some 600 := by decide +kernel
  obtain ⟨p, hp, h2⟩ := Option.map_eq_some_iff.1 h
  exact ⟨p, hp, h2⟩

/-- The cost used for a neighbour: that of its text if it is a decimal fraction, and 10 otherwise. -/
def UsesCost (y : Tree) (c : Rat) : Prop :=
  (∃ v, Line y "link-cost" v ∧ IsReal v c) ∨ (c = 10 ∧ ∀ v, Line y "link-cost" v → ¬ ∃ q, IsReal v q)

/-- C107 for the link costs, for every text: the neighbours of an accepted configuration are those in the file, in that order, each with
the cost its text stands for, and with cost 10 if there is none.  Two neighbours with one name, or one without components, are
refuted (`C107_violated_neighbor`). -/
theorem C107_costs_partial {env : ConfEnv} {t : Tree} {p : Params} (h : load env t = some p)
    (hd : ((neighborsIn t).map (fun y => (lookup "name" y).bind Uri.parseName)).Nodup)
    (hn : ∀ y ∈ neighborsIn t, (lookup "name" y).bind Uri.parseName ≠ some []) :
    p.adjl.length = (neighborsIn t).length ∧
    ∀ (i : Nat) (a : Adjacent) (y : Tree), p.adjl[i]? = some a → (neighborsIn t)[i]? = some y →
      (lookup "name" y).bind Uri.parseName = some a.name ∧ ∃ c, a.cost = .fin c ∧ UsesCost y c := by
  have key := C107_neighbors_partial h hd hn
  refine ⟨by simpa using congrArg List.length key, fun i a y ha hy => ?_⟩
  have e := congrArg (·[i]?) key
  rw [List.getElem?_map, List.getElem?_map, ha, hy] at e
  simp only [Option.map_some, Option.some.injEq, Prod.mk.injEq] at e
  obtain ⟨e1, -, e3⟩ := e
  refine ⟨e1.symm, _, e3, ?_⟩
  cases hl : lookup "link-cost" y with
  | none =>
    refine Or.inr ⟨rfl, fun v hv => ?_⟩
    rw [lookup_line.2 hv] at hl
    cases hl
  | some v =>
    rw [Option.bind_some]
    cases hp : Num.parseDouble v with
    | some q => exact Or.inl ⟨v, lookup_line.1 hl, (parseDouble_iff ..).1 hp⟩
    | none =>
      refine Or.inr ⟨rfl, fun v' hv => ?_⟩
      have e := lookup_line.2 hv
      rw [hl] at e
      cases e
      rintro ⟨q, hq⟩
      rw [(parseDouble_iff ..).2 hq] at hp
      cases hp

/-- The file of `C107_words` has two neighbours that meet the conditions, with `25.5` and `4`; some texts. -/
example : (load exEnv exWords).isSome = true ∧ (neighborsIn exWords).length = 2 ∧
    ((neighborsIn exWords).map (fun y => (lookup "name" y).bind Uri.parseName)).Nodup ∧
    (∀ y ∈ neighborsIn exWords, (lookup "name" y).bind Uri.parseName ≠ some []) ∧
    IsReal " 2.5e+1".toList 25 ∧ IsReal "-.5".toList (-1 / 2) ∧ IsReal "1.".toList 1 ∧
    (¬ ∃ q, IsReal ".".toList q) ∧ (¬ ∃ q, IsReal "1e".toList q) ∧ ¬ ∃ q, IsReal "1,5".toList q := by
  have no : ∀ t, Num.parseDouble t = none → ¬ ∃ k, IsReal t k := by
    rintro t h ⟨k, hk⟩
    rw [(parseDouble_iff ..).2 hk] at h
    cases h
  exact ⟨by decide +kernel, by decide +kernel, by decide +kernel, by decide +kernel, (parseDouble_iff ..).1 (by decide +kernel),
    (parseDouble_iff ..).1 (by decide +kernel), (parseDouble_iff ..).1 (by decide +kernel), no _ (by decide +kernel),
    no _ (by decide +kernel), no _ (by decide +kernel)⟩

/-- C107 for the radius, for every text, when there is a line with angles: it is what its text stands for, and not negative, or 0 if
it stands for nothing.  The angles are in `C107_coordinates_partial`. -/
theorem C107_radius_partial {env : ConfEnv} {t : Tree} {p : Params} (h : load env t = some p) {x : Text × Tree}
    (hx : OnlySection t "hyperbolic" x) {v w : Text} (h1 : Line x.2 "radius" v) (h2 : Line x.2 "angle" w) :
    (∀ q, IsReal v q → 0 ≤ q ∧ p.corR = q) ∧ ((¬ ∃ q, IsReal v q) → p.corR = 0) := by
  obtain ⟨a, b, hb, ea, e⟩ := only_section (fun p : Params => (p.corR, p.corTheta)) (fun _ => rfl) h hx
    (fun y a b hn hs => by obtain ⟨-, e1, e2⟩ := section_coords hs hn; simp only [e1, e2])
  simp only [Prod.mk.injEq] at e ea
  have hh := hyp_of hx.split.1 hb
  unfold hyperbolic at hh
  dsimp only at hh
  rw [lookup_line.2 h1, lookup_line.2 h2] at hh
  dsimp only [Option.bind] at hh
  split at hh
  · cases hh
  · constructor
    · intro q hq
      rw [(parseDouble_iff ..).2 hq] at hh
      dsimp only at hh
      split at hh
      · rename_i h0
        injection hh with hh
        subst hh
        exact ⟨h0, e.1⟩
      · cases hh
    · intro hq
      cases hp : Num.parseDouble v with
      | some q => exact absurd ⟨q, (parseDouble_iff ..).1 hp⟩ hq
      | none =>
        rw [hp] at hh
        dsimp only at hh
        split at hh
        · cases hh
        · injection hh with hh
          subst hh
          rw [e.1]
          exact ea.1

/-- The same file: radius `12.5`. -/
example : (load exEnv exWords).isSome = true ∧ OnlySection exWords "hyperbolic" (exSpace "1.45,2.5") ∧
    (∃ v, Line (exSpace "1.45,2.5").2 "radius" v ∧ IsReal v (25 / 2)) ∧ Line (exSpace "1.45,2.5").2 "angle" "1.45,2.5".toList :=
  ⟨by decide +kernel, by simp [OnlySection, Tree.kids, exWords, exGeneralSvs, exSpace, exLines, confSection],
    ⟨"12.5".toList, lookup_line.1 (by decide +kernel), (parseDouble_iff ..).1 (by decide +kernel)⟩, lookup_line.1 (by decide +kernel)⟩

/-! ### angles -/

theorem readExp_ends (u : Text) (e : Int) (r : Text) : Num.readExp u = some (e, r) ↔
    ∃ et, u = et ++ r ∧ Exponent et e ∧
      ((et = [] → r.head? ≠ some 'e' ∧ r.head? ≠ some 'E') ∧ (et ≠ [] → ∀ c, r.head? = some c → Num.isDigit c = false)) := by
  have fwd : ∀ (c : Char) (t : Text), (c = 'e' ∨ c = 'E') →
      (if (Num.sign t).2.takeWhile Num.isDigit = [] then none
        else some (if (Num.sign t).1 = true then -(Num.decOf ((Num.sign t).2.takeWhile Num.isDigit) : Int)
          else (Num.decOf ((Num.sign t).2.takeWhile Num.isDigit) : Int), (Num.sign t).2.dropWhile Num.isDigit)) = some (e, r) →
      ∃ et, c :: t = et ++ r ∧ Exponent et e ∧
        ((et = [] → r.head? ≠ some 'e' ∧ r.head? ≠ some 'E') ∧ (et ≠ [] → ∀ c, r.head? = some c → Num.isDigit c = false)) := by
    intro c t hc h
    split at h
    · cases h
    · rename_i hds
      injection h with h
      injection h with h1 h2
      obtain ⟨sg, es, hsg⟩ := sign_split t
      refine ⟨c :: (sg ++ (Num.sign t).2.takeWhile Num.isDigit), ?_, Or.inr ⟨c, _, sg, _, rfl, hc, hsg, hds,
        (digits_iff _).2 (mem_takeWhile _), ?_⟩, (fun h => nomatch h), fun _ => h2 ▸ head_dropWhile _⟩
      · rw [← h2, List.cons_append, List.append_assoc, List.takeWhile_append_dropWhile, ← es]
      · rw [← h1, decOf_value (mem_takeWhile _)]
  constructor
  · intro h
    unfold Num.readExp at h
    split at h
    · exact fwd 'e' _ (Or.inl rfl) h
    · exact fwd 'E' _ (Or.inr rfl) h
    · rename_i h1 h2
      injection h with h
      injection h with h3 h4
      subst h4
      refine ⟨[], rfl, Or.inl ⟨rfl, h3.symm⟩, fun _ => ⟨fun hh => ?_, fun hh => ?_⟩, fun h => absurd rfl h⟩
      · obtain ⟨q, hq⟩ := List.head?_eq_some_iff.1 hh
        exact h1 q hq
      · obtain ⟨q, hq⟩ := List.head?_eq_some_iff.1 hh
        exact h2 q hq
  · rintro ⟨et, rfl, h, hr0, hr1⟩
    rcases h with ⟨rfl, rfl⟩ | ⟨c, neg, sg, ds, rfl, hc, hsg, hds, hd, rfl⟩
    · rw [List.nil_append]
      unfold Num.readExp
      split
      · exact absurd rfl (hr0 rfl).1
      · exact absurd rfl (hr0 rfl).2
      · rfl
    · have hd' := (digits_iff _).1 hd
      have hs : Num.sign (sg ++ (ds ++ r)) = (neg, ds ++ r) := sign_of hsg (fun c hc => (solid_digits hd' hds c hc).2)
      have hw := dropWhile_split ds r hd' (hr1 (fun h => by cases h))
      rw [List.cons_append, List.append_assoc]
      rcases hc with rfl | rfl
      · rw [exp_e, hs]
        dsimp only
        rw [hw.1, hw.2, if_neg hds, decOf_value hd']
      · rw [exp_E, hs]
        dsimp only
        rw [hw.1, hw.2, if_neg hds, decOf_value hd']

theorem exp_ne_head {et r : Text} {e : Int} (h : Exponent et e) (hne : et ≠ []) :
    ∀ c, (et ++ r).head? = some c → c = 'e' ∨ c = 'E' := by
  intro c hc
  rcases h with ⟨rfl, rfl⟩ | ⟨c', neg, sg, ds, rfl, hc', -⟩
  · exact absurd rfl hne
  · cases hc; exact hc'

theorem readDouble_iff (t : Text) (q : Rat) (rest : Text) : Num.readDouble t = some (q, rest) ↔ RealAhead t q rest := by
  have hq : ∀ (neg : Bool) (v : Rat), (if neg = true then -v else v) = (if neg = true then -1 else 1) * v := by
    intro neg v
    cases neg
    · rw [if_neg (by decide), if_neg (by decide), Rat.one_mul]
    · rw [if_pos rfl, if_pos rfl, Rat.neg_mul, Rat.one_mul]
  have nd : ∀ c : Char, Num.isDigit c = false ↔ c ∉ ['0', '1', '2', '3', '4', '5', '6', '7', '8', '9'] := by
    intro c
    rw [digit_iff]
    cases Num.isDigit c <;> simp
  constructor
  · intro hr
    rw [readDouble_eq] at hr
    dsimp only at hr
    obtain ⟨sg, es, hsg⟩ := sign_split (t.dropWhile Num.isSpace)
    generalize Num.sign (t.dropWhile Num.isSpace) = s at hr es hsg
    obtain ⟨neg, u⟩ := s
    dsimp only at hr es hsg
    have hu : u = u.takeWhile Num.isDigit ++ u.dropWhile Num.isDigit := List.takeWhile_append_dropWhile.symm
    have hf : ∃ ft fp r2, u.dropWhile Num.isDigit = ft ++ r2 ∧ Fraction ft fp ∧ frac (u.dropWhile Num.isDigit) = (fp, r2) ∧
        (∀ c, r2.head? = some c → Num.isDigit c = false ∧ (ft = [] → c ≠ '.')) := by
      have hh := head_dropWhile (p := Num.isDigit) u
      generalize u.dropWhile Num.isDigit = w at hh
      unfold frac
      split
      · rename_i q
        exact ⟨'.' :: q.takeWhile Num.isDigit, _, _, by rw [List.cons_append, List.takeWhile_append_dropWhile],
          Or.inr ⟨rfl, (digits_iff _).2 (mem_takeWhile _)⟩, rfl, fun c hc => ⟨head_dropWhile _ c hc, fun h => by cases h⟩⟩
      · rename_i h1
        refine ⟨[], _, _, rfl, Or.inl ⟨rfl, rfl⟩, rfl, fun c hc => ⟨hh c hc, ?_⟩⟩
        rintro - rfl
        obtain ⟨q, hq⟩ := List.head?_eq_some_iff.1 hc
        exact h1 q hq
    obtain ⟨ft, fp, r2, e1, e2, e3, e4⟩ := hf
    rw [e3] at hr
    dsimp only at hr
    split at hr
    · cases hr
    · rename_i hne
      split at hr
      · cases hr
      · rename_i e r3 he
        split at hr
        · rename_i hle
          injection hr with hr
          injection hr with h1 h2
          subst h2
          obtain ⟨et, h3, h4, h5, h6⟩ := (readExp_ends ..).1 he
          have hdd : ∀ c ∈ u.takeWhile Num.isDigit ++ fp, Num.isDigit c = true := by
            intro c hc
            rcases List.mem_append.1 hc with hc | hc
            · exact mem_takeWhile _ c hc
            · rcases e2 with ⟨-, rfl⟩ | ⟨-, e2⟩
              · cases hc
              · exact (digits_iff _).1 e2 c hc
          rw [decOf_value hdd] at hle h1
          refine ⟨t.takeWhile Num.isSpace, neg, sg, _, ft, fp, et, e, ?_, (blank_iff _).2 (mem_takeWhile t), hsg,
            (digits_iff _).2 (mem_takeWhile u), e2, h4, ?_, hne, hle, ?_⟩
          · rw [← h3, ← e1, ← hu, ← es, List.takeWhile_append_dropWhile]
          · intro c hc
            rw [← nd]
            by_cases ht : et = []
            · subst ht
              rw [List.nil_append] at h3
              subst h3
              refine ⟨(e4 c hc).1, fun _ => ⟨?_, ?_, (e4 c hc).2⟩⟩
              · rintro rfl; exact (h5 rfl).1 hc
              · rintro rfl; exact (h5 rfl).2 hc
            · exact ⟨h6 ht c hc, fun h => absurd h ht⟩
          · rw [← h1, hq]
        · cases hr
  · rintro ⟨sp, neg, sg, ip, ft, fp, et, e, rfl, h1, h2, h3, h4, h5, h6, h7, h8, rfl⟩
    have hip := (digits_iff _).1 h3
    have hsol : Solid (ip ++ (ft ++ (et ++ rest))) := by
      by_cases hi : ip = []
      · subst hi
        rcases h4 with ⟨rfl, rfl⟩ | ⟨rfl, -⟩
        · exact absurd ⟨rfl, rfl⟩ h7
        · intro c hc
          cases hc
          decide
      · exact solid_digits hip hi
    have hhead : ∀ c, (et ++ rest).head? = some c → Num.isDigit c = false ∧ (ft = [] → c ≠ '.') := by
      intro c hc
      by_cases ht : et = []
      · subst ht
        rw [List.nil_append] at hc
        exact ⟨(nd c).2 (h6 c hc).1, ((h6 c hc).2 rfl).2.2⟩
      · rcases exp_ne_head h5 ht c hc with rfl | rfl
        · exact ⟨by decide, fun _ => by decide⟩
        · exact ⟨by decide, fun _ => by decide⟩
    have hw := dropWhile_split ip (ft ++ (et ++ rest)) hip (by
      intro c hc
      rcases h4 with ⟨rfl, rfl⟩ | ⟨rfl, -⟩
      · exact (hhead c hc).1
      · cases hc; decide)
    have hf : frac (ft ++ (et ++ rest)) = (fp, et ++ rest) := by
      rcases h4 with ⟨rfl, rfl⟩ | ⟨rfl, h4⟩
      · exact frac_other (fun e' => absurd rfl ((hhead '.' e').2 rfl))
      · have := dropWhile_split fp (et ++ rest) ((digits_iff _).1 h4) (fun c hc => (hhead c hc).1)
        rw [List.cons_append, frac_dot, this.1, this.2]
    have hdd : ∀ c ∈ ip ++ fp, Num.isDigit c = true := by
      intro c hc
      rcases List.mem_append.1 hc with hc | hc
      · exact hip c hc
      · rcases h4 with ⟨-, rfl⟩ | ⟨-, e2⟩
        · cases hc
        · exact (digits_iff _).1 e2 c hc
    have he : Num.readExp (et ++ rest) = some (e, rest) := (readExp_ends ..).2 ⟨et, rfl, h5,
      fun ht => ⟨fun hc => ((h6 _ hc).2 ht).1 rfl, fun hc => ((h6 _ hc).2 ht).2.1 rfl⟩, fun _ c hc => (nd c).2 (h6 c hc).1⟩
    rw [readDouble_eq]
    dsimp only
    rw [skip_of h1 h2 hsol]
    dsimp only
    rw [hw.1, hw.2, hf]
    dsimp only
    rw [if_neg h7, he]
    dsimp only
    rw [decOf_value hdd, if_pos h8, hq]

/-- A number has at least one character. -/
theorem RealAhead.shorter {t rest : Text} {q : Rat} (h : RealAhead t q rest) : rest.length < t.length := by
  obtain ⟨sp, neg, sg, ip, ft, fp, et, e, rfl, -, -, -, h4, -, -, h7, -⟩ := h
  have : 0 < ip.length + ft.length := by
    rcases h4 with ⟨rfl, rfl⟩ | ⟨rfl, -⟩
    · cases ip with
      | nil => exact absurd ⟨rfl, rfl⟩ h7
      | cons => simp
    · rw [List.length_cons]; omega
  simp only [List.length_append]
  omega

theorem readAngles_spec : ∀ (fuel : Nat) (t : Text), t.length < fuel → Angles t (readAngles fuel t)
  | 0, _, h => by omega
  | fuel + 1, t, h => by
    have e : readAngles (fuel + 1) t = match Num.readDouble t with
      | none => []
      | some (v, r) => v :: readAngles fuel (match r with
        | ',' :: q | ' ' :: q => q
        | q => q) := rfl
    rw [e]
    cases hr : Num.readDouble t with
    | none =>
      refine .stop ?_
      rintro ⟨q, r, hq⟩
      rw [(readDouble_iff ..).2 hq] at hr
      cases hr
    | some x =>
      obtain ⟨q, r⟩ := x
      have ha := (readDouble_iff ..).1 hr
      have hl := ha.shorter
      dsimp only
      split
      · rename_i r'
        exact .skip ',' (Or.inl rfl) ha (readAngles_spec fuel r' (by simp at hl; omega))
      · rename_i r'
        exact .skip ' ' (Or.inr rfl) ha (readAngles_spec fuel r' (by simp at hl; omega))
      · rename_i h1 h2
        refine .more ⟨fun hh => ?_, fun hh => ?_⟩ ha (readAngles_spec fuel r (by omega))
        · obtain ⟨q', hq⟩ := List.head?_eq_some_iff.1 hh
          exact h1 q' hq
        · obtain ⟨q', hq⟩ := List.head?_eq_some_iff.1 hh
          exact h2 q' hq

theorem RealAhead.unique {t r r' : Text} {q q' : Rat} (h : RealAhead t q r) (h' : RealAhead t q' r') : q = q' ∧ r = r' := by
  have e := (readDouble_iff ..).2 h
  rw [(readDouble_iff ..).2 h'] at e
  injection e with e
  injection e with e1 e2
  exact ⟨e1.symm, e2.symm⟩

/-- A text has one reading. -/
theorem Angles.unique {t : Text} {l : List Rat} (h : Angles t l) : ∀ {l' : List Rat}, Angles t l' → l = l' := by
  induction h with
  | stop h =>
    intro l' h'
    cases h' with
    | stop => rfl
    | skip c hc h1 hr => exact absurd ⟨_, _, h1⟩ h
    | more hc h1 hr => exact absurd ⟨_, _, h1⟩ h
  | skip c hc h hr ih =>
    intro l' h'
    cases h' with
    | stop h1 => exact absurd ⟨_, _, h⟩ h1
    | skip c' hc' h1 hr' =>
      obtain ⟨rfl, e⟩ := h.unique h1
      injection e with e1 e2
      subst e2
      rw [ih hr']
    | more hc' h1 hr' =>
      obtain ⟨rfl, rfl⟩ := h.unique h1
      rcases hc with rfl | rfl
      · exact absurd rfl hc'.1
      · exact absurd rfl hc'.2
  | more hc h hr ih =>
    intro l' h'
    cases h' with
    | stop h1 => exact absurd ⟨_, _, h⟩ h1
    | skip c' hc' h1 hr' =>
      obtain ⟨rfl, rfl⟩ := h.unique h1
      rcases hc' with rfl | rfl
      · exact absurd rfl hc.1
      · exact absurd rfl hc.2
    | more hc' h1 hr' =>
      obtain ⟨rfl, rfl⟩ := h.unique h1
      rw [ih hr']

/-- C107 for the angles, for every text, when the radius can be read: they are the one reading of the text.  What is missing of C107
is refuted: everything from the first thing that is no number on is dropped (`C107_violated_angles`). -/
theorem C107_angles_partial {env : ConfEnv} {t : Tree} {p : Params} (h : load env t = some p) {x : Text × Tree}
    (hx : OnlySection t "hyperbolic" x) {v w : Text} (h1 : Line x.2 "radius" v) (h2 : Line x.2 "angle" w) (hv : ∃ q, IsReal v q) :
    Angles w p.corTheta ∧ ∀ l, Angles w l → l = p.corTheta := by
  have key : Angles w p.corTheta := by
    obtain ⟨q, hq⟩ := hv
    obtain ⟨a, b, hb, -, e⟩ := only_section (fun p : Params => (p.corR, p.corTheta)) (fun _ => rfl) h hx
      (fun y a b hn hs => by obtain ⟨-, e1, e2⟩ := section_coords hs hn; simp only [e1, e2])
    simp only [Prod.mk.injEq] at e
    have hh := hyp_of hx.split.1 hb
    unfold hyperbolic at hh
    dsimp only at hh
    rw [lookup_line.2 h1, lookup_line.2 h2] at hh
    dsimp only [Option.bind] at hh
    split at hh
    · cases hh
    · rw [(parseDouble_iff ..).2 hq] at hh
      dsimp only at hh
      split at hh
      · injection hh with hh
        subst hh
        rw [e.2]
        exact readAngles_spec _ _ (Nat.lt_succ_self _)
      · cases hh
  exact ⟨key, fun l hl => hl.unique key⟩

/-- `1.45,2.5` has two angles, and so has ` 1.45  2.5`; of `1.45;2.5` there is one, of `1.45,x` too, and of `x` none. -/
example : Angles "1.45,2.5".toList [29 / 20, 5 / 2] ∧ Angles " 1.45  2.5".toList [29 / 20, 5 / 2] ∧ Angles "1.45;2.5".toList [29 / 20] ∧
    Angles "1.45,x".toList [29 / 20] ∧ Angles "x".toList [] := by
  have k : ∀ (t : Text) (l : List Rat), readAngles (t.length + 1) t = l → Angles t l :=
    fun t l h => h ▸ readAngles_spec _ _ (Nat.lt_succ_self _)
  exact ⟨k _ _ (by decide +kernel), k _ _ (by decide +kernel), k _ _ (by decide +kernel), k _ _ (by decide +kernel), k _ _ (by decide +kernel)⟩

/-- C107 for the advertised prefixes, for every text: each line of an accepted configuration has a cost that is a number of 64 bits, and
the entry of a name has that of its last line, as a double. -/
theorem C107_prefix_costs {env : ConfEnv} {t : Tree} {p : Params} (h : load env t = some p) :
    (∀ y ∈ prefixesIn t, ∃ k, IsUnsigned 64 y.2.data k) ∧
    ∀ e ∈ p.npl, ∃ pre y post k, prefixesIn t = pre ++ y :: post ∧ Uri.parseName (y.1.takeWhile (· != '\x00')) = some e.name ∧
      IsUnsigned 64 y.2.data k ∧ (∀ z ∈ post, Uri.parseName (z.1.takeWhile (· != '\x00')) ≠ some e.name) ∧
      e.cost = .fin (Dbl.roundNat k : Nat) := by
  obtain ⟨h1, -, h3⟩ := C107_prefixes h
  refine ⟨fun y hy => ?_, fun e he => ?_⟩
  · obtain ⟨n, k, e, -⟩ := h1 y hy
    exact ⟨k, (parseUnsigned_iff ..).1 (congrArg Prod.snd e)⟩
  · obtain ⟨-, pre, y, post, k, e1, e2, e3, e4⟩ := h3 e he
    exact ⟨pre, y, post, k, e1, congrArg Prod.fst e2, (parseUnsigned_iff ..).1 (congrArg Prod.snd e2), e3, e4⟩

/-- The file has three lines, two of them for the same name. -/
example : (load exEnv exWords).isSome = true ∧ (prefixesIn exWords).length = 3 := by decide +kernel

end Nlsr.NumText
