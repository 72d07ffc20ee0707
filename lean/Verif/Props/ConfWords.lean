import Verif.Props.ConfNames
import Verif.Lemmas.Cmd
/-
C107: what an accepted configuration file says is what the router does: sync protocol, hyperbolic state, coordinates,
neighbours and prefixes.
-/
namespace Nlsr
open Conf

/-- The sections called `name`, in the order of the file. -/
def sectionsOf (t : Tree) (name : String) : List Tree := (t.kids.filter (fun y => y.1 = name.toList)).map (·.2)

theorem sectionsOf_cons (d : Text) (x : Text × Tree) (xs : List (Text × Tree)) (name : String) :
    sectionsOf (.node d (x :: xs)) name =
      if x.1 = name.toList then x.2 :: sectionsOf (.node d xs) name else sectionsOf (.node d xs) name := by
  unfold sectionsOf
  show List.map _ (List.filter _ (x :: xs)) = _
  rw [List.filter_cons]
  by_cases h : x.1 = name.toList
  · rw [if_pos (decide_eq_true h), if_pos h]; rfl
  · rw [if_neg (by rw [decide_eq_false h]; exact Bool.false_ne_true), if_neg h]; rfl

/-- Every `neighbor` written in a file, in order. -/
def neighborsIn (t : Tree) : List Tree :=
  (sectionsOf t "neighbors").flatMap (fun s => sectionsOf s "neighbor")

/-- Every line of the advertising sections, in order: a name and a cost. -/
def prefixesIn (t : Tree) : List (Text × Tree) := (sectionsOf t "advertising").flatMap (·.kids)

theorem protocolOf_word {w : Text} {pr : SyncProtocol} (h : protocolOf w = some pr) :
    w = (match pr with | .chronosync => "chronosync" | .psync => "psync" | .svs => "svs").toList := by
  unfold protocolOf at h
  split at h
  · injection h with h; subst h; assumption
  · split at h
    · injection h with h; subst h; assumption
    · split at h
      · injection h with h; subst h; assumption
      · cases h

/-- C107: the sync protocol is the one named in the file, psync if none is named; any other word is refused. -/
theorem C107_protocol {env : ConfEnv} {t : Tree} {p : Params} (h : load env t = some p) {x : Text × Tree}
    (hx : OnlySection t "general" x) :
    ((∀ y ∈ x.2.kids, y.1 ≠ "sync-protocol".toList) → p.protocol = .psync) ∧
    ∀ w, Line x.2 "sync-protocol" w →
      w = (match p.protocol with | .chronosync => "chronosync" | .psync => "psync" | .svs => "svs").toList := by
  obtain ⟨a, b, hb, -, e⟩ := only_section Params.gen (fun _ => rfl) h hx keep_gen
  have hg := general_of hx.split.1 hb
  unfold general at hg
  simp only [bind, Option.bind_eq_some_iff] at hg
  obtain ⟨proto, hp, p1, h1, p2, h2, dir, -, h4⟩ := hg
  obtain ⟨n, s, r, -, -, -, -, -, -, e1⟩ := generalNames_spec h1
  obtain ⟨-, -, -, -, g5⟩ := generalTimes_spec h2
  have ep : p.protocol = proto := by
    have : p.protocol = b.protocol := congrArg (fun q => q.1.1) e
    rw [this]
    split at h4
    · injection h4 with h4
      rw [← h4, g5, e1]
      rfl
    · cases h4
  rw [ep]
  constructor
  · intro hn
    rw [lookup_none.2 hn] at hp
    have := protocolOf_word hp
    revert this
    cases proto <;> first | (intro _; rfl) | (intro e; exact absurd e (by decide))
  · intro w hw
    rw [lookup_line.2 hw] at hp
    exact protocolOf_word hp

/-! ### hyperbolic routing -/

theorem hyp_of {env : ConfEnv} {x : Text × Tree} {a b : Params} (hx : x.1 = "hyperbolic".toList)
    (h : section_ env x.1 x.2 a = some b) : hyperbolic x.2 a = some b := by
  cases section_cases h with
  | hyperbolic _ h => exact h
  | general e => rw [hx] at e; exact absurd e (by decide)
  | neighbors e => rw [hx] at e; exact absurd e (by decide)
  | fib e => rw [hx] at e; exact absurd e (by decide)
  | advertising e => rw [hx] at e; exact absurd e (by decide)
  | same _ _ _ h3 => exact absurd hx h3

/-- C107: hyperbolic routing is in the state the file names, in upper or lower case; any other word is refused.  A file
without a `hyperbolic` section, or without a state in it, leaves it off. -/
theorem C107_state {env : ConfEnv} {t : Tree} {p : Params} (h : load env t = some p) :
    ((∀ x ∈ t.kids, x.1 ≠ "hyperbolic".toList) → p.hyp = .off) ∧
    ∀ x, OnlySection t "hyperbolic" x → ((∀ y ∈ x.2.kids, y.1 ≠ "state".toList) → p.hyp = .off) ∧
      ∀ w, Line x.2 "state" w →
        w.map Char.toLower = (match p.hyp with | .off => "off" | .on => "on" | .dryRun => "dry-run").toList := by
  constructor
  · intro hn
    unfold load at h
    simp only [Option.map_eq_some_iff] at h
    obtain ⟨q, hq, rfl⟩ := h
    show q.hyp = .off
    exact sections_ind (P := fun z => z.hyp = .off) (fun y hy a b h1 h2 => (section_coords h2 (hn y hy)).1.trans h1) rfl hq
  · intro x hx
    obtain ⟨a, b, hb, -, e⟩ := only_section (fun p : Params => p.hyp) (fun _ => rfl) h hx
      (fun y a b hn hs => (section_coords hs hn).1)
    have hh := hyp_of hx.split.1 hb
    unfold hyperbolic at hh
    dsimp only at hh
    have key : ∀ {w : Text} {st : HypState}, (if iequals w "off" = true then some HypState.off
        else if iequals w "on" = true then some .on else if iequals w "dry-run" = true then some .dryRun else none) = some st →
        w.map Char.toLower = (match st with | .off => "off" | .on => "on" | .dryRun => "dry-run").toList := by
      intro w st hw
      unfold iequals at hw
      simp only [beq_iff_eq] at hw
      split at hw
      · injection hw with hw; subst hw; assumption
      · split at hw
        · injection hw with hw; subst hw; assumption
        · split at hw
          · injection hw with hw; subst hw; assumption
          · cases hw
    split at hh
    · cases hh
    · rename_i st hst
      have k := key hst
      have eb : b.hyp = st := by
        split at hh
        · split at hh
          · injection hh with hh; subst hh; rfl
          · cases hh
        · split at hh
          · cases hh
          · injection hh with hh; subst hh; rfl
      rw [show p.hyp = st from e.trans eb]
      constructor
      · intro hn
        rw [lookup_none.2 hn] at k
        revert k
        cases st <;> first | (intro _; rfl) | (intro k; exact absurd k (by decide +kernel))
      · intro w hw
        rw [lookup_line.2 hw] at k
        exact k

/-- A number as it is usually written: digits, a point, digits. -/
structure Decimal where
  whole : Text
  frac : Text
  ne : whole ≠ []
  digits : ∀ ch ∈ whole ++ frac, ch ∈ ['0', '1', '2', '3', '4', '5', '6', '7', '8', '9']

def Decimal.text (d : Decimal) : Text := d.whole ++ '.' :: d.frac

/-- The digits as a number, divided by ten for each one after the point. -/
def Decimal.value (d : Decimal) : Rat := (Num.decOf (d.whole ++ d.frac) : Rat) / ((10 ^ d.frac.length : Nat) : Rat)

theorem isDigit_of {ch : Char} (h : ch ∈ ['0', '1', '2', '3', '4', '5', '6', '7', '8', '9']) : Num.isDigit ch = true := by
  have : ∀ c ∈ ['0', '1', '2', '3', '4', '5', '6', '7', '8', '9'], Num.isDigit c = true := by decide
  exact this ch h

theorem takeWhile_all {q : Char → Bool} : ∀ {l r : Text}, (∀ x ∈ l, q x = true) → (∀ x, r.head? = some x → q x = false) →
    (l ++ r).takeWhile q = l ∧ (l ++ r).dropWhile q = r
  | [], r, _, hr => by
    cases r with
    | nil => exact ⟨rfl, rfl⟩
    | cons x r =>
      have := hr x rfl
      simp [this]
  | y :: l, r, hl, hr => by
    obtain ⟨h1, h2⟩ := takeWhile_all (l := l) (r := r) (fun x hx => hl x (List.mem_cons_of_mem _ hx)) hr
    have := hl y (List.mem_cons_self ..)
    simp [this, h1, h2]

/-- What follows a number is nothing, a comma or a blank. -/
theorem readDouble_digits (d : Decimal) {r : Text} (hr : r = [] ∨ ∃ q, r = ',' :: q ∨ r = ' ' :: q) :
    Num.readDouble (d.text ++ r) = if d.value ≤ Num.dblMax then some (d.value, r) else none := by
  have hw : ∀ x ∈ d.whole, Num.isDigit x = true := fun x hx => isDigit_of (d.digits x (List.mem_append_left _ hx))
  have hf : ∀ x ∈ d.frac, Num.isDigit x = true := fun x hx => isDigit_of (d.digits x (List.mem_append_right _ hx))
  obtain ⟨c, cs, hc⟩ : ∃ c cs, d.whole = c :: cs := List.exists_cons_of_ne_nil d.ne
  have hcm := d.digits c (by rw [hc]; simp)
  have hrd : ∀ x, r.head? = some x → Num.isDigit x = false := by
    intro x hx
    rcases hr with rfl | ⟨q, rfl | rfl⟩
    · cases hx
    · injection hx with hx; subst hx; decide
    · injection hx with hx; subst hx; decide
  have e : d.text ++ r = d.whole ++ '.' :: (d.frac ++ r) := by simp [Decimal.text]
  have hsp : ∀ ch ∈ ['0', '1', '2', '3', '4', '5', '6', '7', '8', '9'], Num.isSpace ch = false ∧ ch ≠ '-' ∧ ch ≠ '+' := by decide
  obtain ⟨s1, s2, s3⟩ := hsp c hcm
  have h1 : (d.text ++ r).dropWhile Num.isSpace = d.whole ++ '.' :: (d.frac ++ r) := by
    rw [e, hc]
    simp [s1]
  have h2 : Num.sign (d.whole ++ '.' :: (d.frac ++ r)) = (false, d.whole ++ '.' :: (d.frac ++ r)) := by
    rw [hc]
    show Num.sign (c :: _) = _
    unfold Num.sign
    split
    · rename_i heq; injection heq with heq; exact absurd heq s2
    · rename_i heq; injection heq with heq; exact absurd heq s3
    · rfl
  obtain ⟨t1, t2⟩ := takeWhile_all (q := Num.isDigit) (l := d.whole) (r := '.' :: (d.frac ++ r)) hw
    (fun x hx => by injection hx with hx; subst hx; decide)
  obtain ⟨t3, t4⟩ := takeWhile_all (q := Num.isDigit) (l := d.frac) (r := r) hf hrd
  have h3 : Num.readExp r = some (0, r) := by
    rcases hr with rfl | ⟨q, rfl | rfl⟩ <;> rfl
  have h4 : (Num.decOf (d.whole ++ d.frac) : Rat) * Num.pow10 (0 - (d.frac.length : Int)) = d.value := by
    unfold Num.pow10 Decimal.value
    by_cases h0 : d.frac.length = 0
    · rw [h0, if_pos (by omega)]; simp [Rat.div_def, show (1 : Rat)⁻¹ = 1 by decide +kernel]
    · rw [if_neg (by omega), show (-(0 - (d.frac.length : Int))).toNat = d.frac.length by omega, Rat.div_def, Rat.div_def]
      rw [Rat.one_mul]
  unfold Num.readDouble
  rw [h1, h2]
  dsimp only
  rw [t1, t2]
  show (if d.whole = [] ∧ List.takeWhile Num.isDigit (d.frac ++ r) = [] then none
    else match Num.readExp (List.dropWhile Num.isDigit (d.frac ++ r)) with
      | none => none
      | some (e, r3) =>
        let v : Rat := (Num.decOf (d.whole ++ List.takeWhile Num.isDigit (d.frac ++ r)) : Rat) *
          Num.pow10 (e - (List.takeWhile Num.isDigit (d.frac ++ r)).length)
        if v ≤ Num.dblMax then some (if false = true then -v else v, r3) else none) = _
  rw [t3, t4, if_neg (fun h => d.ne h.1), h3]
  dsimp only
  rw [h4]
  rfl

theorem readDouble_decimal (d : Decimal) (hv : d.value ≤ Num.dblMax) {r : Text} (hr : r = [] ∨ ∃ q, r = ',' :: q ∨ r = ' ' :: q) :
    Num.readDouble (d.text ++ r) = some (d.value, r) := by
  rw [readDouble_digits d hr, if_pos hv]

/-- Numbers with a comma after each but the last. -/
def commas : List Decimal → Text
  | [] => []
  | [d] => d.text
  | d :: ds => d.text ++ ',' :: commas ds

theorem readAngles_commas : ∀ (ds : List Decimal) (fuel : Nat), ds.length < fuel → (∀ d ∈ ds, d.value ≤ Num.dblMax) →
    readAngles fuel (commas ds) = ds.map Decimal.value
  | [], 0, h, _ => by simp at h
  | [], fuel + 1, _, _ => by
    unfold readAngles commas
    rfl
  | [d], 0, h, _ => by simp at h
  | [d], 1, h, _ => by simp at h
  | [d], fuel + 2, _, hv => by
    unfold readAngles
    have := readDouble_decimal d (hv d (by simp)) (r := []) (Or.inl rfl)
    rw [List.append_nil] at this
    rw [show commas [d] = d.text from rfl, this]
    dsimp only
    have e0 : readAngles (fuel + 1) [] = [] := by unfold readAngles; rfl
    rw [e0]
    rfl
  | d :: d' :: ds, 0, h, _ => by simp at h
  | d :: d' :: ds, fuel + 1, h, hv => by
    unfold readAngles
    have := readDouble_decimal d (hv d (by simp)) (r := ',' :: commas (d' :: ds)) (Or.inr ⟨_, Or.inl rfl⟩)
    rw [show commas (d :: d' :: ds) = d.text ++ ',' :: commas (d' :: ds) from rfl, this]
    have ih := readAngles_commas (d' :: ds) fuel (by simp at h ⊢; omega) (fun x hx => hv x (List.mem_cons_of_mem _ hx))
    exact congrArg (d.value :: ·) ih

theorem commas_length : ∀ (ds : List Decimal), ds.length ≤ (commas ds).length
  | [] => Nat.le_refl _
  | [d] => by
    simp only [commas, Decimal.text, List.length_append, List.length_cons, List.length_nil]
    omega
  | d :: d' :: ds => by
    have := commas_length (d' :: ds)
    simp only [commas, List.length_append, List.length_cons] at this ⊢
    omega

/-- C107 for coordinates written as decimal numbers, the angles with commas between them: the radius and the angles are
those in the file.  Missing: other ways to write them, of which everything from the first thing that is not a number on is
dropped (`C107_violated_angles`). -/
theorem C107_coordinates_partial {env : ConfEnv} {t : Tree} {p : Params} (h : load env t = some p) {x : Text × Tree}
    (hx : OnlySection t "hyperbolic" x) {r : Decimal} {ds : List Decimal} (hr : r.value ≤ Num.dblMax)
    (hd : ∀ d ∈ ds, d.value ≤ Num.dblMax) (h1 : Line x.2 "radius" r.text) (h2 : Line x.2 "angle" (commas ds)) :
    p.corR = r.value ∧ p.corTheta = ds.map Decimal.value := by
  obtain ⟨a, b, hb, -, e⟩ := only_section (fun p : Params => (p.corR, p.corTheta)) (fun _ => rfl) h hx
    (fun y a b hn hs => by obtain ⟨-, e1, e2⟩ := section_coords hs hn; simp only [e1, e2])
  simp only [Prod.mk.injEq] at e
  have hpd : Num.parseDouble r.text = some r.value := by
    have := readDouble_decimal r hr (r := []) (Or.inl rfl)
    rw [List.append_nil] at this
    unfold Num.parseDouble Num.entire
    rw [this]
    rfl
  have hh := hyp_of hx.split.1 hb
  unfold hyperbolic at hh
  dsimp only at hh
  rw [lookup_line.2 h1, lookup_line.2 h2] at hh
  dsimp only [Option.bind] at hh
  rw [hpd] at hh
  dsimp only at hh
  split at hh
  · cases hh
  · split at hh
    · injection hh with hh
      subst hh
      exact ⟨e.1, e.2.trans (readAngles_commas ds _ (by have := commas_length ds; omega) hd)⟩
    · cases hh
/-! ### neighbours -/

/-- The name, the face URI and the cost written for a neighbour; the cost is 10 if none is written that can be read. -/
def neighborAt (env : ConfEnv) (y : Tree) : Option Name × Option String × Ext Rat :=
  ((lookup "name" y).bind Uri.parseName, (lookup "face-uri" y).bind env.faceUri,
    .fin (((lookup "link-cost" y).bind Num.parseDouble).getD 10))

theorem linkCost_eq (y : Tree) : linkCost y = ((lookup "link-cost" y).bind Num.parseDouble).getD 10 := by
  unfold linkCost
  cases lookup "link-cost" y <;> rfl

/-- What a neighbour in the file does to the list. -/
theorem neighbor_adds {env : ConfEnv} {y : Tree} {a b : Params} (h : neighbor env y a = some b) :
    ∃ n u, (lookup "name" y).bind Uri.parseName = some n ∧ (lookup "face-uri" y).bind env.faceUri = some u ∧
      ((n = [] ∧ b = a) ∨ n ≠ [] ∧ b = { a with adjl := (AdjacencyList.insert a.adjl
        { name := n, uri := u, cost := (neighborAt env y).2.2, status := .inactive, timedOut := 0, faceId := 0 }).1 }) := by
  unfold neighbor at h
  simp only [bind, Option.bind_eq_some_iff] at h
  obtain ⟨name, hname, uri, huri, uri', huri', n, hn, h⟩ := h
  refine ⟨n, uri', by rw [hname]; exact hn, by rw [huri]; exact huri', ?_⟩
  split at h
  · rename_i he
    injection h with h
    exact Or.inl ⟨he, h.symm⟩
  · rename_i he
    obtain ⟨x, hx, h⟩ := Option.bind_eq_some_iff.1 h
    injection h with h
    obtain ⟨-, rfl⟩ := setLinkCost_spec hx
    rw [linkCost_eq] at h
    exact Or.inr ⟨he, h.symm⟩

/-- The names in a list of neighbours as written. -/
def NewNames (l : AdjacencyList) (ys : List (Option Name)) : Prop :=
  ys.Nodup ∧ some [] ∉ ys ∧ ∀ a ∈ l, some a.name ∉ ys

theorem loop_adds {env : ConfEnv} : ∀ {kids : List (Text × Tree)} {p q : Params}, neighborsLoop env kids p = some q →
    NewNames p.adjl ((sectionsOf (.node [] kids) "neighbor").map (fun y => (neighborAt env y).1)) →
    q.adjl.map (fun a => (some a.name, some a.uri, a.cost)) =
      p.adjl.map (fun a => (some a.name, some a.uri, a.cost)) ++ (sectionsOf (.node [] kids) "neighbor").map (neighborAt env)
  | [], p, q, h, _ => by
    injection h with h
    rw [h]
    simp [sectionsOf, Tree.kids]
  | x :: xs, p, q, h, hf => by
    unfold neighborsLoop at h
    by_cases hx : x.1 = "neighbor".toList
    · rw [if_pos hx] at h
      have es : sectionsOf (.node [] (x :: xs)) "neighbor" = x.2 :: sectionsOf (.node [] xs) "neighbor" := by
        rw [sectionsOf_cons, if_pos hx]
      rw [es] at hf ⊢
      cases hn : neighbor env x.2 p with
      | none => rw [hn] at h; cases h
      | some p1 =>
        rw [hn] at h
        obtain ⟨n, u, h1, h2, h3⟩ := neighbor_adds hn
        obtain ⟨f1, f2, f3⟩ := hf
        have en : (neighborAt env x.2).1 = some n := h1
        have eu : (neighborAt env x.2).2.1 = some u := h2
        rw [List.map_cons, en] at f1 f2 f3
        obtain ⟨f4, f5⟩ := List.nodup_cons.1 f1
        rcases h3 with ⟨e, -⟩ | ⟨-, e⟩
        · exact absurd (by rw [e]; exact List.mem_cons_self ..) f2
        · have hfind : AdjacencyList.find p.adjl n = none := by
            unfold AdjacencyList.find
            rw [List.find?_eq_none]
            intro a ha e
            have e := eq_of_beq e
            exact f3 a ha (by rw [e]; exact List.mem_cons_self ..)
          have ea : p1.adjl = p.adjl ++ [{ name := n, uri := u, cost := (neighborAt env x.2).2.2, status := .inactive, timedOut := 0, faceId := 0 }] := by
            rw [e]
            unfold AdjacencyList.insert
            dsimp only
            rw [hfind]
          rw [loop_adds h ⟨f5, fun hm => f2 (List.mem_cons_of_mem _ hm), by
            intro a ha hm
            rw [ea] at ha
            rcases List.mem_append.1 ha with ha | ha
            · exact f3 a ha (List.mem_cons_of_mem _ hm)
            · rw [List.mem_singleton.1 ha] at hm
              exact f4 hm⟩, ea]
          simp only [List.map_append, List.map_cons, List.map_nil, List.append_assoc, List.cons_append, List.nil_append]
          rw [← en, ← eu]
    · rw [if_neg hx] at h
      have es : sectionsOf (.node [] (x :: xs)) "neighbor" = sectionsOf (.node [] xs) "neighbor" := by
        rw [sectionsOf_cons, if_neg hx]
      rw [es] at hf ⊢
      exact loop_adds h hf

theorem sections_adds {env : ConfEnv} : ∀ {kids : List (Text × Tree)} {p q : Params}, sections env kids p = some q →
    NewNames p.adjl ((neighborsIn (.node [] kids)).map (fun y => (neighborAt env y).1)) →
    q.adjl.map (fun a => (some a.name, some a.uri, a.cost)) =
      p.adjl.map (fun a => (some a.name, some a.uri, a.cost)) ++ (neighborsIn (.node [] kids)).map (neighborAt env)
  | [], p, q, h, _ => by
    injection h with h
    rw [h]
    simp [neighborsIn, sectionsOf, Tree.kids]
  | x :: xs, p, q, h, hf => by
    unfold sections at h
    cases hs : section_ env x.1 x.2 p with
    | none => rw [hs] at h; cases h
    | some p1 =>
      rw [hs] at h
      dsimp only at h
      by_cases hx : x.1 = "neighbors".toList
      · have es : neighborsIn (.node [] (x :: xs)) = sectionsOf x.2 "neighbor" ++ neighborsIn (.node [] xs) := by
          unfold neighborsIn
          rw [sectionsOf_cons, if_pos hx]
          rfl
        rw [es, List.map_append] at hf
        obtain ⟨f1, f2, f3⟩ := hf
        obtain ⟨g1, g2, g3⟩ := List.nodup_append.1 f1
        obtain ⟨p0, h0, h1⟩ := neighbors_spec (neighbors_of hx hs)
        obtain ⟨-, -, -, -, -, -, g7⟩ := helloTimes_spec h0
        have e0 : p0.adjl = p.adjl := by rw [g7]
        have hk : sectionsOf x.2 "neighbor" = sectionsOf (.node [] x.2.kids) "neighbor" := rfl
        have h2 := loop_adds h1 ⟨by rw [← hk]; exact g1, fun hm => f2 (List.mem_append_left _ (by rw [hk]; exact hm)),
          fun a ha hm => f3 a (by rw [← e0]; exact ha) (List.mem_append_left _ (by rw [hk]; exact hm))⟩
        rw [e0, ← hk] at h2
        rw [sections_adds h ⟨g2, fun hm => f2 (List.mem_append_right _ hm), by
          intro a ha hm
          have ham : (some a.name, some a.uri, a.cost) ∈ p1.adjl.map (fun a => (some a.name, some a.uri, a.cost)) := List.mem_map_of_mem ha
          rw [h2] at ham
          rcases List.mem_append.1 ham with ham | ham
          · obtain ⟨a', ha', e⟩ := List.mem_map.1 ham
            simp only [Prod.mk.injEq, Option.some.injEq] at e
            exact f3 a' ha' (by rw [e.1]; exact List.mem_append_right _ hm)
          · obtain ⟨y, hy, e⟩ := List.mem_map.1 ham
            exact g3 _ (List.mem_map_of_mem hy) _ hm (congrArg Prod.fst e)⟩, h2, es, List.map_append, List.append_assoc]
      · have es : neighborsIn (.node [] (x :: xs)) = neighborsIn (.node [] xs) := by
          unfold neighborsIn
          rw [sectionsOf_cons, if_neg hx]
        have e1 : p1.adjl = p.adjl := congrArg Prod.snd (keep_hello x p p1 hx hs)
        rw [es] at hf ⊢
        rw [sections_adds h (by rw [e1]; exact hf), e1]

/-- C107 for files that name no neighbour twice, and every neighbour with at least one component: the neighbours are exactly
those in the file, in that order, each with the face and the cost written there, or 10.  Missing: the others, of which one is
dropped without a message (`C107_violated_neighbor`), and costs that cannot be read (`C107_violated_cost`). -/
theorem C107_neighbors_partial {env : ConfEnv} {t : Tree} {p : Params} (h : load env t = some p)
    (hd : ((neighborsIn t).map (fun y => (lookup "name" y).bind Uri.parseName)).Nodup)
    (hn : ∀ y ∈ neighborsIn t, (lookup "name" y).bind Uri.parseName ≠ some []) :
    p.adjl.map (fun a => (some a.name, some a.uri, a.cost)) =
      (neighborsIn t).map (fun y => ((lookup "name" y).bind Uri.parseName, (lookup "face-uri" y).bind env.faceUri,
        .fin (((lookup "link-cost" y).bind Num.parseDouble).getD 10))) := by
  unfold load at h
  simp only [Option.map_eq_some_iff] at h
  obtain ⟨q, hq, rfl⟩ := h
  have := sections_adds (p := {}) hq ⟨hd, fun hm => by
    obtain ⟨y, hy, e⟩ := List.mem_map.1 hm
    exact hn y hy e, nofun⟩
  exact this

/-! ### prefixes -/

/-- The name in a line of an advertising section (up to a NUL), and its cost. -/
def prefixAt (y : Text × Tree) : Option Name × Option Nat :=
  (Uri.parseName (y.1.takeWhile (· != '\x00')), Num.parseUnsigned 64 y.2.data)

/-- The last line with that name. -/
def lastLine (n : Name) (ys : List (Text × Tree)) : Option (Text × Tree) := ys.reverse.find? (fun y => (prefixAt y).1 = some n)

/-- What the list says of a name: its sources and its cost. -/
def said (l : Npl) (n : Name) : Option (List String × Ext Rat) := (Npl.get l n).map (fun e => (e.sources, e.cost))

theorem lastLine_cons (n : Name) (y : Text × Tree) (ys : List (Text × Tree)) :
    lastLine n (y :: ys) = (lastLine n ys).or (if (prefixAt y).1 = some n then some y else none) := by
  unfold lastLine
  rw [List.reverse_cons, List.find?_append]
  congr 1
  rw [List.find?_singleton]
  by_cases h : (prefixAt y).1 = some n
  · rw [if_pos h, if_pos (decide_eq_true h)]
  · rw [if_neg h, if_neg (by rw [decide_eq_false h]; exact Bool.false_ne_true)]

theorem lastLine_append (n : Name) (ys zs : List (Text × Tree)) : lastLine n (ys ++ zs) = (lastLine n zs).or (lastLine n ys) := by
  unfold lastLine
  rw [List.reverse_append, List.find?_append]

/-- What the lines make of what was said before. -/
def saidAfter (ys : List (Text × Tree)) (before : Option (List String × Ext Rat)) (n : Name) : Option (List String × Ext Rat) :=
  match lastLine n ys with
  | some y => some ([""], .fin (Dbl.roundNat ((prefixAt y).2.getD 0) : Nat))
  | none => before

theorem saidAfter_append (ys zs : List (Text × Tree)) (b : Option (List String × Ext Rat)) (n : Name) :
    saidAfter (ys ++ zs) b n = saidAfter zs (saidAfter ys b n) n := by
  unfold saidAfter
  rw [lastLine_append]
  cases lastLine n zs <;> rfl

/-- What holds of the list of prefixes after the lines `ys`. -/
structure LinesTold (ys : List (Text × Tree)) (p q : Params) : Prop where
  sorted : Npl.Sorted q.npl
  plain : Npl.Plain q.npl
  read : ∀ y ∈ ys, ∃ n k, prefixAt y = (some n, some k) ∧ n ≠ []
  said : ∀ n, said q.npl n = saidAfter ys (said p.npl n) n

theorem LinesTold.append {ys zs : List (Text × Tree)} {p q r : Params} (h1 : LinesTold ys p q) (h2 : LinesTold zs q r) : LinesTold (ys ++ zs) p r where
  sorted := h2.sorted
  plain := h2.plain
  read := fun y hy => (List.mem_append.1 hy).elim (h1.read y) (h2.read y)
  said := fun n => by rw [h2.said, h1.said, saidAfter_append]

theorem LinesTold.nil {p q : Params} (h : q.npl = p.npl) (hs : Npl.Sorted p.npl) (hp : Npl.Plain p.npl) : LinesTold [] p q where
  sorted := by rw [h]; exact hs
  plain := by rw [h]; exact hp
  read := nofun
  said := fun n => by rw [h]; rfl

theorem advertising_adds : ∀ {kids : List (Text × Tree)} {p q : Params}, advertising kids p = some q → Npl.Sorted p.npl →
    Npl.Plain p.npl → LinesTold kids p q
  | [], p, q, h, hs, hp => by
    injection h with h
    exact .nil (by rw [h]) hs hp
  | x :: xs, p, q, h, hs, hp => by
    unfold advertising at h
    split at h
    · rename_i n k hn hk
      refine LinesTold.append (ys := [x]) ?_ (advertising_adds h (Npl.insert_sorted hs _ _ _) (Npl.insert_plain hs hp _ _))
      have hn' : (prefixAt x).1 = some n := by
        unfold nonEmptyName at hn
        split at hn
        · rename_i m hm
          split at hn
          · cases hn
          · exact hm.trans hn
        · cases hn
      have hk' : (prefixAt x).2 = some k := hk
      refine ⟨Npl.insert_sorted hs _ _ _, Npl.insert_plain hs hp _ _, ?_, ?_⟩
      · intro y hy
        rw [List.mem_singleton.1 hy]
        exact ⟨n, k, by rw [← hn', ← hk'], nonEmptyName_ne hn⟩
      · intro m
        unfold saidAfter
        rw [lastLine_cons, hn']
        show Option.map _ (Npl.get _ m) = _
        rw [Npl.get_insert hs]
        by_cases e : m = n
        · subst e
          rw [if_pos rfl, if_pos rfl]
          show some _ = some _
          rw [hk']
          cases hg : Npl.get p.npl m with
          | none => rfl
          | some e => dsimp only; rw [hp m e hg]; rfl
        · rw [if_neg e, if_neg (fun h => e (Option.some.inj h).symm)]
          rfl
    · cases h

theorem adv_of {env : ConfEnv} {x : Text × Tree} {a b : Params} (hx : x.1 = "advertising".toList)
    (h : section_ env x.1 x.2 a = some b) : advertising x.2.kids a = some b := by
  cases section_cases h with
  | advertising _ h => exact h
  | general e => rw [hx] at e; exact absurd e (by decide)
  | neighbors e => rw [hx] at e; exact absurd e (by decide)
  | fib e => rw [hx] at e; exact absurd e (by decide)
  | hyperbolic e => rw [hx] at e; exact absurd e (by decide)
  | same _ _ _ _ h4 => exact absurd hx h4

theorem keep_npl {env : ConfEnv} (y : Text × Tree) (a b : Params) (hn : y.1 ≠ "advertising".toList)
    (h : section_ env y.1 y.2 a = some b) : b.npl = a.npl := by
  cases section_cases h with
  | general _ h =>
    obtain ⟨proto, n, s, r, p1, p2, dir, -, -, -, -, -, -, h1, h2, -, -, h3⟩ := general_spec h
    obtain ⟨-, -, -, -, g5⟩ := generalTimes_spec h2
    subst h1
    rw [h3, g5]; rfl
  | neighbors _ h =>
    obtain ⟨p1, h1, h2⟩ := neighbors_spec h
    obtain ⟨-, -, -, -, -, -, g7⟩ := helloTimes_spec h1
    rw [neighborsLoop_other h2, g7]
  | hyperbolic _ h => rw [hyperbolic_other h]
  | fib _ h => rw [(fib_spec h).2.2]
  | advertising e _ => exact absurd e hn
  | same h => rw [h]

theorem sections_told {env : ConfEnv} : ∀ {kids : List (Text × Tree)} {p q : Params}, sections env kids p = some q →
    Npl.Sorted p.npl → Npl.Plain p.npl → LinesTold (prefixesIn (.node [] kids)) p q
  | [], p, q, h, hs, hp => by
    injection h with h
    exact .nil (by rw [h]) hs hp
  | x :: xs, p, q, h, hs, hp => by
    unfold sections at h
    cases hx : section_ env x.1 x.2 p with
    | none => rw [hx] at h; cases h
    | some p1 =>
      rw [hx] at h
      dsimp only at h
      by_cases hn : x.1 = "advertising".toList
      · have es : prefixesIn (.node [] (x :: xs)) = x.2.kids ++ prefixesIn (.node [] xs) := by
          unfold prefixesIn
          rw [sectionsOf_cons, if_pos hn]
          rfl
        have h1 := advertising_adds (adv_of hn hx) hs hp
        rw [es]
        exact h1.append (sections_told h h1.sorted h1.plain)
      · have es : prefixesIn (.node [] (x :: xs)) = prefixesIn (.node [] xs) := by
          unfold prefixesIn
          rw [sectionsOf_cons, if_neg hn]
        have e := keep_npl x p p1 hn hx
        rw [es]
        have h1 := sections_told h (by rw [e]; exact hs) (by rw [e]; exact hp)
        exact ⟨h1.sorted, h1.plain, h1.read, fun n => by rw [h1.said, e]⟩

/-- C107: every line of the advertising sections has a name and a cost that could be read, and the prefixes advertised are
exactly the names of those lines, each with the cost of the last line that has it, as a double. -/
theorem C107_prefixes {env : ConfEnv} {t : Tree} {p : Params} (h : load env t = some p) :
    (∀ y ∈ prefixesIn t, ∃ n k, prefixAt y = (some n, some k) ∧ n ≠ []) ∧
    (∀ n, n ∈ p.npl.names ↔ ∃ y ∈ prefixesIn t, (prefixAt y).1 = some n) ∧
    ∀ e ∈ p.npl, e.sources = [""] ∧ ∃ pre y post k, prefixesIn t = pre ++ y :: post ∧ prefixAt y = (some e.name, some k) ∧
      (∀ z ∈ post, (prefixAt z).1 ≠ some e.name) ∧ e.cost = .fin (Dbl.roundNat k : Nat) := by
  unfold load at h
  simp only [Option.map_eq_some_iff] at h
  obtain ⟨q, hq, rfl⟩ := h
  have hT : LinesTold (prefixesIn t) {} q := sections_told hq List.Pairwise.nil (fun n e he => by cases he)
  have hsd : ∀ n, said q.npl n = saidAfter (prefixesIn t) none n := hT.said
  refine ⟨hT.read, ?_, ?_⟩
  · intro n
    show n ∈ q.npl.names ↔ _
    rw [Npl.mem_names_iff]
    have h1 : (Npl.get q.npl n).isSome = (said q.npl n).isSome := by unfold said; rw [Option.isSome_map]
    have h2 : (said q.npl n).isSome = (lastLine n (prefixesIn t)).isSome := by
      rw [hsd]; unfold saidAfter; cases lastLine n (prefixesIn t) <;> rfl
    have h3 : (lastLine n (prefixesIn t)).isSome = true ↔ ∃ y ∈ prefixesIn t, (prefixAt y).1 = some n := by
      unfold lastLine
      rw [List.find?_isSome]
      constructor
      · rintro ⟨y, hy, e⟩; exact ⟨y, List.mem_reverse.1 hy, of_decide_eq_true e⟩
      · rintro ⟨y, hy, e⟩; exact ⟨y, List.mem_reverse.2 hy, decide_eq_true e⟩
    rw [← h3, ← h2, ← h1]
    cases Npl.get q.npl n <;> simp
  · intro e he
    have hg := Npl.get_mem hT.sorted he
    have hs := hsd e.name
    unfold said at hs
    rw [hg] at hs
    unfold saidAfter at hs
    cases hl : lastLine e.name (prefixesIn t) with
    | none => rw [hl] at hs; cases hs
    | some y =>
      rw [hl] at hs
      injection hs with hs
      simp only [Prod.mk.injEq] at hs
      unfold lastLine at hl
      obtain ⟨h1, as, bs, h2, h3⟩ := List.find?_eq_some_iff_append.1 hl
      have h4 : prefixesIn t = bs.reverse ++ y :: as.reverse := by
        rw [← List.reverse_reverse (prefixesIn t), h2]; simp
      obtain ⟨n, k, h5, -⟩ := hT.read y (by rw [h4]; simp)
      have h1 := of_decide_eq_true h1
      rw [h5] at h1 hs
      refine ⟨hs.1, bs.reverse, y, as.reverse, k, h4, ?_, ?_, hs.2⟩
      · rw [h5]; exact Prod.ext h1 rfl
      · intro z hz
        have := h3 z (List.mem_reverse.1 hz)
        simpa using this

/-! ### the hypotheses can be met, and what else happens -/

def exSpace (angle : String) : Text × Tree := confSection "hyperbolic" [("state", "on"), ("radius", "12.5"), ("angle", angle)]
def exLines : Text × Tree := confSection "advertising" [("/ndn/edu/a/x", "7"), ("/ndn/edu/a/y", "0"), ("/ndn/edu/a/x", "3")]
def exGeneralSvs : Text × Tree :=
  confSection "general" [("network", "/ndn"), ("site", "/edu/a"), ("router", "/%C1.Router/r1"), ("sync-protocol", "svs"), ("state-dir", "/var/lib/nlsr")]
def exWritten (name cost : String) : Text × Tree :=
  ("neighbor".toList, .node [] [confLeaf "name" name, confLeaf "face-uri" "udp4://10.0.0.2:6363", confLeaf "link-cost" cost])

/-- A file with everything in it. -/
def exWords : Tree := .node [] [exGeneralSvs, ("neighbors".toList, .node [] [exWritten "/ndn/edu/b/r2" "25.5", exWritten "/ndn/edu/c/r3" "4"]),
  exSpace "1.45,2.5", exLines]

example : ∃ p, load exEnv exWords = some p ∧ OnlySection exWords "general" exGeneralSvs ∧ OnlySection exWords "hyperbolic" (exSpace "1.45,2.5") ∧
    p.protocol = .svs ∧ p.hyp = .on ∧ p.corTheta = [29 / 20, 5 / 2] ∧
    p.adjl.map (fun a => (a.name, a.cost)) = [(nm ["ndn", "edu", "b", "r2"], .fin (51 / 2)), (nm ["ndn", "edu", "c", "r3"], .fin 4)] ∧
    p.npl.infos.map (fun i => (i.name, i.cost)) = [(nm ["ndn", "edu", "a", "x"], .fin 3), (nm ["ndn", "edu", "a", "y"], .fin 0)] := by
  have h : (load exEnv exWords).map (fun p => (p.protocol, p.hyp, p.corTheta)) = some (.svs, .on, [29 / 20, 5 / 2]) := by decide +kernel
  have h' : (load exEnv exWords).map (fun p => (p.adjl.map (fun a => (a.name, a.cost)), p.npl.infos.map (fun i => (i.name, i.cost)))) =
      some ([(nm ["ndn", "edu", "b", "r2"], .fin (51 / 2)), (nm ["ndn", "edu", "c", "r3"], .fin 4)],
        [(nm ["ndn", "edu", "a", "x"], .fin 3), (nm ["ndn", "edu", "a", "y"], .fin 0)]) := by decide +kernel
  obtain ⟨p, hp, h2⟩ := Option.map_eq_some_iff.1 h
  rw [hp] at h'
  have h3 := Option.some.inj h'
  simp only [Prod.mk.injEq] at h2 h3
  exact ⟨p, hp, by simp [OnlySection, Tree.kids, exWords, exGeneralSvs, exSpace, exLines, confSection],
    by simp [OnlySection, Tree.kids, exWords, exGeneralSvs, exSpace, exLines, confSection], h2.1, h2.2.1, h2.2.2, h3.1, h3.2⟩

/-- The numbers in it are decimals. -/
def exDecimal (w f : String) (h : w.toList ≠ [] ∧ ∀ ch ∈ w.toList ++ f.toList, ch ∈ ['0', '1', '2', '3', '4', '5', '6', '7', '8', '9']) : Decimal :=
  ⟨w.toList, f.toList, h.1, h.2⟩
example : (exDecimal "12" "5" (by decide)).text = "12.5".toList ∧ (exDecimal "12" "5" (by decide)).value = 25 / 2 ∧
    commas [exDecimal "1" "45" (by decide), exDecimal "2" "5" (by decide)] = "1.45,2.5".toList ∧
    (∀ d ∈ [exDecimal "12" "5" (by decide), exDecimal "1" "45" (by decide), exDecimal "2" "5" (by decide)], d.value ≤ Num.dblMax) := by
  refine ⟨by decide +kernel, by decide +kernel, by decide +kernel, by decide +kernel⟩

/-- Its neighbours meet the conditions. -/
example : ((neighborsIn exWords).map (fun y => (lookup "name" y).bind Uri.parseName)).Nodup ∧
    ∀ y ∈ neighborsIn exWords, (lookup "name" y).bind Uri.parseName ≠ some [] := by
  refine ⟨by decide +kernel, by decide +kernel⟩

/-- C107 fails: of `angle 1.45;2.5` only the first is used, so the router has coordinates in another space than the others, and
they compute no distance to it (C12). -/
theorem C107_violated_angles : ∃ (env : ConfEnv) (t : Tree) (p : Params), load env t = some p ∧ p.hyp = .on ∧
    (∃ x ∈ t.kids, lookup "angle" x.2 = some "1.45;2.5".toList) ∧ p.corTheta = [29 / 20] := by
  have h : (load exEnv (.node [] [exGeneral, exSpace "1.45;2.5"])).map (fun p => (p.hyp, p.corTheta)) = some (.on, [29 / 20]) := by
    decide +kernel
  obtain ⟨p, hp, h2⟩ := Option.map_eq_some_iff.1 h
  simp only [Prod.mk.injEq] at h2
  exact ⟨exEnv, _, p, hp, h2.1, ⟨_, List.mem_cons_of_mem _ (List.mem_singleton.2 rfl), by decide +kernel⟩, h2.2⟩

/-- C107 fails: a second `neighbor` with the same name, say over another face, is dropped without a message, and so is one whose
name is `/`. -/
theorem C107_violated_neighbor : ∃ (env : ConfEnv) (t : Tree) (p : Params), load env t = some p ∧
    (neighborsIn t).length = 3 ∧ p.adjl.map (fun a => (a.name, a.cost)) = [(nm ["ndn", "edu", "b", "r2"], .fin 25)] := by
  have h : (load exEnv (.node [] [exGeneral, ("neighbors".toList, .node [] [exWritten "/ndn/edu/b/r2" "25", exWritten "/ndn/edu/b/r2" "4",
      exWritten "/" "4"])])).map (fun p => p.adjl.map (fun a => (a.name, a.cost))) = some [(nm ["ndn", "edu", "b", "r2"], .fin 25)] := by
    decide +kernel
  obtain ⟨p, hp, h2⟩ := Option.map_eq_some_iff.1 h
  exact ⟨exEnv, _, p, hp, by decide +kernel, h2⟩

/-- C107 fails: a link cost that is no number is not refused, 10 is used. -/
theorem C107_violated_cost : ∃ (env : ConfEnv) (t : Tree) (p : Params), load env t = some p ∧
    (neighborsIn t).map (lookup "link-cost") = [some "2,5".toList] ∧ p.adjl.map (·.cost) = [.fin 10] := by
  have h : (load exEnv (.node [] [exGeneral, ("neighbors".toList, .node [] [exWritten "/ndn/edu/b/r2" "2,5"])])).map
      (fun p => p.adjl.map (·.cost)) = some [.fin 10] := by decide +kernel
  obtain ⟨p, hp, h2⟩ := Option.map_eq_some_iff.1 h
  exact ⟨exEnv, _, p, hp, by decide +kernel, h2⟩

/-- C107 fails: a negative cost of a prefix is not refused, it becomes the largest there is. -/
theorem C107_violated_negative : ∃ (env : ConfEnv) (t : Tree) (p : Params), load env t = some p ∧
    (prefixesIn t).map (fun y => y.2.data) = ["-1".toList] ∧ p.npl.infos = [⟨nm ["a"], .fin 18446744073709551616⟩] := by
  have h : (load exEnv (.node [] [exGeneral, confSection "advertising" [("/a", "-1")]])).map (fun p => p.npl.infos) =
      some [⟨nm ["a"], .fin 18446744073709551616⟩] := by decide +kernel
  obtain ⟨p, hp, h2⟩ := Option.map_eq_some_iff.1 h
  exact ⟨exEnv, _, p, hp, by decide +kernel, h2⟩

/-- C107 fails: a section whose name is misspelt only draws a message; the router starts without anything it says, here without
neighbours. -/
theorem C107_violated_section : ∃ (env : ConfEnv) (t : Tree) (p : Params), load env t = some p ∧
    t.kids.map (·.1) = ["general".toList, "neighbours".toList] ∧ p.adjl = [] := by
  have h : (load exEnv (.node [] [exGeneral, ("neighbours".toList, .node [] [exWritten "/ndn/edu/b/r2" "25"])])).map (·.adjl) = some [] := by
    decide +kernel
  obtain ⟨p, hp, h2⟩ := Option.map_eq_some_iff.1 h
  exact ⟨exEnv, _, p, hp, rfl, h2⟩

end Nlsr
