import Verif.Model.Print
import Verif.Lemmas.Uri
import Verif.Lemmas.Basic
/- Lines of text: what `nlsrc` prints, taken apart. -/
namespace Nlsr
namespace Print
open Tlv Wire

/-- The kinds of lines. -/
inductive Kind
  | status | lsdb | router | blank | adjHead | corHead | nameHead | origin | seq | exp | adjs | adj | radius | theta | names | name
  | rt | notYet | dry | dest | noHop | hop
deriving DecidableEq, Repr

/-- How a line of this kind begins. -/
def Kind.pre : Kind → Text
  | .status => "NLSR Status".toList
  | .lsdb => "LSDB:".toList
  | .router => "  OriginRouter: ".toList
  | .blank => []
  | .adjHead => "    ADJACENCY LSA:".toList
  | .corHead => "    COORDINATE LSA:".toList
  | .nameHead => "    NAME LSA:".toList
  | .origin => "      Origin Router      : ".toList
  | .seq => "      Sequence Number    : ".toList
  | .exp => "      Expires in         : ".toList
  | .adjs => "      Adjacent(s):".toList
  | .adj => "        Adjacent ".toList
  | .radius => "      Hyperbolic Radius  : ".toList
  | .theta => "      Hyperbolic Theta ".toList
  | .names => "      Names:".toList
  | .name => "        Name ".toList
  | .rt => "Routing Table:".toList
  | .notYet => "Routing Table is not calculated yet".toList
  | .dry => "Dry-Run Hyperbolic Routing Table:".toList
  | .dest => "  Destination: ".toList
  | .noHop => "    ".toList
  | .hop => "    NextHop(Uri: ".toList

/-- Nothing follows. -/
def Kind.exact : Kind → Bool
  | .status | .lsdb | .blank | .adjHead | .corHead | .nameHead | .adjs | .names | .rt | .notYet | .dry | .noHop => true
  | _ => false

def Kind.all : List Kind :=
  [.status, .lsdb, .router, .blank, .adjHead, .corHead, .nameHead, .origin, .seq, .exp, .adjs, .adj, .radius, .theta, .names, .name,
   .rt, .notYet, .dry, .dest, .noHop, .hop]

theorem Kind.mem_all (k : Kind) : k ∈ Kind.all := by cases k <;> decide

theorem Kind.apart : ∀ k ∈ Kind.all, ∀ k' ∈ Kind.all, k ≠ k' →
    (k.exact = true → k'.exact = true → k.pre ≠ k'.pre) ∧
    (k.exact = true → k'.exact = false → (k'.pre.isPrefixOf k.pre) = false) ∧ (k.exact = false → k'.exact = false → (k.pre.isPrefixOf k'.pre) = false) := by
  decide +kernel

theorem Kind.pre_lines : ∀ k ∈ Kind.all, '\n' ∉ k.pre := by decide +kernel

/-- A line: its kind and what follows. -/
abbrev Line := Kind × Text

def render (l : Line) : Text := l.1.pre ++ l.2

def Good (l : Line) : Prop := (l.1.exact = true → l.2 = []) ∧ '\n' ∉ l.2

theorem render_no_nl {l : Line} (h : Good l) : '\n' ∉ render l := by
  unfold render
  rw [List.mem_append]
  exact fun h' => h'.elim (Kind.pre_lines _ (Kind.mem_all _)) h.2

theorem render_inj {l l' : Line} (h : Good l) (h' : Good l') (e : render l = render l') : l = l' := by
  obtain ⟨k, b⟩ := l
  obtain ⟨k', b'⟩ := l'
  unfold render at e
  dsimp only at e
  by_cases hk : k = k'
  · subst hk
    rw [List.append_cancel_left e]
  · exfalso
    have h1 := Kind.apart k (Kind.mem_all k) k' (Kind.mem_all k') hk
    have h2 := Kind.apart k' (Kind.mem_all k') k (Kind.mem_all k) (Ne.symm hk)
    cases hx : k.exact with
    | true =>
      have hb : b = [] := h.1 hx
      rw [hb, List.append_nil] at e
      cases hx' : k'.exact with
      | true =>
        have hb : b' = [] := h'.1 hx'
        rw [hb, List.append_nil] at e
        exact h1.1 hx hx' e
      | false =>
        have := h1.2.1 hx hx'
        rw [List.isPrefixOf_iff_prefix.2 ⟨b', e.symm⟩] at this
        cases this
    | false =>
      cases hx' : k'.exact with
      | true =>
        have hb : b' = [] := h'.1 hx'
        rw [hb, List.append_nil] at e
        have := h2.2.1 hx' hx
        rw [List.isPrefixOf_iff_prefix.2 ⟨b, e⟩] at this
        cases this
      | false =>
        have p1 : k.pre <+: k.pre ++ b := ⟨b, rfl⟩
        have p2 : k'.pre <+: k.pre ++ b := ⟨b', e.symm⟩
        rcases List.prefix_or_prefix_of_prefix p1 p2 with p | p
        · have := h1.2.2 hx hx'
          rw [List.isPrefixOf_iff_prefix.2 p] at this
          cases this
        · have := h2.2.2 hx' hx
          rw [List.isPrefixOf_iff_prefix.2 p] at this
          cases this

theorem cut {c : Char} : ∀ {a b x y : Text}, c ∉ a → c ∉ b → a ++ c :: x = b ++ c :: y → a = b ∧ x = y
  | [], [], _, _, _, _, h => by
    simp only [List.nil_append, List.cons.injEq, true_and] at h
    exact ⟨rfl, h⟩
  | [], d :: b, _, _, _, hb, h => by
    simp only [List.nil_append, List.cons_append, List.cons.injEq] at h
    exact absurd (List.mem_cons.2 (Or.inl h.1)) hb
  | d :: a, [], _, _, ha, _, h => by
    simp only [List.nil_append, List.cons_append, List.cons.injEq] at h
    exact absurd (List.mem_cons.2 (Or.inl h.1.symm)) ha
  | d :: a, d' :: b, x, y, ha, hb, h => by
    simp only [List.cons_append, List.cons.injEq] at h
    obtain ⟨h1, h2⟩ := cut (fun hm => ha (List.mem_cons_of_mem _ hm)) (fun hm => hb (List.mem_cons_of_mem _ hm)) h.2
    exact ⟨by rw [h.1, h1], h2⟩

/-- The text of a list of lines. -/
def unlines (ls : List Line) : Text := ls.flatMap (fun l => render l ++ nl)

theorem unlines_append (a b : List Line) : unlines (a ++ b) = unlines a ++ unlines b := by
  unfold unlines; rw [List.flatMap_append]

theorem unlines_cons (l : Line) (b : List Line) : unlines (l :: b) = render l ++ '\n' :: unlines b := by
  unfold unlines nl; rw [List.flatMap_cons, List.append_assoc]; rfl

theorem unlines_nil : unlines [] = [] := rfl

theorem unlines_flatMap {α : Type} (f : α → List Line) (l : List α) : unlines (l.flatMap f) = l.flatMap (fun x => unlines (f x)) := by
  induction l with
  | nil => rfl
  | cons x l ih => rw [List.flatMap_cons, List.flatMap_cons, unlines_append, ih]

theorem unlines_inj : ∀ {a b : List Line}, (∀ l ∈ a, Good l) → (∀ l ∈ b, Good l) → unlines a = unlines b → a = b
  | [], [], _, _, _ => rfl
  | [], l :: b, _, _, h => by rw [unlines_nil, unlines_cons] at h; exact absurd h (by simp)
  | l :: a, [], _, _, h => by rw [unlines_nil, unlines_cons] at h; exact absurd h (by simp)
  | l :: a, l' :: b, ha, hb, h => by
    rw [unlines_cons, unlines_cons] at h
    obtain ⟨h1, h2⟩ := cut (render_no_nl (ha l (List.mem_cons.2 (Or.inl rfl)))) (render_no_nl (hb l' (List.mem_cons.2 (Or.inl rfl)))) h
    rw [render_inj (ha l (List.mem_cons.2 (Or.inl rfl))) (hb l' (List.mem_cons.2 (Or.inl rfl))) h1,
      unlines_inj (fun x hx => ha x (List.mem_cons_of_mem _ hx)) (fun x hx => hb x (List.mem_cons_of_mem _ hx)) h2]

/-! ### texts of names and numbers -/

/-- A name whose text can be read back: the types of its components are allowed. -/
def Readable (n : Name) : Prop := ∀ x ∈ n, 1 ≤ x.typ ∧ x.typ ≤ 65535

theorem ofName_inj {n m : Name} (hn : Readable n) (hm : Readable m) (h : Uri.ofName n = Uri.ofName m) : n = m := by
  have h1 := Uri.parseName_ofName hn
  rw [h, Uri.parseName_ofName hm] at h1
  exact (Option.some.inj h1).symm

theorem dec_inj {n m : Nat} (h : Uri.dec n = Uri.dec m) : n = m := by
  have h1 := Uri.parseDec_dec n
  rw [h, Uri.parseDec_dec m] at h1
  exact (Option.some.inj h1).symm

theorem ofName_chars (n : Name) : ∀ c ∈ Uri.ofName n, c = '/' ∨ Uri.inComp c = true := by
  intro c hc
  unfold Uri.ofName at hc
  split at hc
  · exact Or.inl (List.mem_singleton.1 hc)
  · obtain ⟨x, -, hx⟩ := List.mem_flatMap.1 hc
    rcases List.mem_cons.1 hx with rfl | hx
    · exact Or.inl rfl
    · exact Or.inr (Uri.ofComp_inComp x c hx)

theorem ofName_not {c : Char} (h1 : c ≠ '/') (h2 : Uri.inComp c = false) (n : Name) : c ∉ Uri.ofName n := by
  intro h
  rcases ofName_chars n c h with h | h
  · exact h1 h
  · rw [h2] at h; cases h

theorem dec_not {c : Char} (h : Uri.decVal c = none) (n : Nat) : c ∉ Uri.dec n := Uri.dec_not_mem n h

theorem frac_sub (t : Text) : ∀ c ∈ frac t, c = '.' ∨ c ∈ t := by
  intro c hc
  unfold frac at hc
  have hsub : ∀ c ∈ (t.reverse.dropWhile (· == '0')).reverse, c ∈ t := by
    intro c hc
    rw [List.mem_reverse] at hc
    exact List.mem_reverse.1 ((List.dropWhile_sublist _).subset hc)
  split at hc
  · cases hc
  · rcases List.mem_cons.1 hc with rfl | hc
    · exact Or.inl rfl
    · exact Or.inr (hsub c hc)

/-- Characters of numbers. -/
def numeric (c : Char) : Bool := Num.isDigit c || ['.', '-', '+', 'e', 'n', 'a', 'i', 'f'].contains c

theorem dec_numeric (n : Nat) : ∀ c ∈ Uri.dec n, numeric c = true := by
  intro c hc
  unfold numeric
  rw [Num.isDigit_dec n c hc]
  rfl

theorem frac_numeric {t : Text} (h : ∀ c ∈ t, numeric c = true) : ∀ c ∈ frac t, numeric c = true := by
  intro c hc
  rcases frac_sub t c hc with rfl | hc
  · decide
  · exact h c hc

theorem showExp_numeric (e : Int) : ∀ c ∈ showExp e, numeric c = true := by
  intro c hc
  unfold showExp at hc
  rcases List.mem_cons.1 hc with rfl | hc
  · split <;> decide
  · split at hc
    · rcases List.mem_cons.1 hc with rfl | hc
      · decide
      · exact dec_numeric _ c hc
    · exact dec_numeric _ c hc

theorem layout_numeric (d : Nat) (e : Int) : ∀ c ∈ layout d e, numeric c = true := by
  intro c hc
  unfold layout at hc
  dsimp only at hc
  have h1 : ∀ k, ∀ c ∈ (Uri.dec d).take k, numeric c = true := fun k c hc => dec_numeric d c (List.mem_of_mem_take hc)
  have h2 : ∀ k, ∀ c ∈ (Uri.dec d).drop k, numeric c = true := fun k c hc => dec_numeric d c (List.mem_of_mem_drop hc)
  split at hc
  · rcases List.mem_append.1 hc with hc | hc
    · exact h1 _ c hc
    · exact frac_numeric (h2 _) c hc
  · split at hc
    · rcases List.mem_cons.1 hc with rfl | hc
      · decide
      · refine frac_numeric ?_ c hc
        intro c hc
        rcases List.mem_append.1 hc with hc | hc
        · rw [(List.mem_replicate.1 hc).2]; decide
        · exact dec_numeric d c hc
    · rcases List.mem_append.1 hc with hc | hc
      · rcases List.mem_append.1 hc with hc | hc
        · exact h1 _ c hc
        · exact frac_numeric (h2 _) c hc
      · rcases List.mem_cons.1 hc with rfl | hc
        · decide
        · exact showExp_numeric e c hc

theorem showMag_numeric (q : Rat) : ∀ c ∈ showMag q, numeric c = true := by
  unfold showMag
  split
  · decide
  · exact layout_numeric _ _

theorem showDouble_numeric (b : UInt64) : ∀ c ∈ showDouble b, numeric c = true := by
  intro c hc
  unfold showDouble at hc
  rcases List.mem_append.1 hc with hc' | hc'
  · clear hc
    split at hc'
    · rw [List.mem_singleton.1 hc']; decide
    · cases hc'
  · clear hc
    have hc := hc'
    clear hc'
    split at hc
    · revert c; decide
    · revert c; decide
    · exact showMag_numeric _ c hc

theorem showRat_numeric (q : Rat) : ∀ c ∈ showRat q, numeric c = true := by
  intro c hc
  unfold showRat at hc
  split at hc
  · rcases List.mem_cons.1 hc with rfl | hc
    · decide
    · exact showMag_numeric _ c hc
  · exact showMag_numeric _ c hc

theorem not_numeric {c : Char} (h : numeric c = false) {t : Text} (ht : ∀ c ∈ t, numeric c = true) : c ∉ t := by
  intro hc
  rw [ht c hc] at h
  cases h

theorem showInt_numeric (i : Int) : ∀ c ∈ showInt i, numeric c = true := by
  intro c hc
  unfold showInt at hc
  split at hc
  · rcases List.mem_cons.1 hc with rfl | hc
    · decide
    · exact dec_numeric _ c hc
  · exact dec_numeric _ c hc

theorem showInt_inj {i j : Int} (h : showInt i = showInt j) : i = j := by
  unfold showInt at h
  have hd : ∀ n : Nat, ∀ t, Uri.dec n ≠ '-' :: t := by
    intro n t e
    exact dec_not (c := '-') (by decide) n (by rw [e]; exact List.mem_cons.2 (Or.inl rfl))
  split at h <;> split at h
  · have := dec_inj (List.cons.inj h).2
    omega
  · exact absurd h.symm (hd _ _)
  · exact absurd h (hd _ _)
  · have := dec_inj h
    omega

theorem showMs_chars (i : Int) : '\n' ∉ showMs i := by
  unfold showMs
  rw [List.mem_append]
  rintro (h | h)
  · exact not_numeric (by decide) (showInt_numeric i) h
  · revert h
    split <;> decide

theorem showMs_inj {i j : Int} (h : showMs i = showMs j) : i = j := by
  have e : ∀ i : Int, ∃ r, showMs i = showInt i ++ ' ' :: r := by
    intro i
    unfold showMs
    split
    · exact ⟨"millisecond".toList, rfl⟩
    · exact ⟨"milliseconds".toList, rfl⟩
  obtain ⟨r, hr⟩ := e i
  obtain ⟨r', hr'⟩ := e j
  rw [hr, hr'] at h
  exact showInt_inj (cut (not_numeric (by decide) (showInt_numeric i)) (not_numeric (by decide) (showInt_numeric j)) h).1

/-! ### lines of LSAs -/

def baseLines (now : Int) (k : Kind) (x : WBase) : List Line :=
  [(k, []), (.origin, Uri.ofName x.origin), (.seq, Uri.dec x.seq), (.exp, showMs (Int.tdiv (x.exp - now) 1000000))]

def adjLine (i : Nat) (a : WAdj) : Line :=
  (.adj, Uri.dec i ++ (": (name=".toList ++ (Uri.ofName a.name ++ (", uri=".toList ++ (uriText a.uri ++ (", cost=".toList ++
    (showDouble a.cost ++ ")".toList)))))))

def adjsLines : Nat → List WAdj → List Line
  | _, [] => []
  | i, a :: as => adjLine i a :: adjsLines (i + 1) as

def adjLines (now : Int) (x : WAdjLsa) : List Line := baseLines now .adjHead x.base ++ (.adjs, []) :: adjsLines 0 x.adjs

def angleLine (i : Nat) (a : UInt64) : Line := (.theta, Uri.dec i ++ (" : ".toList ++ showDouble a))

def anglesLines : Nat → List UInt64 → List Line
  | _, [] => []
  | i, a :: as => angleLine i a :: anglesLines (i + 1) as

def coordLines (now : Int) (x : WCoordLsa) : List Line :=
  baseLines now .corHead x.base ++ (.radius, showDouble x.radius) :: anglesLines 0 x.angles

def nameLine (i : Nat) (p : WPrefix) : Line :=
  (.name, Uri.dec i ++ (": ".toList ++ (Uri.ofName p.name ++ (" | Cost: ".toList ++ showDouble p.cost))))

def namesLines : Nat → List WPrefix → List Line
  | _, [] => []
  | i, p :: ps => nameLine i p :: namesLines (i + 1) ps

def nameLines (now : Int) (x : WNameLsa) : List Line := baseLines now .nameHead x.base ++ (.names, []) :: namesLines 0 x.names

theorem base_unlines (now : Int) (x : WBase) :
    baseText now "ADJACENCY" x = unlines (baseLines now .adjHead x) ∧ baseText now "COORDINATE" x = unlines (baseLines now .corHead x) ∧
    baseText now "NAME" x = unlines (baseLines now .nameHead x) := by
  have h1 : "    ".toList ++ "ADJACENCY".toList ++ " LSA:".toList = Kind.pre .adjHead := by decide +kernel
  have h2 : "    ".toList ++ "COORDINATE".toList ++ " LSA:".toList = Kind.pre .corHead := by decide +kernel
  have h3 : "    ".toList ++ "NAME".toList ++ " LSA:".toList = Kind.pre .nameHead := by decide +kernel
  unfold baseText baseLines
  rw [h1, h2, h3]
  refine ⟨?_, ?_, ?_⟩ <;> simp only [unlines_cons, unlines_nil, render, nl, List.append_assoc, List.cons_append, List.nil_append, List.append_nil] <;> rfl

theorem adjs_unlines : ∀ (i : Nat) (l : List WAdj), adjsText i l = unlines (adjsLines i l)
  | _, [] => rfl
  | i, a :: as => by
    unfold adjsText adjsLines
    rw [unlines_cons, adjs_unlines (i + 1) as]
    simp only [render, adjLine, nl, List.append_assoc, List.cons_append, List.nil_append]
    rfl

theorem angles_unlines : ∀ (i : Nat) (l : List UInt64), anglesText i l = unlines (anglesLines i l)
  | _, [] => rfl
  | i, a :: as => by
    unfold anglesText anglesLines
    rw [unlines_cons, angles_unlines (i + 1) as]
    simp only [render, angleLine, nl, List.append_assoc, List.cons_append, List.nil_append]
    rfl

theorem names_unlines : ∀ (i : Nat) (l : List WPrefix), namesText i l = unlines (namesLines i l)
  | _, [] => rfl
  | i, a :: as => by
    unfold namesText namesLines
    rw [unlines_cons, names_unlines (i + 1) as]
    simp only [render, nameLine, nl, List.append_assoc, List.cons_append, List.nil_append]
    rfl

theorem adj_unlines (now : Int) (x : WAdjLsa) : adjText now x = unlines (adjLines now x) := by
  unfold adjText adjLines
  rw [(base_unlines now x.base).1, unlines_append, unlines_cons, adjs_unlines]
  simp only [render, nl, List.append_assoc, List.cons_append, List.nil_append]
  rfl

theorem coord_unlines (now : Int) (x : WCoordLsa) : coordText now x = unlines (coordLines now x) := by
  unfold coordText coordLines
  rw [(base_unlines now x.base).2.1, unlines_append, unlines_cons, angles_unlines]
  simp only [render, nl, List.append_assoc, List.cons_append, List.nil_append]
  rfl

theorem name_unlines (now : Int) (x : WNameLsa) : nameText now x = unlines (nameLines now x) := by
  unfold nameText nameLines
  rw [(base_unlines now x.base).2.2, unlines_append, unlines_cons, names_unlines]
  simp only [render, nl, List.append_assoc, List.cons_append, List.nil_append]
  rfl

end Print
end Nlsr
