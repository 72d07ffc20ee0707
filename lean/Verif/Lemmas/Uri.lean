import Verif.Model.Num
/- Texts of names and numbers are read back as what they were printed from. -/
namespace Nlsr
namespace Uri

theorem decVal_digit {n : Nat} (h : n < 10) : decVal (digit n) = some n := by
  have : ∀ k : Fin 10, decVal (digit k.val) = some k.val := by decide
  exact this ⟨n, h⟩

theorem dec_ne (n : Nat) : dec n ≠ [] := by
  rw [dec]
  split
  · simp
  · simp

/-- Induction over the decimal digits. -/
theorem dec_ind {P : Nat → Text → Prop} (h0 : ∀ n, n < 10 → P n [digit n])
    (hs : ∀ n, ¬ n < 10 → P (n / 10) (dec (n / 10)) → P n (dec (n / 10) ++ [digit (n % 10)])) (n : Nat) : P n (dec n) := by
  induction n using Nat.strongRecOn with
  | ind n ih =>
    rw [dec]
    split
    · exact h0 n ‹_›
    · exact hs n ‹_› (ih (n / 10) (by omega))

theorem dec_digits (n : Nat) : ∀ c ∈ dec n, ∃ d, d < 10 ∧ c = digit d := by
  refine dec_ind (P := fun _ t => ∀ c ∈ t, ∃ d, d < 10 ∧ c = digit d) ?_ ?_ n
  · intro n hn c hc
    exact ⟨n, hn, by simpa using hc⟩
  · intro n hn ih c hc
    rcases List.mem_append.1 hc with hc | hc
    · exact ih c hc
    · exact ⟨n % 10, by omega, by simpa using hc⟩

theorem parseDec_dec (n : Nat) : parseDec (dec n) = some n := by
  unfold parseDec
  rw [if_neg (dec_ne n)]
  refine dec_ind (P := fun n t => List.foldl (fun a c => match a, decVal c with | some n, some d => some (n * 10 + d) | _, _ => none) (some 0) t = some n) ?_ ?_ n
  · intro n hn
    simp [decVal_digit hn]
  · intro n hn ih
    rw [List.foldl_append, ih]
    simp only [List.foldl_cons, List.foldl_nil, decVal_digit (Nat.mod_lt n (by decide : 0 < 10))]
    congr 1
    omega

theorem decOf_dec (n : Nat) : Num.decOf (dec n) = n := by
  refine dec_ind (P := fun n t => Num.decOf t = n) ?_ ?_ n
  · intro n hn
    simp [Num.decOf, decVal_digit hn]
  · intro n hn ih
    unfold Num.decOf at ih ⊢
    rw [List.foldl_append, ih]
    simp only [List.foldl_cons, List.foldl_nil, decVal_digit (Nat.mod_lt n (by decide : 0 < 10)), Option.getD_some]
    omega

theorem digit_ne {d : Nat} (h : d < 10) {c : Char} (hc : decVal c = none) : digit d ≠ c := by
  intro e
  rw [← e, decVal_digit h] at hc
  cases hc

theorem dec_not_mem (n : Nat) {c : Char} (hc : decVal c = none) : c ∉ dec n := by
  intro hm
  obtain ⟨d, hd, e⟩ := dec_digits n c hm
  exact digit_ne hd hc e.symm

theorem dec_head {n : Nat} (h : 0 < n) : (dec n).head? ≠ some '0' := by
  revert h
  refine dec_ind (P := fun n t => 0 < n → t.head? ≠ some '0') ?_ ?_ n
  · intro n hn hp
    have : ∀ k : Fin 10, 0 < k.val → digit k.val ≠ '0' := by decide
    simpa using this ⟨n, hn⟩ hp
  · intro n hn ih _
    have h1 := ih (by omega)
    rw [List.head?_append]
    cases hd : (dec (n / 10)).head? with
    | none => exact absurd (List.head?_eq_none_iff.1 hd) (dec_ne _)
    | some c => rw [hd] at h1; simpa using h1

theorem parseType_dec {n : Nat} (h1 : 1 ≤ n) (h2 : n ≤ 65535) : parseType (dec n) = some n := by
  unfold parseType
  rw [parseDec_dec]
  dsimp only
  rw [if_pos ⟨h1, h2, dec_head h1⟩]

/-! Escaping. -/

/-- A byte as a character. -/
theorem byte_char (b : UInt8) : byte (Char.ofNat b.toNat) = b := by
  have : ∀ k : Fin 256, byte (Char.ofNat k.val) = UInt8.ofNat k.val := by decide +kernel
  have h := this ⟨b.toNat, b.toNat_lt⟩
  simpa using h

theorem unreserved_ne {c d : Char} (h : unreserved c = true) (hd : unreserved d = false) : c ≠ d := by
  rintro rfl
  rw [h] at hd
  cases hd

theorem unescape_cons {c : Char} (h : c ≠ '%') (t : Text) : unescape (c :: t) = byte c :: unescape t := by
  rw [unescape.eq_2]
  intro a b u e
  exact absurd e h

theorem hexVal_hexDigit {n : Nat} (h : n < 16) : hexVal (hexDigit n) = some n := by
  have : ∀ k : Fin 16, hexVal (hexDigit k.val) = some k.val := by decide
  exact this ⟨n, h⟩

theorem unescape_escByte (b : UInt8) (t : Text) : unescape (escByte b ++ t) = b :: unescape t := by
  unfold escByte
  dsimp only
  split
  · rename_i h
    show unescape (_ :: t) = _
    rw [unescape_cons (unreserved_ne h (by decide)), byte_char]
  · show unescape ('%' :: _ :: _ :: t) = _
    have hb := b.toNat_lt
    rw [unescape, hexVal_hexDigit (by omega), hexVal_hexDigit (Nat.mod_lt _ (by decide))]
    dsimp only
    congr 1
    have : b.toNat / 16 * 16 + b.toNat % 16 = b.toNat := by omega
    rw [this]
    simp

theorem unescape_escape (v : List UInt8) (t : Text) : unescape (escape v ++ t) = v ++ unescape t := by
  induction v with
  | nil => rfl
  | cons b v ih =>
    show unescape ((escByte b ++ escape v) ++ t) = _
    rw [List.append_assoc, unescape_escByte, ih]
    rfl

theorem unescape_escape' (v : List UInt8) : unescape (escape v) = v := by
  have := unescape_escape v []
  simpa [unescape] using this

theorem parseValue_escValue (v : List UInt8) : parseValue (escValue v) = some v := by
  unfold escValue
  split
  · rename_i h
    have hu : unescape (['.', '.', '.'] ++ escape v) = [46, 46, 46] ++ v := by
      show unescape ('.' :: '.' :: '.' :: escape v) = _
      rw [unescape_cons (by decide), unescape_cons (by decide), unescape_cons (by decide), unescape_escape']
      rfl
    unfold parseValue
    rw [hu]
    dsimp only
    have h2 : (([46, 46, 46] ++ v).all (· == 46)) = true := by
      rw [List.all_append, h]; rfl
    rw [if_pos h2, if_neg (by simp)]
    rfl
  · rename_i h
    unfold parseValue
    rw [List.nil_append, unescape_escape']
    dsimp only
    rw [if_neg h]

/-- Characters that appear in printed values. -/
def printed (c : Char) : Bool := unreserved c || c == '%'

theorem escape_printed (v : List UInt8) : ∀ c ∈ escape v, printed c = true := by
  intro c hc
  obtain ⟨b, -, hb⟩ := List.mem_flatMap.1 hc
  unfold escByte at hb
  dsimp only at hb
  have hx : ∀ k : Fin 16, printed (hexDigit k.val) = true := by decide
  have hlt := b.toNat_lt
  split at hb
  · rename_i h
    rw [List.mem_singleton] at hb
    rw [hb]
    unfold printed
    rw [h]; rfl
  · simp only [List.mem_cons, List.not_mem_nil, or_false] at hb
    rcases hb with rfl | rfl | rfl
    · decide
    · exact hx ⟨b.toNat / 16, by omega⟩
    · exact hx ⟨b.toNat % 16, Nat.mod_lt _ (by decide)⟩

theorem escValue_printed (v : List UInt8) : ∀ c ∈ escValue v, printed c = true := by
  intro c hc
  unfold escValue at hc
  rcases List.mem_append.1 hc with hc | hc
  · split at hc
    · simp only [List.mem_cons, List.not_mem_nil, or_false, or_self] at hc
      rw [hc]; decide
    · simp at hc
  · exact escape_printed v c hc

theorem escValue_ne (v : List UInt8) : escValue v ≠ [] := by
  unfold escValue
  split
  · simp
  · rename_i h
    cases v with
    | nil => exact absurd rfl h
    | cons b v =>
      show [] ++ (escByte b ++ escape v) ≠ []
      unfold escByte
      dsimp only
      split <;> simp

/-- Characters that appear in printed components. -/
def inComp (c : Char) : Bool := printed c || c == '='

theorem ofComp_inComp (x : Comp) : ∀ c ∈ ofComp x, inComp c = true := by
  intro c hc
  have hv : ∀ c ∈ escValue x.val, inComp c = true := fun c hc => by unfold inComp; rw [escValue_printed _ c hc]; rfl
  unfold ofComp at hc
  split at hc
  · exact hv c hc
  · rcases List.mem_append.1 hc with hc | hc
    · obtain ⟨d, hd, e⟩ := dec_digits _ c hc
      have : ∀ k : Fin 10, inComp (digit k.val) = true := by decide
      rw [e]; exact this ⟨d, hd⟩
    · rcases List.mem_cons.1 hc with rfl | hc
      · decide
      · exact hv c hc

theorem ofComp_ne (x : Comp) : ofComp x ≠ [] := by
  unfold ofComp
  split
  · exact escValue_ne _
  · simp

theorem parseComp_ofComp {x : Comp} (h1 : 1 ≤ x.typ) (h2 : x.typ ≤ 65535) : parseComp (ofComp x) = some x := by
  have hv : '=' ∉ escValue x.val := fun hm => by
    have := escValue_printed _ _ hm
    revert this; decide
  unfold ofComp parseComp
  split
  · rename_i h
    rw [if_neg (by simpa using hv), parseValue_escValue]
    cases x
    simp_all
  · have hd : ∀ a ∈ dec x.typ, (a != '=') = true := by
      intro a ha
      obtain ⟨d, hd, e⟩ := dec_digits _ a ha
      have := digit_ne hd (c := '=') (by decide)
      rw [e]; simpa using this
    rw [if_pos (by simp)]
    rw [List.takeWhile_append_of_pos hd, List.dropWhile_append_of_pos hd]
    rw [List.takeWhile_cons_of_neg (by simp), List.dropWhile_cons_of_neg (by simp), List.append_nil,
      parseType_dec h1 h2]
    rw [List.drop_succ_cons, List.drop_zero, parseValue_escValue]

theorem splitAt_no {sep : Char} {t : Text} (h : sep ∉ t) : splitAt sep t = [t] := by
  induction t with
  | nil => rfl
  | cons c t ih =>
    unfold splitAt
    rw [if_neg (fun e => h (by rw [e]; exact List.mem_cons_self ..)), ih (fun hm => h (List.mem_cons_of_mem _ hm))]

theorem splitAt_append {sep : Char} {t u : Text} (h : sep ∉ t) : splitAt sep (t ++ sep :: u) = t :: splitAt sep u := by
  induction t with
  | nil => show splitAt sep (sep :: u) = _; rw [splitAt, if_pos rfl]
  | cons c t ih =>
    show splitAt sep (c :: (t ++ sep :: u)) = _
    rw [splitAt, if_neg (fun e => h (by rw [e]; exact List.mem_cons_self ..)), ih (fun hm => h (List.mem_cons_of_mem _ hm))]

/-- Pieces joined with a slash in front of each but the first. -/
theorem splitAt_join (x : Text) (l : List Text) (hx : '/' ∉ x) (h : ∀ y ∈ l, '/' ∉ y) :
    splitAt '/' (x ++ l.flatMap (fun y => '/' :: y)) = x :: l := by
  induction l generalizing x with
  | nil => simpa using splitAt_no hx
  | cons y l ih =>
    show splitAt '/' (x ++ '/' :: (y ++ l.flatMap _)) = _
    rw [splitAt_append hx, ih y (h y (List.mem_cons_self ..)) (fun z hz => h z (List.mem_cons_of_mem _ hz))]

theorem mapM_parseComp {n : Name} (h : ∀ x ∈ n, 1 ≤ x.typ ∧ x.typ ≤ 65535) : (n.map ofComp).mapM parseComp = some n := by
  induction n with
  | nil => rfl
  | cons x n ih =>
    have := h x (List.mem_cons_self ..)
    rw [List.map_cons, List.mapM_cons, parseComp_ofComp this.1 this.2, ih (fun y hy => h y (List.mem_cons_of_mem _ hy))]
    rfl

/-- A name printed as a URI is read back as that name. -/
theorem parseName_ofName {n : Name} (h : ∀ x ∈ n, 1 ≤ x.typ ∧ x.typ ≤ 65535) : parseName (ofName n) = some n := by
  have hslash : ∀ x : Comp, '/' ∉ ofComp x := fun x hm => by
    have := ofComp_inComp x _ hm
    revert this; decide
  cases n with
  | nil => decide
  | cons x n =>
    have e : ofName (x :: n) = '/' :: (ofComp x ++ (n.map ofComp).flatMap (fun y => '/' :: y)) := by
      show List.flatMap (fun c => '/' :: ofComp c) (x :: n) = _
      rw [List.flatMap_cons, List.flatMap_map]
      rfl
    have hs : dropScheme (ofName (x :: n)) = ofName (x :: n) := by
      rw [e]
      unfold dropScheme
      rw [List.takeWhile_cons_of_neg (by simp)]
      rfl
    have hl : dropLead (ofName (x :: n)) = ofComp x ++ (n.map ofComp).flatMap (fun y => '/' :: y) := by
      rw [e]
      cases hx : ofComp x with
      | nil => exact absurd hx (ofComp_ne x)
      | cons c t =>
        have : c ≠ '/' := fun e => hslash x (by rw [hx, e]; exact List.mem_cons_self ..)
        show dropLead ('/' :: c :: _) = _
        unfold dropLead
        split
        · rename_i e; injection e with _ e; injection e with e; exact absurd e this
        · rename_i e; injection e with _ e; exact e.symm
        · rename_i hh; exact absurd rfl (hh _)
    unfold parseName pieces
    rw [hs, hl, splitAt_join _ _ (hslash x) (by
      intro y hy
      obtain ⟨z, -, rfl⟩ := List.mem_map.1 hy
      exact hslash z)]
    dsimp only
    have e2 : ofComp x :: n.map ofComp = (x :: n).map ofComp := rfl
    rw [e2, if_neg]
    · exact mapM_parseComp h
    · intro hlast
      have hm := List.mem_of_getLast? hlast
      obtain ⟨y, -, hy⟩ := List.mem_map.1 hm
      exact ofComp_ne y hy

end Uri

namespace Num

theorem isDigit_dec (n : Nat) : ∀ c ∈ Uri.dec n, isDigit c = true := by
  intro c hc
  obtain ⟨d, hd, e⟩ := Uri.dec_digits n c hc
  unfold isDigit
  rw [e, Uri.decVal_digit hd]
  rfl

theorem takeWhile_all {p : Char → Bool} {l : Text} (h : ∀ x ∈ l, p x = true) : l.takeWhile p = l := by
  have := List.takeWhile_append_of_pos (l₂ := []) h
  simpa using this

theorem dropWhile_all {p : Char → Bool} {l : Text} (h : ∀ x ∈ l, p x = true) : l.dropWhile p = [] := by
  have := List.dropWhile_append_of_pos (l₂ := []) h
  simpa using this

theorem readInt_dec (n : Nat) : readInt (Uri.dec n) = some (false, n, []) := by
  have hd := isDigit_dec n
  have hne := Uri.dec_ne n
  have hw : (Uri.dec n).dropWhile isSpace = Uri.dec n := by
    cases h : Uri.dec n with
    | nil => exact absurd h hne
    | cons c t =>
      have hc := hd c (by rw [h]; exact List.mem_cons_self ..)
      rw [List.dropWhile_cons_of_neg]
      obtain ⟨d, hd, e⟩ := Uri.dec_digits n c (by rw [h]; exact List.mem_cons_self ..)
      have : ∀ k : Fin 10, isSpace (Uri.digit k.val) = false := by decide
      rw [e, this ⟨d, hd⟩]
      simp
  have hs : sign (Uri.dec n) = (false, Uri.dec n) := by
    unfold sign
    split
    · rename_i e
      exact absurd (show '-' ∈ Uri.dec n by rw [e]; exact List.mem_cons_self ..) (Uri.dec_not_mem n (by decide))
    · rename_i e
      exact absurd (show '+' ∈ Uri.dec n by rw [e]; exact List.mem_cons_self ..) (Uri.dec_not_mem n (by decide))
    · rfl
  unfold readInt
  rw [hw, hs]
  dsimp only
  have h1 : (Uri.dec n).takeWhile isDigit = Uri.dec n := takeWhile_all hd
  have h2 : (Uri.dec n).dropWhile isDigit = [] := dropWhile_all hd
  rw [h1, h2, if_neg hne, Uri.decOf_dec]

theorem parseUnsigned_dec {bits n : Nat} (h : n < 2 ^ bits) : parseUnsigned bits (Uri.dec n) = some n := by
  unfold parseUnsigned readUnsigned
  rw [readInt_dec]
  dsimp only
  rw [if_pos h]
  rfl

theorem parseSigned_dec {bits n : Nat} (h : n < 2 ^ (bits - 1)) : parseSigned bits (Uri.dec n) = some (n : Int) := by
  unfold parseSigned readSigned
  rw [readInt_dec]
  dsimp only
  rw [if_pos h]
  rfl

end Num
end Nlsr
