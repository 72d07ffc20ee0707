import Verif.Model.LsaWire
import Verif.Lemmas.Basic
/- Lemmas about the TLV primitives. -/
namespace Nlsr.Tlv

theorem be_length (k n : Nat) : (be k n).length = k := by
  induction k generalizing n with
  | zero => rfl
  | succ k ih => simp [be, ih]

theorem fromBe_append (a b : Bytes) (acc : Nat) :
    (a ++ b).foldl (fun a x => a * 256 + x.toNat) acc =
    b.foldl (fun a x => a * 256 + x.toNat) (a.foldl (fun a x => a * 256 + x.toNat) acc) := by
  simp

theorem fromBe_be (k n : Nat) (h : n < 256 ^ k) : fromBe (be k n) = n := by
  induction k generalizing n with
  | zero => simp at h; subst h; rfl
  | succ k ih =>
    have hlt : n / 256 < 256 ^ k := by
      rw [Nat.div_lt_iff_lt_mul (by decide)]; rwa [Nat.pow_succ] at h
    have := ih (n / 256) hlt
    unfold fromBe at this ⊢
    rw [be, fromBe_append, this]
    simp only [List.foldl_cons, List.foldl_nil, UInt8.toNat_ofNat']
    omega

theorem fromBe_lt (b : Bytes) : fromBe b < 256 ^ b.length := by
  suffices ∀ (b : Bytes) (acc : Nat),
      b.foldl (fun a x => a * 256 + x.toNat) acc < (acc + 1) * 256 ^ b.length by
    simpa [fromBe] using this b 0
  intro b
  induction b with
  | nil => intro acc; simp
  | cons x xs ih =>
    intro acc
    have h1 := ih (acc * 256 + x.toNat)
    have h2 : x.toNat < 256 := x.toNat_lt
    simp only [List.foldl_cons, List.length_cons]
    refine Nat.lt_of_lt_of_le h1 ?_
    rw [Nat.pow_succ]
    calc (acc * 256 + x.toNat + 1) * 256 ^ xs.length
        ≤ ((acc + 1) * 256) * 256 ^ xs.length := Nat.mul_le_mul_right _ (by omega)
      _ = (acc + 1) * (256 ^ xs.length * 256) := by rw [Nat.mul_assoc, Nat.mul_comm 256]

theorem decVar_encVar (n : Nat) (h : n < 2 ^ 64) (rest : Bytes) :
    decVar (encVar n ++ rest) = some (n, rest) := by
  have aux : ∀ k, n < 256 ^ k → ∀ b : UInt8, ¬ b < 253 → varWidth b = k →
      decVar ((b :: be k n) ++ rest) = some (n, rest) := by
    intro k hk b hb hw
    have hl := be_length k n
    have e1 : (be k n ++ rest).take k = be k n := by rw [List.take_append_of_le_length (by omega)]; simp [hl, List.take_of_length_le]
    have e2 : (be k n ++ rest).drop k = rest := by rw [List.drop_append_of_le_length (by omega)]; simp [hl, List.drop_of_length_le]
    simp only [List.cons_append, decVar, hb, if_false, hw, List.length_append, hl, e1, e2,
      fromBe_be k n hk]
    rw [if_neg (by omega)]
  unfold encVar
  split
  · rename_i h1
    have : UInt8.ofNat n < 253 := by
      rw [UInt8.lt_iff_toNat_lt, UInt8.toNat_ofNat']
      simp; omega
    simp only [List.cons_append, List.nil_append, decVar, this, if_true, UInt8.toNat_ofNat']
    congr 2; omega
  · split
    · exact aux 2 (by omega) 253 (by decide) (by decide)
    · split
      · exact aux 4 (by omega) 254 (by decide) (by decide)
      · exact aux 8 (by omega) 255 (by decide) (by decide)

theorem decVar_consumes {b : Bytes} {n : Nat} {rest : Bytes} (h : decVar b = some (n, rest)) :
    ∃ pre, pre ≠ [] ∧ b = pre ++ rest := by
  cases b with
  | nil => simp [decVar] at h
  | cons x xs =>
    simp only [decVar] at h
    split at h
    · simp only [Option.some.injEq, Prod.mk.injEq] at h
      exact ⟨[x], by simp, by simp [h.2]⟩
    · split at h
      · simp at h
      · simp only [Option.some.injEq, Prod.mk.injEq] at h
        refine ⟨x :: xs.take (varWidth x), by simp, ?_⟩
        rw [← h.2]; simp

theorem decVar_lt {b : Bytes} {n : Nat} {rest : Bytes} (h : decVar b = some (n, rest)) : n < 2 ^ 64 := by
  cases b with
  | nil => simp [decVar] at h
  | cons x xs =>
    simp only [decVar] at h
    split at h
    · simp only [Option.some.injEq, Prod.mk.injEq] at h
      rw [← h.1]; have := x.toNat_lt; omega
    · split at h
      · simp at h
      · rename_i hl
        simp only [Option.some.injEq, Prod.mk.injEq] at h
        rw [← h.1]
        have h1 := fromBe_lt (xs.take (varWidth x))
        rw [List.length_take, Nat.min_eq_left (by omega)] at h1
        have h2 : varWidth x ≤ 8 := by unfold varWidth; split <;> (try split) <;> (try split) <;> omega
        have : (256 : Nat) ^ varWidth x ≤ 256 ^ 8 := Nat.pow_le_pow_right (by decide) h2
        have : (256 : Nat) ^ 8 = 2 ^ 64 := by decide
        omega

/-- A type/value pair that can be put on the wire. -/
def ElemOk (e : Elem) : Prop := (1 ≤ e.1 ∧ e.1 < 4294967296) ∧ e.2.length < 2 ^ 64

theorem decBlock_block {t : Nat} {v : Bytes} (h : ElemOk (t, v)) (rest : Bytes) :
    decBlock (block t v ++ rest) = some (t, v, rest) := by
  obtain ⟨ht, hv⟩ := h
  simp only at ht hv
  unfold block decBlock
  rw [List.append_assoc, List.append_assoc, decVar_encVar t (by omega)]
  simp only [ht, and_self, if_true]
  rw [decVar_encVar _ hv]
  simp

theorem decBlock_consumes {b : Bytes} {t : Nat} {v rest : Bytes} (h : decBlock b = some (t, v, rest)) :
    ∃ pre, pre ≠ [] ∧ b = pre ++ (v ++ rest) ∧ ElemOk (t, v) := by
  unfold decBlock at h
  cases h1 : decVar b with
  | none => simp [h1] at h
  | some p =>
    obtain ⟨t', r⟩ := p
    simp only [h1] at h
    split at h
    · rename_i ht
      cases h2 : decVar r with
      | none => simp [h2] at h
      | some p =>
        obtain ⟨l, r'⟩ := p
        simp only [h2] at h
        split at h
        · rename_i hl
          simp only [Option.some.injEq, Prod.mk.injEq] at h
          obtain ⟨rfl, rfl, rfl⟩ := h
          obtain ⟨p1, hp1, rfl⟩ := decVar_consumes h1
          obtain ⟨p2, -, rfl⟩ := decVar_consumes h2
          refine ⟨p1 ++ p2, by simp [hp1], by simp, ht, ?_⟩
          have := decVar_lt h2
          simp only [List.length_take]; omega
        · simp at h
    · simp at h

/-- Concatenated blocks. -/
def encElems (es : List Elem) : Bytes := (es.map (fun e => block e.1 e.2)).flatten

theorem block_ne_nil (t v) : block t v ≠ [] := by
  unfold block encVar
  split <;> (try split) <;> (try split) <;> simp

theorem parseN_encElems (es : List Elem) (h : ∀ e ∈ es, ElemOk e) :
    ∀ fuel, (encElems es).length ≤ fuel → parseN fuel (encElems es) = some es := by
  induction es with
  | nil => intro fuel _; cases fuel <;> rfl
  | cons e es ih =>
    intro fuel hf
    have hb : encElems (e :: es) = block e.1 e.2 ++ encElems es := by simp [encElems]
    rw [hb] at hf ⊢
    have hd := decBlock_block (h e (by simp)) (encElems es)
    have hne := block_ne_nil e.1 e.2
    cases hbl : block e.1 e.2 with
    | nil => exact absurd hbl hne
    | cons x xs =>
      rw [hbl] at hd hf
      cases fuel with
      | zero => simp at hf
      | succ k =>
        simp only [List.cons_append] at hd ⊢
        rw [parseN, hd]
        · simp only
          rw [ih (fun e he => h e (by simp [he])) k (by simp at hf; omega)]
          rfl
        · simp

theorem parse_encElems (es : List Elem) (h : ∀ e ∈ es, ElemOk e) : parse (encElems es) = some es :=
  parseN_encElems es h _ (Nat.le_refl _)

theorem parseN_ok {fuel : Nat} {b : Bytes} {es : List Elem} (h : parseN fuel b = some es) :
    ∀ e ∈ es, ElemOk e := by
  induction fuel generalizing b es with
  | zero =>
    cases b with
    | nil => simp [parseN] at h; subst h; simp
    | cons x xs => simp [parseN] at h
  | succ k ih =>
    cases b with
    | nil => simp [parseN] at h; subst h; simp
    | cons x xs =>
      rw [parseN] at h
      · cases hd : decBlock (x :: xs) with
        | none => simp [hd] at h
        | some p =>
          obtain ⟨t, v, rest⟩ := p
          simp only [hd, Option.map_eq_some_iff] at h
          obtain ⟨es', h1, rfl⟩ := h
          obtain ⟨-, -, -, hok⟩ := decBlock_consumes hd
          intro e he
          rcases List.mem_cons.1 he with rfl | he
          · exact hok
          · exact ih h1 e he
      · simp

theorem parse_ok {b : Bytes} {es : List Elem} (h : parse b = some es) : ∀ e ∈ es, ElemOk e :=
  parseN_ok h

theorem decNni_encNni (n : Nat) (h : n < 2 ^ 64) : decNni (encNni n) = some n := by
  unfold encNni
  have aux : ∀ k, n < 256 ^ k → (k = 1 ∨ k = 2 ∨ k = 4 ∨ k = 8) → decNni (be k n) = some n := by
    intro k hk hkk
    rw [decNni, be_length, if_pos hkk, fromBe_be k n hk]
  split
  · exact aux 1 (by omega) (by simp)
  · split
    · exact aux 2 (by omega) (by simp)
    · split
      · exact aux 4 (by omega) (by simp)
      · exact aux 8 (by omega) (by simp)

theorem encNni_length (n : Nat) : (encNni n).length ≤ 8 := by
  unfold encNni
  split <;> (try split) <;> (try split) <;> simp [be_length]

theorem decNni_lt {b : Bytes} {n : Nat} (h : decNni b = some n) : n < 2 ^ 64 := by
  unfold decNni at h
  split at h
  · rename_i hl
    simp only [Option.some.injEq] at h
    rw [← h]
    have h1 := fromBe_lt b
    have : (256 : Nat) ^ b.length ≤ 256 ^ 8 := Nat.pow_le_pow_right (by decide) (by omega)
    have : (256 : Nat) ^ 8 = 2 ^ 64 := by decide
    omega
  · simp at h

theorem decDouble_enc (f32) (d : UInt64) : decDouble f32 (encDouble d) = some d := by
  unfold decDouble encDouble
  rw [be_length, if_pos rfl, fromBe_be 8 _ (by have := d.toNat_lt; omega)]
  simp

theorem encDouble_length (d : UInt64) : (encDouble d).length = 8 := be_length ..

/-- A name whose components can be put on the wire. -/
def NameOk (n : Name) : Prop := ∀ c ∈ n, (1 ≤ c.typ ∧ c.typ < 4294967296) ∧ c.val.length < 2 ^ 64

theorem encComps_eq (n : Name) : encComps n = encElems (n.map (fun c => (c.typ, c.val))) := by
  induction n with
  | nil => rfl
  | cons c cs ih => simp [encComps, encElems, ih]

theorem decName_enc {n : Name} (h : NameOk n) : decName (encComps n) = some n := by
  rw [encComps_eq, decName, parse_encElems]
  · simp [Function.comp_def]
  · intro e he
    obtain ⟨c, hc, rfl⟩ := List.mem_map.1 he
    exact h c hc

theorem decName_ok {v : Bytes} {n : Name} (h : decName v = some n) : NameOk n := by
  unfold decName at h
  rw [Option.map_eq_some_iff] at h
  obtain ⟨es, h1, rfl⟩ := h
  intro c hc
  obtain ⟨e, he, rfl⟩ := List.mem_map.1 hc
  exact parse_ok h1 e he

end Nlsr.Tlv
