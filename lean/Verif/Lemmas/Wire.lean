import Verif.Lemmas.Tlv
/- Round trips of the LSA codecs. -/
namespace Nlsr.Wire
open Tlv

theorem block_eq_encElems (t v) : block t v = encElems [(t, v)] := by simp [encElems]

theorem encElems_append (a b : List Elem) : encElems (a ++ b) = encElems a ++ encElems b := by
  simp [encElems]

theorem encElems_cons (e : Elem) (es) : encElems (e :: es) = block e.1 e.2 ++ encElems es := by
  simp [encElems]

theorem encElems_map {α : Type} (t : Nat) (f : α → Bytes) (l : List α) :
    (l.map (fun a => block t (f a))).flatten = encElems (l.map (fun a => (t, f a))) := by
  simp [encElems, Function.comp_def]

theorem loopOf_map {α β : Type} (t : Nat) (f : Bytes → Option α) (g : β → Bytes) (h : β → α) (l : List β)
    (hf : ∀ b ∈ l, f (g b) = some (h b)) :
    loopOf t f (l.map (fun b => (t, g b))) = some (l.map h) := by
  induction l with
  | nil => rfl
  | cons x xs ih =>
    simp only [List.map_cons, loopOf, if_true]
    rw [hf x (by simp), ih (fun b hb => hf b (by simp [hb]))]

theorem loopOf_ok {α : Type} {t : Nat} {f : Bytes → Option α} {es : List Elem} {l : List α}
    (h : loopOf t f es = some l) : ∀ a ∈ l, ∃ e ∈ es, f e.2 = some a := by
  induction es generalizing l with
  | nil => simp [loopOf] at h; subst h; simp
  | cons e es ih =>
    simp only [loopOf] at h
    split at h
    · cases h1 : f e.2 with
      | none => simp [h1] at h
      | some a =>
        cases h2 : loopOf t f es with
        | none => simp [h1, h2] at h
        | some as =>
          simp only [h1, h2, Option.some.injEq] at h
          subst h
          intro x hx
          rcases List.mem_cons.1 hx with rfl | hx
          · exact ⟨e, by simp, h1⟩
          · obtain ⟨e', he', h'⟩ := ih h2 x hx
            exact ⟨e', by simp [he'], h'⟩
    · simp at h

theorem top_block {t : Nat} {v : Bytes} (h : ElemOk (t, v)) : top t (block t v) = some v := by
  have := decBlock_block h []
  rw [List.append_nil] at this
  simp [top, this]

theorem block_length (t : Nat) (v : Bytes) : v.length < (block t v).length := by
  have : (encVar t) ≠ [] := by
    unfold encVar; split <;> (try split) <;> (try split) <;> simp
  have : 0 < (encVar t).length := List.length_pos_iff.2 this
  simp [block]; omega

theorem elem_length_le {es : List Elem} {e : Elem} (h : e ∈ es) :
    e.2.length < (encElems es).length := by
  induction es with
  | nil => simp at h
  | cons x xs ih =>
    rw [encElems_cons, List.length_append]
    rcases List.mem_cons.1 h with rfl | h
    · have := block_length e.1 e.2; omega
    · have := ih h; omega

/-- Length-of-whole bound gives every element's bound. -/
theorem elemsOk_of_length {es : List Elem} (ht : ∀ e ∈ es, 1 ≤ e.1 ∧ e.1 < 4294967296)
    (hl : (encElems es).length ≤ 2 ^ 64) : ∀ e ∈ es, ElemOk e := by
  intro e he
  exact ⟨ht e he, by have := elem_length_le he; omega⟩

/-- Component types of a name are valid TLV types. -/
def NameTypes (n : Name) : Prop := ∀ c ∈ n, 1 ≤ c.typ ∧ c.typ < 4294967296

theorem nameOk_of_length {n : Name} (ht : NameTypes n) (hl : (encComps n).length ≤ 2 ^ 64) : NameOk n := by
  intro c hc
  refine ⟨ht c hc, ?_⟩
  rw [encComps_eq] at hl
  have := elem_length_le (es := n.map (fun c => (c.typ, c.val))) (e := (c.typ, c.val))
    (List.mem_map.2 ⟨c, hc, rfl⟩)
  simp only at this
  omega

/-! ### Base -/

def baseElems (C : Codec) (b : WBase) : List Elem :=
  [(7, encComps b.origin), (130, encNni b.seq), (139, C.timeTo b.exp)]

theorem encBase_eq (C : Codec) (b : WBase) : encBase C b = block 128 (encElems (baseElems C b)) := by
  simp [encBase, encElems, baseElems, encName]

/-- What an LSA must satisfy to be encodable: valid component types, 64-bit sequence number, an
expiration the time codec can represent. -/
def BaseOk (C : Codec) (b : WBase) : Prop :=
  NameTypes b.origin ∧ b.seq < 2 ^ 64 ∧ C.timeFrom (C.timeTo b.exp) = some b.exp

theorem decBase_enc {C : Codec} {b : WBase} (h : BaseOk C b)
    (hl : (encElems (baseElems C b)).length ≤ 2 ^ 64) :
    decBase C (encElems (baseElems C b)) = some b := by
  obtain ⟨h1, h2, h3⟩ := h
  have hn : (encComps b.origin).length ≤ 2 ^ 64 := by
    have := elem_length_le (es := baseElems C b) (e := (7, encComps b.origin)) (by simp [baseElems])
    simp only at this; omega
  have hok : ∀ e ∈ baseElems C b, ElemOk e := elemsOk_of_length (by simp [baseElems]) hl
  unfold decBase
  rw [parse_encElems _ hok]
  simp [baseElems, expect, decName_enc (nameOk_of_length h1 hn), decNni_encNni _ h2, h3]

theorem decBase_ok {C : Codec} (hC : ∀ b t, C.timeFrom b = some t → C.timeFrom (C.timeTo t) = some t)
    {v : Bytes} {b : WBase} (h : decBase C v = some b) : BaseOk C b := by
  unfold decBase at h
  simp only [Option.bind_eq_bind, Option.bind_eq_some_iff, Option.some.injEq, Prod.exists] at h
  obtain ⟨es, -, nv, es1, -, o, ho, sv, es2, -, s, hs, tv, es3, -, t, ht, rfl⟩ := h
  exact ⟨fun c hc => ((decName_ok ho) c hc).1, decNni_lt hs, hC _ _ ht⟩

/-! ### Adjacency LSA -/

def adjElems (a : WAdj) : List Elem := [(7, encComps a.name), (141, a.uri), (140, encDouble a.cost)]

theorem encAdj_eq (a : WAdj) : encAdj a = block 132 (encElems (adjElems a)) := by
  simp [encAdj, encElems, adjElems, encName]

def AdjOk (C : Codec) (a : WAdj) : Prop := NameTypes a.name ∧ C.uri a.uri = some a.uri

theorem decAdj_enc {C : Codec} {a : WAdj} (h : AdjOk C a)
    (hl : (encElems (adjElems a)).length ≤ 2 ^ 64) : decAdj C (encElems (adjElems a)) = some a := by
  have hn : (encComps a.name).length ≤ 2 ^ 64 := by
    have := elem_length_le (es := adjElems a) (e := (7, encComps a.name)) (by simp [adjElems])
    simp only at this; omega
  have hok : ∀ e ∈ adjElems a, ElemOk e := elemsOk_of_length (by simp [adjElems]) hl
  unfold decAdj
  rw [parse_encElems _ hok]
  simp [adjElems, expect, decName_enc (nameOk_of_length h.1 hn), h.2, decDouble_enc]

theorem decAdj_ok {C : Codec} (hC : ∀ u u', C.uri u = some u' → C.uri u' = some u')
    {v : Bytes} {a : WAdj} (h : decAdj C v = some a) : AdjOk C a := by
  unfold decAdj at h
  simp only [Option.bind_eq_bind, Option.bind_eq_some_iff, Option.some.injEq, Prod.exists] at h
  obtain ⟨es, -, nv, es1, -, o, ho, uv, es2, -, u, hu, tv, es3, -, t, ht, rfl⟩ := h
  exact ⟨fun c hc => ((decName_ok ho) c hc).1, hC _ _ hu⟩

theorem foldl_insertAdj_nodup (l : List WAdj) : ∀ acc : List WAdj,
    ((acc ++ l).map (·.name)).Nodup → l.foldl insertAdj acc = acc ++ l := by
  induction l with
  | nil => intro acc _; simp
  | cons x xs ih =>
    intro acc h
    have hx : acc.any (fun y => y.name == x.name) = false := by
      rw [List.any_eq_false]
      intro y hy he
      simp only [List.map_append, List.map_cons, List.nodup_append] at h
      exact h.2.2 _ (List.mem_map_of_mem hy) x.name (by simp) (by simpa using he)
    simp only [List.foldl_cons, insertAdj, hx, Bool.false_eq_true, if_false]
    rw [ih (acc ++ [x]) (by simpa using h)]
    simp

theorem insertAdj_inv (l : List WAdj) : ∀ acc : List WAdj, (acc.map (·.name)).Nodup →
    ((l.foldl insertAdj acc).map (·.name)).Nodup ∧ ∀ a ∈ l.foldl insertAdj acc, a ∈ acc ∨ a ∈ l := by
  induction l with
  | nil => intro acc h; exact ⟨h, fun a ha => Or.inl ha⟩
  | cons x xs ih =>
    intro acc h
    simp only [List.foldl_cons]
    have h1 : ((insertAdj acc x).map (·.name)).Nodup := by
      unfold insertAdj
      split
      · exact h
      · rename_i hx
        simp only [List.map_append, List.map_cons, List.map_nil, List.nodup_append]
        refine ⟨h, by simp, ?_⟩
        intro n hn m hm he
        simp at hm; subst hm; subst he
        obtain ⟨y, hy, hyn⟩ := List.mem_map.1 hn
        exact hx (List.any_eq_true.2 ⟨y, hy, by simp [hyn]⟩)
    obtain ⟨g1, g2⟩ := ih _ h1
    refine ⟨g1, fun a ha => ?_⟩
    rcases g2 a ha with h2 | h2
    · unfold insertAdj at h2
      split at h2
      · exact Or.inl h2
      · rcases List.mem_append.1 h2 with h2 | h2
        · exact Or.inl h2
        · simp at h2; exact Or.inr (by simp [h2])
    · exact Or.inr (by simp [h2])

def AdjLsaOk (C : Codec) (l : WAdjLsa) : Prop :=
  BaseOk C l.base ∧ (∀ a ∈ l.adjs, AdjOk C a) ∧ (l.adjs.map (·.name)).Nodup

theorem decAdjLsa_enc {C : Codec} {l : WAdjLsa} (h : AdjLsaOk C l)
    (hl : (encAdjLsa C l).length ≤ 2 ^ 64) : decAdjLsa C (encAdjLsa C l) = some l := by
  obtain ⟨h1, h2, h3⟩ := h
  let es : List Elem := (128, encElems (baseElems C l.base)) :: l.adjs.map (fun a => (132, encElems (adjElems a)))
  have henc : encAdjLsa C l = block 131 (encElems es) := by
    simp only [encAdjLsa, encBase_eq, es, encElems_cons]
    congr 2
    rw [← encElems_map]
    congr 1
    exact List.map_congr_left (fun a _ => encAdj_eq a)
  rw [henc] at hl ⊢
  have hl1 := block_length 131 (encElems es)
  have hok : ∀ e ∈ es, ElemOk e := by
    refine elemsOk_of_length ?_ (by omega)
    intro e he
    rcases List.mem_cons.1 he with rfl | he
    · simp
    · obtain ⟨a, -, rfl⟩ := List.mem_map.1 he; simp
  have hb : (encElems (baseElems C l.base)).length ≤ 2 ^ 64 := by
    have := (hok (128, encElems (baseElems C l.base)) (by simp [es])).2
    simp only at this; omega
  have ha : ∀ a ∈ l.adjs, decAdj C (encElems (adjElems a)) = some a := by
    intro a ha
    refine decAdj_enc (h2 a ha) ?_
    have := (hok (132, encElems (adjElems a)) (List.mem_cons_of_mem _ (List.mem_map.2 ⟨a, ha, rfl⟩))).2
    simp only at this; omega
  unfold decAdjLsa
  rw [top_block ⟨by simp, by simp only; omega⟩]
  simp only [Option.bind_eq_bind, Option.bind_some, parse_encElems es hok]
  simp only [es, expect, if_true, Option.bind_some, decBase_enc h1 hb]
  rw [loopOf_map 132 (decAdj C) (fun a => encElems (adjElems a)) id l.adjs ha]
  simp only [List.map_id, Option.bind_some]
  rw [foldl_insertAdj_nodup l.adjs [] (by simpa using h3)]
  rfl

theorem decAdjLsa_ok {C : Codec} (hC : ∀ b t, C.timeFrom b = some t → C.timeFrom (C.timeTo t) = some t)
    (hU : ∀ u u', C.uri u = some u' → C.uri u' = some u')
    {b : Bytes} {l : WAdjLsa} (h : decAdjLsa C b = some l) : AdjLsaOk C l := by
  unfold decAdjLsa at h
  simp only [Option.bind_eq_bind, Option.bind_eq_some_iff, Option.some.injEq, Prod.exists] at h
  obtain ⟨v, -, es, -, bv, es1, -, base, hb, adjs, ha, rfl⟩ := h
  obtain ⟨g1, g2⟩ := insertAdj_inv adjs [] (by simp)
  refine ⟨decBase_ok hC hb, fun a haa => ?_, g1⟩
  rcases g2 a haa with h | h
  · simp at h
  · obtain ⟨e, -, he⟩ := loopOf_ok ha a h
    exact decAdj_ok hU he

/-! ### Coordinate LSA -/

theorem decCoordLsa_enc {C : Codec} {l : WCoordLsa} (h : BaseOk C l.base)
    (hl : (encCoordLsa C l).length ≤ 2 ^ 64) : decCoordLsa C (encCoordLsa C l) = some l := by
  let es : List Elem := (128, encElems (baseElems C l.base)) :: (135, encDouble l.radius) ::
    l.angles.map (fun a => (136, encDouble a))
  have henc : encCoordLsa C l = block 133 (encElems es) := by
    simp only [encCoordLsa, encBase_eq, es, encElems_cons, List.append_assoc]
    congr 3
    rw [encElems_map]
  rw [henc] at hl ⊢
  have hl1 := block_length 133 (encElems es)
  have hok : ∀ e ∈ es, ElemOk e := by
    refine elemsOk_of_length ?_ (by omega)
    intro e he
    rcases List.mem_cons.1 he with rfl | he
    · simp
    · rcases List.mem_cons.1 he with rfl | he
      · simp
      · obtain ⟨a, -, rfl⟩ := List.mem_map.1 he; simp
  have hb : (encElems (baseElems C l.base)).length ≤ 2 ^ 64 := by
    have := (hok (128, encElems (baseElems C l.base)) (by simp [es])).2
    simp only at this; omega
  unfold decCoordLsa
  rw [top_block ⟨by simp, by simp only; omega⟩]
  simp only [Option.bind_eq_bind, Option.bind_some, parse_encElems es hok]
  simp only [es, expect, if_true, Option.bind_some, decBase_enc h hb, decDouble_enc]
  rw [loopOf_map 136 (decDouble C.f32) encDouble id l.angles (fun a _ => decDouble_enc _ a)]
  simp

theorem decCoordLsa_ok {C : Codec} (hC : ∀ b t, C.timeFrom b = some t → C.timeFrom (C.timeTo t) = some t)
    {b : Bytes} {l : WCoordLsa} (h : decCoordLsa C b = some l) : BaseOk C l.base := by
  unfold decCoordLsa at h
  simp only [Option.bind_eq_bind, Option.bind_eq_some_iff, Option.some.injEq, Prod.exists] at h
  obtain ⟨v, -, es, -, bv, es1, -, base, hb, _, _, _, _, _, _, _, rfl⟩ := h
  exact decBase_ok hC hb

/-! ### Name LSA -/

def prefixElems (p : WPrefix) : List Elem := [(7, encComps p.name), (140, encDouble p.cost)]

theorem encPrefix_eq (p : WPrefix) : encPrefix p = block 146 (encElems (prefixElems p)) := by
  simp [encPrefix, encElems, prefixElems, encName]

theorem decPrefix_enc {C : Codec} {p : WPrefix} (h : NameTypes p.name)
    (hl : (encElems (prefixElems p)).length ≤ 2 ^ 64) :
    decPrefix C (encElems (prefixElems p)) = some p := by
  have hn : (encComps p.name).length ≤ 2 ^ 64 := by
    have := elem_length_le (es := prefixElems p) (e := (7, encComps p.name)) (by simp [prefixElems])
    simp only at this; omega
  have hok : ∀ e ∈ prefixElems p, ElemOk e := elemsOk_of_length (by simp [prefixElems]) hl
  unfold decPrefix
  rw [parse_encElems _ hok]
  simp [prefixElems, expect, decName_enc (nameOk_of_length h hn), decDouble_enc]

theorem decPrefix_ok {C : Codec} {v : Bytes} {p : WPrefix} (h : decPrefix C v = some p) :
    NameTypes p.name := by
  unfold decPrefix at h
  simp only [Option.bind_eq_bind, Option.bind_eq_some_iff, Option.some.injEq, Prod.exists] at h
  obtain ⟨es, -, nv, es1, -, o, ho, tv, es3, -, t, ht, rfl⟩ := h
  exact fun c hc => ((decName_ok ho) c hc).1

/-- Sorted by name without duplicates: what iterating the `std::map` gives. -/
def SortedNames (l : List WPrefix) : Prop := l.Pairwise (fun a b => Name.lt a.name b.name = true)

theorem insertPrefix_append (l : List WPrefix) (p : WPrefix)
    (h : ∀ q ∈ l, Name.lt q.name p.name = true) : insertPrefix l p = l ++ [p] := by
  induction l with
  | nil => rfl
  | cons q qs ih =>
    have h1 := h q (by simp)
    have h2 : Name.lt p.name q.name = false := Name.lt_asymm h1
    simp [insertPrefix, h1, h2, ih (fun q hq => h q (by simp [hq]))]

theorem foldl_insertPrefix_sorted (l : List WPrefix) : ∀ acc : List WPrefix, SortedNames (acc ++ l) →
    l.foldl insertPrefix acc = acc ++ l := by
  induction l with
  | nil => intro acc _; simp
  | cons x xs ih =>
    intro acc h
    have hx : ∀ q ∈ acc, Name.lt q.name x.name = true := by
      intro q hq
      exact (List.pairwise_append.1 h).2.2 q hq x (by simp)
    rw [List.foldl_cons, insertPrefix_append acc x hx, ih (acc ++ [x]) (by simpa using h)]
    simp

theorem mem_insertPrefix (l : List WPrefix) (p q : WPrefix) (h : q ∈ insertPrefix l p) :
    q = p ∨ q ∈ l := by
  induction l with
  | nil => simpa [insertPrefix] using h
  | cons x xs ih =>
    unfold insertPrefix at h
    split at h
    · simpa using h
    · split at h
      · rcases List.mem_cons.1 h with h | h
        · exact Or.inr (by simp [h])
        · rcases ih h with h | h
          · exact Or.inl h
          · exact Or.inr (by simp [h])
      · rcases List.mem_cons.1 h with h | h
        · exact Or.inl h
        · exact Or.inr (by simp [h])

theorem insertPrefix_sorted (l : List WPrefix) (p : WPrefix) (h : SortedNames l) :
    SortedNames (insertPrefix l p) := by
  induction l with
  | nil => simp [insertPrefix, SortedNames]
  | cons x xs ih =>
    unfold SortedNames at h ih ⊢
    rw [List.pairwise_cons] at h
    unfold insertPrefix
    split
    · rename_i h1
      rw [List.pairwise_cons, List.pairwise_cons]
      refine ⟨?_, h⟩
      intro q hq
      rcases List.mem_cons.1 hq with rfl | hq
      · exact h1
      · exact Name.lt_trans h1 (h.1 q hq)
    · split
      · rename_i h1 h2
        rw [List.pairwise_cons]
        refine ⟨fun q hq => ?_, ih h.2⟩
        rcases mem_insertPrefix _ _ _ hq with rfl | hq
        · exact h2
        · exact h.1 q hq
      · rename_i h1 h2
        have he : p.name = x.name := by
          refine Classical.byContradiction fun hne => ?_
          rcases Name.lt_or_gt hne with h3 | h3
          · exact absurd h3 h1
          · exact absurd h3 h2
        rw [List.pairwise_cons]
        exact ⟨fun q hq => by rw [he]; exact h.1 q hq, h.2⟩

theorem foldl_insertPrefix_inv (l : List WPrefix) : ∀ acc, SortedNames acc →
    SortedNames (l.foldl insertPrefix acc) ∧ ∀ q ∈ l.foldl insertPrefix acc, q ∈ acc ∨ q ∈ l := by
  induction l with
  | nil => intro acc h; exact ⟨h, fun q hq => Or.inl hq⟩
  | cons x xs ih =>
    intro acc h
    obtain ⟨g1, g2⟩ := ih _ (insertPrefix_sorted acc x h)
    refine ⟨g1, fun q hq => ?_⟩
    rcases g2 q hq with h | h
    · rcases mem_insertPrefix _ _ _ h with h | h
      · exact Or.inr (by simp [h])
      · exact Or.inl h
    · exact Or.inr (by simp [h])

def NameLsaOk (C : Codec) (l : WNameLsa) : Prop :=
  BaseOk C l.base ∧ (∀ p ∈ l.names, NameTypes p.name) ∧ SortedNames l.names

theorem decNameLsa_enc {C : Codec} {l : WNameLsa} (h : NameLsaOk C l)
    (hl : (encNameLsa C l).length ≤ 2 ^ 64) : decNameLsa C (encNameLsa C l) = some l := by
  obtain ⟨h1, h2, h3⟩ := h
  let es : List Elem := (128, encElems (baseElems C l.base)) :: l.names.map (fun a => (146, encElems (prefixElems a)))
  have henc : encNameLsa C l = block 137 (encElems es) := by
    simp only [encNameLsa, encBase_eq, es, encElems_cons]
    congr 2
    rw [← encElems_map]
    congr 1
  rw [henc] at hl ⊢
  have hl1 := block_length 137 (encElems es)
  have hok : ∀ e ∈ es, ElemOk e := by
    refine elemsOk_of_length ?_ (by omega)
    intro e he
    rcases List.mem_cons.1 he with rfl | he
    · simp
    · obtain ⟨a, -, rfl⟩ := List.mem_map.1 he; simp
  have hb : (encElems (baseElems C l.base)).length ≤ 2 ^ 64 := by
    have := (hok (128, encElems (baseElems C l.base)) (by simp [es])).2
    simp only at this; omega
  have ha : ∀ a ∈ l.names, decPrefix C (encElems (prefixElems a)) = some a := by
    intro a ha
    refine decPrefix_enc (h2 a ha) ?_
    have := (hok (146, encElems (prefixElems a)) (List.mem_cons_of_mem _ (List.mem_map.2 ⟨a, ha, rfl⟩))).2
    simp only at this; omega
  unfold decNameLsa
  rw [top_block ⟨by simp, by simp only; omega⟩]
  simp only [Option.bind_eq_bind, Option.bind_some, parse_encElems es hok]
  simp only [es, expect, if_true, Option.bind_some, decBase_enc h1 hb]
  rw [loopOf_map 146 (decPrefix C) (fun a => encElems (prefixElems a)) id l.names ha]
  simp only [List.map_id, Option.bind_some]
  rw [foldl_insertPrefix_sorted l.names [] (by simpa using h3)]
  rfl

theorem decNameLsa_ok {C : Codec} (hC : ∀ b t, C.timeFrom b = some t → C.timeFrom (C.timeTo t) = some t)
    {b : Bytes} {l : WNameLsa} (h : decNameLsa C b = some l) : NameLsaOk C l := by
  unfold decNameLsa at h
  simp only [Option.bind_eq_bind, Option.bind_eq_some_iff, Option.some.injEq, Prod.exists] at h
  obtain ⟨v, -, es, -, bv, es1, -, base, hb, ps, ha, rfl⟩ := h
  obtain ⟨g1, g2⟩ := foldl_insertPrefix_inv ps [] List.Pairwise.nil
  refine ⟨decBase_ok hC hb, fun a haa => ?_, g1⟩
  rcases g2 a haa with h | h
  · simp at h
  · obtain ⟨e, -, he⟩ := loopOf_ok ha a h
    exact decPrefix_ok he

end Nlsr.Wire
