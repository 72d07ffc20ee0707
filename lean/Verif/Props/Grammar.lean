import Verif.Spec.Grammar
import Verif.Props.Tlv
import Verif.Lemmas.RtWire

/-!
C122: the decoders accept the blocks of the documented formats and no others, and read from them what they say.
-/

namespace Nlsr.Gram
open Tlv Wire

theorem decVar_iff {b : Bytes} {n : Nat} {r : Bytes} : decVar b = some (n, r) ↔ ∃ p, Var n p ∧ b = p ++ r := by
  constructor
  · intro h
    cases b with
    | nil => simp [decVar] at h
    | cons x xs =>
      simp only [decVar] at h
      split at h
      · rename_i hx
        simp only [Option.some.injEq, Prod.mk.injEq] at h
        obtain ⟨rfl, rfl⟩ := h
        refine ⟨[x], Or.inl ⟨UInt8.lt_iff_toNat_lt.1 hx, by simp⟩, rfl⟩
      · rename_i hx
        split at h
        · cases h
        · rename_i hl
          simp only [Option.some.injEq, Prod.mk.injEq] at h
          obtain ⟨rfl, rfl⟩ := h
          refine ⟨x :: xs.take (varWidth x), Or.inr ⟨x, varWidth x, xs.take (varWidth x), ?_, rfl, ?_, rfl⟩, by simp⟩
          · have h1 : x.toNat < 256 := x.toNat_lt
            have h2 : ¬ x.toNat < 253 := fun h => hx (UInt8.lt_iff_toNat_lt.2 h)
            have h3 : x = 253 ∨ x = 254 ∨ x = 255 := by
              have : x.toNat = 253 ∨ x.toNat = 254 ∨ x.toNat = 255 := by omega
              rcases this with h | h | h
              · exact Or.inl (UInt8.toNat_inj.1 h)
              · exact Or.inr (Or.inl (UInt8.toNat_inj.1 h))
              · exact Or.inr (Or.inr (UInt8.toNat_inj.1 h))
            rcases h3 with rfl | rfl | rfl <;> decide
          · rw [List.length_take]; omega
  · rintro ⟨p, hp | ⟨h, k, w, hk, rfl, hl, rfl⟩, rfl⟩
    · obtain ⟨hn, rfl⟩ := hp
      have h1 : (UInt8.ofNat n).toNat = n := by rw [UInt8.toNat_ofNat']; omega
      have h2 : UInt8.ofNat n < 253 := UInt8.lt_iff_toNat_lt.2 (by rw [h1]; exact hn)
      show decVar (UInt8.ofNat n :: r) = _
      simp only [decVar]
      rw [if_pos h2, h1]
    · show decVar (h :: (w ++ r)) = _
      have h1 : ¬ h < 253 ∧ varWidth h = k := by
        simp only [List.mem_cons, List.not_mem_nil, or_false, Prod.mk.injEq] at hk
        rcases hk with ⟨rfl, rfl⟩ | ⟨rfl, rfl⟩ | ⟨rfl, rfl⟩ <;> decide
      simp only [decVar]
      rw [if_neg h1.1, if_neg (by rw [h1.2, List.length_append]; omega), h1.2, ← hl]
      simp

theorem decBlock_iff {b : Bytes} {t : Nat} {v r : Bytes} : decBlock b = some (t, v, r) ↔
    ∃ bt bl, 1 ≤ t ∧ t < 2 ^ 32 ∧ Var t bt ∧ Var v.length bl ∧ b = bt ++ bl ++ v ++ r := by
  constructor
  · intro h
    unfold decBlock at h
    cases h1 : decVar b with
    | none => simp [h1] at h
    | some p =>
      obtain ⟨t', r1⟩ := p
      simp only [h1] at h
      split at h
      · rename_i ht
        cases h2 : decVar r1 with
        | none => simp [h2] at h
        | some p =>
          obtain ⟨l, r2⟩ := p
          simp only [h2] at h
          split at h
          · rename_i hl
            simp only [Option.some.injEq, Prod.mk.injEq] at h
            obtain ⟨rfl, rfl, rfl⟩ := h
            obtain ⟨bt, hbt, rfl⟩ := decVar_iff.1 h1
            obtain ⟨bl, hbl, rfl⟩ := decVar_iff.1 h2
            refine ⟨bt, bl, ht.1, ht.2, hbt, ?_, by simp⟩
            rw [List.length_take, Nat.min_eq_left hl]
            exact hbl
          · cases h
      · cases h
  · rintro ⟨bt, bl, h1, h2, ht, hl, rfl⟩
    unfold decBlock
    have e1 : decVar (bt ++ bl ++ v ++ r) = some (t, bl ++ v ++ r) := decVar_iff.2 ⟨bt, ht, by simp⟩
    have e2 : decVar (bl ++ v ++ r) = some (v.length, v ++ r) := decVar_iff.2 ⟨bl, hl, by simp⟩
    rw [e1]
    dsimp only
    rw [if_pos ⟨h1, h2⟩, e2]
    dsimp only
    rw [if_pos (by simp)]
    simp

theorem var_pos {n : Nat} {b : Bytes} (h : Var n b) : 1 ≤ b.length := by
  rcases h with ⟨_, rfl⟩ | ⟨h, k, w, _, rfl, _, _⟩ <;> simp

theorem parseN_tlvs : ∀ (fuel : Nat) (b : Bytes) (es : List Elem), parseN fuel b = some es → Tlvs es b := by
  intro fuel
  induction fuel with
  | zero =>
    intro b es h
    cases b with
    | nil => simp only [parseN, Option.some.injEq] at h; subst h; exact .nil
    | cons x xs => simp [parseN] at h
  | succ fuel ih =>
    intro b es h
    cases b with
    | nil => simp only [parseN, Option.some.injEq] at h; subst h; exact .nil
    | cons x xs =>
      simp only [parseN] at h
      cases h1 : decBlock (x :: xs) with
      | none => simp [h1] at h
      | some p =>
        obtain ⟨t, v, r⟩ := p
        simp only [h1, Option.map_eq_some_iff] at h
        obtain ⟨es', h2, rfl⟩ := h
        obtain ⟨bt, bl, g1, g2, g3, g4, g5⟩ := decBlock_iff.1 h1
        rw [g5]
        exact .cons g1 g2 g3 g4 (ih _ _ h2)

theorem tlvs_parseN {es : List Elem} {b : Bytes} (h : Tlvs es b) : ∀ fuel, b.length ≤ fuel → parseN fuel b = some es := by
  induction h with
  | nil => intro fuel _; cases fuel <;> rfl
  | cons h1 h2 ht hl hn ih =>
    rename_i t v bt bl b es
    intro fuel hf
    have p1 := var_pos ht
    have hb : decBlock (bt ++ bl ++ v ++ b) = some (t, v, b) := decBlock_iff.2 ⟨bt, bl, h1, h2, ht, hl, rfl⟩
    have hlen : b.length + 1 ≤ (bt ++ bl ++ v ++ b).length := by simp only [List.length_append]; omega
    cases fuel with
    | zero => omega
    | succ fuel =>
      cases hc : bt ++ bl ++ v ++ b with
      | nil => rw [hc] at hlen; simp at hlen
      | cons x xs =>
        simp only [parseN]
        rw [← hc, hb]
        dsimp only
        rw [ih fuel (by omega)]
        rfl

theorem parse_iff {b : Bytes} {es : List Elem} : parse b = some es ↔ Tlvs es b :=
  ⟨parseN_tlvs _ _ _, fun h => tlvs_parseN h _ (Nat.le_refl _)⟩

theorem expect_iff {t : Nat} {es : List Elem} {v : Bytes} {r : List Elem} : expect t es = some (v, r) ↔ es = (t, v) :: r := by
  cases es with
  | nil => simp [expect]
  | cons e es =>
    obtain ⟨t', v'⟩ := e
    unfold expect
    by_cases h : t' = t
    · subst h
      simp
    · simp [h]

theorem loopOf_iff {α : Type} {t : Nat} {f : Bytes → Option α} {es : List Elem} {l : List α} :
    loopOf t f es = some l ↔ ∃ items : List (Bytes × α), es = items.map (fun i => (t, i.1)) ∧ l = items.map (·.2) ∧
      ∀ i ∈ items, f i.1 = some i.2 := by
  constructor
  · intro h
    induction es generalizing l with
    | nil => simp only [loopOf, Option.some.injEq] at h; exact ⟨[], rfl, h.symm, fun i hi => by cases hi⟩
    | cons e es ih =>
      simp only [loopOf] at h
      split at h
      · rename_i he
        cases h1 : f e.2 with
        | none => simp [h1] at h
        | some a =>
          cases h2 : loopOf t f es with
          | none => simp [h1, h2] at h
          | some as =>
            simp only [h1, h2, Option.some.injEq] at h
            obtain ⟨items, rfl, rfl, g⟩ := ih h2
            refine ⟨(e.2, a) :: items, ?_, h.symm, ?_⟩
            · rw [← he]; rfl
            · intro i hi
              rcases List.mem_cons.1 hi with rfl | hi
              · exact h1
              · exact g i hi
      · cases h
  · rintro ⟨items, rfl, rfl, g⟩
    induction items with
    | nil => rfl
    | cons i items ih =>
      simp only [List.map_cons, loopOf, if_true]
      rw [g i List.mem_cons_self, ih (fun j hj => g j (List.mem_cons_of_mem _ hj))]

theorem top_iff {t : Nat} {b v : Bytes} : top t b = some v ↔ Tlvs [(t, v)] b := by
  constructor
  · intro h
    unfold top at h
    split at h
    · rename_i t' v' hb
      split at h
      · rename_i ht
        subst ht
        cases h
        obtain ⟨bt, bl, g1, g2, g3, g4, g5⟩ := decBlock_iff.1 hb
        rw [g5]
        exact .cons g1 g2 g3 g4 .nil
      · cases h
    · cases h
  · intro h
    cases h with
    | cons h1 h2 ht hl hn =>
      cases hn
      unfold top
      rw [decBlock_iff.2 ⟨_, _, h1, h2, ht, hl, rfl⟩]
      dsimp only
      rw [if_pos rfl]

theorem decName_iff {v : Bytes} {n : Name} : decName v = some n ↔ IsName n v := by
  unfold decName IsName
  rw [Option.map_eq_some_iff]
  constructor
  · rintro ⟨es, h, rfl⟩
    rw [List.map_map]
    have : ((fun c : Comp => (c.typ, c.val)) ∘ fun e : Elem => (⟨e.1, e.2⟩ : Comp)) = id := rfl
    rw [this, List.map_id]
    exact parse_iff.1 h
  · intro h
    refine ⟨_, parse_iff.2 h, ?_⟩
    rw [List.map_map]
    have : ((fun e : Elem => (⟨e.1, e.2⟩ : Comp)) ∘ fun c : Comp => (c.typ, c.val)) = id := rfl
    rw [this, List.map_id]

theorem decNni_iff {v : Bytes} {n : Nat} : decNni v = some n ↔ IsNni n v := by
  unfold decNni IsNni
  split
  · rename_i h; simp [h]
  · rename_i h; simp [h]

theorem decDouble_iff {f32 : UInt32 → UInt64} {v : Bytes} {x : UInt64} : decDouble f32 v = some x ↔ IsDouble f32 x v := by
  unfold decDouble IsDouble
  split
  · rename_i h
    rw [h]
    simp [eq_comm]
  · rename_i h
    split
    · rename_i h2
      rw [h2]
      simp [eq_comm]
    · rename_i h2
      simp [h, h2]

theorem decBase_iff {C : Codec} {v : Bytes} {x : WBase} : decBase C v = some x ↔ BaseFmt C x v := by
  unfold decBase BaseFmt
  simp only [Option.bind_eq_bind, Option.bind_eq_some_iff, Option.some.injEq, Prod.exists, parse_iff, expect_iff, decName_iff, decNni_iff]
  constructor
  · rintro ⟨es, h, nv, es1, rfl, o, ho, sv, es2, rfl, s, hs, tv, es3, rfl, t, ht, rfl⟩
    exact ⟨nv, sv, tv, es3, h, ho, hs, ht⟩
  · rintro ⟨nv, sv, tv, es3, h, ho, hs, ht⟩
    exact ⟨_, h, nv, _, rfl, _, ho, sv, _, rfl, _, hs, tv, es3, rfl, _, ht, rfl⟩

theorem decAdj_iff {C : Codec} {v : Bytes} {a : WAdj} : decAdj C v = some a ↔ AdjFmt C a v := by
  unfold decAdj AdjFmt
  simp only [Option.bind_eq_bind, Option.bind_eq_some_iff, Option.some.injEq, Prod.exists, parse_iff, expect_iff, decName_iff, decDouble_iff]
  constructor
  · rintro ⟨es, h, nv, es1, rfl, o, ho, sv, es2, rfl, s, hs, tv, es3, rfl, t, ht, rfl⟩
    exact ⟨nv, sv, tv, es3, h, ho, hs, ht⟩
  · rintro ⟨nv, sv, tv, es3, h, ho, hs, ht⟩
    exact ⟨_, h, nv, _, rfl, _, ho, sv, _, rfl, _, hs, tv, es3, rfl, _, ht, rfl⟩

theorem decPrefix_iff {C : Codec} {v : Bytes} {p : WPrefix} : decPrefix C v = some p ↔ PrefixFmt C p v := by
  unfold decPrefix PrefixFmt
  simp only [Option.bind_eq_bind, Option.bind_eq_some_iff, Option.some.injEq, Prod.exists, parse_iff, expect_iff, decName_iff, decDouble_iff]
  constructor
  · rintro ⟨es, h, nv, es1, rfl, o, ho, tv, es3, rfl, t, ht, rfl⟩
    exact ⟨nv, tv, es3, h, ho, ht⟩
  · rintro ⟨nv, tv, es3, h, ho, ht⟩
    exact ⟨_, h, nv, _, rfl, _, ho, tv, es3, rfl, _, ht, rfl⟩

theorem decHop_iff {C : RtCodec} {v : Bytes} {a : NextHop} : decHop C v = some a ↔ HopFmt C a v := by
  unfold decHop HopFmt
  simp only [Option.bind_eq_bind, Option.bind_eq_some_iff, Option.some.injEq, Prod.exists, parse_iff, expect_iff, decDouble_iff]
  constructor
  · rintro ⟨es, h, nv, es1, rfl, o, ho, tv, es3, rfl, t, ht, rfl⟩
    exact ⟨nv, tv, es3, t, h, ho, ht, rfl, rfl⟩
  · rintro ⟨nv, tv, es3, t, h, ho, ht, hc, hh⟩
    refine ⟨_, h, nv, _, rfl, _, ho, tv, es3, rfl, _, ht, ?_⟩
    cases a
    cases hc
    cases hh
    rfl

/-! ### The lists -/

theorem firsts_names (l : List WAdj) : ∀ a ∈ firsts l, a ∈ l := by
  induction l with
  | nil => exact fun a ha => ha
  | cons x xs ih =>
    intro a ha
    rcases List.mem_cons.1 ha with rfl | ha
    · exact List.mem_cons_self
    · exact List.mem_cons_of_mem _ (ih a (List.mem_filter.1 ha).1)

theorem foldl_insertAdj (l : List WAdj) : ∀ acc : List WAdj,
    l.foldl insertAdj acc = acc ++ (firsts l).filter (fun x => !acc.any (fun y => y.name == x.name)) := by
  induction l with
  | nil => intro acc; simp [firsts]
  | cons x xs ih =>
    intro acc
    rw [List.foldl_cons, ih]
    have hfs : firsts (x :: xs) = x :: (firsts xs).filter (fun y => y.name ≠ x.name) := rfl
    rw [hfs]
    unfold insertAdj
    by_cases hx : acc.any (fun y => y.name == x.name) = true
    · rw [if_pos hx, List.filter_cons, if_neg (by rw [hx]; simp), List.filter_filter]
      congr 1
      refine List.filter_congr (fun a _ => ?_)
      by_cases ha : a.name = x.name
      · rw [ha, hx]; simp
      · simp [ha]
    · have hx' : acc.any (fun y => y.name == x.name) = false := by simpa using hx
      rw [if_neg hx, List.filter_cons, if_pos (by rw [hx']; rfl), List.filter_filter, List.append_assoc]
      congr 1
      show x :: _ = x :: _
      congr 1
      show List.filter _ _ = _
      refine List.filter_congr (fun a _ => ?_)
      rw [List.any_append]
      by_cases ha : a.name = x.name
      · simp [ha]
      · have : ¬ x.name = a.name := fun h => ha h.symm
        simp [ha, this]

theorem mem_insertPrefix_iff {l : List WPrefix} (hs : SortedNames l) (p q : WPrefix) :
    q ∈ insertPrefix l p ↔ q = p ∨ (q ∈ l ∧ q.name ≠ p.name) := by
  induction l with
  | nil => simp [insertPrefix]
  | cons x xs ih =>
    unfold SortedNames at hs ih
    rw [List.pairwise_cons] at hs
    have irr : ∀ a b : Name, Name.lt a b = true → a ≠ b := by
      rintro a b h rfl
      have := Name.lt_asymm h
      rw [h] at this
      cases this
    unfold insertPrefix
    split
    · rename_i h1
      rw [List.mem_cons]
      constructor
      · rintro (h | h)
        · exact Or.inl h
        · refine Or.inr ⟨h, ?_⟩
          rcases List.mem_cons.1 h with rfl | h
          · exact (irr _ _ h1).symm
          · exact (irr _ _ (Name.lt_trans h1 (hs.1 q h))).symm
      · rintro (h | h)
        · exact Or.inl h
        · exact Or.inr h.1
    · split
      · rename_i h1 h2
        rw [List.mem_cons, ih hs.2, List.mem_cons]
        constructor
        · rintro (rfl | h | h)
          · exact Or.inr ⟨Or.inl rfl, irr _ _ h2⟩
          · exact Or.inl h
          · exact Or.inr ⟨Or.inr h.1, h.2⟩
        · rintro (h | ⟨h | h, h3⟩)
          · exact Or.inr (Or.inl h)
          · exact Or.inl h
          · exact Or.inr (Or.inr ⟨h, h3⟩)
      · rename_i h1 h2
        have he : p.name = x.name := by
          refine Classical.byContradiction fun hne => ?_
          rcases Name.lt_or_gt hne with h3 | h3
          · exact absurd h3 h1
          · exact absurd h3 h2
        rw [List.mem_cons, List.mem_cons]
        constructor
        · rintro (h | h)
          · exact Or.inl h
          · refine Or.inr ⟨Or.inr h, ?_⟩
            rw [he]
            exact (irr _ _ (hs.1 q h)).symm
        · rintro (h | ⟨rfl | h, h3⟩)
          · exact Or.inl h
          · exact absurd he.symm h3
          · exact Or.inr h

theorem isLast_snoc (p x : WPrefix) (l : List WPrefix) : IsLast p (l ++ [x]) ↔ p = x ∨ (IsLast p l ∧ p.name ≠ x.name) := by
  constructor
  · rintro ⟨a, b, e, hb⟩
    rcases List.eq_nil_or_concat b with rfl | ⟨b', y, rfl⟩
    · have := List.append_inj' e rfl
      exact Or.inl (by have := this.2; cases this; rfl)
    · have e' : l ++ [x] = (a ++ p :: b') ++ [y] := by rw [e]; simp
      obtain ⟨e1, e2⟩ := List.append_inj' e' rfl
      cases e2
      exact Or.inr ⟨⟨a, b', e1, fun q hq => hb q (by simp [hq])⟩, fun h => hb x (by simp) h.symm⟩
  · rintro (rfl | ⟨⟨a, b, rfl, hb⟩, h⟩)
    · exact ⟨l, [], rfl, fun q hq => by cases hq⟩
    · refine ⟨a, b ++ [x], by simp, ?_⟩
      intro q hq
      rcases List.mem_append.1 hq with hq | hq
      · exact hb q hq
      · rw [List.mem_singleton.1 hq]; exact fun e => h e.symm

theorem foldl_insertPrefix (r : List WPrefix) : SortedNames (r.reverse.foldl insertPrefix []) ∧
    ∀ p, p ∈ r.reverse.foldl insertPrefix [] ↔ IsLast p r.reverse := by
  induction r with
  | nil =>
    refine ⟨List.Pairwise.nil, fun p => ⟨fun h => (by cases h), ?_⟩⟩
    rintro ⟨a, b, e, -⟩
    have := congrArg List.length e
    simp at this
  | cons x r ih =>
    rw [List.reverse_cons, List.foldl_append]
    refine ⟨insertPrefix_sorted _ _ ih.1, fun p => ?_⟩
    show p ∈ insertPrefix _ x ↔ _
    rw [mem_insertPrefix_iff ih.1, isLast_snoc, ih.2]

theorem sorted_ext : ∀ {a b : List WPrefix}, SortedNames a → SortedNames b → (∀ p, p ∈ a ↔ p ∈ b) → a = b := by
  have irr : ∀ a b : Name, Name.lt a b = true → Name.lt b a = true → False := by
    intro a b h1 h2
    have := Name.lt_asymm h1
    rw [h2] at this
    cases this
  intro a
  induction a with
  | nil =>
    intro b _ _ h
    cases b with
    | nil => rfl
    | cons y b => have := (h y).2 List.mem_cons_self; cases this
  | cons x a ih =>
    intro b ha hb h
    cases b with
    | nil => have := (h x).1 List.mem_cons_self; cases this
    | cons y b =>
      unfold SortedNames at ha hb
      rw [List.pairwise_cons] at ha hb
      have hxy : x = y := by
        rcases List.mem_cons.1 ((h x).1 List.mem_cons_self) with e | h1
        · exact e
        · rcases List.mem_cons.1 ((h y).2 List.mem_cons_self) with e | h2
          · exact e.symm
          · exact (irr _ _ (hb.1 x h1) (ha.1 y h2)).elim
      subst hxy
      congr 1
      refine ih ha.2 hb.2 (fun p => ?_)
      have hp := h p
      rw [List.mem_cons, List.mem_cons] at hp
      constructor
      · intro hm
        rcases hp.1 (Or.inr hm) with rfl | h'
        · exact (irr _ _ (ha.1 _ hm) (ha.1 _ hm)).elim
        · exact h'
      · intro hm
        rcases hp.2 (Or.inr hm) with rfl | h'
        · exact (irr _ _ (hb.1 _ hm) (hb.1 _ hm)).elim
        · exact h'

end Nlsr.Gram

namespace Nlsr
open Tlv Wire Gram

/-- C122: an Adjacency LSA is read from a block iff the block is one of type AdjacencyLsa with an Lsa and any number of
Adjacency elements, each of the documented format; of several neighbours of one name the first counts. -/
theorem C122_adjacency_partial (C : Codec) (b : Bytes) (l : WAdjLsa) : decAdjLsa C b = some l ↔
    ∃ (v bv : Bytes) (items : List (Bytes × WAdj)), Tlvs [(131, v)] b ∧ Tlvs ((128, bv) :: items.map fun i => (132, i.1)) v ∧
      BaseFmt C l.base bv ∧ (∀ i ∈ items, AdjFmt C i.2 i.1) ∧ l.adjs = firsts (items.map (·.2)) := by
  have hf : ∀ l : List WAdj, l.foldl insertAdj [] = firsts l := by
    intro l
    rw [foldl_insertAdj]
    simp
  unfold decAdjLsa
  simp only [Option.bind_eq_bind, Option.bind_eq_some_iff, Option.some.injEq, Prod.exists, parse_iff, expect_iff, top_iff, decBase_iff,
    loopOf_iff, decAdj_iff, hf]
  constructor
  · rintro ⟨v, h1, es, h2, bv, es', rfl, x, hx, as, ⟨items, rfl, rfl, hi⟩, rfl⟩
    exact ⟨v, bv, items, h1, h2, hx, hi, rfl⟩
  · rintro ⟨v, bv, items, h1, h2, hx, hi, hl⟩
    refine ⟨v, h1, _, h2, bv, _, rfl, _, hx, _, ⟨items, rfl, rfl, hi⟩, ?_⟩
    rw [← hl]

/-- C122: a Name LSA is read from a block iff the block is one of type NameLsa with an Lsa and any number of PrefixInfo
elements, each of the documented format; the names come in their order, each once, with the last cost given. -/
theorem C122_name_partial (C : Codec) (b : Bytes) (l : WNameLsa) : decNameLsa C b = some l ↔
    ∃ (v bv : Bytes) (items : List (Bytes × WPrefix)), Tlvs [(137, v)] b ∧ Tlvs ((128, bv) :: items.map fun i => (146, i.1)) v ∧
      BaseFmt C l.base bv ∧ (∀ i ∈ items, PrefixFmt C i.2 i.1) ∧
      l.names.Pairwise (fun p q => Name.lt p.name q.name = true) ∧ ∀ p, p ∈ l.names ↔ IsLast p (items.map (·.2)) := by
  have hf : ∀ r : List WPrefix, SortedNames (r.foldl insertPrefix []) ∧ ∀ p, p ∈ r.foldl insertPrefix [] ↔ IsLast p r := by
    intro r
    have := foldl_insertPrefix r.reverse
    rwa [List.reverse_reverse] at this
  unfold decNameLsa
  simp only [Option.bind_eq_bind, Option.bind_eq_some_iff, Option.some.injEq, Prod.exists, parse_iff, expect_iff, top_iff, decBase_iff,
    loopOf_iff, decPrefix_iff]
  constructor
  · rintro ⟨v, h1, es, h2, bv, es', rfl, x, hx, as, ⟨items, rfl, rfl, hi⟩, rfl⟩
    exact ⟨v, bv, items, h1, h2, hx, hi, (hf _).1, (hf _).2⟩
  · rintro ⟨v, bv, items, h1, h2, hx, hi, hs, hl⟩
    refine ⟨v, h1, _, h2, bv, _, rfl, _, hx, _, ⟨items, rfl, rfl, hi⟩, ?_⟩
    have : (items.map (·.2)).foldl insertPrefix [] = l.names :=
      sorted_ext (hf _).1 hs (fun p => ((hf _).2 p).trans (hl p).symm)
    rw [this]

/-- C122: a Coordinate LSA is read from a block iff the block is one of type CoordinateLsa with an Lsa, a HyperbolicRadius and any
number of HyperbolicAngle elements. -/
theorem C122_coordinate_partial (C : Codec) (b : Bytes) (l : WCoordLsa) : decCoordLsa C b = some l ↔
    ∃ (v bv rv : Bytes) (items : List (Bytes × UInt64)), Tlvs [(133, v)] b ∧
      Tlvs ((128, bv) :: (135, rv) :: items.map fun i => (136, i.1)) v ∧
      BaseFmt C l.base bv ∧ IsDouble C.f32 l.radius rv ∧ (∀ i ∈ items, IsDouble C.f32 i.2 i.1) ∧ l.angles = items.map (·.2) := by
  unfold decCoordLsa
  simp only [Option.bind_eq_bind, Option.bind_eq_some_iff, Option.some.injEq, Prod.exists, parse_iff, expect_iff, top_iff, decBase_iff,
    loopOf_iff, decDouble_iff]
  constructor
  · rintro ⟨v, h1, es, h2, bv, es', rfl, x, hx, rv, es'', rfl, r, hr, as, ⟨items, rfl, rfl, hi⟩, rfl⟩
    exact ⟨v, bv, rv, items, h1, h2, hx, hr, hi, rfl⟩
  · rintro ⟨v, bv, rv, items, h1, h2, hx, hr, hi, hl⟩
    refine ⟨v, h1, _, h2, bv, _, rfl, _, hx, rv, _, rfl, _, hr, _, ⟨items, rfl, rfl, hi⟩, ?_⟩
    rw [← hl]

/-- C122: the dataset of the routing table is read from a block iff the block is one of type RoutingTable with any number of
RoutingTableEntry elements, each a name and any number of NextHop elements. -/
theorem C122_dataset_partial (C : RtCodec) (b : Bytes) : (decRt C b).isSome = true ↔
    ∃ (v : Bytes) (items : List (Bytes × Name × List (Bytes × NextHop))), Tlvs [(144, v)] b ∧ Tlvs (items.map fun i => (145, i.1)) v ∧
      ∀ i ∈ items, RteFmt C i.2.1 i.2.2 i.1 := by
  have hr : ∀ (v : Bytes) (e : RtEntry), decRte C v = some e ↔ ∃ hops, RteFmt C e.dest hops v ∧
      e.hops = (hops.map (·.2)).foldl NexthopList.add [] := by
    intro v e
    unfold decRte RteFmt
    simp only [Option.bind_eq_bind, Option.bind_eq_some_iff, Option.some.injEq, Prod.exists, parse_iff, expect_iff, decName_iff, loopOf_iff,
      decHop_iff]
    constructor
    · rintro ⟨es, h, nv, es', rfl, n, hn, l, ⟨items, rfl, rfl, hi⟩, rfl⟩
      exact ⟨items, ⟨nv, h, hn, hi⟩, rfl⟩
    · rintro ⟨items, ⟨nv, h, hn, hi⟩, hl⟩
      refine ⟨_, h, nv, _, rfl, _, hn, _, ⟨items, rfl, rfl, hi⟩, ?_⟩
      rw [← hl]
  rw [Option.isSome_iff_exists]
  unfold decRt
  simp only [Option.bind_eq_bind, Option.bind_eq_some_iff, Option.some.injEq, parse_iff, top_iff, loopOf_iff]
  constructor
  · rintro ⟨r, v, h1, es, h2, l, ⟨items, rfl, rfl, hi⟩, rfl⟩
    have : ∀ items : List (Bytes × RtEntry), (∀ i ∈ items, decRte C i.1 = some i.2) →
        ∃ its : List (Bytes × Name × List (Bytes × NextHop)), its.map (·.1) = items.map (·.1) ∧ ∀ i ∈ its, RteFmt C i.2.1 i.2.2 i.1 := by
      intro items
      induction items with
      | nil => exact fun _ => ⟨[], rfl, fun i hi => by cases hi⟩
      | cons i items ih =>
        intro h
        obtain ⟨its, e, g⟩ := ih (fun j hj => h j (List.mem_cons_of_mem _ hj))
        obtain ⟨hops, hf, -⟩ := (hr _ _).1 (h i List.mem_cons_self)
        refine ⟨(i.1, i.2.dest, hops) :: its, by rw [List.map_cons, List.map_cons, e], ?_⟩
        intro j hj
        rcases List.mem_cons.1 hj with rfl | hj
        · exact hf
        · exact g j hj
    obtain ⟨its, e, g⟩ := this items hi
    refine ⟨v, its, h1, ?_, g⟩
    have e2 : its.map (fun i => ((145, i.1) : Elem)) = items.map (fun i => (145, i.1)) := by
      have := congrArg (List.map fun x : Bytes => ((145, x) : Elem)) e
      simpa [List.map_map, Function.comp_def] using this
    rw [e2]
    exact h2
  · rintro ⟨v, items, h1, h2, hi⟩
    refine ⟨_, v, h1, _, h2, _, ⟨items.map fun i => (i.1, ⟨i.2.1, (i.2.2.map (·.2)).foldl NexthopList.add []⟩), ?_, rfl, ?_⟩, rfl⟩
    · rw [List.map_map]; rfl
    · intro i h
      obtain ⟨j, hj, rfl⟩ := List.mem_map.1 h
      exact (hr _ _).2 ⟨j.2.2, hi j hj, rfl⟩

/-! ### Examples -/

/-- An Adjacency LSA of /r1 whose Lsa has one more element, of the critical type 201; the first neighbour is given twice, the
length of the block is written with three octets. -/
def exMore : Bytes :=
  let bv := encName (nm ["r1"]) ++ block 130 [3] ++ block 139 (toyCodec.timeTo 12) ++ block 201 [1]
  let v := block 128 bv ++ encAdj ⟨nm ["r2"], [117], 5⟩ ++ encAdj ⟨nm ["r2"], [117, 1], 6⟩ ++ encAdj ⟨nm ["r3"], [117, 2], 7⟩
  131 :: 253 :: be 2 v.length ++ v

theorem exMore_read : (decAdjLsa toyCodec exMore).map (fun l => (l.base.origin, l.base.seq, l.adjs.map (·.name))) =
    some (nm ["r1"], 3, [nm ["r2"], nm ["r3"]]) := by decide +kernel

/-- The right side of `C122_adjacency_partial` can be met. -/
example : ∃ (l : WAdjLsa) (v bv : Bytes) (items : List (Bytes × WAdj)), Tlvs [(131, v)] exMore ∧
    Tlvs ((128, bv) :: items.map fun i => (132, i.1)) v ∧ BaseFmt toyCodec l.base bv ∧ (∀ i ∈ items, AdjFmt toyCodec i.2 i.1) ∧
    l.adjs = firsts (items.map (·.2)) ∧ l.adjs.length = 2 := by
  have h := exMore_read
  rw [Option.map_eq_some_iff] at h
  obtain ⟨l, hl, e⟩ := h
  obtain ⟨v, bv, items, h1, h2, h3, h4, h5⟩ := (C122_adjacency_partial _ _ _).1 hl
  refine ⟨l, v, bv, items, h1, h2, h3, h4, h5, ?_⟩
  have := congrArg (fun p => p.2.2.length) e
  simpa using this

example : (decNameLsa toyCodec (encNameLsa toyCodec ⟨⟨nm ["r1"], 3, 12⟩, [⟨nm ["b"], 5⟩, ⟨nm ["a"], 6⟩, ⟨nm ["b"], 7⟩]⟩)).map (·.names) =
    some [⟨nm ["a"], 6⟩, ⟨nm ["b"], 7⟩] := by decide +kernel

example : (decRt toyRt (encRt toyRt [⟨nm ["r2"], [⟨"udp4://2", 3/10, false⟩]⟩] [])).isSome = true := by decide +kernel

/-- A block of another type in the place of the sequence number, and one in the place of a neighbour, are refused. -/
example : decAdjLsa toyCodec (block 131 (block 128 (encName (nm ["r1"]) ++ block 131 [3] ++ block 139 (toyCodec.timeTo 12)))) = none ∧
    decAdjLsa toyCodec (block 131 (encBase toyCodec ⟨nm ["r1"], 3, 12⟩ ++ block 146 [])) = none := by decide +kernel

/-- C122 is violated: "a block that is accepted has the elements of the documented format and no others".  Inside Lsa, Adjacency,
PrefixInfo and NextHop nobody looks at what follows the last element that is needed (src/lsa/lsa.cpp:93-98, src/adjacent.cpp:150-157), so
elements of any type, critical ones too, are accepted there and lost, while in the place of a neighbour or a name an unknown
element makes the whole LSA unreadable.  In the witness the Lsa has an element of type 201 after the expiration time. -/
theorem C122_violated_more : ¬ ∀ (C : Codec) (b : Bytes) (l : WAdjLsa), decAdjLsa C b = some l →
    ∃ (v bv nv sv tv : Bytes) (es : List Elem), Tlvs [(131, v)] b ∧ Tlvs ((128, bv) :: es) v ∧
      Tlvs [(7, nv), (130, sv), (139, tv)] bv := by
  intro h
  have hm := exMore_read
  rw [Option.map_eq_some_iff] at hm
  obtain ⟨l, hl, -⟩ := hm
  obtain ⟨v, bv, nv, sv, tv, es, h1, h2, h3⟩ := h _ _ _ hl
  have hk : ((((top 131 exMore).bind parse).bind List.head?).bind (fun e => parse e.2)).map List.length = some 4 := by decide +kernel
  rw [top_iff.2 h1, Option.bind_some, parse_iff.2 h2, Option.bind_some, List.head?_cons, Option.bind_some, parse_iff.2 h3] at hk
  cases hk

/-- C122 is violated: "a Coordinate LSA has at least one angle" (src/lsa/coordinate-lsa.hpp:40).  The loop over the angles
(src/lsa/coordinate-lsa.cpp:110-119) may run no times. -/
theorem C122_violated_angles : ¬ ∀ (C : Codec) (b : Bytes) (l : WCoordLsa), decCoordLsa C b = some l → l.angles ≠ [] := by
  intro h
  have hm : (decCoordLsa toyCodec (encCoordLsa toyCodec ⟨⟨nm ["r1"], 3, 12⟩, 5, []⟩)).map (·.angles) = some [] := by decide +kernel
  rw [Option.map_eq_some_iff] at hm
  obtain ⟨l, hl, e⟩ := hm
  exact h _ _ _ hl e

end Nlsr
