import Verif.Lemmas.Print
import Verif.Lemmas.Cmd
/- The printed text, from the lines back to the LSAs and the tables. -/
namespace Nlsr
namespace Print
open Tlv Wire

/-! ### what can be seen of an LSA -/

/-- Origin, number, and milliseconds until it expires. -/
def seenBase (now : Int) (x : WBase) : Name × Nat × Int := (x.origin, x.seq, Int.tdiv (x.exp - now) 1000000)

/-- The links: names, URIs, and costs to six digits. -/
def seenAdj (now : Int) (x : WAdjLsa) : (Name × Nat × Int) × List (Name × Bytes × Text) :=
  (seenBase now x.base, x.adjs.map (fun a => (a.name, a.uri, showDouble a.cost)))

/-- The coordinates, to six digits. -/
def seenCor (now : Int) (x : WCoordLsa) : (Name × Nat × Int) × Text × List Text :=
  (seenBase now x.base, showDouble x.radius, x.angles.map showDouble)

/-- The prefixes, and costs to six digits. -/
def seenName (now : Int) (x : WNameLsa) : (Name × Nat × Int) × List (Name × Text) :=
  (seenBase now x.base, x.names.map (fun p => (p.name, showDouble p.cost)))

/-- The text of a URI has neither commas nor line ends. -/
def PlainUri (u : Bytes) : Prop := ',' ∉ uriText u ∧ '\n' ∉ uriText u

/-- Names that can be read back, and plain URIs. -/
structure AdjOk (x : WAdjLsa) : Prop where
  origin : Readable x.base.origin
  adjs : ∀ a ∈ x.adjs, Readable a.name ∧ PlainUri a.uri

def CorOk (x : WCoordLsa) : Prop := Readable x.base.origin

structure NameOk (x : WNameLsa) : Prop where
  origin : Readable x.base.origin
  names : ∀ p ∈ x.names, Readable p.name

theorem uriText_inj {u v : Bytes} (h : uriText u = uriText v) : u = v := by
  unfold uriText at h
  have key : ∀ b : UInt8, UInt8.ofNat (Char.ofNat b.toNat).toNat = b := by
    intro b
    exact Uri.byte_char b
  have h2 := congrArg (List.map (fun c : Char => UInt8.ofNat c.toNat)) h
  rw [List.map_map, List.map_map] at h2
  have e : ∀ l : Bytes, l.map ((fun c : Char => UInt8.ofNat c.toNat) ∘ fun b => Char.ofNat b.toNat) = l := by
    intro l
    conv => rhs; rw [← List.map_id l]
    exact List.map_congr_left (fun b _ => key b)
  rwa [e, e] at h2

theorem adjLine_inj {i : Nat} {a b : WAdj} (ha : Readable a.name ∧ PlainUri a.uri) (hb : Readable b.name ∧ PlainUri b.uri)
    (h : adjLine i a = adjLine i b) : (a.name, a.uri, showDouble a.cost) = (b.name, b.uri, showDouble b.cost) := by
  unfold adjLine at h
  have h := List.append_cancel_left (List.append_cancel_left (Prod.mk.inj h).2)
  have hc : ∀ n, ',' ∉ Uri.ofName n := ofName_not (by decide) (by decide)
  obtain ⟨h1, h⟩ := cut (hc a.name) (hc b.name) (show Uri.ofName a.name ++ ',' :: (" uri=".toList ++ _) = Uri.ofName b.name ++ ',' :: (" uri=".toList ++ _) from h)
  have h := List.append_cancel_left h
  obtain ⟨h2, h⟩ := cut ha.2.1 hb.2.1 (show uriText a.uri ++ ',' :: (" cost=".toList ++ _) = uriText b.uri ++ ',' :: (" cost=".toList ++ _) from h)
  have h := List.append_cancel_right (List.append_cancel_left h)
  rw [ofName_inj ha.1 hb.1 h1, uriText_inj h2, h]

theorem angleLine_inj {i : Nat} {a b : UInt64} (h : angleLine i a = angleLine i b) : showDouble a = showDouble b := by
  unfold angleLine at h
  exact List.append_cancel_left (List.append_cancel_left (Prod.mk.inj h).2)

theorem nameLine_inj {i : Nat} {a b : WPrefix} (ha : Readable a.name) (hb : Readable b.name)
    (h : nameLine i a = nameLine i b) : (a.name, showDouble a.cost) = (b.name, showDouble b.cost) := by
  unfold nameLine at h
  have h := List.append_cancel_left (List.append_cancel_left (Prod.mk.inj h).2)
  have hc : ∀ n, ' ' ∉ Uri.ofName n := ofName_not (by decide) (by decide)
  obtain ⟨h1, h⟩ := cut (hc a.name) (hc b.name) (show Uri.ofName a.name ++ ' ' :: ("| Cost: ".toList ++ _) = Uri.ofName b.name ++ ' ' :: ("| Cost: ".toList ++ _) from h)
  rw [ofName_inj ha hb h1, List.append_cancel_left h]

theorem adjsLines_inj : ∀ {i : Nat} {l l' : List WAdj}, (∀ a ∈ l, Readable a.name ∧ PlainUri a.uri) → (∀ a ∈ l', Readable a.name ∧ PlainUri a.uri) →
    adjsLines i l = adjsLines i l' →
    l.map (fun a => (a.name, a.uri, showDouble a.cost)) = l'.map (fun a => (a.name, a.uri, showDouble a.cost))
  | _, [], [], _, _, _ => rfl
  | _, [], _ :: _, _, _, h => by simp [adjsLines] at h
  | _, _ :: _, [], _, _, h => by simp [adjsLines] at h
  | i, a :: l, b :: l', h1, h2, h => by
    unfold adjsLines at h
    rw [List.cons.injEq] at h
    rw [List.map_cons, List.map_cons, adjLine_inj (h1 a (List.mem_cons.2 (Or.inl rfl))) (h2 b (List.mem_cons.2 (Or.inl rfl))) h.1,
      adjsLines_inj (fun x hx => h1 x (List.mem_cons_of_mem _ hx)) (fun x hx => h2 x (List.mem_cons_of_mem _ hx)) h.2]

theorem anglesLines_inj : ∀ {i : Nat} {l l' : List UInt64}, anglesLines i l = anglesLines i l' → l.map showDouble = l'.map showDouble
  | _, [], [], _ => rfl
  | _, [], _ :: _, h => by simp [anglesLines] at h
  | _, _ :: _, [], h => by simp [anglesLines] at h
  | i, a :: l, b :: l', h => by
    unfold anglesLines at h
    rw [List.cons.injEq] at h
    rw [List.map_cons, List.map_cons, angleLine_inj h.1, anglesLines_inj h.2]

theorem namesLines_inj : ∀ {i : Nat} {l l' : List WPrefix}, (∀ a ∈ l, Readable a.name) → (∀ a ∈ l', Readable a.name) →
    namesLines i l = namesLines i l' → l.map (fun a => (a.name, showDouble a.cost)) = l'.map (fun a => (a.name, showDouble a.cost))
  | _, [], [], _, _, _ => rfl
  | _, [], _ :: _, _, _, h => by simp [namesLines] at h
  | _, _ :: _, [], _, _, h => by simp [namesLines] at h
  | i, a :: l, b :: l', h1, h2, h => by
    unfold namesLines at h
    rw [List.cons.injEq] at h
    rw [List.map_cons, List.map_cons, nameLine_inj (h1 a (List.mem_cons.2 (Or.inl rfl))) (h2 b (List.mem_cons.2 (Or.inl rfl))) h.1,
      namesLines_inj (fun x hx => h1 x (List.mem_cons_of_mem _ hx)) (fun x hx => h2 x (List.mem_cons_of_mem _ hx)) h.2]

theorem baseLines_inj {now : Int} {k : Kind} {x y : WBase} {r r' : List Line} (hx : Readable x.origin) (hy : Readable y.origin)
    (h : baseLines now k x ++ r = baseLines now k y ++ r') : seenBase now x = seenBase now y ∧ r = r' := by
  unfold baseLines at h
  simp only [List.cons_append, List.nil_append, List.cons.injEq, Prod.mk.injEq, true_and] at h
  obtain ⟨h1, h2, h3, h4⟩ := h
  unfold seenBase
  rw [ofName_inj hx hy h1, dec_inj h2, showMs_inj h3]
  exact ⟨rfl, h4⟩

theorem adjLines_inj {now : Int} {x y : WAdjLsa} (hx : AdjOk x) (hy : AdjOk y) (h : adjLines now x = adjLines now y) :
    seenAdj now x = seenAdj now y := by
  obtain ⟨h1, h2⟩ := baseLines_inj hx.origin hy.origin h
  unfold seenAdj
  rw [h1, adjsLines_inj hx.adjs hy.adjs (List.cons.inj h2).2]

theorem coordLines_inj {now : Int} {x y : WCoordLsa} (hx : CorOk x) (hy : CorOk y) (h : coordLines now x = coordLines now y) :
    seenCor now x = seenCor now y := by
  obtain ⟨h1, h2⟩ := baseLines_inj hx hy h
  unfold seenCor
  rw [h1, anglesLines_inj (List.cons.inj h2).2, (Prod.mk.inj (List.cons.inj h2).1).2]

theorem nameLines_inj {now : Int} {x y : WNameLsa} (hx : NameOk x) (hy : NameOk y) (h : nameLines now x = nameLines now y) :
    seenName now x = seenName now y := by
  obtain ⟨h1, h2⟩ := baseLines_inj hx.origin hy.origin h
  unfold seenName
  rw [h1, namesLines_inj hx.names hy.names (List.cons.inj h2).2]

/-! ### and the other way round -/

theorem baseLines_seen {now : Int} {k : Kind} {x y : WBase} (h : seenBase now x = seenBase now y) : baseLines now k x = baseLines now k y := by
  unfold seenBase at h
  simp only [Prod.mk.injEq] at h
  unfold baseLines
  rw [h.1, h.2.1, h.2.2]

theorem adjsLines_seen : ∀ {i : Nat} {l l' : List WAdj},
    l.map (fun a => (a.name, a.uri, showDouble a.cost)) = l'.map (fun a => (a.name, a.uri, showDouble a.cost)) → adjsLines i l = adjsLines i l'
  | _, [], [], _ => rfl
  | _, [], _ :: _, h => by simp at h
  | _, _ :: _, [], h => by simp at h
  | i, a :: l, b :: l', h => by
    rw [List.map_cons, List.map_cons, List.cons.injEq] at h
    obtain ⟨h1, h2⟩ := h
    simp only [Prod.mk.injEq] at h1
    unfold adjsLines adjLine
    rw [h1.1, h1.2.1, h1.2.2, adjsLines_seen h2]

theorem anglesLines_seen : ∀ {i : Nat} {l l' : List UInt64}, l.map showDouble = l'.map showDouble → anglesLines i l = anglesLines i l'
  | _, [], [], _ => rfl
  | _, [], _ :: _, h => by simp at h
  | _, _ :: _, [], h => by simp at h
  | i, a :: l, b :: l', h => by
    rw [List.map_cons, List.map_cons, List.cons.injEq] at h
    unfold anglesLines angleLine
    rw [h.1, anglesLines_seen h.2]

theorem namesLines_seen : ∀ {i : Nat} {l l' : List WPrefix},
    l.map (fun a => (a.name, showDouble a.cost)) = l'.map (fun a => (a.name, showDouble a.cost)) → namesLines i l = namesLines i l'
  | _, [], [], _ => rfl
  | _, [], _ :: _, h => by simp at h
  | _, _ :: _, [], h => by simp at h
  | i, a :: l, b :: l', h => by
    rw [List.map_cons, List.map_cons, List.cons.injEq] at h
    obtain ⟨h1, h2⟩ := h
    simp only [Prod.mk.injEq] at h1
    unfold namesLines nameLine
    rw [h1.1, h1.2, namesLines_seen h2]

theorem adjLines_seen {now : Int} {x y : WAdjLsa} (h : seenAdj now x = seenAdj now y) : adjLines now x = adjLines now y := by
  unfold seenAdj at h
  unfold adjLines
  rw [baseLines_seen (Prod.mk.inj h).1, adjsLines_seen (Prod.mk.inj h).2]

theorem coordLines_seen {now : Int} {x y : WCoordLsa} (h : seenCor now x = seenCor now y) : coordLines now x = coordLines now y := by
  unfold seenCor at h
  unfold coordLines
  rw [baseLines_seen (Prod.mk.inj h).1, (Prod.mk.inj (Prod.mk.inj h).2).1, anglesLines_seen (Prod.mk.inj (Prod.mk.inj h).2).2]

theorem nameLines_seen {now : Int} {x y : WNameLsa} (h : seenName now x = seenName now y) : nameLines now x = nameLines now y := by
  unfold seenName at h
  unfold nameLines
  rw [baseLines_seen (Prod.mk.inj h).1, namesLines_seen (Prod.mk.inj h).2]

/-! ### lines are good lines, and not blank -/

/-- A line of an LSA. -/
def Inner (l : Line) : Prop := Good l ∧ l.1 ≠ .blank ∧ l.1 ≠ .rt ∧ l.1 ≠ .notYet

theorem inner_of {k : Kind} {t : Text} (h : '\n' ∉ t) (hk : k.exact = false ∧ k ≠ .blank ∧ k ≠ .rt ∧ k ≠ .notYet) : Inner (k, t) :=
  ⟨⟨fun e => absurd (hk.1.symm.trans e) Bool.false_ne_true, h⟩, hk.2⟩

theorem inner_exact {k : Kind} (hk : k ≠ .blank ∧ k ≠ .rt ∧ k ≠ .notYet) : Inner (k, []) := ⟨⟨fun _ => rfl, List.not_mem_nil⟩, hk⟩

theorem ofName_nl (n : Name) : '\n' ∉ Uri.ofName n := ofName_not (by decide) (by decide) n
theorem showDouble_nl (b : UInt64) : '\n' ∉ showDouble b := not_numeric (by decide) (showDouble_numeric b)
theorem dec_nl (n : Nat) : '\n' ∉ Uri.dec n := dec_not (by decide) n

theorem baseLines_inner (now : Int) {k : Kind} (hk : k ≠ .blank ∧ k ≠ .rt ∧ k ≠ .notYet) (x : WBase) : ∀ l ∈ baseLines now k x, Inner l ∨ l = (k, []) := by
  intro l hl
  unfold baseLines at hl
  simp only [List.mem_cons, List.not_mem_nil, or_false] at hl
  rcases hl with rfl | rfl | rfl | rfl
  · exact Or.inr rfl
  · exact Or.inl (inner_of (ofName_nl _) (by decide))
  · exact Or.inl (inner_of (dec_nl _) (by decide))
  · exact Or.inl (inner_of (showMs_chars _) (by decide))

theorem adjsLines_inner : ∀ (i : Nat) {l : List WAdj}, (∀ a ∈ l, PlainUri a.uri) → ∀ y ∈ adjsLines i l, Inner y
  | _, [], _, _, hy => by cases hy
  | i, a :: l, h, y, hy => by
    unfold adjsLines at hy
    rcases List.mem_cons.1 hy with rfl | hy
    · refine inner_of ?_ (by decide)
      simp only [List.mem_append, not_or]
      exact ⟨dec_nl _, by decide, ofName_nl _, by decide, (h a (List.mem_cons.2 (Or.inl rfl))).2, by decide, showDouble_nl _, by decide⟩
    · exact adjsLines_inner (i + 1) (fun x hx => h x (List.mem_cons_of_mem _ hx)) y hy

theorem anglesLines_inner : ∀ (i : Nat) (l : List UInt64), ∀ y ∈ anglesLines i l, Inner y
  | _, [], _, hy => by cases hy
  | i, a :: l, y, hy => by
    unfold anglesLines at hy
    rcases List.mem_cons.1 hy with rfl | hy
    · refine inner_of ?_ (by decide)
      simp only [List.mem_append, not_or]
      exact ⟨dec_nl _, by decide, showDouble_nl _⟩
    · exact anglesLines_inner (i + 1) l y hy

theorem namesLines_inner : ∀ (i : Nat) (l : List WPrefix), ∀ y ∈ namesLines i l, Inner y
  | _, [], _, hy => by cases hy
  | i, a :: l, y, hy => by
    unfold namesLines at hy
    rcases List.mem_cons.1 hy with rfl | hy
    · refine inner_of ?_ (by decide)
      simp only [List.mem_append, not_or]
      exact ⟨dec_nl _, by decide, ofName_nl _, by decide, showDouble_nl _⟩
    · exact namesLines_inner (i + 1) l y hy

theorem adjLines_inner (now : Int) {x : WAdjLsa} (h : AdjOk x) : ∀ l ∈ adjLines now x, Inner l := by
  intro l hl
  unfold adjLines at hl
  rcases List.mem_append.1 hl with hl | hl
  · rcases baseLines_inner now (by decide) x.base l hl with h | rfl
    · exact h
    · exact inner_exact (by decide)
  · rcases List.mem_cons.1 hl with rfl | hl
    · exact inner_exact (by decide)
    · exact adjsLines_inner 0 (fun a ha => (h.adjs a ha).2) l hl

theorem coordLines_inner (now : Int) (x : WCoordLsa) : ∀ l ∈ coordLines now x, Inner l := by
  intro l hl
  unfold coordLines at hl
  rcases List.mem_append.1 hl with hl | hl
  · rcases baseLines_inner now (by decide) x.base l hl with h | rfl
    · exact h
    · exact inner_exact (by decide)
  · rcases List.mem_cons.1 hl with rfl | hl
    · exact inner_of (showDouble_nl _) (by decide)
    · exact anglesLines_inner 0 _ l hl

theorem nameLines_inner (now : Int) (x : WNameLsa) : ∀ l ∈ nameLines now x, Inner l := by
  intro l hl
  unfold nameLines at hl
  rcases List.mem_append.1 hl with hl | hl
  · rcases baseLines_inner now (by decide) x.base l hl with h | rfl
    · exact h
    · exact inner_exact (by decide)
  · rcases List.mem_cons.1 hl with rfl | hl
    · exact inner_exact (by decide)
    · exact namesLines_inner 0 _ l hl

end Print
end Nlsr
