import Verif.Lemmas.Wire
import Verif.Lemmas.NexthopList
/- Round trip of the routing-table dataset. -/
namespace Nlsr.Wire
open Tlv

/-- Codec laws on one hop: its URI text parses back to it and its cost is a double. -/
def HopOk (C : RtCodec) (h : NextHop) : Prop :=
  C.uriFrom (C.uriTo h.uri) = some h.uri ∧ C.costFrom (C.costTo h.cost) = h.cost

def EntryOk (C : RtCodec) (e : RtEntry) : Prop :=
  NameTypes e.dest ∧ ∀ h ∈ e.hops, HopOk C h

def hopElems (C : RtCodec) (h : NextHop) : List Elem :=
  [(141, C.uriTo h.uri), (134, encDouble (C.costTo h.cost))]

theorem encHop_eq (C : RtCodec) (h : NextHop) : encHop C h = block 143 (encElems (hopElems C h)) := by
  simp [encHop, encElems, hopElems]

theorem decHop_enc {C : RtCodec} {h : NextHop} (hh : HopOk C h)
    (hl : (encElems (hopElems C h)).length ≤ 2 ^ 64) :
    decHop C (encElems (hopElems C h)) = some ⟨h.uri, h.cost, false⟩ := by
  have hok : ∀ e ∈ hopElems C h, ElemOk e := elemsOk_of_length (by simp [hopElems]) hl
  unfold decHop
  rw [parse_encElems _ hok]
  simp [hopElems, expect, hh.1, decDouble_enc, hh.2]

def rteElems (C : RtCodec) (e : RtEntry) : List Elem :=
  (7, encComps e.dest) :: e.hops.map (fun h => (143, encElems (hopElems C h)))

theorem encRte_eq (C : RtCodec) (e : RtEntry) : encRte C e = block 145 (encElems (rteElems C e)) := by
  simp only [encRte, rteElems, encElems_cons, encName]
  congr 2
  rw [← encElems_map]
  congr 1

/-- What one entry decodes to. -/
def normEntry (e : RtEntry) : RtEntry :=
  ⟨e.dest, (e.hops.map (fun h => (⟨h.uri, h.cost, false⟩ : NextHop))).foldl NexthopList.add []⟩

theorem decRte_enc {C : RtCodec} {e : RtEntry} (h : EntryOk C e)
    (hl : (encElems (rteElems C e)).length ≤ 2 ^ 64) :
    decRte C (encElems (rteElems C e)) = some (normEntry e) := by
  have hok : ∀ x ∈ rteElems C e, ElemOk x := by
    refine elemsOk_of_length ?_ hl
    intro x hx
    rcases List.mem_cons.1 hx with rfl | hx
    · simp
    · obtain ⟨a, -, rfl⟩ := List.mem_map.1 hx; simp
  have hn : (encComps e.dest).length ≤ 2 ^ 64 := by
    have := (hok (7, encComps e.dest) (by simp [rteElems])).2
    simp only at this; omega
  have hh : ∀ h ∈ e.hops, decHop C (encElems (hopElems C h)) = some ⟨h.uri, h.cost, false⟩ := by
    intro a ha
    refine decHop_enc (h.2 a ha) ?_
    have := (hok (143, encElems (hopElems C a)) (List.mem_cons_of_mem _ (List.mem_map.2 ⟨a, ha, rfl⟩))).2
    simp only at this; omega
  unfold decRte
  rw [parse_encElems _ hok]
  simp only [rteElems, Option.bind_eq_bind, Option.bind_some, expect, if_true,
    decName_enc (nameOk_of_length h.1 hn)]
  rw [loopOf_map 143 (decHop C) (fun h => encElems (hopElems C h)) _ e.hops hh]
  rfl

theorem decRt_enc {C : RtCodec} {rt dry : RTable} (h1 : ∀ e ∈ rt, EntryOk C e) (h2 : ∀ e ∈ dry, EntryOk C e)
    (hl : (encRt C rt dry).length ≤ 2 ^ 64) :
    decRt C (encRt C rt dry) = some (splitTables ((rt ++ dry).map normEntry)) := by
  let es : List Elem := (rt ++ dry).map (fun e => (145, encElems (rteElems C e)))
  have henc : encRt C rt dry = block 144 (encElems es) := by
    simp only [encRt, es]
    congr 1
    rw [← encElems_map, List.map_append, List.flatten_append]
    congr 1 <;> congr 1 <;> exact List.map_congr_left (fun e _ => encRte_eq C e)
  rw [henc] at hl ⊢
  have hl1 := block_length 144 (encElems es)
  have hok : ∀ e ∈ es, ElemOk e := by
    refine elemsOk_of_length ?_ (by omega)
    intro e he
    obtain ⟨a, -, rfl⟩ := List.mem_map.1 he; simp
  have ha : ∀ e ∈ rt ++ dry, decRte C (encElems (rteElems C e)) = some (normEntry e) := by
    intro e he
    refine decRte_enc ?_ ?_
    · rcases List.mem_append.1 he with he | he
      · exact h1 e he
      · exact h2 e he
    · have := (hok (145, encElems (rteElems C e)) (List.mem_map.2 ⟨e, he, rfl⟩)).2
      simp only at this; omega
  unfold decRt
  rw [top_block ⟨by simp, by simp only; omega⟩]
  simp only [Option.bind_eq_bind, Option.bind_some, parse_encElems es hok]
  simp only [es]
  rw [loopOf_map 145 (decRte C) (fun e => encElems (rteElems C e)) normEntry (rt ++ dry) ha]
  rfl

/-! ### Splitting into two tables -/

def splitStep (p : RTable × RTable) (e : RtEntry) : RTable × RTable :=
  if p.1.any (fun x => x.dest == e.dest) then (p.1, p.2 ++ [e]) else (p.1 ++ [e], p.2)

theorem splitTables_eq (es : List RtEntry) : splitTables es = es.foldl splitStep ([], []) := rfl

theorem split_fresh (es : List RtEntry) : ∀ p : RTable × RTable,
    ((p.1 ++ es).map (·.dest)).Nodup → es.foldl splitStep p = (p.1 ++ es, p.2) := by
  induction es with
  | nil => intro p _; simp
  | cons x xs ih =>
    intro p h
    have hx : p.1.any (fun y => y.dest == x.dest) = false := by
      rw [List.any_eq_false]
      intro y hy he
      simp only [List.map_append, List.map_cons, List.nodup_append] at h
      exact h.2.2 _ (List.mem_map_of_mem hy) x.dest (by simp) (by simpa using he)
    rw [List.foldl_cons]
    have : splitStep p x = (p.1 ++ [x], p.2) := by simp only [splitStep, hx]; rfl
    rw [this, ih _ (by simpa using h)]
    simp

theorem split_seen (es : List RtEntry) : ∀ p : RTable × RTable,
    (∀ e ∈ es, ∃ x ∈ p.1, x.dest = e.dest) → es.foldl splitStep p = (p.1, p.2 ++ es) := by
  induction es with
  | nil => intro p _; simp
  | cons x xs ih =>
    intro p h
    obtain ⟨y, hy, hd⟩ := h x (by simp)
    have hx : p.1.any (fun y => y.dest == x.dest) = true :=
      List.any_eq_true.2 ⟨y, hy, by simp [hd]⟩
    rw [List.foldl_cons]
    have : splitStep p x = (p.1, p.2 ++ [x]) := by simp only [splitStep, hx]; rfl
    rw [this, ih (p.1, p.2 ++ [x]) (fun e he => h e (by simp [he]))]
    simp

theorem splitTables_two {rt dry : RTable} (h1 : (rt.map (·.dest)).Nodup)
    (h2 : ∀ e ∈ dry, ∃ x ∈ rt, x.dest = e.dest) : splitTables (rt ++ dry) = (rt, dry) := by
  rw [splitTables_eq, List.foldl_append, split_fresh rt ([], []) (by simpa using h1)]
  rw [split_seen dry _ (by simpa using h2)]
  simp

/-! ### Re-inserting hops -/

theorem mem_foldl_add (hops : List NextHop) : ∀ acc : List NextHop, UriNodup (acc ++ hops) →
    UriNodup (hops.foldl NexthopList.add acc) ∧
    ∀ a, a ∈ hops.foldl NexthopList.add acc ↔ a ∈ acc ∨ a ∈ hops := by
  induction hops with
  | nil => intro acc h; simpa using h
  | cons x xs ih =>
    intro acc h
    have hacc : UriNodup acc := by
      simp only [UriNodup, List.map_append, List.nodup_append] at h; exact h.1
    have hne : ∀ b ∈ acc, b.uri ≠ x.uri := by
      intro b hb
      simp only [UriNodup, List.map_append, List.map_cons, List.nodup_append] at h
      exact h.2.2 _ (List.mem_map_of_mem hb) _ (by simp)
    have hm : ∀ a, a ∈ NexthopList.add acc x ↔ a ∈ acc ∨ a = x := by
      intro a
      rw [mem_addNextHop NextHop.lt_uriComp hacc]
      constructor
      · rintro (⟨h, -⟩ | ⟨h, -⟩)
        · exact Or.inl h
        · exact Or.inr h
      · rintro (h | h)
        · exact Or.inl ⟨h, fun e => absurd e (hne a h)⟩
        · exact Or.inr ⟨h, fun b hb e => absurd e (hne b hb)⟩
    have hn := addNextHop_uriNodup NextHop.lt_uriComp hacc x
    have hnn : UriNodup (NexthopList.add acc x ++ xs) := by
      unfold UriNodup at h ⊢
      simp only [List.map_append, List.map_cons, List.nodup_append, List.nodup_cons] at h ⊢
      refine ⟨hn, h.2.1.2, ?_⟩
      intro u hu v hv
      obtain ⟨a, ha, rfl⟩ := List.mem_map.1 hu
      rcases (hm a).1 ha with ha | rfl
      · exact h.2.2 _ (List.mem_map_of_mem ha) v (by simp [hv])
      · intro e; subst e; exact h.2.1.1 hv
    obtain ⟨g1, g2⟩ := ih _ hnn
    refine ⟨g1, fun a => ?_⟩
    rw [List.foldl_cons, g2 a, hm a]
    simp [or_assoc]

theorem foldl_add_sorted (hops : List NextHop) (hu : UriNodup hops)
    (hs : hops.Pairwise (fun a b => NextHop.lt a b = true)) : hops.foldl NexthopList.add [] = hops := by
  have hsorted : ∀ (hs : List NextHop) (acc : List NextHop), acc.Pairwise (fun a b => NextHop.lt a b = true) →
      (hs.foldl NexthopList.add acc).Pairwise (fun a b => NextHop.lt a b = true) := by
    intro hs
    induction hs with
    | nil => intro acc h; exact h
    | cons x xs ih => intro acc h; exact ih _ (addNextHop_sorted NextHop.lt_uriComp h x)
  have hm := mem_foldl_add hops [] (by simpa using hu)
  have nd : ∀ {l : List NextHop}, UriNodup l → l.Nodup := fun h =>
    List.Pairwise.of_map _ (fun a b hab => fun e => hab (by rw [e])) h
  have hp : (hops.foldl NexthopList.add []).Perm hops :=
    (List.perm_ext_iff_of_nodup (nd hm.1) (nd hu)).2 (fun a => by simpa using hm.2 a)
  refine hp.eq_of_pairwise ?_ (hsorted hops [] List.Pairwise.nil) hs
  intro a b _ _ h1 h2
  have := NextHop.lt_trans' a b a h1 h2
  simp [NextHop.lt, String.lt_irrefl] at this

end Nlsr.Wire
