import Verif.Lemmas.PrintParts
/- The whole of what is printed, taken apart. -/
namespace Nlsr
namespace Print
open Tlv Wire

/-! ### taking a list apart at marked elements -/

/-- A first element that is marked, and none after it. -/
def Block {α : Type} (P : α → Prop) (b : List α) : Prop := ∃ h t, b = h :: t ∧ P h ∧ ∀ l ∈ t, ¬ P l

theorem split_at {α : Type} {P : α → Prop} : ∀ {a b x y : List α}, (∀ l ∈ a, ¬ P l) → (∀ l ∈ b, ¬ P l) →
    (∀ l, x.head? = some l → P l) → (∀ l, y.head? = some l → P l) → a ++ x = b ++ y → a = b ∧ x = y
  | [], [], _, _, _, _, _, _, h => ⟨rfl, h⟩
  | [], d :: b, x, _, _, hb, hx, _, h => by
    rw [List.nil_append] at h
    exact absurd (hx d (by rw [h]; rfl)) (hb d (List.mem_cons.2 (Or.inl rfl)))
  | d :: a, [], _, y, ha, _, _, hy, h => by
    rw [List.nil_append] at h
    exact absurd (hy d (by rw [← h]; rfl)) (ha d (List.mem_cons.2 (Or.inl rfl)))
  | d :: a, d' :: b, x, y, ha, hb, hx, hy, h => by
    simp only [List.cons_append, List.cons.injEq] at h
    obtain ⟨h1, h2⟩ := split_at (fun l hm => ha l (List.mem_cons_of_mem _ hm)) (fun l hm => hb l (List.mem_cons_of_mem _ hm)) hx hy h.2
    exact ⟨by rw [h.1, h1], h2⟩

theorem flatten_head {α : Type} {P : α → Prop} {bs : List (List α)} (h : ∀ b ∈ bs, Block P b) : ∀ l, bs.flatten.head? = some l → P l := by
  intro l hl
  cases bs with
  | nil => cases hl
  | cons b bs =>
    obtain ⟨d, t, rfl, hd, -⟩ := h b (List.mem_cons.2 (Or.inl rfl))
    rw [List.flatten_cons, List.cons_append, List.head?_cons] at hl
    injection hl with hl
    rwa [← hl]

theorem blocks_inj {α : Type} {P : α → Prop} : ∀ {as bs : List (List α)}, (∀ a ∈ as, Block P a) → (∀ b ∈ bs, Block P b) →
    as.flatten = bs.flatten → as = bs
  | [], [], _, _, _ => rfl
  | [], b :: bs, _, hb, h => by
    obtain ⟨d, t, rfl, -, -⟩ := hb b (List.mem_cons.2 (Or.inl rfl))
    cases h
  | a :: as, [], ha, _, h => by
    obtain ⟨d, t, rfl, -, -⟩ := ha a (List.mem_cons.2 (Or.inl rfl))
    cases h
  | a :: as, b :: bs, ha, hb, h => by
    obtain ⟨d, t, rfl, -, ht⟩ := ha a (List.mem_cons.2 (Or.inl rfl))
    obtain ⟨d', t', rfl, -, ht'⟩ := hb b (List.mem_cons.2 (Or.inl rfl))
    have ha' : ∀ a ∈ as, Block P a := fun x hx => ha x (List.mem_cons_of_mem _ hx)
    have hb' : ∀ a ∈ bs, Block P a := fun x hx => hb x (List.mem_cons_of_mem _ hx)
    rw [List.flatten_cons, List.flatten_cons, List.cons_append, List.cons_append, List.cons.injEq] at h
    obtain ⟨h1, h2⟩ := split_at ht ht' (flatten_head ha') (flatten_head hb') h.2
    rw [h.1, h1, blocks_inj ha' hb' h2]

/-! ### the routers -/

theorem mem_setInsert_name {n x : Name} : ∀ {l : List Name}, x ∈ setInsert Name.lt n l ↔ x = n ∨ x ∈ l
  | [] => by simp [setInsert]
  | y :: ys => by
    unfold setInsert
    split
    · simp
    · split
      · rw [List.mem_cons, mem_setInsert_name, List.mem_cons]
        exact or_left_comm
      · rename_i h1 h2
        have : n = y := Classical.byContradiction fun hne => by
          rcases Name.lt_or_gt hne with h | h
          · exact h1 h
          · exact h2 h
        subst this
        simp

theorem mem_foldl_setInsert {x : Name} : ∀ {ns l : List Name}, x ∈ ns.foldl (fun l n => setInsert Name.lt n l) l ↔ x ∈ ns ∨ x ∈ l
  | [], l => by simp
  | n :: ns, l => by
    rw [List.foldl_cons, mem_foldl_setInsert, mem_setInsert_name, List.mem_cons]
    exact ⟨fun h => by rcases h with h | h | h <;> simp [h], fun h => by rcases h with (h | h) | h <;> simp [h]⟩

theorem sorted_foldl_setInsert : ∀ {ns l : List Name}, l.Pairwise (fun a b => Name.lt a b = true) →
    (ns.foldl (fun l n => setInsert Name.lt n l) l).Pairwise (fun a b => Name.lt a b = true)
  | [], _, h => h
  | n :: ns, l, h => sorted_foldl_setInsert (ns := ns) (setInsert_sorted (lt := Name.lt) (x := n) (fun _ _ _ h h' => Name.lt_trans h h') h)

theorem routers_sorted (s : Nlsrc.Shown) : (routers s).Pairwise (fun a b => Name.lt a b = true) :=
  sorted_foldl_setInsert List.Pairwise.nil

theorem recorded_none {α : Type} {l : List (Name × α)} {n : Name} : recorded l n = none ↔ n ∉ l.map (·.1) := by
  unfold recorded
  rw [Option.map_eq_none_iff, List.find?_eq_none, List.mem_map]
  constructor
  · rintro h ⟨p, hp, rfl⟩
    exact h p hp (decide_eq_true rfl)
  · intro h p hp e
    exact h ⟨p, hp, of_decide_eq_true e⟩

theorem recorded_mem {α : Type} {l : List (Name × α)} {n : Name} {x : α} (h : recorded l n = some x) : (n, x) ∈ l := by
  unfold recorded at h
  rw [Option.map_eq_some_iff] at h
  obtain ⟨p, hp, rfl⟩ := h
  have h1 : p.1 = n := by have := List.find?_some hp; exact of_decide_eq_true this
  have h2 := List.mem_of_find?_eq_some hp
  rw [← h1]
  exact h2

theorem mem_routers {s : Nlsrc.Shown} {n : Name} :
    n ∈ routers s ↔ ¬ (recorded s.adj n = none ∧ recorded s.cor n = none ∧ recorded s.name n = none) := by
  unfold routers
  rw [mem_foldl_setInsert, List.mem_append, List.mem_append, recorded_none, recorded_none, recorded_none]
  constructor
  · rintro (((h | h) | h) | h) ⟨h1, h2, h3⟩
    · exact h1 h
    · exact h2 h
    · exact h3 h
    · cases h
  · intro h
    refine Or.inl (Classical.byContradiction fun hn => h ⟨fun h' => hn (Or.inl (Or.inl h')), fun h' => hn (Or.inl (Or.inr h')), fun h' => hn (Or.inr h')⟩)

theorem sorted_ext : ∀ {a b : List Name}, a.Pairwise (fun a b => Name.lt a b = true) → b.Pairwise (fun a b => Name.lt a b = true) →
    (∀ n, n ∈ a ↔ n ∈ b) → a = b
  | [], [], _, _, _ => rfl
  | [], y :: _, _, _, h => absurd ((h y).2 (List.mem_cons.2 (Or.inl rfl))) List.not_mem_nil
  | x :: _, [], _, _, h => absurd ((h x).1 (List.mem_cons.2 (Or.inl rfl))) List.not_mem_nil
  | x :: a, y :: b, ha, hb, h => by
    rw [List.pairwise_cons] at ha hb
    have e : x = y := Classical.byContradiction fun hne => by
      rcases List.mem_cons.1 ((h x).1 (List.mem_cons.2 (Or.inl rfl))) with h1 | h1
      · exact hne h1
      · rcases List.mem_cons.1 ((h y).2 (List.mem_cons.2 (Or.inl rfl))) with h2 | h2
        · exact hne h2.symm
        · have := Name.lt_asymm (hb.1 x h1)
          rw [ha.1 y h2] at this
          cases this
    subst e
    rw [sorted_ext ha.2 hb.2 (fun n => ⟨fun hn => ?_, fun hn => ?_⟩)]
    · rcases List.mem_cons.1 ((h n).1 (List.mem_cons_of_mem _ hn)) with rfl | h1
      · have := ha.1 _ hn
        rw [Name.lt_irrefl] at this
        cases this
      · exact h1
    · rcases List.mem_cons.1 ((h n).2 (List.mem_cons_of_mem _ hn)) with rfl | h1
      · have := hb.1 _ hn
        rw [Name.lt_irrefl] at this
        cases this
      · exact h1

/-! ### the LSDB -/

/-- Names that can be read back, and plain URIs, in all LSAs. -/
structure Legible (s : Nlsrc.Shown) : Prop where
  adj : ∀ p ∈ s.adj, Readable p.1 ∧ AdjOk p.2
  cor : ∀ p ∈ s.cor, Readable p.1 ∧ CorOk p.2
  name : ∀ p ∈ s.name, Readable p.1 ∧ NameOk p.2

/-- One LSA and the empty line after it. -/
def withBlank (ls : List Line) : List Line := ls ++ [(.blank, [])]

/-- The LSAs of a router, each as a list of lines. -/
def lsaBlocks (now : Int) (s : Nlsrc.Shown) (n : Name) : List (List Line) :=
  ((recorded s.adj n).map (fun x => withBlank (adjLines now x))).toList ++
  (((recorded s.cor n).map (fun x => withBlank (coordLines now x))).toList ++
  ((recorded s.name n).map (fun x => withBlank (nameLines now x))).toList)

def routerLines (now : Int) (s : Nlsrc.Shown) (n : Name) : List Line :=
  (.router, Uri.ofName n) :: (.blank, []) :: (lsaBlocks now s n).flatten

def lsdbLines (now : Int) (s : Nlsrc.Shown) : List Line := (.lsdb, []) :: ((routers s).map (routerLines now s)).flatten

theorem unlines_blank (ls : List Line) : unlines (withBlank ls) = unlines ls ++ nl := by
  unfold withBlank
  rw [unlines_append, unlines_cons, unlines_nil]
  rfl

theorem part_unlines {α : Type} {f : α → Text} {g : α → List Line} (h : ∀ x, f x = unlines (g x)) (o : Option α) :
    part (o.map f) = unlines ((o.map (fun x => withBlank (g x))).toList.flatten) := by
  cases o with
  | none => rfl
  | some x =>
    show f x ++ nl = unlines ([withBlank (g x)].flatten)
    rw [List.flatten_singleton, unlines_blank, h x]

theorem router_unlines (now : Int) (s : Nlsrc.Shown) (n : Name) : routerText now s n = unlines (routerLines now s n) := by
  unfold routerText routerLines lsaBlocks
  rw [unlines_cons, unlines_cons, List.flatten_append, List.flatten_append, unlines_append, unlines_append,
    part_unlines (adj_unlines now), part_unlines (coord_unlines now), part_unlines (name_unlines now)]
  simp only [render, nl, List.append_assoc, List.cons_append, List.nil_append]
  rfl

theorem lsdb_unlines (now : Int) (s : Nlsrc.Shown) : lsdbText now s = unlines (lsdbLines now s) := by
  unfold lsdbText lsdbLines
  rw [unlines_cons, ← List.flatMap_def, unlines_flatMap]
  rw [show routerText now s = fun n => unlines (routerLines now s n) from funext (router_unlines now s)]
  simp only [render, nl, List.append_assoc, List.cons_append, List.nil_append, List.append_nil]
  rfl

/-- The first line of an LSA. -/
def isHead (l : Line) : Prop := l.1 = .adjHead ∨ l.1 = .corHead ∨ l.1 = .nameHead

theorem base_rest {now : Int} {k : Kind} {x : WBase} : ∀ l ∈ (baseLines now k x).tail, ¬ isHead l := by
  intro l hl
  unfold baseLines at hl
  simp only [List.tail_cons, List.mem_cons, List.not_mem_nil, or_false] at hl
  unfold isHead
  rcases hl with rfl | rfl | rfl <;> simp

theorem adjs_kind : ∀ {i : Nat} {l : List WAdj}, ∀ y ∈ adjsLines i l, y.1 = .adj
  | _, [], _, hy => by cases hy
  | i, a :: l, y, hy => by
    unfold adjsLines at hy
    rcases List.mem_cons.1 hy with rfl | hy
    · rfl
    · exact adjs_kind y hy

theorem angles_kind : ∀ {i : Nat} {l : List UInt64}, ∀ y ∈ anglesLines i l, y.1 = .theta
  | _, [], _, hy => by cases hy
  | i, a :: l, y, hy => by
    unfold anglesLines at hy
    rcases List.mem_cons.1 hy with rfl | hy
    · rfl
    · exact angles_kind y hy

theorem names_kind : ∀ {i : Nat} {l : List WPrefix}, ∀ y ∈ namesLines i l, y.1 = .name
  | _, [], _, hy => by cases hy
  | i, a :: l, y, hy => by
    unfold namesLines at hy
    rcases List.mem_cons.1 hy with rfl | hy
    · rfl
    · exact names_kind y hy

theorem block_of {now : Int} {k : Kind} {x : WBase} {r : List Line} (hk : k = .adjHead ∨ k = .corHead ∨ k = .nameHead)
    (hr : ∀ l ∈ r, ¬ isHead l) : Block isHead (withBlank (baseLines now k x ++ r)) := by
  refine ⟨(k, []), (baseLines now k x).tail ++ r ++ [(.blank, [])], rfl, hk, ?_⟩
  intro l hl
  rcases List.mem_append.1 hl with hl | hl
  · rcases List.mem_append.1 hl with hl | hl
    · exact base_rest l hl
    · exact hr l hl
  · obtain rfl := List.mem_singleton.1 hl
    unfold isHead; simp

theorem adj_block_head (now : Int) (x : WAdjLsa) : Block isHead (withBlank (adjLines now x)) := by
  refine block_of (Or.inl rfl) ?_
  intro l hl
  unfold isHead
  rcases List.mem_cons.1 hl with rfl | hl
  · simp
  · rw [adjs_kind l hl]; simp

theorem cor_block_head (now : Int) (x : WCoordLsa) : Block isHead (withBlank (coordLines now x)) := by
  refine block_of (Or.inr (Or.inl rfl)) ?_
  intro l hl
  unfold isHead
  rcases List.mem_cons.1 hl with rfl | hl
  · simp
  · rw [angles_kind l hl]; simp

theorem name_block_head (now : Int) (x : WNameLsa) : Block isHead (withBlank (nameLines now x)) := by
  refine block_of (Or.inr (Or.inr rfl)) ?_
  intro l hl
  unfold isHead
  rcases List.mem_cons.1 hl with rfl | hl
  · simp
  · rw [names_kind l hl]; simp

theorem lsaBlocks_block (now : Int) (s : Nlsrc.Shown) (n : Name) : ∀ b ∈ lsaBlocks now s n, Block isHead b := by
  intro b hb
  unfold lsaBlocks at hb
  simp only [List.mem_append, Option.mem_toList, Option.map_eq_some_iff] at hb
  rcases hb with ⟨x, -, rfl⟩ | ⟨x, -, rfl⟩ | ⟨x, -, rfl⟩
  · exact adj_block_head now x
  · exact cor_block_head now x
  · exact name_block_head now x

/-- The LSA with the given first line. -/
def pick (k : Kind) (bs : List (List Line)) : Option (List Line) := bs.find? (fun b => decide ((b.head?.map (·.1)) = some k))

theorem pick_append (k : Kind) (a b : List (List Line)) : pick k (a ++ b) = (pick k a).or (pick k b) := List.find?_append

theorem pick_toList {k : Kind} {o : Option (List Line)} (h : ∀ b, o = some b → b.head?.map (·.1) = some k) : pick k o.toList = o := by
  cases o with
  | none => rfl
  | some b =>
    show (match decide ((b.head?.map (·.1)) = some k) with | true => some b | false => _) = _
    rw [decide_eq_true (h b rfl)]

theorem pick_other {k k' : Kind} (hk : k ≠ k') {o : Option (List Line)} (h : ∀ b, o = some b → b.head?.map (·.1) = some k') : pick k o.toList = none := by
  cases o with
  | none => rfl
  | some b =>
    show (match decide ((b.head?.map (·.1)) = some k) with | true => some b | false => none) = _
    rw [decide_eq_false (by rw [h b rfl]; intro e; injection e with e; exact hk e.symm)]

theorem pick_lsa (now : Int) (s : Nlsrc.Shown) (n : Name) :
    pick .adjHead (lsaBlocks now s n) = (recorded s.adj n).map (fun x => withBlank (adjLines now x)) ∧
    pick .corHead (lsaBlocks now s n) = (recorded s.cor n).map (fun x => withBlank (coordLines now x)) ∧
    pick .nameHead (lsaBlocks now s n) = (recorded s.name n).map (fun x => withBlank (nameLines now x)) := by
  have h1 : ∀ b, (recorded s.adj n).map (fun x => withBlank (adjLines now x)) = some b → b.head?.map (·.1) = some .adjHead := by
    intro b hb
    obtain ⟨x, -, rfl⟩ := Option.map_eq_some_iff.1 hb
    rfl
  have h2 : ∀ b, (recorded s.cor n).map (fun x => withBlank (coordLines now x)) = some b → b.head?.map (·.1) = some .corHead := by
    intro b hb
    obtain ⟨x, -, rfl⟩ := Option.map_eq_some_iff.1 hb
    rfl
  have h3 : ∀ b, (recorded s.name n).map (fun x => withBlank (nameLines now x)) = some b → b.head?.map (·.1) = some .nameHead := by
    intro b hb
    obtain ⟨x, -, rfl⟩ := Option.map_eq_some_iff.1 hb
    rfl
  unfold lsaBlocks
  refine ⟨?_, ?_, ?_⟩
  · rw [pick_append, pick_append, pick_toList h1, pick_other (by decide) h2, pick_other (by decide) h3]
    simp
  · rw [pick_append, pick_append, pick_toList h2, pick_other (by decide) h1, pick_other (by decide) h3]
    simp
  · rw [pick_append, pick_append, pick_toList h3, pick_other (by decide) h1, pick_other (by decide) h2]
    simp

theorem map_seen {α β : Type} {g : α → List Line} {f : α → β} {ok : α → Prop} (hg : ∀ x y, ok x → ok y → g x = g y → f x = f y)
    {o o' : Option α} (ho : ∀ x, o = some x → ok x) (ho' : ∀ x, o' = some x → ok x)
    (h : o.map (fun x => withBlank (g x)) = o'.map (fun x => withBlank (g x))) : o.map f = o'.map f := by
  cases o with
  | none =>
    cases o' with
    | none => rfl
    | some y => cases h
  | some x =>
    cases o' with
    | none => cases h
    | some y =>
      simp only [Option.map_some, Option.some.injEq] at h ⊢
      exact hg x y (ho x rfl) (ho' y rfl) (List.append_cancel_right h)

theorem map_unseen {α β : Type} {g : α → List Line} {f : α → β} (hg : ∀ x y, f x = f y → g x = g y)
    {o o' : Option α} (h : o.map f = o'.map f) : o.map (fun x => withBlank (g x)) = o'.map (fun x => withBlank (g x)) := by
  cases o with
  | none =>
    cases o' with
    | none => rfl
    | some y => cases h
  | some x =>
    cases o' with
    | none => cases h
    | some y =>
      simp only [Option.map_some, Option.some.injEq] at h ⊢
      rw [hg x y h]

/-- The same can be seen of the LSAs of `n`. -/
def SameAt (now : Int) (s s' : Nlsrc.Shown) (n : Name) : Prop :=
  (recorded s.adj n).map (seenAdj now) = (recorded s'.adj n).map (seenAdj now) ∧
  (recorded s.cor n).map (seenCor now) = (recorded s'.cor n).map (seenCor now) ∧
  (recorded s.name n).map (seenName now) = (recorded s'.name n).map (seenName now)

theorem lsaBlocks_same {now : Int} {s s' : Nlsrc.Shown} (hs : Legible s) (hs' : Legible s') {n : Name} :
    lsaBlocks now s n = lsaBlocks now s' n ↔ SameAt now s s' n := by
  constructor
  · intro h
    obtain ⟨a, b, c⟩ := pick_lsa now s n
    obtain ⟨a', b', c'⟩ := pick_lsa now s' n
    rw [h] at a b c
    refine ⟨?_, ?_, ?_⟩
    · exact map_seen (ok := AdjOk) (fun x y hx hy h => adjLines_inj hx hy h) (fun x hx => (hs.adj _ (recorded_mem hx)).2)
        (fun x hx => (hs'.adj _ (recorded_mem hx)).2) (a.symm.trans a')
    · exact map_seen (ok := CorOk) (fun x y hx hy h => coordLines_inj hx hy h) (fun x hx => (hs.cor _ (recorded_mem hx)).2)
        (fun x hx => (hs'.cor _ (recorded_mem hx)).2) (b.symm.trans b')
    · exact map_seen (ok := NameOk) (fun x y hx hy h => nameLines_inj hx hy h) (fun x hx => (hs.name _ (recorded_mem hx)).2)
        (fun x hx => (hs'.name _ (recorded_mem hx)).2) (c.symm.trans c')
  · rintro ⟨a, b, c⟩
    unfold lsaBlocks
    rw [map_unseen (fun _ _ => adjLines_seen) a, map_unseen (fun _ _ => coordLines_seen) b, map_unseen (fun _ _ => nameLines_seen) c]

/-- Lines other than the first of a router. -/
def isRouter (l : Line) : Prop := l.1 = .router

theorem lsaBlocks_lines {now : Int} {s : Nlsrc.Shown} (hs : Legible s) {n : Name} : ∀ l ∈ (lsaBlocks now s n).flatten, Inner l ∨ l = (.blank, []) := by
  intro l hl
  rw [List.mem_flatten] at hl
  obtain ⟨b, hb, hl⟩ := hl
  unfold lsaBlocks at hb
  simp only [List.mem_append, Option.mem_toList, Option.map_eq_some_iff] at hb
  rcases hb with ⟨x, hx, rfl⟩ | ⟨x, hx, rfl⟩ | ⟨x, hx, rfl⟩
  · rcases List.mem_append.1 hl with hl | hl
    · exact Or.inl (adjLines_inner now (hs.adj _ (recorded_mem hx)).2 l hl)
    · exact Or.inr (List.mem_singleton.1 hl)
  · rcases List.mem_append.1 hl with hl | hl
    · exact Or.inl (coordLines_inner now x l hl)
    · exact Or.inr (List.mem_singleton.1 hl)
  · rcases List.mem_append.1 hl with hl | hl
    · exact Or.inl (nameLines_inner now x l hl)
    · exact Or.inr (List.mem_singleton.1 hl)

theorem not_router {now : Int} {s : Nlsrc.Shown} {n : Name} : ∀ l ∈ (lsaBlocks now s n).flatten, ¬ isRouter l := by
  intro l hl
  rw [List.mem_flatten] at hl
  obtain ⟨b, hb, hl⟩ := hl
  have hbase : ∀ (k : Kind) (x : WBase), k ≠ .router → ∀ l ∈ baseLines now k x, ¬ isRouter l := by
    intro k x hk l hl
    unfold baseLines at hl
    simp only [List.mem_cons, List.not_mem_nil, or_false] at hl
    unfold isRouter
    rcases hl with rfl | rfl | rfl | rfl
    · exact hk
    all_goals simp
  unfold lsaBlocks at hb
  simp only [List.mem_append, Option.mem_toList, Option.map_eq_some_iff] at hb
  rcases hb with ⟨x, hx, rfl⟩ | ⟨x, hx, rfl⟩ | ⟨x, hx, rfl⟩
  · rcases List.mem_append.1 hl with hl | hl
    · rcases List.mem_append.1 hl with hl | hl
      · exact hbase _ _ (by decide) l hl
      · rcases List.mem_cons.1 hl with rfl | hl
        · unfold isRouter; simp
        · unfold isRouter; rw [adjs_kind l hl]; simp
    · obtain rfl := List.mem_singleton.1 hl
      unfold isRouter; simp
  · rcases List.mem_append.1 hl with hl | hl
    · rcases List.mem_append.1 hl with hl | hl
      · exact hbase _ _ (by decide) l hl
      · rcases List.mem_cons.1 hl with rfl | hl
        · unfold isRouter; simp
        · unfold isRouter; rw [angles_kind l hl]; simp
    · obtain rfl := List.mem_singleton.1 hl
      unfold isRouter; simp
  · rcases List.mem_append.1 hl with hl | hl
    · rcases List.mem_append.1 hl with hl | hl
      · exact hbase _ _ (by decide) l hl
      · rcases List.mem_cons.1 hl with rfl | hl
        · unfold isRouter; simp
        · unfold isRouter; rw [names_kind l hl]; simp
    · obtain rfl := List.mem_singleton.1 hl
      unfold isRouter; simp

theorem routerLines_block (now : Int) (s : Nlsrc.Shown) (n : Name) : Block isRouter (routerLines now s n) := by
  refine ⟨_, _, rfl, rfl, ?_⟩
  intro l hl
  rcases List.mem_cons.1 hl with rfl | hl
  · unfold isRouter; simp
  · exact not_router l hl

/-- Neither the first line of a routing table nor that there is none. -/
def isTable (l : Line) : Prop := l.1 = .rt ∨ l.1 = .notYet

theorem good_blank : Good (.blank, []) := ⟨fun _ => rfl, List.not_mem_nil⟩

theorem lsdbLines_good (now : Int) {s : Nlsrc.Shown} (hs : Legible s) : ∀ l ∈ lsdbLines now s, Good l ∧ ¬ isTable l := by
  intro l hl
  unfold lsdbLines at hl
  rcases List.mem_cons.1 hl with rfl | hl
  · exact ⟨⟨fun _ => rfl, List.not_mem_nil⟩, by unfold isTable; simp⟩
  · obtain ⟨b, hb, hl⟩ := List.mem_flatten.1 hl
    obtain ⟨n, -, rfl⟩ := List.mem_map.1 hb
    unfold routerLines at hl
    rcases List.mem_cons.1 hl with rfl | hl
    · exact ⟨⟨fun e => (by cases e), ofName_nl n⟩, by unfold isTable; simp⟩
    · rcases List.mem_cons.1 hl with rfl | hl
      · exact ⟨good_blank, by unfold isTable; simp⟩
      · rcases lsaBlocks_lines hs l hl with h | rfl
        · exact ⟨h.1, fun e => e.elim h.2.2.1 h.2.2.2⟩
        · exact ⟨good_blank, by unfold isTable; simp⟩

theorem routers_readable {s : Nlsrc.Shown} (hs : Legible s) {n : Name} (hn : n ∈ routers s) : Readable n := by
  unfold routers at hn
  rw [mem_foldl_setInsert, List.mem_append, List.mem_append, List.mem_map, List.mem_map, List.mem_map] at hn
  rcases hn with ((⟨p, hp, rfl⟩ | ⟨p, hp, rfl⟩) | ⟨p, hp, rfl⟩) | hn
  · exact (hs.adj p hp).1
  · exact (hs.cor p hp).1
  · exact (hs.name p hp).1
  · cases hn

theorem map_routers {now : Int} {s s' : Nlsrc.Shown} : ∀ {a b : List Name}, (∀ n ∈ a, Readable n) → (∀ n ∈ b, Readable n) →
    a.map (routerLines now s) = b.map (routerLines now s') → a = b ∧ ∀ n ∈ a, lsaBlocks now s n = lsaBlocks now s' n
  | [], [], _, _, _ => ⟨rfl, fun _ h => by cases h⟩
  | [], _ :: _, _, _, h => by cases h
  | _ :: _, [], _, _, h => by cases h
  | x :: a, y :: b, ha, hb, h => by
    rw [List.map_cons, List.map_cons, List.cons.injEq] at h
    obtain ⟨h1, h2⟩ := map_routers (fun n hn => ha n (List.mem_cons_of_mem _ hn)) (fun n hn => hb n (List.mem_cons_of_mem _ hn)) h.2
    have h0 := h.1
    unfold routerLines at h0
    rw [List.cons.injEq, List.cons.injEq] at h0
    have e := ofName_inj (ha x (List.mem_cons.2 (Or.inl rfl))) (hb y (List.mem_cons.2 (Or.inl rfl))) (Prod.mk.inj h0.1).2
    subst e
    refine ⟨by rw [h1], fun n hn => ?_⟩
    rcases List.mem_cons.1 hn with rfl | hn
    · exact blocks_inj (lsaBlocks_block now s n) (lsaBlocks_block now s' n) h0.2.2
    · exact h2 n hn

theorem lsdbLines_same {now : Int} {s s' : Nlsrc.Shown} (hs : Legible s) (hs' : Legible s') :
    lsdbLines now s = lsdbLines now s' ↔ ∀ n, SameAt now s s' n := by
  constructor
  · intro h n
    unfold lsdbLines at h
    have h := blocks_inj (P := isRouter) (fun b hb => by obtain ⟨n, -, rfl⟩ := List.mem_map.1 hb; exact routerLines_block now s n)
      (fun b hb => by obtain ⟨n, -, rfl⟩ := List.mem_map.1 hb; exact routerLines_block now s' n) (List.cons.inj h).2
    obtain ⟨h1, h2⟩ := map_routers (fun n hn => routers_readable hs hn) (fun n hn => routers_readable hs' hn) h
    by_cases hn : n ∈ routers s
    · exact (lsaBlocks_same hs hs').1 (h2 n hn)
    · have hn' : n ∉ routers s' := by rwa [← h1]
      rw [mem_routers, Decidable.not_not] at hn hn'
      unfold SameAt
      rw [hn.1, hn.2.1, hn.2.2, hn'.1, hn'.2.1, hn'.2.2]
      exact ⟨rfl, rfl, rfl⟩
  · intro h
    have e : routers s = routers s' := by
      refine sorted_ext (routers_sorted s) (routers_sorted s') (fun n => ?_)
      rw [mem_routers, mem_routers]
      obtain ⟨a, b, c⟩ := h n
      have key : ∀ {α β : Type} {f : α → β} {o o' : Option α}, o.map f = o'.map f → (o = none ↔ o' = none) := by
        intro α β f o o' h
        cases o <;> cases o' <;> simp at h ⊢
      rw [key a, key b, key c]
    unfold lsdbLines
    rw [e]
    congr 2
    refine List.map_congr_left (fun n _ => ?_)
    unfold routerLines
    rw [(lsaBlocks_same hs hs').2 (h n)]

/-! ### the tables -/

/-- Destinations, and next hops with costs to six digits. -/
def seenTable (t : RTable) : List (Name × List (Uri × Text)) := t.map (fun e => (e.dest, e.hops.map (fun h => (h.uri, showRat h.cost))))

/-- Destinations can be read back, URIs are plain. -/
def PlainTable (t : RTable) : Prop := ∀ e ∈ t, Readable e.dest ∧ ∀ h ∈ e.hops, ',' ∉ h.uri.toList ∧ '\n' ∉ h.uri.toList

def hopLine (h : NextHop) : Line := (.hop, h.uri.toList ++ (", Cost: ".toList ++ (showRat h.cost ++ ")".toList)))

def hopsLines (l : NexthopList) : List Line := if l = [] then [(.noHop, [])] else l.map hopLine

def entryLines (e : RtEntry) : List Line := (.dest, Uri.ofName e.dest) :: hopsLines e.hops

def dryLines (t : RTable) : List Line := if t = [] then [] else (.dry, []) :: (t.map entryLines).flatten

def tableLines (t : RTable × RTable) : List Line := (.rt, []) :: ((t.1.map entryLines).flatten ++ dryLines t.2)

theorem joined_unlines : ∀ (h : NextHop) (l : NexthopList), "    ".toList ++ joined ((h :: l).map hopText) ++ nl = unlines ((h :: l).map hopLine)
  | h, [] => by
    show "    ".toList ++ hopText h ++ nl = unlines [hopLine h]
    rw [unlines_cons, unlines_nil]
    unfold hopText hopLine render nl
    simp only [List.append_assoc, List.cons_append, List.nil_append]
    rfl
  | h, h' :: l => by
    show "    ".toList ++ (hopText h ++ nl ++ "    ".toList ++ joined ((h' :: l).map hopText)) ++ nl = unlines (hopLine h :: (h' :: l).map hopLine)
    rw [unlines_cons, ← joined_unlines h' l]
    unfold hopText hopLine render nl
    simp only [List.append_assoc, List.cons_append, List.nil_append]
    rfl

theorem entry_unlines (e : RtEntry) : entryText e = unlines (entryLines e) := by
  unfold entryText entryLines hopsLines
  rw [unlines_cons]
  cases he : e.hops with
  | nil =>
    rw [if_pos rfl, unlines_cons, unlines_nil]
    unfold render nl
    simp only [List.append_assoc, List.cons_append, List.nil_append]
    rfl
  | cons h l =>
    rw [if_neg (List.cons_ne_nil _ _), ← joined_unlines]
    unfold render nl
    simp only [List.append_assoc, List.cons_append, List.nil_append]
    rfl

theorem table_unlines (t : RTable × RTable) : tableText t = unlines (tableLines t) := by
  unfold tableText tableLines dryLines
  rw [unlines_cons, unlines_append, ← List.flatMap_def, unlines_flatMap]
  rw [show entryText = fun e => unlines (entryLines e) from funext entry_unlines]
  split
  · simp only [render, nl, List.append_assoc, List.cons_append, List.nil_append, List.append_nil, unlines_nil]
    rfl
  · rw [unlines_cons, ← List.flatMap_def, unlines_flatMap]
    simp only [render, nl, List.append_assoc, List.cons_append, List.nil_append, List.append_nil]
    rfl

theorem hops_kind {l : NexthopList} : ∀ x ∈ hopsLines l, x.1 = .noHop ∨ x.1 = .hop := by
  intro x hx
  unfold hopsLines at hx
  split at hx
  · obtain rfl := List.mem_singleton.1 hx; exact Or.inl rfl
  · obtain ⟨h, -, rfl⟩ := List.mem_map.1 hx; exact Or.inr rfl

def isDest (l : Line) : Prop := l.1 = .dest
def isDry (l : Line) : Prop := l.1 = .dry

theorem entry_block (e : RtEntry) : Block isDest (entryLines e) := by
  refine ⟨_, _, rfl, rfl, ?_⟩
  intro l hl
  unfold isDest
  rcases hops_kind l hl with h | h <;> rw [h] <;> decide

theorem entries_not_dry {t : RTable} : ∀ l ∈ (t.map entryLines).flatten, ¬ isDry l := by
  intro l hl
  obtain ⟨b, hb, hl⟩ := List.mem_flatten.1 hl
  obtain ⟨e, -, rfl⟩ := List.mem_map.1 hb
  unfold isDry
  rcases List.mem_cons.1 hl with rfl | hl
  · simp
  · rcases hops_kind l hl with h | h <;> rw [h] <;> decide

theorem showRat_nl (q : Rat) : '\n' ∉ showRat q := not_numeric (by decide) (showRat_numeric q)

theorem hops_inj {l l' : NexthopList} (hl : ∀ h ∈ l, ',' ∉ h.uri.toList ∧ '\n' ∉ h.uri.toList) (hl' : ∀ h ∈ l', ',' ∉ h.uri.toList ∧ '\n' ∉ h.uri.toList)
    (h : hopsLines l = hopsLines l') : l.map (fun h => (h.uri, showRat h.cost)) = l'.map (fun h => (h.uri, showRat h.cost)) := by
  have key : ∀ (a b : NexthopList), (∀ h ∈ a, ',' ∉ h.uri.toList ∧ '\n' ∉ h.uri.toList) → (∀ h ∈ b, ',' ∉ h.uri.toList ∧ '\n' ∉ h.uri.toList) →
      a.map hopLine = b.map hopLine → a.map (fun h => (h.uri, showRat h.cost)) = b.map (fun h => (h.uri, showRat h.cost)) := by
    intro a
    induction a with
    | nil => intro b _ _ h; cases b with
      | nil => rfl
      | cons y b => cases h
    | cons x a ih =>
      intro b ha hb h
      cases b with
      | nil => cases h
      | cons y b =>
        rw [List.map_cons, List.map_cons, List.cons.injEq] at h
        have h0 := h.1
        unfold hopLine at h0
        have h0 := (Prod.mk.inj h0).2
        obtain ⟨e1, e2⟩ := cut (ha x (List.mem_cons.2 (Or.inl rfl))).1 (hb y (List.mem_cons.2 (Or.inl rfl))).1
          (show x.uri.toList ++ ',' :: (" Cost: ".toList ++ _) = y.uri.toList ++ ',' :: (" Cost: ".toList ++ _) from h0)
        rw [List.map_cons, List.map_cons, ih b (fun h hh => ha h (List.mem_cons_of_mem _ hh)) (fun h hh => hb h (List.mem_cons_of_mem _ hh)) h.2,
          String.toList_inj.1 e1, List.append_cancel_right (List.append_cancel_left e2)]
  unfold hopsLines at h
  by_cases h1 : l = [] <;> by_cases h2 : l' = []
  · rw [h1, h2]
  · rw [if_pos h1, if_neg h2] at h
    cases l' with
    | nil => exact absurd rfl h2
    | cons y l' =>
      rw [List.map_cons, List.cons.injEq] at h
      exact absurd (Prod.mk.inj h.1).1 (by decide)
  · rw [if_neg h1, if_pos h2] at h
    cases l with
    | nil => exact absurd rfl h1
    | cons y l =>
      rw [List.map_cons, List.cons.injEq] at h
      exact absurd (Prod.mk.inj h.1).1 (by decide)
  · rw [if_neg h1, if_neg h2] at h
    exact key l l' hl hl' h

theorem hops_seen {l l' : NexthopList} (h : l.map (fun h => (h.uri, showRat h.cost)) = l'.map (fun h => (h.uri, showRat h.cost))) :
    hopsLines l = hopsLines l' := by
  have key : ∀ (a : NexthopList), a.map hopLine = (a.map (fun h => (h.uri, showRat h.cost))).map
      (fun p => ((Kind.hop, p.1.toList ++ (", Cost: ".toList ++ (p.2 ++ ")".toList))) : Line)) := by
    intro a
    rw [List.map_map]
    rfl
  have hn : ∀ (a : NexthopList), a = [] ↔ a.map (fun h => (h.uri, showRat h.cost)) = [] := by
    intro a
    rw [List.map_eq_nil_iff]
  unfold hopsLines
  by_cases h1 : l = []
  · rw [if_pos h1, if_pos ((hn l').2 (by rw [← h]; exact (hn l).1 h1))]
  · rw [if_neg h1, if_neg (fun e => h1 ((hn l).2 (by rw [h]; exact (hn l').1 e))), key, key, h]

theorem entries_inj : ∀ {t t' : RTable}, PlainTable t → PlainTable t' → t.map entryLines = t'.map entryLines → seenTable t = seenTable t'
  | [], [], _, _, _ => rfl
  | [], _ :: _, _, _, h => by cases h
  | _ :: _, [], _, _, h => by cases h
  | e :: t, e' :: t', hp, hp', h => by
    rw [List.map_cons, List.map_cons, List.cons.injEq] at h
    have h0 := h.1
    unfold entryLines at h0
    rw [List.cons.injEq] at h0
    have p := hp e (List.mem_cons.2 (Or.inl rfl))
    have p' := hp' e' (List.mem_cons.2 (Or.inl rfl))
    have ih := entries_inj (fun x hx => hp x (List.mem_cons_of_mem _ hx)) (fun x hx => hp' x (List.mem_cons_of_mem _ hx)) h.2
    unfold seenTable at ih ⊢
    rw [List.map_cons, List.map_cons, ih, ofName_inj p.1 p'.1 (Prod.mk.inj h0.1).2, hops_inj p.2 p'.2 h0.2]

theorem entries_seen : ∀ {t t' : RTable}, seenTable t = seenTable t' → t.map entryLines = t'.map entryLines
  | [], [], _ => rfl
  | [], _ :: _, h => by cases h
  | _ :: _, [], h => by cases h
  | e :: t, e' :: t', h => by
    unfold seenTable at h
    rw [List.map_cons, List.map_cons, List.cons.injEq] at h
    rw [List.map_cons, List.map_cons, entries_seen h.2]
    unfold entryLines
    rw [(Prod.mk.inj h.1).1, hops_seen (Prod.mk.inj h.1).2]

theorem tableLines_same {t t' : RTable × RTable} (h1 : PlainTable t.1) (h2 : PlainTable t.2) (h1' : PlainTable t'.1) (h2' : PlainTable t'.2) :
    tableLines t = tableLines t' ↔ seenTable t.1 = seenTable t'.1 ∧ seenTable t.2 = seenTable t'.2 := by
  have hdry : ∀ (d : RTable), ∀ l, (dryLines d).head? = some l → isDry l := by
    intro d l hl
    unfold dryLines at hl
    split at hl
    · cases hl
    · injection hl with hl; rw [← hl]; exact rfl
  have hb : ∀ d : RTable, ∀ b ∈ d.map entryLines, Block isDest b := by
    intro d b hb
    obtain ⟨e, -, rfl⟩ := List.mem_map.1 hb
    exact entry_block e
  constructor
  · intro h
    unfold tableLines at h
    obtain ⟨a, b⟩ := split_at entries_not_dry entries_not_dry (hdry t.2) (hdry t'.2) (List.cons.inj h).2
    refine ⟨entries_inj h1 h1' (blocks_inj (hb _) (hb _) a), ?_⟩
    unfold dryLines at b
    by_cases e1 : t.2 = [] <;> by_cases e2 : t'.2 = []
    · rw [e1, e2]
    · rw [if_pos e1, if_neg e2] at b; cases b
    · rw [if_neg e1, if_pos e2] at b; cases b
    · rw [if_neg e1, if_neg e2] at b
      exact entries_inj h2 h2' (blocks_inj (hb _) (hb _) (List.cons.inj b).2)
  · rintro ⟨a, b⟩
    have hn : ∀ (d : RTable), d = [] ↔ seenTable d = [] := by
      intro d
      unfold seenTable
      rw [List.map_eq_nil_iff]
    unfold tableLines dryLines
    rw [entries_seen a]
    by_cases e1 : t.2 = []
    · rw [if_pos e1, if_pos ((hn _).2 (by rw [← b]; exact (hn _).1 e1))]
    · rw [if_neg e1, if_neg (fun e => e1 ((hn _).2 (by rw [b]; exact (hn _).1 e))), entries_seen b]

theorem entries_good {t : RTable} (h : PlainTable t) : ∀ l ∈ (t.map entryLines).flatten, Good l := by
  intro l hl
  obtain ⟨b, hb, hl⟩ := List.mem_flatten.1 hl
  obtain ⟨e, he, rfl⟩ := List.mem_map.1 hb
  rcases List.mem_cons.1 hl with rfl | hl
  · exact ⟨fun e => (by cases e), ofName_nl _⟩
  · unfold hopsLines at hl
    split at hl
    · obtain rfl := List.mem_singleton.1 hl
      exact ⟨fun _ => rfl, List.not_mem_nil⟩
    · obtain ⟨x, hx, rfl⟩ := List.mem_map.1 hl
      refine ⟨fun e => (by cases e), ?_⟩
      show '\n' ∉ _ ++ (_ ++ (_ ++ _))
      simp only [List.mem_append, not_or]
      exact ⟨((h e he).2 x hx).2, by decide, showRat_nl _, by decide⟩

theorem tableLines_good {t : RTable × RTable} (h1 : PlainTable t.1) (h2 : PlainTable t.2) : ∀ l ∈ tableLines t, Good l := by
  intro l hl
  unfold tableLines dryLines at hl
  rcases List.mem_cons.1 hl with rfl | hl
  · exact ⟨fun _ => rfl, List.not_mem_nil⟩
  · rcases List.mem_append.1 hl with hl | hl
    · exact entries_good h1 l hl
    · split at hl
      · cases hl
      · rcases List.mem_cons.1 hl with rfl | hl
        · exact ⟨fun _ => rfl, List.not_mem_nil⟩
        · exact entries_good h2 l hl

end Print
end Nlsr
