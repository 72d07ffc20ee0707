import Verif.Model.Npl
import Verif.Lemmas.PrefixMap
/- C48: the advertised prefix list is a map from names to sources and cost. -/
namespace Nlsr
open Npl

/-- From the operations alone: source `src` has inserted `n` and not erased it since. -/
def HoldsFor (n : Name) (src : String) : List Npl.Op → Bool
  | [] => false
  | .insert m s _ :: rest => if m = n ∧ s = src then true else HoldsFor n src rest
  | .erase m s :: rest => if m = n ∧ s = src then false else HoldsFor n src rest

/-- The same, the operations given oldest first. -/
def Holds (ops : List Npl.Op) (n : Name) (src : String) : Bool := HoldsFor n src ops.reverse

/-- The cost given by the latest insertion of `n`. -/
def latestCost (ops : List Npl.Op) (n : Name) : Option (Ext Rat) :=
  ops.reverse.findSome? (fun op => match op with | .insert m _ c => if m = n then some c else none | .erase .. => none)

theorem Holds_snoc (ops : List Npl.Op) (op : Npl.Op) (n : Name) (src : String) :
    Holds (ops ++ [op]) n src = match op with
      | .insert m s _ => if m = n ∧ s = src then true else Holds ops n src
      | .erase m s => if m = n ∧ s = src then false else Holds ops n src := by
  unfold Holds
  rw [List.reverse_append]
  cases op <;> rfl

theorem latestCost_snoc (ops : List Npl.Op) (op : Npl.Op) (n : Name) :
    latestCost (ops ++ [op]) n = match op with
      | .insert m _ c => if m = n then some c else latestCost ops n
      | .erase .. => latestCost ops n := by
  unfold latestCost
  rw [List.reverse_append]
  cases op with
  | insert m s c =>
    show List.findSome? _ (_ :: _) = _
    rw [List.findSome?_cons]
    by_cases h : m = n
    · simp [h]
    · simp [h]
  | erase m s => rfl

namespace Npl

def get (l : Npl) (n : Name) : Option NplEntry := l.find? (fun e => e.name == n)

def Sorted (l : Npl) : Prop := l.Pairwise (fun a b => Name.lt a.name b.name = true)

theorem get_name {l : Npl} {n : Name} {e : NplEntry} (h : get l n = some e) : e.name = n := by
  simpa using List.find?_some h

theorem mem_insert_name {l : Npl} {n : Name} {src : String} {c : Ext Rat} {x : NplEntry} (h : x ∈ (insert l n src c).2) :
    x.name = n ∨ ∃ y ∈ l, x.name = y.name := by
  induction l with
  | nil =>
    rcases List.mem_singleton.1 h with rfl
    exact Or.inl rfl
  | cons e es ih =>
    unfold insert at h
    split at h
    · rcases List.mem_cons.1 h with rfl | h
      · exact Or.inl rfl
      · exact Or.inr ⟨x, h, rfl⟩
    · split at h
      · rcases List.mem_cons.1 h with rfl | h
        · exact Or.inr ⟨x, List.mem_cons_self .., rfl⟩
        · rcases ih h with h | ⟨y, hy, h⟩
          · exact Or.inl h
          · exact Or.inr ⟨y, List.mem_cons_of_mem _ hy, h⟩
      · rcases List.mem_cons.1 h with rfl | h
        · exact Or.inr ⟨e, List.mem_cons_self .., rfl⟩
        · exact Or.inr ⟨x, List.mem_cons_of_mem _ h, rfl⟩

theorem insert_sorted {l : Npl} (h : Sorted l) (n : Name) (src : String) (c : Ext Rat) : Sorted (insert l n src c).2 := by
  induction l with
  | nil => exact List.pairwise_singleton ..
  | cons e es ih =>
    obtain ⟨h1, h2⟩ := List.pairwise_cons.1 h
    unfold insert
    split
    · rename_i hlt
      refine List.pairwise_cons.2 ⟨?_, h⟩
      intro x hx
      rcases List.mem_cons.1 hx with rfl | hx
      · exact hlt
      · exact Name.lt_trans hlt (h1 x hx)
    · split
      · rename_i hlt
        refine List.pairwise_cons.2 ⟨?_, ih h2⟩
        intro x hx
        rcases mem_insert_name hx with hx | ⟨y, hy, hx⟩
        · rw [hx]; exact hlt
        · rw [hx]; exact h1 y hy
      · exact List.pairwise_cons.2 ⟨h1, h2⟩

theorem get_none_of_lt {l : Npl} {n : Name} (h : ∀ x ∈ l, Name.lt n x.name = true) : get l n = none := by
  rw [get, List.find?_eq_none]
  intro x hx
  have := h x hx
  simp only [beq_iff_eq]
  intro e
  rw [e, Name.lt_irrefl] at this
  cases this

theorem get_insert {l : Npl} (h : Sorted l) (n : Name) (src : String) (c : Ext Rat) (m : Name) :
    get (insert l n src c).2 m =
      if m = n then some ⟨n, match get l n with
        | none => [src]
        | some e => if e.sources.contains src then e.sources else e.sources ++ [src], c⟩
      else get l m := by
  induction l with
  | nil =>
    by_cases hm : m = n
    · rw [if_pos hm, hm]; simp [insert, get]
    · rw [if_neg hm]; simpa [insert, get] using fun e : n = m => hm e.symm
  | cons e es ih =>
    obtain ⟨h1, h2⟩ := List.pairwise_cons.1 h
    unfold insert
    split
    · rename_i hlt
      have hnone : get (e :: es) n = none := by
        refine get_none_of_lt fun x hx => ?_
        rcases List.mem_cons.1 hx with rfl | hx
        · exact hlt
        · exact Name.lt_trans hlt (h1 x hx)
      rw [hnone]
      by_cases hm : m = n
      · rw [if_pos hm, hm]; simp [get]
      · rw [if_neg hm]
        show List.find? _ (_ :: _) = _
        rw [List.find?_cons_of_neg (by simpa using fun e : n = m => hm e.symm)]
        rfl
    · rename_i hlt0
      split
      · rename_i hlt
        have hen : e.name ≠ n := by
          intro e'
          rw [e', Name.lt_irrefl] at hlt
          cases hlt
        have hg : get (e :: es) n = get es n := by
          unfold get
          rw [List.find?_cons_of_neg (by simpa using hen)]
        dsimp only
        rw [hg]
        by_cases hem : e.name = m
        · rw [if_neg (fun e' => hen (hem.trans e'))]
          unfold get
          rw [List.find?_cons_of_pos (by simpa using hem), List.find?_cons_of_pos (by simpa using hem)]
        · have : get (e :: (insert es n src c).2) m = get (insert es n src c).2 m := by
            unfold get
            rw [List.find?_cons_of_neg (by simpa using hem)]
          rw [this, ih h2]
          have : get (e :: es) m = get es m := by
            unfold get
            rw [List.find?_cons_of_neg (by simpa using hem)]
          rw [this]
      · rename_i hlt
        have hen : e.name = n := (PrefixMap.eq_of_not_lt hlt0 hlt).symm
        have hg : get (e :: es) n = some e := by
          unfold get
          rw [List.find?_cons_of_pos (by simpa using hen)]
        rw [hg]
        by_cases hm : m = n
        · rw [if_pos hm]
          unfold get
          rw [List.find?_cons_of_pos (by simp [hen, hm])]
          dsimp only
          rw [hen]
        · rw [if_neg hm]
          unfold get
          rw [List.find?_cons_of_neg (by simpa [hen] using fun e : n = m => hm e.symm),
            List.find?_cons_of_neg (by simpa [hen] using fun e : n = m => hm e.symm)]

theorem insert_fst {l : Npl} (h : Sorted l) (n : Name) (src : String) (c : Ext Rat) :
    (insert l n src c).1 = match get l n with | none => true | some e => !e.sources.contains src := by
  induction l with
  | nil => rfl
  | cons e es ih =>
    obtain ⟨h1, h2⟩ := List.pairwise_cons.1 h
    unfold insert
    split
    · rename_i hlt
      rw [get_none_of_lt]
      intro x hx
      rcases List.mem_cons.1 hx with rfl | hx
      · exact hlt
      · exact Name.lt_trans hlt (h1 x hx)
    · rename_i hlt0
      split
      · rename_i hlt
        have hen : e.name ≠ n := by
          intro e'
          rw [e', Name.lt_irrefl] at hlt
          cases hlt
        have hg : get (e :: es) n = get es n := by
          unfold get
          rw [List.find?_cons_of_neg (by simpa using hen)]
        rw [hg]
        exact ih h2
      · rename_i hlt
        have hen : e.name = n := (PrefixMap.eq_of_not_lt hlt0 hlt).symm
        have hg : get (e :: es) n = some e := by
          unfold get
          rw [List.find?_cons_of_pos (by simpa using hen)]
        rw [hg]

theorem erase_sorted {l : Npl} (h : Sorted l) (n : Name) (src : String) : Sorted (erase l n src).2 := by
  unfold erase
  split
  · exact h
  · dsimp only
    split
    · exact List.Pairwise.sublist List.filter_sublist h
    · unfold Sorted at h ⊢
      rw [List.pairwise_map]
      refine h.imp ?_
      intro a b hab
      split <;> split <;> exact hab

theorem get_erase (l : Npl) (n : Name) (src : String) (m : Name) :
    get (erase l n src).2 m =
      if m = n then (match get l n with
        | none => none
        | some e =>
          if e.sources.filter (fun x => !(x == src)) = [] then none
          else some { e with sources := e.sources.filter (fun x => !(x == src)) })
      else get l m := by
  unfold erase
  cases hg : l.find? (fun e => e.name == n) with
  | none =>
    have hg' : get l n = none := hg
    dsimp only
    by_cases hm : m = n
    · rw [if_pos hm, hm, hg']
    · rw [if_neg hm]
  | some e =>
    have hg' : get l n = some e := hg
    have hne := get_name hg'
    rw [hg']
    dsimp only
    by_cases hl : e.sources.filter (fun x => !(x == src)) = []
    · rw [if_pos hl, if_pos hl]
      unfold get
      rw [List.find?_filter]
      by_cases hm : m = n
      · rw [if_pos hm, List.find?_eq_none]
        intro x _
        simp [hm]
      · rw [if_neg hm]
        congr 1
        funext x
        by_cases hx : x.name = m
        · simp [hx, hm]
        · simp [hx]
    · rw [if_neg hl, if_neg hl]
      unfold get
      rw [List.find?_map]
      have hcomp : ((fun x : NplEntry => x.name == m) ∘ fun x => if (x.name == n) = true then { x with sources := e.sources.filter (fun x => !(x == src)) } else x)
          = fun x => x.name == m := by
        funext x
        simp only [Function.comp]
        split <;> rfl
      rw [hcomp]
      by_cases hm : m = n
      · rw [if_pos hm, hm, hg]
        simp [hne]
      · rw [if_neg hm]
        cases hx : l.find? (fun e => e.name == m) with
        | none => rfl
        | some x =>
          have : x.name = m := by simpa using List.find?_some hx
          simp [this, hm]

theorem erase_fst (l : Npl) (n : Name) (src : String) :
    (erase l n src).1 = match get l n with | none => false | some e => e.sources.contains src := by
  unfold erase get
  split
  · rename_i h; rw [h]
  · rename_i h; rw [h]

/-- What the list is, in terms of the operations. -/
structure Inv (ops : List Op) (l : Npl) : Prop where
  sorted : Sorted l
  src : ∀ n s, (∃ e, get l n = some e ∧ s ∈ e.sources) ↔ Holds ops n s = true
  ne : ∀ n e, get l n = some e → e.sources ≠ []
  cost : ∀ n e, get l n = some e → latestCost ops n = some e.cost

theorem inv_run (ops : List Op) : Inv ops (run ops) := by
  obtain ⟨r, rfl⟩ : ∃ r : List Op, ops = r.reverse := ⟨ops.reverse, (List.reverse_reverse ops).symm⟩
  induction r with
  | nil => exact ⟨List.Pairwise.nil, by simp [run, get, Holds, HoldsFor], by simp [run, get], by simp [run, get]⟩
  | cons op r ih =>
    rw [List.reverse_cons]
    generalize r.reverse = ops at ih ⊢
    have hrun : run (ops ++ [op]) = (step (run ops) op).2 := by unfold run; rw [List.foldl_append]; rfl
    rw [hrun]
    generalize run ops = l at ih ⊢
    obtain ⟨hs, hsrc, hne, hcost⟩ := ih
    cases op with
    | insert n src c =>
      show Inv _ (insert l n src c).2
      refine ⟨insert_sorted hs .., ?_, ?_, ?_⟩
      · intro m s
        rw [Holds_snoc, get_insert hs]
        dsimp only
        by_cases hm : m = n
        · subst hm
          rw [if_pos rfl]
          by_cases hss : src = s
          · subst hss
            rw [if_pos ⟨rfl, rfl⟩]
            refine ⟨fun _ => rfl, fun _ => ⟨_, rfl, ?_⟩⟩
            dsimp only
            split
            · simp
            · split
              · rename_i h; simpa using h
              · simp
          · rw [if_neg (fun h => hss h.2), ← hsrc]
            constructor
            · rintro ⟨e, he, h⟩
              injection he with he
              subst he
              dsimp only at h
              split at h
              · rw [List.mem_singleton] at h; exact absurd h.symm hss
              · rename_i e0 he0
                refine ⟨e0, he0, ?_⟩
                split at h
                · exact h
                · rcases List.mem_append.1 h with h | h
                  · exact h
                  · rw [List.mem_singleton] at h; exact absurd h.symm hss
            · rintro ⟨e, he, h⟩
              refine ⟨_, rfl, ?_⟩
              dsimp only
              rw [he]
              dsimp only
              split
              · exact h
              · exact List.mem_append_left _ h
        · rw [if_neg hm, if_neg (fun h => hm h.1.symm)]
          exact hsrc m s
      · intro m e
        rw [get_insert hs]
        split
        · intro he
          injection he with he
          subst he
          dsimp only
          split
          · simp
          · rename_i e0 he0
            split
            · exact hne n e0 he0
            · simp
        · exact hne m e
      · intro m e
        rw [get_insert hs, latestCost_snoc]
        dsimp only
        split
        · rename_i hm
          intro he
          injection he with he
          subst he
          rw [if_pos hm.symm]
        · rename_i hm
          rw [if_neg (fun e => hm e.symm)]
          exact hcost m e
    | erase n src =>
      show Inv _ (erase l n src).2
      refine ⟨erase_sorted hs .., ?_, ?_, ?_⟩
      · intro m s
        rw [Holds_snoc, get_erase]
        dsimp only
        by_cases hm : m = n
        · subst hm
          rw [if_pos rfl]
          by_cases hss : src = s
          · subst hss
            rw [if_pos ⟨rfl, rfl⟩]
            refine ⟨?_, nofun⟩
            rintro ⟨e, he, h⟩
            split at he
            · cases he
            · split at he
              · cases he
              · injection he with he
                subst he
                simp at h
          · rw [if_neg (fun h => hss h.2), ← hsrc]
            constructor
            · rintro ⟨e, he, h⟩
              split at he
              · cases he
              · rename_i e0 he0
                split at he
                · cases he
                · injection he with he
                  subst he
                  exact ⟨e0, he0, (List.mem_filter.1 h).1⟩
            · rintro ⟨e, he, h⟩
              have hmem : s ∈ e.sources.filter (fun x => !(x == src)) := List.mem_filter.2 ⟨h, by simpa using fun e => hss e.symm⟩
              rw [he]
              dsimp only
              rw [if_neg (List.ne_nil_of_mem hmem)]
              exact ⟨_, rfl, hmem⟩
        · rw [if_neg hm, if_neg (fun h => hm h.1.symm)]
          exact hsrc m s
      · intro m e
        rw [get_erase]
        split
        · intro he
          split at he
          · cases he
          · split at he
            · cases he
            · rename_i hl
              injection he with he
              subst he
              exact hl
        · exact hne m e
      · intro m e
        rw [get_erase, latestCost_snoc]
        split
        · rename_i hm
          subst hm
          intro he
          split at he
          · cases he
          · rename_i e0 he0
            split at he
            · cases he
            · injection he with he
              subst he
              exact hcost m e0 he0
        · exact hcost m e

theorem mem_names_iff (l : Npl) (n : Name) : n ∈ names l ↔ ∃ e, get l n = some e := by
  constructor
  · intro h
    obtain ⟨e, he, rfl⟩ := List.mem_map.1 h
    cases hg : get l e.name with
    | some x => exact ⟨x, rfl⟩
    | none =>
      have := List.find?_eq_none.1 hg e he
      simp at this
  · rintro ⟨e, he⟩
    have := get_name he
    subst this
    exact List.mem_map_of_mem (List.mem_of_find?_eq_some he)

theorem get_mem {l : Npl} (h : Sorted l) {e : NplEntry} (he : e ∈ l) : get l e.name = some e := by
  induction l with
  | nil => cases he
  | cons x xs ih =>
    obtain ⟨h1, h2⟩ := List.pairwise_cons.1 h
    unfold get
    rcases List.mem_cons.1 he with rfl | he
    · rw [List.find?_cons_of_pos (by simp)]
    · rw [List.find?_cons_of_neg, ← get, ih h2 he]
      have := h1 e he
      simp only [beq_iff_eq]
      intro e'
      rw [e', Name.lt_irrefl] at this
      cases this
end Npl

/-- **C48.** After any operations, a name is listed iff some source holds it, and the entries are those names with
their latest cost. -/
theorem C48_advertised (ops : List Npl.Op) (n : Name) :
    (n ∈ (Npl.run ops).names ↔ ∃ src, Holds ops n src = true) ∧
    (∀ p ∈ (Npl.run ops).infos, latestCost ops p.name = some p.cost) ∧
    (Npl.run ops).infos.map (·.name) = (Npl.run ops).names := by
  have hi := Npl.inv_run ops
  refine ⟨?_, ?_, ?_⟩
  · rw [Npl.mem_names_iff]
    constructor
    · rintro ⟨e, he⟩
      obtain ⟨s, hs⟩ := List.exists_mem_of_ne_nil _ (hi.ne n e he)
      exact ⟨s, (hi.src n s).1 ⟨e, he, hs⟩⟩
    · rintro ⟨s, hs⟩
      obtain ⟨e, he, _⟩ := (hi.src n s).2 hs
      exact ⟨e, he⟩
  · intro p hp
    obtain ⟨e, he, rfl⟩ := List.mem_map.1 hp
    exact hi.cost _ _ (Npl.get_mem hi.sorted he)
  · unfold Npl.infos Npl.names
    rw [List.map_map]
    rfl

/-- **C48.** Names are listed in strictly increasing canonical order. -/
theorem C48_sorted (ops : List Npl.Op) : (Npl.run ops).names.Pairwise (fun a b => Name.lt a b = true) := by
  unfold Npl.names
  rw [List.pairwise_map]
  exact (Npl.inv_run ops).sorted

/-- **C48.** An insertion reports true iff that source did not hold the name, an erasure iff it did. -/
theorem C48_report (ops : List Npl.Op) (op : Npl.Op) :
    (Npl.step (Npl.run ops) op).1 = match op with
      | .insert n src _ => !Holds ops n src
      | .erase n src => Holds ops n src := by
  have hi := Npl.inv_run ops
  have key : ∀ n src, (match Npl.get (Npl.run ops) n with | none => false | some e => e.sources.contains src) = Holds ops n src := by
    intro n src
    rw [Bool.eq_iff_iff, ← hi.src]
    cases hg : Npl.get (Npl.run ops) n with
    | none => simp
    | some e => simp
  cases op with
  | insert n src c =>
    show (Npl.insert _ n src c).1 = !Holds ops n src
    rw [Npl.insert_fst hi.sorted, ← key]
    cases Npl.get (Npl.run ops) n <;> rfl
  | erase n src =>
    show (Npl.erase _ n src).1 = Holds ops n src
    rw [Npl.erase_fst, key]

/-- Two sources insert a name; it stays until both erased it, with the latest cost. -/
example :
    let a : Name := nm ["a"]
    let ops : List Npl.Op := [.insert (nm ["b"]) "" (.fin 1), .insert a "x" (.fin 5), .insert a "y" (.fin 7), .erase a "x"]
    (Npl.run ops).infos = [⟨a, .fin 7⟩, ⟨nm ["b"], .fin 1⟩] ∧ (Npl.step (Npl.run ops) (.erase a "x")).1 = false ∧
      (Npl.step (Npl.run ops) (.erase a "y")) = (true, [⟨nm ["b"], [""], .fin 1⟩]) := by
  decide +kernel

end Nlsr
