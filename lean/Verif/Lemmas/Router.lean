import Verif.Model.Router
import Verif.Lemmas.RouterNpt
import Verif.Lemmas.NbrInv
import Verif.Props.Fib
/- The parts of a router stay in step. -/
namespace Nlsr

namespace Adjacent
/-- What never changes of a neighbour. -/
def ident (a : Adjacent) : Name × Uri × Ext Rat := (a.name, a.uri, a.cost)
/-- What the FIB reads. -/
def face (a : Adjacent) : Name × Uri × Nat := (a.name, a.uri, a.faceId)
def place (a : Adjacent) : Name × Uri := (a.name, a.uri)
end Adjacent

namespace AdjacencyList
open Adjacent (ident face place)

theorem modify_map {β : Type} (g : Adjacent → β) (l : AdjacencyList) (n : Name) (f : Adjacent → Adjacent)
    (hf : ∀ a, g (f a) = g a) : (modify l n f).map g = l.map g := by
  induction l with
  | nil => rfl
  | cons a as ih =>
    unfold modify
    split
    · rw [List.map_cons, List.map_cons, hf]
    · rw [List.map_cons, List.map_cons, ih]

theorem setFaceOf_map {β : Type} (g : Adjacent → β) (l : AdjacencyList) (u : Uri) (id : Nat)
    (hf : ∀ a : Adjacent, g { a with faceId := id } = g a) : (setFaceOf l u id).map g = l.map g := by
  induction l with
  | nil => rfl
  | cons a as ih =>
    unfold setFaceOf
    split
    · rw [List.map_cons, List.map_cons, hf]
    · rw [List.map_cons, List.map_cons, ih]

theorem modifyFace_map {β : Type} (g : Adjacent → β) (l : AdjacencyList) (fid : Nat) (f : Adjacent → Adjacent)
    (hf : ∀ a, g (f a) = g a) : (modifyFace l fid f).map g = l.map g := by
  induction l with
  | nil => rfl
  | cons a as ih =>
    unfold modifyFace
    split
    · rw [List.map_cons, List.map_cons, hf]
    · rw [List.map_cons, List.map_cons, ih]

theorem modify_eq_map {l : AdjacencyList} (hn : (l.map (·.name)).Nodup) (n : Name) (f : Adjacent → Adjacent) :
    modify l n f = l.map (fun a => if a.name = n then f a else a) := by
  induction l with
  | nil => rfl
  | cons a as ih =>
    rw [List.map_cons, List.nodup_cons] at hn
    unfold modify
    by_cases h : a.name = n
    · rw [if_pos (by simpa using h), List.map_cons, if_pos h]
      congr 1
      refine (List.map_id as).symm.trans (List.map_congr_left (fun b hb => ?_))
      rw [if_neg]
      · rfl
      · intro hc; exact hn.1 (List.mem_map.2 ⟨b, hb, hc.trans h.symm⟩)
    · rw [if_neg (by simpa using h), List.map_cons, if_neg h, ih hn.2]

theorem find_cons (x : Adjacent) (l : AdjacencyList) (n : Name) :
    find (x :: l) n = if x.name = n then some x else find l n := by
  unfold find
  rw [List.find?_cons]
  by_cases h : x.name = n
  · rw [if_pos h, show (x.name == n) = true by simpa using h]
  · rw [if_neg h, show (x.name == n) = false by simpa using h]

theorem find_none_of {l : AdjacencyList} {n : Name} (h : n ∉ l.map (·.name)) : find l n = none := by
  unfold find
  rw [List.find?_eq_none]
  intro a ha hc
  exact h (List.mem_map.2 ⟨a, ha, by simpa using hc⟩)

/-- A neighbour with the face id that `l` has for it. -/
def withFaceOf (l : AdjacencyList) (a : Adjacent) : Adjacent :=
  match find l a.name with
  | some x => { a with faceId := x.faceId }
  | none => a

theorem fold_faces {l : AdjacencyList} (hl : (l.map (·.name)).Nodup) : ∀ {A : AdjacencyList}, (A.map (·.name)).Nodup →
    l.foldl (fun A x => modify A x.name (fun a => { a with faceId := x.faceId })) A = A.map (withFaceOf l) := by
  induction l with
  | nil =>
    intro A _
    exact ((List.map_congr_left (fun _ _ => rfl)).trans (List.map_id A)).symm
  | cons x xs ih =>
    intro A hA
    rw [List.map_cons, List.nodup_cons] at hl
    rw [List.foldl_cons, ih hl.2 (by rw [modify_map (·.name) A x.name (fun a => { a with faceId := x.faceId }) (fun _ => rfl)]; exact hA), modify_eq_map hA, List.map_map]
    refine List.map_congr_left (fun a _ => ?_)
    show withFaceOf xs (if a.name = x.name then _ else a) = _
    unfold withFaceOf
    rw [find_cons]
    by_cases h : a.name = x.name
    · rw [if_pos h, if_pos h.symm]
      show (match find xs a.name with | some y => _ | none => _) = _
      rw [h, find_none_of hl.1]
    · rw [if_neg h, if_neg (fun hc => h hc.symm)]

theorem map_names_of_place {A B : AdjacencyList} (h : A.map place = B.map place) : A.map (·.name) = B.map (·.name) := by
  have := congrArg (List.map Prod.fst) h
  rw [List.map_map, List.map_map] at this
  exact this

theorem fold_agrees {l A : AdjacencyList} (hl : (l.map (·.name)).Nodup) (h : A.map place = l.map place) :
    (l.foldl (fun A x => modify A x.name (fun a => { a with faceId := x.faceId })) A).map face = l.map face := by
  have hA : (A.map (·.name)).Nodup := by rw [map_names_of_place h]; exact hl
  rw [fold_faces hl hA, List.map_map]
  let k : Name × Uri → Name × Uri × Nat := fun p => (p.1, p.2, (find l p.1).elim 0 (·.faceId))
  have h1 : A.map (face ∘ withFaceOf l) = (A.map place).map k := by
    rw [List.map_map]
    refine List.map_congr_left (fun a ha => ?_)
    have : a.name ∈ l.map (·.name) := by
      rw [← map_names_of_place h]; exact List.mem_map_of_mem ha
    obtain ⟨x, hx, hxn⟩ := List.mem_map.1 this
    have hf : find l a.name = some x := by rw [← hxn]; exact mem_find hl hx
    show face (withFaceOf l a) = (a.name, a.uri, (find l a.name).elim 0 (·.faceId))
    unfold withFaceOf
    rw [hf]
    rfl
  rw [h1, h, List.map_map]
  refine List.map_congr_left (fun x hx => ?_)
  show (x.name, x.uri, (find l x.name).elim 0 (·.faceId)) = _
  rw [mem_find hl hx]
  rfl

end AdjacencyList

namespace Nbr
open AdjacencyList Adjacent

theorem lost_map {β : Type} (g : Adjacent → β) (hs : ∀ a st, g { a with status := st } = g a)
    (ht : ∀ a k, g { a with timedOut := k } = g a) (c : NConf) (s : Nbr) (name : Name) :
    (lost c s name).adjs.map g = s.adjs.map g := by
  unfold lost
  dsimp only
  split
  · rfl
  · have h1 : ∀ n, (incTimedOut s.adjs n).map g = s.adjs.map g := fun n => modify_map g _ _ _ (fun a => ht a _)
    split
    · exact h1 _
    · split
      · exact (modify_map g _ _ _ (fun a => hs a _)).trans (h1 _)
      · exact h1 _

theorem validated_map {β : Type} (g : Adjacent → β) (hs : ∀ a st, g { a with status := st } = g a)
    (ht : ∀ a k, g { a with timedOut := k } = g a) (c : NConf) (s : Nbr) (d : Name) :
    (validated c s d).adjs.map g = s.adjs.map g := by
  unfold validated
  dsimp only
  split
  · have h1 : ∀ n, (setTimedOut (setStatus s.adjs n .active) n 0).map g = s.adjs.map g := fun n =>
      (modify_map g _ _ _ (fun a => ht a _)).trans (modify_map g _ _ _ (fun a => hs a _))
    split
    · exact h1 _
    · exact h1 _
  · rfl

/-- Only status, time-outs and face ids change. -/
theorem step_map {β : Type} (g : Adjacent → β) (hs : ∀ a st, g { a with status := st } = g a)
    (ht : ∀ a k, g { a with timedOut := k } = g a) (hf : ∀ a k, g { a with faceId := k } = g a)
    (c : NConf) (s : Nbr) (op : Op) : (step c s op).adjs.map g = s.adjs.map g := by
  have hi := step_is c s op
  generalize step c s op = s' at hi
  cases hi with
  | quiet h => rw [h.adjs]
  | lost s0 name h0 => rw [lost_map g hs ht, h0.1]
  | valid s0 d h0 => rw [validated_map g hs ht, h0.1]
  | down fid =>
    unfold faceDown
    dsimp only
    split
    · rfl
    · split
      · exact modifyFace_map g _ _ _ (fun a => (ht { a with faceId := 0, status := .inactive } c.retry).trans
          ((hs { a with faceId := 0 } .inactive).trans (hf a 0)))
      · exact modifyFace_map g _ _ _ (fun a => hf a 0)
  | up uri fid =>
    unfold faceUp
    dsimp only
    split
    · rfl
    · split
      · exact setFaceOf_map g _ _ _ (fun a => hf a fid)
      · rfl
  | reg uri fid => exact setFaceOf_map g _ _ _ (fun a => hf a fid)
  | dataset i faces s0 h0 =>
    show (useDataset c faces s.adjs).1.map g = _
    have hm : ∀ fs a, g (matchFaces a fs).1 = g a := by
      intro fs
      induction fs with
      | nil => exact fun a => rfl
      | cons x xs ih =>
        intro a
        unfold matchFaces
        split
        · exact (ih _).trans (hf a x.2)
        · exact ih a
    generalize s.adjs = l
    induction l with
    | nil => rfl
    | cons a as ih =>
      unfold useDataset
      dsimp only
      rw [List.map_cons, List.map_cons, hm, ih]

theorem step_ident (c : NConf) (s : Nbr) (op : Op) : (step c s op).adjs.map ident = s.adjs.map ident :=
  step_map ident (fun _ _ => rfl) (fun _ _ => rfl) (fun _ _ => rfl) c s op

theorem step_place (c : NConf) (s : Nbr) (op : Op) : (step c s op).adjs.map place = s.adjs.map place :=
  step_map place (fun _ _ => rfl) (fun _ _ => rfl) (fun _ _ => rfl) c s op

end Nbr

namespace Fib
open AdjacencyList Adjacent

theorem step_place (c : FConf) (s : Fib) (op : Op) : (step c s op).adjs.map place = s.adjs.map place := by
  cases op with
  | update n l fl =>
    show (s.update c n l fl).adjs.map place = _
    by_cases hw : hopsToAdd c l = []
    · rw [update_empty c s n l fl hw, (remove_eff s n).adjs]
    · rw [(update_eff c s n l fl hw).adjs]
  | remove n => show (s.remove n).adjs.map place = _; rw [(remove_eff s n).adjs]
  | register n u k e fl =>
    show (s.registerPrefix n u k e fl).adjs.map place = _
    rw [registerPrefix_eq]
  | setStrategy n st => rfl
  | regOk i =>
    show (s.regOk i).adjs.map place = _
    unfold regOk
    split
    · rfl
    · exact setFaceOf_map place _ _ _ (fun _ => rfl)
  | regFail i =>
    show (s.regFail i).adjs.map place = _
    unfold regFail
    split
    · rfl
    · dsimp only
      split
      · unfold send; dsimp only; split <;> rfl
      · rfl
  | stratOk i => rfl
  | stratFail i =>
    show (s.stratFail i).adjs.map place = _
    unfold stratFail
    split
    · rfl
    · dsimp only; split <;> rfl
  | refresh n =>
    show (s.refresh c n).adjs.map place = _
    cases hf : s.find n with
    | none => unfold refresh; rw [hf]
    | some e =>
      cases hr : e.refresh with
      | none => unfold refresh; rw [hf]; dsimp only; rw [hr]
      | some p =>
        obtain ⟨due, fl⟩ := p
        by_cases hd : s.now < due
        · unfold refresh; rw [hf]; dsimp only; rw [hr]; dsimp only; rw [if_pos hd]
        · rw [(refresh_eff c s n hf hr (by omega)).adjs]
  | clock dt => rfl
  | setFaceId n id => exact modify_map place _ _ _ (fun _ => rfl)

end Fib
end Nlsr
