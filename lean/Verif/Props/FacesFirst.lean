import Verif.Props.Faces
/- C60: exactly what the destruction of a face does, also when neighbours share it. -/
namespace Nlsr
open AdjacencyList

theorem findFace_first {pre post : AdjacencyList} {a : Adjacent} (h : ∀ b ∈ pre, b.faceId ≠ a.faceId) :
    findFace (pre ++ a :: post) a.faceId = some a := by
  unfold findFace
  rw [List.find?_append, List.find?_eq_none.2 (by intro b hb; simpa using h b hb)]
  simp

theorem modifyFace_first {pre post : AdjacencyList} {a : Adjacent} (h : ∀ b ∈ pre, b.faceId ≠ a.faceId) (f : Adjacent → Adjacent) :
    modifyFace (pre ++ a :: post) a.faceId f = pre ++ f a :: post := by
  induction pre with
  | nil => simp [modifyFace]
  | cons x pre ih =>
    have hx := h x (List.mem_cons_self ..)
    rw [List.cons_append, modifyFace, if_neg (by simpa using hx), ih (fun b hb => h b (List.mem_cons_of_mem _ hb))]
    rfl

/-- C60: when a face is destroyed, the first neighbour in the order of the configuration that has its id loses it, and goes down with one
request for a rebuild if it was up; all others stay exactly as they are.  If no neighbour has the id, nothing changes. -/
theorem C60_destroyed_first {c : NConf} {s : Nbr} (hd : s.dead = false) (fid : Nat) :
    let s' := Nbr.step c s (.faceDown fid)
    ((∀ b ∈ s.adjs, b.faceId ≠ fid) → s'.adjs = s.adjs ∧ s'.out = s.out) ∧
    ∀ pre a post, s.adjs = pre ++ a :: post → (∀ b ∈ pre, b.faceId ≠ fid) → a.faceId = fid →
      s'.adjs = pre ++ (if a.status = .active then { a with faceId := 0, status := .inactive, timedOut := c.retry } else { a with faceId := 0 }) :: post ∧
      s'.out = s.out ++ (if a.status = .active then [if c.hyp = .on then .calc else .build] else []) := by
  dsimp only
  have hstep : Nbr.step c s (.faceDown fid) = Nbr.faceDown c s fid := by
    unfold Nbr.step
    rw [if_neg (by rw [hd]; nofun)]
    rfl
  rw [hstep]
  constructor
  · intro h
    unfold Nbr.faceDown
    have : findFace s.adjs fid = none := List.find?_eq_none.2 (by intro b hb; simpa using h b hb)
    dsimp only
    rw [this]
    exact ⟨rfl, rfl⟩
  · rintro pre a post e h rfl
    unfold Nbr.faceDown
    dsimp only
    rw [e, findFace_first h]
    dsimp only
    by_cases ha : a.status = .active
    · rw [if_pos ha, if_pos ha, if_pos ha, modifyFace_first h]
      unfold Nbr.rebuild
      split
      · exact ⟨rfl, rfl⟩
      · exact ⟨rfl, rfl⟩
    · rw [if_neg ha, if_neg ha, if_neg ha, modifyFace_first h, List.append_nil]
      exact ⟨rfl, rfl⟩

/-- Two neighbours behind one face, both up: the first goes down. -/
example : (Nbr.step FacesWitness.conf { adjs := [{ name := nm ["b"], uri := "u", cost := .fin 1, status := .active, faceId := 300 },
      { name := nm ["c"], uri := "u", cost := .fin 1, status := .active, faceId := 300 }] } (.faceDown 300)).adjs.map (fun a => (a.status, a.faceId)) =
    [(.inactive, 0), (.active, 300)] := by decide +kernel

end Nlsr
