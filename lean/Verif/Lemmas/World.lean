import Verif.Lemmas.Rib
import Verif.Lemmas.RouterInv
/- A router together with the routes NFD has. -/
namespace Nlsr

namespace AdjacencyList
open Adjacent

theorem faceIdOf_cons (a : Adjacent) (l : AdjacencyList) (u : Uri) :
    faceIdOf (a :: l) u = if a.uri = u then a.faceId else faceIdOf l u := by
  unfold faceIdOf findUri
  rw [List.find?_cons]
  by_cases h : a.uri = u
  · rw [if_pos h, show (a.uri == u) = true by simpa using h]
  · rw [if_neg h, show (a.uri == u) = false by simpa using h]

theorem faceIdOf_face : ∀ {A B : AdjacencyList}, A.map face = B.map face → ∀ u, faceIdOf A u = faceIdOf B u := by
  intro A
  induction A with
  | nil => intro B h u; rw [List.map_nil, eq_comm, List.map_eq_nil_iff] at h; rw [h]
  | cons a as ih =>
    intro B h u
    cases B with
    | nil => cases h
    | cons b bs =>
      rw [List.map_cons, List.map_cons, List.cons.injEq] at h
      have h1 := h.1
      unfold face at h1
      injection h1 with _ h1
      injection h1 with h1 h2
      rw [faceIdOf_cons, faceIdOf_cons, h1, h2, ih h.2]

theorem differ_face {A B : AdjacencyList} (h : A.map face = B.map face) (hd : FacesDiffer B) : FacesDiffer A := by
  have key : ∀ a ∈ A, ∃ b ∈ B, b.uri = a.uri ∧ b.faceId = a.faceId := by
    intro a ha
    have : face a ∈ B.map face := by rw [← h]; exact List.mem_map_of_mem ha
    obtain ⟨b, hb, he⟩ := List.mem_map.1 this
    unfold face at he
    injection he with _ he
    injection he with h1 h2
    exact ⟨b, hb, h1, h2⟩
  intro a ha b hb h0 he
  obtain ⟨x, hx, x1, x2⟩ := key a ha
  obtain ⟨y, hy, y1, y2⟩ := key b hb
  rw [← x1, ← y1]
  exact hd x hx y hy (by omega) (by omega)

theorem setFaceOf_face {u : Uri} {f : Nat} : ∀ {A B : AdjacencyList}, A.map face = B.map face →
    (setFaceOf A u f).map face = (setFaceOf B u f).map face := by
  intro A
  induction A with
  | nil => intro B h; rw [List.map_nil, eq_comm, List.map_eq_nil_iff] at h; rw [h]
  | cons a as ih =>
    intro B h
    cases B with
    | nil => cases h
    | cons b bs =>
      rw [List.map_cons, List.map_cons, List.cons.injEq] at h
      have h1 := h.1
      unfold face at h1
      injection h1 with h0 h1
      injection h1 with h1 h2
      unfold setFaceOf
      rw [h1]
      split
      · rw [List.map_cons, List.map_cons, h.2]
        congr 1
        show (a.name, b.uri, f) = (b.name, b.uri, f)
        rw [h0]
      · rw [List.map_cons, List.map_cons, ih h.2, h.1]

theorem faceIdOf_setFaceOf (l : AdjacencyList) (u v : Uri) (f : Nat) :
    faceIdOf (setFaceOf l u f) v = faceIdOf l v ∨ v = u ∧ faceIdOf (setFaceOf l u f) v = f := by
  induction l with
  | nil => exact .inl rfl
  | cons a as ih =>
    unfold setFaceOf
    split
    · rename_i h
      have h : a.uri = u := by simpa using h
      rw [faceIdOf_cons, faceIdOf_cons]
      dsimp only
      by_cases hv : a.uri = v
      · rw [if_pos hv, if_pos hv]; exact .inr ⟨hv.symm.trans h, rfl⟩
      · rw [if_neg hv, if_neg hv]; exact .inl rfl
    · rw [faceIdOf_cons, faceIdOf_cons]
      by_cases hv : a.uri = v
      · rw [if_pos hv, if_pos hv]; exact .inl rfl
      · rw [if_neg hv, if_neg hv]; exact ih

theorem faceIdOf_modifyFace {fid : Nat} (hf : 0 < fid) {g : Adjacent → Adjacent} (hg : ∀ a, (g a).faceId = 0 ∧ (g a).uri = a.uri)
    (u : Uri) : ∀ {l : AdjacencyList}, FacesDiffer l →
    faceIdOf (modifyFace l fid g) u = if faceIdOf l u = fid then 0 else faceIdOf l u := by
  intro l
  induction l with
  | nil =>
    intro _
    show (0 : Nat) = if (0 : Nat) = fid then 0 else 0
    split <;> rfl
  | cons a as ih =>
    intro hd
    have hd' : FacesDiffer as := fun x hx y hy => hd x (List.mem_cons_of_mem _ hx) y (List.mem_cons_of_mem _ hy)
    unfold modifyFace
    split
    · rename_i h
      have h : a.faceId = fid := by simpa using h
      rw [faceIdOf_cons, faceIdOf_cons, (hg a).1, (hg a).2]
      by_cases hu : a.uri = u
      · rw [if_pos hu, if_pos hu, if_pos h]
      · rw [if_neg hu, if_neg hu, if_neg]
        intro hc
        unfold faceIdOf at hc
        cases hfu : findUri as u with
        | none => rw [hfu] at hc; exact absurd hc (by simp; omega)
        | some b =>
          rw [hfu] at hc
          dsimp only at hc
          unfold findUri at hfu
          have hb := List.mem_of_find?_eq_some hfu
          have hbu : b.uri = u := by simpa using List.find?_some hfu
          exact hu ((hd a List.mem_cons_self b (List.mem_cons_of_mem _ hb) (by omega) (by omega)).trans hbu)
    · rename_i h
      have h : a.faceId ≠ fid := by simpa using h
      rw [faceIdOf_cons, faceIdOf_cons]
      by_cases hu : a.uri = u
      · rw [if_pos hu, if_pos hu, if_neg h]
      · rw [if_neg hu, if_neg hu]; exact ih hd'

theorem faceIdOf_absent {l : AdjacencyList} {fid : Nat} (hf : 0 < fid) (h : findFace l fid = none) (u : Uri) :
    faceIdOf l u ≠ fid := by
  unfold faceIdOf
  cases hfu : findUri l u with
  | none => dsimp only; omega
  | some b =>
    dsimp only
    unfold findUri at hfu
    intro hc
    have := List.find?_eq_none.1 h b (List.mem_of_find?_eq_some hfu)
    exact this (by simpa using hc)

end AdjacencyList

namespace Nbr
open AdjacencyList

theorem matchFaces_held {a : Adjacent} (h : 0 < a.faceId) (faces : List (Uri × Nat)) : (matchFaces a faces).1 = a := by
  induction faces with
  | nil => rfl
  | cons f fs ih =>
    unfold matchFaces
    rw [if_neg (fun hc => by omega)]
    exact ih

theorem useDataset_held (c : NConf) (faces : List (Uri × Nat)) (u : Uri) (l : AdjacencyList) (h : 0 < faceIdOf l u) :
    faceIdOf (useDataset c faces l).1 u = faceIdOf l u := by
  rw [useDataset_adjs]
  induction l with
  | nil => rfl
  | cons a as ih =>
    rw [faceIdOf_cons] at h
    rw [List.map_cons, faceIdOf_cons, faceIdOf_cons, (matchFaces_same a faces).2.1]
    by_cases hu : a.uri = u
    · rw [if_pos hu] at h
      rw [if_pos hu, if_pos hu, matchFaces_held h]
    · rw [if_neg hu] at h
      rw [if_neg hu, if_neg hu]
      exact ih h

/-- When a neighbour's face changes. -/
theorem step_faceId (c : NConf) (s : Nbr) (hd : FacesDiffer s.adjs) (op : Op) (u : Uri) (h : 0 < faceIdOf s.adjs u) :
    (∃ v f, (op = .faceUp v f ∨ op = .regFace v f) ∧ (faceIdOf (step c s op).adjs u = faceIdOf s.adjs u ∨
        u = v ∧ faceIdOf (step c s op).adjs u = f)) ∨
    faceIdOf (step c s op).adjs u = faceIdOf s.adjs u ∧ op ≠ .faceDown (faceIdOf s.adjs u) ∨
    op = .faceDown (faceIdOf s.adjs u) ∧ (s.dead = false → faceIdOf (step c s op).adjs u = 0) := by
  by_cases hdead : s.dead = true
  · have : step c s op = s := by unfold step; rw [if_pos hdead]
    rw [this]
    by_cases ho : op = .faceDown (faceIdOf s.adjs u)
    · exact .inr (.inr ⟨ho, fun hc => by rw [hdead] at hc; cases hc⟩)
    · exact .inr (.inl ⟨rfl, ho⟩)
  have hfo : ∀ op', (∀ f, op' ≠ .faceDown f) → op' ≠ Op.faceDown (faceIdOf s.adjs u) := fun _ h => h _
  have hst : step c s op = stepOp c s op := by unfold step; rw [if_neg hdead]
  have hi := step_is c s op
  by_cases ho : ∃ f, op = .faceDown f
  · obtain ⟨f, rfl⟩ := ho
    rw [hst]
    show _ ∨ faceIdOf (faceDown c s f).adjs u = _ ∧ _ ∨ _ ∧ (_ → faceIdOf (faceDown c s f).adjs u = _)
    have key : 0 < f → faceIdOf (faceDown c s f).adjs u = if faceIdOf s.adjs u = f then 0 else faceIdOf s.adjs u := by
      intro hf
      unfold faceDown
      dsimp only
      cases hff : findFace s.adjs f with
      | none =>
        dsimp only
        rw [if_neg (faceIdOf_absent hf hff u)]
      | some a =>
        dsimp only
        split
        · exact faceIdOf_modifyFace hf (by intro a; exact ⟨rfl, rfl⟩) u hd
        · exact faceIdOf_modifyFace hf (by intro a; exact ⟨rfl, rfl⟩) u hd
    by_cases he : faceIdOf s.adjs u = f
    · refine .inr (.inr ⟨by rw [he], fun _ => ?_⟩)
      rw [key (by omega), if_pos he]
    · refine .inr (.inl ⟨?_, fun hc => he (by injection hc with hc; exact hc.symm)⟩)
      by_cases hf : 0 < f
      · rw [key hf, if_neg he]
      · have hf0 : f = 0 := by omega
        subst hf0
        unfold faceDown
        dsimp only
        have hz : ∀ {g : Adjacent → Adjacent} (hg : ∀ a, (g a).faceId = 0 ∧ (g a).uri = a.uri) (l : AdjacencyList),
            faceIdOf (modifyFace l 0 g) u = faceIdOf l u := by
          intro g hg l
          induction l with
          | nil => rfl
          | cons a as ih =>
            unfold modifyFace
            split
            · rename_i h0
              have h0 : a.faceId = 0 := by simpa using h0
              rw [faceIdOf_cons, faceIdOf_cons, (hg a).1, (hg a).2, h0]
            · rw [faceIdOf_cons, faceIdOf_cons, ih]
        split
        · rfl
        · split
          · exact hz (by intro a; exact ⟨rfl, rfl⟩) _
          · exact hz (by intro a; exact ⟨rfl, rfl⟩) _
  · have ho' : op ≠ .faceDown (faceIdOf s.adjs u) := fun hc => ho ⟨_, hc⟩
    have hsame : ∀ {g : AdjacencyList}, g.map Adjacent.face = s.adjs.map Adjacent.face → faceIdOf g u = faceIdOf s.adjs u :=
      fun h => faceIdOf_face h u
    generalize step c s op = s' at hi
    cases hi with
    | quiet h => exact .inr (.inl ⟨by rw [h.adjs], ho'⟩)
    | lost s0 name h0 =>
      exact .inr (.inl ⟨hsame (by rw [lost_map _ (fun _ _ => rfl) (fun _ _ => rfl), h0.1]), ho'⟩)
    | valid s0 d h0 =>
      exact .inr (.inl ⟨hsame (by rw [validated_map _ (fun _ _ => rfl) (fun _ _ => rfl), h0.1]), ho'⟩)
    | down fid => exact absurd ⟨fid, rfl⟩ ho
    | up uri fid =>
      refine .inl ⟨uri, fid, .inl rfl, ?_⟩
      unfold faceUp
      dsimp only
      split
      · exact .inl rfl
      · split
        · exact faceIdOf_setFaceOf s.adjs uri u fid
        · exact .inl rfl
    | reg uri fid => exact .inl ⟨uri, fid, .inr rfl, faceIdOf_setFaceOf s.adjs uri u fid⟩
    | dataset i faces s0 h0 => exact .inr (.inl ⟨useDataset_held c faces u s.adjs h, ho'⟩)

/-- Which names the hello protocol and the face code register. -/
theorem step_registers (c : NConf) (s : Nbr) (op : Op) : ∃ o, (step c s op).out = s.out ++ o ∧
    ∀ m u k, NOut.register m u k ∈ o → m ∈ s.adjs.map (·.name) ∨ m = c.lsaPrefix := by
  have hi := step_is c s op
  generalize step c s op = s' at hi
  have hr : ∀ (s : Nbr) m u k, NOut.register m u k ≠ (if c.hyp = .on then .calc else .build) := by
    intro _ m u k; split <;> nofun
  cases hi with
  | quiet h =>
    obtain ⟨o, h1, h2⟩ := h.out
    exact ⟨o, h1, fun m u k hm => by have := h2 _ hm; cases this⟩
  | lost s0 name h0 =>
    unfold lost
    dsimp only
    split
    · exact ⟨[], by rw [List.append_nil]; exact h0.2.2, fun _ _ _ h => by cases h⟩
    · split
      · exact ⟨[.interest _], by show s0.out ++ _ = _; rw [h0.2.2], fun _ _ _ h => by simp at h⟩
      · split
        · refine ⟨[if c.hyp = .on then .calc else .build], by show s0.out ++ _ = _; rw [h0.2.2], fun m u k h => ?_⟩
          rw [List.mem_singleton] at h
          exact absurd h (hr s m u k)
        · exact ⟨[], by rw [List.append_nil]; exact h0.2.2, fun _ _ _ h => by cases h⟩
  | valid s0 d h0 =>
    unfold validated
    dsimp only
    split
    · split
      · refine ⟨[if c.hyp = .on then .calc else .build, .initial _], by show (s0.out ++ [_]) ++ [_] = _; rw [h0.2.2, List.append_assoc]; rfl, fun m u k h => ?_⟩
        rcases List.mem_cons.1 h with h | h
        · exact absurd h (hr s m u k)
        · simp at h
      · exact ⟨[], by rw [List.append_nil]; exact h0.2.2, fun _ _ _ h => by cases h⟩
    · exact ⟨[], by rw [List.append_nil]; exact h0.2.2, fun _ _ _ h => by cases h⟩
  | down fid =>
    unfold faceDown
    dsimp only
    split
    · exact ⟨[], by rw [List.append_nil], fun _ _ _ h => by cases h⟩
    · split
      · refine ⟨[if c.hyp = .on then .calc else .build], rfl, fun m u k h => ?_⟩
        rw [List.mem_singleton] at h
        exact absurd h (hr s m u k)
      · exact ⟨[], by rw [List.append_nil], fun _ _ _ h => by cases h⟩
  | up uri fid =>
    unfold faceUp
    dsimp only
    cases hf : findUri s.adjs uri with
    | none => exact ⟨[], by rw [List.append_nil], fun _ _ _ h => by cases h⟩
    | some a =>
      dsimp only
      have hmem : a ∈ s.adjs := by unfold findUri at hf; exact List.mem_of_find?_eq_some hf
      split
      · refine ⟨[.register a.name a.uri { a with faceId := fid }.linkCost, .register c.lsaPrefix a.uri { a with faceId := fid }.linkCost], ?_, fun m u k h => ?_⟩
        · show (s.out ++ [_]) ++ [_] = _
          rw [List.append_assoc]; rfl
        · rcases List.mem_cons.1 h with h | h
          · injection h with h; exact .inl (List.mem_map.2 ⟨a, hmem, h.symm⟩)
          · rw [List.mem_singleton] at h; injection h with h; exact .inr h
      · exact ⟨[], by rw [List.append_nil], fun _ _ _ h => by cases h⟩
  | reg uri fid => exact ⟨[], by rw [List.append_nil]; rfl, fun _ _ _ h => by cases h⟩
  | dataset i faces s0 h0 =>
    refine ⟨(useDataset c faces s.adjs).2 ++ [.nextFetch], by show (s.out ++ _) ++ [_] = _; rw [List.append_assoc], fun m u k h => ?_⟩
    rcases List.mem_append.1 h with h | h
    · have : ∀ l : AdjacencyList, NOut.register m u k ∈ (useDataset c faces l).2 → m ∈ l.map (·.name) ∨ m = c.lsaPrefix := by
        intro l
        induction l with
        | nil => intro h; cases h
        | cons a as ih =>
          intro h
          unfold useDataset at h
          dsimp only at h
          rcases List.mem_append.1 h with h | h
          · obtain ⟨y, hy, hxy⟩ := List.mem_flatten.1 h
            rw [List.mem_replicate] at hy
            rw [hy.2] at hxy
            rcases List.mem_cons.1 hxy with hxy | hxy
            · injection hxy with hxy; exact .inl (by rw [List.map_cons, hxy]; exact List.mem_cons_self)
            · rw [List.mem_singleton] at hxy; injection hxy with hxy; exact .inr hxy
          · rcases ih h with h | h
            · exact .inl (by rw [List.map_cons]; exact List.mem_cons_of_mem _ h)
            · exact .inr h
      exact this _ h
    · simp at h

end Nbr

namespace Router
open Fib Adjacent

theorem syncFaces_same (c : FConf) : ∀ (l : AdjacencyList) (f : Fib),
    (syncFaces c l f).log = f.log ∧ (syncFaces c l f).now = f.now := by
  intro l
  induction l with
  | nil => intro f; exact ⟨rfl, rfl⟩
  | cons x xs ih => intro f; exact ih (Fib.step c f (.setFaceId x.name x.faceId))

variable {c : RConf} {n : Name} {F : Prop} {b : Rib × Nat}

theorem register_tracks {s : Router} (h : Tracks c.fib n F b s.fib) {m : Name} (hm : m ≠ n) (u : Uri) (k : Ext Rat) :
    Tracks c.fib n F b (s.register c m u k).fib := by
  unfold Router.register
  cases toU64 k with
  | none => exact h
  | some v => exact h.step (.register m u v forever Npt.capture) hm

theorem apply_tracks {s : Router} (h : Tracks c.fib n F b s.fib) (hs : c.syncPrefix ≠ n) (o : NOut)
    (ho : ∀ m u k, o = .register m u k → m ≠ n) : Tracks c.fib n F b (Router.apply c s o).fib := by
  unfold Router.apply
  split
  · exact h
  · exact h
  · split
    · exact h
    · exact register_tracks h hs _ _
  · exact register_tracks h (ho _ _ _ rfl) _ _
  · exact h.step (.setStrategy _ _) trivial
  · exact h

/-- A step of the hello protocol or the face code; NFD may have dropped routes on the faces `D`. -/
theorem nbrStep_tracks {s : Router} (hb : Base c s) (h : Tracks c.fib n F b s.fib) (hl : c.lsdb.names.lsaPrefix ≠ n)
    (hs : c.syncPrefix ≠ n) (op : Nbr.Op) {b' : Rib × Nat} (hb' : b'.2 ≤ s.fib.log.length) {D : Nat → Prop}
    (hd : FacesDiffer (Nbr.step c.nbr s.nbr op).adjs)
    (hr : ∀ f r, 0 < f → ribAt b' s.fib.log n f = some r → ¬ D f ∧ ribAt b s.fib.log n f = some r)
    (hk : ∀ f, 0 < f → ¬ D f → (ribAt b s.fib.log n f).isSome = true → (ribAt b' s.fib.log n f).isSome = true)
    (hst : ∀ u, 0 < s.fib.adjs.faceIdOf u → ¬ D (s.fib.adjs.faceIdOf u) →
      (Nbr.step c.nbr s.nbr op).adjs.faceIdOf u = s.fib.adjs.faceIdOf u)
    {F' : Prop} (hf : F' → F ∧ ∀ h ∈ hopsAt s.fib n, 0 < (Nbr.step c.nbr s.nbr op).adjs.faceIdOf h.uri →
      ¬ D ((Nbr.step c.nbr s.nbr op).adjs.faceIdOf h.uri) ∧
      s.fib.adjs.faceIdOf h.uri = (Nbr.step c.nbr s.nbr op).adjs.faceIdOf h.uri) :
    Tracks c.fib n F' b' (Router.nbrStep c s op).fib := by
  unfold Router.nbrStep
  dsimp only
  have hb1 := hb.nbrOnly op
  have hsy := hb1.synced.fib
  have hid : ∀ u, (Router.sync c { s with nbr := Nbr.step c.nbr s.nbr op }).fib.adjs.faceIdOf u =
      (Nbr.step c.nbr s.nbr op).adjs.faceIdOf u := AdjacencyList.faceIdOf_face hsy
  have h1 : Tracks c.fib n F' b' (Router.sync c { s with nbr := Nbr.step c.nbr s.nbr op }).fib := by
    refine h.move hb1.sync.fib.inv ?_ (AdjacencyList.differ_face hsy hd)
      (syncFaces_adjs c.fib (Nbr.step c.nbr s.nbr op).adjs s.fib).2
      (syncFaces_same c.fib (Nbr.step c.nbr s.nbr op).adjs s.fib).1
      (syncFaces_same c.fib (Nbr.step c.nbr s.nbr op).adjs s.fib).2 hb' hr hk ?_ ?_
    · exact AdjacencyList.map_names_of_place (syncFaces_place c.fib _ s.fib)
    · intro u h0 hD; rw [hid]; exact hst u h0 hD
    · intro hF
      refine ⟨(hf hF).1, fun x hx => ?_⟩
      rw [hid]
      exact (hf hF).2 x hx
  obtain ⟨o, ho1, ho2⟩ := Nbr.step_registers c.nbr s.nbr op
  rw [ho1, List.drop_left]
  have hnot : ∀ x ∈ o, ∀ m u k, x = NOut.register m u k → m ≠ n := by
    intro x hx m u k he hm
    subst he
    subst hm
    rcases ho2 m u k hx with h2 | h2
    · have h3 := h.other
      rw [isNeighbor_false] at h3
      rw [← AdjacencyList.map_names_of_place hb.place] at h2
      obtain ⟨a, ha, han⟩ := List.mem_map.1 h2
      exact h3 a ha han
    · exact hl h2.symm
  generalize Router.sync c { s with nbr := Nbr.step c.nbr s.nbr op } = s1 at h1
  revert hnot h1
  clear ho1 ho2
  induction o generalizing s1 with
  | nil => intro _ h1; exact h1
  | cons x xs ih =>
    intro hnot h1
    exact ih _ (fun y hy => hnot y (List.mem_cons_of_mem _ hy)) (apply_tracks h1 hs x (hnot x List.mem_cons_self))

/-- A step that leaves the faces as they are. -/
theorem nbrStep_same {s : Router} (ha : All c s) (h : Tracks c.fib n F b s.fib) (hl : c.lsdb.names.lsaPrefix ≠ n)
    (hs : c.syncPrefix ≠ n) (op : Nbr.Op) (he : (Nbr.step c.nbr s.nbr op).adjs = s.nbr.adjs) :
    Tracks c.fib n F b (Router.nbrStep c s op).fib := by
  have hid : ∀ u, (Nbr.step c.nbr s.nbr op).adjs.faceIdOf u = s.fib.adjs.faceIdOf u := by
    intro u; rw [he]; exact (AdjacencyList.faceIdOf_face ha.synced.fib u).symm
  refine nbrStep_tracks ha.base h hl hs op h.len (D := fun _ => False) ?_ (fun _ _ _ hx => ⟨nofun, hx⟩) (fun _ _ _ hx => hx)
    (fun u _ _ => hid u) (fun hF => ⟨hF, fun x _ _ => ⟨nofun, (hid x.uri).symm⟩⟩)
  rw [he]
  exact AdjacencyList.differ_face ha.synced.fib.symm h.differ

theorem coreStep_tracks {s : Router} (ha : All c s) (h : Tracks c.fib n F b s.fib) (hl : c.lsdb.names.lsaPrefix ≠ n)
    (hs : c.syncPrefix ≠ n) (op : Core.Op) (ho : outsideCore op = true) : Tracks c.fib n F b (Router.coreStep c s op).fib := by
  rw [coreStep_told]
  have h1 : Tracks c.fib n F b (told c s op).fib := by
    unfold told
    dsimp only
    have : ∀ (l : List FibCmd) (s : Router), Tracks c.fib n F b s.fib → Tracks c.fib n F b (l.foldl (fibCmd c) s).fib := by
      intro l
      induction l with
      | nil => intro s h; exact h
      | cons x xs ih =>
        intro s h
        refine ih _ ?_
        cases x with
        | update m l fl => exact h.step (.update m l fl) trivial
        | remove m => exact h.step (.remove m) trivial
        | updateBad m => exact h
    exact this _ _ h
  have h2 := ha.told op ho
  generalize told c s op = s1 at h1 h2
  generalize newOrigins _ = l
  induction l generalizing s1 with
  | nil => exact h1
  | cons r rs ih =>
    refine ih _ (nbrStep_same h2 h1 hl hs (.newLsa r) ?_) (h2.base.nbrStep _)
    unfold Nbr.step
    split
    · rfl
    · show (Nbr.newLsa s1.nbr r).adjs = _
      unfold Nbr.newLsa
      split <;> rfl

theorem applies_nbr (c : RConf) : ∀ (l : List NOut) (s : Router), (l.foldl (Router.apply c) s).nbr = s.nbr := by
  intro l
  induction l with
  | nil => intro s; rfl
  | cons o os ih => intro s; exact (ih _).trans (apply_same c s o).1

theorem nbrStep_nbr (c : RConf) (s : Router) (op : Nbr.Op) : (Router.nbrStep c s op).nbr = Nbr.step c.nbr s.nbr op := by
  unfold Router.nbrStep
  dsimp only
  exact applies_nbr c _ _

theorem coreStep_adjs (c : RConf) (s : Router) (op : Core.Op) : (Router.coreStep c s op).nbr.adjs = s.nbr.adjs := by
  rw [coreStep_told]
  have h := congrArg Nbr.adjs (told_same c s op).1
  generalize told c s op = s1 at h
  generalize newOrigins _ = l
  induction l generalizing s1 with
  | nil => exact h
  | cons r rs ih =>
    refine ih _ ?_
    rw [nbrStep_nbr]
    unfold Nbr.step
    split
    · exact h
    · show (Nbr.newLsa s1.nbr r).adjs = _
      unfold Nbr.newLsa
      split <;> exact h

theorem step_names {c : RConf} {s : Router} (_ : All c s) (op : Op) :
    (Router.step c s op).nbr.adjs.map (fun x : Adjacent => x.name) = s.nbr.adjs.map (fun x : Adjacent => x.name) := by
  have hn : ∀ s op, (Router.nbrStep c s op).nbr.adjs.map (fun x : Adjacent => x.name) = s.nbr.adjs.map (fun x : Adjacent => x.name) := by
    intro s op
    rw [nbrStep_nbr]
    exact AdjacencyList.map_names_of_place (Nbr.step_place c.nbr s.nbr op)
  unfold Router.step
  split
  · rfl
  · cases op with
    | nbr op =>
      show ((if outsideNbr op then Router.nbrStep c s op else s).nbr.adjs).map _ = _
      split
      · exact hn s op
      · rfl
    | core op =>
      show ((if outsideCore op then Router.coreStep c s op else s).nbr.adjs).map _ = _
      split
      · rw [coreStep_adjs]
      · rfl
    | regOk i =>
      show ((Router.regOk c s i).nbr.adjs).map _ = _
      unfold Router.regOk
      split
      · rfl
      · exact (hn _ _).trans (hn _ _)
    | clock dt sys =>
      show ((Nbr.step c.nbr s.nbr (.clock dt)).adjs).map _ = _
      unfold Nbr.step; split <;> rfl
    | _ => rfl

end Router

/-- A router and the routes NFD has on its behalf. -/
structure World where
  r   : Router
  rib : Rib

namespace World

/-- NFD drops the routes on a face that is gone. -/
def forget : Router.Op → Rib → Rib
  | .nbr (.faceDown f), R => fun n g => if g = f then none else R n g
  | _, R => R

/-- A step of the router; NFD carries out the commands it sends.  Nothing is said of the time after the daemon has
ended. -/
def step (c : RConf) (w : World) (op : Router.Op) : World :=
  if w.r.ended then w
  else ⟨Router.step c w.r op, ribAt (forget op w.rib, w.r.fib.log.length) (Router.step c w.r op).fib.log⟩

def init (c : RConf) (disk : Option Seqs) (adjs : AdjacencyList) (npl : List PrefixInfo) (sys : Int) : World :=
  ⟨Router.init c disk adjs npl sys, nfdRoutes (Router.init c disk adjs npl sys).fib.log⟩

/-- What a run has come to in which every step is as `P` says. -/
inductive Via (c : RConf) (P : World → Router.Op → Prop) : World → Prop
  | init (disk adjs npl sys) (hf : Nbr.Fresh adjs) : Via c P (World.init c disk adjs npl sys)
  | step {w op} (h : Via c P w) (hp : P w op) : Via c P (World.step c w op)

theorem Via.reachable {c : RConf} {P : World → Router.Op → Prop} {w : World} (h : Via c P w) : Router.Reachable c w.r := by
  induction h with
  | init disk adjs npl sys hf => exact ⟨disk, adjs, npl, sys, [], hf, rfl⟩
  | step h hp ih =>
    unfold World.step
    split
    · exact ih
    · exact ih.step _

/-- NFD accepts every registration and answers it while the face is there; a neighbour is given a face only when it has
none; different neighbours have different faces. -/
structure Orderly (c : RConf) (w : World) (op : Router.Op) : Prop where
  accepts : ∀ i, op ≠ .regFail i
  answers : ∀ i r, op = .regOk i → w.r.fib.regs[i]? = some r → 0 < w.r.nbr.adjs.faceIdOf r.uri →
    w.r.nbr.adjs.faceIdOf r.uri = r.fid
  raised : ∀ u f, op = .nbr (.faceUp u f) → 0 < w.r.nbr.adjs.faceIdOf u → w.r.nbr.adjs.faceIdOf u = f
  differ : FacesDiffer (World.step c w op).r.nbr.adjs

/-- No neighbour that the FIB lists for `n` gets a face back. -/
def Settled (c : RConf) (n : Name) (w : World) (op : Router.Op) : Prop :=
  ∀ u ∈ w.r.fib.faces n, w.r.nbr.adjs.faceIdOf u = 0 → (World.step c w op).r.nbr.adjs.faceIdOf u = 0

/-- A name that the router itself registers for nobody. -/
structure Ordinary (c : RConf) (w : World) (n : Name) : Prop where
  nbr : ∀ a ∈ w.r.nbr.adjs, a.name ≠ n
  lsa : c.lsdb.names.lsaPrefix ≠ n
  sync : c.syncPrefix ≠ n

/-- NFD's routes for `n` are those of the FIB. -/
def Kept (c : RConf) (n : Name) (F : Prop) (w : World) : Prop :=
  Fib.Tracks c.fib n F (w.rib, w.r.fib.log.length) w.r.fib

theorem kept_of {c : RConf} {n : Name} {F : Prop} {R : Rib} {k : Nat} {r : Router}
    (h : Fib.Tracks c.fib n F (R, k) r.fib) : Kept c n F ⟨r, ribAt (R, k) r.fib.log⟩ := h.rebase

theorem forget_same {op : Router.Op} (h : ∀ f, op ≠ .nbr (.faceDown f)) (R : Rib) : forget op R = R := by
  unfold forget
  split
  · exact absurd rfl (h _)
  · rfl

theorem Kept.step {c : RConf} {n : Name} {F F' : Prop} {w : World} (ha : Router.All c w.r) (h : Kept c n F w)
    (ho : Ordinary c w n) {op : Router.Op} (hp : Orderly c w op)
    (hf : F' → F ∧ Settled c n w op) : Kept c n F' (World.step c w op) := by
  have hdiff := hp.differ
  have hset : F' → ∀ u ∈ w.r.fib.faces n, w.r.nbr.adjs.faceIdOf u = 0 → (World.step c w op).r.nbr.adjs.faceIdOf u = 0 :=
    fun hF => (hf hF).2
  unfold World.step at hdiff hset ⊢
  by_cases he : w.r.ended = true
  · rw [if_pos he]; exact Fib.Tracks.weaken h (fun x => (hf x).1)
  rw [if_neg he] at hdiff hset ⊢
  have hdead : w.r.nbr.dead = false := by
    unfold Router.ended at he
    cases hd : w.r.nbr.dead with
    | false => rfl
    | true => rw [hd] at he; simp at he
  have hw : Fib.Tracks c.fib n F' (w.rib, w.r.fib.log.length) w.r.fib := Fib.Tracks.weaken h (fun x => (hf x).1)
  have hid := AdjacencyList.faceIdOf_face ha.synced.fib
  have hfaces : ∀ x ∈ Fib.hopsAt w.r.fib n, x.uri ∈ w.r.fib.faces n := by
    intro x hx
    unfold Fib.faces
    rw [recorded_eq h.inv]
    exact List.mem_map.2 ⟨x, hx, rfl⟩
  refine kept_of ?_
  have hstep : Router.step c w.r op = Router.stepOp c w.r op := by unfold Router.step; rw [if_neg he]
  rw [hstep] at hdiff hset ⊢
  dsimp only at hdiff hset
  cases op with
  | nbr op =>
    by_cases hout : Router.outsideNbr op = true
    · have e1 : Router.stepOp c w.r (.nbr op) = Router.nbrStep c w.r op := if_pos hout
      rw [e1] at hdiff hset ⊢
      have hnb := Router.nbrStep_nbr c w.r op
      rw [hnb] at hdiff hset
      refine Router.nbrStep_tracks ha.base h ho.lsa ho.sync op (Nat.le_refl _) (D := fun f => op = .faceDown f) hdiff ?_ ?_ ?_ ?_
      · intro f r h0 hx
        rw [ribAt_here] at hx ⊢
        by_cases hop : ∃ g, op = .faceDown g
        · obtain ⟨g, rfl⟩ := hop
          unfold forget at hx
          dsimp only at hx
          split at hx
          · cases hx
          · rename_i hne
            exact ⟨fun hc => hne (by injection hc with hc; exact hc.symm), hx⟩
        · rw [forget_same (fun f hc => hop ⟨f, by injection hc⟩)] at hx
          exact ⟨fun hc => hop ⟨_, hc⟩, hx⟩
      · intro f h0 hD hx
        rw [ribAt_here] at hx ⊢
        by_cases hop : ∃ g, op = .faceDown g
        · obtain ⟨g, rfl⟩ := hop
          unfold forget
          dsimp only
          rw [if_neg (fun hc => hD (by rw [hc]))]
          exact hx
        · rw [forget_same (fun f hc => hop ⟨f, by injection hc⟩)]
          exact hx
      · intro u h0 hD
        rw [hid] at h0 hD ⊢
        rcases Nbr.step_faceId c.nbr w.r.nbr (AdjacencyList.differ_face ha.synced.fib.symm h.differ) op u h0 with
          ⟨v, f, hv, hx⟩ | ⟨hx, _⟩ | ⟨hx, _⟩
        · rcases hx with hx | ⟨rfl, hx⟩
          · exact hx
          · rcases hv with rfl | rfl
            · rw [hx]; exact (hp.raised u f rfl h0).symm
            · cases hout
        · exact hx
        · exact absurd hx hD
      · intro hF
        refine ⟨(hf hF).1, fun x hx h0 => ?_⟩
        rw [hid]
        have hz : w.r.nbr.adjs.faceIdOf x.uri ≠ 0 := fun hc => by
          have := hset hF x.uri (hfaces x hx) hc; omega
        rcases Nbr.step_faceId c.nbr w.r.nbr (AdjacencyList.differ_face ha.synced.fib.symm h.differ) op x.uri (by omega) with
          ⟨v, f, hv, hy⟩ | ⟨hy, hy2⟩ | ⟨hy, hy2⟩
        · have hs : (Nbr.step c.nbr w.r.nbr op).adjs.faceIdOf x.uri = w.r.nbr.adjs.faceIdOf x.uri := by
            rcases hy with hy | ⟨rfl, hy⟩
            · exact hy
            · rcases hv with rfl | rfl
              · rw [hy]; exact (hp.raised x.uri f rfl (by omega)).symm
              · cases hout
          exact ⟨fun hc => (by rcases hv with rfl | rfl <;> cases hc), hs.symm⟩
        · exact ⟨by rw [hy]; exact hy2, hy.symm⟩
        · have := hy2 hdead; omega
    · have e1 : Router.stepOp c w.r (.nbr op) = w.r := if_neg hout
      rw [e1]
      rw [forget_same (by intro f hc; injection hc with hc; subst hc; exact hout rfl)]
      exact hw
  | core op =>
    rw [forget_same (by intro f hc; cases hc)]
    by_cases hout : Router.outsideCore op = true
    · have e1 : Router.stepOp c w.r (.core op) = Router.coreStep c w.r op := if_pos hout
      rw [e1]
      exact Router.coreStep_tracks ha hw ho.lsa ho.sync op hout
    · have e1 : Router.stepOp c w.r (.core op) = w.r := if_neg hout
      rw [e1]; exact hw
  | regOk i =>
    rw [forget_same (by intro f hc; cases hc)]
    show Fib.Tracks _ _ _ _ (Router.regOk c w.r i).fib
    have e0 : Router.stepOp c w.r (.regOk i) = Router.regOk c w.r i := rfl
    rw [e0] at hdiff hset
    unfold Router.regOk at hdiff hset ⊢
    cases hr : w.r.fib.regs[i]? with
    | none => exact hw
    | some r =>
      rw [hr] at hdiff hset
      dsimp only at hdiff hset ⊢
      have hb1 : Router.Base c { w.r with fib := Fib.step c.fib w.r.fib (.regOk i) } := ha.base.fibStep rfl
      have ha1 := hb1.nbrStep (.regFace r.uri r.fid)
      have hreg : ∀ s : Router, (Nbr.step c.nbr s.nbr (.registered r.name)).adjs = s.nbr.adjs := by
        intro s
        unfold Nbr.step
        split
        · rfl
        · exact (Nbr.sendHello_quiet c.nbr s.nbr r.name).adjs
      rw [Router.nbrStep_nbr, hreg, Router.nbrStep_nbr] at hdiff hset
      have hnx : (Nbr.step c.nbr w.r.nbr (.regFace r.uri r.fid)).adjs = w.r.nbr.adjs.setFaceOf r.uri r.fid := by
        unfold Nbr.step; rw [if_neg (by rw [hdead]; nofun)]; rfl
      have hfx : Fib.step c.fib w.r.fib (.regOk i) =
          { w.r.fib with regs := w.r.fib.regs.eraseIdx i, adjs := w.r.fib.adjs.setFaceOf r.uri r.fid, ok := w.r.fib.ok ++ [r.name] } := by
        show Fib.regOk w.r.fib i = _
        unfold Fib.regOk; rw [hr]
      have hsync : (w.r.fib.adjs.setFaceOf r.uri r.fid).map Adjacent.face = (w.r.nbr.adjs.setFaceOf r.uri r.fid).map Adjacent.face :=
        AdjacencyList.setFaceOf_face ha.synced.fib
      have hid2 := AdjacencyList.faceIdOf_face hsync
      have hkeep : ∀ u, 0 < w.r.nbr.adjs.faceIdOf u →
          (w.r.nbr.adjs.setFaceOf r.uri r.fid).faceIdOf u = w.r.nbr.adjs.faceIdOf u := by
        intro u h0
        rcases AdjacencyList.faceIdOf_setFaceOf w.r.nbr.adjs r.uri u r.fid with hx | ⟨rfl, hx⟩
        · exact hx
        · rw [hx]; exact (hp.answers i r rfl hr h0).symm
      have h1 : Fib.Tracks c.fib n F' (w.rib, w.r.fib.log.length) (Fib.step c.fib w.r.fib (.regOk i)) := by
        refine Fib.Tracks.move h (Fib.step_inv (c := c.fib) h.inv (.regOk i)) (by rw [hfx]; exact AdjacencyList.setFaceOf_map (fun x : Adjacent => x.name) _ _ _ (fun _ => rfl)) ?_
          (by rw [hfx]) (by rw [hfx]) (by rw [hfx]) (Nat.le_refl _) (D := fun _ => False)
          (fun _ _ _ hx => ⟨nofun, hx⟩) (fun _ _ _ hx => hx) ?_ ?_
        · rw [hfx]
          rw [hnx] at hdiff
          exact AdjacencyList.differ_face hsync hdiff
        · intro u h0 _
          rw [hfx]
          dsimp only
          rw [hid] at h0
          rw [hid2, hid, hkeep u h0]
        · intro hF
          refine ⟨(hf hF).1, fun x hx h0 => ⟨nofun, ?_⟩⟩
          rw [hfx] at h0 ⊢
          dsimp only at h0 ⊢
          rw [hid2] at h0 ⊢
          rw [hid]
          have hz : w.r.nbr.adjs.faceIdOf x.uri ≠ 0 := fun hc => by
            have := hset hF x.uri (hfaces x hx) hc; rw [hnx] at this; omega
          exact (hkeep x.uri (by omega)).symm
      have h2 : Fib.Tracks c.fib n F' (w.rib, w.r.fib.log.length)
          (Router.nbrStep c { w.r with fib := Fib.step c.fib w.r.fib (.regOk i) } (.regFace r.uri r.fid)).fib := by
        have hid3 : ∀ u, (Nbr.step c.nbr w.r.nbr (.regFace r.uri r.fid)).adjs.faceIdOf u =
            (Fib.step c.fib w.r.fib (.regOk i)).adjs.faceIdOf u := by
          intro u; rw [hnx, hfx]; exact (hid2 u).symm
        exact Router.nbrStep_tracks hb1 h1 ho.lsa ho.sync (.regFace r.uri r.fid) (Nat.le_of_eq (by rw [hfx])) (D := fun _ => False) hdiff
          (fun _ _ _ hx => ⟨nofun, hx⟩) (fun _ _ _ hx => hx) (fun u _ _ => hid3 u)
          (fun hF => ⟨hF, fun x _ _ => ⟨nofun, (hid3 x.uri).symm⟩⟩)
      exact Router.nbrStep_same ha1 h2 ho.lsa ho.sync (.registered r.name) (hreg _)
  | regFail i => exact absurd rfl (hp.accepts i)
  | stratOk i => rw [forget_same (by intro f hc; cases hc)]; exact hw.step (.stratOk i) trivial
  | stratFail i => rw [forget_same (by intro f hc; cases hc)]; exact hw.step (.stratFail i) trivial
  | refresh m => rw [forget_same (by intro f hc; cases hc)]; exact hw.step (.refresh m) trivial
  | clock dt sys => rw [forget_same (by intro f hc; cases hc)]; exact hw.step (.clock dt) trivial

theorem names_step {c : RConf} {w : World} (ha : Router.All c w.r) (op : Router.Op) :
    (World.step c w op).r.nbr.adjs.map (fun x : Adjacent => x.name) = w.r.nbr.adjs.map (fun x : Adjacent => x.name) := by
  unfold World.step
  split
  · rfl
  · exact Router.step_names ha op

theorem Ordinary.back {c : RConf} {w : World} {n : Name} (ha : Router.All c w.r) {op : Router.Op}
    (h : Ordinary c (World.step c w op) n) : Ordinary c w n := by
  refine ⟨fun a hm he => ?_, h.lsa, h.sync⟩
  have : a.name ∈ (World.step c w op).r.nbr.adjs.map (fun x : Adjacent => x.name) := by
    rw [names_step ha]; exact List.mem_map.2 ⟨a, hm, rfl⟩
  obtain ⟨x, hx, hxe⟩ := List.mem_map.1 this
  exact h.nbr x hx (hxe.trans he)

theorem Kept.init {c : RConf} {n : Name} (disk : Option Seqs) {adjs : AdjacencyList} (npl : List PrefixInfo) (sys : Int)
    (hf : Nbr.Fresh adjs) (ho : Ordinary c (World.init c disk adjs npl sys) n) : Kept c n True (World.init c disk adjs npl sys) := by
  have ha : Router.All c (Router.init c disk adjs npl sys) := Router.All.init c disk npl sys hf
  have hnb : (Router.init c disk adjs npl sys).nbr = Nbr.init c.nbr adjs := by
    unfold Router.init
    dsimp only
    exact Router.applies_nbr c _ _
  have hother : (Router.init c disk adjs npl sys).fib.adjs.isNeighbor n = false := by
    rw [AdjacencyList.isNeighbor_congr (AdjacencyList.map_names_of_place ha.base.place), isNeighbor_false]
    exact ho.nbr
  have hz : ∀ a ∈ (Nbr.init c.nbr adjs).adjs, a.faceId = 0 := by
    intro a ha
    unfold Nbr.init at ha
    dsimp only at ha
    split at ha
    · obtain ⟨x, hx, rfl⟩ := List.mem_map.1 ha
      exact (hf.down x hx).2.2
    · exact (hf.down a ha).2.2
  have hd : FacesDiffer (Router.init c disk adjs npl sys).fib.adjs := by
    refine AdjacencyList.differ_face ha.synced.fib ?_
    rw [hnb]
    intro a h1 b _ h0
    have := hz a h1
    omega
  have hfib : ∃ l, (∀ x ∈ l, ∃ r m st, x = NfdCmd.strategy r m st) ∧ (Router.init c disk adjs npl sys).fib.log = l ∧
      (Router.init c disk adjs npl sys).fib.table = [] := by
    unfold Router.init
    dsimp only
    have h1 := Router.syncFaces_same c.fib (Nbr.init c.nbr adjs).adjs { adjs := adjs }
    have h2 := Router.syncFaces_adjs c.fib (Nbr.init c.nbr adjs).adjs { adjs := adjs }
    refine ⟨_, ?_, rfl, ?_⟩
    · show ∀ x ∈ ((Router.syncFaces c.fib (Nbr.init c.nbr adjs).adjs { adjs := adjs }).log ++ [_]) ++ [_], _
      rw [h1.1]
      intro x hx
      rcases List.mem_append.1 hx with hx | hx
      · rcases List.mem_append.1 hx with hx | hx
        · cases hx
        · rw [List.mem_singleton] at hx; exact ⟨_, _, _, hx⟩
      · rw [List.mem_singleton] at hx; exact ⟨_, _, _, hx⟩
    · show (Router.syncFaces c.fib (Nbr.init c.nbr adjs).adjs { adjs := adjs }).table = []
      exact h2.2
  obtain ⟨l, h1, h2, h3⟩ := hfib
  have hR : nfdRoutes (Router.init c disk adjs npl sys).fib.log = fun _ _ => none := by
    rw [h2]
    unfold nfdRoutes
    clear h2
    induction l with
    | nil => rfl
    | cons x xs ih =>
      obtain ⟨r, m, st, rfl⟩ := h1 x List.mem_cons_self
      exact ih (fun y hy => h1 y (List.mem_cons_of_mem _ hy))
  have hfind : (Router.init c disk adjs npl sys).fib.find n = none := by unfold Fib.find; rw [h3]; rfl
  have hhops : Fib.hopsAt (Router.init c disk adjs npl sys).fib n = [] := by unfold Fib.hopsAt; rw [hfind]
  show Fib.Tracks c.fib n True (nfdRoutes _, _) _
  rw [hR]
  refine ⟨Nat.le_refl _, ha.base.fib.inv, hother, hd, ?_, ?_, ?_⟩
  · intro f _ hx
    rw [ribAt_here] at hx
    cases hx
  · intro _ f _ hx
    change ∃ h ∈ Fib.hopsAt (Router.init c disk adjs npl sys).fib n, _ at hx
    rw [hhops] at hx
    obtain ⟨_, hc, _⟩ := hx
    cases hc
  · intro e d fl hc
    change (Router.init c disk adjs npl sys).fib.find n = some e at hc
    rw [hfind] at hc; cases hc

theorem Via.kept {c : RConf} {n : Name} {w : World} (h : Via c (Orderly c) w) (ho : Ordinary c w n) : Kept c n False w := by
  induction h with
  | init disk adjs npl sys hf => exact Fib.Tracks.weaken (Kept.init disk npl sys hf ho) (fun x => x.elim)
  | step h hp ih => exact (ih (ho.back h.reachable.all)).step h.reachable.all (ho.back h.reachable.all) hp (fun x => x.elim)

theorem Via.kept_full {c : RConf} {n : Name} {w : World} (h : Via c (fun w op => Orderly c w op ∧ Settled c n w op) w)
    (ho : Ordinary c w n) : Kept c n True w := by
  induction h with
  | init disk adjs npl sys hf => exact Kept.init disk npl sys hf ho
  | step h hp ih =>
    exact (ih (ho.back h.reachable.all)).step h.reachable.all (ho.back h.reachable.all) hp.1 (fun _ => ⟨trivial, hp.2⟩)

end World
end Nlsr
