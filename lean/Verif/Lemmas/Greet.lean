import Verif.Lemmas.World
import Verif.Lemmas.Net
import Verif.Lemmas.NptWithin
import Verif.Lemmas.NbrTime
/- The routes NLSR needs for itself: neighbours' names, the LSA prefix, the sync prefix. -/
namespace Nlsr

namespace AdjacencyList

theorem mem_modify {l : AdjacencyList} (hn : (l.map (·.name)).Nodup) {n : Name} {f : Adjacent → Adjacent} {b : Adjacent}
    (h : b ∈ modify l n f) : ∃ a ∈ l, (a.name = n ∧ b = f a) ∨ (a.name ≠ n ∧ b = a) := by
  rw [modify_eq_map hn] at h
  obtain ⟨a, ha, rfl⟩ := List.mem_map.1 h
  by_cases hx : a.name = n
  · rw [if_pos hx]; exact ⟨a, ha, .inl ⟨hx, rfl⟩⟩
  · rw [if_neg hx]; exact ⟨a, ha, .inr ⟨hx, rfl⟩⟩

theorem uri_inj {A : AdjacencyList} (h : (A.map (·.uri)).Nodup) {a b : Adjacent} (ha : a ∈ A) (hb : b ∈ A) (he : a.uri = b.uri) :
    a = b := by
  induction A with
  | nil => cases ha
  | cons x xs ih =>
    rw [List.map_cons, List.nodup_cons] at h
    rcases List.mem_cons.1 ha with rfl | ha'
    · rcases List.mem_cons.1 hb with rfl | hb'
      · rfl
      · exact absurd (List.mem_map.2 ⟨b, hb', he.symm⟩) h.1
    · rcases List.mem_cons.1 hb with rfl | hb'
      · exact absurd (List.mem_map.2 ⟨a, ha', he⟩) h.1
      · exact ih h.2 ha' hb'

theorem faceIdOf_mem : ∀ {A : AdjacencyList}, (A.map (·.uri)).Nodup → ∀ a ∈ A, faceIdOf A a.uri = a.faceId := by
  intro A
  induction A with
  | nil => intro _ a ha; cases ha
  | cons x xs ih =>
    intro hn a ha
    rw [List.map_cons, List.nodup_cons] at hn
    rw [faceIdOf_cons]
    rcases List.mem_cons.1 ha with rfl | hm
    · rw [if_pos rfl]
    · rw [if_neg (fun hc => hn.1 (List.mem_map.2 ⟨a, hm, hc.symm⟩))]
      exact ih hn.2 a hm

end AdjacencyList

namespace Nbr
open AdjacencyList

/-- How a neighbour `a'` came about from the neighbour `a` it was before a step that put out `o`. -/
structure Came (c : NConf) (o : List NOut) (a a' : Adjacent) : Prop where
  ident : a'.ident = a.ident
  face : a'.faceId = a.faceId ∨ a'.faceId = 0 ∨
    (NOut.register a'.name a'.uri a'.linkCost ∈ o ∧ NOut.register c.lsaPrefix a'.uri a'.linkCost ∈ o)
  status : a'.status = .active → a.status = .active ∨ NOut.initial a'.name ∈ o

theorem Came.refl (c : NConf) (o : List NOut) (a : Adjacent) : Came c o a a := ⟨rfl, .inl rfl, .inl⟩

theorem ident_parts {a b : Adjacent} (h : a.ident = b.ident) : a.name = b.name ∧ a.uri = b.uri ∧ a.cost = b.cost := by
  unfold Adjacent.ident at h
  injection h with h1 h2
  injection h2 with h2 h3
  exact ⟨h1, h2, h3⟩

theorem linkCost_ident {a b : Adjacent} (h : a.ident = b.ident) : a.linkCost = b.linkCost := by
  unfold Adjacent.linkCost; rw [(ident_parts h).2.2]

theorem setFaceOf_self {u : Uri} {f : Nat} : ∀ {l : AdjacencyList}, faceIdOf l u = f → setFaceOf l u f = l := by
  intro l
  induction l with
  | nil => intro _; rfl
  | cons a as ih =>
    intro h
    rw [faceIdOf_cons] at h
    unfold setFaceOf
    by_cases hu : a.uri = u
    · rw [if_pos hu] at h
      rw [if_pos (by simpa using hu), ← h]
    · rw [if_neg hu] at h
      rw [if_neg (by simpa using hu), ih h]

theorem step_came (c : NConf) (s : Nbr) (hn : (s.adjs.map (·.name)).Nodup) (op : Op) (hop : ∀ u f, op = .regFace u f → faceIdOf s.adjs u = f) :
    ∃ o, (step c s op).out = s.out ++ o ∧
      (∀ a' ∈ (step c s op).adjs, ∃ a ∈ s.adjs, Came c o a a') ∧
      ∀ m u k, NOut.register m u k ∈ o → ∃ a ∈ (step c s op).adjs, a.uri = u ∧ a.linkCost = k ∧ (m = a.name ∨ m = c.lsaPrefix) := by
  have hi := step_is c s op
  generalize step c s op = s' at hi
  have hr : ∀ m u k, NOut.register m u k ≠ (if c.hyp = .on then .calc else .build) := by
    intro m u k; split <;> nofun
  cases hi with
  | quiet h =>
    obtain ⟨o, h1, h2⟩ := h.out
    exact ⟨o, h1, fun a ha => ⟨a, by rw [← h.adjs]; exact ha, .refl ..⟩, fun m u k hm => by have := h2 _ hm; cases this⟩
  | lost s0 name h0 =>
    have hn0 : (s0.adjs.map (·.name)).Nodup := by rw [h0.1]; exact hn
    unfold lost
    dsimp only
    have hinc : ∀ (o : List NOut) (n : Name), ∀ a' ∈ incTimedOut s0.adjs n, ∃ a ∈ s.adjs, Came c o a a' := by
      intro o n a' ha'
      obtain ⟨a, ha, h⟩ := mem_modify hn0 ha'
      refine ⟨a, by rw [← h0.1]; exact ha, ?_⟩
      rcases h with ⟨_, rfl⟩ | ⟨_, rfl⟩
      · exact ⟨rfl, .inl rfl, .inl⟩
      · exact .refl ..
    split
    · exact ⟨[], by rw [List.append_nil]; exact h0.2.2, fun a ha => ⟨a, by rw [← h0.1]; exact ha, .refl ..⟩, fun _ _ _ h => by cases h⟩
    · split
      · exact ⟨[.interest _], by show s0.out ++ _ = _; rw [h0.2.2], hinc _ _, fun _ _ _ h => by simp at h⟩
      · split
        · refine ⟨[if c.hyp = .on then .calc else .build], by show s0.out ++ _ = _; rw [h0.2.2], fun a' ha' => ?_, fun m u k h => ?_⟩
          · obtain ⟨b, hb, h⟩ := mem_modify (f := fun a => { a with status := .inactive })
              (by rw [show incTimedOut s0.adjs _ = modify s0.adjs _ _ from rfl,
                    modify_map (·.name) s0.adjs _ (fun a => { a with timedOut := a.timedOut + 1 }) (fun _ => rfl)]; exact hn0) ha'
            obtain ⟨a, ha, hc⟩ := hinc [if c.hyp = .on then .calc else .build] _ b hb
            refine ⟨a, ha, ?_⟩
            rcases h with ⟨_, rfl⟩ | ⟨_, rfl⟩
            · exact ⟨hc.ident, hc.face, fun h => by cases h⟩
            · exact hc
          · rw [List.mem_singleton] at h
            exact absurd h (hr m u k)
        · exact ⟨[], by rw [List.append_nil]; exact h0.2.2, hinc _ _, fun _ _ _ h => by cases h⟩
  | valid s0 d h0 =>
    have hn0 : (s0.adjs.map (·.name)).Nodup := by rw [h0.1]; exact hn
    unfold validated
    dsimp only
    split
    · generalize Name.getPrefix d (-4) = n
      have hmem : ∀ a' ∈ setTimedOut (setStatus s0.adjs n .active) n 0, ∃ a ∈ s0.adjs,
          (a.name = n ∧ a' = { a with status := .active, timedOut := 0 }) ∨ (a.name ≠ n ∧ a' = a) := by
        intro a' ha'
        have e : setTimedOut (setStatus s0.adjs n .active) n 0 = modify s0.adjs n (fun a => { a with status := .active, timedOut := 0 }) :=
          modify_modify _ _ _ _ (fun _ => rfl)
        rw [e] at ha'
        exact mem_modify hn0 ha'
      split
      · refine ⟨[if c.hyp = .on then .calc else .build, .initial n], by show (s0.out ++ [_]) ++ [_] = _; rw [h0.2.2, List.append_assoc]; rfl, fun a' ha' => ?_, fun m u k h => ?_⟩
        · obtain ⟨a, ha, h⟩ := hmem a' ha'
          refine ⟨a, by rw [← h0.1]; exact ha, ?_⟩
          rcases h with ⟨hna, rfl⟩ | ⟨_, rfl⟩
          · exact ⟨rfl, .inl rfl, fun _ => .inr (by rw [show ({ a with status := .active, timedOut := 0 } : Adjacent).name = n from hna]; simp)⟩
          · exact .refl ..
        · rcases List.mem_cons.1 h with h | h
          · exact absurd h (hr m u k)
          · simp at h
      · rename_i hst
        refine ⟨[], by rw [List.append_nil]; exact h0.2.2, fun a' ha' => ?_, fun _ _ _ h => by cases h⟩
        obtain ⟨a, ha, h⟩ := hmem a' ha'
        refine ⟨a, by rw [← h0.1]; exact ha, ?_⟩
        rcases h with ⟨hna, rfl⟩ | ⟨_, rfl⟩
        · refine ⟨rfl, .inl rfl, fun _ => .inl ?_⟩
          have h1 := Decidable.not_not.1 hst
          have h2 : find s0.adjs n = some a := by rw [← hna]; exact mem_find hn0 ha
          unfold getStatus at h1
          rw [h2] at h1
          have e : setTimedOut (setStatus s0.adjs n .active) n 0 = modify s0.adjs n Adjacent.up :=
            modify_modify _ _ _ _ (fun _ => rfl)
          rw [e, find_modify, if_pos rfl, h2] at h1
          exact h1
        · exact .refl ..
    · exact ⟨[], by rw [List.append_nil]; exact h0.2.2, fun a ha => ⟨a, by rw [← h0.1]; exact ha, .refl ..⟩, fun _ _ _ h => by cases h⟩
  | down fid =>
    unfold faceDown
    dsimp only
    split
    · exact ⟨[], by rw [List.append_nil], fun a ha => ⟨a, ha, .refl ..⟩, fun _ _ _ h => by cases h⟩
    · rename_i b hb
      split
      · refine ⟨[if c.hyp = .on then .calc else .build], rfl, fun a' ha' => ?_, fun m u k h => ?_⟩
        · have ha' : a' ∈ modifyFace s.adjs fid (fun a => { a with faceId := 0, status := .inactive, timedOut := c.retry }) := ha'
          rw [modifyFace_eq hn hb] at ha'
          obtain ⟨a, ha, h⟩ := mem_modify hn ha'
          refine ⟨a, ha, ?_⟩
          rcases h with ⟨_, rfl⟩ | ⟨_, rfl⟩
          · exact ⟨rfl, .inr (.inl rfl), fun h => by cases h⟩
          · exact .refl ..
        · rw [List.mem_singleton] at h
          exact absurd h (hr m u k)
      · refine ⟨[], by rw [List.append_nil], fun a' ha' => ?_, fun _ _ _ h => by cases h⟩
        have ha' : a' ∈ modifyFace s.adjs fid (fun a => { a with faceId := 0 }) := ha'
        rw [modifyFace_eq hn hb] at ha'
        obtain ⟨a, ha, h⟩ := mem_modify hn ha'
        refine ⟨a, ha, ?_⟩
        rcases h with ⟨_, rfl⟩ | ⟨_, rfl⟩
        · exact ⟨rfl, .inr (.inl rfl), .inl⟩
        · exact .refl ..
  | up uri fid =>
    unfold faceUp
    dsimp only
    cases hf : findUri s.adjs uri with
    | none => exact ⟨[], by rw [List.append_nil], fun a ha => ⟨a, ha, .refl ..⟩, fun _ _ _ h => by cases h⟩
    | some b =>
      dsimp only
      have hmem : b ∈ s.adjs := by unfold findUri at hf; exact List.mem_of_find?_eq_some hf
      split
      · refine ⟨[.register b.name b.uri b.linkCost, .register c.lsaPrefix b.uri b.linkCost], ?_, fun a' ha' => ?_, fun m u k h => ?_⟩
        · show (s.out ++ [_]) ++ [_] = _
          rw [List.append_assoc]; rfl
        · have ha' : a' ∈ setFaceOf s.adjs uri fid := ha'
          rw [setFaceOf_eq hn hf] at ha'
          obtain ⟨a, ha, h⟩ := mem_modify hn ha'
          refine ⟨a, ha, ?_⟩
          rcases h with ⟨hna, rfl⟩ | ⟨_, rfl⟩
          · have hab : a = b := Option.some.inj ((mem_find hn ha).symm.trans ((by rw [hna]; exact mem_find hn hmem)))
            subst hab
            exact ⟨rfl, .inr (.inr ⟨List.mem_cons_self, List.mem_cons_of_mem _ List.mem_cons_self⟩), .inl⟩
          · exact .refl ..
        · show ∃ a ∈ setFaceOf s.adjs uri fid, _
          rw [setFaceOf_eq hn hf, modify_eq_map hn]
          refine ⟨Adjacent.withFace fid b, List.mem_map.2 ⟨b, hmem, by rw [if_pos rfl]⟩, ?_⟩
          rcases List.mem_cons.1 h with h | h
          · injection h with h0 h1 h2; exact ⟨h1.symm, h2.symm, .inl h0⟩
          · rw [List.mem_singleton] at h; injection h with h0 h1 h2; exact ⟨h1.symm, h2.symm, .inr h0⟩
      · exact ⟨[], by rw [List.append_nil], fun a ha => ⟨a, ha, .refl ..⟩, fun _ _ _ h => by cases h⟩
  | reg uri fid =>
    refine ⟨[], by rw [List.append_nil]; rfl, fun a ha => ⟨a, ?_, .refl ..⟩, fun _ _ _ h => by cases h⟩
    have ha : a ∈ setFaceOf s.adjs uri fid := ha
    rw [setFaceOf_self (hop uri fid rfl)] at ha
    exact ha
  | dataset i faces s0 h0 =>
    refine ⟨(useDataset c faces s.adjs).2 ++ [.nextFetch], by show (s.out ++ _) ++ [_] = _; rw [List.append_assoc], ?_, ?_⟩
    · show ∀ a' ∈ (useDataset c faces s.adjs).1, _
      have hmf : ∀ (a : Adjacent) (fs : List (Uri × Nat)), (matchFaces a fs).1.faceId = a.faceId ∨ 0 < (matchFaces a fs).2 := by
        intro a fs
        induction fs generalizing a with
        | nil => exact .inl rfl
        | cons x xs ih =>
          unfold matchFaces
          split
          · exact .inr (Nat.succ_pos _)
          · exact ih a
      have key : ∀ (l : AdjacencyList), ∀ a' ∈ (useDataset c faces l).1, ∃ a ∈ l, a'.ident = a.ident ∧ a'.status = a.status ∧
          (a'.faceId = a.faceId ∨ (NOut.register a.name a.uri a.linkCost ∈ (useDataset c faces l).2 ∧
            NOut.register c.lsaPrefix a.uri a.linkCost ∈ (useDataset c faces l).2)) := by
        intro l
        induction l with
        | nil => intro a' h; cases h
        | cons a as ih =>
          intro a' h
          unfold useDataset at h ⊢
          dsimp only at h ⊢
          rcases List.mem_cons.1 h with rfl | h
          · obtain ⟨m1, m2, m3, m4, m5⟩ := matchFaces_same a faces
            refine ⟨a, List.mem_cons_self, by unfold Adjacent.ident; rw [m1, m2, m5], m3, ?_⟩
            rcases hmf a faces with h | h
            · exact .inl h
            · have hin : ∀ y, y ∈ [NOut.register a.name a.uri a.linkCost, NOut.register c.lsaPrefix a.uri a.linkCost] →
                  y ∈ (List.replicate (matchFaces a faces).2 [NOut.register a.name a.uri a.linkCost, NOut.register c.lsaPrefix a.uri a.linkCost]).flatten :=
                fun y hy => List.mem_flatten.2 ⟨_, List.mem_replicate.2 ⟨by omega, rfl⟩, hy⟩
              exact .inr ⟨List.mem_append_left _ (hin _ List.mem_cons_self),
                List.mem_append_left _ (hin _ (List.mem_cons_of_mem _ List.mem_cons_self))⟩
          · obtain ⟨b, hb, h1, h2, h3⟩ := ih a' h
            exact ⟨b, List.mem_cons_of_mem _ hb, h1, h2, h3.imp id (fun ⟨x, y⟩ => ⟨List.mem_append_right _ x, List.mem_append_right _ y⟩)⟩
      intro a' ha'
      obtain ⟨a, ha, h1, h2, h3⟩ := key _ a' ha'
      obtain ⟨p1, p2, p3⟩ := ident_parts h1
      refine ⟨a, ha, h1, ?_, fun h => .inl (by rw [← h2]; exact h)⟩
      rcases h3 with h3 | ⟨h3, h4⟩
      · exact .inl h3
      · rw [p1, p2, linkCost_ident h1]
        exact .inr (.inr ⟨List.mem_append_left _ h3, List.mem_append_left _ h4⟩)
    · intro m u k h
      show ∃ a ∈ (useDataset c faces s.adjs).1, _
      rcases List.mem_append.1 h with h | h
      · revert h
        generalize s.adjs = l
        induction l with
        | nil => intro h; cases h
        | cons a as ih =>
          intro h
          unfold useDataset at h ⊢
          dsimp only at h ⊢
          rcases List.mem_append.1 h with h | h
          · obtain ⟨y, hy, hxy⟩ := List.mem_flatten.1 h
            rw [List.mem_replicate] at hy
            rw [hy.2] at hxy
            obtain ⟨m1, m2, m3, m4, m5⟩ := matchFaces_same a faces
            refine ⟨_, List.mem_cons_self, ?_⟩
            rw [m1, m2, show (matchFaces a faces).1.linkCost = a.linkCost by unfold Adjacent.linkCost; rw [m5]]
            rcases List.mem_cons.1 hxy with hxy | hxy
            · injection hxy with h0 h1 h2; exact ⟨h1.symm, h2.symm, .inl h0⟩
            · rw [List.mem_singleton] at hxy; injection hxy with h0 h1 h2; exact ⟨h1.symm, h2.symm, .inr h0⟩
          · obtain ⟨b, hb, h1⟩ := ih h
            exact ⟨b, List.mem_cons_of_mem _ hb, h1⟩
      · simp at h

/-- A neighbour that is up after the loss of a face was up before, and is as it was. -/
theorem down_active (c : NConf) (s : Nbr) (hn : (s.adjs.map (·.name)).Nodup) (fid : Nat) {a' : Adjacent}
    (ha' : a' ∈ (faceDown c s fid).adjs) (h : a'.status = .active) : a' ∈ s.adjs := by
  unfold faceDown at ha'
  dsimp only at ha'
  split at ha'
  · exact ha'
  · rename_i b hb
    have hbm : b ∈ s.adjs := by unfold findFace at hb; exact List.mem_of_find?_eq_some hb
    split at ha'
    · have ha' : a' ∈ modifyFace s.adjs fid (fun a => { a with faceId := 0, status := .inactive, timedOut := c.retry }) := ha'
      rw [modifyFace_eq hn hb] at ha'
      obtain ⟨a, ha, ⟨_, rfl⟩ | ⟨_, rfl⟩⟩ := mem_modify hn ha'
      · cases h
      · exact ha
    · rename_i hst
      have ha' : a' ∈ modifyFace s.adjs fid (fun a => { a with faceId := 0 }) := ha'
      rw [modifyFace_eq hn hb] at ha'
      obtain ⟨a, ha, ⟨hna, rfl⟩ | ⟨_, rfl⟩⟩ := mem_modify hn ha'
      · have hab : a = b := Option.some.inj ((mem_find hn ha).symm.trans ((by rw [hna]; exact mem_find hn hbm)))
        subst hab
        exact absurd h hst
      · exact ha

/-- Only a validated reply leads to the registration of the sync prefix. -/
theorem step_initial (c : NConf) (s : Nbr) (op : Op) {o : List NOut} (h : (step c s op).out = s.out ++ o) {n : Name}
    (hn : NOut.initial n ∈ o) : ∃ i, op = .valid i := by
  have hi := step_is c s op
  generalize step c s op = s' at hi h
  have no : ∀ {o' : List NOut}, s'.out = s.out ++ o' → NOut.initial n ∉ o' → False := fun h1 h2 =>
    h2 (by rw [h1] at h; rw [List.append_cancel_left h]; exact hn)
  have hr : NOut.initial n ≠ (if c.hyp = .on then .calc else .build) := by split <;> nofun
  cases hi with
  | quiet hq =>
    obtain ⟨o', h1, h2⟩ := hq.out
    exact (no h1 (fun hm => by have := h2 _ hm; cases this)).elim
  | lost s0 name h0 =>
    exfalso
    unfold lost at no
    dsimp only at no
    split at no
    · exact no (o' := []) (by rw [List.append_nil]; exact h0.2.2) nofun
    · split at no
      · exact no (o' := [.interest _]) (by show s0.out ++ _ = _; rw [h0.2.2]) (by simp)
      · split at no
        · exact no (o' := [if c.hyp = .on then .calc else .build]) (by show s0.out ++ _ = _; rw [h0.2.2])
            (fun hm => hr (List.mem_singleton.1 hm))
        · exact no (o' := []) (by rw [List.append_nil]; exact h0.2.2) nofun
  | @valid i s0 d h0 => exact ⟨i, rfl⟩
  | down fid =>
    exfalso
    unfold faceDown at no
    dsimp only at no
    split at no
    · exact no (o' := []) (by rw [List.append_nil]) nofun
    · split at no
      · exact no (o' := [if c.hyp = .on then .calc else .build]) rfl (fun hm => hr (List.mem_singleton.1 hm))
      · exact no (o' := []) (by rw [List.append_nil]) nofun
  | up uri fid =>
    exfalso
    unfold faceUp at no
    dsimp only at no
    split at no
    · exact no (o' := []) (by rw [List.append_nil]) nofun
    · rename_i a _
      split at no
      · refine no (o' := [.register a.name a.uri a.linkCost, .register c.lsaPrefix a.uri a.linkCost]) ?_ (by simp)
        show (s.out ++ [_]) ++ [_] = _
        rw [List.append_assoc]; rfl
      · exact no (o' := []) (by rw [List.append_nil]) nofun
  | reg uri fid => exact (no (o' := []) (by rw [List.append_nil]; rfl) nofun).elim
  | dataset i faces s0 h0 =>
    refine (no (o' := (useDataset c faces s.adjs).2 ++ [.nextFetch]) (by show (s.out ++ _) ++ [_] = _; rw [List.append_assoc]) ?_).elim
    intro hm
    rcases List.mem_append.1 hm with hm | hm
    · revert hm
      generalize s.adjs = l
      induction l with
      | nil => nofun
      | cons a as ih =>
        intro hm
        unfold useDataset at hm
        dsimp only at hm
        rcases List.mem_append.1 hm with hm | hm
        · obtain ⟨y, hy, hxy⟩ := List.mem_flatten.1 hm
          rw [List.mem_replicate] at hy
          rw [hy.2] at hxy
          simp at hxy
        · exact ih hm
    · simp at hm

/-- Only a validated reply of a neighbour makes it active. -/
theorem step_active (c : NConf) (s : Nbr) (hn : (s.adjs.map (·.name)).Nodup) (op : Op) (hop : ∀ u f, op = .regFace u f → faceIdOf s.adjs u = f)
    {a' : Adjacent} (ha' : a' ∈ (step c s op).adjs) (h : a'.status = .active) :
    (∃ a ∈ s.adjs, a.status = .active ∧ a'.ident = a.ident) ∨
    ∃ i d, op = .valid i ∧ s.validating[i]? = some d ∧ ∃ a ∈ s.adjs, a.name = Name.getPrefix d (-4) ∧ a'.faceId = a.faceId := by
  by_cases hv : ∃ i, op = .valid i
  · obtain ⟨i, rfl⟩ := hv
    unfold step at ha'
    split at ha'
    · exact .inl ⟨a', ha', h, rfl⟩
    · have ha' : a' ∈ (valid c s i).adjs := ha'
      unfold valid at ha'
      cases hd : s.validating[i]? with
      | none => rw [hd] at ha'; exact .inl ⟨a', ha', h, rfl⟩
      | some d =>
        rw [hd] at ha'
        dsimp only at ha'
        unfold validated at ha'
        dsimp only at ha'
        split at ha'
        · have ha' : a' ∈ setTimedOut (setStatus s.adjs (Name.getPrefix d (-4)) .active) (Name.getPrefix d (-4)) 0 := by
            split at ha' <;> exact ha'
          have e : setTimedOut (setStatus s.adjs (Name.getPrefix d (-4)) .active) (Name.getPrefix d (-4)) 0 =
              modify s.adjs (Name.getPrefix d (-4)) (fun a => { a with status := .active, timedOut := 0 }) :=
            modify_modify _ _ _ _ (fun _ => rfl)
          rw [e] at ha'
          obtain ⟨a, ha, ⟨hna, rfl⟩ | ⟨_, rfl⟩⟩ := mem_modify hn ha'
          · exact .inr ⟨i, d, rfl, hd, a, ha, hna, rfl⟩
          · exact .inl ⟨_, ha, h, rfl⟩
        · exact .inl ⟨a', ha', h, rfl⟩
  · obtain ⟨o, h1, h2, -⟩ := step_came c s hn op hop
    obtain ⟨a, ha, hc⟩ := h2 a' ha'
    rcases hc.status h with h3 | h3
    · exact .inl ⟨a, ha, h3, hc.ident⟩
    · obtain ⟨i, hi⟩ := step_initial c s op h1 h3
      exact absurd ⟨i, hi⟩ hv

end Nbr

namespace Fib

/-- A command that says nothing of `n`'s routes. -/
def Off (n : Name) : NfdCmd → Prop
  | .register _ m .. => m ≠ n
  | .unregister m .. => m ≠ n
  | .strategy .. => True

theorem regLog_off {A : AdjacencyList} {now : Nat} {n m : Name} (h : m ≠ n) {exp flags : Nat} {l : List NextHop} :
    ∀ {r : Nat}, ∀ x ∈ regLog A now m exp flags r l, Off n x := by
  induction l with
  | nil => intro r x hx; cases hx
  | cons y ys ih =>
    intro r x hx
    unfold regLog at hx
    rcases List.mem_append.1 hx with hx | hx
    · split at hx
      · rw [List.mem_singleton] at hx; subst hx; exact h
      · cases hx
    · exact ih x hx

theorem unregLog_off {A : AdjacencyList} {n m : Name} (h : m ≠ n) {l : List NextHop} : ∀ x ∈ unregLog A m l, Off n x := by
  intro x hx
  unfold unregLog at hx
  obtain ⟨y, _, hx⟩ := List.mem_flatMap.1 hx
  split at hx
  · rw [List.mem_singleton] at hx; subst hx; exact h
  · cases hx

/-- A step that says nothing of `n`'s routes and keeps `n` out of the table. -/
def Aside (n : Name) (s s' : Fib) : Prop :=
  (∃ cmds, s'.log = s.log ++ cmds ∧ ∀ x ∈ cmds, Off n x) ∧ (s.adjs.isNeighbor n = false → s.find n = none → s'.find n = none) ∧
    s'.adjs = s.adjs

theorem Aside.refl (n : Name) (s : Fib) : Aside n s s := ⟨⟨[], by simp, fun _ h => by cases h⟩, fun _ h => h, rfl⟩

theorem Aside.trans {n : Name} {s s' s'' : Fib} (h : Aside n s s') (h' : Aside n s' s'') : Aside n s s'' := by
  obtain ⟨⟨c1, e1, o1⟩, f1, a1⟩ := h
  obtain ⟨⟨c2, e2, o2⟩, f2, a2⟩ := h'
  refine ⟨⟨c1 ++ c2, by rw [e2, e1, List.append_assoc], fun x hx => ?_⟩, fun hn h => f2 (by rw [a1]; exact hn) (f1 hn h), a2.trans a1⟩
  rcases List.mem_append.1 hx with hx | hx
  · exact o1 x hx
  · exact o2 x hx

theorem remove_aside (s : Fib) {n m : Name} (h : s.adjs.isNeighbor n = true ∨ m ≠ n) : Aside n s (s.remove m) := by
  have he := remove_eff s m
  by_cases hm : m = n
  · subst hm
    have hn : s.adjs.isNeighbor m = true := h.resolve_right (fun hc => hc rfl)
    rw [if_pos hn, if_pos hn] at he
    exact ⟨⟨[], he.log, fun _ hx => by cases hx⟩, (fun hc => by rw [hn] at hc; cases hc), he.adjs⟩
  · refine ⟨⟨_, he.log, fun x hx => ?_⟩, fun _ hf => (he.same n (Ne.symm hm)).trans hf, he.adjs⟩
    split at hx
    · cases hx
    · split at hx
      · cases hx
      · exact unregLog_off hm x hx

theorem update_aside (c : FConf) (s : Fib) {n m : Name} (l : NexthopList) (fl : Nat) (h : s.adjs.isNeighbor n = true ∨ m ≠ n) :
    Aside n s (s.update c m l fl) := by
  by_cases h0 : hopsToAdd c l = []
  · rw [update_empty c s m l fl h0]; exact remove_aside s h
  · have he := update_eff c s m l fl h0
    by_cases hm : m = n
    · subst hm
      have hn : s.adjs.isNeighbor m = true := h.resolve_right (fun hc => hc rfl)
      rw [if_pos hn, if_pos hn, if_pos hn] at he
      exact ⟨⟨[], he.log, fun _ hx => by cases hx⟩, (fun hc => by rw [hn] at hc; cases hc), he.adjs⟩
    · refine ⟨⟨_, he.log, fun x hx => ?_⟩, fun _ hf => (he.same n (Ne.symm hm)).trans hf, he.adjs⟩
      split at hx
      · cases hx
      · rcases List.mem_append.1 hx with hx | hx
        · exact regLog_off hm x hx
        · exact unregLog_off hm x hx

theorem refresh_aside (c : FConf) {s : Fib} (hi : Inv s) {n : Name} (m : Name) (h : s.adjs.isNeighbor n = true ∨ s.find n = none) :
    Aside n s (s.refresh c m) := by
  by_cases hq : ∀ e, s.find m = some e → ∀ due flags, e.refresh = some (due, flags) → s.now < due
  · rw [refresh_idle c s m hq]; exact .refl n s
  · have hq : ∃ e due flags, s.find m = some e ∧ e.refresh = some (due, flags) ∧ due ≤ s.now := by
      refine Classical.byContradiction (fun hc => hq (fun e he due flags hr => ?_))
      refine Classical.byContradiction (fun hd => hc ⟨e, due, flags, he, hr, by omega⟩)
    obtain ⟨e, due, flags, hf, hr, hd⟩ := hq
    have he := refresh_eff c s m hf hr hd
    have hm : m ≠ n := by
      rintro rfl
      rcases h with h | h
      · have := (hi.refresh m e hf).1 (by rw [hr]; rfl)
        rw [h] at this; cases this
      · rw [h] at hf; cases hf
    exact ⟨⟨_, he.log, regLog_off hm⟩, fun _ hf => (he.same n (Ne.symm hm)).trans hf, he.adjs⟩

end Fib

namespace Router
open Fib

/-- The name prefix table asks nothing of the FIB for `n` that the FIB would carry out. -/
def Apart (n : Name) (s : Router) : Prop :=
  s.fib.adjs.isNeighbor n = true ∨ Npt.Within (· ≠ n) s.core.npt ∧ s.fib.find n = none

/-- What NLSR registers by itself for a neighbour: its name, the LSA prefix and the sync prefix. -/
def Due (c : RConf) (a : Adjacent) (n : Name) : Prop := n = a.name ∨ n = c.lsdb.names.lsaPrefix ∨ n = c.syncPrefix

/-- A command about `n` is a registration, with no expiry and the capture flag, for a neighbour, on its face, at the
cost of its link. -/
def Fair (c : RConf) (A : AdjacencyList) (n : Name) : NfdCmd → Prop
  | .register _ m u f k fl e _ => m = n → fl = Npt.capture ∧ e = forever ∧ ∃ a ∈ A, a.uri = u ∧ a.faceId = f ∧ toU64 a.linkCost = some k ∧
      0 < f ∧ Due c a n
  | .unregister m .. => m ≠ n
  | .strategy .. => True

theorem fair_of_off {c : RConf} {A : AdjacencyList} {n : Name} {x : NfdCmd} (h : Off n x) : Fair c A n x := by
  cases x with
  | register r m u f k fl e t => exact fun hc => absurd hc h
  | unregister m u f => exact h
  | strategy r m st => trivial

/-- A route for `n` on the face of `a`, with no expiry and the capture flag, at the cost of the link. -/
def Serves (R : Rib) (n : Name) (a : Adjacent) : Prop :=
  ∃ r, R n a.faceId = some r ∧ toU64 a.linkCost = some r.cost ∧ r.flags = Npt.capture ∧ forever * 1000000000 ≤ r.expires

theorem serves_step {c : RConf} {A : AdjacencyList} (hu : (A.map (·.uri)).Nodup) (hd : FacesDiffer A) {n : Name} {R : Rib} {x : NfdCmd}
    (hx : Fair c A n x) {a : Adjacent} (ha : a ∈ A) (h0 : 0 < a.faceId) :
    (Serves R n a → Serves (nfdStep R x) n a) ∧
    (∀ r k fl e t, x = .register r n a.uri a.faceId k fl e t → Serves (nfdStep R x) n a) := by
  cases x with
  | strategy r m st => exact ⟨id, nofun⟩
  | unregister m u f =>
    refine ⟨fun ⟨r, h1, h2⟩ => ⟨r, ?_, h2⟩, nofun⟩
    show (if n = m ∧ a.faceId = f then none else R n a.faceId) = _
    rw [if_neg (fun hc => hx hc.1.symm)]; exact h1
  | register r m u f k fl e t =>
    have key : n = m → a.faceId = f → Serves (nfdStep R (.register r m u f k fl e t)) n a := by
      intro hm hf
      obtain ⟨h1, h2, b, hb, b1, b2, b3, -⟩ := hx hm.symm
      have hab : a = b := AdjacencyList.uri_inj hu ha hb (hd a ha b hb h0 (by rw [b2, hf]))
      subst hab
      refine ⟨⟨k, fl, t + e * 1000000000⟩, ?_, b3, h1, ?_⟩
      · show (if n = m ∧ a.faceId = f then some _ else R n a.faceId) = _
        rw [if_pos ⟨hm, hf⟩]
      · show forever * 1000000000 ≤ t + e * 1000000000
        rw [h2]; exact Nat.le_add_left _ _
    refine ⟨fun h => ?_, fun r' k' fl' e' t' he => ?_⟩
    · by_cases hc : n = m ∧ a.faceId = f
      · exact key hc.1 hc.2
      · obtain ⟨r', h1, h2⟩ := h
        refine ⟨r', ?_, h2⟩
        show (if n = m ∧ a.faceId = f then some _ else R n a.faceId) = _
        rw [if_neg hc]; exact h1
    · injection he with _ he1 _ he2
      exact key he1.symm he2.symm

theorem serves_fold {c : RConf} {A : AdjacencyList} (hu : (A.map (·.uri)).Nodup) (hd : FacesDiffer A) {n : Name} {a : Adjacent} (ha : a ∈ A)
    (h0 : 0 < a.faceId) : ∀ (cmds : List NfdCmd), (∀ x ∈ cmds, Fair c A n x) → ∀ R : Rib,
    (Serves R n a ∨ ∃ r k fl e t, NfdCmd.register r n a.uri a.faceId k fl e t ∈ cmds) → Serves (cmds.foldl nfdStep R) n a := by
  intro cmds
  induction cmds with
  | nil =>
    intro _ R h
    rcases h with h | ⟨_, _, _, _, _, h⟩
    · exact h
    · cases h
  | cons x xs ih =>
    intro hf R h
    have hs := serves_step (R := R) hu hd (hf x List.mem_cons_self) ha h0
    refine ih (fun y hy => hf y (List.mem_cons_of_mem _ hy)) _ ?_
    rcases h with h | ⟨r, k, fl, e, t, h⟩
    · exact .inl (hs.1 h)
    · rcases List.mem_cons.1 h with h | h
      · exact .inl (hs.2 r k fl e t h.symm)
      · exact .inr ⟨r, k, fl, e, t, h⟩

/-- The links' costs can be told to NFD. -/
def Priced (A : AdjacencyList) : Prop := ∀ a ∈ A, ∃ k, toU64 a.linkCost = some k

/-- There is a registration of `n` for `a`, on its face. -/
def Asked (n : Name) (a : Adjacent) (cmds : List NfdCmd) : Prop :=
  ∃ r k fl e t, NfdCmd.register r n a.uri a.faceId k fl e t ∈ cmds

theorem Asked.left {n : Name} {a : Adjacent} {x y : List NfdCmd} (h : Asked n a x) : Asked n a (x ++ y) := by
  obtain ⟨r, k, fl, e, t, h⟩ := h
  exact ⟨r, k, fl, e, t, List.mem_append_left _ h⟩

theorem Asked.right {n : Name} {a : Adjacent} {x y : List NfdCmd} (h : Asked n a y) : Asked n a (x ++ y) := by
  obtain ⟨r, k, fl, e, t, h⟩ := h
  exact ⟨r, k, fl, e, t, List.mem_append_right _ h⟩

/-- Calls that leave the FIB's table and the name prefix table alone and send only registrations as they should be. -/
structure Sends (c : RConf) (A : AdjacencyList) (s s' : Router) (cmds : List NfdCmd) : Prop where
  log : s'.fib.log = s.fib.log ++ cmds
  fair : ∀ n, ∀ x ∈ cmds, Fair c A n x
  table : s'.fib.table = s.fib.table
  npt : s'.core.npt = s.core.npt
  regs : ∃ q, s'.fib.regs = s.fib.regs ++ q ∧
    ∀ r n u f k fl e t, NfdCmd.register r n u f k fl e t ∈ cmds → ∃ x ∈ q, x.name = n ∧ x.uri = u ∧ x.fid = f

theorem Sends.nothing {c : RConf} {A : AdjacencyList} {s s' : Router} (h : s'.fib = s.fib) (hn : s'.core.npt = s.core.npt) : Sends c A s s' [] :=
  ⟨by rw [h]; simp, (fun _ _ h => by cases h), by rw [h], hn, [], by rw [h]; simp, (fun _ _ _ _ _ _ _ _ h => by cases h)⟩

theorem register_sends {c : RConf} {s : Router} {A : AdjacencyList} (hp : Priced A) (hu : (A.map (·.uri)).Nodup)
    (hid : ∀ u, s.fib.adjs.faceIdOf u = AdjacencyList.faceIdOf A u) (m : Name) {a : Adjacent} (ha : a ∈ A) (hm : Due c a m) :
    ∃ cmds, Sends c A s (s.register c m a.uri a.linkCost) cmds ∧ (0 < a.faceId → Asked m a cmds) := by
  obtain ⟨k, hk⟩ := hp a ha
  have hf := AdjacencyList.faceIdOf_mem hu a ha
  unfold Router.register
  rw [hk]
  refine ⟨if 0 < a.faceId then [.register s.fib.nextRoot m a.uri a.faceId k Npt.capture forever s.fib.now] else [],
    ⟨?_, ?_, ?_, rfl, if 0 < a.faceId then [⟨s.fib.nextRoot, m, a.uri, a.faceId, k, Npt.capture, forever, 0⟩] else [], ?_, ?_⟩, ?_⟩
  · show (s.fib.registerPrefix m a.uri k forever Npt.capture).log = _
    rw [registerPrefix_eq, hid, hf]
  · intro n x hx
    split at hx
    · rename_i h0
      rw [List.mem_singleton] at hx
      subst hx
      exact fun e => ⟨rfl, rfl, a, ha, rfl, rfl, hk, h0, e ▸ hm⟩
    · cases hx
  · show (s.fib.registerPrefix m a.uri k forever Npt.capture).table = _
    rw [registerPrefix_eq]
  · show (s.fib.registerPrefix m a.uri k forever Npt.capture).regs = _
    rw [registerPrefix_eq, hid, hf]
  · intro r n u f k' fl e t hx
    split at hx
    · rename_i h0
      rw [List.mem_singleton] at hx
      injection hx with _ h1 h2 h3
      rw [if_pos h0]
      exact ⟨_, List.mem_singleton.2 rfl, h1.symm, h2.symm, h3.symm⟩
    · cases hx
  · intro h0
    rw [if_pos h0]
    exact ⟨_, _, _, _, _, List.mem_singleton.2 rfl⟩

/-- What a call asks of NFD. -/
def Answers (c : RConf) (A : AdjacencyList) (cmds : List NfdCmd) (o : NOut) : Prop :=
  (∀ m a, a ∈ A → o = .register m a.uri a.linkCost → 0 < a.faceId → Asked m a cmds) ∧
  (∀ a ∈ A, o = .initial a.name → 0 < a.faceId → Asked c.syncPrefix a cmds)

theorem apply_sends {c : RConf} {s : Router} (hp : Priced s.nbr.adjs) (hu : (s.nbr.adjs.map (·.uri)).Nodup)
    (hn : (s.nbr.adjs.map (·.name)).Nodup)
    (hid : ∀ u, s.fib.adjs.faceIdOf u = AdjacencyList.faceIdOf s.nbr.adjs u) (o : NOut)
    (ho : ∀ m u k, o = .register m u k → ∃ a ∈ s.nbr.adjs, a.uri = u ∧ a.linkCost = k ∧ (m = a.name ∨ m = c.lsdb.names.lsaPrefix)) :
    ∃ cmds, Sends c s.nbr.adjs s (Router.apply c s o) cmds ∧ Answers c s.nbr.adjs cmds o := by
  unfold Router.apply
  split
  · exact ⟨[], .nothing rfl (by rw [Core.step_build]), nofun, nofun⟩
  · exact ⟨[], .nothing rfl rfl, nofun, nofun⟩
  · rename_i n
    cases hf : AdjacencyList.find s.nbr.adjs n with
    | none =>
      refine ⟨[], .nothing rfl rfl, nofun, fun a ha he => ?_⟩
      injection he with he
      rw [he, AdjacencyList.mem_find hn ha] at hf
      cases hf
    | some b =>
      dsimp only
      have hb : b ∈ s.nbr.adjs := by unfold AdjacencyList.find at hf; exact List.mem_of_find?_eq_some hf
      obtain ⟨cmds, h1, h2⟩ := register_sends (c := c) hp hu hid c.syncPrefix hb (.inr (.inr rfl))
      refine ⟨cmds, h1, nofun, fun a ha he h0 => ?_⟩
      injection he with he
      rw [he, AdjacencyList.mem_find hn ha] at hf
      injection hf with hf
      subst hf
      exact h2 h0
  · rename_i m u k
    obtain ⟨a, ha, rfl, rfl, hm⟩ := ho m u k rfl
    obtain ⟨cmds, h1, h2⟩ := register_sends (c := c) hp hu hid m ha (hm.imp id .inl)
    refine ⟨cmds, h1, fun m' a' ha' he h0 => ?_, nofun⟩
    injection he with he1 he2 he3
    subst he1
    have := AdjacencyList.uri_inj hu ha ha' he2
    subst this
    exact h2 h0
  · rename_i n st
    refine ⟨[.strategy s.fib.nextRoot n st], ⟨rfl, fun _ x hx => ?_, rfl, rfl, [], by
      show s.fib.regs = _; simp, fun r n u f k fl e t hx => ?_⟩, nofun, nofun⟩
    · rw [List.mem_singleton] at hx; subst hx; trivial
    · simp at hx
  · rename_i h1 h2 h3 h4 h5
    exact ⟨[], .nothing rfl rfl, fun m a _ he => absurd he (h4 _ _ _), fun a _ he => absurd he (h3 _)⟩

theorem applies_sends {c : RConf} {A : AdjacencyList} (hp : Priced A) (hu : (A.map (·.uri)).Nodup)
    (hn : (A.map (·.name)).Nodup) : ∀ (o : List NOut) {s : Router}, s.nbr.adjs = A →
    (∀ u, s.fib.adjs.faceIdOf u = AdjacencyList.faceIdOf A u) →
    (∀ m u k, NOut.register m u k ∈ o → ∃ a ∈ A, a.uri = u ∧ a.linkCost = k ∧ (m = a.name ∨ m = c.lsdb.names.lsaPrefix)) →
    ∃ cmds, Sends c A s (o.foldl (Router.apply c) s) cmds ∧ ∀ x ∈ o, Answers c A cmds x := by
  intro o
  induction o with
  | nil => intro s _ _ _; exact ⟨[], .nothing rfl rfl, fun _ h => by cases h⟩
  | cons x xs ih =>
    intro s hA hid ho
    subst hA
    obtain ⟨c1, s1, a1⟩ := apply_sends (c := c) hp hu hn hid x (fun m u k e => ho m u k (e ▸ List.mem_cons_self))
    have hsame := apply_same c s x
    obtain ⟨c2, s2, a2⟩ := ih (s := Router.apply c s x) (by rw [hsame.1]) (fun u => by rw [hsame.2.1]; exact hid u)
      (fun m u k hm => ho m u k (List.mem_cons_of_mem _ hm))
    refine ⟨c1 ++ c2, ⟨by rw [List.foldl_cons, s2.log, s1.log, List.append_assoc], fun n y hy => ?_, s2.table.trans s1.table, s2.npt.trans s1.npt, ?_⟩, ?_⟩
    · rcases List.mem_append.1 hy with hy | hy
      · exact s1.fair n y hy
      · exact s2.fair n y hy
    · obtain ⟨q1, e1, h1⟩ := s1.regs
      obtain ⟨q2, e2, h2⟩ := s2.regs
      refine ⟨q1 ++ q2, by rw [List.foldl_cons, e2, e1, List.append_assoc], fun r n u f k fl e t hx => ?_⟩
      rcases List.mem_append.1 hx with hx | hx
      · obtain ⟨z, hz, hz'⟩ := h1 r n u f k fl e t hx
        exact ⟨z, List.mem_append_left _ hz, hz'⟩
      · obtain ⟨z, hz, hz'⟩ := h2 r n u f k fl e t hx
        exact ⟨z, List.mem_append_right _ hz, hz'⟩
    · intro y hy
      rcases List.mem_cons.1 hy with rfl | hy
      · exact ⟨fun m a ha he h0 => (a1.1 m a ha he h0).left, fun a ha he h0 => (a1.2 a ha he h0).left⟩
      · exact ⟨fun m a ha he h0 => ((a2 y hy).1 m a ha he h0).right, fun a ha he h0 => ((a2 y hy).2 a ha he h0).right⟩

/-- How a neighbour came about in a step with these commands. -/
structure Got (c : RConf) (cmds : List NfdCmd) (a a' : Adjacent) : Prop where
  ident : a'.ident = a.ident
  face : a'.faceId = a.faceId ∨ a'.faceId = 0 ∨ Asked a'.name a' cmds ∧ Asked c.lsdb.names.lsaPrefix a' cmds
  status : a'.status = .active → a.status = .active ∨ a'.faceId = 0 ∨ Asked c.syncPrefix a' cmds

theorem syncFaces_regs (c : FConf) : ∀ (l : AdjacencyList) (f : Fib), (syncFaces c l f).regs = f.regs := by
  intro l
  induction l with
  | nil => intro f; rfl
  | cons x xs ih => intro f; exact ih (Fib.step c f (.setFaceId x.name x.faceId))

theorem nbrStep_sends {c : RConf} {s : Router} (hb : Base c s) (op : Nbr.Op)
    (hop : ∀ u f, op = .regFace u f → s.nbr.adjs.faceIdOf u = f)
    (hp : Priced (Nbr.step c.nbr s.nbr op).adjs) (hu : ((Nbr.step c.nbr s.nbr op).adjs.map (·.uri)).Nodup) :
    ∃ cmds, Sends c (Nbr.step c.nbr s.nbr op).adjs s (Router.nbrStep c s op) cmds ∧
      ∀ a' ∈ (Nbr.step c.nbr s.nbr op).adjs, ∃ a ∈ s.nbr.adjs, Got c cmds a a' := by
  obtain ⟨o, h1, h2, h3⟩ := Nbr.step_came c.nbr s.nbr hb.nbr.ninv.nodup op hop
  have hb1 := hb.nbrOnly op
  have hn' := (hb.nbr.step op).ninv.nodup
  have hlen : s.nbr.out.length ≤ (Nbr.step c.nbr s.nbr op).out.length := by rw [h1]; simp
  unfold Router.nbrStep
  dsimp only
  rw [h1, List.drop_left]
  obtain ⟨cmds, h4, h5⟩ := applies_sends (c := c) hp hu hn' o
    (s := Router.sync c { s with nbr := Nbr.step c.nbr s.nbr op }) rfl
    (AdjacencyList.faceIdOf_face hb1.synced.fib) h3
  have hlog := (syncFaces_same c.fib (Nbr.step c.nbr s.nbr op).adjs s.fib).1
  refine ⟨cmds, ⟨by rw [h4.log]; exact congrArg (· ++ cmds) hlog, h4.fair, ?_, ?_, ?_⟩, fun a' ha' => ?_⟩
  · rw [h4.table]; exact (syncFaces_adjs c.fib _ s.fib).2
  · rw [h4.npt]
    show (Core.step c.core s.core (.lsdb (.setAdjs _))).npt = _
    rw [Core.step_setAdjs]
  · obtain ⟨q, e, h⟩ := h4.regs
    exact ⟨q, e.trans (congrArg (· ++ q) (syncFaces_regs c.fib _ s.fib)), h⟩
  · obtain ⟨a, ha, hc⟩ := h2 a' ha'
    refine ⟨a, ha, hc.ident, ?_, fun h => ?_⟩
    · by_cases h0 : a'.faceId = 0
      · exact .inr (.inl h0)
      · rcases hc.face with h | h | ⟨h, h'⟩
        · exact .inl h
        · exact .inr (.inl h)
        · exact .inr (.inr ⟨(h5 _ h).1 _ a' ha' rfl (by omega), (h5 _ h').1 _ a' ha' rfl (by omega)⟩)
    · by_cases h0 : a'.faceId = 0
      · exact .inr (.inl h0)
      · rcases hc.status h with h | h
        · exact .inl h
        · exact .inr (.inr ((h5 _ h).2 a' ha' rfl (by omega)))

/-- A step that sends, of `n`, only registrations as they should be, and leaves the name prefix table's requests apart. -/
structure Keeps (c : RConf) (A : AdjacencyList) (n : Name) (s s' : Router) (cmds : List NfdCmd) : Prop where
  log : s'.fib.log = s.fib.log ++ cmds
  fair : ∀ x ∈ cmds, Fair c A n x
  apart : Apart n s'

theorem Keeps.trans {c : RConf} {A : AdjacencyList} {n : Name} {s s' s'' : Router} {x y : List NfdCmd} (h : Keeps c A n s s' x)
    (h' : Keeps c A n s' s'' y) : Keeps c A n s s'' (x ++ y) := by
  refine ⟨by rw [h'.log, h.log, List.append_assoc], fun z hz => ?_, h'.apart⟩
  rcases List.mem_append.1 hz with hz | hz
  · exact h.fair z hz
  · exact h'.fair z hz

theorem Sends.keeps {c : RConf} {A : AdjacencyList} {n : Name} {s s' : Router} {x : List NfdCmd} (h : Sends c A s s' x)
    (hn : s'.fib.adjs.map (·.name) = s.fib.adjs.map (·.name)) (ha : Apart n s) : Keeps c A n s s' x := by
  refine ⟨h.log, h.fair n, ?_⟩
  unfold Apart
  rw [AdjacencyList.isNeighbor_congr hn, h.npt, Fib.find_congr h.table]
  exact ha

theorem nbrStep_names (c : RConf) {s : Router} (hb : Base c s) (op : Nbr.Op) :
    (Router.nbrStep c s op).fib.adjs.map (·.name) = s.fib.adjs.map (·.name) := by
  have h1 := AdjacencyList.map_names_of_place (hb.nbrStep op).base.place
  rw [nbrStep_nbr] at h1
  rw [h1, AdjacencyList.map_names_of_place (Nbr.step_place c.nbr s.nbr op), AdjacencyList.map_names_of_place hb.place]

/-- `n` is a neighbour's name, or no other router's LSA has brought it up. -/
def Mine (c : RConf) (n : Name) (s : Router) : Prop :=
  (∃ a ∈ s.nbr.adjs, a.name = n) ∨ Core.Mentions c.lsdb.router (· ≠ n) s.core.lsdb.log

theorem log_grows {c : RConf} {s : Router} (hb : Base c s) (op : Op) :
    ∃ outs, (Router.step c s op).core.lsdb.log = s.core.lsdb.log ++ outs := by
  cases step_does c s op with
  | nothing h => exact ⟨[], by rw [h.log, List.append_nil]⟩
  | lsdb o _ _ x hx _ h =>
    obtain ⟨outs, e⟩ := step_log_prefix hb.core.lsdb o
    exact ⟨outs, by rw [h.log, hx]; exact e⟩

theorem Mine.back {c : RConf} {n : Name} {s : Router} (ha : All c s) {op : Op} (h : Mine c n (Router.step c s op)) : Mine c n s := by
  rcases h with ⟨a, h1, h2⟩ | h
  · have h3 := List.mem_map.2 ⟨a, h1, h2⟩
    rw [step_names ha op] at h3
    obtain ⟨b, hb, e⟩ := List.mem_map.1 h3
    exact .inl ⟨b, hb, e⟩
  · obtain ⟨outs, e⟩ := log_grows ha.base op
    exact .inr (fun k l a r hm => h k l a r (by rw [e]; exact List.mem_append_left _ hm))

theorem neighbor_of {c : RConf} {s : Router} (hb : Base c s) {n : Name} (h : ∃ a ∈ s.nbr.adjs, a.name = n) :
    s.fib.adjs.isNeighbor n = true := by
  obtain ⟨a, ha, rfl⟩ := h
  have h1 : a.name ∈ s.fib.adjs.map (·.name) := by
    rw [AdjacencyList.map_names_of_place hb.place]; exact List.mem_map.2 ⟨a, ha, rfl⟩
  obtain ⟨b, hb', e⟩ := List.mem_map.1 h1
  unfold AdjacencyList.isNeighbor AdjacencyList.find
  exact List.find?_isSome.2 ⟨b, hb', by simpa using e⟩

theorem newLsa_adjs (c : NConf) (s : Nbr) (r : Name) : (Nbr.step c s (.newLsa r)).adjs = s.adjs := by
  unfold Nbr.step
  split
  · rfl
  · show (Nbr.newLsa s r).adjs = _
    unfold Nbr.newLsa
    split <;> rfl

theorem told_keeps {c : RConf} {s : Router} (ha : All c s) {n : Name} (h : Apart n s) (op : Core.Op)
    (hm : s.fib.adjs.isNeighbor n = true ∨ Core.Mentions c.lsdb.router (· ≠ n) (Core.step c.core s.core op).lsdb.log) :
    ∃ cmds, Keeps c s.nbr.adjs n s (told c s op) cmds := by
  have hside : ∀ (l : List FibCmd), (∀ x ∈ l, s.fib.adjs.isNeighbor n = true ∨ Npt.cmdName x ≠ n) → ∀ s1 : Router, s1.fib.adjs = s.fib.adjs →
      Aside n s1.fib (l.foldl (fibCmd c) s1).fib := by
    intro l
    induction l with
    | nil => intro _ s1 _; exact .refl n _
    | cons x xs ih =>
      intro hl s1 h1
      have hx : Aside n s1.fib (fibCmd c s1 x).fib := by
        have := hl x List.mem_cons_self
        rw [← h1] at this
        cases x with
        | update m l fl => exact update_aside c.fib s1.fib l fl this
        | remove m => exact remove_aside s1.fib this
        | updateBad m => exact .refl n _
      exact hx.trans (ih (fun y hy => hl y (List.mem_cons_of_mem _ hy)) _ (hx.2.2.trans h1))
  have hcmd : ∀ x ∈ (Core.step c.core s.core op).npt.out.drop s.core.npt.out.length, s.fib.adjs.isNeighbor n = true ∨ Npt.cmdName x ≠ n := by
    intro x hx
    rcases hm with hm | hm
    · exact .inl hm
    · rcases h with h | h
      · exact .inl h
      · exact .inr ((Core.within_step h.1 op hm).2 x (List.mem_of_mem_drop hx))
  obtain ⟨⟨cmds, e, ho⟩, hf, hadj⟩ := hside _ hcmd { s with core := Core.step c.core s.core op } rfl
  refine ⟨cmds, e, fun x hx => fair_of_off (ho x hx), ?_⟩
  have ht := told_same c s op
  have hadj' : (told c s op).fib.adjs = s.fib.adjs := hadj
  unfold Apart
  rw [hadj', ht.2]
  cases hb : s.fib.adjs.isNeighbor n with
  | true => exact .inl rfl
  | false =>
    rw [hb] at hm
    have hm := hm.resolve_left nofun
    unfold Apart at h
    rw [hb] at h
    have h := h.resolve_left nofun
    exact .inr ⟨Core.within_step h.1 op hm, hf hb h.2⟩

theorem newLsas_keeps {c : RConf} {A : AdjacencyList} {n : Name} (hp : Priced A) (hu : (A.map (·.uri)).Nodup) :
    ∀ (l : List Name) {s : Router}, All c s → s.nbr.adjs = A → Apart n s →
    ∃ cmds, Keeps c A n s (l.foldl (fun s r => Router.nbrStep c s (.newLsa r)) s) cmds := by
  intro l
  induction l with
  | nil => intro s _ _ h; exact ⟨[], by simp, (fun _ h => by cases h), h⟩
  | cons r rs ih =>
    intro s ha hA h
    have hs := newLsa_adjs c.nbr s.nbr r
    obtain ⟨c1, h1, -⟩ := nbrStep_sends ha.base (.newLsa r) nofun (by rw [hs, hA]; exact hp) (by rw [hs, hA]; exact hu)
    rw [hs, hA] at h1
    have k1 := h1.keeps (c := c) (nbrStep_names c ha.base _) h
    obtain ⟨c2, k2⟩ := ih (ha.base.nbrStep (.newLsa r)) (by rw [nbrStep_nbr, hs, hA]) k1.apart
    exact ⟨c1 ++ c2, k1.trans k2⟩

theorem coreStep_keeps {c : RConf} {s : Router} (ha : All c s) {n : Name} (h : Apart n s) (hp : Priced s.nbr.adjs)
    (hu : (s.nbr.adjs.map (·.uri)).Nodup) (op : Core.Op) (ho : outsideCore op = true)
    (hm : s.fib.adjs.isNeighbor n = true ∨ Core.Mentions c.lsdb.router (· ≠ n) (Router.coreStep c s op).core.lsdb.log) :
    ∃ cmds, Keeps c s.nbr.adjs n s (Router.coreStep c s op) cmds := by
  have hlog : (Router.coreStep c s op).core.lsdb.log = (Core.step c.core s.core op).lsdb.log := by
    rw [coreStep_told, (newLsas_mild c _ _).log, (told_same c s op).2]
  rw [hlog] at hm
  obtain ⟨c1, k1⟩ := told_keeps ha h op hm
  rw [coreStep_told]
  obtain ⟨c2, k2⟩ := newLsas_keeps hp hu (newOrigins ((Core.step c.core s.core op).lsdb.log.drop s.core.lsdb.log.length))
    (ha.told op ho) (by rw [(told_same c s op).1]) k1.apart
  exact ⟨c1 ++ c2, k1.trans k2⟩

theorem regOk_adjs {c : RConf} {s : Router} (_ : All c s) (hd : s.nbr.dead = false) (i : Nat)
    (hr : ∀ r, s.fib.regs[i]? = some r → s.nbr.adjs.faceIdOf r.uri = r.fid) : (Router.regOk c s i).nbr.adjs = s.nbr.adjs := by
  unfold Router.regOk
  cases he : s.fib.regs[i]? with
  | none => rfl
  | some r =>
    dsimp only
    rw [nbrStep_nbr]
    have h2 : ∀ s' : Nbr, (Nbr.step c.nbr s' (.registered r.name)).adjs = s'.adjs := by
      intro s'
      unfold Nbr.step
      split
      · rfl
      · exact (Nbr.sendHello_quiet c.nbr s' r.name).adjs
    rw [h2, nbrStep_nbr]
    unfold Nbr.step
    rw [if_neg (by dsimp only; rw [hd]; nofun)]
    exact Nbr.setFaceOf_self (hr r he)

theorem regOk_keeps {c : RConf} {s : Router} (ha : All c s) (hd : s.nbr.dead = false) {n : Name} (h : Apart n s) (hp : Priced s.nbr.adjs)
    (hu : (s.nbr.adjs.map (·.uri)).Nodup) (i : Nat) (hr : ∀ r, s.fib.regs[i]? = some r → s.nbr.adjs.faceIdOf r.uri = r.fid) :
    (Router.regOk c s i).nbr.adjs = s.nbr.adjs ∧ ∃ cmds, Keeps c s.nbr.adjs n s (Router.regOk c s i) cmds := by
  unfold Router.regOk
  cases he : s.fib.regs[i]? with
  | none => exact ⟨rfl, [], by simp, (fun _ h => by cases h), h⟩
  | some r =>
    dsimp only
    have hf := hr r he
    have hb1 : Base c { s with fib := Fib.step c.fib s.fib (.regOk i) } := ha.base.fibStep rfl
    have hfx : Fib.step c.fib s.fib (.regOk i) =
        { s.fib with regs := s.fib.regs.eraseIdx i, adjs := s.fib.adjs.setFaceOf r.uri r.fid, ok := s.fib.ok ++ [r.name] } := by
      show Fib.regOk s.fib i = _
      unfold Fib.regOk; rw [he]
    have k0 : Keeps c s.nbr.adjs n s { s with fib := Fib.step c.fib s.fib (.regOk i) } [] := by
      have hnm : (Fib.step c.fib s.fib (.regOk i)).adjs.map (·.name) = s.fib.adjs.map (·.name) := by
        rw [hfx]; exact AdjacencyList.setFaceOf_map (fun x : Adjacent => x.name) _ _ _ (fun _ => rfl)
      refine ⟨by rw [hfx]; simp, (fun _ h => by cases h), ?_⟩
      unfold Apart
      show (Fib.step c.fib s.fib (.regOk i)).adjs.isNeighbor n = true ∨ _ ∧ (Fib.step c.fib s.fib (.regOk i)).find n = none
      rw [AdjacencyList.isNeighbor_congr hnm, Fib.find_congr (by rw [hfx])]
      exact h
    have hs1 : (Nbr.step c.nbr s.nbr (.regFace r.uri r.fid)).adjs = s.nbr.adjs := by
      unfold Nbr.step
      rw [if_neg (by rw [hd]; nofun)]
      exact Nbr.setFaceOf_self hf
    have hs2 : ∀ s' : Router, (Nbr.step c.nbr s'.nbr (.registered r.name)).adjs = s'.nbr.adjs := by
      intro s'
      unfold Nbr.step
      split
      · rfl
      · exact (Nbr.sendHello_quiet c.nbr s'.nbr r.name).adjs
    obtain ⟨c1, h1, -⟩ := nbrStep_sends hb1 (.regFace r.uri r.fid) (fun u f e => by injection e with e1 e2; subst e1; subst e2; exact hf)
      (by rw [hs1]; exact hp) (by rw [hs1]; exact hu)
    rw [hs1] at h1
    have k1 := h1.keeps (c := c) (nbrStep_names c hb1 _) k0.apart
    have ha1 := hb1.nbrStep (.regFace r.uri r.fid)
    have hadj : (Router.nbrStep c { s with fib := Fib.step c.fib s.fib (.regOk i) } (.regFace r.uri r.fid)).nbr.adjs = s.nbr.adjs := by
      rw [nbrStep_nbr, hs1]
    generalize Router.nbrStep c { s with fib := Fib.step c.fib s.fib (.regOk i) } (.regFace r.uri r.fid) = s1 at k1 ha1 hadj
    obtain ⟨c2, h2, -⟩ := nbrStep_sends ha1.base (.registered r.name) nofun (by rw [hs2, hadj]; exact hp) (by rw [hs2, hadj]; exact hu)
    rw [hs2, hadj] at h2
    have k2 := h2.keeps (c := c) (nbrStep_names c ha1.base _) k1.apart
    exact ⟨by rw [nbrStep_nbr, hs2, hadj], _, (k0.trans k1).trans k2⟩

end Router

namespace Nbr
open AdjacencyList

theorem sendHello_timer (c : NConf) (s : Nbr) {n : Name} (h : n ∈ s.adjs.map (·.name)) : ∃ t, (n, t) ∈ (sendHello c s n).timers := by
  obtain ⟨a, ha, rfl⟩ := List.mem_map.1 h
  have hf : ∃ b, find s.adjs a.name = some b :=
    Option.isSome_iff_exists.1 (by unfold find; exact List.find?_isSome.2 ⟨a, ha, by simp⟩)
  obtain ⟨b, hb⟩ := hf
  unfold sendHello
  rw [hb]
  exact ⟨_, List.mem_append_right _ (List.mem_singleton.2 rfl)⟩

/-- The timer of a neighbour is never lost. -/
theorem step_timer (c : NConf) (s : Nbr) (op : Op) {n : Name} (h : n ∈ s.adjs.map (·.name)) (ht : ∃ t, (n, t) ∈ s.timers) :
    ∃ t, (n, t) ∈ (step c s op).timers := by
  obtain ⟨t, ht⟩ := ht
  have hk := step_takes c s op
  generalize step c s op = s' at hk
  cases hk with
  | none hg => exact ⟨t, hg.timers _ ht⟩
  | timer i m due hi hd =>
    by_cases hm : m = n
    · subst hm
      exact sendHello_timer c { s with timers := s.timers.eraseIdx i } h
    · have hg := sendHello_grow c { s with timers := s.timers.eraseIdx i } m
      refine ⟨t, hg.timers _ ?_⟩
      have : (n, t) ∈ s.timers.eraseIdx i := by
        rw [List.mem_eraseIdx_iff_getElem?]
        obtain ⟨j, hj⟩ := List.mem_iff_getElem?.1 ht
        refine ⟨j, fun hc => ?_, hj⟩
        subst hc
        rw [hi] at hj
        injection hj with hj
        injection hj with hj _
        exact hm hj
      exact this
  | timeout i m due hi hd => exact ⟨t, (lost_grow c { s with waiting := s.waiting.eraseIdx i } m).timers _ ht⟩
  | nack i m due hi => exact ⟨t, ht⟩
  | nackTimer i m due hi hd => exact ⟨t, (lost_grow c { s with nacked := s.nacked.eraseIdx i } m).timers _ ht⟩
  | data i m due d hi => exact ⟨t, ht⟩
  | clock dt => exact ⟨t, ht⟩

end Nbr

namespace Router
open Fib

/-- A neighbour's registration is waiting for its answer, or its next hello is scheduled. -/
def Tended (s : Router) (n : Name) (u : Uri) : Prop :=
  (∃ r ∈ s.fib.regs, r.name = n ∧ r.uri = u) ∨ ∃ t, (n, t) ∈ s.nbr.timers

theorem Tended.grow {s s' : Router} {n : Name} {u : Uri} (h : Tended s n u) (hr : ∀ r ∈ s.fib.regs, r ∈ s'.fib.regs)
    (ht : (∃ t, (n, t) ∈ s.nbr.timers) → ∃ t, (n, t) ∈ s'.nbr.timers) : Tended s' n u := by
  rcases h with ⟨r, h1, h2⟩ | h
  · exact .inl ⟨r, hr r h1, h2⟩
  · exact .inr (ht h)

theorem Tended.told {c : RConf} {s : Router} {n : Name} {u : Uri} (h : Tended s n u) (op : Core.Op) : Tended (told c s op) n u := by
  refine h.grow ?_ (by rw [(told_same c s op).1]; exact id)
  unfold Router.told
  dsimp only
  have : ∀ (l : List FibCmd) (s : Router), ∀ r ∈ s.fib.regs, r ∈ (l.foldl (fibCmd c) s).fib.regs := by
    intro l
    induction l with
    | nil => intro s r h; exact h
    | cons x xs ih =>
      intro s r h
      refine ih _ r ?_
      cases x with
      | update m l fl =>
        show r ∈ (s.fib.update c.fib m l fl).regs
        by_cases h0 : hopsToAdd c.fib l = []
        · rw [update_empty c.fib s.fib m l fl h0, (remove_eff s.fib m).regs]; exact List.mem_append_left _ h
        · rw [(update_eff c.fib s.fib m l fl h0).regs]; exact List.mem_append_left _ h
      | remove m => show r ∈ (s.fib.remove m).regs; rw [(remove_eff s.fib m).regs]; exact List.mem_append_left _ h
      | updateBad m => exact h
  exact fun r hr => this _ { s with core := Core.step c.core s.core op } r hr

theorem Tended.refresh {c : RConf} {s : Router} {n : Name} {u : Uri} (h : Tended s n u) (m : Name) :
    Tended { s with fib := Fib.step c.fib s.fib (.refresh m) } n u := by
  refine h.grow (fun r hr => ?_) id
  show r ∈ (s.fib.refresh c.fib m).regs
  by_cases hq : ∀ e, s.fib.find m = some e → ∀ due flags, e.refresh = some (due, flags) → s.fib.now < due
  · rw [refresh_idle c.fib s.fib m hq]; exact hr
  · have hq : ∃ e due flags, s.fib.find m = some e ∧ e.refresh = some (due, flags) ∧ due ≤ s.fib.now := by
      refine Classical.byContradiction (fun hc => hq (fun e he due flags hr => ?_))
      refine Classical.byContradiction (fun hd => hc ⟨e, due, flags, he, hr, by omega⟩)
    obtain ⟨e, due, flags, hf, h1, hd⟩ := hq
    rw [(refresh_eff c.fib s.fib m hf h1 hd).regs]
    exact List.mem_append_left _ hr

/-- A step of the hello protocol or the face code in which the neighbour keeps its face, or gets one. -/
theorem Tended.sends {c : RConf} {s : Router} {op : Nbr.Op} {A : AdjacencyList} {cmds : List NfdCmd} (hs : Sends c A s (Router.nbrStep c s op) cmds)
    {a : Adjacent} (hm : a.name ∈ s.nbr.adjs.map (·.name)) (h : Tended s a.name a.uri ∨ Asked a.name a cmds) :
    Tended (Router.nbrStep c s op) a.name a.uri := by
  obtain ⟨q, e, hq⟩ := hs.regs
  rcases h with h | ⟨r, k, fl, e', t, h⟩
  · refine h.grow (fun r hr => by rw [e]; exact List.mem_append_left _ hr) (fun ht => ?_)
    rw [nbrStep_nbr]
    exact Nbr.step_timer c.nbr s.nbr op hm ht
  · obtain ⟨x, hx, x1, x2, _⟩ := hq r _ _ _ k fl e' t h
    exact .inl ⟨x, by rw [e]; exact List.mem_append_right _ hx, x1, x2⟩

theorem Tended.newLsas {c : RConf} {A : AdjacencyList} (hp : Priced A) (hu : (A.map (·.uri)).Nodup) {a : Adjacent} (ha : a ∈ A) :
    ∀ (l : List Name) {s : Router}, All c s → s.nbr.adjs = A → Tended s a.name a.uri →
    Tended (l.foldl (fun s r => Router.nbrStep c s (.newLsa r)) s) a.name a.uri := by
  intro l
  induction l with
  | nil => intro s _ _ h; exact h
  | cons r rs ih =>
    intro s hall hA h
    have hs := newLsa_adjs c.nbr s.nbr r
    obtain ⟨c1, h1, -⟩ := nbrStep_sends hall.base (.newLsa r) nofun (by rw [hs, hA]; exact hp) (by rw [hs, hA]; exact hu)
    exact ih (hall.base.nbrStep (.newLsa r)) (by rw [nbrStep_nbr, hs, hA])
      (Tended.sends h1 (by rw [hA]; exact List.mem_map.2 ⟨a, ha, rfl⟩) (.inl h))

theorem Tended.coreStep {c : RConf} {s : Router} (hall : All c s) (hp : Priced s.nbr.adjs) (hu : (s.nbr.adjs.map (·.uri)).Nodup)
    {a : Adjacent} (ha : a ∈ s.nbr.adjs) (h : Tended s a.name a.uri) (op : Core.Op) (ho : outsideCore op = true) :
    Tended (Router.coreStep c s op) a.name a.uri := by
  rw [coreStep_told]
  exact Tended.newLsas hp hu ha _ (hall.told op ho) (by rw [(told_same c s op).1]) (h.told op)

theorem Tended.regOk {c : RConf} {s : Router} (hall : All c s) (hd : s.nbr.dead = false) (hp : Priced s.nbr.adjs)
    (hu : (s.nbr.adjs.map (·.uri)).Nodup) {a : Adjacent} (ha : a ∈ s.nbr.adjs) (h : Tended s a.name a.uri) (i : Nat)
    (hr : ∀ r, s.fib.regs[i]? = some r → s.nbr.adjs.faceIdOf r.uri = r.fid) : Tended (Router.regOk c s i) a.name a.uri := by
  unfold Router.regOk
  cases he : s.fib.regs[i]? with
  | none => exact h
  | some r =>
    dsimp only
    have hf := hr r he
    have hb1 : Base c { s with fib := Fib.step c.fib s.fib (.regOk i) } := hall.base.fibStep rfl
    have hregs : (Fib.step c.fib s.fib (.regOk i)).regs = s.fib.regs.eraseIdx i := by
      show (Fib.regOk s.fib i).regs = _
      unfold Fib.regOk; rw [he]
    have hs1 : Nbr.step c.nbr s.nbr (.regFace r.uri r.fid) = { s.nbr with hist := s.nbr.hist ++ [.regFace r.uri r.fid] } := by
      unfold Nbr.step
      rw [if_neg (by rw [hd]; nofun)]
      show Nbr.regFace s.nbr r.uri r.fid = _
      unfold Nbr.regFace
      rw [Nbr.setFaceOf_self hf]
    obtain ⟨c1, h1, -⟩ := nbrStep_sends hb1 (.regFace r.uri r.fid) (fun u f e => by injection e with e1 e2; subst e1; subst e2; exact hf)
      (by dsimp only; rw [hs1]; exact hp) (by dsimp only; rw [hs1]; exact hu)
    have ha1 := hb1.nbrStep (.regFace r.uri r.fid)
    have hnb : (Router.nbrStep c { s with fib := Fib.step c.fib s.fib (.regOk i) } (.regFace r.uri r.fid)).nbr =
        { s.nbr with hist := s.nbr.hist ++ [.regFace r.uri r.fid] } := by
      rw [nbrStep_nbr, hs1]
    obtain ⟨q, e, -⟩ := h1.regs
    generalize Router.nbrStep c { s with fib := Fib.step c.fib s.fib (.regOk i) } (.regFace r.uri r.fid) = s1 at ha1 hnb e
    have hs2 : ∀ s' : Router, (Nbr.step c.nbr s'.nbr (.registered r.name)).adjs = s'.nbr.adjs := by
      intro s'
      unfold Nbr.step
      split
      · rfl
      · exact (Nbr.sendHello_quiet c.nbr s'.nbr r.name).adjs
    have hadj : s1.nbr.adjs = s.nbr.adjs := by rw [hnb]
    obtain ⟨c2, h2, -⟩ := nbrStep_sends ha1.base (.registered r.name) nofun (by rw [hs2, hadj]; exact hp) (by rw [hs2, hadj]; exact hu)
    by_cases hn : r.name = a.name
    · refine .inr ?_
      rw [nbrStep_nbr]
      have : Nbr.step c.nbr s1.nbr (.registered r.name) = Nbr.sendHello c.nbr s1.nbr r.name := by
        unfold Nbr.step
        rw [if_neg (by rw [hnb]; show ¬ s.nbr.dead = true; rw [hd]; nofun)]
        rfl
      rw [this, hn]
      exact Nbr.sendHello_timer c.nbr s1.nbr (by rw [hadj]; exact List.mem_map.2 ⟨a, ha, rfl⟩)
    · refine Tended.sends h2 (by rw [hadj]; exact List.mem_map.2 ⟨a, ha, rfl⟩) (.inl ?_)
      rcases h with ⟨x, hx, x1, x2⟩ | h
      · refine .inl ⟨x, ?_, x1, x2⟩
        rw [e]
        refine List.mem_append_left _ ?_
        show x ∈ (Fib.step c.fib s.fib (.regOk i)).regs
        rw [hregs, List.mem_eraseIdx_iff_getElem?]
        obtain ⟨j, hj⟩ := List.mem_iff_getElem?.1 hx
        refine ⟨j, fun hc => ?_, hj⟩
        subst hc
        rw [he] at hj
        injection hj with hj
        exact hn (by rw [hj]; exact x1)
      · exact .inr (by rw [hnb]; exact h)

end Router

namespace World
open Router Fib

/-- An orderly run in which NFD's answers and the neighbours' replies come while the face is there. -/
structure Prompt (c : RConf) (w : World) (op : Router.Op) : Prop extends Orderly c w op where
  answered : ∀ i r, op = .regOk i → w.r.fib.regs[i]? = some r → w.r.nbr.adjs.faceIdOf r.uri = r.fid
  heard : ∀ i d, op = .nbr (.valid i) → w.r.nbr.validating[i]? = some d → ∀ a ∈ w.r.nbr.adjs, a.name = Name.getPrefix d (-4) →
    0 < a.faceId

/-- Routes for the neighbour's name are over its face only, unless it is the LSA or sync prefix. -/
def Alone (c : RConf) (R : Rib) (a : Adjacent) : Prop :=
  a.name ≠ c.lsdb.names.lsaPrefix → a.name ≠ c.syncPrefix → ∀ f, R a.name f ≠ none → 0 < f ∧ f = a.faceId

theorem alone_fold {c : RConf} {A : AdjacencyList} (hn : (A.map (·.name)).Nodup) {a : Adjacent} (ha : a ∈ A) :
    ∀ (cmds : List NfdCmd), (∀ x ∈ cmds, Fair c A a.name x) → ∀ {R : Rib}, Alone c R a → Alone c (cmds.foldl nfdStep R) a := by
  intro cmds
  induction cmds with
  | nil => exact fun _ _ h => h
  | cons x xs ih =>
    intro hf R h
    refine ih (fun y hy => hf y (List.mem_cons_of_mem _ hy)) ?_
    have hx := hf x List.mem_cons_self
    intro h1 h2 f hr
    cases x with
    | strategy r m st => exact h h1 h2 f hr
    | unregister m u g =>
      refine h h1 h2 f ?_
      have hr : (if a.name = m ∧ f = g then none else R a.name f) ≠ none := hr
      rw [if_neg (fun hc => hx hc.1.symm)] at hr
      exact hr
    | register r m u g k fl e t =>
      have hr : (if a.name = m ∧ f = g then some _ else R a.name f) ≠ none := hr
      split at hr
      · rename_i hc
        obtain ⟨_, _, b, hb, b1, b2, _, b4, b5⟩ := hx hc.1.symm
        have hab : a = b := by
          rcases b5 with h | h | h
          · exact Option.some.inj ((AdjacencyList.mem_find hn ha).symm.trans (by rw [h]; exact AdjacencyList.mem_find hn hb))
          · exact absurd h h1
          · exact absurd h h2
        subst hab
        exact ⟨by omega, by omega⟩
      · exact h h1 h2 f hr

/-- Routes for `n` are over faces of neighbours only. -/
def Near (A : AdjacencyList) (R : Rib) (n : Name) : Prop := ∀ f, R n f ≠ none → 0 < f ∧ ∃ a ∈ A, a.faceId = f

theorem near_fold {c : RConf} {A : AdjacencyList} {n : Name} :
    ∀ (cmds : List NfdCmd), (∀ x ∈ cmds, Fair c A n x) → ∀ {R : Rib}, Near A R n → Near A (cmds.foldl nfdStep R) n := by
  intro cmds
  induction cmds with
  | nil => exact fun _ _ h => h
  | cons x xs ih =>
    intro hf R h
    refine ih (fun y hy => hf y (List.mem_cons_of_mem _ hy)) ?_
    have hx := hf x List.mem_cons_self
    intro f hr
    cases x with
    | strategy r m st => exact h f hr
    | unregister m u g =>
      refine h f ?_
      have hr : (if n = m ∧ f = g then none else R n f) ≠ none := hr
      rw [if_neg (fun hc => hx hc.1.symm)] at hr
      exact hr
    | register r m u g k fl e t =>
      have hr : (if n = m ∧ f = g then some _ else R n f) ≠ none := hr
      split at hr
      · rename_i hc
        obtain ⟨_, _, b, hb, b1, b2, _, b4, _⟩ := hx hc.1.symm
        exact ⟨by omega, b, hb, by omega⟩
      · exact h f hr

/-- The neighbours that have a face have the routes NLSR needs for itself. -/
structure Greets (c : RConf) (w : World) : Prop where
  apart : ∀ n, Mine c n w.r → Apart n w.r
  up : ∀ a ∈ w.r.nbr.adjs, a.status = .active → 0 < a.faceId
  name : ∀ a ∈ w.r.nbr.adjs, 0 < a.faceId → Serves w.rib a.name a
  lsa : Mine c c.lsdb.names.lsaPrefix w.r → ∀ a ∈ w.r.nbr.adjs, 0 < a.faceId → Serves w.rib c.lsdb.names.lsaPrefix a
  sync : Mine c c.syncPrefix w.r → ∀ a ∈ w.r.nbr.adjs, a.status = .active → 0 < a.faceId → Serves w.rib c.syncPrefix a
  alone : ∀ a ∈ w.r.nbr.adjs, Alone c w.rib a
  near : ∀ n, Mine c n w.r → Near w.r.nbr.adjs w.rib n

theorem ident_step {c : RConf} (w : World) (op : Router.Op) :
    (World.step c w op).r.nbr.adjs.map Adjacent.ident = w.r.nbr.adjs.map Adjacent.ident := by
  unfold World.step
  split
  · rfl
  · show (Router.step c w.r op).nbr.adjs.map Adjacent.ident = _
    cases step_does c w.r op with
    | nothing h => exact h.ident
    | lsdb o _ _ x _ hn h => exact h.ident.trans hn

theorem priced_ident {A B : AdjacencyList} (h : B.map Adjacent.ident = A.map Adjacent.ident) (hp : Priced B) : Priced A := by
  intro a ha
  have : a.ident ∈ B.map Adjacent.ident := by rw [h]; exact List.mem_map_of_mem ha
  obtain ⟨b, hb, e⟩ := List.mem_map.1 this
  rw [← Nbr.linkCost_ident e]
  exact hp b hb

theorem uris_ident {A B : AdjacencyList} (h : B.map Adjacent.ident = A.map Adjacent.ident) (hp : (B.map (·.uri)).Nodup) :
    (A.map (·.uri)).Nodup := by
  have e : ∀ l : AdjacencyList, l.map (·.uri) = (l.map Adjacent.ident).map (fun p => p.2.1) := by
    intro l; rw [List.map_map]; rfl
  rw [e, ← h, ← e]
  exact hp

/-- A step in which the neighbours stay as they are. -/
theorem Greets.still {c : RConf} {w : World} (h : Greets c w) (hnd : (w.r.nbr.adjs.map (·.name)).Nodup) {r' : Router} {R : Rib} (ha : r'.nbr.adjs = w.r.nbr.adjs)
    (hu : (w.r.nbr.adjs.map (·.uri)).Nodup) (hd : FacesDiffer w.r.nbr.adjs)
    (hmine : ∀ n, Mine c n r' → Mine c n w.r)
    (hk : ∀ n, Mine c n r' → ∃ cmds, Keeps c w.r.nbr.adjs n w.r r' cmds) (hR : R = ribAt (w.rib, w.r.fib.log.length) r'.fib.log) :
    Greets c ⟨r', R⟩ := by
  have key : ∀ n, Mine c n r' → ∀ a ∈ w.r.nbr.adjs, 0 < a.faceId → Serves w.rib n a → Serves R n a := by
    intro n hn a hm h0 hs
    obtain ⟨cmds, k⟩ := hk n hn
    rw [hR, k.log, ribAt_append (Nat.le_refl _), ribAt_here]
    exact serves_fold hu hd hm h0 cmds k.fair _ (.inl hs)
  refine ⟨fun n hn => ?_, ?_, ?_, ?_, ?_, ?_, ?_⟩
  · obtain ⟨cmds, k⟩ := hk n hn
    exact k.apart
  · show ∀ a ∈ r'.nbr.adjs, _
    rw [ha]; exact h.up
  · show ∀ a ∈ r'.nbr.adjs, _
    rw [ha]
    exact fun a hm h0 => key a.name (.inl ⟨a, by rw [ha]; exact hm, rfl⟩) a hm h0 (h.name a hm h0)
  · show Mine c _ r' → ∀ a ∈ r'.nbr.adjs, _
    rw [ha]
    exact fun hn a hm h0 => key _ hn a hm h0 (h.lsa (hmine _ hn) a hm h0)
  · show Mine c _ r' → ∀ a ∈ r'.nbr.adjs, _
    rw [ha]
    exact fun hn a hm hst h0 => key _ hn a hm h0 (h.sync (hmine _ hn) a hm hst h0)
  · show ∀ a ∈ r'.nbr.adjs, _
    rw [ha]
    intro a hm
    obtain ⟨cmds, k⟩ := hk a.name (.inl ⟨a, by rw [ha]; exact hm, rfl⟩)
    rw [hR, k.log, ribAt_append (Nat.le_refl _), ribAt_here]
    exact alone_fold hnd hm cmds k.fair (h.alone a hm)
  · intro n hn
    show Near r'.nbr.adjs R n
    rw [ha]
    obtain ⟨cmds, k⟩ := hk n hn
    rw [hR, k.log, ribAt_append (Nat.le_refl _), ribAt_here]
    exact near_fold cmds k.fair (h.near n (hmine n hn))

theorem forget_none {op : Router.Op} {R : Rib} {n : Name} {f : Nat} (h : R n f = none) : forget op R n f = none := by
  by_cases hop : ∃ g, op = .nbr (.faceDown g)
  · obtain ⟨g, rfl⟩ := hop
    show (if f = g then none else R n f) = none
    rw [h]; exact ite_self _
  · rw [forget_same (fun g hc => hop ⟨g, hc⟩)]; exact h

/-- A step of the hello protocol or the face code. -/
theorem Greets.nbrStep {c : RConf} {w : World} (ha : All c w.r) (h : Greets c w) {op : Nbr.Op} (hp : Prompt c w (.nbr op))
    (hdead : w.r.nbr.dead = false) (hout : outsideNbr op = true)
    (hd : FacesDiffer w.r.nbr.adjs) (hd' : FacesDiffer (Nbr.step c.nbr w.r.nbr op).adjs)
    (hpr : Priced (Nbr.step c.nbr w.r.nbr op).adjs) (hu : (w.r.nbr.adjs.map (·.uri)).Nodup)
    (hu' : ((Nbr.step c.nbr w.r.nbr op).adjs.map (·.uri)).Nodup) (hmine : ∀ n, Mine c n (Router.nbrStep c w.r op) → Mine c n w.r) :
    Greets c ⟨Router.nbrStep c w.r op, ribAt (forget (.nbr op) w.rib, w.r.fib.log.length) (Router.nbrStep c w.r op).fib.log⟩ := by
  have hnr : ∀ u f, op = .regFace u f → w.r.nbr.adjs.faceIdOf u = f := by rintro u f rfl; cases hout
  obtain ⟨cmds, hs, hg⟩ := nbrStep_sends ha.base op hnr hpr hu'
  have hadj : (Router.nbrStep c w.r op).nbr.adjs = (Nbr.step c.nbr w.r.nbr op).adjs := by rw [nbrStep_nbr]
  have hrib : ribAt (forget (.nbr op) w.rib, w.r.fib.log.length) (Router.nbrStep c w.r op).fib.log =
      cmds.foldl nfdStep (forget (.nbr op) w.rib) := by
    rw [hs.log, ribAt_append (Nat.le_refl _), ribAt_here]
  rw [hrib]
  have hid : ∀ {a}, a ∈ w.r.nbr.adjs → w.r.nbr.adjs.faceIdOf a.uri = a.faceId := fun hm => AdjacencyList.faceIdOf_mem hu _ hm
  have hid' : ∀ {a}, a ∈ (Nbr.step c.nbr w.r.nbr op).adjs → (Nbr.step c.nbr w.r.nbr op).adjs.faceIdOf a.uri = a.faceId :=
    fun hm => AdjacencyList.faceIdOf_mem hu' _ hm
  /- a face that stays keeps its routes -/
  have stay : ∀ n a a', a ∈ w.r.nbr.adjs → a' ∈ (Nbr.step c.nbr w.r.nbr op).adjs → a'.ident = a.ident → 0 < a'.faceId →
      a'.faceId = a.faceId → Serves w.rib n a → Serves (forget (.nbr op) w.rib) n a' := by
    intro n a a' hm hm' hi h0 hf hv
    obtain ⟨p1, p2, p3⟩ := Nbr.ident_parts hi
    obtain ⟨r, r1, r2, r3⟩ := hv
    refine ⟨r, ?_, by rw [Nbr.linkCost_ident hi]; exact r2, r3⟩
    rw [hf]
    by_cases hop : ∃ g, op = .faceDown g
    · obtain ⟨g, rfl⟩ := hop
      show (if a.faceId = g then none else w.rib n a.faceId) = _
      rw [if_neg]
      · exact r1
      · rintro rfl
        have := Nbr.step_faceId c.nbr w.r.nbr hd (.faceDown a.faceId) a.uri (by rw [hid hm]; omega)
        rw [hid hm, ← p2, hid' hm'] at this
        rcases this with ⟨v, f, hv, _⟩ | ⟨_, h2⟩ | ⟨_, h2⟩
        · rcases hv with hv | hv <;> cases hv
        · exact h2 rfl
        · have := h2 hdead; omega
    · rw [forget_same (fun f hc => hop ⟨f, by injection hc⟩)]; exact r1
  /- a neighbour that had a face has it still or has none -/
  have hold : ∀ a a', a ∈ w.r.nbr.adjs → a' ∈ (Nbr.step c.nbr w.r.nbr op).adjs → a'.ident = a.ident → 0 < a.faceId →
      a'.faceId = a.faceId ∨ op = .faceDown a.faceId := by
    intro a a' hm hm' hi h0
    obtain ⟨p1, p2, p3⟩ := Nbr.ident_parts hi
    have := Nbr.step_faceId c.nbr w.r.nbr hd op a.uri (by rw [hid hm]; exact h0)
    rw [hid hm, ← p2, hid' hm'] at this
    rcases this with ⟨v, f, hv, hx⟩ | ⟨h1, _⟩ | ⟨h1, _⟩
    · rcases hx with hx | ⟨hx, hy⟩
      · exact .inl hx
      · rcases hv with rfl | rfl
        · left
          have := hp.raised v f rfl (by rw [← hx, p2, hid hm]; exact h0)
          rw [← hx, p2, hid hm] at this
          omega
        · cases hout
    · exact .inl h1
    · exact .inr h1
  have hact : ∀ a' ∈ (Nbr.step c.nbr w.r.nbr op).adjs, a'.status = .active → 0 < a'.faceId := by
    intro a' hm' hst
    rcases Nbr.step_active c.nbr w.r.nbr ha.base.nbr.ninv.nodup op hnr hm' hst with ⟨a, hm, h1, h2⟩ | ⟨i, d, rfl, h2, a, hm, h3, h4⟩
    · have h0 := h.up a hm h1
      rcases hold a a' hm hm' h2 h0 with h3 | h3
      · omega
      · subst h3
        have hm'' : a' ∈ (Nbr.faceDown c.nbr w.r.nbr a.faceId).adjs := by
          have e : Nbr.step c.nbr w.r.nbr (.faceDown a.faceId) = Nbr.faceDown c.nbr w.r.nbr a.faceId := by
            unfold Nbr.step; rw [if_neg (by rw [hdead]; nofun)]; rfl
          rw [← e]; exact hm'
        exact h.up a' (Nbr.down_active c.nbr w.r.nbr ha.base.nbr.ninv.nodup a.faceId hm'' hst) hst
    · rw [h4]; exact hp.heard i d rfl h2 a hm h3
  have hfold : ∀ n a', a' ∈ (Nbr.step c.nbr w.r.nbr op).adjs → 0 < a'.faceId →
      Serves (forget (.nbr op) w.rib) n a' ∨ Asked n a' cmds → Serves (cmds.foldl nfdStep (forget (.nbr op) w.rib)) n a' :=
    fun n a' hm' h0 hx => serves_fold hu' hd' hm' h0 cmds (hs.fair n) _ hx
  refine ⟨fun n hn => (hs.keeps (c := c) (nbrStep_names c ha.base op) (h.apart n (hmine n hn))).apart, ?_, ?_, ?_, ?_, ?_, ?_⟩
  · show ∀ a ∈ (Router.nbrStep c w.r op).nbr.adjs, _
    rw [hadj]; exact hact
  · show ∀ a ∈ (Router.nbrStep c w.r op).nbr.adjs, _
    rw [hadj]
    intro a' hm' h0
    refine hfold _ a' hm' h0 ?_
    obtain ⟨a, hm, g⟩ := hg a' hm'
    rcases g.face with h1 | h1 | ⟨h1, _⟩
    · left
      refine stay _ a a' hm hm' g.ident h0 h1 ?_
      rw [(Nbr.ident_parts g.ident).1]
      exact h.name a hm (by omega)
    · omega
    · exact .inr h1
  · show _ → ∀ a ∈ (Router.nbrStep c w.r op).nbr.adjs, _
    rw [hadj]
    intro hn a' hm' h0
    refine hfold _ a' hm' h0 ?_
    obtain ⟨a, hm, g⟩ := hg a' hm'
    rcases g.face with h1 | h1 | ⟨_, h1⟩
    · exact .inl (stay _ a a' hm hm' g.ident h0 h1 (h.lsa (hmine _ hn) a hm (by omega)))
    · omega
    · exact .inr h1
  · show _ → ∀ a ∈ (Router.nbrStep c w.r op).nbr.adjs, _
    rw [hadj]
    intro hn a' hm' hst h0
    refine hfold _ a' hm' h0 ?_
    obtain ⟨a, hm, g⟩ := hg a' hm'
    rcases g.status hst with h1 | h1 | h1
    · have h2 := h.up a hm h1
      rcases hold a a' hm hm' g.ident h2 with h3 | h3
      · exact .inl (stay _ a a' hm hm' g.ident h0 h3 (h.sync (hmine _ hn) a hm h1 h2))
      · subst h3
        have := Nbr.step_faceId c.nbr w.r.nbr hd (.faceDown a.faceId) a.uri (by rw [hid hm]; exact h2)
        rw [hid hm, ← (Nbr.ident_parts g.ident).2.1, hid' hm'] at this
        rcases this with ⟨v, f, hv, _⟩ | ⟨_, h4⟩ | ⟨_, h4⟩
        · rcases hv with hv | hv <;> cases hv
        · exact absurd rfl h4
        · have := h4 hdead; omega
    · omega
    · exact .inr h1
  · show ∀ a ∈ (Router.nbrStep c w.r op).nbr.adjs, _
    rw [hadj]
    intro a' hm'
    refine alone_fold (ha.base.nbr.step op).ninv.nodup hm' cmds (hs.fair _) ?_
    obtain ⟨a, hm, g⟩ := hg a' hm'
    intro h1 h2 f hr
    rw [(Nbr.ident_parts g.ident).1] at h1 h2 hr
    have hr' : w.rib a.name f ≠ none := fun hc => hr (forget_none hc)
    obtain ⟨f0, rfl⟩ := h.alone a hm h1 h2 f hr'
    refine ⟨f0, ?_⟩
    rcases hold a a' hm hm' g.ident f0 with h3 | rfl
    · exact h3.symm
    · exact absurd (if_pos rfl) hr
  · intro n hn
    show Near (Router.nbrStep c w.r op).nbr.adjs _ n
    rw [hadj]
    refine near_fold cmds (hs.fair _) ?_
    intro f hr
    have hr' : w.rib n f ≠ none := fun hc => hr (forget_none hc)
    obtain ⟨f0, a, hm, rfl⟩ := h.near n (hmine n hn) f hr'
    refine ⟨f0, ?_⟩
    have hnm : a.name ∈ (Nbr.step c.nbr w.r.nbr op).adjs.map (·.name) := by
      rw [AdjacencyList.map_names_of_place (Nbr.step_place c.nbr w.r.nbr op)]
      exact List.mem_map.2 ⟨a, hm, rfl⟩
    obtain ⟨a', hm', e⟩ := List.mem_map.1 hnm
    obtain ⟨b, hb, g⟩ := hg a' hm'
    have hab : b = a := by
      have hnd := ha.base.nbr.ninv.nodup
      refine Option.some.inj ((AdjacencyList.mem_find hnd hb).symm.trans ?_)
      rw [← (Nbr.ident_parts g.ident).1, e]
      exact AdjacencyList.mem_find hnd hm
    subst hab
    refine ⟨a', hm', ?_⟩
    rcases hold b a' hm hm' g.ident f0 with h3 | rfl
    · exact h3
    · exact absurd (if_pos rfl) hr

theorem Greets.step {c : RConf} {w : World} (ha : All c w.r) (h : Greets c w) {op : Router.Op} (hp : Prompt c w op)
    (hd : FacesDiffer w.r.nbr.adjs) (hpr : Priced (World.step c w op).r.nbr.adjs)
    (hu : ((World.step c w op).r.nbr.adjs.map (·.uri)).Nodup) : Greets c (World.step c w op) := by
  have hpr0 := priced_ident (ident_step w op) hpr
  have hu0 := uris_ident (ident_step w op) hu
  have hdiff := hp.differ
  unfold World.step at hdiff hpr hu ⊢
  by_cases he : w.r.ended = true
  · rw [if_pos he]; exact h
  rw [if_neg he] at hdiff hpr hu ⊢
  have hdead : w.r.nbr.dead = false := by
    unfold Router.ended at he
    cases hd : w.r.nbr.dead with
    | false => rfl
    | true => rw [hd] at he; simp at he
  have hmine : ∀ n, Mine c n (Router.step c w.r op) → Mine c n w.r := fun n hn => hn.back ha
  have hlogs : ∀ n, Mine c n (Router.step c w.r op) → w.r.fib.adjs.isNeighbor n = true ∨
      Core.Mentions c.lsdb.router (· ≠ n) (Router.step c w.r op).core.lsdb.log := by
    intro n hn
    rcases hn with hn | hn
    · left
      obtain ⟨a, h1, h2⟩ := hn
      have h3 := List.mem_map.2 ⟨a, h1, h2⟩
      rw [step_names ha op] at h3
      obtain ⟨b, hb, e⟩ := List.mem_map.1 h3
      exact neighbor_of ha.base ⟨b, hb, e⟩
    · exact .inr hn
  have hstep : Router.step c w.r op = Router.stepOp c w.r op := by unfold Router.step; rw [if_neg he]
  rw [hstep] at hdiff hpr hu hmine hlogs ⊢
  have same : ∀ {r' : Router}, r'.nbr.adjs = w.r.nbr.adjs → r'.core = w.r.core → (∀ n, Apart n w.r → Aside n w.r.fib r'.fib) →
      ∀ n, Mine c n r' → ∃ cmds, Keeps c w.r.nbr.adjs n w.r r' cmds := by
    intro r' h1 h2 h3 n hn
    have hn' : Mine c n w.r := by unfold Mine at hn ⊢; rw [h1, h2] at hn; exact hn
    have hap := h.apart n hn'
    obtain ⟨⟨cmds, e, ho⟩, hf, hadj⟩ := h3 n hap
    refine ⟨cmds, e, fun x hx => fair_of_off (ho x hx), ?_⟩
    unfold Apart at hap ⊢
    rw [hadj, h2]
    cases hb : w.r.fib.adjs.isNeighbor n with
    | true => exact .inl rfl
    | false => rw [hb] at hap; have hap := hap.resolve_left nofun; exact .inr ⟨hap.1, hf hb hap.2⟩
  have whole : ∀ {f : Fib}, f.adjs = w.r.fib.adjs → f.table = w.r.fib.table →
      (∃ cmds, f.log = w.r.fib.log ++ cmds ∧ ∀ n, ∀ x ∈ cmds, Off n x) → ∀ n, Aside n w.r.fib f := by
    rintro f h1 h2 ⟨cmds, h3, h4⟩ n
    exact ⟨⟨cmds, h3, h4 n⟩, fun _ hf => by rw [Fib.find_congr h2]; exact hf, h1⟩
  cases op with
  | nbr op =>
    by_cases hout : Router.outsideNbr op = true
    · have e1 : Router.stepOp c w.r (.nbr op) = Router.nbrStep c w.r op := if_pos hout
      rw [e1] at hdiff hpr hu hmine ⊢
      rw [nbrStep_nbr] at hdiff hpr hu
      exact h.nbrStep ha hp hdead hout hd hdiff hpr hu0 hu hmine
    · have e1 : Router.stepOp c w.r (.nbr op) = w.r := if_neg hout
      rw [e1]
      rw [forget_same (by intro f hc; injection hc with hc; subst hc; exact hout rfl), ribAt_here]
      exact h
  | core op =>
    rw [forget_same (by intro f hc; cases hc)]
    by_cases hout : Router.outsideCore op = true
    · have e1 : Router.stepOp c w.r (.core op) = Router.coreStep c w.r op := if_pos hout
      rw [e1] at hmine hlogs ⊢
      exact h.still ha.base.nbr.ninv.nodup (coreStep_adjs c w.r op) hu0 hd hmine
        (fun n hn => coreStep_keeps ha (h.apart n (hmine n hn)) hpr0 hu0 op hout (hlogs n hn)) rfl
    · have e1 : Router.stepOp c w.r (.core op) = w.r := if_neg hout
      rw [e1, ribAt_here]; exact h
  | regOk i =>
    rw [forget_same (by intro f hc; cases hc)]
    have e1 : Router.stepOp c w.r (.regOk i) = Router.regOk c w.r i := rfl
    rw [e1] at hmine ⊢
    have hr : ∀ r, w.r.fib.regs[i]? = some r → w.r.nbr.adjs.faceIdOf r.uri = r.fid := fun r hr => hp.answered i r rfl hr
    have hadj : (Router.regOk c w.r i).nbr.adjs = w.r.nbr.adjs := regOk_adjs ha hdead i hr
    exact h.still ha.base.nbr.ninv.nodup hadj hu0 hd hmine (fun n hn => (regOk_keeps ha hdead (h.apart n (hmine n hn)) hpr0 hu0 i hr).2) rfl
  | regFail i => exact absurd rfl (hp.accepts i)
  | stratOk i =>
    rw [forget_same (by intro f hc; cases hc)]
    exact h.still ha.base.nbr.ninv.nodup rfl hu0 hd hmine (same rfl rfl (fun n _ => whole (f := Fib.step c.fib w.r.fib (.stratOk i)) rfl rfl ⟨[], by
      show w.r.fib.log = _; simp, (fun _ _ hx => by cases hx)⟩ n)) rfl
  | stratFail i =>
    rw [forget_same (by intro f hc; cases hc)]
    refine h.still ha.base.nbr.ninv.nodup rfl hu0 hd hmine (same rfl rfl (fun n _ => ?_)) rfl
    show Aside n w.r.fib (Fib.stratFail w.r.fib i)
    unfold Fib.stratFail
    split
    · exact .refl n _
    · rename_i r _
      dsimp only
      split
      · refine whole ?_ ?_ ⟨[.strategy r.root r.name r.strat], ?_, fun n x hx => ?_⟩ n
        · rfl
        · rfl
        · rfl
        · rw [List.mem_singleton] at hx; subst hx; trivial
      · exact whole rfl rfl ⟨[], by simp, (fun _ _ hx => by cases hx)⟩ n
  | refresh m =>
    rw [forget_same (by intro f hc; cases hc)]
    refine h.still ha.base.nbr.ninv.nodup rfl hu0 hd hmine (same rfl rfl (fun n hap => ?_)) rfl
    exact refresh_aside c.fib ha.base.fib.inv m (hap.imp id (fun h => h.2))
  | clock dt sys =>
    rw [forget_same (by intro f hc; cases hc)]
    have hadj : (Nbr.step c.nbr w.r.nbr (.clock dt)).adjs = w.r.nbr.adjs := by unfold Nbr.step; split <;> rfl
    refine h.still ha.base.nbr.ninv.nodup hadj hu0 hd hmine (fun n hn => ?_) rfl
    have hap := h.apart n (hmine n hn)
    refine ⟨[], by show w.r.fib.log = _; simp, (fun _ hx => by cases hx), ?_⟩
    unfold Apart at hap ⊢
    show w.r.fib.adjs.isNeighbor n = true ∨ Npt.Within (· ≠ n) (Core.step c.core w.r.core (.lsdb (.clock dt sys))).npt ∧ w.r.fib.find n = none
    rcases hlogs n hn with h1 | h1
    · exact .inl h1
    · exact hap.imp id (fun hx => ⟨Core.within_step hx.1 _ h1, hx.2⟩)

theorem Via.differ {c : RConf} {P : World → Router.Op → Prop} (hP : ∀ w op, P w op → FacesDiffer (World.step c w op).r.nbr.adjs)
    {w : World} (h : Via c P w) : FacesDiffer w.r.nbr.adjs := by
  cases h with
  | init disk adjs npl sys hf =>
    intro a ha b hb h0 he
    have : a ∈ (Nbr.init c.nbr adjs).adjs := by
      have e : (Router.init c disk adjs npl sys).nbr = Nbr.init c.nbr adjs := applies_nbr c _ _
      rw [← e]; exact ha
    have := (Nbr.init_mem hf this).2.2.1
    omega
  | step h hp => exact hP _ _ hp

/-- Neighbours that have a face are looked after. -/
def Looks (w : World) : Prop := ∀ a ∈ w.r.nbr.adjs, 0 < a.faceId → Tended w.r a.name a.uri

theorem Looks.step {c : RConf} {w : World} (ha : All c w.r) (h : Looks w) {op : Router.Op} (hp : Prompt c w op)
    (hpr : Priced (World.step c w op).r.nbr.adjs)
    (hu : ((World.step c w op).r.nbr.adjs.map (·.uri)).Nodup) : Looks (World.step c w op) := by
  have hpr0 := priced_ident (ident_step w op) hpr
  have hu0 := uris_ident (ident_step w op) hu
  unfold World.step at hpr hu ⊢
  by_cases he : w.r.ended = true
  · rw [if_pos he]; exact h
  rw [if_neg he] at hpr hu ⊢
  have hdead : w.r.nbr.dead = false := by
    unfold Router.ended at he
    cases hd : w.r.nbr.dead with
    | false => rfl
    | true => rw [hd] at he; simp at he
  have hstep : Router.step c w.r op = Router.stepOp c w.r op := by unfold Router.step; rw [if_neg he]
  rw [hstep] at hpr hu ⊢
  show ∀ a ∈ (Router.stepOp c w.r op).nbr.adjs, 0 < a.faceId → Tended (Router.stepOp c w.r op) a.name a.uri
  dsimp only at hpr hu
  cases op with
  | nbr op =>
    by_cases hout : Router.outsideNbr op = true
    · have e1 : Router.stepOp c w.r (.nbr op) = Router.nbrStep c w.r op := if_pos hout
      rw [e1] at hpr hu ⊢
      rw [nbrStep_nbr] at hpr hu ⊢
      obtain ⟨cmds, hs, hg⟩ := nbrStep_sends ha.base op (by rintro u f rfl; cases hout) hpr hu
      intro a' hm' h0
      obtain ⟨a, hm, g⟩ := hg a' hm'
      obtain ⟨p1, p2, _⟩ := Nbr.ident_parts g.ident
      refine Tended.sends hs (by rw [p1]; exact List.mem_map.2 ⟨a, hm, rfl⟩) ?_
      rcases g.face with h1 | h1 | ⟨h1, _⟩
      · left; rw [p1, p2]; exact h a hm (by omega)
      · omega
      · exact .inr h1
    · have e1 : Router.stepOp c w.r (.nbr op) = w.r := if_neg hout
      rw [e1]; exact h
  | core op =>
    by_cases hout : Router.outsideCore op = true
    · have e1 : Router.stepOp c w.r (.core op) = Router.coreStep c w.r op := if_pos hout
      rw [e1, coreStep_adjs]
      exact fun a hm h0 => Tended.coreStep ha hpr0 hu0 hm (h a hm h0) op hout
    · have e1 : Router.stepOp c w.r (.core op) = w.r := if_neg hout
      rw [e1]; exact h
  | regOk i =>
    have e1 : Router.stepOp c w.r (.regOk i) = Router.regOk c w.r i := rfl
    rw [e1]
    have hr : ∀ r, w.r.fib.regs[i]? = some r → w.r.nbr.adjs.faceIdOf r.uri = r.fid := fun r hr => hp.answered i r rfl hr
    have hadj : (Router.regOk c w.r i).nbr.adjs = w.r.nbr.adjs := regOk_adjs ha hdead i hr
    rw [hadj]
    exact fun a hm h0 => Tended.regOk ha hdead hpr0 hu0 hm (h a hm h0) i hr
  | regFail i => exact absurd rfl (hp.accepts i)
  | stratOk i => exact fun a hm h0 => (h a hm h0).grow (fun _ hr => hr) id
  | stratFail i =>
    refine fun a hm h0 => (h a hm h0).grow (fun r hr => ?_) id
    show r ∈ (Fib.stratFail w.r.fib i).regs
    unfold Fib.stratFail
    split
    · exact hr
    · dsimp only; split <;> exact hr
  | refresh m => exact fun a hm h0 => (h a hm h0).refresh m
  | clock dt sys =>
    have hadj : (Nbr.step c.nbr w.r.nbr (.clock dt)).adjs = w.r.nbr.adjs := by unfold Nbr.step; split <;> rfl
    show ∀ a ∈ (Nbr.step c.nbr w.r.nbr (.clock dt)).adjs, _
    rw [hadj]
    exact fun a hm h0 => (h a hm h0).grow (fun _ hr => hr) (fun ht => Nbr.step_timer c.nbr w.r.nbr (.clock dt) (List.mem_map.2 ⟨a, hm, rfl⟩) ht)

theorem Via.looks {c : RConf} {w : World} (h : Via c (Prompt c) w) (hp : Priced w.r.nbr.adjs) (hu : (w.r.nbr.adjs.map (·.uri)).Nodup) :
    Looks w := by
  induction h with
  | init disk adjs npl sys hf =>
    have e : (Router.init c disk adjs npl sys).nbr = Nbr.init c.nbr adjs := applies_nbr c _ _
    intro a ha h0
    have ha : a ∈ (Router.init c disk adjs npl sys).nbr.adjs := ha
    rw [e] at ha
    have := (Nbr.init_mem hf ha).2.2.1
    omega
  | step h hop ih =>
    have hp0 := priced_ident (ident_step _ _) hp
    have hu0 := uris_ident (ident_step _ _) hu
    exact (ih hp0 hu0).step h.reachable.all hop hp hu

/-- At the start NFD has no routes of NLSR. -/
theorem init_rib (c : RConf) (disk : Option Seqs) (adjs : AdjacencyList) (npl : List PrefixInfo) (sys : Int) :
    (World.init c disk adjs npl sys).rib = fun _ _ => none := by
  have hfib : ∀ x ∈ (Router.init c disk adjs npl sys).fib.log, ∃ r m st, x = NfdCmd.strategy r m st := by
    unfold Router.init
    dsimp only
    have h1 := Router.syncFaces_same c.fib (Nbr.init c.nbr adjs).adjs { adjs := adjs }
    show ∀ x ∈ ((Router.syncFaces c.fib (Nbr.init c.nbr adjs).adjs { adjs := adjs }).log ++ [_]) ++ [_], _
    rw [h1.1]
    intro x hx
    simp only [List.nil_append, List.cons_append, List.mem_cons, List.not_mem_nil, or_false] at hx
    rcases hx with hx | hx
    · exact ⟨_, _, _, hx⟩
    · exact ⟨_, _, _, hx⟩
  have key : ∀ (l : List NfdCmd), (∀ x ∈ l, ∃ r m st, x = NfdCmd.strategy r m st) → ∀ R : Rib, l.foldl nfdStep R = R := by
    intro l
    induction l with
    | nil => intro _ R; rfl
    | cons x xs ih =>
      intro hl R
      obtain ⟨r, m, st, rfl⟩ := hl x List.mem_cons_self
      exact ih (fun y hy => hl y (List.mem_cons_of_mem _ hy)) R
  exact key _ hfib _

theorem Via.greets {c : RConf} {w : World} (h : Via c (Prompt c) w) (hp : Priced w.r.nbr.adjs) (hu : (w.r.nbr.adjs.map (·.uri)).Nodup) :
    Greets c w := by
  induction h with
  | init disk adjs npl sys hf =>
    have e : (Router.init c disk adjs npl sys).nbr = Nbr.init c.nbr adjs := applies_nbr c _ _
    have hz : ∀ a ∈ (Router.init c disk adjs npl sys).nbr.adjs, a.faceId = 0 ∧ a.status = .inactive := by
      intro a ha
      rw [e] at ha
      have := Nbr.init_mem hf ha
      exact ⟨this.2.2.1, this.1⟩
    refine ⟨fun n _ => .inr ⟨?_, ?_⟩, ?_, ?_, ?_, ?_, ?_, ?_⟩
    · have hnpt : (Router.init c disk adjs npl sys).core.npt = {} := by
        show (Core.step c.core (Core.init c.core disk adjs npl sys) (.lsdb (.setAdjs (Nbr.init c.nbr adjs).adjs))).npt = {}
        rw [Core.step_setAdjs]; rfl
      show Npt.Within (· ≠ n) (Router.init c disk adjs npl sys).core.npt
      rw [hnpt]
      exact ⟨nofun, nofun⟩
    · have ht : (Router.init c disk adjs npl sys).fib.table = [] := (syncFaces_adjs c.fib (Nbr.init c.nbr adjs).adjs { adjs := adjs }).2
      show (Router.init c disk adjs npl sys).fib.find n = none
      unfold Fib.find
      rw [ht]; rfl
    · intro a ha h1; rw [(hz a ha).2] at h1; cases h1
    · intro a ha h0; have := (hz a ha).1; omega
    · intro _ a ha h0; have := (hz a ha).1; omega
    · intro _ a ha h0; rw [(hz a ha).2] at h0; cases h0
    · intro a _ _ _ f hr
      exact absurd (congrFun (congrFun (init_rib c disk adjs npl sys) a.name) f) hr
    · intro n _ f hr
      exact absurd (congrFun (congrFun (init_rib c disk adjs npl sys) n) f) hr
  | step h hop ih =>
    have hp0 := priced_ident (ident_step _ _) hp
    have hu0 := uris_ident (ident_step _ _) hu
    exact (ih hp0 hu0).step h.reachable.all hop (h.differ (fun _ _ hx => hx.differ)) hp hu

end World
end Nlsr
