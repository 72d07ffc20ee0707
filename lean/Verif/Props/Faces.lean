import Verif.Props.Hello
import Verif.Model.Uri
/- C59-C61, C70: faces of neighbours, the face dataset, and strategies for certificates. -/
namespace Nlsr
open Nbr AdjacencyList

namespace FacesWitness
def conf : NConf :=
  { router := nm ["net", "a"], hyp := .off, retry := 3, resend := 1, interval := 60, lsaPrefix := nm ["localhop", "net", "LSA"],
    syncPrefix := nm ["localhop", "net", "sync"], tries := 3, fetchInt := 3600, nameTlv := fun t => t == 7 }
def adjs : AdjacencyList :=
  [{ name := nm ["net", "b"], uri := "udp4://b", cost := .fin 10 }, { name := nm ["net", "c"], uri := "udp4://c", cost := .fin 25 }]
/-- Two neighbours behind one face. -/
def shared : AdjacencyList :=
  [{ name := nm ["net", "b"], uri := "ether://m", cost := .fin 10 }, { name := nm ["net", "c"], uri := "ether://m", cost := .fin 25 }]
end FacesWitness

/-! ### C59 -/

def roundStep (r : List Nat × Nat) (x : NOut) : List Nat × Nat :=
  match x with
  | .fetch => (r.1, r.2 + 1)
  | .nextFetch => (r.1 ++ [r.2], 0)
  | _ => r

/-- The sizes of the finished rounds of dataset requests, and of the round going on, from the requests made. -/
def fetchRounds (o : List NOut) : List Nat × Nat := o.foldl roundStep ([], 0)

theorem fetchRounds_eq (o : List NOut) : fetchRounds o = o.foldl roundStep ([], 0) := rfl

def isFetch : NOut → Bool
  | .fetch | .nextFetch => true
  | _ => false

theorem rounds_skip (o : List NOut) (h : ∀ x ∈ o, isFetch x = false) (r : List Nat × Nat) : o.foldl roundStep r = r := by
  induction o generalizing r with
  | nil => rfl
  | cons x xs ih =>
    rw [List.foldl_cons]
    have : roundStep r x = r := by
      have := h x (List.mem_cons_self ..)
      cases x <;> first | rfl | cases this
    rw [this, ih (fun y hy => h y (List.mem_cons_of_mem _ hy))]

/-- What is known about dataset requests at any time. -/
structure FetchInv (c : NConf) (s : Nbr) : Prop where
  done : ∀ k ∈ (fetchRounds s.out).1, 1 ≤ k ∧ k ≤ c.tries + 1
  cur  : (∃ k, s.fetches = [k] ∧ s.rounds = [] ∧ (fetchRounds s.out).2 = k + 1 ∧ k ≤ c.tries) ∨
    ∃ d, s.fetches = [] ∧ s.rounds = [d] ∧ (fetchRounds s.out).2 = 0

theorem FetchInv.same {c : NConf} {s s' : Nbr} (h : FetchInv c s) (h1 : s'.fetches = s.fetches) (h2 : s'.rounds = s.rounds)
    (h3 : ∃ o, s'.out = s.out ++ o ∧ ∀ x ∈ o, isFetch x = false) : FetchInv c s' := by
  obtain ⟨o, ho, hx⟩ := h3
  have e : fetchRounds s'.out = fetchRounds s.out := by
    rw [fetchRounds_eq, fetchRounds_eq, ho, List.foldl_append, rounds_skip o hx]
  exact ⟨by rw [e]; exact h.done, by rw [e, h1, h2]; exact h.cur⟩

theorem rounds_snoc (o : List NOut) (x : NOut) : fetchRounds (o ++ [x]) = roundStep (fetchRounds o) x := by
  rw [fetchRounds_eq, fetchRounds_eq, List.foldl_append]; rfl

theorem getElem?_single {α : Type} {l : List α} {k p : α} {i : Nat} (hl : l = [k]) (h : l[i]? = some p) : p = k ∧ l.eraseIdx i = [] := by
  subst hl
  cases i with
  | zero => simp at h; exact ⟨h.symm, rfl⟩
  | succ i => simp at h

theorem FetchInv.step {c : NConf} {s : Nbr} (h : FetchInv c s) (op : Nbr.Op) : FetchInv c (Nbr.step c s op) := by
  have hsend : ∀ (s' : Nbr) n, s'.fetches = s.fetches → s'.rounds = s.rounds → s'.out = s.out → FetchInv c (Nbr.sendHello c s' n) := by
    intro s' n h1 h2 h3
    unfold Nbr.sendHello
    split
    · exact h.same h1 h2 ⟨[], by rw [h3, List.append_nil], by intro x hx; cases hx⟩
    · dsimp only
      split
      · refine h.same h1 h2 ⟨[_], by show s'.out ++ [_] = _; rw [h3], ?_⟩
        intro x hx; rw [List.mem_singleton] at hx; rw [hx]; rfl
      · exact h.same h1 h2 ⟨[], by show s'.out = _; rw [h3, List.append_nil], by intro x hx; cases hx⟩
  have hlost : ∀ (s' : Nbr) n, s'.fetches = s.fetches → s'.rounds = s.rounds → s'.out = s.out → FetchInv c (Nbr.lost c s' n) := by
    intro s' n h1 h2 h3
    unfold Nbr.lost
    dsimp only
    split
    · exact h.same h1 h2 ⟨[], by show s'.out = _; rw [h3, List.append_nil], by intro x hx; cases hx⟩
    · split
      · refine h.same h1 h2 ⟨[_], by show s'.out ++ [_] = _; rw [h3], ?_⟩
        intro x hx; rw [List.mem_singleton] at hx; rw [hx]; rfl
      · split
        · refine h.same h1 h2 ⟨[if c.hyp = .on then .calc else .build], by show s'.out ++ [_] = _; rw [h3], ?_⟩
          intro x hx; rw [List.mem_singleton] at hx; rw [hx]; split <;> rfl
        · exact h.same h1 h2 ⟨[], by show s'.out = _; rw [h3, List.append_nil], by intro x hx; cases hx⟩
  have hid : ∀ {s' : Nbr}, s'.fetches = s.fetches → s'.rounds = s.rounds → s'.out = s.out → FetchInv c s' :=
    fun h1 h2 h3 => h.same h1 h2 ⟨[], by rw [h3, List.append_nil], by intro x hx; cases hx⟩
  unfold Nbr.step
  split
  · exact h
  · cases op with
    | registered n => exact hsend s n rfl rfl rfl
    | helloTimer i =>
      show FetchInv c (Nbr.helloTimer c s i)
      unfold Nbr.helloTimer
      split
      · exact h
      · split
        · exact h
        · exact hsend _ _ rfl rfl rfl
    | interest n v =>
      show FetchInv c (Nbr.interest c s n v)
      unfold Nbr.interest
      split
      · exact h
      · split
        · exact h
        · split
          · exact h
          · split
            · exact hid rfl rfl rfl
            · split
              · exact h
              · rename_i m _ _ _ _
                dsimp only
                split
                · refine h.same rfl rfl ⟨[.data (n ++ [v]), .interest (helloName c m)], ?_, ?_⟩
                  · show (s.out ++ [_]) ++ [_] = _
                    rw [List.append_assoc]; rfl
                  · intro x hx
                    rcases List.mem_cons.1 hx with rfl | hx
                    · rfl
                    · rw [List.mem_singleton] at hx; rw [hx]; rfl
                · refine h.same rfl rfl ⟨[_], rfl, ?_⟩
                  intro x hx; rw [List.mem_singleton] at hx; rw [hx]; rfl
    | timeout i =>
      show FetchInv c (Nbr.timeout c s i)
      unfold Nbr.timeout
      split
      · exact h
      · split
        · exact h
        · exact hlost _ _ rfl rfl rfl
    | nack i =>
      show FetchInv c (Nbr.nack c s i)
      unfold Nbr.nack
      split
      · exact h
      · exact hid rfl rfl rfl
    | nackTimer i =>
      show FetchInv c (Nbr.nackTimer c s i)
      unfold Nbr.nackTimer
      split
      · exact h
      · split
        · exact h
        · exact hlost _ _ rfl rfl rfl
    | data i d =>
      show FetchInv c (Nbr.data s i d)
      unfold Nbr.data
      split
      · exact h
      · split
        · exact hid rfl rfl rfl
        · exact h
    | valid i =>
      show FetchInv c (Nbr.valid c s i)
      unfold Nbr.valid
      split
      · exact h
      · rename_i d _
        unfold Nbr.validated
        dsimp only
        split
        · split
          · refine h.same rfl rfl ⟨[if c.hyp = .on then .calc else .build, .initial (Name.getPrefix d (-4))], ?_, ?_⟩
            · show (s.out ++ [_]) ++ [_] = _
              rw [List.append_assoc]; rfl
            · intro x hx
              rcases List.mem_cons.1 hx with rfl | hx
              · split <;> rfl
              · rw [List.mem_singleton] at hx; rw [hx]; rfl
          · exact hid rfl rfl rfl
        · exact hid rfl rfl rfl
    | invalid i => exact hid rfl rfl rfl
    | faceDown fid =>
      show FetchInv c (Nbr.faceDown c s fid)
      unfold Nbr.faceDown
      dsimp only
      split
      · exact hid rfl rfl rfl
      · split
        · refine h.same rfl rfl ⟨[if c.hyp = .on then .calc else .build], rfl, ?_⟩
          intro x hx; rw [List.mem_singleton] at hx; rw [hx]; split <;> rfl
        · exact hid rfl rfl rfl
    | faceUp u fid =>
      show FetchInv c (Nbr.faceUp c s u fid)
      unfold Nbr.faceUp
      dsimp only
      split
      · exact hid rfl rfl rfl
      · rename_i a _
        split
        · refine h.same rfl rfl ⟨[.register a.name a.uri a.linkCost, .register c.lsaPrefix a.uri a.linkCost], ?_, ?_⟩
          · show (s.out ++ [_]) ++ [_] = _
            rw [List.append_assoc]; rfl
          · intro x hx
            rcases List.mem_cons.1 hx with rfl | hx
            · rfl
            · rw [List.mem_singleton] at hx; rw [hx]; rfl
        · exact hid rfl rfl rfl
    | fetchOk i faces =>
      show FetchInv c (Nbr.fetchOk c s i faces)
      unfold Nbr.fetchOk
      cases hf : s.fetches[i]? with
      | none => exact h
      | some p =>
        dsimp only
        rcases h.cur with ⟨k, h1, h2, h3, h4⟩ | ⟨d, h1, h2, h3⟩
        · obtain ⟨hp, he⟩ := getElem?_single h1 hf
          have hskip : fetchRounds (s.out ++ (useDataset c faces s.adjs).2) = fetchRounds s.out := by
            rw [fetchRounds_eq, fetchRounds_eq, List.foldl_append, rounds_skip]
            intro x hx
            obtain ⟨n, u, k, rfl⟩ := useDataset_out c faces s.adjs x hx
            rfl
          have hrs : fetchRounds (s.out ++ (useDataset c faces s.adjs).2 ++ [.nextFetch]) = ((fetchRounds s.out).1 ++ [k + 1], 0) := by
            rw [rounds_snoc, hskip]
            unfold roundStep
            dsimp only
            rw [h3]
          refine ⟨?_, Or.inr ⟨s.now + c.fetchInt * nsPerSec, he, ?_, ?_⟩⟩
          · show ∀ k ∈ (fetchRounds (s.out ++ (useDataset c faces s.adjs).2 ++ [.nextFetch])).1, _
            rw [hrs]
            intro j hj
            rcases List.mem_append.1 hj with hj | hj
            · exact h.done j hj
            · rw [List.mem_singleton] at hj; omega
          · show s.rounds ++ [_] = _
            rw [h2]; rfl
          · show (fetchRounds (s.out ++ (useDataset c faces s.adjs).2 ++ [.nextFetch])).2 = 0
            rw [hrs]
        · rw [h1] at hf; cases hf
    | fetchFail i =>
      show FetchInv c (Nbr.fetchFail c s i)
      unfold Nbr.fetchFail
      cases hf : s.fetches[i]? with
      | none => exact h
      | some p =>
        dsimp only
        rcases h.cur with ⟨k, h1, h2, h3, h4⟩ | ⟨d, h1, h2, h3⟩
        · obtain ⟨hp, he⟩ := getElem?_single h1 hf
          subst hp
          split
          · rename_i hlt
            have hrs : fetchRounds (s.out ++ [.fetch]) = ((fetchRounds s.out).1, p + 2) := by
              rw [rounds_snoc]
              unfold roundStep
              dsimp only
              rw [h3]
            refine ⟨?_, Or.inl ⟨p + 1, ?_, h2, ?_, hlt⟩⟩
            · show ∀ k ∈ (fetchRounds (s.out ++ [.fetch])).1, _
              rw [hrs]; exact h.done
            · show s.fetches.eraseIdx i ++ [p + 1] = _
              rw [he]; rfl
            · show (fetchRounds (s.out ++ [.fetch])).2 = _
              rw [hrs]
          · have hrs : fetchRounds (s.out ++ [.nextFetch]) = ((fetchRounds s.out).1 ++ [p + 1], 0) := by
              rw [rounds_snoc]
              unfold roundStep
              dsimp only
              rw [h3]
            refine ⟨?_, Or.inr ⟨s.now + c.fetchInt * nsPerSec, he, ?_, ?_⟩⟩
            · show ∀ k ∈ (fetchRounds (s.out ++ [.nextFetch])).1, _
              rw [hrs]
              intro j hj
              rcases List.mem_append.1 hj with hj | hj
              · exact h.done j hj
              · rw [List.mem_singleton] at hj; omega
            · show s.rounds ++ [_] = _
              rw [h2]; rfl
            · show (fetchRounds (s.out ++ [.nextFetch])).2 = 0
              rw [hrs]
        · rw [h1] at hf; cases hf
    | fetchTimer i =>
      show FetchInv c (Nbr.fetchTimer s i)
      unfold Nbr.fetchTimer
      cases hf : s.rounds[i]? with
      | none => exact h
      | some p =>
        dsimp only
        split
        · exact h
        · rcases h.cur with ⟨k, h1, h2, h3, h4⟩ | ⟨d, h1, h2, h3⟩
          · rw [h2] at hf; cases hf
          · obtain ⟨hp, he⟩ := getElem?_single h2 hf
            have hrs : fetchRounds (s.out ++ [.fetch]) = ((fetchRounds s.out).1, 1) := by
              rw [rounds_snoc]
              unfold roundStep
              dsimp only
              rw [h3]
            refine ⟨?_, Or.inl ⟨0, ?_, he, ?_, Nat.zero_le _⟩⟩
            · show ∀ k ∈ (fetchRounds (s.out ++ [.fetch])).1, _
              rw [hrs]; exact h.done
            · show s.fetches ++ [0] = _
              rw [h1]; rfl
            · show (fetchRounds (s.out ++ [.fetch])).2 = _
              rw [hrs]
    | newLsa o =>
      show FetchInv c (Nbr.newLsa s o)
      unfold Nbr.newLsa
      split
      · exact h
      · refine h.same rfl rfl ⟨_, rfl, ?_⟩
        intro x hx
        obtain ⟨n, _, rfl⟩ := List.mem_map.1 hx
        rfl
    | regFace u fid => exact hid rfl rfl rfl
    | clock dt => exact hid rfl rfl rfl

/-- C59: whatever fails and whenever, a finished round of dataset requests made at least one and at most tries + 1
requests; at any time there is either one request in flight or one next round scheduled, never both, never neither. -/
theorem C59_fetch {c : NConf} {s : Nbr} (h : Nbr.Reachable c s) :
    (∀ k ∈ (fetchRounds s.out).1, 1 ≤ k ∧ k ≤ c.tries + 1) ∧ (fetchRounds s.out).2 ≤ c.tries + 1 ∧
    s.fetches.length + s.rounds.length = 1 ∧ (s.rounds ≠ [] ↔ (fetchRounds s.out).2 = 0) := by
  have hi : FetchInv c s := by
    refine Reachable.induct (P := FetchInv c) ?_ (fun s op _ h => h.step op) h
    intro adjs _
    exact ⟨(by intro k hk; cases hk), Or.inl ⟨0, rfl, rfl, rfl, Nat.zero_le _⟩⟩
  refine ⟨hi.done, ?_⟩
  rcases hi.cur with ⟨k, h1, h2, h3, h4⟩ | ⟨d, h1, h2, h3⟩
  · rw [h1, h2, h3]
    exact ⟨by omega, rfl, ⟨fun h => absurd rfl h, fun h => by omega⟩⟩
  · rw [h1, h2, h3]
    exact ⟨by omega, rfl, ⟨fun _ => rfl, fun _ => by nofun⟩⟩

/-- C59: a failed request is repeated as long as there were fewer than tries failures before it in the round; then, and
after a dataset, the next round is scheduled one interval later. -/
theorem C59_next {c : NConf} {s : Nbr} (h : Nbr.Reachable c s) (hd : s.dead = false) (k : Nat) (hk : s.fetches = [k]) :
    (k < c.tries → (Nbr.step c s (.fetchFail 0)).fetches = [k + 1]) ∧
    (¬ k < c.tries → (Nbr.step c s (.fetchFail 0)).rounds = [s.now + c.fetchInt * 1000000000]) ∧
    ∀ faces, (Nbr.step c s (.fetchOk 0 faces)).rounds = [s.now + c.fetchInt * 1000000000] := by
  have hr : s.rounds = [] := by
    have := (C59_fetch h).2.2.1
    rw [hk] at this
    exact List.eq_nil_of_length_eq_zero (by simpa using this)
  have hstep : ∀ op, Nbr.step c s op = Nbr.stepOp c s op := by
    intro op
    unfold Nbr.step
    rw [if_neg (by rw [hd]; nofun)]
  refine ⟨?_, ?_, ?_⟩
  · intro hlt
    rw [hstep]
    show (Nbr.fetchFail c s 0).fetches = _
    unfold Nbr.fetchFail
    rw [hk]
    dsimp only [List.getElem?_cons_zero]
    rw [if_pos hlt]
    rfl
  · intro hlt
    rw [hstep]
    show (Nbr.fetchFail c s 0).rounds = _
    unfold Nbr.fetchFail
    rw [hk]
    dsimp only [List.getElem?_cons_zero]
    rw [if_neg hlt]
    show s.rounds ++ [_] = _
    rw [hr]; rfl
  · intro faces
    rw [hstep]
    show (Nbr.fetchOk c s 0 faces).rounds = _
    unfold Nbr.fetchOk
    rw [hk]
    show s.rounds ++ [_] = _
    rw [hr]; rfl

/-- Three failures and then success: one round of four requests; with four failures the round ends as well. -/
example :
    (fetchRounds (Nbr.run FacesWitness.conf (Nbr.init FacesWitness.conf FacesWitness.adjs)
      [.fetchFail 0, .fetchFail 0, .fetchFail 0, .fetchOk 0 [], .clock 3600000000000, .fetchTimer 0, .fetchFail 0, .fetchFail 0,
       .fetchFail 0, .fetchFail 0, .fetchFail 0]).out) = ([4, 4], 0) := by
  decide +kernel

/-! ### C60 -/

/-- Face `f` was reported for URI `u`, by an event, in a dataset, or in NFD's answer to a registration on that face. -/
def Reported (hist : List NEvent) (u : Uri) (f : Nat) : Prop :=
  NEvent.faceUp u f ∈ hist ∨ (∃ faces, NEvent.dataset faces ∈ hist ∧ (u, f) ∈ faces) ∨ NEvent.regFace u f ∈ hist

theorem Reported.mono {h : List NEvent} {u f} (e : NEvent) (hr : Reported h u f) : Reported (h ++ [e]) u f := by
  rcases hr with hr | ⟨fs, h1, h2⟩ | hr
  · exact Or.inl (List.mem_append_left _ hr)
  · exact Or.inr (Or.inl ⟨fs, List.mem_append_left _ h1, h2⟩)
  · exact Or.inr (Or.inr (List.mem_append_left _ hr))

theorem mem_modify {l : AdjacencyList} {m : Name} {f : Adjacent → Adjacent} {x : Adjacent} (h : x ∈ modify l m f) :
    x ∈ l ∨ ∃ a ∈ l, a.name = m ∧ x = f a := by
  induction l with
  | nil => cases h
  | cons a as ih =>
    unfold AdjacencyList.modify at h
    split at h
    · rename_i hn
      rcases List.mem_cons.1 h with rfl | h
      · exact Or.inr ⟨a, List.mem_cons_self .., by simpa using hn, rfl⟩
      · exact Or.inl (List.mem_cons_of_mem _ h)
    · rcases List.mem_cons.1 h with rfl | h
      · exact Or.inl (List.mem_cons_self ..)
      · rcases ih h with h | ⟨b, hb, h1, h2⟩
        · exact Or.inl (List.mem_cons_of_mem _ h)
        · exact Or.inr ⟨b, List.mem_cons_of_mem _ hb, h1, h2⟩

theorem matchFaces_id (a : Adjacent) (faces : List (Uri × Nat)) :
    (matchFaces a faces).1.faceId = a.faceId ∨ (a.uri, (matchFaces a faces).1.faceId) ∈ faces := by
  induction faces generalizing a with
  | nil => exact Or.inl rfl
  | cons f fs ih =>
    unfold matchFaces
    split
    · rename_i h
      right
      rcases ih { a with faceId := f.2 } with h' | h'
      · dsimp only at h'
        rw [h', h.2]
        exact List.mem_cons_self ..
      · exact List.mem_cons_of_mem _ h'
    · rcases ih a with h' | h'
      · exact Or.inl h'
      · exact Or.inr (List.mem_cons_of_mem _ h')

def IdInv (s : Nbr) : Prop := ∀ a ∈ s.adjs, a.faceId = 0 ∨ Reported s.hist a.uri a.faceId

theorem IdInv.step {c : NConf} (hr : c.retry < 4294967296) {s : Nbr} (hi : NInv c s) (h : IdInv s) (op : Nbr.Op) :
    IdInv (Nbr.step c s op) := by
  have hstep := step_is c s op
  generalize Nbr.step c s op = s' at hstep ⊢
  have mod : ∀ (m : Name) (f : Adjacent → Adjacent) (e : NEvent), s'.adjs = modify s.adjs m f → s'.hist = s.hist ++ [e] →
      (∀ a ∈ s.adjs, a.name = m → (f a).uri = a.uri ∧ ((f a).faceId = a.faceId ∨ (f a).faceId = 0 ∨
        e = .faceUp a.uri (f a).faceId ∨ e = .regFace a.uri (f a).faceId)) →
      IdInv s' := by
    intro m f e h1 h2 h3 a ha
    rw [h1] at ha
    rw [h2]
    rcases mem_modify ha with ha | ⟨b, hb, hbm, rfl⟩
    · exact (h a ha).imp id (fun x => x.mono e)
    · obtain ⟨hu, hf⟩ := h3 b hb hbm
      rw [hu]
      rcases hf with hf | hf | hf | hf
      · rw [hf]; exact (h b hb).imp id (fun x => x.mono e)
      · exact Or.inl hf
      · right; left
        rw [hf]
        exact List.mem_append_right _ (List.mem_singleton.2 rfl)
      · right; right; right
        rw [hf]
        exact List.mem_append_right _ (List.mem_singleton.2 rfl)
  have keep : ∀ (e : NEvent), s'.adjs = s.adjs → s'.hist = s.hist ++ [e] → IdInv s' := by
    intro e h1 h2 a ha
    rw [h1] at ha
    rw [h2]
    exact (h a ha).imp id (fun x => x.mono e)
  cases hstep with
  | quiet q =>
    intro a ha
    rw [q.adjs] at ha
    rw [q.hist]
    exact h a ha
  | lost s0 name h0 hw hop =>
    have hx : IsHello c s name := by
      rcases hw with ⟨d, hw⟩ | ⟨d, hw⟩
      · exact hi.waiting _ hw
      · exact hi.nacked _ hw
    obtain ⟨m, hm, rfl⟩ := hx
    obtain ⟨hh, hs⟩ := lost_spec c s0 (hi.small m hm) hr
    rw [h0.1] at hs
    rw [h0.2.1] at hh
    split at hs
    · exact keep _ hs.1 hh
    · split at hs
      · exact mod m _ _ hs.1 hh (fun a _ _ => ⟨rfl, Or.inl rfl⟩)
      · split at hs
        · exact mod m _ _ hs.1 hh (fun a _ _ => ⟨rfl, Or.inl rfl⟩)
        · exact mod m _ _ hs.1 hh (fun a _ _ => ⟨rfl, Or.inl rfl⟩)
  | valid s0 d h0 hd =>
    obtain ⟨hh, hs⟩ := validated_spec c s0 d
    rw [h0.1] at hs
    rw [h0.2.1] at hh
    split at hs
    · exact mod _ _ _ hs.1 hh (fun a _ _ => ⟨rfl, Or.inl rfl⟩)
    · exact keep _ hs.1 hh
  | down fid =>
    obtain ⟨hh, hs⟩ := faceDown_spec c s hi.nodup fid
    split at hs
    · exact keep _ hs.1 hh
    · split at hs
      · exact mod _ _ _ hs.1 hh (fun a _ _ => ⟨rfl, Or.inr (Or.inl rfl)⟩)
      · exact mod _ _ _ hs.1 hh (fun a _ _ => ⟨rfl, Or.inr (Or.inl rfl)⟩)
  | up uri fid =>
    obtain ⟨hh, hs⟩ := faceUp_spec c s hi.nodup uri fid
    cases hf : findUri s.adjs uri with
    | none => rw [hf] at hs; exact keep _ hs.1 hh
    | some a =>
      rw [hf] at hs
      dsimp only at hs
      split at hs
      · refine mod _ _ _ hs.1 hh ?_
        intro b hb hbn
        have hbu : b = a := Lsdb.nodup_inj hi.nodup hb (List.mem_of_find?_eq_some hf) hbn
        have hau : a.uri = uri := by simpa using List.find?_some hf
        refine ⟨rfl, Or.inr (Or.inr (Or.inl ?_))⟩
        rw [hbu, hau]; rfl
      · exact keep _ hs.1 hh
  | reg uri fid =>
    obtain ⟨hh, -, hs⟩ := regFace_spec s hi.nodup uri fid
    cases hf : findUri s.adjs uri with
    | none => rw [hf] at hs; exact keep _ hs hh
    | some a =>
      rw [hf] at hs
      refine mod _ _ _ hs hh ?_
      intro b hb hbn
      have hbu : b = a := Lsdb.nodup_inj hi.nodup hb (List.mem_of_find?_eq_some hf) hbn
      have hau : a.uri = uri := by simpa using List.find?_some hf
      refine ⟨rfl, Or.inr (Or.inr (Or.inr ?_))⟩
      rw [hbu, hau]; rfl
  | dataset i faces s0 h0 =>
    intro x hx
    have hx' : x ∈ (useDataset c faces s.adjs).1 := hx
    rw [useDataset_adjs] at hx'
    obtain ⟨a, ha, rfl⟩ := List.mem_map.1 hx'
    show _ ∨ Reported (s.hist ++ [.dataset faces]) _ _
    have hs := matchFaces_same a faces
    rw [hs.2.1]
    rcases matchFaces_id a faces with e | e
    · rw [e]; exact (h a ha).imp id (fun x => x.mono _)
    · right; right; left
      exact ⟨faces, List.mem_append_right _ (List.mem_singleton.2 rfl), e⟩

/-- C60: at any time, a neighbour's face id is 0 or one that was reported for its URI. -/
theorem C60_ids {c : NConf} (hr : c.retry < 4294967296) {s : Nbr} (h : Nbr.Reachable c s) (a : Adjacent) (ha : a ∈ s.adjs) :
    a.faceId = 0 ∨ Reported s.hist a.uri a.faceId := by
  have : IdInv s := by
    refine Reachable.induct (P := IdInv) ?_ (fun s op hre hi => hi.step hr hre.ninv op) h
    intro adjs hf a ha
    exact Or.inl (init_mem hf ha).2.2.1
  exact this a ha

/-- C60: events and datasets other than destructions change no status and ask for no rebuild. -/
theorem C60_no_status {c : NConf} (hr : c.retry < 4294967296) {s : Nbr} (h : Nbr.Reachable c s) (op : Nbr.Op)
    (hop : (∃ u f, op = .faceUp u f) ∨ (∃ i fs, op = .fetchOk i fs) ∨ (∃ i, op = .fetchFail i) ∨ (∃ i, op = .fetchTimer i) ∨
      ∃ u f, op = .regFace u f) :
    (∀ n, getStatus (Nbr.step c s op).adjs n = getStatus s.adjs n) ∧
    ∃ o, (Nbr.step c s op).out = s.out ++ o ∧ o.filter isRebuild = [] := by
  obtain ⟨o, ho, hc⟩ := step_status hr h.ninv op
  rcases hc with ⟨h1, h2⟩ | ⟨n, _, _, hc⟩
  · exact ⟨h1, o, ho, h2⟩
  · exfalso
    have hst := step_is c s op
    have hev : ∀ e, (Nbr.step c s op).hist = s.hist ++ [e] → (∀ x, e ≠ .lost x) ∧ (∀ d, e ≠ .valid d) := by
      intro e he
      rcases hop with ⟨u, f, rfl⟩ | ⟨i, fs, rfl⟩ | ⟨i, rfl⟩ | ⟨i, rfl⟩ | ⟨u, f, rfl⟩
      all_goals
        generalize Nbr.step c s _ = s' at hst he
        have len : ∀ e', s'.hist = s.hist ++ [e'] → e = e' := by
          intro e' h'
          rw [he] at h'
          have := List.append_cancel_left h'
          injection this
        have q : Quiet s s' → False := by
          intro q
          rw [q.hist] at he
          exact absurd (congrArg List.length he) (by simp)
        cases hst with
        | quiet q' => exact absurd (q q') id
        | lost _ _ _ _ hop => rcases hop with ⟨_, h⟩ | ⟨_, h⟩ <;> cases h
        | _ => first
          | (rw [len _ (faceUp_spec c s h.ninv.nodup _ _).1]; exact ⟨nofun, nofun⟩)
          | (rw [len _ rfl]; exact ⟨nofun, nofun⟩)
    rcases hc with ⟨_, _, ⟨hh, _⟩ | ⟨fid, _, e, _⟩⟩ | ⟨_, _, d, _, hh, _⟩
    · exact (hev _ hh).1 _ rfl
    · rcases hop with ⟨u, f, rfl⟩ | ⟨i, fs, rfl⟩ | ⟨i, rfl⟩ | ⟨i, rfl⟩ | ⟨u, f, rfl⟩ <;> cases e
    · exact (hev _ hh).2 _ rfl

/-- C60: a created face gives the (first) neighbour with that URI its id, and if that is news, the neighbour's name and
the LSA prefix are registered towards it; other neighbours keep theirs. -/
theorem C60_created {c : NConf} {s : Nbr} (h : Nbr.Reachable c s) (hd : s.dead = false) (uri : Uri) (fid : Nat) :
    let s' := Nbr.step c s (.faceUp uri fid)
    match s.adjs.find? (fun a => a.uri == uri) with
    | none => s'.adjs = s.adjs ∧ s'.out = s.out
    | some a =>
      find s'.adjs a.name = some { a with faceId := fid } ∧
      (∀ n, n ≠ a.name → find s'.adjs n = find s.adjs n) ∧
      s'.out = s.out ++ if a.faceId = fid ∧ fid ≠ 0 then [] else
        [.register a.name uri a.linkCost, .register c.lsaPrefix uri a.linkCost] := by
  dsimp only
  have hi := h.ninv
  have hstep : Nbr.step c s (.faceUp uri fid) = Nbr.faceUp c s uri fid := by
    unfold Nbr.step
    rw [if_neg (by rw [hd]; nofun)]
    rfl
  rw [hstep]
  obtain ⟨_, hs⟩ := faceUp_spec c s hi.nodup uri fid
  have hfe : findUri s.adjs uri = s.adjs.find? (fun a => a.uri == uri) := rfl
  rw [hfe] at hs
  cases hf : s.adjs.find? (fun a => a.uri == uri) with
  | none => rw [hf] at hs; exact hs
  | some a =>
    rw [hf] at hs
    dsimp only at hs ⊢
    have hau : a.uri = uri := by simpa using List.find?_some hf
    have hfa := mem_find hi.nodup (List.mem_of_find?_eq_some hf)
    split at hs
    · rename_i hc
      rw [hs.1, hs.2]
      refine ⟨?_, ?_, ?_⟩
      · rw [find_modify, if_pos rfl, hfa]; rfl
      · intro n hn
        rw [find_modify, if_neg hn]
      · rw [if_neg, hau]
        rintro ⟨e, h0⟩
        rcases hc with hc | hc
        · exact h0 (e ▸ hc)
        · exact hc e
    · rename_i hc
      have hc1 : a.faceId ≠ 0 := fun e => hc (Or.inl e)
      have hc2 : a.faceId = fid := Classical.byContradiction fun e => hc (Or.inr e)
      rw [hs.1, hs.2]
      refine ⟨?_, fun _ _ => rfl, ?_⟩
      · rw [hfa, ← hc2]
      · rw [if_pos ⟨hc2, hc2 ▸ hc1⟩, List.append_nil]

/-- C60: a dataset gives every neighbour without a face the id of the first face in it with its URI, if there is one,
and changes nothing else about any neighbour (face ids are not 0). -/
theorem C60_dataset {c : NConf} {s : Nbr} (i k : Nat) (hd : s.dead = false) (hk : s.fetches[i]? = some k)
    (faces : List (Uri × Nat)) (h0 : ∀ f ∈ faces, f.2 ≠ 0) :
    (Nbr.step c s (.fetchOk i faces)).adjs =
      s.adjs.map (fun a => if a.faceId = 0 then { a with faceId := ((faces.find? (fun f => f.1 == a.uri)).map (·.2)).getD 0 } else a) := by
  have hstep : Nbr.step c s (.fetchOk i faces) = Nbr.fetchOk c s i faces := by
    unfold Nbr.step
    rw [if_neg (by rw [hd]; nofun)]
    rfl
  rw [hstep]
  unfold Nbr.fetchOk
  rw [hk]
  show (useDataset c faces s.adjs).1 = _
  rw [useDataset_adjs]
  refine List.map_congr_left ?_
  intro a _
  have hne : ∀ (fs : List (Uri × Nat)) (a : Adjacent), a.faceId ≠ 0 → (matchFaces a fs).1 = a := by
    intro fs
    induction fs with
    | nil => intro a _; rfl
    | cons f fs ih =>
      intro a ha
      unfold matchFaces
      rw [if_neg (fun h => ha h.1)]
      exact ih a ha
  by_cases hz : a.faceId = 0
  · rw [if_pos hz]
    clear hstep
    induction faces with
    | nil => rw [← hz]; rfl
    | cons f fs ih =>
      unfold matchFaces
      by_cases hu : a.uri = f.1
      · rw [if_pos ⟨hz, hu⟩, List.find?_cons_of_pos (by simp [hu])]
        dsimp only
        rw [hne fs _ (h0 f (List.mem_cons_self ..))]
        rfl
      · rw [if_neg (fun h => hu h.2), List.find?_cons_of_neg (by simpa using fun e => hu e.symm)]
        exact ih (fun f hf => h0 f (List.mem_cons_of_mem _ hf))
  · rw [if_neg hz]
    exact hne faces a hz

/-- C60, the part that holds: as long as no two neighbours share a face, the destruction of a neighbour's face takes its
face id, and if it was up marks it down with one rebuild request; nothing else about it, and nothing about other
neighbours, changes, and no neighbour has the destroyed face afterwards. -/
theorem C60_destroyed_partial {c : NConf} {s : Nbr} (h : Nbr.Reachable c s) (hd : s.dead = false) (a : Adjacent)
    (ha : a ∈ s.adjs) (hshare : ∀ b ∈ s.adjs, b.faceId = a.faceId → b.name = a.name) :
    let s' := Nbr.step c s (.faceDown a.faceId)
    find s'.adjs a.name = some (if a.status = .active then { a with faceId := 0, status := .inactive, timedOut := c.retry } else { a with faceId := 0 }) ∧
    (∀ n, n ≠ a.name → find s'.adjs n = find s.adjs n) ∧
    s'.out = s.out ++ (if a.status = .active then [if c.hyp = .on then .calc else .build] else []) ∧
    (a.faceId ≠ 0 → ∀ b ∈ s'.adjs, b.faceId ≠ a.faceId) := by
  dsimp only
  have hi := h.ninv
  have hstep : Nbr.step c s (.faceDown a.faceId) = Nbr.faceDown c s a.faceId := by
    unfold Nbr.step
    rw [if_neg (by rw [hd]; nofun)]
    rfl
  rw [hstep]
  obtain ⟨hh, hs⟩ := faceDown_spec c s hi.nodup a.faceId
  obtain ⟨b, hb⟩ : ∃ b, findFace s.adjs a.faceId = some b := by
    cases hx : findFace s.adjs a.faceId with
    | some b => exact ⟨b, rfl⟩
    | none =>
      have := List.find?_eq_none.1 hx a ha
      simp at this
  have hbm : b ∈ s.adjs := List.mem_of_find?_eq_some hb
  have hbf : b.faceId = a.faceId := by simpa using List.find?_some hb
  obtain rfl : b = a := Lsdb.nodup_inj hi.nodup hbm ha (hshare b hbm hbf)
  rw [hb] at hs
  dsimp only at hs
  have hfa := mem_find hi.nodup ha
  have hids : ∀ f : Adjacent → Adjacent, (∀ x, (f x).faceId = 0) → b.faceId ≠ 0 → ∀ y ∈ modify s.adjs b.name f, y.faceId ≠ b.faceId := by
    intro f hf h0 y hy
    have hnd : ∀ y ∈ modify s.adjs b.name f, y.faceId = 0 ∨ (y ∈ s.adjs ∧ y.name ≠ b.name) := by
      have hnd := hi.nodup
      clear hs hb hbm hfa hi hshare ha hh h hd hstep
      revert hnd
      generalize s.adjs = l
      intro hnd
      induction l with
      | nil => intro y hy; cases hy
      | cons x xs ih =>
        intro y hy
        rw [List.map_cons, List.nodup_cons] at hnd
        unfold AdjacencyList.modify at hy
        split at hy
        · rename_i hx
          have hx : x.name = b.name := by simpa using hx
          rcases List.mem_cons.1 hy with rfl | hy
          · exact Or.inl (hf x)
          · refine Or.inr ⟨List.mem_cons_of_mem _ hy, ?_⟩
            intro e
            exact hnd.1 (hx ▸ e ▸ List.mem_map_of_mem hy)
        · rename_i hx
          rcases List.mem_cons.1 hy with rfl | hy
          · exact Or.inr ⟨List.mem_cons_self .., by simpa using hx⟩
          · exact (ih hnd.2 y hy).imp id (fun h => ⟨List.mem_cons_of_mem _ h.1, h.2⟩)
    rcases hnd y hy with h1 | ⟨h1, h2⟩
    · rw [h1]; exact fun e => h0 e.symm
    · exact fun e => h2 (hshare y h1 e)
  split at hs
  · rename_i hact
    rw [hs.1, hs.2]
    refine ⟨?_, ?_, ?_, ?_⟩
    · rw [find_modify, if_pos rfl, hfa, if_pos hact]; rfl
    · intro n hn
      rw [find_modify, if_neg hn]
    · rw [if_pos hact]
    · exact hids _ (fun _ => rfl)
  · rename_i hact
    rw [hs.1, hs.2]
    refine ⟨?_, ?_, ?_, ?_⟩
    · rw [find_modify, if_pos rfl, hfa, if_neg hact]; rfl
    · intro n hn
      rw [find_modify, if_neg hn]
    · rw [if_neg hact, List.append_nil]
    · exact hids _ (fun _ => rfl)

/-- C60 is violated: of two neighbours behind the same face, only the first goes down when the face is destroyed; the
other stays up, with the id of a face that is gone. -/
theorem C60_violated_shared : ∃ (c : NConf) (s : Nbr) (fid : Nat) (a : Adjacent), Nbr.Reachable c s ∧ fid ≠ 0 ∧
    a ∈ s.adjs ∧ a.faceId = fid ∧ a.status = .active ∧
    find (Nbr.step c s (.faceDown fid)).adjs a.name = some a := by
  refine ⟨FacesWitness.conf, Nbr.run FacesWitness.conf (Nbr.init FacesWitness.conf FacesWitness.shared)
    [.fetchOk 0 [("ether://m", 300)], .registered (nm ["net", "b"]), .registered (nm ["net", "c"]),
     .data 1 (helloOf FacesWitness.conf (nm ["net", "c"]) ++ [Comp.str "v"]), .valid 0], 300,
    { name := nm ["net", "c"], uri := "ether://m", cost := .fin 25, status := .active, faceId := 300 },
    ⟨FacesWitness.shared, _, ⟨by decide +kernel, by decide +kernel, by decide +kernel⟩, rfl⟩, by decide +kernel⟩

/-- A face comes up, goes down while the neighbour is up, and is found again in a dataset under another id. -/
example :
    let s := Nbr.run FacesWitness.conf (Nbr.init FacesWitness.conf FacesWitness.adjs)
      [.faceUp "udp4://b" 256, .registered (nm ["net", "b"]), .data 0 (helloOf FacesWitness.conf (nm ["net", "b"]) ++ [Comp.str "v"]), .valid 0]
    let s' := Nbr.run FacesWitness.conf s [.faceDown 256, .fetchOk 0 [("udp4://x", 7), ("udp4://b", 258)]]
    s.adjs.map (fun a => (a.faceId, a.status)) = [(256, .active), (0, .inactive)] ∧
    s'.adjs.map (fun a => (a.faceId, a.status, a.timedOut)) = [(258, .inactive, 3), (0, .inactive, 0)] ∧
    s'.out = s.out ++ [.build, .register (nm ["net", "b"]) "udp4://b" (.fin 10), .register (nm ["localhop", "net", "LSA"]) "udp4://b" (.fin 10), .nextFetch] := by
  decide +kernel

/-! ### C61 -/

/-- The origins of the new-LSA notifications, in order. -/
def origins (ops : List Nbr.Op) : List Name := ops.filterMap (fun op => match op with | .newLsa o => some o | _ => none)

def isStrategy : NOut → Bool
  | .strategy .. => true
  | _ => false

/-- Neither the list of routers with strategies nor the strategy commands change. -/
def SameStrat (s s' : Nbr) : Prop := s'.certs = s.certs ∧ s'.out.filter isStrategy = s.out.filter isStrategy

theorem SameStrat.mk' {s s' : Nbr} (o : List NOut) (h : s'.certs = s.certs) (ho : s'.out = s.out ++ o)
    (hf : o.filter isStrategy = []) : SameStrat s s' := ⟨h, by rw [ho, List.filter_append, hf, List.append_nil]⟩

theorem useDataset_strat (c : NConf) (faces : List (Uri × Nat)) (l : AdjacencyList) :
    (useDataset c faces l).2.filter isStrategy = [] := by
  induction l with
  | nil => rfl
  | cons a as ih =>
    unfold useDataset
    dsimp only
    rw [List.filter_append, ih, List.append_nil, List.filter_flatten]
    rw [List.map_replicate]
    generalize (matchFaces a faces).2 = k
    induction k with
    | zero => rfl
    | succ k ih => rw [List.replicate_succ, List.flatten_cons, ih]; rfl

theorem sendHello_strat (c : NConf) (s : Nbr) (n : Name) : SameStrat s (sendHello c s n) := by
  unfold sendHello
  split
  · exact ⟨rfl, rfl⟩
  · dsimp only
    split
    · exact .mk' [.interest _] rfl rfl rfl
    · exact ⟨rfl, rfl⟩

theorem rebuild_strat (c : NConf) (s : Nbr) : SameStrat s (rebuild c s) := by
  refine .mk' [if c.hyp = .on then .calc else .build] rfl rfl ?_
  split <;> rfl

theorem lost_strat (c : NConf) (s : Nbr) (n : Name) : SameStrat s (lost c s n) := by
  unfold lost
  dsimp only
  split
  · exact ⟨rfl, rfl⟩
  · split
    · exact .mk' [.interest _] rfl rfl rfl
    · split
      · exact rebuild_strat c _
      · exact ⟨rfl, rfl⟩

theorem step_strat (c : NConf) (s : Nbr) (op : Nbr.Op) (hop : ∀ o, op ≠ .newLsa o) : SameStrat s (Nbr.step c s op) := by
  unfold Nbr.step
  split
  · exact ⟨rfl, rfl⟩
  · cases op with
    | newLsa o => exact absurd rfl (hop o)
    | registered n => exact sendHello_strat ..
    | helloTimer i =>
      show SameStrat s (Nbr.helloTimer c s i)
      unfold Nbr.helloTimer
      split
      · exact ⟨rfl, rfl⟩
      · split
        · exact ⟨rfl, rfl⟩
        · exact sendHello_strat c { s with timers := s.timers.eraseIdx i } _
    | interest n v =>
      show SameStrat s (Nbr.interest c s n v)
      unfold Nbr.interest
      split
      · exact ⟨rfl, rfl⟩
      · split
        · exact ⟨rfl, rfl⟩
        · split
          · exact ⟨rfl, rfl⟩
          · split
            · exact ⟨rfl, rfl⟩
            · split
              · exact ⟨rfl, rfl⟩
              · dsimp only
                split
                · exact .mk' [.data _, .interest _] rfl (List.append_assoc ..) rfl
                · exact .mk' [.data _] rfl rfl rfl
    | timeout i =>
      show SameStrat s (Nbr.timeout c s i)
      unfold Nbr.timeout
      split
      · exact ⟨rfl, rfl⟩
      · split
        · exact ⟨rfl, rfl⟩
        · exact lost_strat c { s with waiting := s.waiting.eraseIdx i } _
    | nack i =>
      show SameStrat s (Nbr.nack c s i)
      unfold Nbr.nack
      split <;> exact ⟨rfl, rfl⟩
    | nackTimer i =>
      show SameStrat s (Nbr.nackTimer c s i)
      unfold Nbr.nackTimer
      split
      · exact ⟨rfl, rfl⟩
      · split
        · exact ⟨rfl, rfl⟩
        · exact lost_strat c { s with nacked := s.nacked.eraseIdx i } _
    | data i d =>
      show SameStrat s (Nbr.data s i d)
      unfold Nbr.data
      split
      · exact ⟨rfl, rfl⟩
      · split <;> exact ⟨rfl, rfl⟩
    | valid i =>
      show SameStrat s (Nbr.valid c s i)
      unfold Nbr.valid
      split
      · exact ⟨rfl, rfl⟩
      · unfold validated
        dsimp only
        split
        · split
          · refine .mk' [if c.hyp = .on then .calc else .build, .initial _] rfl (List.append_assoc ..) ?_
            split <;> rfl
          · exact ⟨rfl, rfl⟩
        · exact ⟨rfl, rfl⟩
    | invalid i => exact ⟨rfl, rfl⟩
    | faceDown fid =>
      show SameStrat s (Nbr.faceDown c s fid)
      unfold Nbr.faceDown
      dsimp only
      split
      · exact ⟨rfl, rfl⟩
      · split
        · exact rebuild_strat c _
        · exact ⟨rfl, rfl⟩
    | faceUp u fid =>
      show SameStrat s (Nbr.faceUp c s u fid)
      unfold Nbr.faceUp
      dsimp only
      split
      · exact ⟨rfl, rfl⟩
      · split
        · exact .mk' [.register _ _ _, .register _ _ _] rfl (List.append_assoc ..) rfl
        · exact ⟨rfl, rfl⟩
    | fetchOk i faces =>
      show SameStrat s (Nbr.fetchOk c s i faces)
      unfold Nbr.fetchOk
      split
      · exact ⟨rfl, rfl⟩
      · refine .mk' ((useDataset c faces s.adjs).2 ++ [NOut.nextFetch]) rfl (List.append_assoc s.out _ [NOut.nextFetch]) ?_
        rw [List.filter_append, useDataset_strat]
        rfl
    | fetchFail i =>
      show SameStrat s (Nbr.fetchFail c s i)
      unfold Nbr.fetchFail
      split
      · exact ⟨rfl, rfl⟩
      · dsimp only
        split
        · exact .mk' [.fetch] rfl rfl rfl
        · exact .mk' [.nextFetch] rfl rfl rfl
    | fetchTimer i =>
      show SameStrat s (Nbr.fetchTimer s i)
      unfold Nbr.fetchTimer
      split
      · exact ⟨rfl, rfl⟩
      · split
        · exact ⟨rfl, rfl⟩
        · exact .mk' [.fetch] rfl rfl rfl
    | regFace u fid => exact ⟨rfl, rfl⟩
    | clock dt => exact ⟨rfl, rfl⟩

/-- The four strategy commands for the certificates of router `r`: its own, those of its instances, its site's and
(meant to be) its operators'. -/
def certCommands (r : Name) : List NOut := (certNames r).map (.strategy · bestRoute)

theorem snoc_ind {α : Type} {P : List α → Prop} (nil : P []) (snoc : ∀ l a, P l → P (l ++ [a])) (l : List α) : P l := by
  obtain ⟨r, rfl⟩ : ∃ r : List α, l = r.reverse := ⟨l.reverse, (List.reverse_reverse l).symm⟩
  induction r with
  | nil => exact nil
  | cons a as ih => rw [List.reverse_cons]; exact snoc _ _ ih

theorem step_dead {c : NConf} {s : Nbr} {op : Nbr.Op} (h : (Nbr.step c s op).dead = false) : s.dead = false := by
  unfold Nbr.step at h
  split at h
  · exact h
  · rename_i hd
    simpa using hd

theorem eraseDups_snoc (l : List Name) (a : Name) :
    (l ++ [a]).eraseDups = if l.contains a then l.eraseDups else l.eraseDups ++ [a] := by
  rw [List.eraseDups_append]
  by_cases h : l.contains a = true
  · rw [if_pos h]
    have : [a].removeAll l = [] := by simpa [List.removeAll, List.elem_eq_contains] using h
    rw [this]
    simp
  · rw [if_neg h]
    have : [a].removeAll l = [a] := by simpa [List.removeAll, List.elem_eq_contains] using h
    rw [this]
    rfl

theorem contains_eraseDups (l : List Name) (a : Name) : l.eraseDups.contains a = l.contains a := by
  rw [Bool.eq_iff_iff, List.contains_iff_mem, List.contains_iff_mem, List.mem_eraseDups]

/-- C61: whatever happens, the strategy commands are the two for the LSA and sync prefixes, and then those for the
certificates of each router an LSA came from, once for each router, in the order in which the routers first showed up. -/
theorem C61_once (c : NConf) (adjs : AdjacencyList) (ops : List Nbr.Op)
    (hd : (Nbr.run c (Nbr.init c adjs) ops).dead = false) :
    (Nbr.run c (Nbr.init c adjs) ops).out.filter isStrategy =
      [.strategy c.lsaPrefix multicast, .strategy c.syncPrefix multicast] ++ (origins ops).eraseDups.flatMap certCommands := by
  have key : ∀ ops : List Nbr.Op, (Nbr.run c (Nbr.init c adjs) ops).dead = false →
      (Nbr.run c (Nbr.init c adjs) ops).certs = (origins ops).eraseDups ∧
      (Nbr.run c (Nbr.init c adjs) ops).out.filter isStrategy =
        [.strategy c.lsaPrefix multicast, .strategy c.syncPrefix multicast] ++ (origins ops).eraseDups.flatMap certCommands := by
    intro ops
    induction ops using snoc_ind with
    | nil => intro _; exact ⟨rfl, rfl⟩
    | snoc ops op ih =>
      intro hd
      unfold Nbr.run at hd ih ⊢
      rw [List.foldl_append] at hd ⊢
      have hd0 := step_dead hd
      obtain ⟨h1, h2⟩ := ih hd0
      show (Nbr.step c _ op).certs = _ ∧ (Nbr.step c _ op).out.filter isStrategy = _
      by_cases hop : ∃ o, op = .newLsa o
      · obtain ⟨o, rfl⟩ := hop
        have horig : origins (ops ++ [.newLsa o]) = origins ops ++ [o] := by
          unfold origins
          rw [List.filterMap_append]
          rfl
        rw [horig, eraseDups_snoc]
        clear hd ih
        revert hd0 h1 h2
        generalize List.foldl (Nbr.step c) (Nbr.init c adjs) ops = s
        intro hd0 h1 h2
        unfold Nbr.step
        rw [if_neg (by rw [hd0]; nofun)]
        unfold Nbr.stepOp Nbr.newLsa
        dsimp only
        rw [h1, contains_eraseDups]
        by_cases hc : (origins ops).contains o = true
        · rw [if_pos hc, if_pos hc]
          exact ⟨h1, h2⟩
        · rw [if_neg hc, if_neg hc]
          refine ⟨rfl, ?_⟩
          dsimp only
          rw [List.filter_append, h2, List.flatMap_append, List.append_assoc]
          rfl
      · have horig : origins (ops ++ [op]) = origins ops := by
          unfold origins
          rw [List.filterMap_append]
          cases op <;> first | exact List.append_nil _ | exact absurd ⟨_, rfl⟩ hop
        rw [horig]
        have hs := step_strat c (List.foldl (Nbr.step c) (Nbr.init c adjs) ops) op (fun o e => hop ⟨o, e⟩)
        exact ⟨hs.1.trans h1, hs.2.trans h2⟩
  exact (key ops hd).2

/-- C61: what the commands for one router are about. -/
theorem C61_which (r : Name) (site rest : Name) (hs : r = site ++ routerTag :: rest) (hn : routerTag ∉ site) :
    certCommands r =
      [.strategy (r ++ [Comp.str "KEY"]) bestRoute, .strategy (r ++ [Comp.str "nlsr", Comp.str "KEY"]) bestRoute,
       .strategy (site ++ [Comp.str "KEY"]) bestRoute, .strategy (site ++ [operatorTag]) bestRoute] := by
  have : siteOf r = site := by
    unfold siteOf
    rw [hs]
    clear hs
    induction site with
    | nil => rw [List.nil_append, List.takeWhile_cons_of_neg]; simp
    | cons a as ih =>
      rw [List.cons_append, List.takeWhile_cons_of_pos, ih (fun h => hn (List.mem_cons_of_mem _ h))]
      have : a ≠ routerTag := fun e => hn (e ▸ List.mem_cons_self ..)
      simpa using this
  unfold certCommands certNames
  rw [this]
  rfl

/-- Three notifications from two routers: two groups of commands. -/
example :
    let r : Name := nm ["net", "s"] ++ [routerTag, Comp.str "r1"]
    let s := Nbr.run FacesWitness.conf (Nbr.init FacesWitness.conf FacesWitness.adjs) [.newLsa r, .newLsa (nm ["net", "b"]), .newLsa r]
    s.dead = false ∧ (s.out.filter isStrategy).length = 10 ∧
      .strategy (nm ["net", "s", "KEY"]) bestRoute ∈ s.out := by
  decide +kernel

/-! ### C70 -/

/-- C70, for routers whose names have the component `%C1.Router` after the site: once such a router's LSA is announced,
the best-route strategy is set for the names under the site that continue with `%C1.Operator`, as read from that URI.
Missing: other names of routers (`C70_violated_plain_name`). -/
theorem C70_operator_partial (c : NConf) (adjs : AdjacencyList) (ops : List Nbr.Op)
    (hd : (Nbr.run c (Nbr.init c adjs) ops).dead = false) (r site rest : Name) (tag op : Comp)
    (htag : Uri.parseName "/%C1.Router".toList = some [tag]) (hop : Uri.parseName "/%C1.Operator".toList = some [op])
    (hs : r = site ++ tag :: rest) (hn : tag ∉ site) (ho : .newLsa r ∈ ops) :
    .strategy (site ++ [op]) bestRoute ∈ (Nbr.run c (Nbr.init c adjs) ops).out := by
  have ht : tag = routerTag := by
    have h : Uri.parseName "/%C1.Router".toList = some [routerTag] := by decide +kernel
    rw [h] at htag
    injection htag with h; injection h with h; exact h.symm
  have hp : op = operatorTag := by
    have h : Uri.parseName "/%C1.Operator".toList = some [operatorTag] := by decide +kernel
    rw [h] at hop
    injection hop with h; injection h with h; exact h.symm
  subst ht hp
  have hm : .strategy (site ++ [operatorTag]) bestRoute ∈ certCommands r := by
    rw [C61_which r site rest hs hn]
    simp
  have : .strategy (site ++ [operatorTag]) bestRoute ∈ (Nbr.run c (Nbr.init c adjs) ops).out.filter isStrategy := by
    rw [C61_once c adjs ops hd]
    refine List.mem_append_right _ (List.mem_flatMap.2 ⟨r, ?_, hm⟩)
    rw [List.mem_eraseDups]
    exact List.mem_filterMap.2 ⟨_, ho, rfl⟩
  exact (List.mem_filter.1 this).1

example : ∃ tag op, Uri.parseName "/%C1.Router".toList = some [tag] ∧ Uri.parseName "/%C1.Operator".toList = some [op] ∧
    tag ∉ nm ["net", "s"] ∧
    (Nbr.run FacesWitness.conf (Nbr.init FacesWitness.conf FacesWitness.adjs) [.newLsa (nm ["net", "s"] ++ tag :: [Comp.str "r1"])]).dead = false :=
  ⟨routerTag, operatorTag, by decide +kernel, by decide +kernel, by decide +kernel, by decide +kernel⟩

/-- C70 fails for a router whose configured name has no component `%C1.Router`, which nothing requires: the strategy is
set for names under the router, `/net/s/r1/%C1.Operator`, and not for those under the site. -/
theorem C70_violated_plain_name :
    let s := Nbr.run FacesWitness.conf (Nbr.init FacesWitness.conf FacesWitness.adjs) [.newLsa (nm ["net", "s", "r1"])]
    s.dead = false ∧ .strategy (nm ["net", "s", "r1"] ++ [operatorTag]) bestRoute ∈ s.out ∧
      ∀ st, .strategy (nm ["net", "s"] ++ [operatorTag]) st ∉ s.out := by
  refine ⟨by decide +kernel, by decide +kernel, fun st h => ?_⟩
  have : (nm ["net", "s"] ++ [operatorTag]) ∈ ((Nbr.run FacesWitness.conf (Nbr.init FacesWitness.conf FacesWitness.adjs)
      [.newLsa (nm ["net", "s", "r1"])]).out.filterMap (fun o => match o with | .strategy p _ => some p | _ => none)) :=
    List.mem_filterMap.2 ⟨_, h, rfl⟩
  revert this
  decide +kernel

end Nlsr
