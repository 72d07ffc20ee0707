import Verif.Lemmas.FibInv
/- C22: updates of the forwarding table and the commands sent to NFD. -/
namespace Nlsr
open Fib

/-! ### What is recorded, what is sent -/

/-- The next hops recorded for `n`. -/
def Fib.recorded (s : Fib) (n : Name) : List NextHop := (s.table.filter (fun e => e.name == n)).flatMap (·.hops)

/-- The faces recorded for `n`. -/
def Fib.faces (s : Fib) (n : Name) : List Uri := (s.recorded n).map (·.uri)

/-- A command as NFD sees it. -/
inductive NfdView
  | reg (n : Name) (fid : Nat) (cost : Int) (flags exp : Nat)
  | unreg (n : Name) (fid : Nat)
deriving DecidableEq, Repr

def nfdView : NfdCmd → List NfdView
  | .register _ n _ fid cost flags exp _ => [.reg n fid cost flags exp]
  | .unregister n _ fid => [.unreg n fid]
  | .strategy _ _ _ => []

/-- The hops of `l` that fit under the limit `k` (0: no limit). -/
def firstHops (k : Nat) (l : List NextHop) : List NextHop := if k = 0 then l else l.take k

theorem recorded_eq {s : Fib} (h : Inv s) (n : Name) : s.recorded n = hopsAt s n := by
  unfold Fib.recorded hopsAt Fib.find
  have hn := h.names
  generalize s.table = l at hn
  induction l with
  | nil => rfl
  | cons x xs ih =>
    rw [List.map_cons, List.nodup_cons] at hn
    rw [List.filter_cons, List.find?_cons]
    cases hb : (x.name == n) with
    | false => rw [if_neg (by simp)]; exact ih hn.2
    | true =>
      rw [if_pos rfl, List.flatMap_cons]
      have : xs.filter (fun e => e.name == n) = [] := by
        rw [List.filter_eq_nil_iff]
        intro e he hc
        have h1 : x.name = n := by simpa using hb
        have h2 : e.name = n := by simpa using hc
        exact hn.1 (List.mem_map.2 ⟨e, he, h2.trans h1.symm⟩)
      rw [this]
      simp

theorem hopsAt_sorted {s : Fib} (h : Inv s) (n : Name) : UriSorted (hopsAt s n) := by
  unfold hopsAt
  cases hf : s.find n with
  | none => exact List.Pairwise.nil
  | some e => exact h.sorted n e hf

theorem hopsAt_congr {s s' : Fib} {n : Name} (h : s'.find n = s.find n) : hopsAt s' n = hopsAt s n := by
  unfold hopsAt; rw [h]

theorem view_regLog (A : AdjacencyList) (now : Nat) (n : Name) (exp flags r : Nat) (l : List NextHop) :
    (regLog A now n exp flags r l).flatMap nfdView =
      (l.filter (fun h => decide (0 < A.faceIdOf h.uri))).map (fun h => .reg n (A.faceIdOf h.uri) h.adj flags exp) := by
  induction l generalizing r with
  | nil => rfl
  | cons x xs ih =>
    unfold regLog
    rw [List.flatMap_append, ih, List.filter_cons]
    split <;> simp_all [nfdView]

theorem view_unregLog (A : AdjacencyList) (n : Name) (l : List NextHop) :
    (unregLog A n l).flatMap nfdView =
      (l.filter (fun h => decide (0 < A.faceIdOf h.uri))).map (fun h => .unreg n (A.faceIdOf h.uri)) := by
  unfold unregLog
  induction l with
  | nil => rfl
  | cons x xs ih =>
    rw [List.flatMap_cons, List.flatMap_append, ih, List.filter_cons]
    split <;> simp_all [nfdView]

theorem merged_uris {old new : List NextHop} (ho : UriSorted old) (hn : UriNodup new) (u : Uri) :
    u ∈ (mergedHops old new).map (·.uri) ↔ u ∈ new.map (·.uri) := by
  have hm := (merged_spec ho hn).2
  simp only [List.mem_map]
  constructor
  · rintro ⟨h, hh, rfl⟩
    rcases (hm h).1 hh with ⟨_, g, hg, hu, _⟩ | ⟨h1, _⟩
    · exact ⟨g, hg, hu⟩
    · exact ⟨h, h1, rfl⟩
  · rintro ⟨g, hg, rfl⟩
    by_cases hc : ∃ o ∈ old, o.uri = g.uri ∧ o.cost ≤ g.cost
    · obtain ⟨o, h1, h2, h3⟩ := hc
      exact ⟨o, (hm o).2 (.inl ⟨h1, g, hg, h2.symm, h3⟩), h2⟩
    · refine ⟨g, (hm g).2 (.inr ⟨hg, fun o ho' hu => ?_⟩), rfl⟩
      exact Rat.not_le.1 fun hle => hc ⟨o, ho', hu, hle⟩

theorem hopsToAdd_nil (c : FConf) (l : NexthopList) (hl : UriNodup l) : hopsToAdd c l = [] ↔ wanted c l = [] := by
  have hp := hopsToAdd_perm c hl
  constructor
  · intro h; rw [h] at hp; exact hp.symm.eq_nil
  · intro h; rw [h] at hp; exact hp.eq_nil

/-- The hops recorded by an update, and the hops it unregisters. -/
theorem update_hops {c : FConf} {s : Fib} (hi : Inv s) (n : Name) (hn : s.adjs.isNeighbor n = false) (l : NexthopList)
    (flags : Nat) :
    ((hopsAt (s.update c n l flags) n).map (·.uri)).Perm ((hopsToAdd c l).map (·.uri)) ∧
    ∃ gone : List NextHop, gone.Perm ((hopsAt s n).filter (fun o => (hopsToAdd c l).all (fun h => !(h.uri == o.uri)))) ∧
      (s.update c n l flags).log = s.log ++
        (regLog s.adjs s.now n (c.refresh + fibGrace) flags s.nextRoot (hopsToAdd c l) ++ unregLog s.adjs n gone) := by
  have hs := hopsToAdd_sorted c l
  by_cases hw : hopsToAdd c l = []
  · rw [update_empty c s n l flags hw, hw]
    have f := remove_eff s n
    rw [hn] at f
    simp only [Bool.false_eq_true, if_false] at f
    refine ⟨?_, hopsAt s n, ?_, ?_⟩
    · unfold hopsAt; rw [f.here]
    · simp only [List.all_nil]; rw [List.filter_eq_self.2 (fun _ _ => rfl)]
    · rw [f.log]
      unfold hopsAt
      cases s.find n <;> simp [regLog, unregLog]
  · have f := update_eff c s n l flags hw
    rw [hn] at f
    simp only [Bool.false_eq_true, if_false] at f
    have hh : hopsAt (s.update c n l flags) n = (updEntry c s n (hopsToAdd c l) flags).hops := by
      unfold hopsAt; rw [f.here]
    rw [hh, updEntry_hops]
    cases hf : s.find n with
    | none =>
      rw [hf] at f
      refine ⟨(addHops_perm hs.nodup).map _, [], ?_, ?_⟩
      · unfold hopsAt; rw [hf]; simp
      · exact f.log
    | some e =>
      rw [hf] at f
      have he := hi.sorted n e hf
      refine ⟨?_, _, ?_, f.log⟩
      · refine (List.perm_ext_iff_of_nodup (mergedHops_sorted he).nodup hs.nodup).2 (fun u => ?_)
        exact merged_uris he hs.nodup u
      · have h1 : hopsAt s n = e.hops := by unfold hopsAt; rw [hf]
        rw [h1]
        have nd : ∀ {l : List NextHop}, UriSorted l → l.Nodup := fun h => List.Pairwise.of_map _ (fun _ _ hab he => hab (he ▸ rfl)) h.nodup
        refine (List.perm_ext_iff_of_nodup ?_ ?_).2 (fun x => ?_)
        · exact List.Nodup.sublist List.filter_sublist (nd (addHops_sorted he _))
        · exact List.Nodup.sublist List.filter_sublist (nd he)
        · rw [mem_uriMinus, mem_addHops he hs.nodup, List.mem_filter]
          simp only [List.all_eq_true, Bool.not_eq_true', beq_eq_false_iff_ne, ne_eq]
          constructor
          · rintro ⟨h1 | h1, h2⟩
            · exact ⟨h1.1, h2⟩
            · exact absurd rfl (h2 x h1.1)
          · rintro ⟨h1, h2⟩
            exact ⟨.inl ⟨h1, fun g hg hu => absurd hu (h2 g hg)⟩, h2⟩

/-! ### C22 -/

/-- **C22.** After an update of a name that is no neighbour's: the faces recorded are those of the first
`maxFaces` hops given; the commands sent are, in some order, one registration with the given cost for
each of those hops, and one unregistration for each face recorded before and not wanted now (faces NFD
has not reported have no command); nothing else changes. -/
theorem C22_update {c : FConf} {s : Fib} (hr : Fib.Reachable c s) (n : Name) (hn : ∀ a ∈ s.adjs, a.name ≠ n)
    (l : NexthopList) (hl : (l.map (·.uri)).Nodup) (flags : Nat) :
    let s' := Fib.step c s (.update n l flags)
    (s'.faces n).Perm ((firstHops c.maxFaces l).map (·.uri)) ∧
    (∃ cmds, s'.log = s.log ++ cmds ∧
      (cmds.flatMap nfdView).Perm
        (((firstHops c.maxFaces l).filter (fun h => decide (0 < s.adjs.faceIdOf h.uri))).map
            (fun h => .reg n (s.adjs.faceIdOf h.uri) h.adj flags (c.refresh + 10)) ++
         ((s.faces n).filter (fun u => decide (0 < s.adjs.faceIdOf u ∧ ∀ h ∈ firstHops c.maxFaces l, h.uri ≠ u))).map
            (fun u => .unreg n (s.adjs.faceIdOf u)))) ∧
    (∀ m, m ≠ n → s'.recorded m = s.recorded m) := by
  intro s'
  have hi := hr.inv
  have hi' : Inv s' := (hr.step _).inv
  have hnb : s.adjs.isNeighbor n = false := by
    unfold AdjacencyList.isNeighbor AdjacencyList.find
    rw [Option.isSome_eq_false_iff, Option.isNone_iff_eq_none, List.find?_eq_none]
    intro a ha; simpa using hn a ha
  obtain ⟨h1, gone, h2, h3⟩ := update_hops (c := c) hi n hnb l flags
  have hp : (hopsToAdd c l).Perm (firstHops c.maxFaces l) := hopsToAdd_perm c hl
  refine ⟨?_, ⟨_, h3, ?_⟩, ?_⟩
  · unfold Fib.faces; rw [recorded_eq hi']; exact h1.trans (hp.map _)
  · rw [List.flatMap_append, view_regLog, view_unregLog]
    refine List.Perm.append ((hp.filter _).map _) ?_
    unfold Fib.faces
    rw [recorded_eq hi, List.filter_map, List.map_map]
    refine ((h2.filter _).map _).trans ?_
    rw [List.filter_filter]
    refine List.Perm.of_eq ?_
    congr 1
    refine List.filter_congr (fun o _ => ?_)
    rw [Bool.eq_iff_iff]
    simp only [Bool.and_eq_true, decide_eq_true_eq, List.all_eq_true, Bool.not_eq_true', beq_eq_false_iff_ne, ne_eq,
      Function.comp]
    exact ⟨fun ⟨a, b⟩ => ⟨a, fun h hh => b h (hp.mem_iff.2 hh)⟩, fun ⟨a, b⟩ => ⟨a, fun h hh => b h (hp.mem_iff.1 hh)⟩⟩
  · intro m hm
    rw [recorded_eq hi', recorded_eq hi]
    refine hopsAt_congr ?_
    show (s.update c n l flags).find m = s.find m
    by_cases hw : hopsToAdd c l = []
    · rw [update_empty c s n l flags hw]; exact (remove_eff s n).same m hm
    · exact (update_eff c s n l flags hw).same m hm

end Nlsr
