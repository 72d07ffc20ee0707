import Verif.Lemmas.Net
/- Runs of networks with finitely many routers, to compute with. -/
namespace Nlsr

namespace Net
/-- The network with these routers. -/
def ofList {n : Nat} (l : List Site) (d : Site) : State (Fin n) := fun i => l.getD i.val d

theorem set_ofList {n : Nat} {l : List Site} {d : Site} (hl : l.length = n) (i : Fin n) (x : Site) :
    set (ofList l d) i x = ofList (l.set i.val x) d := by
  funext j
  unfold set ofList
  by_cases h : j = i
  · subst h
    rw [if_pos rfl, List.getD_eq_getElem?_getD, List.getElem?_set_self (by rw [hl]; exact j.isLt)]
    rfl
  · rw [if_neg h, List.getD_eq_getElem?_getD, List.getD_eq_getElem?_getD, List.getElem?_set_ne (fun e => h (Fin.ext e.symm))]

/-- A number published with this type. -/
def isPub (t : LsaType) (k : Nat) : Out → Bool
  | .publish t' k' => t' == t && decide (k < k')
  | _ => false

def isCopy (x : Lsa) : Out → Bool
  | .data s => x.origin == s.lsa.origin && x.seq == s.lsa.seq && x.content.sent == s.lsa.content.sent
  | _ => false

def freshB (adjs : AdjacencyList) : Bool :=
  decide (adjs.map (·.name)).Nodup && adjs.all (fun a => decide (a.name.length < 2 ^ 63) && a.status == .inactive && a.timedOut == 0 && a.faceId == 0)

def wholeB (adjs : AdjacencyList) : Bool := adjs.all (fun a => match a.cost with | .fin q => q == ((q.num : Int) : Rat) | _ => false)

def roomB (q : Seqs) : Bool := decide (q.name < 2 ^ 63) && decide (q.adj < 2 ^ 63) && decide (q.cor < 2 ^ 63)

/-- `Delivers`, computed; `own`: reports to a router of old numbers of its own are allowed too. -/
def delivers {n : Nat} (own : Bool) (c : Fin n → RConf) (N : State (Fin n)) (i : Fin n) : Router.Op → Bool
  | .core (.lsdb (.sync u k)) =>
    (List.finRange n).any fun j => [LsaType.adjacency, .coordinate, .name].any fun t =>
      u == (c j).lsdb.names.lsaUserPrefix t && (N j).log.contains (.publish t k) &&
      (own || j != i || !(N i).log.any (isPub t k))
  | .core (.lsdb (.fetched _ (some x))) => (List.finRange n).any fun j => j != i && (N j).log.any (isCopy x)
  | _ => true

/-- `Kill.Fine`, computed. -/
def killB {n : Nat} (c : Fin n → RConf) (N : State (Fin n)) (i : Fin n) : Kill → Bool
  | .idle => true
  | .event op _ => delivers false c N i op && roomB (Router.step (c i) (N i).r op).core.lsdb.seqs
  | .start b adjs npl sys _ => killB c N i b && freshB adjs && wholeB adjs &&
    roomB (Router.init (c i) (lastPersist ((N i).log ++ b.outs (c i) (N i))) adjs npl sys).core.lsdb.seqs

/-- `Allowed`, computed; `own`: reports to a router of old numbers of its own are allowed too. -/
def allowed {n : Nat} (own : Bool) (c : Fin n → RConf) (N : State (Fin n)) : Op (Fin n) → Bool
  | .act i op => delivers own c N i op
  | .restart i adjs _ _ kill => freshB adjs && wholeB adjs && (c i).lsdb.hyp != .dryRun && killB c N i kill

/-- As `Allowed`, but sync may also report to a router any number that this router has announced. -/
def AllowedOwn {ι : Type} (c : ι → RConf) (N : State ι) (op : Op ι) : Prop :=
  Allowed c N op ∨ ∃ i t k, op = .act i (.core (.lsdb (.sync ((c i).lsdb.names.lsaUserPrefix t) k))) ∧ .publish t k ∈ (N i).log

/-- As `Reachable`, with `AllowedOwn`. -/
inductive ReachableOwn {ι : Type} [DecidableEq ι] (c : ι → RConf) : State ι → Prop
  | start {N : State ι} (h : Reachable c N) : ReachableOwn c N
  | step {N : State ι} (h : ReachableOwn c N) (op : Op ι) (ha : AllowedOwn c N op)
      (hr : ∀ i, Room (step c N op i).r.core.lsdb.seqs) : ReachableOwn c (step c N op)

theorem freshB_fresh {adjs : AdjacencyList} (h : freshB adjs = true) : Nbr.Fresh adjs := by
  simp only [freshB, Bool.and_eq_true, decide_eq_true_eq, List.all_eq_true, beq_iff_eq] at h
  exact ⟨h.1, fun a ha => (h.2 a ha).1.1.1, fun a ha => ⟨(h.2 a ha).1.1.2, (h.2 a ha).1.2, (h.2 a ha).2⟩⟩

theorem wholeB_whole {adjs : AdjacencyList} (h : wholeB adjs = true) : Whole adjs := by
  intro a ha
  have := List.all_eq_true.1 h a ha
  split at this
  · rename_i q hq
    exact ⟨q.num, by rw [hq, ← beq_iff_eq.1 this]⟩
  · cases this

theorem isCopy_sound {x : Lsa} {l : List Out} (h : l.any (isCopy x) = true) : ∃ d, .data d ∈ l ∧ Transmits d.lsa x := by
  obtain ⟨o, ho, hx⟩ := List.any_eq_true.1 h
  unfold isCopy at hx
  split at hx
  · rename_i s
    simp only [Bool.and_eq_true, beq_iff_eq] at hx
    exact ⟨s, ho, hx.1.1, hx.1.2, hx.2⟩
  · cases hx

theorem roomB_room {q : Seqs} (h : roomB q = true) : Room q := by
  simp only [roomB, Bool.and_eq_true, decide_eq_true_eq] at h
  exact ⟨h.1.1, h.1.2, h.2⟩

theorem delivers_sound {n : Nat} {own : Bool} {c : Fin n → RConf} {N : State (Fin n)} {i : Fin n} {op : Router.Op}
    (h : delivers own c N i op = true) : (own = false → Delivers c N i op) ∧ AllowedOwn c N (.act i op) := by
  unfold delivers at h
  split at h
  · rename_i u k
    obtain ⟨j, -, hj⟩ := List.any_eq_true.1 h
    obtain ⟨t, -, ht⟩ := List.any_eq_true.1 hj
    simp only [Bool.and_eq_true, beq_iff_eq, List.contains_iff_mem] at ht
    obtain ⟨⟨h1, h2⟩, h3⟩ := ht
    by_cases hlast : j = i → ∀ k', .publish t k' ∈ (N i).log → k' ≤ k
    · exact ⟨fun _ => ⟨j, t, h1, h2, hlast⟩, Or.inl ⟨j, t, h1, h2, hlast⟩⟩
    · have hji : j = i := Classical.byContradiction fun hne => hlast (fun e => absurd e hne)
      subst hji
      refine ⟨fun hown => absurd (fun _ k' hk' => ?_) hlast, Or.inr ⟨j, t, k, by rw [h1], h2⟩⟩
      subst hown
      simp only [Bool.false_or, bne_self_eq_false, Bool.not_eq_true', List.any_eq_false] at h3
      have := h3 _ hk'
      simp only [isPub, beq_self_eq_true, Bool.true_and, decide_eq_true_eq] at this
      omega
  · rename_i m x
    obtain ⟨j, -, hj⟩ := List.any_eq_true.1 h
    simp only [Bool.and_eq_true, bne_iff_ne] at hj
    obtain ⟨d, h1, h2⟩ := isCopy_sound hj.2
    exact ⟨fun _ => ⟨j, d, hj.1, h1, h2⟩, Or.inl ⟨j, d, hj.1, h1, h2⟩⟩
  · rename_i h1 h2
    have : Delivers c N i op := by
      unfold Delivers
      split
      · exact absurd rfl (h1 _ _)
      · exact absurd rfl (h2 _ _)
      · trivial
    exact ⟨fun _ => this, Or.inl this⟩

theorem killB_fine {n : Nat} {c : Fin n → RConf} {N : State (Fin n)} {i : Fin n} {kill : Kill} (h : killB c N i kill = true) :
    kill.Fine c N i := by
  induction kill with
  | idle => trivial
  | event op k =>
    obtain ⟨h1, h2⟩ := Bool.and_eq_true_iff.1 h
    exact ⟨(delivers_sound h1).1 rfl, roomB_room h2⟩
  | start b adjs npl sys k ih =>
    obtain ⟨h1, h2⟩ := Bool.and_eq_true_iff.1 h
    obtain ⟨h1, h3⟩ := Bool.and_eq_true_iff.1 h1
    obtain ⟨h1, h4⟩ := Bool.and_eq_true_iff.1 h1
    exact ⟨ih h1, freshB_fresh h4, wholeB_whole h3, roomB_room h2⟩

theorem allowed_sound {n : Nat} {own : Bool} {c : Fin n → RConf} {N : State (Fin n)} {op : Op (Fin n)}
    (h : allowed own c N op = true) : (own = false → Allowed c N op) ∧ AllowedOwn c N op := by
  cases op with
  | act i op => exact delivers_sound h
  | restart i adjs npl sys kill =>
    simp only [allowed, Bool.and_eq_true, bne_iff_ne] at h
    have : Allowed c N (.restart i adjs npl sys kill) := ⟨freshB_fresh h.1.1.1, wholeB_whole h.1.1.2, h.1.2, killB_fine h.2⟩
    exact ⟨fun _ => this, Or.inl this⟩

/-- One event, on the list of routers. -/
def stepList {n : Nat} (c : Fin n → RConf) (d : Site) (l : List Site) : Op (Fin n) → List Site
  | .act i op => l.set i.val { l.getD i.val d with r := Router.step (c i) (l.getD i.val d).r op }
  | .restart i adjs npl sys kill =>
    let past := (l.getD i.val d).log ++ kill.outs (c i) (l.getD i.val d)
    l.set i.val ⟨Router.init (c i) (lastPersist past) adjs npl sys, past⟩

theorem stepList_length {n : Nat} (c : Fin n → RConf) (d : Site) (l : List Site) (op : Op (Fin n)) :
    (stepList c d l op).length = l.length := by
  cases op <;> exact List.length_set

theorem step_ofList {n : Nat} (c : Fin n → RConf) {d : Site} {l : List Site} (hl : l.length = n) (op : Op (Fin n)) :
    step c (ofList l d) op = ofList (stepList c d l op) d := by
  cases op with
  | act i op => exact set_ofList hl i _
  | restart i adjs npl sys kill => exact set_ofList hl i _

/-- A run of events, each of which is checked to be allowed. -/
def go {n : Nat} (own : Bool) (c : Fin n → RConf) (d : Site) : List Site → List (Op (Fin n)) → Option (List Site)
  | l, [] => some l
  | l, op :: ops =>
    if allowed own c (ofList l d) op = true then
      if (stepList c d l op).all (fun s => roomB s.r.core.lsdb.seqs) = true then go own c d (stepList c d l op) ops
      else none
    else none

theorem go_room {n : Nat} {l : List Site} {d : Site} (hl : l.length = n) (h : l.all (fun s => roomB s.r.core.lsdb.seqs) = true)
    (i : Fin n) : Room (ofList l d i).r.core.lsdb.seqs := by
  have hi : i.val < l.length := by rw [hl]; exact i.isLt
  have : ofList l d i = l[i.val] := by
    unfold ofList
    rw [List.getD_eq_getElem?_getD, List.getElem?_eq_getElem hi]
    rfl
  rw [this]
  exact roomB_room (List.all_eq_true.1 h _ (List.getElem_mem hi))

theorem go_own {n : Nat} {own : Bool} {c : Fin n → RConf} {d : Site} : ∀ {ops : List (Op (Fin n))} {l l' : List Site}, l.length = n →
    go own c d l ops = some l' → ReachableOwn c (ofList l d) → ReachableOwn c (ofList l' d) := by
  intro ops
  induction ops with
  | nil => intro l l' _ h hr; cases h; exact hr
  | cons op ops ih =>
    intro l l' hl h hr
    unfold go at h
    split at h
    · rename_i ha
      split at h
      · rename_i hroom
        have hlen := (stepList_length c d l op).trans hl
        refine ih hlen h ?_
        have e := step_ofList c (d := d) hl op
        rw [← e]
        exact hr.step op (allowed_sound ha).2 (fun i => by rw [e]; exact go_room hlen hroom i)
      · cases h
    · cases h

theorem go_reachable {n : Nat} {c : Fin n → RConf} {d : Site} : ∀ {ops : List (Op (Fin n))} {l l' : List Site}, l.length = n →
    go false c d l ops = some l' → Reachable c (ofList l d) → Reachable c (ofList l' d) := by
  intro ops
  induction ops with
  | nil => intro l l' _ h hr; cases h; exact hr
  | cons op ops ih =>
    intro l l' hl h hr
    unfold go at h
    split at h
    · rename_i ha
      split at h
      · rename_i hroom
        have hlen := (stepList_length c d l op).trans hl
        refine ih hlen h ?_
        have e := step_ofList c (d := d) hl op
        rw [← e]
        exact hr.step op ((allowed_sound ha).1 rfl) (fun i => by rw [e]; exact go_room hlen hroom i)
      · cases h
    · cases h

end Net
end Nlsr
