import Verif.Props.FibHist
import Mathlib.Logic.Relation
/- C26: attempts at NFD are bounded. -/
namespace Nlsr
open Fib

/-- The request (a call of `registerPrefix` or `setStrategy` with count 0) a command belongs to. -/
def cmdRoot : NfdCmd → Option Nat
  | .register r _ _ _ _ _ _ _ => some r
  | .unregister _ _ _ => none
  | .strategy r _ _ => some r

/-- What a request asks for. -/
inductive Ask
  | reg (n : Name) (u : Uri) (cost : Int) (flags exp : Nat)
  | strat (n s : Name)
deriving DecidableEq, Repr

def cmdAsk : NfdCmd → Option Ask
  | .register _ n u _ cost flags exp _ => some (.reg n u cost flags exp)
  | .unregister _ _ _ => none
  | .strategy _ n s => some (.strat n s)

/-- The commands sent for request `r`. -/
def sentFor (r : Nat) (log : List NfdCmd) : List NfdCmd := log.filter (fun x => decide (cmdRoot x = some r))

/-- An attempt waiting for its answer. -/
structure Pend where
  root  : Nat
  times : Nat
  ask   : Ask

def pend (s : Fib) : List Pend :=
  s.regs.map (fun q => ⟨q.root, q.times, .reg q.name q.uri q.cost q.flags q.exp⟩) ++
  s.strats.map (fun q => ⟨q.root, q.count, .strat q.name q.strat⟩)

/-- One move of the requests. -/
inductive Move (s s' : Fib) : Prop
  | skip (hp : (pend s').Perm (pend s)) (hl : s'.log = s.log) (hr : s.nextRoot ≤ s'.nextRoot)
  | plain (x : NfdCmd) (hx : cmdRoot x = none) (hp : (pend s').Perm (pend s)) (hl : s'.log = s.log ++ [x])
      (hr : s'.nextRoot = s.nextRoot)
  | fresh (x : NfdCmd) (a : Ask) (hx : cmdRoot x = some s.nextRoot) (ha : cmdAsk x = some a)
      (hp : (pend s').Perm (⟨s.nextRoot, 0, a⟩ :: pend s)) (hl : s'.log = s.log ++ [x]) (hr : s'.nextRoot = s.nextRoot + 1)
  | drop (p : Pend) (hp : (pend s).Perm (p :: pend s')) (hl : s'.log = s.log) (hr : s'.nextRoot = s.nextRoot)
  | retry (p : Pend) (rest : List Pend) (x : NfdCmd) (ht : p.times < 3) (hx : cmdRoot x = some p.root)
      (ha : cmdAsk x = some p.ask) (h0 : (pend s).Perm (p :: rest)) (hp : (pend s').Perm (⟨p.root, p.times + 1, p.ask⟩ :: rest))
      (hl : s'.log = s.log ++ [x]) (hr : s'.nextRoot = s.nextRoot)

abbrev Moves := Relation.ReflTransGen Move

theorem Moves.of {s s' : Fib} (h : Move s s') : Moves s s' := Relation.ReflTransGen.single h

theorem move_table {s : Fib} (t : List FibEntry) : Moves s { s with table := t } :=
  Moves.of (.skip (List.Perm.refl _) rfl (Nat.le_refl _))

theorem moves_foldl {α : Type} {f : Fib → α → Fib} (h : ∀ s a, Moves s (f s a)) (l : List α) : ∀ s, Moves s (l.foldl f s) := by
  induction l with
  | nil => intro s; exact .refl
  | cons a as ih => intro s; exact (h s a).trans (ih _)

theorem moves_register (s : Fib) (n : Name) (u : Uri) (cost : Int) (exp flags : Nat) : Moves s (s.registerPrefix n u cost exp flags) := by
  rw [registerPrefix_eq]
  by_cases h : 0 < s.adjs.faceIdOf u
  · rw [if_pos h, if_pos h]
    refine Moves.of (.fresh (.register s.nextRoot n u (s.adjs.faceIdOf u) cost flags exp s.now) (.reg n u cost flags exp) rfl rfl ?_ rfl rfl)
    unfold pend
    dsimp only
    rw [List.map_append, List.append_assoc]
    exact List.perm_middle
  · rw [if_neg h, if_neg h]
    refine Moves.of (.skip ?_ ?_ (Nat.le_add_right _ _))
    · unfold pend; dsimp only; rw [List.append_nil]
    · exact List.append_nil _

theorem moves_unregister (s : Fib) (n : Name) (u : Uri) : Moves s (s.unregisterPrefix n u) := by
  rw [unregister_eq]
  by_cases h : 0 < s.adjs.faceIdOf u
  · rw [if_pos h]
    exact Moves.of (.plain _ rfl (List.Perm.refl _) rfl rfl)
  · rw [if_neg h]
    exact Moves.of (.skip (List.Perm.refl _) (List.append_nil _) (Nat.le_refl _))

theorem moves_modEntry (s : Fib) (n : Name) (f : FibEntry → FibEntry) : Moves s (s.modEntry n f) := move_table _

theorem moves_remove (s : Fib) (n : Name) : Moves s (s.remove n) := by
  unfold Fib.remove
  cases s.find n with
  | none => exact .refl
  | some e =>
    dsimp only
    split
    · exact .refl
    · exact (moves_foldl (fun s h => moves_unregister s e.name h.uri) e.hops s).trans (move_table _)

theorem moves_registerHops (c : FConf) (s : Fib) (n : Name) (hops : List NextHop) (flags : Nat) :
    Moves s (s.registerHops c n hops flags) := by
  unfold Fib.registerHops
  split
  · exact .refl
  · exact moves_foldl (fun s h => moves_register s n h.uri h.adj _ flags) hops s

theorem moves_ensure (c : FConf) (s : Fib) (n : Name) (flags : Nat) : Moves s (s.ensureRefresh c n flags) := by
  unfold Fib.ensureRefresh
  cases s.find n with
  | none => exact .refl
  | some e =>
    dsimp only
    split
    · exact moves_modEntry _ _ _
    · exact .refl

theorem moves_dropHop (n : Name) (s : Fib) (h : NextHop) : Moves s (dropHop n s h) := by
  unfold Fib.dropHop
  split
  · exact moves_modEntry _ _ _
  · exact (moves_unregister s n h.uri).trans (moves_modEntry _ _ _)

theorem moves_update (c : FConf) (s : Fib) (n : Name) (l : NexthopList) (flags : Nat) : Moves s (s.update c n l flags) := by
  unfold Fib.update
  dsimp only
  cases s.find n with
  | none =>
    dsimp only
    split
    · exact moves_remove s n
    · exact ((moves_registerHops c s n _ flags).trans (move_table _)).trans (moves_ensure _ _ _ _)
  | some e =>
    dsimp only
    split
    · exact moves_remove s n
    · exact ((((moves_registerHops c s n _ flags).trans (moves_modEntry _ _ _)).trans
        (moves_foldl (moves_dropHop n) _ _)).trans (moves_modEntry _ _ _)).trans (moves_ensure _ _ _ _)

theorem moves_refresh (c : FConf) (s : Fib) (n : Name) : Moves s (s.refresh c n) := by
  unfold Fib.refresh
  cases s.find n with
  | none => exact .refl
  | some e =>
    dsimp only
    cases e.refresh with
    | none => exact .refl
    | some p =>
      dsimp only
      split
      · exact .refl
      · exact ((moves_modEntry _ _ _).trans (moves_foldl (fun s (h : NextHop) => moves_register s n h.uri h.adj _ _) _ _)).trans (moves_modEntry _ _ _)

theorem perm_eraseIdx {α : Type} {l : List α} {i : Nat} {a : α} (h : l[i]? = some a) : l.Perm (a :: l.eraseIdx i) := by
  induction l generalizing i with
  | nil => simp at h
  | cons x xs ih =>
    cases i with
    | zero =>
      simp only [List.getElem?_cons_zero, Option.some.injEq] at h
      subst h; exact List.Perm.refl _
    | succ i =>
      simp only [List.getElem?_cons_succ] at h
      exact (List.Perm.cons x (ih h)).trans (List.Perm.swap _ _ _)

theorem pend_reg {s : Fib} {i : Nat} {q : RegReq} (h : s.regs[i]? = some q) {s' : Fib} (h1 : s'.regs = s.regs.eraseIdx i)
    (h2 : s'.strats = s.strats) :
    (pend s).Perm (⟨q.root, q.times, .reg q.name q.uri q.cost q.flags q.exp⟩ :: pend s') := by
  unfold pend
  rw [h1, h2]
  exact List.Perm.append_right _ ((perm_eraseIdx h).map _)

theorem pend_strat {s : Fib} {i : Nat} {q : StratReq} (h : s.strats[i]? = some q) {s' : Fib} (h1 : s'.strats = s.strats.eraseIdx i)
    (h2 : s'.regs = s.regs) :
    (pend s).Perm (⟨q.root, q.count, .strat q.name q.strat⟩ :: pend s') := by
  unfold pend
  rw [h1, h2]
  exact (List.Perm.append_left _ ((perm_eraseIdx h).map _)).trans List.perm_middle

theorem moves_step (c : FConf) (s : Fib) (op : Op) : Moves s (Fib.step c s op) := by
  cases op with
  | update n l f => exact moves_update c s n l f
  | remove n => exact moves_remove s n
  | refresh n => exact moves_refresh c s n
  | register n u cost exp flags => exact moves_register s n u cost exp flags
  | setStrategy n st =>
    refine Moves.of (.fresh (.strategy s.nextRoot n st) (.strat n st) rfl rfl ?_ rfl rfl)
    show (s.regs.map _ ++ (s.strats ++ [(⟨s.nextRoot, n, st, 0⟩ : StratReq)]).map _).Perm _
    rw [List.map_append, ← List.append_assoc]
    exact List.perm_append_comm.trans (List.Perm.refl _)
  | regOk i =>
    show Moves s (s.regOk i)
    unfold Fib.regOk
    cases h : s.regs[i]? with
    | none => exact .refl
    | some q => exact Moves.of (.drop _ (pend_reg h rfl rfl) rfl rfl)
  | regFail i =>
    show Moves s (s.regFail i)
    unfold Fib.regFail
    cases h : s.regs[i]? with
    | none => exact .refl
    | some q =>
      dsimp only
      by_cases ht : q.times < 3
      · rw [if_pos ht]
        unfold Fib.send
        dsimp only
        split
        · refine Moves.of (.retry ⟨q.root, q.times, .reg q.name q.uri q.cost q.flags q.exp⟩ (pend { s with regs := s.regs.eraseIdx i })
            (.register q.root q.name q.uri (s.adjs.faceIdOf q.uri) q.cost q.flags q.exp s.now) ht rfl rfl (pend_reg h rfl rfl) ?_ rfl rfl)
          unfold pend
          dsimp only
          rw [List.map_append, List.append_assoc]
          exact List.perm_middle
        · exact Moves.of (.drop _ (pend_reg h rfl rfl) rfl rfl)
      · rw [if_neg ht]
        exact Moves.of (.drop _ (pend_reg h rfl rfl) rfl rfl)
  | stratOk i =>
    show Moves s (s.stratOk i)
    unfold Fib.stratOk
    cases h : s.strats[i]? with
    | none =>
      rw [List.eraseIdx_of_length_le (List.getElem?_eq_none_iff.1 h)]
    | some q => exact Moves.of (.drop _ (pend_strat h rfl rfl) rfl rfl)
  | stratFail i =>
    show Moves s (s.stratFail i)
    unfold Fib.stratFail
    cases h : s.strats[i]? with
    | none => exact .refl
    | some q =>
      dsimp only
      by_cases ht : q.count < 3
      · rw [if_pos ht]
        refine Moves.of (.retry ⟨q.root, q.count, .strat q.name q.strat⟩ (pend { s with strats := s.strats.eraseIdx i })
          (.strategy q.root q.name q.strat) ht rfl rfl (pend_strat h rfl rfl) ?_ rfl rfl)
        show (pend { s with strats := _, log := _ }).Perm _
        unfold pend
        dsimp only
        rw [List.map_append, ← List.append_assoc]
        exact List.perm_append_comm
      · rw [if_neg ht]
        exact Moves.of (.drop _ (pend_strat h rfl rfl) rfl rfl)
  | clock dt => exact Moves.of (.skip (List.Perm.refl _) rfl (Nat.le_refl _))
  | setFaceId n id => exact Moves.of (.skip (List.Perm.refl _) rfl (Nat.le_refl _))

theorem moves_run (c : FConf) (s : Fib) (ops : List Op) : Moves s (Fib.run c s ops) := by
  unfold Fib.run
  exact moves_foldl (moves_step c) ops s

/-- What is always true of the requests. -/
structure Bounded (s : Fib) : Prop where
  nodup : ((pend s).map (·.root)).Nodup
  pend : ∀ p ∈ pend s, p.root < s.nextRoot ∧ p.times ≤ 3 ∧ (sentFor p.root s.log).length = p.times + 1 ∧
    ∀ x ∈ sentFor p.root s.log, cmdAsk x = some p.ask
  known : ∀ x ∈ s.log, ∀ r, cmdRoot x = some r → r < s.nextRoot
  four : ∀ r, (sentFor r s.log).length ≤ 4
  same : ∀ r, ∀ x ∈ sentFor r s.log, ∀ y ∈ sentFor r s.log, cmdAsk x = cmdAsk y

theorem sentFor_append (r : Nat) (l : List NfdCmd) (x : NfdCmd) :
    sentFor r (l ++ [x]) = if cmdRoot x = some r then sentFor r l ++ [x] else sentFor r l := by
  unfold sentFor
  rw [List.filter_append]
  by_cases h : cmdRoot x = some r
  · simp [h]
  · simp [h]

theorem sentFor_new {s : Fib} (h : ∀ x ∈ s.log, ∀ r, cmdRoot x = some r → r < s.nextRoot) : sentFor s.nextRoot s.log = [] := by
  unfold sentFor
  rw [List.filter_eq_nil_iff]
  intro x hx hc
  exact Nat.lt_irrefl _ (h x hx _ (by simpa using hc))

theorem bounded_move {s s' : Fib} (h : Bounded s) (m : Move s s') : Bounded s' := by
  cases m with
  | skip hp hl hr =>
    refine ⟨(hp.map _).nodup_iff.2 h.nodup, fun p hpm => ?_, ?_, ?_, ?_⟩
    · obtain ⟨a, b⟩ := h.pend p (hp.mem_iff.1 hpm)
      rw [hl]; exact ⟨by omega, b⟩
    · rw [hl]; intro x hx r hc; exact Nat.lt_of_lt_of_le (h.known x hx r hc) hr
    · rw [hl]; exact h.four
    · rw [hl]; exact h.same
  | plain x hx hp hl hr =>
    have hs : ∀ r, sentFor r s'.log = sentFor r s.log := by
      intro r; rw [hl, sentFor_append, if_neg (by rw [hx]; simp)]
    refine ⟨(hp.map _).nodup_iff.2 h.nodup, fun p hpm => ?_, ?_, ?_, ?_⟩
    · rw [hs, hr]; exact h.pend p (hp.mem_iff.1 hpm)
    · rw [hl, hr]
      intro y hy r hc
      rcases List.mem_append.1 hy with hy | hy
      · exact h.known y hy r hc
      · rw [List.mem_singleton] at hy; subst hy; rw [hx] at hc; cases hc
    · intro r; rw [hs]; exact h.four r
    · intro r; rw [hs]; exact h.same r
  | fresh x a hx ha hp hl hr =>
    have hnew := sentFor_new h.known
    have hs1 : sentFor s.nextRoot s'.log = [x] := by rw [hl, sentFor_append, if_pos hx, hnew]; rfl
    have hs : ∀ r, r ≠ s.nextRoot → sentFor r s'.log = sentFor r s.log := by
      intro r hne; rw [hl, sentFor_append, if_neg (by rw [hx]; simpa using fun hc => hne hc.symm)]
    refine ⟨(hp.map _).nodup_iff.2 ?_, fun p hpm => ?_, ?_, ?_, ?_⟩
    · rw [List.map_cons, List.nodup_cons]
      refine ⟨fun hc => ?_, h.nodup⟩
      obtain ⟨p, hpm, he⟩ := List.mem_map.1 hc
      have := (h.pend p hpm).1
      dsimp only at he
      omega
    · rcases List.mem_cons.1 (hp.mem_iff.1 hpm) with rfl | hpm
      · rw [hs1, hr]
        refine ⟨by dsimp only; omega, by dsimp only; omega, by simp, ?_⟩
        intro y hy; rw [List.mem_singleton] at hy; subst hy; exact ha
      · obtain ⟨h1, h2⟩ := h.pend p hpm
        rw [hs _ (by omega), hr]
        exact ⟨by omega, h2⟩
    · rw [hl, hr]
      intro y hy r hc
      rcases List.mem_append.1 hy with hy | hy
      · have := h.known y hy r hc; omega
      · rw [List.mem_singleton] at hy; subst hy; rw [hx] at hc; injection hc with hc; omega
    · intro r
      by_cases hne : r = s.nextRoot
      · subst hne; rw [hs1]; simp
      · rw [hs r hne]; exact h.four r
    · intro r
      by_cases hne : r = s.nextRoot
      · subst hne; rw [hs1]
        intro y hy z hz
        rw [List.mem_singleton] at hy hz; rw [hy, hz]
      · rw [hs r hne]; exact h.same r
  | drop p hp hl hr =>
    have hnd := (hp.map (·.root)).nodup_iff.1 h.nodup
    rw [List.map_cons, List.nodup_cons] at hnd
    refine ⟨hnd.2, fun q hq => ?_, ?_, ?_, ?_⟩
    · rw [hl, hr]; exact h.pend q (hp.mem_iff.2 (List.mem_cons_of_mem _ hq))
    · rw [hl, hr]; exact h.known
    · rw [hl]; exact h.four
    · rw [hl]; exact h.same
  | retry p rest x ht hx ha h0 hp hl hr =>
    have hnd := (h0.map (·.root)).nodup_iff.1 h.nodup
    obtain ⟨p1, p2, p3, p4⟩ := h.pend p (h0.mem_iff.2 List.mem_cons_self)
    have hs1 : sentFor p.root s'.log = sentFor p.root s.log ++ [x] := by rw [hl, sentFor_append, if_pos hx]
    have hs : ∀ r, r ≠ p.root → sentFor r s'.log = sentFor r s.log := by
      intro r hne; rw [hl, sentFor_append, if_neg (by rw [hx]; simpa using fun hc => hne hc.symm)]
    have hask : ∀ y ∈ sentFor p.root s.log ++ [x], cmdAsk y = some p.ask := by
      intro y hy
      rcases List.mem_append.1 hy with hy | hy
      · exact p4 y hy
      · rw [List.mem_singleton] at hy; subst hy; exact ha
    refine ⟨(hp.map _).nodup_iff.2 hnd, fun q hq => ?_, ?_, ?_, ?_⟩
    · rcases List.mem_cons.1 (hp.mem_iff.1 hq) with rfl | hq
      · dsimp only
        rw [hs1, hr]
        refine ⟨p1, by omega, ?_, hask⟩
        rw [List.length_append, List.length_singleton]; omega
      · have hne : q.root ≠ p.root := by
          intro hc
          rw [List.map_cons, List.nodup_cons] at hnd
          exact hnd.1 (List.mem_map.2 ⟨q, hq, hc⟩)
        rw [hs _ hne, hr]
        exact h.pend q (h0.mem_iff.2 (List.mem_cons_of_mem _ hq))
    · rw [hl, hr]
      intro y hy r hc
      rcases List.mem_append.1 hy with hy | hy
      · exact h.known y hy r hc
      · rw [List.mem_singleton] at hy; subst hy; rw [hx] at hc; injection hc with hc; omega
    · intro r
      by_cases hne : r = p.root
      · subst hne; rw [hs1, List.length_append, List.length_singleton]; omega
      · rw [hs r hne]; exact h.four r
    · intro r
      by_cases hne : r = p.root
      · subst hne; rw [hs1]
        intro y hy z hz; rw [hask y hy, hask z hz]
      · rw [hs r hne]; exact h.same r

theorem bounded_moves {s s' : Fib} (h : Bounded s) (m : Moves s s') : Bounded s' := by
  induction m with
  | refl => exact h
  | tail _ m ih => exact bounded_move ih m

theorem bounded_run (c : FConf) (A : AdjacencyList) (ops : List Op) : Bounded (Fib.run c { adjs := A } ops) :=
  bounded_moves (s := { adjs := A }) ⟨List.Pairwise.nil, fun p hp => (by cases hp), fun x hx => (by cases hx), fun _ => Nat.zero_le _, fun _ x hx => (by cases hx)⟩
    (moves_run c _ ops)

/-- A request that is over stays over. -/
theorem dead_move {s s' : Fib} (m : Move s s') {r : Nat} (h1 : r < s.nextRoot) (h2 : ∀ p ∈ pend s, p.root ≠ r) :
    r < s'.nextRoot ∧ (∀ p ∈ pend s', p.root ≠ r) ∧ sentFor r s'.log = sentFor r s.log := by
  cases m with
  | skip hp hl hr => exact ⟨by omega, fun p h => h2 p (hp.mem_iff.1 h), by rw [hl]⟩
  | plain x hx hp hl hr => exact ⟨by omega, fun p h => h2 p (hp.mem_iff.1 h), by rw [hl, sentFor_append, if_neg (by rw [hx]; simp)]⟩
  | fresh x a hx ha hp hl hr =>
    refine ⟨by omega, fun p h => ?_, ?_⟩
    · rcases List.mem_cons.1 (hp.mem_iff.1 h) with rfl | h
      · exact fun hc => by dsimp only at hc; omega
      · exact h2 p h
    · rw [hl, sentFor_append, if_neg]; rw [hx]; intro hc; injection hc with hc; omega
  | drop p hp hl hr => exact ⟨by omega, fun q h => h2 q (hp.mem_iff.2 (List.mem_cons_of_mem _ h)), by rw [hl]⟩
  | retry p rest x ht hx ha h0 hp hl hr =>
    have hpr := h2 p (h0.mem_iff.2 List.mem_cons_self)
    refine ⟨by omega, fun q h => ?_, ?_⟩
    · rcases List.mem_cons.1 (hp.mem_iff.1 h) with rfl | h
      · exact hpr
      · exact h2 q (h0.mem_iff.2 (List.mem_cons_of_mem _ h))
    · rw [hl, sentFor_append, if_neg]; rw [hx]; intro hc; injection hc with hc; exact hpr hc

theorem dead_moves {s s' : Fib} (m : Moves s s') {r : Nat} (h1 : r < s.nextRoot) (h2 : ∀ p ∈ pend s, p.root ≠ r) :
    r < s'.nextRoot ∧ (∀ p ∈ pend s', p.root ≠ r) ∧ sentFor r s'.log = sentFor r s.log := by
  induction m with
  | refl => exact ⟨h1, h2, rfl⟩
  | tail _ m ih =>
    obtain ⟨a, b, d⟩ := ih
    obtain ⟨a', b', d'⟩ := dead_move m a b
    exact ⟨a', b', d'.trans d⟩

/-! ### C26 -/

/-- **C26.** However NFD answers, one call of `registerPrefix` or `setStrategy` causes at most four
commands. -/
theorem C26_at_most_four (c : FConf) (A : AdjacencyList) (ops : List Op) (r : Nat) :
    (sentFor r (Fib.run c { adjs := A } ops).log).length ≤ 4 := (bounded_run c A ops).four r

/-- **C26.** All commands of one call have the same name, face URI, cost, flags and lifetime (or the same
name and strategy). -/
theorem C26_same_request (c : FConf) (A : AdjacencyList) (ops : List Op) (r : Nat) :
    ∀ x ∈ sentFor r (Fib.run c { adjs := A } ops).log, ∀ y ∈ sentFor r (Fib.run c { adjs := A } ops).log, cmdAsk x = cmdAsk y :=
  (bounded_run c A ops).same r

/-- **C26.** After a success is reported for a registration, no command of its call is sent any more. -/
theorem C26_success_stops (c : FConf) (A : AdjacencyList) (ops ops' : List Op) (i : Nat) (q : RegReq)
    (hq : (Fib.run c { adjs := A } ops).regs[i]? = some q) :
    sentFor q.root (Fib.run c { adjs := A } (ops ++ .regOk i :: ops')).log = sentFor q.root (Fib.run c { adjs := A } ops).log := by
  have h := bounded_run c A ops
  have e : Fib.run c { adjs := A } (ops ++ .regOk i :: ops') = Fib.run c ((Fib.run c { adjs := A } ops).regOk i) ops' := by
    unfold Fib.run; rw [List.foldl_append]; rfl
  rw [e]
  generalize Fib.run c { adjs := A } ops = s at *
  have hp := pend_reg hq (s' := s.regOk i) (by unfold Fib.regOk; rw [hq]) (by unfold Fib.regOk; rw [hq])
  have hnd := (hp.map (·.root)).nodup_iff.1 h.nodup
  rw [List.map_cons, List.nodup_cons] at hnd
  have hl : (s.regOk i).log = s.log := by unfold Fib.regOk; rw [hq]
  have hr : (s.regOk i).nextRoot = s.nextRoot := by unfold Fib.regOk; rw [hq]
  rw [← hl]
  refine (dead_moves (moves_run c (s.regOk i) ops') ?_ ?_).2.2
  · rw [hr]; exact (h.pend _ (hp.mem_iff.2 List.mem_cons_self)).1
  · intro p hpm hc; exact hnd.1 (List.mem_map.2 ⟨p, hpm, hc⟩)

/-- **C26.** The same for strategies. -/
theorem C26_success_stops_strategy (c : FConf) (A : AdjacencyList) (ops ops' : List Op) (i : Nat) (q : StratReq)
    (hq : (Fib.run c { adjs := A } ops).strats[i]? = some q) :
    sentFor q.root (Fib.run c { adjs := A } (ops ++ .stratOk i :: ops')).log = sentFor q.root (Fib.run c { adjs := A } ops).log := by
  have h := bounded_run c A ops
  have e : Fib.run c { adjs := A } (ops ++ .stratOk i :: ops') = Fib.run c ((Fib.run c { adjs := A } ops).stratOk i) ops' := by
    unfold Fib.run; rw [List.foldl_append]; rfl
  rw [e]
  generalize Fib.run c { adjs := A } ops = s at *
  have hp := pend_strat hq (s' := s.stratOk i) rfl rfl
  have hnd := (hp.map (·.root)).nodup_iff.1 h.nodup
  rw [List.map_cons, List.nodup_cons] at hnd
  refine (dead_moves (s := s.stratOk i) (moves_run c (s.stratOk i) ops') (h.pend _ (hp.mem_iff.2 List.mem_cons_self)).1 ?_).2.2
  intro p hpm hc; exact hnd.1 (List.mem_map.2 ⟨p, hpm, hc⟩)

/-- **C26.** A failure before the fourth attempt is followed by another attempt for the same name and face
URI, if the face is known; a failure of the fourth is not. -/
theorem C26_retries (c : FConf) (A : AdjacencyList) (ops : List Op) (i : Nat) (q : RegReq)
    (hq : (Fib.run c { adjs := A } ops).regs[i]? = some q) :
    let s := Fib.run c { adjs := A } ops
    (Fib.step c s (.regFail i)).log = s.log ++
      if (sentFor q.root s.log).length < 4 ∧ 0 < s.adjs.faceIdOf q.uri
      then [.register q.root q.name q.uri (s.adjs.faceIdOf q.uri) q.cost q.flags q.exp s.now] else [] := by
  intro s
  show (s.regFail i).log = _
  have h := (bounded_run c A ops).pend _ ((pend_reg hq (s' := { s with regs := s.regs.eraseIdx i }) rfl rfl).mem_iff.2 List.mem_cons_self)
  have h3 : (sentFor q.root s.log).length = q.times + 1 := h.2.2.1
  unfold Fib.regFail
  rw [hq, h3]
  dsimp only
  by_cases ht : q.times < 3
  · rw [if_pos ht]
    unfold Fib.send
    dsimp only
    by_cases hf : 0 < s.adjs.faceIdOf q.uri
    · rw [if_pos hf, if_pos ⟨by omega, hf⟩]
    · rw [if_neg hf, if_neg (fun hc => hf hc.2), List.append_nil]
  · rw [if_neg ht, if_neg (fun hc => ht (by omega)), List.append_nil]

/-- Four failures: four commands, then nothing. -/
example : (sentFor 0 (Fib.run fibConf { adjs := fibAdjs } [.register (nm ["p"]) "udp4://b" 10 3610 1, .regFail 0, .regFail 0,
      .regFail 0, .regFail 0, .regFail 0]).log).length = 4 ∧
    (Fib.run fibConf { adjs := fibAdjs } [.register (nm ["p"]) "udp4://b" 10 3610 1, .regFail 0, .regFail 0, .regFail 0, .regFail 0]).regs = [] ∧
    (Fib.run fibConf { adjs := fibAdjs } [.register (nm ["p"]) "udp4://b" 10 3610 1, .regFail 0]).regs[0]? =
      some ⟨0, nm ["p"], "udp4://b", 261, 10, 1, 3610, 1⟩ ∧
    (sentFor 1 (Fib.run fibConf { adjs := fibAdjs } [.register (nm ["p"]) "udp4://b" 10 3610 1, .setStrategy (nm ["q"]) (nm ["s"]),
      .stratFail 0, .stratFail 0]).log).length = 3 := by decide +kernel

end Nlsr
