import Verif.Lemmas.NptSome
import Verif.Props.Npt
/-
C21: the cost charged for a prefix that several routers advertise, after any history.
-/
namespace Nlsr
open Npt
open Core (Reachable)
open Lsdb (view)

/-- In this log no router had the name `p`. -/
def NotARouter (p : Name) (log : List Out) : Prop :=
  ∀ k l adds removes, Out.signal k l adds removes ∈ log → l.origin ≠ p

/-- In this log some other router stopped advertising `p`: an update of its Name LSA left `p` out, or the
LSA was removed with `p` in it. -/
def Withdrawn (own p : Name) (log : List Out) : Prop :=
  ∃ k l adds removes, Out.signal k l adds removes ∈ log ∧ l.origin ≠ own ∧
    ((∃ q ∈ removes, q.name = p) ∨ (k = .removed ∧ ∃ m, l.content = .names m ∧ ∃ q ∈ m, q.name = p))

theorem withdrawn_of {own p : Name} {log : List Out} (h : Gone own p log) : Withdrawn own p log := by
  obtain ⟨k, l, a, b, hm, ho, h⟩ := h
  refine ⟨k, l, a, b, hm, ho, ?_⟩
  rcases h with h | ⟨h1, q, hq, hn⟩
  · exact Or.inl h
  · refine Or.inr ⟨h1, ?_⟩
    unfold lsaNames at hq
    cases hcn : l.content with
    | names m => rw [hcn] at hq; exact ⟨m, rfl, q, hq, hn⟩
    | adj _ => rw [hcn] at hq; simp at hq
    | coord _ _ => rw [hcn] at hq; simp at hq

theorem announcer_ne {c : CConf} {s : Core} (h : Reachable c s) {p r : Name} (hn : NotARouter p s.lsdb.log) (hr : r ≠ c.router)
    {x : Ext Rat} (ha : Announces s.lsdb r p x) : p ≠ r := by
  rintro rfl
  obtain ⟨ob, hob, hor, -⟩ := ha
  obtain ⟨l, a, b, hm, hl⟩ := installed_of_stored h hr ⟨ob, hob, hor⟩
  exact hn _ l a b hm hl

/-- Every mode, any number of advertisers, any history of advertisements, withdrawals and new routes: one
cost is charged on top of all the hops recorded for `p`, and it is a cost that some router announces for
`p` now, or 0 if some router has withdrawn `p` before. -/
theorem C21_some_cost_partial {c : CConf} {s : Core} (h : Reachable c s) (p : Name) (hp : p ≠ c.router)
    (hn : NotARouter p s.lsdb.log) (r : Name) (hr : r ≠ c.router) (y : Ext Rat) (hy : Announces s.lsdb r p y) :
    ∃ e ∈ s.npt.table, e.name = p ∧ ∃ x, Charges (lastCmd s.npt.out p) p (fun h => h ∈ e.nhl) x ∧
      ((∃ r', r' ≠ c.router ∧ Announces s.lsdb r' p x) ∨ (x = .fin 0 ∧ Withdrawn c.router p s.lsdb.log)) := by
  have hok := h.someOk hp hn
  have hpr := announcer_ne h hn hr hy
  have hlist := (C16_advertisers h p r hr hp hpr).2 ⟨y, hy⟩
  obtain ⟨x, h1, h2⟩ := hok.last r ((lists_iff h.follows.fresh.inv p r).1 hlist)
  obtain ⟨e, he, hen, -⟩ := hlist
  obtain ⟨cmd, h3, h4⟩ := h1 e he hen
  refine ⟨e, he, hen, x, tells_charges h3 h4 (C17_adjusted_partial h e he).2.2, ?_⟩
  rcases h2 with ⟨h5, h6⟩ | ⟨r', h5, h6⟩
  · exact Or.inr ⟨h5, withdrawn_of h6⟩
  · exact Or.inl ⟨r', h5, (announces_iff h.lsdb r' p x).2 h6⟩

/-- Link-state: as long as nobody has withdrawn `p` and all who advertise it now ask for the same cost,
the claim holds for any number of advertisers: the command names exactly the faces by which `p` can be
reached, each with its least price. -/
theorem C21_same_cost_partial {c : CConf} {s : Core} (h : Reachable c s) (hh : c.lsdb.hyp ≠ .on) (p : Name)
    (hp : p ≠ c.router) (hn : NotARouter p s.lsdb.log) (hw : ¬ Withdrawn c.router p s.lsdb.log) (r : Name)
    (hr : r ≠ c.router) (q : Rat) (hx : Announces s.lsdb r p (.fin q))
    (hsame : ∀ r' x, r' ≠ c.router → Announces s.lsdb r' p x → x = .fin q) :
    match lastCmd s.npt.out p with
    | some (.update _ hops _) => PricedRight c.router s p hops ∧ ∀ o, Offered s p o → ∃ h ∈ hops, h.uri = o.uri
    | some (.remove _) => ∀ o, ¬ Offered s p o
    | some (.updateBad _) => ∃ o, Best s p o ∧ ¬ (0 ≤ o.cost + q ∧ o.cost + q < 2 ^ 64)
    | none => False := by
  obtain ⟨e, he, hen, x, hc, hj⟩ := C21_some_cost_partial h p hp hn r hr _ hx
  have hxq : x = .fin q := by
    rcases hj with ⟨r', h1, h2⟩ | ⟨-, h2⟩
    · exact hsame r' x h1 h2
    · exact absurd h2 hw
  subst hxq
  obtain ⟨k1, k2, k3⟩ := C17_link_state_partial h hh e he
  rw [hen] at k1 k2
  have hprice : ∀ {u k}, Price c.router s p u k → ∃ o, Offered s p o ∧ o.uri = u ∧ k = o.cost + q := by
    rintro u k ⟨r', q', hr', ha, re, h1, h2, o, h3, h4, h5⟩
    have hq : q' = q := by
      have := hsame r' _ hr' ha
      injection this
    subst hq
    exact ⟨o, ⟨r', (C16_advertisers h p r' hr' hp (announcer_ne h hn hr' ha)).2 ⟨_, ha⟩, re, h1, h2, h3⟩, h4, h5⟩
  have hoff : ∀ r', Lists s.npt p r' → r' ≠ c.router ∧ Announces s.lsdb r' p (.fin q) := by
    intro r' hl
    have hH := (lists_iff h.follows.fresh.inv p r').1 hl
    have h1 := (h.follows.foreign p r' hH).1
    have h2 : p ≠ r' := by
      rintro rfl
      obtain ⟨t, ht⟩ := h.follows.self p hH
      rw [(h.someOk hp hn).clear t] at ht
      cases ht
    obtain ⟨x, hx⟩ := (C16_advertisers h p r' h1 hp h2).1 hl
    have := hsame r' x h1 hx
    subst this
    exact ⟨h1, hx⟩
  cases hcmd : lastCmd s.npt.out p with
  | none => rw [hcmd] at hc; exact hc
  | some cmd =>
    rw [hcmd] at hc
    cases cmd with
    | remove n =>
      intro o ho
      obtain ⟨x, hx, -⟩ := k2 o ho
      exact hc.2 x hx
    | updateBad n =>
      obtain ⟨-, -, -, h2⟩ := hc
      obtain ⟨x, hx, hb⟩ := h2 q rfl
      exact ⟨x, k1 x hx, hb⟩
    | update n hops fl =>
      refine ⟨fun y hy => ?_, fun o ho => ?_⟩
      · obtain ⟨x, q', hxm, hq, hu, hk⟩ := (hc.2 y.uri y.cost).1 ⟨y, hy, rfl, rfl⟩
        injection hq with hq
        subst hq
        obtain ⟨⟨r', hl, re, h1, h2, h3⟩, hbest⟩ := k1 x hxm
        refine ⟨⟨r', q, (hoff r' hl).1, (hoff r' hl).2, re, h1, h2, x, h3, hu, hk⟩, fun k hpk => ?_⟩
        obtain ⟨o, ho, hou, rfl⟩ := hprice hpk
        rw [hk]
        exact Rat.add_le_add_right.2 (hbest o ho (hou.trans hu.symm))
      · obtain ⟨x, hxm, hxu⟩ := k2 o ho
        obtain ⟨y, hy, hyu, -⟩ := (hc.2 x.uri (x.cost + q)).2 ⟨x, q, hxm, rfl, rfl, rfl⟩
        exact ⟨y, hy, hyu.trans hxu⟩

/-! ### the hypotheses are met -/

/-- r2 and r3 both advertise /p with cost 5. -/
def exEqual : List Core.Op := exOne ++ exGet "r3" "NAME" exR3 1 (.names [⟨nm ["p"], .fin 5⟩])

def quietOn (own p : Name) : Out → Bool
  | .signal k l _ removes => l.origin != p && (l.origin == own || (removes.all (fun q => q.name != p) && k != .removed))
  | _ => true

theorem quietOn_spec {own p : Name} {log : List Out} (h : ∀ o ∈ log, quietOn own p o = true) :
    NotARouter p log ∧ ¬ Withdrawn own p log := by
  constructor
  · intro k l a b hm
    have := h _ hm
    simp only [quietOn, Bool.and_eq_true, bne_iff_ne, ne_eq] at this
    exact this.1
  · rintro ⟨k, l, a, b, hm, ho, hc⟩
    have := h _ hm
    simp only [quietOn, Bool.and_eq_true, bne_iff_ne, ne_eq, Bool.or_eq_true, beq_iff_eq, List.all_eq_true] at this
    rcases this.2 with h1 | ⟨h1, h2⟩
    · exact ho h1
    · rcases hc with ⟨q, hq, hn⟩ | ⟨h3, -⟩
      · exact h1 q hq hn
      · exact h2 h3

/-- Two advertisers at the same cost: both faces are priced 15. -/
example : NotARouter (nm ["p"]) (exRun .off exEqual).lsdb.log ∧ ¬ Withdrawn exR1 (nm ["p"]) (exRun .off exEqual).lsdb.log ∧
    Announces (exRun .off exEqual).lsdb exR2 (nm ["p"]) (.fin 5) ∧
    (∀ r x, Announces (exRun .off exEqual).lsdb r (nm ["p"]) x → x = .fin 5) ∧
    lastCmd (exRun .off exEqual).npt.out (nm ["p"]) =
      some (.update (nm ["p"]) [⟨"udp4://10.0.0.2", 15, false⟩, ⟨"udp4://10.0.0.3", 15, false⟩] 1) := by
  have key : (∀ o ∈ (exRun .off exEqual).lsdb.log, quietOn exR1 (nm ["p"]) o = true) ∧
      (∃ o ∈ (exRun .off exEqual).lsdb.db, o.lsa.origin = exR2 ∧ o.lsa.content = .names [⟨nm ["p"], .fin 5⟩]) ∧
      (∀ o ∈ (exRun .off exEqual).lsdb.db, ∀ q ∈ lsaNames o.lsa, q.name = nm ["p"] → q.cost = .fin 5) ∧
      lastCmd (exRun .off exEqual).npt.out (nm ["p"]) =
        some (.update (nm ["p"]) [⟨"udp4://10.0.0.2", 15, false⟩, ⟨"udp4://10.0.0.3", 15, false⟩] 1) := by
    decide +kernel
  obtain ⟨k1, ⟨o, ho, h1, h2⟩, k3, k4⟩ := key
  refine ⟨(quietOn_spec k1).1, (quietOn_spec k1).2, ⟨o, ho, h1, _, h2, by simp⟩, ?_, k4⟩
  rintro r x ⟨o, ho, hr, m, hm, hx⟩
  exact k3 o ho ⟨_, x⟩ (by unfold lsaNames; rw [hm]; exact hx) rfl

end Nlsr
