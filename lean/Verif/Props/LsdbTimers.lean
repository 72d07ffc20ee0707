import Verif.Props.Lsdb
/- C30, C31, C38: expiration and refresh of LSAs. -/
namespace Nlsr
open Lsdb

/-- Seconds a received LSA lives without the grace period: the whole seconds until its expiration time
point, or the refresh time if that has passed. -/
def lifetimeOf (c : LConf) (sys : Int) (l : Lsa) : Nat :=
  if sys < l.exp then ((l.exp - sys) / 1000000000).toNat else c.refresh

theorem timeToExpire_other {c : LConf} {s : Lsdb} {l : Lsa} (h : l.origin ≠ c.router) :
    timeToExpire c s l = lifetimeOf c s.sys l := by
  unfold timeToExpire lifetimeOf
  rw [if_neg h]
  by_cases h1 : s.sys < l.exp
  · rw [if_pos h1, if_pos (by omega)]; rfl
  · rw [if_neg h1, if_neg (by omega)]

/-! ### C30 -/

/-- Every stored LSA has exactly one pending timer. -/
theorem C30_one_timer {c : LConf} {s : Lsdb} (h : Reachable c s) {o : Obj} (ho : o ∈ s.db) :
    ∃ e ∈ s.events, e.oid = o.oid ∧ ∀ e' ∈ s.events, e'.oid = o.oid → e' = e := by
  obtain ⟨e, he, h1, h2⟩ := h.inv.live o ho (by simp)
  refine ⟨e, he, h2, ?_⟩
  intro e' he' h3
  obtain ⟨w, hw, h4, h5⟩ := h.inv.owned e' he'
  have : w = o := h.inv.uniq hw (List.mem_append_left _ ho) (h4.trans h3)
  subst this
  exact nodup_inj h.inv.eids he' he (h5.symm.trans h1.symm)

theorem evt_of_timer {c : LConf} {s : Lsdb} (h : Inv c s) {o : Obj} (ho : o ∈ s.db) {e : Ev} (he : e ∈ s.events)
    (heo : e.oid = o.oid) : e.eid = o.evt := by
  obtain ⟨w, hw, h4, h5⟩ := h.owned e he
  have : w = o := h.uniq hw (List.mem_append_left _ ho) (h4.trans heo)
  subst this
  exact h5.symm

/-- What one step can do to the LSA of another router: nothing, with its timer still running; remove it,
if the step is the firing of its timer at or after the due time; or replace it by a newer one, with a new
timer for the remaining lifetime plus the grace period of 10 s. -/
theorem C30_other_step {c : LConf} {s : Lsdb} (h : Reachable c s) {o : Obj} (ho : o ∈ s.db)
    (hr : o.lsa.origin ≠ c.router) (op : Op) :
    (o ∈ (step c s op).db ∧ ∀ e ∈ s.events, e.oid = o.oid → e ∈ (step c s op).events) ∨
    (∃ e ∈ s.events, e.oid = o.oid ∧ op = .timer e.eid ∧ e.due ≤ s.now ∧
      (∀ y, y ∈ (step c s op).db ↔ y ∈ s.db ∧ y ≠ o) ∧
      (step c s op).log = s.log ++ [.signal .removed o.lsa [] []]) ∨
    (∃ o' ∈ (step c s op).db, o'.lsa.origin = o.lsa.origin ∧ o'.lsa.type = o.lsa.type ∧ o.lsa.seq < o'.lsa.seq ∧
      ∃ e ∈ (step c s op).events, e.oid = o'.oid ∧
        e.due = s.now + (lifetimeOf c s.sys o'.lsa + 10) * 1000000000) := by
  have hinv := h.inv
  rcases step_one c s op with ⟨eid, rfl⟩ | ⟨dt, sys, rfl⟩ | ⟨s1, s2, f1, hch, f2⟩
  · have hc := fire_cases hinv eid
    change (o ∈ (fire c s eid).db ∧ _) ∨ _
    have hst : step c s (.timer eid) = fire c s eid := rfl
    rw [hst]
    generalize fire c s eid = s' at hc
    have hrefresh : ∀ (x : Option Nat) (p : Obj) (ev : Ev), ev ∈ s.events → ev.eid = eid → InvW c (drop s eid) x →
        p ∈ s.db → p.lsa.origin = c.router → (∀ e ∈ s.events, e.oid = o.oid → e.eid ≠ eid) →
        o ∈ (refresh c (drop s eid) p).db ∧
          ∀ e ∈ s.events, e.oid = o.oid → e ∈ (refresh c (drop s eid) p).events := by
      intro x p ev hev he hx hp hpr hne
      have hpo : o ≠ p := by rintro rfl; exact hr hpr
      refine ⟨(mem_refresh hx (s := drop s eid) hp o).2 (Or.inr ⟨ho, hpo⟩), ?_⟩
      intro e hme heo
      show e ∈ List.filter _ (drop s eid).events ++ _
      refine List.mem_append_left _ (List.mem_filter.2 ⟨List.mem_filter.2 ⟨hme, ?_⟩, ?_⟩)
      · simpa using hne e hme heo
      · have h1 := evt_of_timer hinv ho hme heo
        have h2 : e.eid ≠ p.evt := by
          rw [h1]
          intro h3
          exact hpo (nodup_inj hinv.evts (List.mem_append_left _ ho) (List.mem_append_left _ hp) h3)
        simpa using h2
    have hother : ∀ (p : Obj) (ev : Ev), ev ∈ s.events → ev.eid = eid → p ∈ s.db ++ s.dead → p.oid = ev.oid →
        o ≠ p → ∀ e ∈ s.events, e.oid = o.oid → e.eid ≠ eid := by
      intro p ev hev he hp hoid hne e hme heo hee
      have : e = ev := nodup_inj hinv.eids hme hev (hee.trans he.symm)
      subst this
      exact hne (hinv.uniq (List.mem_append_left _ ho) hp (heo.symm.trans hoid.symm))
    cases hc with
    | idle => exact Or.inl ⟨ho, fun e he _ => he⟩
    | own ev p hev he hdue hp hoid hevt hpr =>
      refine Or.inl ?_
      have hpo : o ≠ p := by rintro rfl; exact hr hpr
      subst he
      exact hrefresh _ p ev hev rfl (drop_inv hinv (List.mem_append_left _ hp) hev hoid).1 hp hpr
        (hother p ev hev rfl (List.mem_append_left _ hp) hoid hpo)
    | other ev p hev he hdue hp hoid hevt hpr =>
      by_cases hpo : p = o
      · subst hpo
        refine Or.inr (Or.inl ⟨ev, hev, hoid.symm, by rw [he], hdue, ?_, ?_⟩)
        · intro y
          rw [mem_removeLsa]
          refine and_congr_right fun hy => ?_
          constructor
          · rintro h1 rfl; exact h1 ⟨rfl, rfl⟩
          · rintro h1 ⟨h2, h3⟩
            exact h1 (hinv.keyUniq hy hp (by simp [keyOf, h2, h3]))
        · have hfind : (drop s eid).find p.lsa.origin p.lsa.type = some p := find_of_mem hinv hp
          unfold removeLsa
          rw [hfind]
          rfl
      · refine Or.inl ⟨(mem_removeLsa o).2 ⟨ho, ?_⟩, ?_⟩
        · rintro ⟨h1, h2⟩
          exact hpo (hinv.keyUniq hp ho (by simp [keyOf, h1, h2]))
        · intro e hme heo
          have hne := hother p ev hev he (List.mem_append_left _ hp) hoid (fun h => hpo h.symm) e hme heo
          have : e ∈ (drop s eid).events := List.mem_filter.2 ⟨hme, by simpa using hne⟩
          unfold removeLsa
          split
          · exact this
          · exact this
    | stale ev p hev he hdue hp hoid hpr hpt =>
      refine Or.inl ⟨ho, ?_⟩
      intro e hme heo
      have hpo : o ≠ p := by rintro rfl; exact hr hpr
      have hne := hother p ev hev he (List.mem_append_right _ hp) hoid hpo e hme heo
      exact List.mem_filter.2 ⟨hme, by simpa using hne⟩
    | hit ev p q hev he hdue hp hoid hpr hpt hq hqr hqt hseq =>
      refine Or.inl ?_
      have hpo : o ≠ p := by rintro rfl; exact hr hpr
      subst he
      exact hrefresh _ q ev hev rfl (drop_inv hinv (List.mem_append_right _ hp) hev hoid).1 hq hqr
        (hother p ev hev rfl (List.mem_append_right _ hp) hoid hpo)
  · exact Or.inl ⟨ho, fun e he _ => he⟩
  · have hinv1 : Inv c s1 := hinv.frame f1.toFrame
    rw [f2.db, f2.events, ← f1.events, ← f1.now, ← f1.sys]
    rw [← f1.db] at ho
    cases hch with
    | none => exact Or.inl ⟨ho, fun e he _ => he⟩
    | removeOwn =>
      refine Or.inl ⟨(mem_removeLsa o).2 ⟨ho, fun h => hr h.1⟩, ?_⟩
      intro e hme _
      unfold removeLsa
      split <;> exact hme
    | install l hn =>
      have hc := install_cases c s1 l
      generalize installLsa c s1 l = s' at hc
      cases hc with
      | rejected p hf hle => exact Or.inl ⟨ho, fun e he _ => he⟩
      | fresh hf =>
        exact Or.inl ⟨List.mem_append_left _ ho, fun e he _ => List.mem_append_left _ he⟩
      | newer p hf hlt =>
        obtain ⟨hp, hp1, hp2⟩ := find_some hf
        by_cases hpo : p = o
        · subst hpo
          refine Or.inr (Or.inr ⟨_, (mem_installUpdate hinv1 hp l _ _).2 (Or.inl rfl), rfl,
            Content.update_type _ _, hlt, ⟨s1.nextId, _, p.oid⟩, ?_, rfl, rfl⟩)
          rw [installUpdate_events]
          refine List.mem_append_right _ ?_
          simp only [List.mem_singleton, Ev.mk.injEq, true_and, and_true]
          have : timeToExpire c s1 l = lifetimeOf c s1.sys l := timeToExpire_other (hp1 ▸ hr)
          rw [this]
          rfl
        · refine Or.inl ⟨(mem_installUpdate hinv1 hp l _ _).2 (Or.inr ⟨ho, fun h => hpo h.symm⟩), ?_⟩
          intro e hme heo
          rw [installUpdate_events]
          refine List.mem_append_left _ (List.mem_filter.2 ⟨hme, ?_⟩)
          have h1 := evt_of_timer hinv1 ho hme heo
          have h2 : e.eid ≠ p.evt := by
            rw [h1]
            intro h3
            exact hpo (nodup_inj hinv1.evts (List.mem_append_left _ hp) (List.mem_append_left _ ho) h3.symm)
          simpa using h2

/-- A step that brings the first LSA for a key of another router starts its timer in the same way. -/
theorem C30_first_timer {c : LConf} {s : Lsdb} (h : Reachable c s) (op : Op) {o' : Obj}
    (ho' : o' ∈ (step c s op).db) (hr : o'.lsa.origin ≠ c.router)
    (hnew : ∀ o ∈ s.db, ¬ (o.lsa.origin = o'.lsa.origin ∧ o.lsa.type = o'.lsa.type)) :
    ∃ e ∈ (step c s op).events, e.oid = o'.oid ∧
        e.due = s.now + (lifetimeOf c s.sys o'.lsa + 10) * 1000000000 := by
  have hinv := h.inv
  have hold : ∀ y : Obj, y ∈ s.db → y = o' → False := fun y hy he => hnew y hy ⟨by rw [he], by rw [he]⟩
  rcases step_one c s op with ⟨eid, rfl⟩ | ⟨dt, sys, rfl⟩ | ⟨s1, s2, f1, hch, f2⟩
  · have hc := fire_cases hinv eid
    change o' ∈ (fire c s eid).db at ho'
    generalize fire c s eid = s' at hc ho'
    cases hc with
    | idle => exact absurd rfl (hold _ ho')
    | own ev p hev he hdue hp hoid hevt hpr =>
      subst he
      rcases (mem_refresh (drop_inv hinv (List.mem_append_left _ hp) hev hoid).1 hp o').1 ho' with rfl | ⟨h1, -⟩
      · exact absurd hpr hr
      · exact absurd rfl (hold _ h1)
    | other ev p hev he hdue hp hoid hevt hpr => exact absurd rfl (hold _ ((mem_removeLsa o').1 ho').1)
    | stale ev p hev he hdue hp hoid hpr hpt => exact absurd rfl (hold _ ho')
    | hit ev p q hev he hdue hp hoid hpr hpt hq hqr hqt hseq =>
      subst he
      rcases (mem_refresh (drop_inv hinv (List.mem_append_right _ hp) hev hoid).1 hq o').1 ho' with rfl | ⟨h1, -⟩
      · exact absurd hqr hr
      · exact absurd rfl (hold _ h1)
  · exact absurd rfl (hold _ ho')
  · have hinv1 : Inv c s1 := hinv.frame f1.toFrame
    rw [f2.db] at ho'
    rw [f2.events, ← f1.now, ← f1.sys]
    rw [← f1.db] at hold
    cases hch with
    | none => exact absurd rfl (hold _ ho')
    | removeOwn => exact absurd rfl (hold _ ((mem_removeLsa o').1 ho').1)
    | install l hn =>
      have hc := install_cases c s1 l
      generalize installLsa c s1 l = s' at hc ho'
      cases hc with
      | rejected p hf hle => exact absurd rfl (hold _ ho')
      | fresh hf =>
        rcases List.mem_append.1 ho' with h1 | h1
        · exact absurd rfl (hold _ h1)
        · simp only [List.mem_singleton] at h1
          subst h1
          refine ⟨⟨s1.nextId + 1, _, s1.nextId⟩, List.mem_append_right _ (List.mem_singleton.2 rfl), rfl, ?_⟩
          show s1.now + timerDelay (timeToExpire c s1 l) = _
          rw [timeToExpire_other hr]
          rfl
      | newer p hf hlt =>
        obtain ⟨hp, hp1, hp2⟩ := find_some hf
        rcases (mem_installUpdate hinv1 hp l _ _).1 ho' with rfl | ⟨h1, -⟩
        · exact absurd ⟨rfl, (Content.update_type _ _).symm⟩ (hnew p (f1.db ▸ hp))
        · exact absurd rfl (hold _ h1)

/-- When the timer of another router's LSA fires at or after its due time, the LSA is removed and
nothing else changes. -/
theorem C30_expires {c : LConf} {s : Lsdb} (h : Reachable c s) {o : Obj} (ho : o ∈ s.db)
    (hr : o.lsa.origin ≠ c.router) {e : Ev} (he : e ∈ s.events) (heo : e.oid = o.oid) (hdue : e.due ≤ s.now) :
    (∀ y, y ∈ (step c s (.timer e.eid)).db ↔ y ∈ s.db ∧ y ≠ o) := by
  have hinv := h.inv
  have hfe : s.events.find? (fun e' => e'.eid == e.eid) = some e := by
    cases hf : s.events.find? (fun e' => e'.eid == e.eid) with
    | none => rw [List.find?_eq_none] at hf; exact absurd (by simp) (hf e he)
    | some e' =>
      have h1 := List.mem_of_find?_eq_some hf
      have h2 : e'.eid = e.eid := by simpa using List.find?_some hf
      rw [nodup_inj hinv.eids h1 he h2]
  have hfo : (s.db ++ s.dead).find? (fun o' => o'.oid == e.oid) = some o := by
    cases hf : (s.db ++ s.dead).find? (fun o' => o'.oid == e.oid) with
    | none => rw [List.find?_eq_none] at hf; exact absurd (by simpa using heo.symm) (hf o (List.mem_append_left _ ho))
    | some o' =>
      have h1 := List.mem_of_find?_eq_some hf
      have h2 : o'.oid = e.oid := by simpa using List.find?_some hf
      rw [hinv.uniq h1 (List.mem_append_left _ ho) (h2.trans heo)]
  have hfind : (drop s e.eid).find o.lsa.origin o.lsa.type = some o := find_of_mem hinv ho
  have : step c s (.timer e.eid) = removeLsa (drop s e.eid) o.lsa.origin o.lsa.type := by
    show fire c s e.eid = _
    unfold fire
    rw [hfe]
    dsimp only
    rw [if_neg (by omega), hfo]
    show expireOrRefresh c (drop s e.eid) o.lsa = _
    unfold expireOrRefresh
    rw [hfind]
    dsimp only
    rw [if_pos rfl, if_neg hr]
  intro y
  rw [this, mem_removeLsa]
  refine and_congr_right fun hy => ?_
  constructor
  · rintro h1 rfl; exact h1 ⟨rfl, rfl⟩
  · rintro h1 ⟨h2, h3⟩
    exact h1 (hinv.keyUniq hy ho (by simp [keyOf, h2, h3]))

/-! ### C31 -/

theorem content_type_ne_base (l : Lsa) : l.type ≠ .base := by
  unfold Lsa.type Content.type
  split <;> simp

theorem Seqs.get_set (q : Seqs) (t : LsaType) (n : Nat) (h : t ≠ .base) : (q.set t n).get t = n := by
  cases t <;> simp_all [Seqs.set, Seqs.get]

/-- When the timer of this router's own LSA fires at or after its due time, the LSA stays with the next
number and a new expiration time, the same content, and a new timer; the number is written to the state
file and then published, and nothing else is announced.  Missing for the full property: the number
2^64-1, which wraps to 0 (`C31_violated_wrap`). -/
theorem C31_refresh_partial {c : LConf} {s : Lsdb} (h : Reachable c s) {o : Obj} (ho : o ∈ s.db)
    (hr : o.lsa.origin = c.router) {e : Ev} (he : e ∈ s.events) (heo : e.oid = o.oid) (hdue : e.due ≤ s.now)
    (hsmall : o.lsa.seq + 1 < 2 ^ 64) :
    ∃ o' q, (step c s (.timer e.eid)).find c.router o.lsa.type = some o' ∧
      o'.lsa = ⟨c.router, o.lsa.seq + 1, s.sys + c.dead * 1000000000, o.lsa.content⟩ ∧
      (∃ e' ∈ (step c s (.timer e.eid)).events, e'.oid = o'.oid ∧
        e'.due = s.now + (c.refresh + 10) * 1000000000) ∧
      Seqs.get q o.lsa.type = o.lsa.seq + 1 ∧
      (step c s (.timer e.eid)).log =
        s.log ++ [.persist q, .publish o.lsa.type (o.lsa.seq + 1)] := by
  have hinv := h.inv
  have hfe : s.events.find? (fun e' => e'.eid == e.eid) = some e := by
    cases hf : s.events.find? (fun e' => e'.eid == e.eid) with
    | none => rw [List.find?_eq_none] at hf; exact absurd (by simp) (hf e he)
    | some e' =>
      have h1 := List.mem_of_find?_eq_some hf
      have h2 : e'.eid = e.eid := by simpa using List.find?_some hf
      rw [nodup_inj hinv.eids h1 he h2]
  have hfo : (s.db ++ s.dead).find? (fun o' => o'.oid == e.oid) = some o := by
    cases hf : (s.db ++ s.dead).find? (fun o' => o'.oid == e.oid) with
    | none => rw [List.find?_eq_none] at hf; exact absurd (by simpa using heo.symm) (hf o (List.mem_append_left _ ho))
    | some o' =>
      have h1 := List.mem_of_find?_eq_some hf
      have h2 : o'.oid = e.oid := by simpa using List.find?_some hf
      rw [hinv.uniq h1 (List.mem_append_left _ ho) (h2.trans heo)]
  have hfind : (drop s e.eid).find o.lsa.origin o.lsa.type = some o := find_of_mem hinv ho
  have hstep : step c s (.timer e.eid) = refresh c (drop s e.eid) o := by
    show fire c s e.eid = _
    unfold fire
    rw [hfe]
    dsimp only
    rw [if_neg (by omega), hfo]
    show expireOrRefresh c (drop s e.eid) o.lsa = _
    unfold expireOrRefresh
    rw [hfind]
    dsimp only
    rw [if_pos rfl, if_pos hr]
  have hinc : inc64 o.lsa.seq = o.lsa.seq + 1 := by unfold inc64; omega
  have hinv' := (h.step (.timer e.eid)).inv
  rw [hstep] at hinv' ⊢
  have hd := (drop_inv hinv (List.mem_append_left _ ho) he heo.symm).1
  have hget : Seqs.get (s.seqs.set o.lsa.type (o.lsa.seq + 1)) o.lsa.type = o.lsa.seq + 1 :=
    Seqs.get_set _ _ _ (content_type_ne_base _)
  refine ⟨_, s.seqs.set o.lsa.type (o.lsa.seq + 1), (find_iff hinv').2 ⟨(mem_refresh hd ho _).2 (Or.inl rfl), hr, rfl⟩,
    ?_, ?_, hget, ?_⟩
  · rw [← hr, ← hinc]
    simp [expirationPoint, nsPerSec, drop]
  · exact ⟨⟨s.nextId, _, o.oid⟩, List.mem_append_right _ (List.mem_singleton.2 rfl), rfl, rfl⟩
  · show ((s.log ++ [Out.persist (s.seqs.set o.lsa.type (inc64 o.lsa.seq))]) ++
      [Out.publish o.lsa.type (Seqs.get (s.seqs.set o.lsa.type (inc64 o.lsa.seq)) o.lsa.type)]) = _
    rw [hinc, hget]
    simp

/-- This router's own LSA never disappears, except that its adjacency LSA is removed by a build when no
neighbour is active. -/
theorem C31_own_stays {c : LConf} {s : Lsdb} (h : Reachable c s) {o : Obj} (ho : o ∈ s.db)
    (hr : o.lsa.origin = c.router) (op : Op)
    (hop : op = .buildTimer → o.lsa.type = .adjacency → ∃ a ∈ s.adjs, a.status = .active) :
    ∃ o' ∈ (step c s op).db, o'.lsa.origin = c.router ∧ o'.lsa.type = o.lsa.type := by
  have hinv := h.inv
  rcases step_one c s op with ⟨eid, rfl⟩ | ⟨dt, sys, rfl⟩ | ⟨s1, s2, f1, hch, f2⟩
  · have hc := fire_cases hinv eid
    change ∃ o' ∈ (fire c s eid).db, _
    generalize fire c s eid = s' at hc
    have hrefresh : ∀ (x : Option Nat) (p : Obj), InvW c (drop s eid) x → p ∈ s.db →
        ∃ o' ∈ (refresh c (drop s eid) p).db, o'.lsa.origin = c.router ∧ o'.lsa.type = o.lsa.type := by
      intro x p hx hp
      by_cases hpo : p = o
      · subst hpo
        exact ⟨_, (mem_refresh hx (s := drop s eid) hp _).2 (Or.inl rfl), hr, rfl⟩
      · exact ⟨o, (mem_refresh hx (s := drop s eid) hp _).2 (Or.inr ⟨ho, fun h => hpo h.symm⟩), hr, rfl⟩
    cases hc with
    | idle => exact ⟨o, ho, hr, rfl⟩
    | own ev p hev he hdue hp hoid hevt hpr =>
      subst he
      exact hrefresh _ p (drop_inv hinv (List.mem_append_left _ hp) hev hoid).1 hp
    | other ev p hev he hdue hp hoid hevt hpr =>
      exact ⟨o, (mem_removeLsa o).2 ⟨ho, fun h => hpr (h.1 ▸ hr)⟩, hr, rfl⟩
    | stale ev p hev he hdue hp hoid hpr hpt => exact ⟨o, ho, hr, rfl⟩
    | hit ev p q hev he hdue hp hoid hpr hpt hq hqr hqt hseq =>
      subst he
      exact hrefresh _ q (drop_inv hinv (List.mem_append_right _ hp) hev hoid).1 hq
  · exact ⟨o, ho, hr, rfl⟩
  · have hinv1 : Inv c s1 := hinv.frame f1.toFrame
    rw [f2.db]
    rw [← f1.db] at ho
    cases hch with
    | none => exact ⟨o, ho, hr, rfl⟩
    | removeOwn hrm =>
      refine ⟨o, (mem_removeLsa o).2 ⟨ho, ?_⟩, hr, rfl⟩
      rintro ⟨-, h2⟩
      obtain ⟨a, ha, hact⟩ := hop hrm.1 h2
      have hz : (s.adjs.filter (fun a => decide (a.status = .active))).length = 0 := hrm.2
      rw [List.length_eq_zero_iff, List.filter_eq_nil_iff] at hz
      exact hz a ha (by simpa using hact)
    | install l hn =>
      have hc := install_cases c s1 l
      generalize installLsa c s1 l = s' at hc
      cases hc with
      | rejected p hf hle => exact ⟨o, ho, hr, rfl⟩
      | fresh hf => exact ⟨o, List.mem_append_left _ ho, hr, rfl⟩
      | newer p hf hlt =>
        obtain ⟨hp, hp1, hp2⟩ := find_some hf
        by_cases hpo : p = o
        · subst hpo
          exact ⟨_, (mem_installUpdate hinv1 hp l _ _).2 (Or.inl rfl), hr, Content.update_type _ _⟩
        · exact ⟨o, (mem_installUpdate hinv1 hp l _ _).2 (Or.inr ⟨ho, fun h => hpo h.symm⟩), hr, rfl⟩

/-- C31 fails at the largest number: the refresh of an own Name LSA numbered 2^64-1 publishes 0. -/
theorem C31_violated_wrap :
    (run (exConf .off) (exStart .off) [.sync (exUpdate "r1" "NAME") 18446744073709551614]).db.map
      (fun o => (o.lsa.origin, o.lsa.seq)) = [((exConf .off).router, 18446744073709551615)] ∧
    (run (exConf .off) (exStart .off) [.sync (exUpdate "r1" "NAME") 18446744073709551614,
        .clock 2000000000000 0, .timer 2]).log.getLast? = some (.publish .name 0) := by
  decide +kernel

/-- Non-vacuity of C31: the own Name LSA of a fresh router (number 1, timer 1 due after 1810 s) is
refreshed to number 2. -/
example : (exStart .off).events = [⟨1, 1810000000000, 0⟩] ∧
    (run (exConf .off) (exStart .off) [.clock 1810000000000 0, .timer 1]).db.map (·.lsa.seq) = [2] ∧
    (run (exConf .off) (exStart .off) [.clock 1810000000000 0, .timer 1]).log.drop 3 =
      [.persist { name := 2 }, .publish .name 2] := by
  decide +kernel

/-! ### the left-over timer of a removed own adjacency LSA -/

/-- A history: the own adjacency LSA is built (number 1) and removed because the neighbour went down.
After the neighbour is up again a peer reports number 0 for it, and it is built anew with number 1. -/
def exStaleOps : List Op :=
  [.scheduleBuild, .clock 10000000000 0, .buildTimer,
   .setAdjs [exNeighbor .inactive], .scheduleBuild, .clock 10000000000 0, .buildTimer,
   .setAdjs [exNeighbor .active], .clock 1000000000000 0, .sync (exUpdate "r1" "ADJACENCY") 0,
   .clock 810000000000 0]

/-- C30 fails for own LSAs: the timer 3, which belongs to the removed version (object 2), fires and
refreshes the later version (object 4), whose own timer 5 is not due for another 1000 s. -/
theorem C30_violated_stale_timer :
    let s := run (exConf .off) (exStart .off) exStaleOps
    (s.db.map (fun o => (o.oid, o.lsa.type, o.lsa.seq)) = [(0, .name, 1), (4, .adjacency, 1)]) ∧
    (⟨3, 1820000000000, 2⟩ ∈ s.events ∧ ⟨5, 2830000000000, 4⟩ ∈ s.events ∧ s.now = 1830000000000) ∧
    ((step (exConf .off) s (.timer 3)).db.map (fun o => (o.oid, o.lsa.type, o.lsa.seq)) =
      [(0, .name, 1), (4, .adjacency, 2)]) := by
  decide +kernel

/-- Non-vacuity of C30: an LSA of another router expiring at 5000 s gets a timer at 5010 s, a newer
version moves it, and its firing removes the LSA. -/
example :
    let s := run (exConf .off) (exStart .off) (exFetch 7 5000000000000 [⟨nm ["b"], .fin 1⟩])
    let s' := run (exConf .off) s (exFetch 8 6000000000000 [⟨nm ["b"], .fin 1⟩])
    ⟨3, 5010000000000, 2⟩ ∈ s.events ∧ s'.events.map (·.due) = [1810000000000, 6010000000000] ∧
    (run (exConf .off) s' [.clock 6010000000000 0, .timer 4]).db.map (·.lsa.origin) = [exR1] := by
  decide +kernel

/-! ### C38 -/

/-- An LSA of another router that a step brings into the LSDB before its expiration time is scheduled
for removal between 9 and 10 s after that time.  Missing for the full property: an LSA that has already
expired is given the whole refresh time (`C38_violated`). -/
theorem C38_lifetime_partial {c : LConf} {s : Lsdb} (h : Reachable c s) (op : Op) {o' : Obj}
    (ho' : o' ∈ (step c s op).db) (hr : o'.lsa.origin ≠ c.router)
    (hnew : ∀ o ∈ s.db, o.lsa.origin = o'.lsa.origin → o.lsa.type = o'.lsa.type → o.lsa.seq ≠ o'.lsa.seq)
    (hexp : s.sys < o'.lsa.exp) :
    ∃ e ∈ (step c s op).events, e.oid = o'.oid ∧
      (e.due : Int) ≤ s.now + (o'.lsa.exp - s.sys) + 10000000000 ∧
      s.now + (o'.lsa.exp - s.sys) + 9000000000 < (e.due : Int) := by
  have key : ∃ e ∈ (step c s op).events, e.oid = o'.oid ∧
      e.due = s.now + (lifetimeOf c s.sys o'.lsa + 10) * 1000000000 := by
    by_cases hk : ∃ o ∈ s.db, o.lsa.origin = o'.lsa.origin ∧ o.lsa.type = o'.lsa.type
    · obtain ⟨o, ho, h1, h2⟩ := hk
      have hk' : keyOf o' = keyOf o := by simp [keyOf, h1, h2]
      rcases C30_other_step h ho (h1 ▸ hr) op with ⟨h3, -⟩ | ⟨e, -, -, -, -, h3, -⟩ | ⟨p, hp, hp1, hp2, -, h4⟩
      · have := (h.step op).inv.keyUniq ho' h3 hk'
        subst this
        exact absurd rfl (hnew _ ho rfl rfl)
      · have := (h3 o').1 ho'
        exact absurd (h.inv.keyUniq this.1 ho hk') this.2
      · have := (h.step op).inv.keyUniq ho' hp (by simp [keyOf, hp1, hp2, h1, h2])
        subst this
        exact h4
    · exact C30_first_timer h op ho' hr (fun o ho hh => hk ⟨o, ho, hh⟩)
  obtain ⟨e, he, heo, hdue⟩ := key
  refine ⟨e, he, heo, ?_⟩
  unfold lifetimeOf at hdue
  rw [if_pos hexp] at hdue
  omega

/-- C38 fails: an LSA that expired 7000 s ago is installed and still stored 1800 s later although every
due timer has fired. -/
theorem C38_violated :
    let s := run (exConf .off) (exStart .off) ([.clock 0 9000000000000] ++ exFetch 7 2000000000000 [⟨nm ["b"], .fin 1⟩])
    let s' := run (exConf .off) s [.clock 1800000000000 10800000000000]
    (s'.db.map (fun o => (o.lsa.origin, o.lsa.exp)) = [(exR1, 3600000000000), (exR2, 2000000000000)]) ∧
    s'.events.all (fun e => s'.now < e.due) = true := by
  decide +kernel

example :
    let s := run (exConf .off) (exStart .off) (exFetch 7 5500000000 [⟨nm ["b"], .fin 1⟩])
    s.events.map (·.due) = [1810000000000, 15000000000] := by
  decide +kernel

end Nlsr
