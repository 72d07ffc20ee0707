import Verif.Props.Serve
import Verif.Lemmas.Round
/-
C116: what ends a running daemon, exactly.
-/
namespace Nlsr

/-! ### interests for LSAs -/

namespace Lsdb

/-- Without version and segment number, the interest is named `<LSA prefix>/<site>/<router>/<anything>/<last>`, or the `<anything>/<last>` is
missing and the router's name has at most one component after that of its network; and the last component is no number. -/
def BadOwn (c : LConf) (n : Name) : Prop :=
  ∃ pre last, n = pre ++ [last] ∧ last.toNumber = none ∧
    ((∃ t, n = c.names.lsaPrefix ++ c.names.site ++ c.names.router ++ [t, last]) ∨
      (n = c.names.lsaPrefix ++ c.names.site ++ c.names.router ∧ (c.names.site ++ c.names.router).length ≤ 1))

theorem badOwn_iff {c : LConf} (hnet : Comp.str "LSA" ∉ c.names.network) {n : Name} (hlen : n.length < 2 ^ 62) (hp : c.names.lsaPrefix <+: n) :
    BadOwn c n ↔ interestOrigin c.names.network n = c.router ∧ ∃ last, n.fromEnd 1 = some last ∧ last.toNumber = none := by
  obtain ⟨xs, rfl⟩ := hp
  rw [List.length_append, lsaPrefix_length] at hlen
  rw [interestOrigin_tail c.names hnet xs (by omega)]
  have hroute : c.router = c.names.network ++ (c.names.site ++ c.names.router) := by
    simp [LConf.router, RouterConf.routerPrefix]
  rw [hroute, List.append_cancel_left_eq]
  have last_of : ∀ {pre : Name} {a : Name} {l : Comp}, a = pre ++ [l] → a.fromEnd 1 = some l := fun e => e ▸ fromEnd_1 _ _
  constructor
  · rintro ⟨pre, last, e, hl, ⟨t, ht⟩ | ⟨hb, hs⟩⟩
    · refine ⟨?_, last, last_of e, hl⟩
      have : xs = c.names.site ++ c.names.router ++ [t, last] := by
        simpa [List.append_assoc] using ht
      subst this
      rw [if_neg (by simp; omega)]
      have hl2 : (c.names.site ++ c.names.router ++ [t, last]).length - 2 = (c.names.site ++ c.names.router).length := by
        simp only [List.length_append, List.length_cons, List.length_nil]; omega
      rw [hl2, List.take_left]
    · refine ⟨?_, last, last_of e, hl⟩
      have : xs = c.names.site ++ c.names.router := by
        rw [List.append_assoc, List.append_cancel_left_eq] at hb
        exact hb
      subst this
      split
      · rfl
      · have : c.names.site ++ c.names.router = [] := List.length_eq_zero_iff.1 (by omega)
        rw [this]; rfl
  · rintro ⟨ho, last, h1, hl⟩
    have hne : c.names.lsaPrefix ++ xs ≠ [] := by simp [RouterConf.lsaPrefix]
    obtain ⟨pre, l, e⟩ : ∃ pre l, c.names.lsaPrefix ++ xs = pre ++ [l] :=
      ⟨_, _, (List.dropLast_concat_getLast hne).symm⟩
    have : l = last := by
      have h2 := last_of e
      rw [h1] at h2
      exact (Option.some.inj h2).symm
    subst this
    refine ⟨pre, l, e, hl, ?_⟩
    by_cases h2 : 2 ≤ xs.length
    · rw [if_neg (by omega)] at ho
      obtain ⟨x, y, hxy⟩ := split2 xs h2
      rw [ho] at hxy
      have : y = l := by
        have h3 : (c.names.lsaPrefix ++ xs).fromEnd 1 = some y := by
          refine last_of (pre := c.names.lsaPrefix ++ (c.names.site ++ c.names.router) ++ [x]) ?_
          rw [hxy]; simp
        rw [h1] at h3
        exact (Option.some.inj h3).symm
      subst this
      exact Or.inl ⟨x, by rw [hxy]; simp⟩
    · refine Or.inr ?_
      have hxs : xs = c.names.site ++ c.names.router := by
        split at ho
        · exact ho
        · have : xs = [] := List.length_eq_zero_iff.1 (by omega)
          subst this
          exact ho
      rw [← hxs]
      exact ⟨by rw [hxs]; simp, by omega⟩

theorem replyOwn_quiet (c : LConf) (s : Lsdb) (n : Name) (t : LsaType) (k v : Nat) :
    ∃ outs, (replyOwn c s n t k v).log = s.log ++ outs ∧ Out.fault ∉ outs := by
  unfold replyOwn
  split
  · exact ⟨[], by simp, by simp⟩
  · dsimp only
    split
    · split
      · exact ⟨[.data _], rfl, by simp⟩
      · exact ⟨[], by simp, by simp⟩
    · exact ⟨[], by simp, by simp⟩

theorem stripped_ends {c : LConf} (hnet : Comp.str "LSA" ∉ c.names.network) (s : Lsdb) (n m : Name) (v : Nat) (hlen : m.length < 2 ^ 62)
    (hp : c.names.lsaPrefix <+: m) :
    ∃ outs, (processStripped c s n m v).log = s.log ++ outs ∧ (Out.fault ∈ outs ↔ BadOwn c m) := by
  rw [badOwn_iff hnet hlen hp]
  have hpos : 0 ≤ Name.position m (Comp.str "LSA") := by
    obtain ⟨xs, rfl⟩ := hp
    rw [position_lsa c.names hnet xs]
    omega
  have h2 : 2 ≤ m.length := by
    obtain ⟨xs, rfl⟩ := hp
    rw [List.length_append, lsaPrefix_length]; omega
  obtain ⟨x, y, hxy⟩ := split2 m h2
  have e1 : m.fromEnd 1 = some y := by
    rw [hxy, show List.take (m.length - 2) m ++ [x, y] = (List.take (m.length - 2) m ++ [x]) ++ [y] by simp]
    exact fromEnd_1 _ _
  have e2 : m.fromEnd 2 = some x := by rw [hxy]; exact fromEnd_2 _ _ _
  unfold processStripped
  by_cases ho : interestOrigin c.names.network m = c.router
  · rw [if_pos ⟨ho, hpos⟩, e1, e2]
    dsimp only
    cases hn : y.toNumber with
    | none => exact ⟨[.fault], rfl, by simp [ho, hn]⟩
    | some k =>
      dsimp only
      have hno : ¬ (interestOrigin c.names.network m = c.router ∧ ∃ last, some y = some last ∧ last.toNumber = none) := by
        rintro ⟨-, last, e, h⟩
        cases e
        rw [hn] at h
        cases h
      split
      · exact ⟨[], by simp, ⟨fun h => (nomatch h), fun h => absurd h hno⟩⟩
      · obtain ⟨outs, h1, h3⟩ := replyOwn_quiet c s n (LsaType.ofComp x) k v
        exact ⟨outs, h1, ⟨fun h => absurd h h3, fun h => absurd h hno⟩⟩
  · rw [if_neg (fun h => ho h.1)]
    have hno : ∀ o, o ≠ Out.fault → (Out.fault ∈ [o] ↔ interestOrigin c.names.network m = c.router ∧ ∃ last, m.fromEnd 1 = some last ∧ last.toNumber = none) :=
      fun o h => ⟨fun hm => absurd (List.mem_singleton.1 hm).symm h, fun h => absurd h.1 ho⟩
    split
    · exact ⟨[.storedData _], rfl, hno _ (by simp)⟩
    · exact ⟨[], by simp, ⟨fun h => (nomatch h), fun h => absurd h.1 ho⟩⟩

/-- An interest for an LSA of this router that cannot be read.  Its name has at most 8800 components, because a packet has at most 8800
octets. -/
def BadLsa (c : LConf) (n : Name) : Prop :=
  n.length ≤ 8800 ∧ ∃ m, c.names.lsaPrefix <+: m ∧ BadOwn c m ∧
    ((n = m ∧ ∀ a v x, n = a ++ [v, x] → v.isVersion = false) ∨ ∃ v x, v.isVersion = true ∧ n = m ++ [v, x])

/-- What an interest adds to the log of the LSDB ends the daemon exactly if the interest is such an one. -/
theorem interest_ends {c : LConf} (hnet : Comp.str "LSA" ∉ c.names.network) {s : Lsdb} (h : Reachable c s) (n : Name) (v : Nat) :
    ∃ outs, (step c s (.interest n v)).log = s.log ++ outs ∧ (Out.fault ∈ outs ↔ BadLsa c n) := by
  have quiet : ∀ {t : Lsdb}, t.log = s.log → ¬ BadLsa c n → ∃ outs, t.log = s.log ++ outs ∧ (Out.fault ∈ outs ↔ BadLsa c n) :=
    fun e hb => ⟨[], by simpa using e, ⟨fun h => (nomatch h), fun h => absurd h hb⟩⟩
  show ∃ outs, (if n.length ≤ maxComponents then processInterest c s n v else s).log = s.log ++ outs ∧ _
  by_cases hl : n.length ≤ maxComponents
  · rw [if_pos hl]
    unfold processInterest
    by_cases hpb : Name.isPrefixOf c.names.lsaPrefix n = true
    · rw [if_pos hpb]
      have hp : c.names.lsaPrefix <+: n := List.isPrefixOf_iff_prefix.1 hpb
      have h2 : 2 ≤ n.length := by
        obtain ⟨xs, rfl⟩ := hp
        rw [List.length_append, lsaPrefix_length]; omega
      obtain ⟨x, y, hxy⟩ := split2 n h2
      have e2 : n.fromEnd 2 = some x := by rw [hxy]; exact fromEnd_2 _ _ _
      have huniq : ∀ a v' x', n = a ++ [v', x'] → a = n.take (n.length - 2) ∧ v' = x ∧ x' = y := by
        intro a v' x' e
        rw [hxy] at e
        have := List.append_inj' e rfl
        simp at this
        exact ⟨this.1.symm, this.2.1.symm, this.2.2.symm⟩
      rw [e2]
      dsimp only
      by_cases hv : x.isVersion = true
      · rw [if_pos hv]
        obtain ⟨a1, a2, w, a3⟩ := strip_prefix hp (Nat.lt_of_le_of_lt hl (by decide)) e2 hv
        have hbad : BadLsa c n ↔ BadOwn c (Name.getPrefix n (-2)) := by
          constructor
          · rintro ⟨-, m, -, hb, ⟨rfl, h0⟩ | ⟨v', x', hv', e⟩⟩
            · rw [h0 _ _ _ a3] at hv; cases hv
            · have := (huniq _ _ _ e).1.trans (huniq _ _ _ a3).1.symm
              rw [← this]; exact hb
          · exact fun hb => ⟨hl, _, a1, hb, Or.inr ⟨x, w, hv, a3⟩⟩
        rw [hbad]
        cases hf : least (·.name) n s.fifo with
        | none =>
          exact stripped_ends hnet s n _ v (Nat.lt_of_le_of_lt (Nat.le_trans a2.length_le hl) (by decide)) a1
        | some d =>
          dsimp only
          refine ⟨[.data d], rfl, ⟨fun h => absurd (List.mem_singleton.1 h) (by simp), fun hb => ?_⟩⟩
          exfalso
          obtain ⟨hd, hnd, -⟩ := least_some hf
          obtain ⟨k, hk, hkn, -⟩ := fifo_exact hnet h d hd
          have hk' : c.names.lsaPrefix ++ c.names.site ++ c.names.router ++ [Comp.str d.lsa.type.text, k] <+: d.name := by
            have e : c.names.lsaPrefix ++ c.names.site ++ c.names.router ++ [Comp.str d.lsa.type.text, k] =
              c.names.lsaUserPrefix d.lsa.type ++ [k] := by
              simp [RouterConf.lsaUserPrefix, RouterConf.syncUserPrefix]
            rw [e]; exact hk
          obtain ⟨pre, last, -, hl0, ⟨t, ht⟩ | ⟨hb, -⟩⟩ := hb
          · have hm : Name.getPrefix n (-2) <+: d.name := a2.trans hnd
            rw [ht] at hm
            have e := List.IsPrefix.eq_of_length (List.prefix_of_prefix_length_le hm hk' (by simp)) (by simp)
            have e := List.append_cancel_left e
            simp at e
            rw [e.2, hkn] at hl0
            cases hl0
          · have hm : n <+: d.name := hnd
            rw [a3, hb] at hm
            have e := List.IsPrefix.eq_of_length (List.prefix_of_prefix_length_le hm hk' (by simp)) (by simp)
            have e := List.append_cancel_left e
            simp at e
            rw [e.1, not_version_text] at hv
            cases hv
      · rw [if_neg hv]
        obtain ⟨outs, h1, h3⟩ := stripped_ends hnet s n n v (Nat.lt_of_le_of_lt hl (by decide)) hp
        refine ⟨outs, h1, h3.trans ⟨fun hb => ⟨hl, n, hp, hb, Or.inl ⟨rfl, fun a v' x' e => ?_⟩⟩, ?_⟩⟩
        · rw [(huniq a v' x' e).2.1]
          simpa using hv
        · rintro ⟨-, m, -, hb, ⟨rfl, -⟩ | ⟨v', x', hv', e⟩⟩
          · exact hb
          · rw [(huniq m v' x' e).2.1] at hv'
            exact absurd hv' hv
    · rw [if_neg hpb]
      have hp : ¬ c.names.lsaPrefix <+: n := fun h => hpb (List.isPrefixOf_iff_prefix.2 h)
      refine quiet rfl ?_
      rintro ⟨-, m, hm, -, ⟨rfl, -⟩ | ⟨v', x', -, rfl⟩⟩
      · exact hp hm
      · exact hp (hm.trans (List.prefix_append _ _))
  · rw [if_neg hl]
    exact quiet rfl (fun h => hl h.1)

/-- Everything else does not end it. -/
theorem step_quiet (c : LConf) (s : Lsdb) {op : Op} (h : ∀ n v, op ≠ .interest n v) :
    ∃ outs, (step c s op).log = s.log ++ outs ∧ Out.fault ∉ outs := by
  have hl : ∀ {t : Lsdb}, Logs (fun o => Out.isReply o = false) s t → ∃ outs, t.log = s.log ++ outs ∧ Out.fault ∉ outs := by
    rintro t ⟨outs, h1, h2⟩
    exact ⟨outs, h1, fun hm => by have := h2 _ hm; cases this⟩
  by_cases hs : Op.special op = false
  · exact hl (step_keep c s op hs).log
  · cases op with
    | setAdjs l => exact ⟨[], (List.append_nil _).symm, by simp⟩
    | setNpl l => exact ⟨[], (List.append_nil _).symm, by simp⟩
    | scheduleBuild =>
      refine ⟨[], ?_, by simp⟩
      show (scheduleBuild c s).log = _
      unfold scheduleBuild
      dsimp only
      split <;> exact (List.append_nil _).symm
    | buildTimer =>
      show ∃ outs, (buildTimer c s).log = s.log ++ outs ∧ _
      unfold buildTimer
      split
      · exact ⟨[], (List.append_nil _).symm, by simp⟩
      · split
        · exact ⟨[], (List.append_nil _).symm, by simp⟩
        · exact hl (buildAdjLsa_spec c s).2.2.2.1
    | interest n v => exact absurd rfl (h n v)
    | fifoGone n => exact ⟨[], (List.append_nil _).symm, by simp⟩
    | _ => exact absurd rfl hs

end Lsdb

/-! ### routers -/

namespace Router

theorem By.quiet {P : Lsdb.Op → Prop} {c : LConf} {s t : Lsdb} (h : By P c s t) (hp : ∀ n v, ¬ P (.interest n v)) :
    ∃ outs, t.log = s.log ++ outs ∧ Out.fault ∉ outs := by
  obtain ⟨ops, ho, rfl⟩ := h
  induction ops generalizing s with
  | nil => exact ⟨[], (List.append_nil _).symm, by simp⟩
  | cons o ops ih =>
    obtain ⟨a, h1, h2⟩ := Lsdb.step_quiet c s (op := o) (fun n v e => hp n v (e ▸ ho o (by simp)))
    obtain ⟨b, h3, h4⟩ := ih (s := Lsdb.step c s o) (fun o h => ho o (by simp [h]))
    exact ⟨a ++ b, by rw [List.foldl_cons, h3, h1, List.append_assoc], fun h => (List.mem_append.1 h).elim h2 h4⟩

theorem not_ended {s : Router} : s.ended = false ↔ s.nbr.dead = false ∧ Out.fault ∉ s.core.lsdb.log := by
  unfold ended
  rw [Bool.or_eq_false_iff]
  refine and_congr_right (fun _ => ?_)
  rw [← Bool.not_eq_true, List.contains_iff_mem]

theorem nbrStep_alive {c : RConf} {s : Router} {op : Nbr.Op} (h : s.nbr.dead = false) (hop : ∀ n v, op ≠ .interest n v) :
    (nbrStep c s op).nbr.dead = false := by
  rw [Daemon.nbrStep_nbr]
  cases hd : (Nbr.step c.nbr s.nbr op).dead with
  | false => rfl
  | true =>
    obtain ⟨n, v, _, _, e, -⟩ := (C68_malformed_partial c.nbr s.nbr h op).1 hd
    exact absurd e (hop n v)

theorem coreStep_alive {c : RConf} {s : Router} (op : Core.Op) (h : s.nbr.dead = false) : (coreStep c s op).nbr.dead = false := by
  rw [coreStep_told]
  have : ∀ (l : List Name) (s : Router), s.nbr.dead = false → (l.foldl (fun s r => nbrStep c s (.newLsa r)) s).nbr.dead = false := by
    intro l
    induction l with
    | nil => exact fun _ h => h
    | cons r l ih => exact fun s h => ih _ (nbrStep_alive h (fun n v e => by cases e))
  refine this _ _ ?_
  rw [(told_same c s op).1]
  exact h

/-- Nothing but an interest ends a router. -/
theorem step_alive {c : RConf} {s : Router} (he : s.ended = false) {op : Op} (h1 : ∀ n v, op ≠ .nbr (.interest n v))
    (h2 : ∀ n v, op ≠ .core (.lsdb (.interest n v))) : (step c s op).ended = false := by
  obtain ⟨ha, hb⟩ := not_ended.1 he
  refine not_ended.2 ⟨?_, ?_⟩
  · unfold step
    rw [he]
    cases op with
    | nbr o =>
      show (if outsideNbr o then nbrStep c s o else s).nbr.dead = false
      split
      · exact nbrStep_alive ha (fun n v e => h1 n v (by rw [e]))
      · exact ha
    | core o =>
      show (if outsideCore o then coreStep c s o else s).nbr.dead = false
      split
      · exact coreStep_alive o ha
      · exact ha
    | regOk i =>
      show (regOk c s i).nbr.dead = false
      unfold regOk
      split
      · exact ha
      · exact nbrStep_alive (nbrStep_alive (s := { s with fib := _ }) ha (fun n v e => by cases e)) (fun n v e => by cases e)
    | clock dt sys =>
      show (Nbr.step c.nbr s.nbr (.clock dt)).dead = false
      have := nbrStep_alive (c := c) (op := .clock dt) ha (fun n v e => by cases e)
      rw [Daemon.nbrStep_nbr] at this
      exact this
    | _ => exact ha
  · obtain ⟨outs, e, hq⟩ := (step_by c s op).quiet (fun n v h => h.elim id (fun e => h2 n v e))
    rw [e]
    exact fun h => (List.mem_append.1 h).elim hb hq

/-- An interest for the hello protocol ends it exactly if it cannot be read. -/
theorem hello_ends {c : RConf} {s : Router} (he : s.ended = false) (n : Name) (v : Comp) :
    (step c s (.nbr (.interest n v))).ended = true ↔
      c.lsdb.router ++ [Comp.str "nlsr", Comp.str "INFO"] <+: n ∧ ∃ pre x, n = pre ++ [Comp.str "INFO", x] ∧ ∀ m, ¬ Carries c.nbr x m := by
  obtain ⟨ha, hb⟩ := not_ended.1 he
  have hlog : Out.fault ∉ (step c s (.nbr (.interest n v))).core.lsdb.log := by
    obtain ⟨outs, e, hq⟩ := (step_by c s (.nbr (.interest n v))).quiet (fun n v h => h.elim id (fun e => by cases e))
    rw [e]
    exact fun h => (List.mem_append.1 h).elim hb hq
  have hd : (step c s (.nbr (.interest n v))).ended = (Nbr.step c.nbr s.nbr (.interest n v)).dead := by
    have h1 : (step c s (.nbr (.interest n v))).nbr = Nbr.step c.nbr s.nbr (.interest n v) := by
      unfold step
      rw [he]
      exact Daemon.nbrStep_nbr c s _
    unfold ended
    rw [h1, Bool.eq_false_iff.2 (fun h => hlog (List.contains_iff_mem.1 h)), Bool.or_false]
  rw [hd, C68_malformed_partial c.nbr s.nbr ha]
  constructor
  · rintro ⟨_, _, pre, x, e, h1, h2, h3⟩
    cases e
    exact ⟨h1, pre, x, h2, h3⟩
  · rintro ⟨h1, pre, x, h2, h3⟩
    exact ⟨n, v, pre, x, rfl, h1, h2, h3⟩

/-- An interest for the LSDB ends it exactly if it cannot be read. -/
theorem lsa_ends {c : RConf} (hnet : Comp.str "LSA" ∉ c.lsdb.names.network) {s : Router} (hr : Lsdb.Reachable c.lsdb s.core.lsdb)
    (he : s.ended = false) (n : Name) (v : Nat) : (step c s (.core (.lsdb (.interest n v)))).ended = true ↔ Lsdb.BadLsa c.lsdb n := by
  obtain ⟨ha, hb⟩ := not_ended.1 he
  obtain ⟨outs, h1, h2⟩ := Lsdb.interest_ends hnet hr n v
  have hstep : step c s (.core (.lsdb (.interest n v))) = coreStep c s (.lsdb (.interest n v)) := by unfold step; rw [he]; rfl
  rw [hstep]
  have hlog : (coreStep c s (.lsdb (.interest n v))).core.lsdb.log = s.core.lsdb.log ++ outs := by
    obtain ⟨f, outs', e, hout⟩ := Daemon.lsdb_answers c.lsdb s.core.lsdb n v
    have hl' : (Core.step c.core s.core (.lsdb (.interest n v))).lsdb = Lsdb.step c.lsdb s.core.lsdb (.interest n v) := Core.step_lsdb c.core s.core _
    rw [e] at h1
    obtain rfl : outs' = outs := List.append_cancel_left h1
    rw [coreStep_told, hl', e]
    dsimp only
    rw [List.drop_left]
    have hn : newOrigins outs' = [] := by
      unfold newOrigins
      rw [List.filterMap_eq_nil_iff]
      intro o hm
      rcases hout o hm with ⟨s, rfl⟩ | ⟨n, rfl⟩ | rfl <;> rfl
    rw [hn]
    show (told c s (.lsdb (.interest n v))).core.lsdb.log = _
    rw [(told_same c s _).2, hl', e]
  unfold ended
  rw [coreStep_alive _ ha, Bool.false_or, List.contains_iff_mem, hlog, List.mem_append, h2]
  exact ⟨fun h => h.resolve_left hb, Or.inr⟩

end Router

/-! ### commands -/

/-- The costs that are at least 2^64 as doubles. -/
theorem roundNat_big (k : Nat) : 2 ^ 64 ≤ Dbl.roundNat k ↔ 2 ^ 64 - 1024 ≤ k := by
  constructor
  · intro h
    refine Nat.le_of_not_lt (fun hlt => ?_)
    have h1 := Dbl.roundNat_mono (a := k) (b := 2 ^ 64 - 1025) (by omega)
    have h2 : Dbl.roundNat (2 ^ 64 - 1025) < 2 ^ 64 := by decide +kernel
    omega
  · intro h
    have h1 := Dbl.roundNat_mono h
    have h2 : 2 ^ 64 ≤ Dbl.roundNat (2 ^ 64 - 1024) := by decide +kernel
    omega

theorem cmd_undef (c : LConf) (s : CmdState) (x : Cmd) (hs : s.undef = false) :
    (CmdState.step c s (.cmd x)).undef = true ↔
      x.via = .nlsr ∧ x.verb = .advertise ∧ x.flags = some 1 ∧ ∃ k, x.cost = some k ∧ 2 ^ 64 - 1024 ≤ k := by
  have hcost : (∃ k, x.cost = some k ∧ 2 ^ 64 - 1024 ≤ k) ↔ 2 ^ 64 ≤ Dbl.roundNat (x.cost.getD 0) := by
    rw [roundNat_big]
    cases x.cost with
    | none => simp
    | some k => simp
  rw [hcost]
  have hsave : ∀ (s : CmdState), s.undef = false → ((s.saveReply x (Dbl.roundNat (x.cost.getD 0))).undef = true ↔
      x.via = .nlsr ∧ 2 ^ 64 ≤ Dbl.roundNat (x.cost.getD 0)) := by
    intro s hs
    unfold CmdState.saveReply
    cases x.via with
    | rib => simp [CmdState.reply, hs]
    | nlsr =>
      dsimp only
      unfold Dbl.toU64
      by_cases hk : Dbl.roundNat (x.cost.getD 0) < 2 ^ 64
      · rw [if_pos hk]
        simp only [CmdState.reply, hs]
        constructor
        · intro h; cases h
        · intro h; omega
      · rw [if_neg hk]
        exact ⟨fun _ => ⟨rfl, Nat.le_of_not_lt hk⟩, fun _ => rfl⟩
  cases hv : x.verb with
  | advertise =>
    have e : CmdState.step c s (.cmd x) = CmdState.advertise c s x := by
      show (match x.verb with | .advertise => s.advertise c x | .withdraw => s.withdraw c x) = _
      rw [hv]
    rw [e]
    unfold CmdState.advertise
    dsimp only
    by_cases hf : x.flags = some 1
    · rw [if_pos hf, if_pos hf]
      split
      · rw [hsave _ (by exact hs)]; simp [hf]
      · rw [hsave _ (by exact hs)]; simp [hf]
    · rw [if_neg hf, if_neg hf]
      split <;> (simp only [CmdState.reply, CmdState.build, CmdState.setNpl, hs]; simp [hf])
  | withdraw =>
    have e : CmdState.step c s (.cmd x) = CmdState.withdraw c s x := by
      show (match x.verb with | .advertise => s.advertise c x | .withdraw => s.withdraw c x) = _
      rw [hv]
    rw [e]
    have hdel : ∀ t : CmdState, t.undef = false → (t.deleteReply x).undef = false := by
      intro t ht
      unfold CmdState.deleteReply
      split <;> exact ht
    have : (CmdState.withdraw c s x).undef = false := by
      unfold CmdState.withdraw
      dsimp only
      split <;> split
      · exact hdel _ hs
      · exact hs
      · exact hdel _ hs
      · exact hs
    rw [this]
    simp

/-! ### certificates -/

/-- The chain of certificates that starts where `n` points ends after at most `k` look-ups, at a certificate that is missing or at one
signed with its own key; each certificate before has a key locator that names the next key. -/
inductive Ends (cache : Name → Option Cert) : Nat → Name → Prop
  | missing {k n} (h : cache n = none) : Ends cache (k + 1) n
  | self {k n y} (h : cache n = some y) (hl : y.locator = some (certKey y)) : Ends cache (k + 1) n
  | next {k n y m} (h : cache n = some y) (hl : y.locator = some m) (hm : m ≠ certKey y) (e : Ends cache k m) : Ends cache (k + 1) n

theorem publish_ends (cache : Name → Option Cert) (hgood : ∀ m y, cache m = some y → GoodCert y) :
    ∀ (k : Nat) (s : CertStore) (n : Name), s.dead = false →
      ((∃ t, CertStore.publish cache k s n = some t ∧ t.dead = false) ↔ Ends cache k n) := by
  intro k
  induction k with
  | zero =>
    intro s n _
    constructor
    · rintro ⟨t, h, -⟩; cases h
    · intro h; cases h
  | succ k ih =>
    intro s n hs
    unfold CertStore.publish
    cases hc : cache n with
    | none => exact ⟨fun _ => .missing hc, fun _ => ⟨s, rfl, hs⟩⟩
    | some y =>
      dsimp only
      have hkey : y.keyName = certKey y := (IsCertName.key (key := certKey y) (hgood n y hc)).1
      cases hl : y.locator with
      | none =>
        dsimp only
        constructor
        · rintro ⟨t, h, hd⟩
          cases h
          cases hd
        · intro h
          cases h with
          | missing h => rw [hc] at h; cases h
          | self h hl' => rw [hc] at h; cases h; rw [hl] at hl'; cases hl'
          | next h hl' => rw [hc] at h; cases h; rw [hl] at hl'; cases hl'
      | some m =>
        dsimp only
        rw [hkey]
        by_cases hm : certKey y = m
        · rw [if_neg (by simpa using hm)]
          exact ⟨fun _ => .self hc (by rw [hl, hm]), fun _ => ⟨_, rfl, hs⟩⟩
        · rw [if_pos hm, ih _ m (by exact hs)]
          constructor
          · exact fun h => .next hc hl (fun e => hm e.symm) h
          · intro h
            cases h with
            | missing h => rw [hc] at h; cases h
            | self h hl' => rw [hc] at h; cases h; rw [hl] at hl'; cases hl'; exact absurd rfl hm
            | next h hl' hm' e => rw [hc] at h; cases h; rw [hl] at hl'; cases hl'; exact e

/-! ### the daemon -/

namespace Daemon

/-- The events that end the daemon. -/
inductive Fatal (c : DConf) (d : Daemon) : Op → Prop
  /-- an interest for one of its own LSAs whose sequence number is no number -/
  | lsa {q} (h : Lsdb.BadLsa c.r.lsdb q.req.name) : Fatal c d (.interest q)
  /-- a greeting whose last component follows `INFO` and carries no name -/
  | hello {q pre x} (h : c.r.lsdb.router ++ [Comp.str "nlsr", Comp.str "INFO"] <+: q.req.name) (hn : q.req.name = pre ++ [Comp.str "INFO", x])
      (hx : ∀ m, ¬ Carries c.r.nbr x m) : Fatal c d (.interest q)
  /-- an authorized command to advertise and save a prefix with a cost that as a double is 2^64 (no result is defined for its conversion) -/
  | cost {q name k face} (h : Ordered c q.req ⟨.nlsr, .advertise, name, some k, some 1, face⟩) (hk : 2 ^ 64 - 1024 ≤ k) :
      Fatal c d (.interest q)
  /-- an LSA signed with a certificate that the store does not have and that heads a chain which is too long, has no end, or has a
  certificate without key locator -/
  | chain {cache n} (h : d.certs.find n = none) (he : ¬ Ends cache c.depth n) : Fatal c d (.segment cache (some n))

theorem not_ended {d : Daemon} : d.ended = false ↔ d.r.ended = false ∧ d.certs.dead = false ∧ d.undef = false := by
  unfold ended
  rw [Bool.or_eq_false_iff, Bool.or_eq_false_iff, and_assoc]

theorem ReachableKeys.lsdb {c : DConf} (hc : Plain c) {d : Daemon} (h : ReachableKeys c d) (he : d.ended = false) :
    Lsdb.Reachable c.r.lsdb d.r.core.lsdb := by
  obtain ⟨disk, adjs, start, sys, file, certs, ops, hg, rfl⟩ := h
  obtain ⟨cops, h1, -⟩ := follows hc disk adjs start sys file certs ops hg he
  have := (CmdState.Reachable.inv ⟨disk, adjs, start, sys, file, cops, rfl⟩ : CmdState.Inv c.r.lsdb _).lsdb
  rw [← h1] at this
  exact this

/-- An order reaches the command it is for, and it is the only one. -/
theorem Ordered.unique {c : DConf} (hc : Plain c) {d : Daemon} (h : ReachableKeys c d) {q : Access.Request} {top : Name} {k : Access.Handler}
    (hf : fitting c d q.name = [.command top k]) {x : Cmd} (hx : Ordered c q x) :
    ∃ p rest y, q.name = top ++ k.rel ++ p :: rest ∧ c.decode k.rel p = some y ∧ (k.via = .rib ∨ c.valid q = true) ∧
      Access.wellFormed k y = true ∧ x = ⟨k.via, k.verb, y.name.getD [], y.cost, y.flags, y.faceId⟩ := by
  obtain ⟨top', ht, k', hk, p, rest, y, hn, hy, ha, hw, rfl⟩ := hx
  have hf' : fitting c d q.name = [.command top' k'] := by
    rw [hn]
    refine hc.only h ?_ (List.prefix_append _ _)
    refine List.mem_append_right _ (List.mem_flatMap.2 ⟨top', ?_, List.mem_append_left _ (List.mem_map.2 ⟨k', hk, rfl⟩)⟩)
    rw [hc.tops.1]
    rcases ht with rfl | rfl <;> simp
  rw [hf'] at hf
  cases hf
  exact ⟨p, rest, y, hn, hy, ha, hw, rfl⟩

theorem carryOut_ends {c : DConf} {d : Daemon} (he : d.ended = false) (x : Cmd) : (carryOut c d x).ended = true ↔
    x.via = .nlsr ∧ x.verb = .advertise ∧ x.flags = some 1 ∧ ∃ k, x.cost = some k ∧ 2 ^ 64 - 1024 ≤ k := by
  obtain ⟨h1, h2, h3⟩ := not_ended.1 he
  have hr : (carryOut c d x).r.ended = false := by
    unfold carryOut
    dsimp only
    have ha : (Router.step c.r d.r (.core (.lsdb (.setNpl (Net.listed d.npl x).2.infos)))).ended = false :=
      Router.step_alive h1 (fun n v e => by cases e) (fun n v e => by cases e)
    split
    · exact Router.step_alive ha (fun n v e => by cases e) (fun n v e => by cases e)
    · exact ha
  rw [← cmd_undef c.r.lsdb d.view x h3]
  unfold ended
  rw [hr, show (carryOut c d x).certs.dead = false from h2, Bool.false_or, Bool.false_or]
  exact Iff.rfl

/-- What every fatal interest does. -/
theorem interest_fatal {c : DConf} (hc : Plain c) (hnet : Comp.str "LSA" ∉ c.r.lsdb.names.network) {d : Daemon} (h : ReachableKeys c d)
    (he : d.ended = false) (q : Packet) : (receive c d q).ended = true ↔ Fatal c d (.interest q) := by
  obtain ⟨h1, h2, h3⟩ := not_ended.1 he
  -- where fatal interests go
  have flsa : Lsdb.BadLsa c.r.lsdb q.req.name → fitting c d q.req.name = [.lsdb] := by
    rintro ⟨-, m, hm, -, hn⟩
    refine hc.only h (f := c.r.lsdb.names.lsaPrefix) (by simp [fixed]) ?_
    rcases hn with ⟨e, -⟩ | ⟨v, x, -, e⟩
    · rw [e]; exact hm
    · rw [e]; exact hm.trans (List.prefix_append _ _)
  have fhello : c.r.lsdb.router ++ [Comp.str "nlsr", Comp.str "INFO"] <+: q.req.name → fitting c d q.req.name = [.hello] :=
    fun hp => hc.only h (f := c.r.lsdb.router ++ [Nbr.nlsrComp, Nbr.infoComp]) (by simp [fixed]) hp
  have fcmd : ∀ x, Ordered c q.req x → ∃ top k, fitting c d q.req.name = [.command top k] := by
    rintro x ⟨top, ht, k, hk, p, rest, y, hn, -⟩
    refine ⟨top, k, ?_⟩
    rw [hn]
    refine hc.only h ?_ (List.prefix_append _ _)
    refine List.mem_append_right _ (List.mem_flatMap.2 ⟨top, ?_, List.mem_append_left _ (List.mem_map.2 ⟨k, hk, rfl⟩)⟩)
    rw [hc.tops.1]
    rcases ht with rfl | rfl <;> simp
  -- what is there for each part
  have part : ∀ p, (∀ top k, p = .command top k → fitting c d q.req.name = [p]) → (p = .lsdb ∨ p = .hello → fitting c d q.req.name = [p]) →
      ((hand c q d p).ended = true ↔ Fatal c d (.interest q) ∧ fitting c d q.req.name = [p]) := by
    intro p hcmd hother
    unfold hand
    rw [he]
    cases p with
    | lsdb =>
      show ({ d with r := Router.step c.r d.r (.core (.lsdb (.interest q.req.name q.ver))) } : Daemon).ended = true ↔ _
      unfold ended
      dsimp only
      rw [h2, h3, Bool.or_false, Bool.or_false, Router.lsa_ends hnet (h.lsdb hc he) h1]
      constructor
      · exact fun hb => ⟨.lsa hb, flsa hb⟩
      · rintro ⟨hf, e⟩
        cases hf with
        | lsa hb => exact hb
        | hello hp => rw [fhello hp] at e; cases e
        | cost hx => obtain ⟨top, k, e'⟩ := fcmd _ hx; rw [e'] at e; cases e
    | sync => 
      show d.ended = true ↔ _
      rw [he]
      constructor
      · intro h; cases h
      · rintro ⟨hf, e⟩
        cases hf with
        | lsa hb => rw [flsa hb] at e; cases e
        | hello hp => rw [fhello hp] at e; cases e
        | cost hx => obtain ⟨top, k, e'⟩ := fcmd _ hx; rw [e'] at e; cases e
    | hello =>
      show ({ d with r := Router.step c.r d.r (.nbr (.interest q.req.name ⟨54, Tlv.encNni q.ver⟩)) } : Daemon).ended = true ↔ _
      unfold ended
      dsimp only
      rw [h2, h3, Bool.or_false, Bool.or_false, Router.hello_ends h1]
      constructor
      · rintro ⟨hp, pre, x, hn, hx⟩
        exact ⟨.hello hp hn hx, fhello hp⟩
      · rintro ⟨hf, e⟩
        cases hf with
        | lsa hb => rw [flsa hb] at e; cases e
        | hello hp hn hx => exact ⟨hp, _, _, hn, hx⟩
        | cost hx => obtain ⟨top, k, e'⟩ := fcmd _ hx; rw [e'] at e; cases e
    | command top k =>
      show (command c d q.req top k).ended = true ↔ _
      have hfit := hcmd top k rfl
      obtain ⟨ht, hk, hp⟩ := fitting_command (c := c) (d := d) (n := q.req.name) (top := top) (h := k) (by rw [hfit]; simp)
      constructor
      · intro hend
        refine ⟨?_, hfit⟩
        unfold command at hend
        split at hend
        · rw [he] at hend; cases hend
        · rename_i p hpn
          split at hend
          · rw [he] at hend; cases hend
          · rename_i y hy
            split at hend
            · rename_i ha
              split at hend
              · rename_i hw
                obtain ⟨rest, hr⟩ := hp
                rw [← hr, List.getElem?_append_right (Nat.le_refl _), Nat.sub_self] at hpn
                cases rest with
                | nil => cases hpn
                | cons p' rest =>
                  cases Option.some.inj hpn
                  have ho : Ordered c q.req ⟨k.via, k.verb, y.name.getD [], y.cost, y.flags, y.faceId⟩ := by
                    refine ⟨top, ht, k, hk, p, rest, y, hr.symm, hy, ?_, hw, rfl⟩
                    unfold Access.authorized at ha
                    split at ha
                    · exact Or.inr ha
                    · exact Or.inl (by assumption)
                  obtain ⟨e1, e2, e3, j, e4, hj⟩ := (carryOut_ends he _).1 hend
                  dsimp only [Access.cmdOf] at e1 e2 e3 e4
                  rw [e1, e2, e3, e4] at ho
                  exact .cost ho hj
              · change d.ended = true at hend
                rw [he] at hend; cases hend
            · change d.ended = true at hend
              rw [he] at hend; cases hend
      · rintro ⟨hf, e⟩
        cases hf with
        | lsa hb => rw [flsa hb] at e; cases e
        | hello hp => rw [fhello hp] at e; cases e
        | cost hx hj =>
          obtain ⟨p, rest, y, hn, hy, ha, hw, hxe⟩ := hx.unique hc h hfit
          unfold command
          rw [hn, List.getElem?_append_right (Nat.le_refl _), Nat.sub_self]
          dsimp only [List.getElem?_cons_zero]
          rw [hy]
          dsimp only
          have hauth : Access.authorized c.env k q.req = true := by
            unfold Access.authorized
            rcases ha with e | e
            · rw [e]
            · split
              · exact e
              · rfl
          rw [hauth, hw]
          refine (carryOut_ends he _).2 ?_
          have e : Access.cmdOf k y = ⟨k.via, k.verb, y.name.getD [], y.cost, y.flags, y.faceId⟩ := rfl
          rw [e, ← hxe]
          exact ⟨rfl, rfl, rfl, _, rfl, hj⟩
    | dataset top x =>
      have hd : (dataset d q.req top x).ended = false := by
        unfold dataset
        split
        · exact he
        · split <;> exact he
      show (dataset d q.req top x).ended = true ↔ _
      rw [hd]
      constructor
      · intro h; cases h
      · rintro ⟨hf, e⟩
        cases hf with
        | lsa hb => rw [flsa hb] at e; cases e
        | hello hp => rw [fhello hp] at e; cases e
        | cost hx => obtain ⟨top, k, e'⟩ := fcmd _ hx; rw [e'] at e; cases e
    | certs =>
      have hd : (match d.certs.find q.req.name with
        | none => d
        | some x => { d with certs := { d.certs with sent := d.certs.sent ++ [x] } } : Daemon).ended = false := by
        split <;> exact he
      show (match d.certs.find q.req.name with
        | none => d
        | some x => { d with certs := { d.certs with sent := d.certs.sent ++ [x] } } : Daemon).ended = true ↔ _
      rw [hd]
      constructor
      · intro h; cases h
      · rintro ⟨hf, e⟩
        cases hf with
        | lsa hb => rw [flsa hb] at e; cases e
        | hello hp => rw [fhello hp] at e; cases e
        | cost hx => obtain ⟨top, k, e'⟩ := fcmd _ hx; rw [e'] at e; cases e
  -- one part, or the store of certificates
  by_cases hone : ∃ f p, (f, p) ∈ fixed c ∧ f <+: q.req.name
  · obtain ⟨f, p, hf, hn⟩ := hone
    have hfit := hc.only h hf hn
    unfold receive
    rw [hfit]
    show (hand c q d p).ended = true ↔ _
    rw [part p (fun _ _ _ => hfit) (fun _ => hfit)]
    exact ⟨fun h => h.1, fun h => ⟨h, hfit⟩⟩
  · have hall : ∀ p ∈ fitting c d q.req.name, p = .certs := by
      intro p hp
      obtain ⟨f, hf, hn⟩ := mem_fitting hp
      rcases List.mem_append.1 hf with hf | hf
      · exact absurd ⟨f, p, hf, hn⟩ hone
      · obtain ⟨k, -, e⟩ := List.mem_map.1 hf
        cases e; rfl
    have hno : ¬ Fatal c d (.interest q) := by
      intro hf
      cases hf with
      | lsa hb => have := hall .lsdb (by rw [flsa hb]; simp); cases this
      | hello hp => have := hall .hello (by rw [fhello hp]; simp); cases this
      | cost hx => obtain ⟨top, k, e'⟩ := fcmd _ hx; have := hall (.command top k) (by rw [e']; simp); cases this
    refine ⟨fun hend => ?_, fun hf => absurd hf hno⟩
    exfalso
    unfold receive at hend
    have : ∀ (l : List Part) (d : Daemon), (∀ p ∈ l, p = .certs) → d.ended = false → (l.foldl (hand c q) d).ended = false := by
      intro l
      induction l with
      | nil => exact fun _ _ h => h
      | cons p l ih =>
        intro d hl he
        refine ih _ (fun p hp => hl p (by simp [hp])) ?_
        rw [hl p (by simp)]
        unfold hand
        rw [he]
        show (match d.certs.find q.req.name with
          | none => d
          | some x => { d with certs := { d.certs with sent := d.certs.sent ++ [x] } } : Daemon).ended = false
        split <;> exact he
    rw [this _ d hall he] at hend
    cases hend

/-- C116: what ends a daemon that runs, exactly. -/
theorem C116_exact_partial {c : DConf} (hc : Plain c) (hnet : Comp.str "LSA" ∉ c.r.lsdb.names.network) {d : Daemon} (h : ReachableKeys c d)
    (he : d.ended = false) (op : Op) (hgood : ∀ cache kl, op = .segment cache kl → ∀ m y, cache m = some y → GoodCert y) :
    (step c d op).ended = true ↔ Fatal c d op := by
  obtain ⟨h1, h2, h3⟩ := not_ended.1 he
  cases op with
  | interest q => exact interest_fatal hc hnet h he q
  | router op =>
    have : (step c d (.router op)).ended = false := by
      show (if d.ended || byInterest op then d else { d with r := Router.step c.r d.r op }).ended = false
      split
      · exact he
      · rename_i hb
        rw [he, Bool.false_or] at hb
        refine not_ended.2 ⟨Router.step_alive h1 ?_ ?_, h2, h3⟩
        · rintro n v rfl; exact hb rfl
        · rintro n v rfl; exact hb rfl
    rw [this]
    constructor
    · intro h; cases h
    · intro h; cases h
  | segment cache kl =>
    show (if d.ended then d else
      match CertStore.segment cache c.depth d.certs kl with
      | none => { d with certs := { d.certs with dead := true } }
      | some s => { d with certs := s } : Daemon).ended = true ↔ _
    rw [he]
    have same : ∀ s : CertStore, ({ d with certs := s } : Daemon).ended = s.dead := by
      intro s
      unfold ended
      rw [h1, h3, Bool.false_or, Bool.or_false]
    cases kl with
    | none =>
      show ({ d with certs := d.certs } : Daemon).ended = true ↔ _
      rw [same, h2]
      constructor
      · intro h; cases h
      · intro h; cases h
    | some n =>
      have hp := publish_ends cache (hgood cache _ rfl) c.depth d.certs n h2
      cases hf : d.certs.find n with
      | some y =>
        have : CertStore.segment cache c.depth d.certs (some n) = some d.certs := by
          unfold CertStore.segment
          dsimp only
          rw [hf]; rfl
        rw [this]
        show ({ d with certs := d.certs } : Daemon).ended = true ↔ _
        rw [same, h2]
        constructor
        · intro h; cases h
        · intro h
          cases h with
          | chain h0 => rw [hf] at h0; cases h0
      | none =>
        have : CertStore.segment cache c.depth d.certs (some n) = CertStore.publish cache c.depth d.certs n := by
          unfold CertStore.segment
          dsimp only
          rw [hf]; rfl
        rw [this]
        have key : ¬ Ends cache c.depth n ↔ Fatal c d (.segment cache (some n)) := by
          constructor
          · exact fun h => .chain hf h
          · intro h
            cases h with
            | chain _ h => exact h
        rw [← key, ← hp]
        cases CertStore.publish cache c.depth d.certs n with
        | none =>
          show ({ d with certs := { d.certs with dead := true } } : Daemon).ended = true ↔ _
          rw [same]
          exact ⟨fun _ h => (by obtain ⟨t, h, -⟩ := h; cases h), fun _ => rfl⟩
        | some t =>
          show ({ d with certs := t } : Daemon).ended = true ↔ _
          rw [same]
          cases hd : t.dead with
          | true => exact ⟨fun _ h => (by obtain ⟨t', h, h'⟩ := h; cases h; rw [hd] at h'; cases h'), fun _ => rfl⟩
          | false => exact ⟨fun h => (nomatch h), fun h => absurd ⟨t, rfl, hd⟩ h⟩

/-- A daemon runs once it is started. -/
theorem init_runs (c : DConf) (disk : Option Seqs) (adjs : AdjacencyList) (start : List (Name × Ext Rat)) (sys : Int) (file : Option ConfFile)
    (certs : List Cert) : (init c disk adjs start sys file certs).ended = false := by
  refine not_ended.2 ⟨Router.not_ended.2 ⟨?_, ?_⟩, ?_, rfl⟩
  · show (Router.init c.r disk adjs (Net.configured start).infos sys).nbr.dead = false
    unfold Router.init
    dsimp only
    have : ∀ (l : List NOut) (s : Router), (l.foldl (Router.apply c.r) s).nbr = s.nbr := by
      intro l
      induction l with
      | nil => exact fun _ => rfl
      | cons o l ih => exact fun s => (ih _).trans (apply_nbr c.r s o)
    rw [this]
    show (Nbr.init c.r.nbr adjs).dead = false
    rfl
  · obtain ⟨outs, e, hq⟩ := (Router.init_by c.r disk adjs (Net.configured start).infos sys).quiet (fun n v h => h)
    show Out.fault ∉ (Router.init c.r disk adjs (Net.configured start).infos sys).core.lsdb.log
    obtain ⟨o, e', ho⟩ := (Lsdb.init_keep c.r.lsdb disk adjs (Net.configured start).infos sys).log
    rw [e, e']
    intro hm
    rcases List.mem_append.1 hm with hm | hm
    · rcases List.mem_append.1 hm with hm | hm
      · cases hm
      · have := ho _ hm
        cases this
    · exact hq hm
  · show (CertStore.init c.r.lsdb.names certs).dead = false
    unfold CertStore.init
    have h1 : ∀ (l : List Name) (s : CertStore), (l.foldl CertStore.listen s).dead = s.dead := by
      intro l
      induction l with
      | nil => exact fun _ => rfl
      | cons n l ih => exact fun s => ih _
    have h2 : ∀ (l : List Cert) (s : CertStore), (l.foldl CertStore.insert s).dead = s.dead := by
      intro l
      induction l with
      | nil => exact fun _ => rfl
      | cons n l ih => exact fun s => ih _
    rw [h1, h2]

/-- C116, over all histories: a daemon has ended if and only if one of the events in its history was fatal when it came. -/
theorem C116_histories_partial {c : DConf} (hc : Plain c) (hnet : Comp.str "LSA" ∉ c.r.lsdb.names.network) (disk : Option Seqs)
    (adjs : AdjacencyList) (start : List (Name × Ext Rat)) (sys : Int) (file : Option ConfFile) (certs : List Cert) (ops : List Op)
    (hg : GoodOps c ops) (hgood : ∀ cache kl, Op.segment cache kl ∈ ops → ∀ m y, cache m = some y → GoodCert y) :
    let d := init c disk adjs start sys file certs
    (run c d ops).ended = true ↔ ∃ a op b, ops = a ++ op :: b ∧ (run c d a).ended = false ∧ Fatal c (run c d a) op := by
  intro d
  induction ops using snoc_induction with
  | nil =>
    rw [show (run c d []).ended = false from init_runs c disk adjs start sys file certs]
    constructor
    · intro h; cases h
    · rintro ⟨a, op, b, h, -⟩
      exact absurd h (by simp)
  | snoc ops op ih =>
    have hg' : GoodOps c ops := fun cache kl h => hg cache kl (by simp [h])
    have ih := ih hg' (fun cache kl h => hgood cache kl (by simp [h]))
    have hk : ReachableKeys c (run c d ops) := ⟨disk, adjs, start, sys, file, certs, ops, hg', rfl⟩
    rw [run_snoc]
    cases he : (run c d ops).ended with
    | true =>
      rw [ended_step he, he]
      obtain ⟨a, o, b, e, h1, h2⟩ := ih.1 he
      exact ⟨fun _ => ⟨a, o, b ++ [op], by rw [e]; simp, h1, h2⟩, fun _ => rfl⟩
    | false =>
      rw [C116_exact_partial hc hnet hk he op (fun cache kl e => hgood cache kl (by simp [e]))]
      constructor
      · exact fun h => ⟨ops, op, [], by simp, he, h⟩
      · rintro ⟨a, o, b, e, h1, h2⟩
        rcases List.eq_nil_or_concat b with rfl | ⟨b', x, rfl⟩
        · have := List.append_inj' e rfl
          obtain ⟨rfl, e2⟩ := this
          cases e2
          exact h2
        · exfalso
          rw [List.concat_eq_append, ← List.cons_append, ← List.append_assoc] at e
          have := List.append_inj' e rfl
          have := ih.2 ⟨a, o, b', this.1, h1, h2⟩
          rw [he] at this
          cases this

/-! ### the hypotheses can be met, and what can go wrong -/

/-- Costs are read from the parameters: `P` asks to advertise and save /q with the largest cost. -/
def exCostly : DConf where
  r := exDC.r
  decode := fun _ p => if p = Comp.str "P" then some { name := some (nm ["q"]), cost := some (2 ^ 64 - 1), flags := some 1 } else none
  valid := exDC.valid
  depth := 5

theorem exCostly_plain : Plain exCostly :=
  ⟨exDC_plain.hop, exDC_plain.host, exDC_plain.nlsr, exDC_plain.key, exDC_plain.op, exDC_plain.sync⟩

/-- Nothing in the history of the example is fatal; four events after it are, each for another reason. -/
example : Plain exDC ∧ Comp.str "LSA" ∉ exDC.r.lsdb.names.network ∧ ReachableKeys exDC exServer ∧ exServer.ended = false ∧
    Fatal exDC exServer (.interest ⟨⟨nm ["localhop", "net", "nlsr", "LSA", "site", "r1", "NAME", "abc"], none⟩, 1⟩) ∧
    Fatal exDC exServer (.interest ⟨⟨exR1 ++ nm ["nlsr", "INFO"] ++ [⟨8, []⟩], none⟩, 1⟩) ∧
    Fatal exDC exServer (.segment (fun _ => some ⟨nm ["net", "KEY", "k", "i", "v"], none, []⟩) (some (nm ["net", "KEY", "k"]))) ∧
    Fatal exCostly (init exCostly none exNbrs [] 0 none [])
      (.interest ⟨⟨nm ["localhost", "nlsr", "prefix-update", "advertise", "P"], some (nm ["net", "op", "KEY", "1"])⟩, 1⟩) ∧
    ¬ Fatal exDC exServer (.interest ⟨⟨nm ["localhop", "net", "nlsr", "LSA", "site", "r1", "NAME"] ++ [Comp.number 1], none⟩, 1⟩) := by
  have hnet : Comp.str "LSA" ∉ exDC.r.lsdb.names.network := by decide +kernel
  have he : exServer.ended = false := by decide +kernel
  refine ⟨exDC_plain, hnet, exServer_keys, he, ?_, ?_, ?_, ?_, ?_⟩
  · exact (C116_exact_partial exDC_plain hnet exServer_keys he _ (fun _ _ e => by cases e)).1 (by decide +kernel)
  · exact (C116_exact_partial exDC_plain hnet exServer_keys he _ (fun _ _ e => by cases e)).1 (by decide +kernel)
  · refine .chain (by decide +kernel) (fun h => ?_)
    cases h with
    | missing h => cases h
    | self h hl => cases h; cases hl
    | next h hl => cases h; cases hl
  · refine (C116_exact_partial exCostly_plain (by decide +kernel) ⟨none, exNbrs, [], 0, none, [], [], ?_, rfl⟩ (by decide +kernel) _
      (fun _ _ e => by cases e)).1 (by decide +kernel)
    intro cache kl h
    cases h
  · intro h
    have := (C116_exact_partial exDC_plain hnet exServer_keys he _ (fun _ _ e => by cases e)).2 h
    revert this
    decide +kernel

/-- C116 fails: whatever its state, there is an interest without any signature that ends the daemon, for good. -/
theorem C116_violated_anyone {c : DConf} (hc : Plain c) {d : Daemon} (h : ReachableKeys c d) (he : d.ended = false) :
    ∃ q : Packet, q.req.key = none ∧ Fatal c d (.interest q) ∧ ∀ ops, (run c d (.interest q :: ops)).ended = true := by
  have hx : ∀ m, ¬ Carries c.r.nbr ⟨8, []⟩ m := by
    rintro m ⟨t, v, h, -⟩
    have : Tlv.decBlock [] = none := by decide +kernel
    rw [this] at h
    cases h
  refine ⟨⟨⟨c.r.lsdb.router ++ [Comp.str "nlsr", Comp.str "INFO", ⟨8, []⟩], none⟩, 0⟩, rfl,
    .hello (pre := c.r.lsdb.router ++ [Comp.str "nlsr"]) (x := ⟨8, []⟩) ⟨[⟨8, []⟩], by simp⟩ (by simp) hx, fun ops => ?_⟩
  obtain ⟨h1, h2⟩ := C115_violated_silenced hc h he ⟨8, []⟩ hx none 0 ops
  show (run c (receive c d _) ops).ended = true
  rw [h2]
  exact h1

end Daemon
end Nlsr
