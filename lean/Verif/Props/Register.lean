import Verif.Model.Register
import Verif.Props.Daemon

/-!
C121: the daemon is sent the interests it answers, or it ends.
-/

namespace Nlsr
namespace RegDaemon

/-- States of a daemon with its registrations. -/
def Reachable (c : DConf) (s : RegDaemon) : Prop :=
  ∃ disk adjs start sys file certs ops, s = run c (init c (Daemon.init c disk adjs start sys file certs)) ops

theorem Reachable.induct {c : DConf} {P : RegDaemon → Prop}
    (h0 : ∀ disk adjs start sys file certs, P (init c (Daemon.init c disk adjs start sys file certs)))
    (h1 : ∀ s op, P s → P (step c s op)) {s : RegDaemon} (h : Reachable c s) : P s := by
  obtain ⟨disk, adjs, start, sys, file, certs, ops, rfl⟩ := h
  have : ∀ (ops : List Op) (s : RegDaemon), P s → P (run c s ops) := by
    intro ops
    induction ops with
    | nil => exact fun s h => h
    | cons op ops ih => exact fun s h => ih _ (h1 s op h)
  exact this ops _ (h0 ..)

theorem hands_filters (c : DConf) (q : Daemon.Packet) : ∀ (l : List Part) (d : Daemon),
    (l.foldl (Daemon.hand c q) d).certs.filters = d.certs.filters := by
  intro l
  induction l with
  | nil => exact fun d => rfl
  | cons p ps ih => exact fun d => (ih _).trans (Daemon.hand_filters c q d p)

/-- Filters of certificates are only added. -/
theorem step_grows (c : DConf) (d : Daemon) (op : Daemon.Op) : ∃ l, (Daemon.step c d op).certs.filters = d.certs.filters ++ l := by
  cases op with
  | interest q => exact ⟨[], by rw [List.append_nil]; exact hands_filters c q _ d⟩
  | router op =>
    refine ⟨[], ?_⟩
    unfold Daemon.step
    dsimp only
    split <;> simp
  | segment cache kl =>
    unfold Daemon.step
    dsimp only
    split
    · exact ⟨[], by simp⟩
    · split
      · exact ⟨[], by simp⟩
      · rename_i s hs
        unfold CertStore.segment at hs
        cases kl with
        | none => cases hs; exact ⟨[], by simp⟩
        | some n =>
          dsimp only at hs
          split at hs
          · obtain ⟨l, b, h1, rfl⟩ := CertStore.publish_chain _ _ _ _ _ hs
            exact ⟨_, rfl⟩
          · cases hs; exact ⟨[], by simp⟩

/-- The daemon has not been refused anything, and then it has asked for everything. -/
def AskedAll (c : DConf) (s : RegDaemon) : Prop :=
  s.refusal = false → (s.routes ++ s.waiting).Perm
    ([(c.r.lsdb.names.lsaPrefix, 2), (c.r.lsdb.router ++ nm ["nlsr", "INFO"], 2), (c.r.lsdb.router ++ nm ["nlsr"], 1),
      (nm ["localhost", "nlsr"], 1)] ++ s.d.certs.filters.map (fun f => (f, 2)))

theorem perm_move {α : Type} {l : List α} {i : Nat} {x : α} (h : l[i]? = some x) (k : List α) :
    (k ++ [x] ++ l.eraseIdx i).Perm (k ++ l) := by
  rw [List.append_assoc]
  refine List.Perm.append_left k ?_
  induction l generalizing i with
  | nil => simp at h
  | cons y l ih =>
    cases i with
    | zero => simp at h; subst h; exact List.Perm.refl _
    | succ i =>
      rw [List.getElem?_cons_succ] at h
      rw [List.eraseIdx_cons_succ]
      exact (List.Perm.swap y x _).trans ((ih h).cons y)

theorem askedAll_step {c : DConf} {s : RegDaemon} (h : AskedAll c s) (op : Op) : AskedAll c (step c s op) := by
  unfold step
  split
  · exact h
  · cases op with
    | answer i ok =>
      show AskedAll c (s.answer i ok)
      unfold answer
      split
      · exact h
      · rename_i r hr
        split
        · intro hf
          exact (perm_move hr s.routes).trans (h hf)
        · intro hf; cases hf
    | event op =>
      cases op with
      | interest q =>
        intro hf
        have hk := hands_filters c q (fitting c s q.req.name) s.d
        dsimp only
        rw [hk]
        exact h hf
      | router rop =>
        obtain ⟨l, hl⟩ := step_grows c s.d (.router rop)
        intro hf
        show (s.routes ++ (s.waiting ++ _)).Perm _
        dsimp only
        rw [hl, List.drop_left, List.map_append, ← List.append_assoc, ← List.append_assoc]
        exact (h hf).append_right _
      | segment cache kl =>
        obtain ⟨l, hl⟩ := step_grows c s.d (.segment cache kl)
        intro hf
        show (s.routes ++ (s.waiting ++ _)).Perm _
        dsimp only
        rw [hl, List.drop_left, List.map_append, ← List.append_assoc, ← List.append_assoc]
        exact (h hf).append_right _

/-- C121: at any time each prefix that the daemon answers under is registered or asked for, once, with the flag for
its kind, and nothing else is: the LSA prefix, the hello prefix, the two prefixes of the dispatcher and those of the
certificates (of which new ones come), unless NFD has refused one. -/
theorem C121_asked {c : DConf} {s : RegDaemon} (h : Reachable c s) (hr : s.refusal = false) :
    (s.routes ++ s.waiting).Perm
      ([(c.r.lsdb.names.lsaPrefix, 2), (c.r.lsdb.router ++ nm ["nlsr", "INFO"], 2), (c.r.lsdb.router ++ nm ["nlsr"], 1),
        (nm ["localhost", "nlsr"], 1)] ++ s.d.certs.filters.map (fun f => (f, 2))) := by
  refine Reachable.induct (P := AskedAll c) ?_ (fun s op h => askedAll_step h op) h hr
  intro disk adjs start sys file certs _
  have : (Daemon.init c disk adjs start sys file certs).certs.filters = CertStore.keyPrefixes c.r.lsdb.names :=
    Daemon.init_filters _ _
  show ([] ++ atStart c).Perm (_ ++ (Daemon.init c disk adjs start sys file certs).certs.filters.map _)
  rw [this]
  exact List.Perm.refl _

/-- C121: a refusal ends the daemon: nothing happens any more. -/
theorem C121_refused {c : DConf} {s : RegDaemon} {i : Nat} (hi : i < s.waiting.length) (ops : List Op) :
    (run c s (.answer i false :: ops)).ended = true ∧
    (run c s (.answer i false :: ops)).d = s.d := by
  have hst : ∀ (ops : List Op) (s : RegDaemon), s.ended = true → run c s ops = s := by
    intro ops
    induction ops with
    | nil => exact fun s _ => rfl
    | cons op ops ih =>
      intro s hs
      have : step c s op = s := by unfold step; rw [if_pos hs]
      show run c (step c s op) ops = s
      rw [this]
      exact ih s hs
  have hone : (step c s (.answer i false)).ended = true ∧ (step c s (.answer i false)).d = s.d := by
    unfold step
    by_cases he : s.ended = true
    · rw [if_pos he]; exact ⟨he, rfl⟩
    · rw [if_neg he]
      dsimp only
      unfold answer
      rw [List.getElem?_eq_getElem hi]
      refine ⟨?_, rfl⟩
      unfold ended
      simp
  show (run c (step c s (.answer i false)) ops).ended = true ∧ (run c (step c s (.answer i false)) ops).d = s.d
  rw [hst _ _ hone.1]
  exact hone

/-- C121: while it runs and NFD has answered everything, the daemon treats every interest as in C114 to C116. -/
theorem C121_served {c : DConf} {s : RegDaemon} (h : Reachable c s) (he : s.ended = false) (hw : s.waiting = [])
    (q : Daemon.Packet) : (step c s (.event (.interest q))).d = Daemon.step c s.d (.interest q) := by
  have hr : s.refusal = false := by
    unfold ended at he
    cases hh : s.refusal with
    | false => rfl
    | true => rw [hh] at he; simp at he
  have hp := C121_asked h hr
  rw [hw, List.append_nil] at hp
  have hlive : ∀ f ∈ Daemon.filters c s.d, s.live f = true := by
    rintro ⟨f, p⟩ hf
    have key : (f, 2) ∈ s.routes → s.live (f, p) = true := by
      intro hm
      unfold live
      cases p <;> first | rfl | exact List.contains_iff_mem.2 hm
    unfold Daemon.filters at hf
    rcases List.mem_append.1 hf with hf | hf
    · unfold Daemon.fixed at hf
      rcases List.mem_append.1 hf with hf | hf
      · simp only [List.mem_cons, List.not_mem_nil, or_false, Prod.mk.injEq] at hf
        rcases hf with ⟨rfl, rfl⟩ | ⟨rfl, rfl⟩ | ⟨rfl, rfl⟩
        · exact key (hp.mem_iff.2 (by simp))
        · rfl
        · refine key (hp.mem_iff.2 ?_)
          exact List.mem_append_left _ (List.mem_cons_of_mem _ List.mem_cons_self)
      · obtain ⟨t, -, hf⟩ := List.mem_flatMap.1 hf
        rcases List.mem_append.1 hf with hf | hf
        · obtain ⟨x, -, e⟩ := List.mem_map.1 hf; cases e; rfl
        · obtain ⟨x, -, e⟩ := List.mem_map.1 hf; cases e; rfl
    · obtain ⟨k, hk, e⟩ := List.mem_map.1 hf
      cases e
      exact key (hp.mem_iff.2 (List.mem_append_right _ (List.mem_map.2 ⟨_, hk, rfl⟩)))
  have hfit : fitting c s q.req.name = Daemon.fitting c s.d q.req.name := by
    unfold fitting Daemon.fitting
    congr 1
    refine List.filter_congr (fun f hf => ?_)
    rw [hlive f hf, Bool.and_true]
  unfold step
  rw [if_neg (by rw [he]; simp)]
  dsimp only
  rw [hfit]
  rfl

/-- C121: before NFD has accepted a prefix nothing under it is answered: an interest under no accepted prefix of LSAs, hellos or
certificates, which is no command, no request for a dataset and no sync interest, changes nothing. -/
theorem C121_early {c : DConf} {s : RegDaemon} {q : Daemon.Packet} (hn : ∀ f, f <+: q.req.name → (f, 2) ∉ s.routes)
    (ht : ∀ t ∈ [c.r.lsdb.router ++ nm ["nlsr"], nm ["localhost", "nlsr"]], ∀ w ∈ ["prefix-update", "rib", "lsdb", "routing-table"],
      ¬ t ++ nm [w] <+: q.req.name)
    (hs : ¬ c.r.syncPrefix <+: q.req.name) : step c s (.event (.interest q)) = s := by
  have hf : fitting c s q.req.name = [] := by
    unfold fitting
    rw [List.map_eq_nil_iff, List.filter_eq_nil_iff]
    rintro ⟨f, p⟩ hf h
    rw [Bool.and_eq_true] at h
    have hp : f <+: q.req.name := List.isPrefixOf_iff_prefix.1 (by have := h.1; unfold Name.isPrefixOf at this; exact this)
    have hdisp : ∀ t ∈ Access.tops c.env, ∀ w ∈ ["prefix-update", "rib", "lsdb", "routing-table"], ∀ r : Name, ¬ t ++ (nm [w] ++ r) <+: q.req.name := by
      intro t htm w hw r hpre
      refine ht t ?_ w hw (List.IsPrefix.trans ?_ hpre)
      · unfold Access.tops at htm
        dsimp only at htm
        split at htm
        · rw [List.mem_singleton.1 htm]; exact List.mem_cons_self
        · exact htm
      · rw [← List.append_assoc]; exact List.prefix_append _ _
    have key : p = .lsdb ∨ p = .hello ∨ p = .certs → False := by
      intro hpp
      refine hn f hp ?_
      have h2 := h.2
      unfold live at h2
      rcases hpp with rfl | rfl | rfl <;> exact List.contains_iff_mem.1 h2
    unfold Daemon.filters at hf
    rcases List.mem_append.1 hf with hf | hf
    · unfold Daemon.fixed at hf
      rcases List.mem_append.1 hf with hf | hf
      · simp only [List.mem_cons, List.not_mem_nil, or_false, Prod.mk.injEq] at hf
        rcases hf with ⟨rfl, rfl⟩ | ⟨rfl, rfl⟩ | ⟨rfl, rfl⟩
        · exact key (Or.inl rfl)
        · exact hs hp
        · exact key (Or.inr (Or.inl rfl))
      · obtain ⟨t, htm, hf⟩ := List.mem_flatMap.1 hf
        rcases List.mem_append.1 hf with hf | hf
        · obtain ⟨x, hx, e⟩ := List.mem_map.1 hf
          cases e
          have : ∃ w ∈ ["prefix-update", "rib", "lsdb", "routing-table"], ∃ r, x.rel = nm [w] ++ r := by
            unfold Access.handlers at hx
            simp only [List.mem_cons, List.not_mem_nil, or_false] at hx
            rcases hx with rfl | rfl | rfl | rfl
            · exact ⟨"prefix-update", by simp, _, rfl⟩
            · exact ⟨"prefix-update", by simp, _, rfl⟩
            · exact ⟨"rib", by simp, _, rfl⟩
            · exact ⟨"rib", by simp, _, rfl⟩
          obtain ⟨w, hw, r, e⟩ := this
          exact hdisp t htm w hw r (e ▸ hp)
        · obtain ⟨x, hx, e⟩ := List.mem_map.1 hf
          cases e
          have : ∃ w ∈ ["prefix-update", "rib", "lsdb", "routing-table"], ∃ r, x.rel = nm [w] ++ r := by
            cases x
            · exact ⟨"lsdb", by simp, _, rfl⟩
            · exact ⟨"lsdb", by simp, _, rfl⟩
            · exact ⟨"lsdb", by simp, _, rfl⟩
            · exact ⟨"routing-table", by simp, [], rfl⟩
          obtain ⟨w, hw, r, e⟩ := this
          exact hdisp t htm w hw r (e ▸ hp)
    · obtain ⟨k, hk, e⟩ := List.mem_map.1 hf
      cases e
      exact key (Or.inr (Or.inr rfl))
  unfold step
  split
  · rfl
  · dsimp only
    rw [hf]
    rfl

/-- C121: what ends a running daemon.  An answer of NFD does iff it is a refusal of something asked for; an event does, when NFD
has answered everything or the event is no interest, iff it ends the daemon of C116. -/
theorem C121_ends {c : DConf} {s : RegDaemon} (h : Reachable c s) (he : s.ended = false) :
    (∀ i ok, (step c s (.answer i ok)).ended = true ↔ ok = false ∧ i < s.waiting.length) ∧
    (∀ op, (s.waiting = [] ∨ ∀ q, op ≠ .interest q) →
      ((step c s (.event op)).ended = true ↔ (Daemon.step c s.d op).ended = true)) := by
  have hd : s.d.ended = false ∧ s.refusal = false := by
    unfold ended at he
    rw [Bool.or_eq_false_iff] at he
    exact he
  constructor
  · intro i ok
    unfold step
    rw [if_neg (by rw [he]; simp)]
    dsimp only
    unfold answer
    cases hi : s.waiting[i]? with
    | none =>
      dsimp only
      rw [he]
      refine ⟨fun h => (nomatch h), fun h => ?_⟩
      rw [List.getElem?_eq_getElem h.2] at hi
      cases hi
    | some r =>
      obtain ⟨hi, -⟩ := List.getElem?_eq_some_iff.1 hi
      cases ok with
      | false => exact ⟨fun _ => ⟨rfl, hi⟩, fun _ => by simp [ended]⟩
      | true =>
        refine ⟨fun h => ?_, fun h => (nomatch h.1)⟩
        simp [ended, hd.1, hd.2] at h
  · intro op hop
    have key : (step c s (.event op)).d = Daemon.step c s.d op ∧ (step c s (.event op)).refusal = false := by
      cases op with
      | interest q =>
        rcases hop with hw | hq
        · refine ⟨C121_served h he hw q, ?_⟩
          unfold step
          rw [if_neg (by rw [he]; simp)]
          exact hd.2
        · exact absurd rfl (hq q)
      | router op =>
        unfold step
        rw [if_neg (by rw [he]; simp)]
        exact ⟨rfl, hd.2⟩
      | segment cache kl =>
        unfold step
        rw [if_neg (by rw [he]; simp)]
        exact ⟨rfl, hd.2⟩
    unfold ended
    rw [key.1, key.2, Bool.or_false]

/-! ### What NFD does with the registrations -/

theorem take_between {f n : Name} {k : Nat} (hf : f <+: n) (hk : f.length ≤ k) : f <+: n.take k := by
  obtain ⟨t, rfl⟩ := hf
  rw [List.take_append, List.take_of_length_le hk]
  exact List.prefix_append _ _

theorem take_self {f n : Name} (hf : f <+: n) : n.take f.length = f := by
  obtain ⟨t, rfl⟩ := hf
  simp

theorem upTo_len {f n : Name} (hf : f <+: n) : ∃ l, Nfd.upTo n f.length = f :: l := by
  have := take_self hf
  cases h : f.length with
  | zero => rw [h] at this; exact ⟨[], by unfold Nfd.upTo; rw [this]⟩
  | succ k => rw [h] at this; exact ⟨_, by unfold Nfd.upTo; rw [this]⟩

theorem hop_own {faces : List Nat} {rib : Nfd.Routes} {me : Nat} {f : Name} {k : Int} {fl : Nat} (hme : me ∈ faces)
    (hr : rib f me = some (k, fl)) (l : List Name) : Nfd.hop faces rib me (f :: l) = some k := by
  unfold Nfd.hop
  rw [if_pos (List.any_eq_true.2 ⟨me, hme, by rw [hr]; rfl⟩), hr]

/-- Without routes for longer names the longest registered name decides. -/
theorem hop_longest {faces : List Nat} {rib : Nfd.Routes} {me : Nat} {f n : Name} {k : Int} {fl : Nat} (hme : me ∈ faces)
    (hr : rib f me = some (k, fl)) (hf : f <+: n)
    (hno : ∀ p, f <+: p → p <+: n → p ≠ f → ∀ g ∈ faces, rib p g = none) :
    ∀ m, f.length + m ≤ n.length → Nfd.hop faces rib me (Nfd.upTo n (f.length + m)) = some k := by
  intro m
  induction m with
  | zero =>
    intro _
    obtain ⟨l, hl⟩ := upTo_len hf
    rw [Nat.add_zero, hl]
    exact hop_own hme hr l
  | succ m ih =>
    intro hm
    show Nfd.hop faces rib me (n.take (f.length + m + 1) :: Nfd.upTo n (f.length + m)) = some k
    have hne : n.take (f.length + m + 1) ≠ f := by
      intro e
      have := congrArg List.length e
      rw [List.length_take] at this
      omega
    have h0 := hno _ (take_between hf (by omega)) (List.take_prefix _ _) hne
    unfold Nfd.hop
    rw [if_neg (by
      rw [List.any_eq_true]
      rintro ⟨g, hg, h⟩
      rw [h0 g hg] at h
      cases h)]
    exact ih (by omega)

/-- A route that is inherited counts as long as no longer name captures. -/
theorem hop_inherits {faces : List Nat} {rib : Nfd.Routes} {me : Nat} {f n : Name} {k : Int} {fl : Nat} (hme : me ∈ faces)
    (hr : rib f me = some (k, fl)) (hc : Nfd.childInherit fl = true) (hf : f <+: n)
    (hno : ∀ p, f <+: p → p <+: n → p ≠ f → Nfd.captures faces rib p = false) :
    ∀ m, f.length + m ≤ n.length → (Nfd.inherited faces rib me (Nfd.upTo n (f.length + m))).isSome = true ∧
      (Nfd.hop faces rib me (Nfd.upTo n (f.length + m))).isSome = true := by
  intro m
  induction m with
  | zero =>
    intro _
    obtain ⟨l, hl⟩ := upTo_len hf
    rw [Nat.add_zero, hl, hop_own hme hr l]
    refine ⟨?_, rfl⟩
    unfold Nfd.inherited
    rw [hr]
    dsimp only
    rw [if_pos hc]
    rfl
  | succ m ih =>
    intro hm
    obtain ⟨h1, h2⟩ := ih (by omega)
    show (Nfd.inherited faces rib me (n.take (f.length + m + 1) :: Nfd.upTo n (f.length + m))).isSome = true ∧
      (Nfd.hop faces rib me (n.take (f.length + m + 1) :: Nfd.upTo n (f.length + m))).isSome = true
    have hne : n.take (f.length + m + 1) ≠ f := by
      intro e
      have := congrArg List.length e
      rw [List.length_take] at this
      omega
    have h0 := hno _ (take_between hf (by omega)) (List.take_prefix _ _) hne
    constructor
    · unfold Nfd.inherited
      rw [h0]
      split
      · split
        · rfl
        · exact h1
      · exact h1
    · unfold Nfd.hop
      split
      · split
        · rfl
        · rw [h0]; exact h1
      · exact h2

/-- NFD has the routes it accepted, over the face `me` of the daemon. -/
def Holds (s : RegDaemon) (rib : Nfd.Routes) (me : Nat) : Prop :=
  ∀ f fl, (f, fl) ∈ s.routes → ∃ k, rib f me = some (k, fl)

/-- C121 (partial: as long as the routes for longer names leave them alone, see `C121_violated_taken`): when NFD has answered
everything, the interests for LSAs, hellos and certificates are sent to the daemon if no longer name has routes, and
commands and requests for datasets if no longer name has a route that captures. -/
theorem C121_delivered_partial {c : DConf} {s : RegDaemon} (h : Reachable c s) (he : s.ended = false) (hw : s.waiting = [])
    {faces : List Nat} {me : Nat} (hme : me ∈ faces) {rib : Nfd.Routes} (hrib : Holds s rib me) (n : Name) :
    (∀ f ∈ c.r.lsdb.names.lsaPrefix :: (c.r.lsdb.router ++ nm ["nlsr", "INFO"]) :: s.d.certs.filters, f <+: n →
      (∀ p, f <+: p → p <+: n → p ≠ f → ∀ g ∈ faces, rib p g = none) → (Nfd.cost faces rib n me).isSome = true) ∧
    (∀ f ∈ [c.r.lsdb.router ++ nm ["nlsr"], nm ["localhost", "nlsr"]], f <+: n →
      (∀ p, f <+: p → p <+: n → p ≠ f → ∀ g ∈ faces, ∀ k fl, rib p g = some (k, fl) → Nfd.capture fl = false) →
      (Nfd.cost faces rib n me).isSome = true) := by
  have hr : s.refusal = false := by
    unfold ended at he
    cases hh : s.refusal with
    | false => rfl
    | true => rw [hh] at he; simp at he
  have hp := C121_asked h hr
  rw [hw, List.append_nil] at hp
  constructor
  · intro f hf hfn hno
    have hm : (f, 2) ∈ s.routes := by
      refine hp.mem_iff.2 ?_
      rcases List.mem_cons.1 hf with rfl | hf
      · exact List.mem_append_left _ List.mem_cons_self
      · rcases List.mem_cons.1 hf with rfl | hf
        · exact List.mem_append_left _ (List.mem_cons_of_mem _ List.mem_cons_self)
        · exact List.mem_append_right _ (List.mem_map.2 ⟨f, hf, rfl⟩)
    obtain ⟨k, hk⟩ := hrib f 2 hm
    have hl : f.length + (n.length - f.length) = n.length := by have := hfn.length_le; omega
    have := hop_longest hme hk hfn hno (n.length - f.length) (by omega)
    rw [hl] at this
    unfold Nfd.cost
    rw [this]
    rfl
  · intro f hf hfn hno
    have hm : (f, 1) ∈ s.routes := by
      refine hp.mem_iff.2 (List.mem_append_left _ ?_)
      simp only [List.mem_cons, List.not_mem_nil, or_false] at hf
      rcases hf with rfl | rfl <;> simp
    obtain ⟨k, hk⟩ := hrib f 1 hm
    have hl : f.length + (n.length - f.length) = n.length := by have := hfn.length_le; omega
    have := (hop_inherits hme hk (by decide) hfn (fun p h1 h2 h3 => by
      unfold Nfd.captures
      rw [List.any_eq_false]
      intro g hg
      cases hh : rib p g with
      | none => simp
      | some x =>
        obtain ⟨k, fl⟩ := x
        simp [hno p h1 h2 h3 g hg k fl hh]) (n.length - f.length) (by omega)).2
    rw [hl] at this
    exact this

/-! ### Examples -/

/-- The start of the example of C114. -/
def exStart : RegDaemon :=
  init Daemon.exDC (Daemon.init Daemon.exDC none exNbrs [(nm ["a"], .fin 5)] 0 none [⟨exR1 ++ nm ["KEY", "k1", "i", "v1"], none, [1]⟩])

/-- NFD accepts all that is asked for at the start, then the events of C114 happen, in which a certificate is published. -/
def exOps : List Op := List.replicate 8 (.answer 0 true) ++ Daemon.exEvents.map .event

/-- The routes of NFD: those accepted, with cost 0 over face 1, and one that NLSR has put in for a name that the router r3
advertises. -/
def exRib (l : List (Name × Nat)) (more : Name) : Nfd.Routes := fun n g =>
  if g = 1 then (l.find? (fun r => r.1 == n)).map (fun r => (0, r.2))
  else if g = 300 ∧ n = more then some (10, 1) else none

/-- The daemon after these events and one more answer. -/
def exReg (ok : Bool) : RegDaemon := run Daemon.exDC exStart (exOps ++ [.answer 0 ok])

theorem exReg_reachable (ok : Bool) : Reachable Daemon.exDC (exReg ok) := ⟨none, exNbrs, _, 0, none, _, _, rfl⟩

/-- The name of a hello interest that r2 sends to r1. -/
def exHello : Name := exR1 ++ nm ["nlsr", "INFO"] ++ [⟨8, Tlv.encName exR2⟩]

/-- A request for the dataset of Name LSAs. -/
def exSet : Name := exR1 ++ nm ["nlsr", "lsdb", "names"]

theorem exReg_state : (exReg true).ended = false ∧ (exReg true).waiting = [] ∧ (exReg true).routes.length = 9 ∧
    (∀ r ∈ (exReg true).routes, ∀ x ∈ [nm ["other"], exHello, exSet], exRib (exReg true).routes x r.1 1 = some (0, r.2)) ∧
    Nfd.cost [1, 300] (exRib (exReg true).routes (nm ["other"])) exHello 1 = some 0 ∧
    Nfd.cost [1, 300] (exRib (exReg true).routes exSet) exSet 1 = some 0 ∧
    Nfd.cost [1, 300] (exRib (exReg true).routes exHello) exHello 1 = none ∧
    Nfd.cost [1, 300] (exRib (exReg true).routes exHello) exHello 300 = some 10 := by decide +kernel

example : Reachable Daemon.exDC (exReg true) ∧ (exReg true).refusal = false ∧ (exReg true).ended = false ∧ (exReg true).waiting = [] ∧
    (exReg true).routes.length = 9 := ⟨exReg_reachable true, by decide +kernel, exReg_state.1, exReg_state.2.1, exReg_state.2.2.1⟩

/-- The hypotheses of `C121_early` for the hello interest at the start. -/
example : (∀ f, f <+: exHello → (f, 2) ∉ exStart.routes) ∧
    (∀ t ∈ [Daemon.exDC.r.lsdb.router ++ nm ["nlsr"], nm ["localhost", "nlsr"]], ∀ w ∈ ["prefix-update", "rib", "lsdb", "routing-table"],
      ¬ t ++ nm [w] <+: exHello) ∧ ¬ Daemon.exDC.r.syncPrefix <+: exHello ∧ exStart.waiting.length = 8 :=
  ⟨fun f _ h => (nomatch h), by decide +kernel, by decide +kernel, by decide +kernel⟩

theorem exHolds {x : Name} (hx : x ∈ [nm ["other"], exHello, exSet]) :
    Holds (exReg true) (exRib (exReg true).routes x) 1 :=
  fun f fl hf => ⟨0, exReg_state.2.2.2.1 (f, fl) hf x hx⟩

/-- The hypotheses of `C121_delivered_partial` hold for a dataset although a route for the very name, over another face, is there. -/
example : Holds (exReg true) (exRib (exReg true).routes exSet) 1 ∧ exRib (exReg true).routes exSet exSet 300 = some (10, 1) :=
  ⟨exHolds (by simp), by decide +kernel⟩

/-- C121 is violated: "when NFD has accepted all that the daemon asked for, it sends the daemon its hello interests".  The
registration of the hello prefix captures and is not inherited (src/hello-protocol.cpp:62), so a route for a longer name takes
the interests away, and NLSR puts in a route for every name that another router advertises: if r3 advertises
/net/site/r1/nlsr/INFO/⟨r2⟩, the hello interests that r2 sends to r1 are forwarded by r1's NFD to r3 and the daemon of r1 never sees
them. -/
theorem C121_violated_taken : ¬ ∀ (c : DConf) (s : RegDaemon) (faces : List Nat) (rib : Nfd.Routes) (me : Nat) (n : Name),
    Reachable c s → s.ended = false → s.waiting = [] → me ∈ faces → Holds s rib me →
    c.r.lsdb.router ++ nm ["nlsr", "INFO"] <+: n → (Nfd.cost faces rib n me).isSome = true := by
  intro h
  have := h Daemon.exDC (exReg true) [1, 300] (exRib (exReg true).routes exHello) 1 exHello (exReg_reachable true)
    exReg_state.1 exReg_state.2.1 (by simp) (exHolds (by simp)) (by decide +kernel)
  rw [exReg_state.2.2.2.2.2.2.1] at this
  cases this

/-- C121 is violated: "a daemon that NFD has given all it asked for at the start goes on".  For each certificate that comes with
the LSA of another router a further prefix is asked for (src/security/certificate-store.cpp:177), at any later time, and if
NFD refuses or does not answer in time the exception of `registrationFailed` (src/security/certificate-store.cpp:164) ends the
daemon.  In the witness all eight prefixes of the start are accepted, the daemon runs, a segment of r2 is validated, and the
one registration that follows from it is refused. -/
theorem C121_violated_later : ¬ ∀ (c : DConf) (s : RegDaemon) (op : Daemon.Op) (i : Nat) (ok : Bool),
    Reachable c s → s.ended = false → s.waiting = [] → (Daemon.step c s.d op).ended = false →
    (run c s [.event op, .answer i ok]).ended = false := by
  intro h
  have hk : let s := run Daemon.exDC exStart (List.replicate 8 (.answer 0 true) ++ exUp.map (fun o => .event (.router o)))
      let op : Daemon.Op := .segment (fun n => if n = exR2 ++ nm ["nlsr", "KEY", "k2"] then some Daemon.exCertR2 else none)
        (some (exR2 ++ nm ["nlsr", "KEY", "k2"]))
      s.ended = false ∧ s.waiting = [] ∧ (Daemon.step Daemon.exDC s.d op).ended = false ∧
      (run Daemon.exDC s [.event op, .answer 0 false]).ended = true := by decide +kernel
  have := h Daemon.exDC _ _ 0 false ⟨none, exNbrs, _, 0, none, _, _, rfl⟩ hk.1 hk.2.1 hk.2.2.1
  exact Bool.noConfusion (hk.2.2.2.symm.trans this)

end RegDaemon
end Nlsr
