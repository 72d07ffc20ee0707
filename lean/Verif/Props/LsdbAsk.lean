import Verif.Props.LsdbFetch
import Verif.Props.LsdbInterest
import Verif.Props.Names
import Verif.Lemmas.LsdbSeq
/- C87: LSAs that others report are asked for until they come. -/
namespace Nlsr
open Lsdb

/-- Another router of the network.  (About the names see C57.) -/
structure Peer (c : LConf) (r : RouterConf) : Prop where
  network : r.network = c.names.network
  other : r.routerPrefix ≠ c.router
  nlsr : Comp.str "nlsr" ∉ r.network
  lsa : Comp.str "LSA" ∉ r.network
  short : r.network.length + r.site.length + r.router.length < 2 ^ 61

/-- Routing in this mode uses LSAs of the type. -/
def Used (c : LConf) (t : LsaType) : Prop :=
  t = .name ∨ (t = .adjacency ∧ c.hyp ≠ .on) ∨ (t = .coordinate ∧ c.hyp ≠ .off)

/-- No LSA of this origin and type with this number or a higher one is stored. -/
def Newer (s : Lsdb) (r : Name) (t : LsaType) (k : Nat) : Prop :=
  ∀ o ∈ s.db, o.lsa.origin = r → o.lsa.type = t → o.lsa.seq < k

theorem newer_iff {c : LConf} {s : Lsdb} (h : Reachable c s) {r : Name} {t : LsaType} {k : Nat} :
    s.isLsaNew r t k = true ↔ Newer s r t k := by
  unfold Newer isLsaNew
  constructor
  · intro hn o ho h1 h2
    have := find_of_mem h.inv ho
    rw [h1, h2] at this
    rw [this] at hn
    exact of_decide_eq_true hn
  · intro hn
    cases hf : s.find r t with
    | none => rfl
    | some o =>
      obtain ⟨h1, h2, h3⟩ := find_some hf
      exact decide_eq_true (hn o h1 h2 h3)

theorem sync_peer {c : LConf} {r : RouterConf} (hr : Peer c r) (s : Lsdb) (t : LsaType) (k : Nat) (hk : k < 2 ^ 64) :
    step c s (.sync (r.lsaUserPrefix t) k) = processUpdate c s (r.lsaUserPrefix t) k r.routerPrefix t := by
  show sync c s _ _ = _
  unfold sync
  have h1 := C57_sync_origin_partial r t (by have := hr.short; unfold Fits; omega) hr.nlsr hr.lsa
  have h2 : (r.lsaUserPrefix t).fromEnd 1 = some (Comp.str t.text) := by simp [RouterConf.lsaUserPrefix, Name.fromEnd]
  rw [h1, h2]
  dsimp only
  rw [LsaType.ofComp_text, Nat.mod_eq_of_lt hk]

theorem notFetched_iff (c : LConf) (t : LsaType) (ht : t ≠ .base) (k : Nat) :
    notFetched c.hyp t k = true ↔ ¬ Used c t ∧ k ≠ 0 := by
  unfold notFetched Used
  cases t <;> cases c.hyp <;> simp_all

/-- When sync reports an LSA of another router: (1) if routing uses the type, the number is newer than that of the LSA
stored, and no higher number was reported, the LSA is asked for under this number, with two hours to answer; (2) if
it is not newer, or of a type that is not used, nothing happens; (3) if a higher number was reported, nothing is
asked for. -/
theorem C87_asked {c : LConf} {s : Lsdb} (h : Reachable c s) {r : RouterConf} (hr : Peer c r) (t : LsaType)
    (ht : t ≠ .base) (k : Nat) (hk : k < 2 ^ 64) :
    (Used c t → Newer s r.routerPrefix t k → (∀ n, s.highestOf (r.lsaUserPrefix t) = some n → n ≤ k) →
      (step c s (.sync (r.lsaUserPrefix t) k)).log =
        s.log ++ [.newLsa (r.lsaUserPrefix t) k r.routerPrefix, .interest (r.lsaUserPrefix t) k] ∧
      (step c s (.sync (r.lsaUserPrefix t) k)).fetches = s.fetches ++ [⟨r.lsaUserPrefix t, k, s.now + 7200 * 1000000000⟩]) ∧
    (¬ Newer s r.routerPrefix t k ∨ (¬ Used c t ∧ k ≠ 0) → step c s (.sync (r.lsaUserPrefix t) k) = s) ∧
    ((∃ n, s.highestOf (r.lsaUserPrefix t) = some n ∧ k < n) →
      (step c s (.sync (r.lsaUserPrefix t) k)).fetches = s.fetches ∧
      ∀ u n, .interest u n ∈ (step c s (.sync (r.lsaUserPrefix t) k)).log → .interest u n ∈ s.log) := by
  rw [sync_peer hr s t k hk]
  unfold processUpdate
  rw [if_neg hr.other]
  refine ⟨?_, ?_, ?_⟩
  · intro hu hn hh
    rw [if_pos ((newer_iff h).2 hn), if_neg (fun e => ((notFetched_iff c t ht k).1 e).1 hu)]
    unfold expressInterest
    rcases noteSeq_spec (s.emit (.newLsa (r.lsaUserPrefix t) k r.routerPrefix)) (r.lsaUserPrefix t) k with
      ⟨s1, h0, h1, h2, h3, h4, h5, h6, h7, h8⟩ | ⟨h0, n, h1, h2⟩
    · rw [h0]
      refine ⟨?_, ?_⟩
      · show s1.log ++ _ = _
        rw [h6]
        show (s.log ++ [_]) ++ [_] = _
        rw [List.append_assoc]
        rfl
      · show s1.fetches ++ _ = _
        rw [h4]
        rfl
    · exact absurd (hh n h1) (by omega)
  · rintro (hn | hn)
    · rw [if_neg (fun e => hn ((newer_iff h).1 e))]
    · split
      · rw [if_pos ((notFetched_iff c t ht k).2 hn)]
      · rfl
  · rintro ⟨n, h1, h2⟩
    split
    · split
      · exact ⟨rfl, fun u n h => h⟩
      · unfold expressInterest
        rcases noteSeq_spec (s.emit (.newLsa (r.lsaUserPrefix t) k r.routerPrefix)) (r.lsaUserPrefix t) k with
          ⟨s1, h0, h3, -⟩ | ⟨h0, -⟩
        · exact absurd (h3 n h1) (by omega)
        · rw [h0]
          refine ⟨rfl, fun u n hm => ?_⟩
          rcases List.mem_append.1 hm with hm | hm
          · exact hm
          · simp at hm
    · exact ⟨rfl, fun u n h => h⟩

/-- The request is on its way, or waits to be sent again. -/
def Asking (s : Lsdb) (f : Fetch) : Prop := f ∈ s.fetches ∨ ∃ due, (due, f) ∈ s.retries

/-- Why a request is given up in a step: it was answered; it failed after its deadline; a higher number was reported. -/
inductive GivenUp (s : Lsdb) (f : Fetch) (op : Lsdb.Op) : Prop
  | answered (i : Nat) (p : Option Lsa) (h : s.fetches[i]? = some f) (e : op = .fetched i p)
  | late (i : Nat) (t : Bool) (h : s.fetches[i]? = some f) (e : op = .fetchError i t) (hd : f.deadline ≤ s.now)
  | superseded (n : Nat) (h : s.highestOf f.lsaName = some n) (hn : f.seq < n)

theorem highestOf_congr {s s' : Lsdb} (h : s'.highest = s.highest) (n : Name) : s'.highestOf n = s.highestOf n := by
  unfold highestOf; rw [h]

theorem mem_or_eraseIdx {α : Type} {l : List α} {x : α} (h : x ∈ l) (i : Nat) : x ∈ l.eraseIdx i ∨ l[i]? = some x := by
  induction l generalizing i with
  | nil => cases h
  | cons a l ih =>
    cases i with
    | zero =>
      rcases List.mem_cons.1 h with rfl | h
      · exact Or.inr rfl
      · exact Or.inl h
    | succ i =>
      rcases List.mem_cons.1 h with rfl | h
      · exact Or.inl List.mem_cons_self
      · rcases ih h i with h1 | h1
        · exact Or.inl (List.mem_cons_of_mem _ h1)
        · exact Or.inr h1

/-- The number of a request is at most the highest one known. -/
def Below (s : Lsdb) : Prop := ∀ f, Asking s f → ∃ n, s.highestOf f.lsaName = some n ∧ f.seq ≤ n

theorem express_asking (s : Lsdb) (n : Name) (k d : Nat) {f : Fetch} (h : Asking (expressInterest s n k d) f) :
    Asking s f ∨ (f = ⟨n, k, d⟩ ∧ (expressInterest s n k d).highestOf n = some k) := by
  unfold expressInterest at h ⊢
  rcases noteSeq_spec s n k with ⟨s1, h0, h1, h2, h3, h4, h5, h6, h7, h8⟩ | ⟨h0, -⟩
  · rw [h0] at h ⊢
    rcases h with h | ⟨due, h⟩
    · rcases List.mem_append.1 h with h | h
      · exact Or.inl (Or.inl (h4 ▸ h))
      · exact Or.inr ⟨List.mem_singleton.1 h, h2⟩
    · exact Or.inl (Or.inr ⟨due, h5 ▸ h⟩)
  · rw [h0] at h
    exact Or.inl h

theorem afterFetch_lists (c : LConf) (s : Lsdb) (f : Fetch) (p : Option Lsa) :
    (afterFetch c s f p).fetches = s.fetches ∧ (afterFetch c s f p).retries = s.retries := by
  unfold afterFetch
  rcases noteSeq_spec s f.lsaName f.seq with ⟨s1, h0, h1, h2, h3, h4, h5, h6, h7, h8⟩ | ⟨h0, -⟩
  · rw [h0]
    dsimp only
    split
    · exact ⟨h4, h5⟩
    · split
      · exact ⟨h4, h5⟩
      · unfold installFetched
        split
        · exact ⟨h4, h5⟩
        · split
          · exact ⟨(installLsa_sig c _ _).fetches.trans h4, (installLsa_sig c _ _).retries.trans h5⟩
          · exact ⟨h4, h5⟩
  · rw [h0]; exact ⟨rfl, rfl⟩

/-- The steps that have to do with requests. -/
def asksOp : Lsdb.Op → Bool
  | .sync .. | .fetched .. | .fetchError .. | .retryTimer .. => true
  | _ => false

theorem step_lists (c : LConf) (s : Lsdb) (op : Lsdb.Op) (h : asksOp op = false) :
    (step c s op).fetches = s.fetches ∧ (step c s op).retries = s.retries := by
  have of : ∀ {s' : Lsdb}, NF s s' → s'.fetches = s.fetches ∧ s'.retries = s.retries := fun h => ⟨h.fetches, h.retries⟩
  cases op with
  | clock dt sys => exact ⟨rfl, rfl⟩
  | setAdjs l => exact ⟨rfl, rfl⟩
  | setNpl l => exact ⟨rfl, rfl⟩
  | buildName => exact of (buildName_nf c s)
  | scheduleBuild =>
    show (scheduleBuild c s).fetches = _ ∧ (scheduleBuild c s).retries = _
    unfold scheduleBuild
    dsimp only
    split <;> exact ⟨rfl, rfl⟩
  | buildTimer => exact of (buildTimer_nf c s)
  | timer eid => exact of (fire_nf c s eid)
  | segment n => exact ⟨rfl, rfl⟩
  | segmentGone n => exact ⟨rfl, rfl⟩
  | fifoGone n => exact ⟨rfl, rfl⟩
  | interest n v =>
    show (if n.length ≤ maxComponents then s.processInterest c n v else s).fetches = _ ∧
      (if n.length ≤ maxComponents then s.processInterest c n v else s).retries = _
    split
    · exact of (processInterest_nf c s n v)
    · exact ⟨rfl, rfl⟩
  | sync n k => cases h
  | fetched i p => cases h
  | fetchError i t => cases h
  | retryTimer i => cases h

/-- What a step does to the requests. -/
theorem asking_step (c : LConf) (s : Lsdb) (op : Lsdb.Op) {f : Fetch} (h : Asking (step c s op) f) :
    Asking s f ∨ (step c s op).highestOf f.lsaName = some f.seq := by
  by_cases ho : asksOp op = false
  · obtain ⟨h1, h2⟩ := step_lists c s op ho
    unfold Asking at h ⊢
    rw [h1, h2] at h
    exact Or.inl h
  · cases op with
    | sync u k =>
      change Asking (sync c s u _) f at h
      change _ ∨ (sync c s u _).highestOf _ = _
      unfold sync at h ⊢
      split at h
      · unfold processUpdate at h ⊢
        split at h
        · split at h
          · have := ownUpdate_nf c s (LsaType.ofComp (by assumption)) (k % 18446744073709551616)
            unfold Asking at h ⊢
            rw [this.fetches, this.retries] at h
            exact Or.inl h
          · exact Or.inl h
        · split at h
          · split at h
            · exact Or.inl h
            · rename_i h1 h2 h3 h4
              rcases express_asking _ _ _ _ h with h5 | ⟨rfl, h6⟩
              · exact Or.inl h5
              · right
                rw [if_neg h2, if_pos h3, if_neg h4]
                exact h6
          · exact Or.inl h
      · exact Or.inl h
    | fetched i p =>
      change Asking (fetched c s i p) f at h
      unfold fetched at h
      split at h
      · exact Or.inl h
      · unfold fetchDone at h
        unfold Asking at h
        rw [(afterFetch_lists _ _ _ _).1, (afterFetch_lists _ _ _ _).2] at h
        rcases h with h | h
        · exact Or.inl (Or.inl (List.mem_of_mem_eraseIdx h))
        · exact Or.inl (Or.inr h)
    | fetchError i t =>
      change Asking (fetchError c s i t) f at h
      unfold fetchError at h
      split at h
      · exact Or.inl h
      · rename_i g hg
        unfold fetchFailed at h
        split at h
        · rcases h with h | ⟨due, h⟩
          · exact Or.inl (Or.inl (List.mem_of_mem_eraseIdx h))
          · rcases List.mem_append.1 h with h | h
            · exact Or.inl (Or.inr ⟨due, h⟩)
            · have := List.mem_singleton.1 h
              injection this with h1 h2
              subst h2
              exact Or.inl (Or.inl (List.mem_of_getElem? hg))
        · rcases h with h | h
          · exact Or.inl (Or.inl (List.mem_of_mem_eraseIdx h))
          · exact Or.inl (Or.inr h)
    | retryTimer i =>
      change Asking (retryTimer s i) f at h
      unfold retryTimer at h
      split at h
      · exact Or.inl h
      · rename_i due g hg
        split at h
        · exact Or.inl h
        · rcases express_asking _ _ _ _ h with h1 | ⟨rfl, -⟩
          · rcases h1 with h1 | ⟨d, h1⟩
            · exact Or.inl (Or.inl h1)
            · exact Or.inl (Or.inr ⟨d, List.mem_of_mem_eraseIdx h1⟩)
          · exact Or.inl (Or.inr ⟨due, List.mem_of_getElem? hg⟩)
    | _ => exact absurd rfl ho

theorem below_reachable {c : LConf} {s : Lsdb} (h : Reachable c s) : Below s := by
  refine Reachable.induct_step (P := Below) ?_ ?_ h
  · intro disk adjs npl sys f hf
    have hk : (init c disk adjs npl sys).fetches = [] ∧ (init c disk adjs npl sys).retries = [] := by
      unfold init
      dsimp only
      have h1 := buildName_nf c (boot c disk adjs npl sys)
      split
      · exact ⟨h1.fetches, h1.retries⟩
      · have h2 := h1.trans (buildCoord_nf c _)
        exact ⟨h2.fetches, h2.retries⟩
    unfold Asking at hf
    rw [hk.1, hk.2] at hf
    rcases hf with hf | ⟨_, hf⟩ <;> cases hf
  · intro s op _ ih f hf
    rcases asking_step c s op hf with h1 | h1
    · obtain ⟨n, h2, h3⟩ := ih f h1
      obtain ⟨n', h4, h5⟩ := (step_fetchStep c s op).mono _ _ h2
      exact ⟨n', h4, Nat.le_trans h3 h5⟩
    · exact ⟨_, h1, Nat.le_refl _⟩

theorem express_keeps (s : Lsdb) (n : Name) (k d : Nat) {f : Fetch} (h : Asking s f) : Asking (expressInterest s n k d) f := by
  unfold expressInterest
  rcases noteSeq_spec s n k with ⟨s1, h0, h1, h2, h3, h4, h5, h6, h7, h8⟩ | ⟨h0, -⟩
  · rw [h0]
    rcases h with h | ⟨due, h⟩
    · exact Or.inl (List.mem_append_left _ (h4 ▸ h))
    · exact Or.inr ⟨due, h5 ▸ h⟩
  · rw [h0]; exact h

/-- A request is only given up when it is answered, when it fails after two hours, or when a higher number was
reported. -/
theorem C87_kept {c : LConf} {s : Lsdb} (h : Reachable c s) {f : Fetch} (hf : Asking s f) (op : Lsdb.Op) :
    Asking (step c s op) f ∨ GivenUp s f op := by
  have hb := below_reachable h f hf
  by_cases ho : asksOp op = false
  · obtain ⟨h1, h2⟩ := step_lists c s op ho
    unfold Asking at hf ⊢
    rw [h1, h2]
    exact Or.inl hf
  · cases op with
    | sync u k =>
      left
      change Asking (sync c s u _) f
      unfold sync
      split
      · unfold processUpdate
        split
        · split
          · have := ownUpdate_nf c s (LsaType.ofComp (by assumption)) (k % 18446744073709551616)
            unfold Asking at hf ⊢
            rw [this.fetches, this.retries]
            exact hf
          · exact hf
        · split
          · split
            · exact hf
            · exact express_keeps _ _ _ _ hf
          · exact hf
      · exact hf
    | fetched i p =>
      rcases hf with hf | hf
      · rcases mem_or_eraseIdx hf i with h1 | h1
        · left
          change Asking (fetched c s i p) f
          unfold fetched
          split
          · exact Or.inl hf
          · unfold fetchDone Asking
            rw [(afterFetch_lists _ _ _ _).1, (afterFetch_lists _ _ _ _).2]
            exact Or.inl h1
        · exact Or.inr (.answered i p h1 rfl)
      · left
        change Asking (fetched c s i p) f
        unfold fetched
        split
        · exact Or.inr hf
        · unfold fetchDone Asking
          rw [(afterFetch_lists _ _ _ _).1, (afterFetch_lists _ _ _ _).2]
          exact Or.inr hf
    | fetchError i t =>
      change Asking (fetchError c s i t) f ∨ _
      unfold fetchError
      rcases hf with hf | ⟨due, hf⟩
      · rcases mem_or_eraseIdx hf i with h1 | h1
        · left
          split
          · exact Or.inl hf
          · unfold fetchFailed
            split <;> exact Or.inl h1
        · rw [h1]
          dsimp only
          unfold fetchFailed
          split
          · exact Or.inl (Or.inr ⟨_, List.mem_append_right _ List.mem_cons_self⟩)
          · rename_i hn
            right
            obtain ⟨n, h2, h3⟩ := hb
            by_cases hd : f.deadline ≤ s.now
            · exact .late i t h1 rfl hd
            · refine .superseded n h2 ?_
              have : n ≠ f.seq := fun e => hn ⟨Nat.not_le.1 hd, e ▸ h2⟩
              omega
      · left
        split
        · exact Or.inr ⟨due, hf⟩
        · unfold fetchFailed
          split
          · exact Or.inr ⟨due, List.mem_append_left _ hf⟩
          · exact Or.inr ⟨due, hf⟩
    | retryTimer i =>
      change Asking (retryTimer s i) f ∨ _
      unfold retryTimer
      split
      · exact Or.inl hf
      · rename_i due g hg
        split
        · exact Or.inl hf
        · rcases hf with hf | ⟨d, hf⟩
          · exact Or.inl (express_keeps _ _ _ _ (Or.inl hf))
          · rcases mem_or_eraseIdx hf i with h1 | h1
            · exact Or.inl (express_keeps _ _ _ _ (Or.inr ⟨d, h1⟩))
            · rw [hg] at h1
              injection h1 with h1
              injection h1 with h1 h2
              subst h2
              rcases noteSeq_spec { s with retries := s.retries.eraseIdx i } g.lsaName g.seq with
                ⟨s1, h0, -⟩ | ⟨h0, n, h3, h4⟩
              · left
                unfold expressInterest
                rw [h0]
                exact Or.inl (List.mem_append_right _ List.mem_cons_self)
              · exact Or.inr (.superseded n h3 h4)
    | _ => exact absurd rfl ho

/-- The same over any number of steps. -/
theorem C87_until {c : LConf} {s : Lsdb} (h : Reachable c s) {f : Fetch} (hf : Asking s f) (ops : List Lsdb.Op) :
    Asking (run c s ops) f ∨ ∃ pre op post, ops = pre ++ op :: post ∧ Asking (run c s pre) f ∧ GivenUp (run c s pre) f op := by
  induction ops generalizing s with
  | nil => exact Or.inl hf
  | cons op ops ih =>
    rcases C87_kept h hf op with h1 | h1
    · rcases ih (h.step op) h1 with h2 | ⟨pre, o, post, rfl, h3, h4⟩
      · exact Or.inl h2
      · exact Or.inr ⟨op :: pre, o, post, rfl, h3, h4⟩
    · exact Or.inr ⟨[], op, ops, rfl, hf, h1⟩

theorem fetched_peer {c : LConf} {r : RouterConf} (hr : Peer c r) {s : Lsdb} {i : Nat} {t : LsaType} {k d : Nat}
    (hi : s.fetches[i]? = some ⟨r.lsaUserPrefix t, k, d⟩) (hh : ∀ n, s.highestOf (r.lsaUserPrefix t) = some n → n ≤ k)
    (p : Option Lsa) : ∃ s1 : Lsdb, s1.db = s.db ∧ step c s (.fetched i p) = installFetched c s1 r.routerPrefix t k
      (p.map (fun l => { l with seq := l.seq % 18446744073709551616, content := l.content.norm })) := by
  show ∃ s1 : Lsdb, s1.db = s.db ∧ fetched c s i p = _
  unfold fetched
  rw [hi]
  dsimp only
  unfold fetchDone
  dsimp only
  generalize hs0 : ({ s with
      storage := List.filter (fun n => !Name.isPrefixOf
        (r.lsaUserPrefix t ++ [Comp.number ((k + 18446744073709551615) % 18446744073709551616)]) n) s.storage
      fetches := s.fetches.eraseIdx i } : Lsdb) = s0
  have hh0 : s0.highestOf (r.lsaUserPrefix t) = s.highestOf (r.lsaUserPrefix t) := by rw [← hs0]; rfl
  have hd0 : s0.db = s.db := by rw [← hs0]
  unfold afterFetch
  dsimp only
  rcases noteSeq_spec s0 (r.lsaUserPrefix t) k with ⟨s1, h0, h1, h2, h3, h4, h5, h6, h7, h8⟩ | ⟨h0, n, h1, h2⟩
  · refine ⟨s1, h7.trans hd0, ?_⟩
    rw [h0]
    dsimp only
    have e : r.lsaUserPrefix t ++ [Comp.number k] = r.lsaPrefix ++ (r.site ++ r.router ++ [Comp.str t.text, Comp.number k]) := by
      simp [RouterConf.lsaUserPrefix, RouterConf.syncUserPrefix]
    have hlen : r.network.length + (r.site ++ r.router ++ [Comp.str t.text, Comp.number k]).length < 2 ^ 62 := by
      have := hr.short
      simp only [List.length_append, List.length_cons, List.length_nil]
      omega
    have horg := interestOrigin_tail r hr.lsa (r.site ++ r.router ++ [Comp.str t.text, Comp.number k]) hlen
    have hpos := position_lsa r hr.lsa (r.site ++ r.router ++ [Comp.str t.text, Comp.number k])
    rw [e]
    rw [if_neg (by rw [hpos]; omega)]
    have e2 : r.lsaPrefix ++ (r.site ++ r.router ++ [Comp.str t.text, Comp.number k]) =
        (r.lsaPrefix ++ (r.site ++ r.router)) ++ [Comp.str t.text, Comp.number k] := by simp
    rw [show (r.lsaPrefix ++ (r.site ++ r.router ++ [Comp.str t.text, Comp.number k])).fromEnd 2 = some (Comp.str t.text) by
      rw [e2, fromEnd_2]]
    dsimp only
    rw [LsaType.ofComp_text, ← hr.network, horg]
    have e3 : r.network ++ (if (r.site ++ r.router ++ [Comp.str t.text, Comp.number k]).length = 1 then
        (r.site ++ r.router ++ [Comp.str t.text, Comp.number k]) else
        (r.site ++ r.router ++ [Comp.str t.text, Comp.number k]).take
          ((r.site ++ r.router ++ [Comp.str t.text, Comp.number k]).length - 2)) = r.routerPrefix := by
      rw [if_neg (by simp only [List.length_append, List.length_cons, List.length_nil]; omega)]
      have : (r.site ++ r.router ++ [Comp.str t.text, Comp.number k]).length - 2 = (r.site ++ r.router).length := by
        simp only [List.length_append, List.length_cons, List.length_nil]; omega
      rw [this, List.take_left]
      simp [RouterConf.routerPrefix]
    rw [e3]
  · exact absurd (hh n (hh0 ▸ h1)) (by omega)

/-- The answer to a request is installed if it is an LSA of the router, the type and the number asked for that is
still newer than what is stored and no higher number was reported. -/
theorem C87_installed {c : LConf} {s : Lsdb} (h : Reachable c s) {r : RouterConf} (hr : Peer c r) {i : Nat} {t : LsaType}
    (ht : t ≠ .base) {k d : Nat} (hk : k < 2 ^ 64) (hi : s.fetches[i]? = some ⟨r.lsaUserPrefix t, k, d⟩)
    (hh : ∀ n, s.highestOf (r.lsaUserPrefix t) = some n → n ≤ k) (hn : Newer s r.routerPrefix t k) (l : Lsa)
    (h1 : l.origin = r.routerPrefix) (h2 : l.type = t) (h3 : l.seq = k) :
    ∃ o ∈ (step c s (.fetched i (some l))).db, o.lsa.origin = r.routerPrefix ∧ o.lsa.type = t ∧ o.lsa.seq = k ∧
      ((∀ o ∈ s.db, ¬ (o.lsa.origin = r.routerPrefix ∧ o.lsa.type = t)) → o.lsa.content = l.content.norm) := by
  obtain ⟨s1, hd, e⟩ := fetched_peer (c := c) hr hi hh (some l)
  have hfind : ∀ x y, s1.find x y = s.find x y := fun x y => by unfold find; rw [hd]
  have hnew : s1.isLsaNew r.routerPrefix t k = true := by
    have := (newer_iff h).2 hn
    unfold isLsaNew at this ⊢
    rw [hfind]; exact this
  have hty : ({ l with seq := l.seq % 18446744073709551616, content := l.content.norm } : Lsa).type = t := by
    rw [← h2]
    show l.content.norm.type = l.content.type
    cases l.content <;> rfl
  rw [e]
  unfold installFetched
  dsimp only [Option.map]
  rw [if_pos ⟨ht, hty, hnew⟩]
  unfold installLsa
  dsimp only
  rw [hty, h1, hfind]
  cases hf : s.find r.routerPrefix t with
  | none =>
    refine ⟨⟨s1.nextId, _, s1.nextId + 1⟩, List.mem_append_right _ List.mem_cons_self, rfl, hty, ?_, fun _ => rfl⟩
    show l.seq % 18446744073709551616 = k
    rw [h3]; exact Nat.mod_eq_of_lt hk
  | some o =>
    obtain ⟨g1, g2, g3⟩ := find_some hf
    have hlt := hn o g1 g2 g3
    have hm : l.seq % 18446744073709551616 = k := by rw [h3]; exact Nat.mod_eq_of_lt hk
    dsimp only
    rw [hm, if_pos hlt]
    have hob : ∀ (q : Obj), q.oid = o.oid → q ∈ setObj s1.db q := by
      intro q hq
      unfold setObj
      rw [hd]
      refine List.mem_map.2 ⟨o, g1, ?_⟩
      simp [hq]
    have hmem : ∀ (s2 : Lsdb) (b : Bool) (x : Out) (q : Obj), q ∈ s2.db → q ∈ (if b then s2.emit x else s2).db := by
      intro s2 b x q hq
      cases b <;> exact hq
    unfold installUpdate
    dsimp only
    refine ⟨⟨o.oid, ⟨o.lsa.origin, k, l.exp, (o.lsa.content.update l.content.norm).content⟩, s1.nextId⟩,
      hmem _ _ _ _ (hob _ rfl), g2, ?_, rfl, fun hno => absurd ⟨g2, g3⟩ (hno o g1)⟩
    show Content.type _ = t
    rw [Content.update_type]
    exact g3

/-- Data that answers a request for an LSA that was stored in the meantime, with this number or a higher one, changes
no stored LSA, whatever it holds. -/
theorem C87_not_newer {c : LConf} {s : Lsdb} (h : Reachable c s) {r : RouterConf} (hr : Peer c r) {i : Nat} {t : LsaType}
    {k d : Nat} (hi : s.fetches[i]? = some ⟨r.lsaUserPrefix t, k, d⟩) (hn : ¬ Newer s r.routerPrefix t k) (p : Option Lsa) :
    (step c s (.fetched i p)).db = s.db := by
  by_cases hh : ∀ n, s.highestOf (r.lsaUserPrefix t) = some n → n ≤ k
  · obtain ⟨s1, hd, e⟩ := fetched_peer (c := c) hr hi hh p
    rw [e]
    unfold installFetched
    split
    · exact hd
    · split
      · rename_i hc
        have : s1.isLsaNew r.routerPrefix t k = s.isLsaNew r.routerPrefix t k := by
          unfold isLsaNew find; rw [hd]
        exact absurd ((newer_iff h).1 (this ▸ hc.2.2)) hn
      · exact hd
  · have : ∃ n, s.highestOf (r.lsaUserPrefix t) = some n ∧ k < n := by
      refine Classical.byContradiction fun hc => hh fun n hn => ?_
      exact Nat.not_lt.1 fun hlt => hc ⟨n, hn, hlt⟩
    obtain ⟨n, h1, h2⟩ := this
    exact (C32_outdated_data c s i p _ n hi h1 h2).1

/-- Data that answers a request but is no LSA, or an LSA of another type than the one asked for, changes no stored
LSA, whatever its number. -/
theorem C87_other_type {c : LConf} {s : Lsdb} {r : RouterConf} (hr : Peer c r) {i : Nat} {t : LsaType}
    {k d : Nat} (hi : s.fetches[i]? = some ⟨r.lsaUserPrefix t, k, d⟩) (p : Option Lsa) (hp : ∀ l, p = some l → l.type ≠ t) :
    (step c s (.fetched i p)).db = s.db := by
  by_cases hh : ∀ n, s.highestOf (r.lsaUserPrefix t) = some n → n ≤ k
  · obtain ⟨s1, hd, e⟩ := fetched_peer (c := c) hr hi hh p
    rw [e]
    unfold installFetched
    cases p with
    | none => exact hd
    | some l =>
      dsimp only [Option.map]
      have hty : ({ l with seq := l.seq % 18446744073709551616, content := l.content.norm } : Lsa).type = l.type := by
        show l.content.norm.type = l.content.type
        cases l.content <;> rfl
      rw [if_neg (fun hc => hp l rfl (hty.symm.trans hc.2.1))]
      exact hd
  · have : ∃ n, s.highestOf (r.lsaUserPrefix t) = some n ∧ k < n := by
      refine Classical.byContradiction fun hc => hh fun n hn => ?_
      exact Nat.not_lt.1 fun hlt => hc ⟨n, hn, hlt⟩
    obtain ⟨n, h1, h2⟩ := this
    exact (C32_outdated_data c s i p _ n hi h1 h2).1

/-! ### Cases -/

/-- Names of the router /net/site/r2. -/
def exPeer2 : RouterConf := ⟨nm ["net"], nm ["site"], nm ["r2"]⟩

theorem exPeer2_peer (h : HypState) : Peer (exConf h) exPeer2 :=
  ⟨rfl, by cases h <;> decide +kernel, by decide +kernel, by decide +kernel, by decide +kernel⟩

/-- Non-vacuity of `C87_asked`: in link-state mode the Adjacency LSA with number 4 is asked for; the coordinates are
not; with hyperbolic routing it is the other way round; a lower number is not asked for afterwards. -/
example :
    let ask := fun (h : HypState) (t : LsaType) =>
      (step (exConf h) (exStart h) (.sync (exPeer2.lsaUserPrefix t) 4)).fetches.map (fun f => (f.seq, f.deadline))
    ask .off .adjacency = [(4, 7200000000000)] ∧ ask .off .coordinate = [] ∧ ask .off .name = [(4, 7200000000000)] ∧
    ask .on .adjacency = [] ∧ ask .on .coordinate = [(4, 7200000000000)] ∧
    ask .dryRun .adjacency = [(4, 7200000000000)] ∧ ask .dryRun .coordinate = [(4, 7200000000000)] ∧
    (run (exConf .off) (exStart .off) [.sync (exPeer2.lsaUserPrefix .name) 4, .sync (exPeer2.lsaUserPrefix .name) 3]).fetches.map
      (·.seq) = [4] := by
  decide +kernel

/-- Non-vacuity of `C87_until` and `C87_installed`: a request fails, is sent again a second later, and is answered. -/
example :
    let u := exPeer2.lsaUserPrefix .adjacency
    let s := fun n => run (exConf .off) (exStart .off) (([.sync u 4, .clock 4000000000 4000000000, .fetchError 0 true,
      .clock 4000000000 8000000000, .retryTimer 0,
      .fetched 0 (some ⟨exR2, 4, 9000000000000, .adj []⟩)] : List Lsdb.Op).take n)
    (s 1).fetches.map (·.seq) = [4] ∧ (s 3).fetches = [] ∧ (s 3).retries.map (·.2.seq) = [4] ∧
    (s 5).fetches.map (·.seq) = [4] ∧ (s 5).retries = [] ∧
    (s 6).fetches = [] ∧ ((s 6).db.map (fun o => (o.lsa.origin, o.lsa.type, o.lsa.seq))).contains (exR2, .adjacency, 4) = true := by
  decide +kernel

/-- Non-vacuity of `C87_not_newer`: the LSA was asked for twice under the number 4; the second answer holds an LSA
with a higher number, and is dropped. -/
example :
    let u := exPeer2.lsaUserPrefix .name
    let s := run (exConf .off) (exStart .off) [.sync u 4, .sync u 4, .fetched 0 (some ⟨exR2, 4, 9000000000000, .names []⟩)]
    s.fetches.map (·.seq) = [4] ∧
    (step (exConf .off) s (.fetched 0 (some ⟨exR2, 9, 9000000000000, .names [⟨nm ["x"], .fin 0⟩]⟩))).db = s.db ∧
    s.db.any (fun o => o.lsa.origin == exR2) = true := by
  decide +kernel

/-- Non-vacuity of `C87_other_type`: the Name LSA with number 4 is asked for; an Adjacency LSA or data that is no LSA
is not stored; the Name LSA is. -/
example :
    let u := exPeer2.lsaUserPrefix .name
    let s := step (exConf .off) (exStart .off) (.sync u 4)
    s.fetches.map (·.seq) = [4] ∧
    (step (exConf .off) s (.fetched 0 (some ⟨exR2, 4, 9000000000000, .adj []⟩))).db = s.db ∧
    (step (exConf .off) s (.fetched 0 none)).db = s.db ∧
    (step (exConf .off) s (.fetched 0 (some ⟨exR2, 4, 9000000000000, .names []⟩))).db ≠ s.db := by
  decide +kernel

/-- The highest number reported is never forgotten: when a router lost its sequence number file and counts from the
start, the others no longer ask for its LSAs, although they hold none of them any more.  Here the LSA with the
number 5 has expired, sync reports the number 2, and nothing is asked for. -/
theorem C87_violated_restart : ∃ (c : LConf) (s : Lsdb) (r : RouterConf), Reachable c s ∧ Peer c r ∧ Used c .name ∧
    (∀ o ∈ s.db, o.lsa.origin ≠ r.routerPrefix) ∧ s.fetches = [] ∧ s.retries = [] ∧ Newer s r.routerPrefix .name 2 ∧
    (step c s (.sync (r.lsaUserPrefix .name) 2)).fetches = [] := by
  refine ⟨exConf .off, run (exConf .off) (exStart .off) ([.sync (exPeer2.lsaUserPrefix .name) 5,
    .fetched 0 (some ⟨exR2, 5, 5000000000, .names []⟩), .clock 100000000000 100000000000] ++
    ((List.range 20).map .timer)), exPeer2, ⟨_, _, _, _, _, rfl⟩, exPeer2_peer _, Or.inl rfl, ?_⟩
  have h : ∀ s : Lsdb, (∀ o ∈ s.db, o.lsa.origin ≠ exPeer2.routerPrefix) → Newer s exPeer2.routerPrefix .name 2 :=
    fun s h o ho h1 => absurd h1 (h o ho)
  have h1 : ∀ o ∈ (run (exConf .off) (exStart .off) ([.sync (exPeer2.lsaUserPrefix .name) 5,
    .fetched 0 (some ⟨exR2, 5, 5000000000, .names []⟩), .clock 100000000000 100000000000] ++
    ((List.range 20).map .timer))).db, o.lsa.origin ≠ exPeer2.routerPrefix := by decide +kernel
  exact ⟨h1, by decide +kernel, by decide +kernel, h _ h1, by decide +kernel⟩

end Nlsr
