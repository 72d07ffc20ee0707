import Verif.Props.LsdbAsk
import Verif.Props.Lsdb
/- A reported LSA is asked for or stored, as long as requests are answered as they should be. -/
namespace Nlsr
open Lsdb

/-- The LSA is asked for, or it or a newer one is stored. -/
def Obtaining (s : Lsdb) (r : RouterConf) (t : LsaType) (k : Nat) : Prop :=
  (∃ d, Asking s ⟨r.lsaUserPrefix t, k, d⟩) ∨ ¬ Newer s r.routerPrefix t k

/-- What the network and the clock do to the LSAs of one router and type at another: requests under the number `k` are
answered with the LSA asked for, they fail only before their deadline, and no stored LSA goes. -/
structure Served (c : LConf) (s : Lsdb) (r : RouterConf) (t : LsaType) (k : Nat) (op : Lsdb.Op) : Prop where
  answer : ∀ x p d, op = .fetched x p → s.fetches[x]? = some ⟨r.lsaUserPrefix t, k, d⟩ →
    ∃ l, p = some l ∧ l.origin = r.routerPrefix ∧ l.type = t ∧ l.seq = k
  time : ∀ x b d, op = .fetchError x b → s.fetches[x]? = some ⟨r.lsaUserPrefix t, k, d⟩ → s.now < d
  stays : ∀ o ∈ s.db, o.lsa.origin = r.routerPrefix → o.lsa.type = t →
    ∃ o' ∈ (step c s op).db, o'.lsa.origin = r.routerPrefix ∧ o'.lsa.type = t

theorem not_newer {s : Lsdb} {r : Name} {t : LsaType} {k : Nat} :
    ¬ Newer s r t k ↔ ∃ o ∈ s.db, o.lsa.origin = r ∧ o.lsa.type = t ∧ k ≤ o.lsa.seq := by
  constructor
  · intro h
    refine Classical.byContradiction fun hc => h fun o ho h1 h2 => ?_
    exact Nat.not_le.1 fun hle => hc ⟨o, ho, h1, h2, hle⟩
  · rintro ⟨o, ho, h1, h2, h3⟩ hn
    exact absurd (hn o ho h1 h2) (by omega)

theorem Obtaining.step {c : LConf} {s : Lsdb} (h : Reachable c s) {r : RouterConf} (hr : Peer c r) {t : LsaType}
    (ht : t ≠ .base) {k : Nat} (hk : k < 2 ^ 64) (hh : ∀ n, s.highestOf (r.lsaUserPrefix t) = some n → n ≤ k)
    {op : Lsdb.Op} (hs : Served c s r t k op) (ho : Obtaining s r t k) : Obtaining (Lsdb.step c s op) r t k := by
  by_cases hn : Newer s r.routerPrefix t k
  · rcases ho with ⟨d, ho⟩ | ho
    · rcases C87_kept h ho op with h1 | h1
      · exact Or.inl ⟨d, h1⟩
      · cases h1 with
        | answered i p h1 e =>
          obtain ⟨l, rfl, g1, g2, g3⟩ := hs.answer i p d e h1
          subst e
          obtain ⟨o, f1, f2, f3, f4, -⟩ := C87_installed h hr ht hk h1 hh hn l g1 g2 g3
          exact Or.inr (not_newer.2 ⟨o, f1, f2, f3, by omega⟩)
        | late i b h1 e hd => exact absurd (hs.time i b d e h1) (Nat.not_lt.2 hd)
        | superseded n h1 h2 => exact absurd (hh n h1) (Nat.not_le.2 h2)
    · exact absurd hn ho
  · obtain ⟨o, g1, g2, g3, g4⟩ := not_newer.1 hn
    obtain ⟨o', f1, f2, f3⟩ := hs.stays o g1 g2 g3
    rcases C27_newer_only_partial h op o o' g1 f1 (f2.trans g2.symm) (f3.trans g3.symm) with h1 | ⟨h1, -⟩
    · exact Or.inr (not_newer.2 ⟨o', f1, f2, f3, by omega⟩)
    · exact absurd (g2.symm.trans h1) hr.other

/-- When sync reports an LSA, it is asked for unless it is already there. -/
theorem Obtaining.reported {c : LConf} {s : Lsdb} (h : Reachable c s) {r : RouterConf} (hr : Peer c r) {t : LsaType}
    (ht : t ≠ .base) {k : Nat} (hk : k < 2 ^ 64) (hu : Used c t)
    (hh : ∀ n, s.highestOf (r.lsaUserPrefix t) = some n → n ≤ k) :
    Obtaining (Lsdb.step c s (.sync (r.lsaUserPrefix t) k)) r t k := by
  obtain ⟨h1, h2, -⟩ := C87_asked h hr t ht k hk
  by_cases hn : Newer s r.routerPrefix t k
  · exact Or.inl ⟨_, Or.inl (by rw [(h1 hu hn hh).2]; exact List.mem_append_right _ List.mem_cons_self)⟩
  · rw [h2 (Or.inl hn)]
    exact Or.inr hn

theorem express_highest (s : Lsdb) (u : Name) (k d : Nat) (v : Name) :
    (expressInterest s u k d).highestOf v = s.highestOf v ∨ (v = u ∧ (expressInterest s u k d).highestOf v = some k ∧ leOpt (s.highestOf u) k) := by
  unfold expressInterest
  rcases noteSeq_spec s u k with ⟨s1, h0, h1, h2, h3, h4, h5, h6, h7, h8⟩ | ⟨h0, -⟩
  · rw [h0]
    by_cases e : v = u
    · subst e
      exact Or.inr ⟨rfl, h2, h1⟩
    · exact Or.inl (h3 v e)
  · rw [h0]; exact Or.inl rfl

theorem sync_highest (c : LConf) (s : Lsdb) (u : Name) (k : Nat) (v : Name) :
    (sync c s u k).highestOf v = s.highestOf v ∨ (v = u ∧ (sync c s u k).highestOf v = some k) := by
  unfold sync
  split
  · unfold processUpdate
    split
    · split
      · exact Or.inl (highestOf_congr (ownUpdate_nf c s _ _).highest v)
      · exact Or.inl rfl
    · split
      · split
        · exact Or.inl rfl
        · rcases express_highest (s.emit (.newLsa u k _)) u k _ v with h5 | ⟨h5, h6, -⟩
          · exact Or.inl h5
          · exact Or.inr ⟨h5, h6⟩
      · exact Or.inl rfl
  · exact Or.inl rfl

theorem afterFetch_highest (c : LConf) {s : Lsdb} {f : Fetch} {n : Nat} (h : s.highestOf f.lsaName = some n) (hn : f.seq ≤ n)
    (p : Option Lsa) (v : Name) : (afterFetch c s f p).highestOf v = s.highestOf v := by
  unfold afterFetch
  rcases noteSeq_spec s f.lsaName f.seq with ⟨s1, h0, h1, h2, h3, h4, h5, h6, h7, h8⟩ | ⟨h0, -⟩
  · have hs1 : s1.highestOf v = s.highestOf v := by
      by_cases e : v = f.lsaName
      · subst e
        rw [h2, h]
        have := h1 n h
        exact congrArg some (by omega)
      · exact h3 v e
    rw [h0]
    dsimp only
    split
    · exact hs1
    · split
      · exact hs1
      · unfold installFetched
        split
        · exact hs1
        · split
          · exact (highestOf_congr (installLsa_sig c _ _).highest v).trans hs1
          · exact hs1
  · rw [h0]

/-- The highest number known of a name comes from sync. -/
theorem highest_step {c : LConf} {s : Lsdb} (h : Reachable c s) (op : Lsdb.Op) (v : Name) :
    (step c s op).highestOf v = s.highestOf v ∨
    ∃ k, op = .sync v k ∧ (step c s op).highestOf v = some (k % 18446744073709551616) := by
  have hb := below_reachable h
  have of : ∀ {s' : Lsdb}, NF s s' → s'.highestOf v = s.highestOf v := fun h => highestOf_congr h.highest v
  cases op with
  | clock dt sys => exact Or.inl rfl
  | setAdjs l => exact Or.inl rfl
  | setNpl l => exact Or.inl rfl
  | buildName => exact Or.inl (of (buildName_nf c s))
  | scheduleBuild =>
    left
    show (scheduleBuild c s).highestOf v = _
    unfold scheduleBuild
    dsimp only
    split <;> rfl
  | buildTimer => exact Or.inl (of (buildTimer_nf c s))
  | timer eid => exact Or.inl (of (fire_nf c s eid))
  | segment n => exact Or.inl rfl
  | segmentGone n => exact Or.inl rfl
  | fifoGone n => exact Or.inl rfl
  | interest n w =>
    left
    show (if n.length ≤ maxComponents then s.processInterest c n w else s).highestOf v = _
    split
    · exact of (processInterest_nf c s n w)
    · rfl
  | sync u k =>
    rcases sync_highest c s u (k % 18446744073709551616) v with h1 | ⟨rfl, h1⟩
    · exact Or.inl h1
    · exact Or.inr ⟨k, rfl, h1⟩
  | fetched i p =>
    left
    show (fetched c s i p).highestOf v = _
    unfold fetched
    split
    · rfl
    · rename_i f hf
      obtain ⟨n, h1, h2⟩ := hb f (Or.inl (List.mem_of_getElem? hf))
      unfold fetchDone
      dsimp only
      exact afterFetch_highest c (s := { s with fetches := s.fetches.eraseIdx i, storage := _ }) (n := n) h1 h2 _ v
  | fetchError i t =>
    left
    show (fetchError c s i t).highestOf v = _
    unfold fetchError
    split
    · rfl
    · unfold fetchFailed
      split <;> rfl
  | retryTimer i =>
    left
    show (retryTimer s i).highestOf v = _
    unfold retryTimer
    split
    · rfl
    · rename_i due f hf
      split
      · rfl
      · obtain ⟨n, h1, h2⟩ := hb f (Or.inr ⟨due, List.mem_of_getElem? hf⟩)
        rcases express_highest { s with retries := s.retries.eraseIdx i } f.lsaName f.seq f.deadline v with h5 | ⟨h5, h6, h7⟩
        · exact h5
        · subst h5
          rw [h6]
          have := h7 n h1
          rw [h1]
          exact congrArg some (by omega)

theorem highest_init (c : LConf) (disk : Option Seqs) (adjs : AdjacencyList) (npl : List PrefixInfo) (sys : Int) :
    (init c disk adjs npl sys).highest = [] := by
  unfold init
  dsimp only
  have h1 := buildName_nf c (boot c disk adjs npl sys)
  split
  · exact h1.highest
  · exact (h1.trans (buildCoord_nf c _)).highest

end Nlsr
