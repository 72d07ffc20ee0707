import Verif.Lemmas.LsdbStep
/- C27, C29, C30, C31, C38: the LSDB's contents, signals and timers. -/
namespace Nlsr
open Lsdb

/-! ### a small configuration used in the examples and counterexamples -/

/-- Router /net/site/r1; a second router is /net/site/r2. -/
def exConf (h : HypState) : LConf where
  names := ⟨nm ["net"], nm ["site"], nm ["r1"]⟩
  hyp := h
  refresh := 1800
  dead := 3600
  build := 10
  retry := 3
  resend := 1
  lifetime := 4
  radius := .fin 1
  angles := [.fin 1]
  segments := fun _ => 1

def exR1 : Name := nm ["net", "site", "r1"]
def exR2 : Name := nm ["net", "site", "r2"]

/-- Update name of router `r` for an LSA type. -/
def exUpdate (r t : String) : Name := nm ["localhop", "net", "nlsr", "LSA", "site", r, t]

/-- A neighbour. -/
def exNeighbor (st : Status) : Adjacent := { name := exR2, uri := "udp4://10.0.0.2", status := st, timedOut := 3 }

def exStart (h : HypState) : Lsdb := init (exConf h) none [exNeighbor .active] [⟨nm ["a"], .fin 5⟩] 0

/-- Fetch and install a Name LSA of /net/site/r2. -/
def exFetch (seq : Nat) (exp : Int) (names : List PrefixInfo) : List Op :=
  [.sync (exUpdate "r2" "NAME") seq, .fetched 0 (some ⟨exR2, seq, exp, .names names⟩)]

/-! ### C27 -/

/-- At most one LSA is stored per (router, type). -/
theorem C27_one_per_key {c : LConf} {s : Lsdb} (h : Reachable c s) :
    (s.db.map (fun o => (o.lsa.origin, o.lsa.type))).Nodup := h.inv.keys

/-- Installing a number not greater than the stored one changes nothing and emits nothing. -/
theorem C27_old_ignored {c : LConf} {s : Lsdb} (h : Reachable c s) (l : Lsa) (o : Obj) (ho : o ∈ s.db)
    (hr : o.lsa.origin = l.origin) (ht : o.lsa.type = l.type) (hs : l.seq ≤ o.lsa.seq) :
    installLsa c s l = s := by
  have hf := find_of_mem h.inv ho
  rw [hr, ht] at hf
  unfold installLsa
  rw [hf]
  dsimp only
  rw [if_neg (by omega)]

/-- While an LSA stays stored its number does not decrease; the exception is the refresh of an own LSA
whose number is the largest 64-bit value, which wraps to 0. -/
theorem C27_newer_only_partial {c : LConf} {s : Lsdb} (h : Reachable c s) (op : Op) (o o' : Obj) (ho : o ∈ s.db)
    (ho' : o' ∈ (step c s op).db) (hr : o'.lsa.origin = o.lsa.origin) (ht : o'.lsa.type = o.lsa.type) :
    o.lsa.seq ≤ o'.lsa.seq ∨ (o.lsa.origin = c.router ∧ o.lsa.seq + 1 ≥ 2 ^ 64) := by
  have hinv := h.inv
  have hkey : keyOf o' = keyOf o := by simp [keyOf, hr, ht]
  have hinc : ∀ n, n ≤ inc64 n ∨ n + 1 ≥ 2 ^ 64 := by intro n; unfold inc64; omega
  rcases step_one c s op with ⟨eid, rfl⟩ | ⟨dt, sys, rfl⟩ | ⟨s1, s2, f1, hch, f2⟩
  · have hc := fire_cases hinv eid
    change o' ∈ (fire c s eid).db at ho'
    generalize fire c s eid = s' at hc ho'
    have hrefresh : ∀ (x : Option Nat) (p : Obj), InvW c (drop s eid) x → p ∈ s.db →
        p.lsa.origin = c.router → o' ∈ (refresh c (drop s eid) p).db →
        o.lsa.seq ≤ o'.lsa.seq ∨ (o.lsa.origin = c.router ∧ o.lsa.seq + 1 ≥ 2 ^ 64) := by
      intro x p hx hp hpr hm
      rcases (mem_refresh hx (s := drop s eid) hp o').1 hm with rfl | ⟨h1, -⟩
      · have : p = o := hinv.keyUniq hp ho (by simpa [keyOf, Lsa.type] using hkey)
        subst this
        rcases hinc p.lsa.seq with h2 | h2
        · exact Or.inl h2
        · exact Or.inr ⟨hpr, h2⟩
      · have : o' = o := hinv.keyUniq h1 ho hkey
        subst this; exact Or.inl (Nat.le_refl _)
    cases hc with
    | idle =>
      have : o' = o := hinv.keyUniq ho' ho hkey
      subst this; exact Or.inl (Nat.le_refl _)
    | own ev p hev he hdue hp hoid hevt hpr =>
      subst he
      exact hrefresh _ p (drop_inv hinv (List.mem_append_left _ hp) hev hoid).1 hp hpr ho'
    | other ev p hev he hdue hp hoid hevt hpr =>
      have h1 := (mem_removeLsa o').1 ho'
      have : o' = o := hinv.keyUniq h1.1 ho hkey
      subst this; exact Or.inl (Nat.le_refl _)
    | stale ev p hev he hdue hp hoid hpr hpt =>
      have : o' = o := hinv.keyUniq ho' ho hkey
      subst this; exact Or.inl (Nat.le_refl _)
    | hit ev p q hev he hdue hp hoid hpr hpt hq hqr hqt hseq =>
      subst he
      exact hrefresh _ q (drop_inv hinv (List.mem_append_right _ hp) hev hoid).1 hq hqr ho'
  · have : o' = o := hinv.keyUniq ho' ho hkey
    subst this; exact Or.inl (Nat.le_refl _)
  · have hinv1 : Inv c s1 := hinv.frame f1.toFrame
    rw [f2.db] at ho'
    rw [← f1.db] at ho
    refine Or.inl ?_
    cases hch with
    | none =>
      have : o' = o := hinv1.keyUniq ho' ho hkey
      subst this; exact Nat.le_refl _
    | removeOwn =>
      have h1 := (mem_removeLsa o').1 ho'
      have : o' = o := hinv1.keyUniq h1.1 ho hkey
      subst this; exact Nat.le_refl _
    | install l hn =>
      have hc := install_cases c s1 l
      generalize installLsa c s1 l = s' at hc ho'
      cases hc with
      | rejected p hf hle =>
        have : o' = o := hinv1.keyUniq ho' ho hkey
        subst this; exact Nat.le_refl _
      | fresh hf =>
        rcases List.mem_append.1 ho' with h1 | h1
        · have : o' = o := hinv1.keyUniq h1 ho hkey
          subst this; exact Nat.le_refl _
        · simp only [List.mem_singleton] at h1
          subst h1
          exact absurd ⟨hr.symm, ht.symm⟩ (find_none hf o ho)
      | newer p hf hlt =>
        obtain ⟨hp, hpr, hpt⟩ := find_some hf
        rcases (mem_installUpdate hinv1 hp l _ o').1 ho' with rfl | ⟨h1, -⟩
        · have : p = o := hinv1.keyUniq hp ho (by
            simpa [keyOf, Lsa.type, Content.update_type] using hkey)
          subst this
          exact Nat.le_of_lt hlt
        · have : o' = o := hinv1.keyUniq h1 ho hkey
          subst this; exact Nat.le_refl _

/-- The exception happens: a peer reports 2^64−2 for this router's Name LSA, the router publishes
2^64−1, and the next refresh stores and publishes 0. -/
theorem C27_violated_wrap :
    ((run (exConf .off) (exStart .off) [.sync (exUpdate "r1" "NAME") 18446744073709551614]).db.map (·.lsa.seq)
        = [18446744073709551615]) ∧
    ((run (exConf .off) (exStart .off) [.sync (exUpdate "r1" "NAME") 18446744073709551614,
        .clock 2000000000000 0, .timer 2]).db.map (·.lsa.seq) = [0]) := by
  decide +kernel

/-- Non-vacuity: an LSA of another router is stored, and a newer one replaces it. -/
example : ((run (exConf .off) (exStart .off) (exFetch 7 5000000000000 [⟨nm ["b"], .fin 1⟩])).db.map
      (fun o => (o.lsa.origin, o.lsa.seq)) = [(exR1, 1), (exR2, 7)]) ∧
    ((run (exConf .off) (exStart .off) (exFetch 7 5000000000000 [⟨nm ["b"], .fin 1⟩] ++
      exFetch 9 5000000000000 [⟨nm ["b"], .fin 1⟩])).db.map
      (fun o => (o.lsa.origin, o.lsa.seq)) = [(exR1, 1), (exR2, 9)]) := by
  decide +kernel

/-! ### C29 -/

/-- What a listener of `onLsdbModified` knows: the content of each (router, type). -/
abbrev Replica := Name → LsaType → Option Content

/-- A listener applying one signal: an install brings the content; an update of a Name LSA brings names
to add and names to remove, any other update the new content; a removal deletes.  Other outputs are
not seen by it. -/
def Replica.apply (v : Replica) : Out → Replica
  | .signal .installed l _ _ => fun r t => if r = l.origin ∧ t = l.type then some l.content else v r t
  | .signal .updated l adds removes => fun r t =>
      if r = l.origin ∧ t = l.type then
        match v r t, l.content with
        | some (.names m), .names _ =>
          some (.names (removes.foldl (fun m p => PrefixMap.erase m p.name) (adds.foldl PrefixMap.insert m)))
        | _, new => some new
      else v r t
  | .signal .removed l _ _ => fun r t => if r = l.origin ∧ t = l.type then none else v r t
  | _ => v

def Replica.replay (log : List Out) : Replica := log.foldl Replica.apply (fun _ _ => none)

theorem replay_snoc (log : List Out) (o : Out) :
    Replica.replay (log ++ [o]) = (Replica.replay log).apply o := by
  simp [Replica.replay]

theorem replay_quiet {a b : List Out} (h : QuietLog a b) : Replica.replay b = Replica.replay a := by
  obtain ⟨outs, rfl, ho⟩ := h
  unfold Replica.replay
  rw [List.foldl_append]
  generalize List.foldl Replica.apply (fun _ _ => none) a = v
  induction outs generalizing v with
  | nil => rfl
  | cons x xs ih =>
    rw [List.foldl_cons, ih (fun o h => ho o (by simp [h]))]
    have := ho x (by simp)
    cases x <;> simp_all [Out.isSignal, Replica.apply]

theorem remove_replay {c : LConf} {s : Lsdb} 
    (hs : ∀ r t, Replica.replay s.log r t = (s.find r t).map (·.lsa.content)) (r' : Name) (t' : LsaType)
    (r : Name) (t : LsaType) (hi' : Inv c (removeLsa s r' t')) :
    Replica.replay (removeLsa s r' t').log r t = ((removeLsa s r' t').find r t).map (·.lsa.content) := by
  have hlog : (removeLsa s r' t').log = match s.find r' t' with
      | none => s.log
      | some o => s.log ++ [.signal .removed o.lsa [] []] := by
    unfold removeLsa; split <;> simp_all
  rw [hlog]
  cases hf : s.find r' t' with
  | none =>
    have : removeLsa s r' t' = s := by unfold removeLsa; rw [hf]
    rw [this]
    exact hs r t
  | some o =>
    obtain ⟨ho, hor, hot⟩ := find_some hf
    dsimp only
    rw [replay_snoc]
    simp only [Replica.apply]
    split
    · rename_i hk
      have : (removeLsa s r' t').find r t = none := by
        rw [find_none_iff]
        intro p hp hpk
        exact ((mem_removeLsa p).1 hp).2 ⟨by rw [hpk.1, hk.1, hor], by rw [hpk.2, hk.2, hot]⟩
      rw [this]; rfl
    · rename_i hk
      rw [hs]
      congr 1
      cases hf2 : s.find r t with
      | none =>
        symm
        rw [find_none_iff] at hf2 ⊢
        intro p hp
        exact hf2 p ((mem_removeLsa p).1 hp).1
      | some p =>
        obtain ⟨hp, hpr, hpt⟩ := find_some hf2
        symm
        refine (find_iff hi').2 ⟨(mem_removeLsa p).2 ⟨hp, ?_⟩, hpr, hpt⟩
        rintro ⟨h1, h2⟩
        exact hk ⟨by rw [← hpr, h1, hor], by rw [← hpt, h2, hot]⟩

theorem refresh_replay {c : LConf} {s : Lsdb} {x : Option Nat} {o : Obj} (hi : InvW c s x) (ho : o ∈ s.db)
    (hs : ∀ r t, Replica.replay s.log r t = (s.find r t).map (·.lsa.content))
    (hi' : Inv c (refresh c s o)) (r : Name) (t : LsaType) :
    Replica.replay (refresh c s o).log r t = ((refresh c s o).find r t).map (·.lsa.content) := by
  have hq : QuietLog s.log (refresh c s o).log :=
    QuietLog.trans (QuietLog.one _ (.persist _) rfl) (QuietLog.one _ (.publish _ _) rfl)
  rw [replay_quiet hq, hs]
  cases hf : s.find r t with
  | none =>
    rw [find_none_iff] at hf
    have : (refresh c s o).find r t = none := by
      rw [find_none_iff]
      intro p hp
      rcases (mem_refresh hi ho p).1 hp with rfl | ⟨h1, -⟩
      · exact hf o ho
      · exact hf p h1
    rw [this]
  | some p =>
    obtain ⟨hp, hpr, hpt⟩ := find_some hf
    by_cases hpo : p = o
    · subst hpo
      have : (refresh c s p).find r t = some { p with lsa := { p.lsa with
          seq := inc64 p.lsa.seq, exp := s.expirationPoint c }, evt := s.nextId } :=
        (find_iff hi').2 ⟨(mem_refresh hi ho _).2 (Or.inl rfl), hpr, hpt⟩
      rw [this]; rfl
    · have : (refresh c s o).find r t = some p :=
        (find_iff hi').2 ⟨(mem_refresh hi ho _).2 (Or.inr ⟨hp, hpo⟩), hpr, hpt⟩
      rw [this]

/-- A listener that applies every signal from the start holds exactly the stored contents. -/
theorem C29_signals_complete {c : LConf} {s : Lsdb} (h : Reachable c s) (r : Name) (t : LsaType) :
    Replica.replay s.log r t =
      (s.db.find? (fun o => o.lsa.origin == r && o.lsa.type == t)).map (·.lsa.content) := by
  show _ = (s.find r t).map (·.lsa.content)
  revert r t
  refine Reachable.induct (c := c) (P := fun s => ∀ r t, Replica.replay s.log r t =
    (s.find r t).map (·.lsa.content)) ?_ ?_ ?_ ?_ ?_ h
  · intro disk adjs npl sys r t
    simp [boot, find, Replica.replay]
  · intro s s' hs f r t
    rw [replay_quiet f.log, hs]
    unfold find
    rw [f.db]
  · intro s l hi hs hn r t
    have hi' := install_inv hi l hn
    have hc := install_cases c s l
    generalize installLsa c s l = s' at hc hi'
    cases hc with
    | rejected o hf hle => exact hs r t
    | fresh hf =>
      show Replica.replay (s.log ++ [_]) r t = _
      rw [replay_snoc]
      simp only [Replica.apply]
      split
      · rename_i hk
        have : (installNew s l (timeToExpire c s l)).find r t = some ⟨s.nextId, l, s.nextId + 1⟩ :=
          (find_iff hi').2 ⟨List.mem_append_right _ (by simp), hk.1.symm, hk.2.symm⟩
        rw [this]; rfl
      · rename_i hk
        rw [hs, find_congr hi']
        intro o h1 h2
        show o ∈ s.db ++ [_] ↔ _
        rw [List.mem_append, List.mem_singleton]
        constructor
        · rintro (h3 | rfl)
          · exact h3
          · exact absurd ⟨h1.symm, h2.symm⟩ hk
        · exact Or.inl
    | newer o hf hlt =>
      obtain ⟨ho, hor, hot⟩ := find_some hf
      have hother : ¬ (r = l.origin ∧ t = l.type) →
          (installUpdate s o l (timeToExpire c s l)).find r t = s.find r t := by
        intro hk
        refine find_congr hi' ?_
        intro p h1 h2
        rw [mem_installUpdate hi ho]
        constructor
        · rintro (rfl | h3)
          · refine absurd ⟨h1.symm.trans hor, ?_⟩ hk
            rw [← h2, ← hot]
            exact (Content.update_type _ _)
          · exact h3.1
        · intro h3
          refine Or.inr ⟨h3, ?_⟩
          rintro rfl
          exact hk ⟨h1.symm.trans hor, h2.symm.trans hot⟩
      have hsame : r = l.origin → t = l.type → (installUpdate s o l (timeToExpire c s l)).find r t =
          some ⟨o.oid, ⟨o.lsa.origin, l.seq, l.exp, (o.lsa.content.update l.content).content⟩, s.nextId⟩ := by
        rintro rfl rfl
        refine (find_iff hi').2 ⟨(mem_installUpdate hi ho l _ _).2 (Or.inl rfl), hor, ?_⟩
        exact (Content.update_type _ _).trans hot
      by_cases hk : r = l.origin ∧ t = l.type
      · rw [hsame hk.1 hk.2]
        have hold : Replica.replay s.log r t = some o.lsa.content := by
          rw [hs, hk.1, hk.2, hf]; rfl
        have hlog : (installUpdate s o l (timeToExpire c s l)).log =
            if (o.lsa.content.update l.content).updated then
              s.log ++ [.signal .updated l (o.lsa.content.update l.content).adds
                (o.lsa.content.update l.content).removes]
            else s.log := by
          unfold installUpdate
          dsimp only
          split <;> rfl
        rw [hlog]
        have htyp : o.lsa.content.type = l.content.type := hot
        cases ho1 : o.lsa.content with
        | adj a =>
          cases hl1 : l.content with
          | adj b =>
            rw [hl1] at hn
            rw [ho1] at hold
            simp only [Content.update, updateAdj]
            by_cases he : AdjacencyList.eqv a b = true
            · simp only [he, if_true]
              simpa using hold
            · have hb := norm_adj.1 hn
              simp only [he]
              simp only [Bool.false_eq_true, if_false, if_true]
              rw [replay_snoc]
              rw [hk.1, hk.2] at hold ⊢
              simp only [Replica.apply, and_self, if_true, hl1, hold, Option.map_some]
              rw [adj_ofList_nodup b hb]
          | coord _ _ => rw [ho1, hl1] at htyp; cases htyp
          | names _ => rw [ho1, hl1] at htyp; cases htyp
        | coord a as =>
          cases hl1 : l.content with
          | adj _ => rw [ho1, hl1] at htyp; cases htyp
          | coord b bs =>
            rw [ho1] at hold
            simp only [Content.update, updateCoord]
            by_cases he : coordEq a as b bs = true
            · simp only [he, if_true]
              simpa using hold
            · simp only [he]
              simp only [Bool.false_eq_true, if_false, if_true]
              rw [replay_snoc]
              rw [hk.1, hk.2] at hold ⊢
              simp only [Replica.apply, and_self, if_true, hl1, hold, Option.map_some]
          | names _ => rw [ho1, hl1] at htyp; cases htyp
        | names a =>
          cases hl1 : l.content with
          | adj _ => rw [ho1, hl1] at htyp; cases htyp
          | coord _ _ => rw [ho1, hl1] at htyp; cases htyp
          | names b =>
            rw [ho1] at hold
            rw [hk.1, hk.2] at hold ⊢
            change Replica.replay (if (updateNames a b).updated = true then
              s.log ++ [.signal .updated l (updateNames a b).adds (updateNames a b).removes] else s.log)
              l.origin l.type = some (updateNames a b).content
            by_cases hu : (updateNames a b).updated = true
            · rw [if_pos hu, replay_snoc]
              simp only [Replica.apply, and_self, if_true, hl1, hold]
              rfl
            · rw [if_neg hu]
              simp only [updateNames] at hu ⊢
              simp only [Bool.or_eq_true, Bool.not_eq_true', not_or, Bool.not_eq_false, List.isEmpty_iff] at hu
              rw [hold, hu.1, hu.2]
              rfl
      · rw [hother hk]
        rw [← hs]
        unfold installUpdate
        dsimp only
        split
        · show Replica.replay (s.log ++ [_]) r t = _
          rw [replay_snoc]
          simp only [Replica.apply, hk, if_false]
        · rfl
  · intro s hi hs r t
    exact remove_replay hs _ _ r t (removeLsa_inv hi _ _ (fun _ _ => Or.inl rfl) (fun _ => rfl)
      (fun o ho e he _ => (find_some ho).2))
  · intro s eid hi hs r t
    have hi' := fire_inv hi eid
    have hc := fire_cases hi eid
    generalize fire c s eid = s' at hc hi'
    cases hc with
    | idle => exact hs r t
    | own ev o hev he hdue ho hoid hevt hr =>
      subst he
      exact refresh_replay (drop_inv hi (List.mem_append_left _ ho) hev hoid).1 ho hs hi' r t
    | other ev o hev he hdue ho hoid hevt hr =>
      subst he
      exact remove_replay (s := drop s ev.eid) hs _ _ r t hi'
    | stale ev o hev he hdue ho hoid hr ht => exact hs r t
    | hit ev o p hev he hdue ho hoid hr ht hp hpr hpt hseq =>
      subst he
      exact refresh_replay (drop_inv hi (List.mem_append_right _ ho) hev hoid).1 hp hs hi' r t

end Nlsr
