import Verif.Lemmas.LsdbSeq
import Verif.Lemmas.LsdbView
/- The router's own Name LSA: which steps change it, and how. -/
namespace Nlsr
namespace Lsdb

theorem find_install_ne {c : LConf} {s : Lsdb} (h : Inv c s) (l : Lsa) (hn : l.content.norm = l.content) {r : Name}
    {t : LsaType} (hk : ¬ (r = l.origin ∧ t = l.type)) : (installLsa c s l).find r t = s.find r t := by
  have hi := install_inv h l hn
  have hc := install_cases c s l
  generalize installLsa c s l = s' at hc hi
  cases hc with
  | rejected o hf hle => rfl
  | fresh hf =>
    refine find_congr hi ?_
    intro o h1 h2
    show o ∈ s.db ++ [_] ↔ _
    rw [List.mem_append, List.mem_singleton]
    constructor
    · rintro (h3 | rfl)
      · exact h3
      · exact absurd ⟨h1.symm, h2.symm⟩ hk
    · exact Or.inl
  | newer o hf hlt =>
    obtain ⟨ho, hor, hot⟩ := find_some hf
    refine find_congr hi ?_
    intro p h1 h2
    rw [mem_installUpdate h ho]
    constructor
    · rintro (rfl | h3)
      · refine absurd ⟨h1.symm.trans hor, ?_⟩ hk
        rw [← h2, ← hot]
        exact (Content.update_type _ _)
      · exact h3.1
    · intro h3
      refine Or.inr ⟨h3, ?_⟩
      rintro rfl
      exact hk ⟨h1.symm.trans hor, h2.symm.trans hot⟩

theorem find_remove_ne {s : Lsdb} {r r' : Name} {t t' : LsaType} (hk : ¬ (r = r' ∧ t = t')) :
    (removeLsa s r' t').find r t = s.find r t := by
  unfold removeLsa
  split
  · rfl
  · unfold find
    dsimp only
    rw [List.find?_filter]
    congr 1
    funext x
    by_cases hx : isKey r t x = true
    · rw [hx]
      obtain ⟨h1, h2⟩ := isKey_iff.1 hx
      have : isKey r' t' x = false := by
        cases h : isKey r' t' x with
        | false => rfl
        | true =>
          obtain ⟨h3, h4⟩ := isKey_iff.1 h
          exact absurd ⟨h1.symm.trans h3, h2.symm.trans h4⟩ hk
      simp [this]
    · simp [hx]

/-- A refresh leaves every content alone. -/
theorem view_refresh {c : LConf} {s : Lsdb} {x : Option Nat} {o : Obj} (hi : InvW c s x) (ho : o ∈ s.db)
    (hi' : Inv c (refresh c s o)) : view (refresh c s o) = view s := by
  funext r t
  by_cases hk : r = o.lsa.origin ∧ t = o.lsa.type
  · obtain ⟨rfl, rfl⟩ := hk
    have h1 : (refresh c s o).find o.lsa.origin o.lsa.type =
        some { o with lsa := { o.lsa with seq := inc64 o.lsa.seq, exp := s.expirationPoint c }, evt := s.nextId } :=
      (find_iff hi').2 ⟨(mem_refresh hi ho _).2 (Or.inl rfl), rfl, rfl⟩
    unfold view
    rw [h1, find_of_mem hi ho]
    rfl
  · unfold view
    congr 1
    refine find_congr hi' ?_
    intro y h1 h2
    rw [mem_refresh hi ho]
    constructor
    · rintro (rfl | h3)
      · exact absurd ⟨h1.symm, h2.symm⟩ hk
      · exact h3.1
    · intro h3
      refine Or.inr ⟨h3, ?_⟩
      rintro rfl
      exact hk ⟨h1.symm, h2.symm⟩

/-- Building an LSA of another type does not touch the own Name LSA. -/
theorem view_build_ne {c : LConf} {s : Lsdb} (h : Inv c s) (t : LsaType) (b : Bool) (l : Lsa)
    (hn : l.content.norm = l.content) (ht : l.type ≠ .name) (r : Name) :
    view (installLsa c (announce s t b) l) r .name = view s r .name := by
  unfold view
  rw [find_install_ne (h.frame (announce_frame s t b)) l hn (fun hk => ht hk.2.symm)]
  unfold find
  rw [(announce_frame _ _ _).db]

/-- What happens to the own Name LSA in a step. -/
inductive OwnName (c : LConf) (s : Lsdb) (op : Op) (s' : Lsdb) : Prop
  | same (h : view s' c.router .name = view s c.router .name)
  | built (b : Nat) (h : s' = buildName c { s with seqs := s.seqs.set .name b })
      (hb : b = s.seqs.name ∨ (b < 18446744073709551616 ∧ ∀ p, storedAt s c.router .name = some p → p < b))
  | fetched (i : Nat) (l : Lsa) (h : op = .fetched i (some l)) (ho : l.origin = c.router) (ht : l.type = .name)

theorem ownName_step {c : LConf} {s : Lsdb} (h : Reachable c s) (op : Op) : OwnName c s op (step c s op) := by
  have hi := h.inv
  have frame : ∀ s', s'.db = s.db → OwnName c s op s' := fun s' e => .same (by rw [view_frame e])
  cases op with
  | clock dt sys => exact frame _ rfl
  | setAdjs l => exact frame _ rfl
  | setNpl l => exact frame _ rfl
  | segment n => exact frame _ rfl
  | segmentGone n => exact frame _ rfl
  | fifoGone n => exact frame _ rfl
  | buildName =>
    refine .built s.seqs.name ?_ (Or.inl rfl)
    have := seqs_set_self s .name
    dsimp only [Seqs.get] at this
    rw [this]
    rfl
  | scheduleBuild =>
    refine frame _ ?_
    show (scheduleBuild c s).db = s.db
    unfold scheduleBuild
    dsimp only
    split <;> rfl
  | buildTimer =>
    refine .same ?_
    show view (buildTimer c s) _ _ = _
    unfold buildTimer
    split
    · rfl
    · split
      · rfl
      · unfold buildAdjLsa
        dsimp only
        split
        · unfold buildOrRemove
          dsimp only
          split
          · split
            · have hi0 : Inv c { s with buildFlag := false, buildDue := none } :=
                hi.frame (frame_quiet rfl rfl rfl rfl rfl)
              exact view_build_ne hi0 .adjacency (c.hyp ≠ .on) ⟨c.router, inc64 s.seqs.adj,
                expirationPoint c { s with buildFlag := false, buildDue := none }, .adj (AdjacencyList.lsaList s.adjs)⟩
                (norm_adj.2 (lsaList_names _)) (by simp [Lsa.type, Content.type]) c.router
            · show Option.map _ (Lsdb.find _ _ _) = Option.map _ (Lsdb.find _ _ _)
              congr 1
              exact find_remove_ne (s := { s with buildFlag := false, buildDue := none }) (by simp)
          · rfl
        · rfl
  | timer eid =>
    refine .same ?_
    show view (fire c s eid) _ _ = _
    have hi' := fire_inv hi eid
    have hc := fire_cases hi eid
    generalize fire c s eid = s' at hc hi'
    cases hc with
    | idle => rfl
    | own ev o hev he hdue ho hoid hevt hr =>
      subst he
      obtain ⟨h1, -⟩ := drop_inv hi (List.mem_append_left _ ho) hev hoid
      rw [view_refresh (s := drop s ev.eid) h1 ho hi']
      rfl
    | other ev o hev he hdue ho hoid hevt hr =>
      show Option.map _ (Lsdb.find _ _ _) = Option.map _ (Lsdb.find _ _ _)
      congr 1
      exact find_remove_ne (s := drop s eid) (fun hk => hr hk.1.symm)
    | stale ev o hev he hdue ho hoid hr ht => rfl
    | hit ev o p hev he hdue ho hoid hr ht hp hpr hpt hseq =>
      subst he
      obtain ⟨h1, -⟩ := drop_inv hi (List.mem_append_right _ ho) hev hoid
      rw [view_refresh (s := drop s ev.eid) h1 hp hi']
      rfl
  | sync n k =>
    show OwnName c s (.sync n k) (sync c s n (k % 18446744073709551616))
    unfold sync
    split
    · unfold processUpdate
      split
      · rename_i hor
        split
        · rename_i hnew
          have hnew := isLsaNew_iff.1 hnew
          unfold ownUpdate
          split
          · rename_i ht
            rw [ht, hor] at hnew
            exact .built _ rfl (Or.inr ⟨Nat.mod_lt _ (by decide), hnew⟩)
          · split
            · refine .same ?_
              have hi0 : Inv c { s with seqs := s.seqs.set .adjacency (k % 18446744073709551616) } :=
                hi.frame (frame_quiet rfl rfl rfl rfl rfl)
              exact view_build_ne hi0 .adjacency (c.hyp ≠ .on) ⟨c.router, inc64 (k % 18446744073709551616),
                expirationPoint c s, .adj (AdjacencyList.lsaList s.adjs)⟩ (norm_adj.2 (lsaList_names _))
                (by simp [Lsa.type, Content.type]) c.router
            · exact frame _ rfl
          · split
            · refine .same ?_
              have hi0 : Inv c { s with seqs := s.seqs.set .coordinate (k % 18446744073709551616) } :=
                hi.frame (frame_quiet rfl rfl rfl rfl rfl)
              exact view_build_ne hi0 .coordinate (c.hyp ≠ .off) ⟨c.router, inc64 (k % 18446744073709551616),
                expirationPoint c s, .coord c.radius c.angles⟩ rfl (by simp [Lsa.type, Content.type]) c.router
            · exact frame _ rfl
          · exact frame _ rfl
        · exact frame _ rfl
      · split
        · split
          · exact frame _ rfl
          · exact frame _ (expressInterest_still (s.emit _) _ _ _).db
        · exact frame _ rfl
    · exact frame _ rfl
  | fetched i p =>
    show OwnName c s (.fetched i p) (fetched c s i p)
    unfold fetched
    split
    · exact frame _ rfl
    · rename_i f hf
      unfold fetchDone
      dsimp only
      generalize hs0 : ({ s with
        fetches := s.fetches.eraseIdx i
        storage := s.storage.filter (fun n => !Name.isPrefixOf (f.lsaName ++ [Comp.number ((f.seq + 18446744073709551615) % 18446744073709551616)]) n) } : Lsdb) = s0
      have h0 : s0.db = s.db := by rw [← hs0]
      have hi0 : Inv c s0 := by rw [← hs0]; exact hi.frame (frame_quiet rfl rfl rfl rfl rfl)
      unfold afterFetch
      split
      · exact frame _ h0
      · rename_i s1 h1
        have h2 := (noteSeq_frame h1).db.trans h0
        have hi1 : Inv c s1 := hi0.frame (noteSeq_frame h1)
        dsimp only
        split
        · exact frame _ h2
        · split
          · exact frame _ h2
          · unfold installFetched
            cases p with
            | none => exact frame _ h2
            | some l =>
              dsimp only [Option.map]
              split
              · by_cases hk : l.origin = c.router ∧ l.type = .name
                · exact .fetched i l rfl hk.1 hk.2
                · refine .same ?_
                  show Option.map _ (Lsdb.find _ _ _) = Option.map _ (Lsdb.find _ _ _)
                  congr 1
                  rw [find_install_ne hi1 _ (norm_norm _)]
                  · unfold find; rw [h2]
                  · rintro ⟨e1, e2⟩
                    refine hk ⟨e1.symm, ?_⟩
                    have : l.content.norm.type = l.content.type := by cases l.content <;> rfl
                    exact (e2.trans this).symm
              · exact frame _ h2
  | fetchError i t => exact frame _ (fetchError_frame c s i t).db
  | retryTimer i => exact frame _ (retryTimer_frame s i).db
  | interest n v =>
    refine frame _ ?_
    show (if n.length ≤ maxComponents then processInterest c s n v else s).db = s.db
    split
    · exact (processInterest_frame c s n v).db
    · rfl

end Lsdb
end Nlsr
