import Verif.Lemmas.LsdbEff
/- The stored contents as the listeners of `onLsdbModified` follow them: every basic transition of the
LSDB changes at most one of them and says so with one signal. -/
namespace Nlsr
namespace Lsdb

/-- The content stored for each (router, type). -/
abbrev View := Name → LsaType → Option Content

def view (s : Lsdb) : View := fun r t => (s.find r t).map (·.lsa.content)

def View.set (v : View) (r : Name) (t : LsaType) (x : Option Content) : View :=
  fun r' t' => if r' = r ∧ t' = t then x else v r' t'

theorem View.set_self (v : View) (r : Name) (t : LsaType) : v.set r t (v r t) = v := by
  funext r' t'
  unfold View.set
  split
  · rename_i h; rw [h.1, h.2]
  · rfl

/-- One change of the stored contents with its signals. -/
inductive VS : View → List Out → View → Prop
  | quiet (v : View) (outs : List Out) (h : ∀ o ∈ outs, Out.isSignal o = false) : VS v outs v
  | installed (v : View) (l : Lsa) (hv : v l.origin l.type = none) (hn : l.content.norm = l.content) :
      VS v [.signal .installed l [] []] (v.set l.origin l.type (some l.content))
  | updated (v : View) (l : Lsa) (old : Content) (hv : v l.origin l.type = some old) (ho : old.norm = old)
      (ht : old.type = l.type) (hn : l.content.norm = l.content) (hu : (old.update l.content).updated = true) :
      VS v [.signal .updated l (old.update l.content).adds (old.update l.content).removes]
        (v.set l.origin l.type (some (old.update l.content).content))
  | removed (v : View) (l : Lsa) (hv : v l.origin l.type = some l.content) (hn : l.content.norm = l.content) :
      VS v [.signal .removed l [] []] (v.set l.origin l.type none)

theorem foldl_insert_empty {α : Type} {f : PrefixMap → α → PrefixMap} {l : List α} {m : PrefixMap} (h : l.isEmpty = true) :
    l.foldl f m = m := by
  cases l with
  | nil => rfl
  | cons => simp at h

/-- An update that reports no change changes nothing. -/
theorem update_content_same (a b : Content) (h : (a.update b).updated = false) : (a.update b).content = a := by
  cases a <;> cases b <;> simp only [Content.update] at h ⊢
  · unfold updateAdj at h ⊢
    split <;> simp_all
  · unfold updateCoord at h ⊢
    split <;> simp_all
  · unfold updateNames at h ⊢
    dsimp only at h ⊢
    simp only [Bool.or_eq_false_iff, Bool.not_eq_false'] at h
    rw [foldl_insert_empty h.2, foldl_insert_empty h.1]

theorem view_frame {s s' : Lsdb} (h : s'.db = s.db) : view s' = view s := by
  funext r t
  unfold view find
  rw [h]

theorem view_set {c : LConf} {s s' : Lsdb} (hi' : Inv c s') {r : Name} {t : LsaType} {x : Option Content}
    (hk : view s' r t = x)
    (ho : ∀ r' t', ¬ (r' = r ∧ t' = t) → ∀ o, o.lsa.origin = r' → o.lsa.type = t' → (o ∈ s'.db ↔ o ∈ s.db)) :
    view s' = (view s).set r t x := by
  funext r' t'
  unfold View.set
  split
  · rename_i h; rw [h.1, h.2]; exact hk
  · rename_i h
    show (s'.find r' t').map _ = (s.find r' t').map _
    rw [find_congr hi' (ho r' t' h)]

theorem vs_remove {c : LConf} {s : Lsdb} {x : Option Nat} (hi : InvW c s x) (r : Name) (t : LsaType)
    (hi' : Inv c (removeLsa s r t)) :
    ∃ outs, (removeLsa s r t).log = s.log ++ outs ∧ VS (view s) outs (view (removeLsa s r t)) := by
  cases hf : s.find r t with
  | none =>
    have : removeLsa s r t = s := by unfold removeLsa; rw [hf]
    rw [this]
    exact ⟨[], by simp, .quiet _ _ (by simp)⟩
  | some o =>
    obtain ⟨ho, hor, hot⟩ := find_some hf
    refine ⟨[.signal .removed o.lsa [] []], ?_, ?_⟩
    · unfold removeLsa; rw [hf]
    · have hv : view (removeLsa s r t) = (view s).set o.lsa.origin o.lsa.type none := by
        refine view_set hi' ?_ ?_
        · unfold view
          have : (removeLsa s r t).find o.lsa.origin o.lsa.type = none := by
            rw [find_none_iff]
            intro p hp hpk
            exact ((mem_removeLsa p).1 hp).2 ⟨by rw [hpk.1, hor], by rw [hpk.2, hot]⟩
          rw [this]; rfl
        · intro r' t' hne p h1 h2
          rw [mem_removeLsa]
          constructor
          · exact And.left
          · intro hp
            refine ⟨hp, ?_⟩
            rintro ⟨h3, h4⟩
            exact hne ⟨by rw [← h1, h3, hor], by rw [← h2, h4, hot]⟩
      rw [hv]
      refine .removed _ _ ?_ (hi.norm o ho)
      unfold view
      rw [hor, hot, hf]; rfl

theorem vs_refresh {c : LConf} {s : Lsdb} {x : Option Nat} {o : Obj} (hi : InvW c s x) (ho : o ∈ s.db)
    (hi' : Inv c (refresh c s o)) :
    ∃ outs, (refresh c s o).log = s.log ++ outs ∧ VS (view s) outs (view (refresh c s o)) := by
  have hq : QuietLog s.log (refresh c s o).log :=
    QuietLog.trans (QuietLog.one _ (.persist _) rfl) (QuietLog.one _ (.publish _ _) rfl)
  obtain ⟨outs, h1, h2⟩ := hq
  refine ⟨outs, h1, ?_⟩
  have hv : view (refresh c s o) = view s := by
    have : view (refresh c s o) = (view s).set o.lsa.origin o.lsa.type (view s o.lsa.origin o.lsa.type) := by
      refine view_set hi' ?_ ?_
      · have h3 : (refresh c s o).find o.lsa.origin o.lsa.type =
            some ⟨o.oid, ⟨o.lsa.origin, inc64 o.lsa.seq, s.expirationPoint c, o.lsa.content⟩, s.nextId⟩ :=
          (find_iff hi').2 ⟨(mem_refresh hi ho _).2 (Or.inl rfl), rfl, rfl⟩
        unfold view
        rw [h3, (find_iff hi).2 ⟨ho, rfl, rfl⟩]
        rfl
      · intro r' t' hne p h3 h4
        rw [mem_refresh hi ho]
        constructor
        · rintro (rfl | h5)
          · exact absurd ⟨h3.symm, h4.symm⟩ hne
          · exact h5.1
        · intro hp
          refine Or.inr ⟨hp, ?_⟩
          rintro rfl
          exact hne ⟨h3.symm, h4.symm⟩
    rw [this, View.set_self]
  rw [hv]
  exact .quiet _ _ h2

theorem vs_install {c : LConf} {s : Lsdb} (hi : Inv c s) (l : Lsa) (hn : l.content.norm = l.content) :
    ∃ outs, (installLsa c s l).log = s.log ++ outs ∧ VS (view s) outs (view (installLsa c s l)) := by
  have hi' := install_inv hi l hn
  have hc := install_cases c s l
  generalize installLsa c s l = s' at hc hi'
  cases hc with
  | rejected o hf hle => exact ⟨[], by simp, .quiet _ _ (by simp)⟩
  | fresh hf =>
    refine ⟨_, rfl, ?_⟩
    have hv : view (installNew s l (timeToExpire c s l)) = (view s).set l.origin l.type (some l.content) := by
      refine view_set hi' ?_ ?_
      · have : (installNew s l (timeToExpire c s l)).find l.origin l.type = some ⟨s.nextId, l, s.nextId + 1⟩ :=
          (find_iff hi').2 ⟨List.mem_append_right _ (by simp), rfl, rfl⟩
        unfold view; rw [this]; rfl
      · intro r' t' hne o h1 h2
        show o ∈ s.db ++ [_] ↔ _
        rw [List.mem_append, List.mem_singleton]
        constructor
        · rintro (h3 | rfl)
          · exact h3
          · exact absurd ⟨h1.symm, h2.symm⟩ hne
        · exact Or.inl
    rw [hv]
    refine .installed _ _ ?_ hn
    unfold view; rw [hf]; rfl
  | newer o hf hlt =>
    obtain ⟨ho, hor, hot⟩ := find_some hf
    have hold : view s l.origin l.type = some o.lsa.content := by unfold view; rw [hf]; rfl
    have hv : view (installUpdate s o l (timeToExpire c s l)) =
        (view s).set l.origin l.type (some (o.lsa.content.update l.content).content) := by
      refine view_set hi' ?_ ?_
      · have : (installUpdate s o l (timeToExpire c s l)).find l.origin l.type =
            some ⟨o.oid, ⟨o.lsa.origin, l.seq, l.exp, (o.lsa.content.update l.content).content⟩, s.nextId⟩ := by
          refine (find_iff hi').2 ⟨(mem_installUpdate hi ho l _ _).2 (Or.inl rfl), hor, ?_⟩
          exact (Content.update_type _ _).trans hot
        unfold view; rw [this]; rfl
      · intro r' t' hne p h1 h2
        rw [mem_installUpdate hi ho]
        constructor
        · rintro (rfl | h3)
          · refine absurd ⟨h1.symm.trans hor, ?_⟩ hne
            rw [← h2, ← hot]
            exact (Content.update_type _ _)
          · exact h3.1
        · intro h3
          refine Or.inr ⟨h3, ?_⟩
          rintro rfl
          exact hne ⟨h1.symm.trans hor, h2.symm.trans hot⟩
    rw [hv]
    cases hu : (o.lsa.content.update l.content).updated with
    | true =>
      refine ⟨[.signal .updated l (o.lsa.content.update l.content).adds (o.lsa.content.update l.content).removes], ?_,
        .updated _ _ _ hold (hi.norm o ho) hot hn hu⟩
      unfold installUpdate
      dsimp only
      rw [if_pos hu]
      rfl
    | false =>
      refine ⟨[], ?_, ?_⟩
      · unfold installUpdate
        dsimp only
        rw [if_neg (by rw [hu]; simp)]
        simp [reschedule]
      · rw [update_content_same _ _ hu, ← hold, View.set_self]
        exact .quiet _ _ (by simp)

theorem vs_tr {c : LConf} {s s' : Lsdb} (hi : Inv c s) (t : Tr c s s') :
    ∃ outs, s'.log = s.log ++ outs ∧ VS (view s) outs (view s') := by
  cases t with
  | frame f =>
    obtain ⟨outs, h1, h2⟩ := f.log
    exact ⟨outs, h1, by rw [view_frame f.db]; exact .quiet _ _ h2⟩
  | install l hn => exact vs_install hi l hn
  | removeOwn => exact vs_remove hi _ _ (tr_inv hi (.removeOwn _))
  | fire eid =>
    have hi' := fire_inv hi eid
    have hc := fire_cases hi eid
    generalize fire c s eid = s' at hc hi'
    cases hc with
    | idle => exact ⟨[], by simp, .quiet _ _ (by simp)⟩
    | own ev o hev he hdue ho hoid hevt hr =>
      subst he
      obtain ⟨h1, -⟩ := drop_inv hi (List.mem_append_left _ ho) hev hoid
      exact vs_refresh (s := drop s ev.eid) h1 ho hi'
    | other ev o hev he hdue ho hoid hevt hr =>
      subst he
      obtain ⟨h1, h2⟩ := drop_inv hi (List.mem_append_left _ ho) hev hoid
      exact vs_remove (s := drop s ev.eid) h1 _ _ hi'
    | stale ev o hev he hdue ho hoid hr ht => exact ⟨[], by simp [drop], .quiet _ _ (by simp)⟩
    | hit ev o p hev he hdue ho hoid hr ht hp hpr hpt hseq =>
      subst he
      obtain ⟨h1, -⟩ := drop_inv hi (List.mem_append_right _ ho) hev hoid
      exact vs_refresh (s := drop s ev.eid) h1 hp hi'

/-- A sequence of changes with all their signals. -/
inductive VSs : View → List Out → View → Prop
  | refl (v : View) : VSs v [] v
  | tail {v w x : View} {a b : List Out} (h : VSs v a w) (h' : VS w b x) : VSs v (a ++ b) x

theorem vss_trs {c : LConf} {s s' : Lsdb} (hi : Inv c s) (t : Trs c s s') :
    ∃ outs, s'.log = s.log ++ outs ∧ VSs (view s) outs (view s') := by
  induction t with
  | refl => exact ⟨[], by simp, .refl _⟩
  | @tail a b h1 h2 ih =>
    obtain ⟨o1, k1, k2⟩ := ih
    obtain ⟨o2, k3, k4⟩ := vs_tr (trs_inv hi h1) h2
    exact ⟨o1 ++ o2, by rw [k3, k1, List.append_assoc], .tail k2 k4⟩

/-- What a step logs and how the contents change with it. -/
theorem vss_step {c : LConf} {s : Lsdb} (hi : Inv c s) (op : Op) :
    (step c s op).log = s.log ++ (step c s op).log.drop s.log.length ∧
    VSs (view s) ((step c s op).log.drop s.log.length) (view (step c s op)) := by
  obtain ⟨outs, h1, h2⟩ := vss_trs hi (trs_step c s op)
  have : (step c s op).log.drop s.log.length = outs := by rw [h1]; simp
  rw [this]
  exact ⟨h1, h2⟩

end Lsdb
end Nlsr
