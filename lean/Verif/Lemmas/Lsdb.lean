import Mathlib.Logic.Relation
import Verif.Lemmas.PrefixMap
import Verif.Model.Lsdb
/- Structure of the LSDB state machine: every step is a sequence of basic transitions; the invariant on
objects and timers. -/
namespace Nlsr
namespace Lsdb

theorem isKey_iff {r : Name} {t : LsaType} {o : Obj} : isKey r t o = true ↔ o.lsa.origin = r ∧ o.lsa.type = t := by
  simp [isKey]

theorem least_some {α : Type} {key : α → Name} {n : Name} {l : List α} {d : α} (h : least key n l = some d) :
    d ∈ l ∧ n <+: key d ∧ ∀ e ∈ l, n <+: key e → Name.lt (key e) (key d) = false := by
  induction l generalizing d with
  | nil => cases h
  | cons a l ih =>
    unfold least at h
    cases hl : least key n l with
    | none =>
      rw [hl] at h
      dsimp only at h
      split at h
      · rename_i hp
        cases h
        refine ⟨List.mem_cons_self, List.isPrefixOf_iff_prefix.1 hp, ?_⟩
        intro e he hpe
        rcases List.mem_cons.1 he with rfl | he
        · simp [Name.lt]
        · exfalso
          have none : ∀ l : List α, least key n l = none → ∀ e ∈ l, ¬ n <+: key e := by
            intro l
            induction l with
            | nil => intro _ e he; cases he
            | cons b l ih2 =>
              intro hn e he hpe
              unfold least at hn
              cases hl2 : least key n l with
              | some x => rw [hl2] at hn; dsimp only at hn; split at hn <;> cases hn
              | none =>
                rw [hl2] at hn
                dsimp only at hn
                split at hn
                · cases hn
                · rename_i hnp
                  rcases List.mem_cons.1 he with rfl | he
                  · exact hnp (List.isPrefixOf_iff_prefix.2 hpe)
                  · exact ih2 hl2 e he hpe
          exact none l hl e he hpe
      · cases h
    | some x =>
      rw [hl] at h
      dsimp only at h
      obtain ⟨h1, h2, h3⟩ := ih hl
      split at h
      · rename_i hc
        cases h
        rw [Bool.and_eq_true, Bool.not_eq_true'] at hc
        refine ⟨List.mem_cons_self, List.isPrefixOf_iff_prefix.1 hc.1, ?_⟩
        intro e he hpe
        rcases List.mem_cons.1 he with rfl | he
        · simp [Name.lt]
        · have g1 := h3 e he hpe
          have g2 := hc.2
          unfold Name.lt at g1 g2 ⊢
          rw [decide_eq_false_iff_not, List.not_lt] at g1 g2 ⊢
          exact List.le_trans g2 g1
      · rename_i hc
        cases h
        refine ⟨List.mem_cons_of_mem _ h1, h2, ?_⟩
        intro e he hpe
        rcases List.mem_cons.1 he with rfl | he
        · rw [Bool.and_eq_true, Bool.not_eq_true'] at hc
          have hlt : Name.lt (key d) (key e) = true := by
            cases hb : Name.lt (key d) (key e) with
            | true => rfl
            | false => exact absurd ⟨List.isPrefixOf_iff_prefix.2 hpe, hb⟩ hc
          unfold Name.lt at hlt ⊢
          rw [decide_eq_true_eq] at hlt
          rw [decide_eq_false_iff_not]
          exact List.lt_asymm hlt
        · exact h3 e he hpe

theorem least_none {α : Type} {key : α → Name} {n : Name} {l : List α} (h : least key n l = none) :
    ∀ e ∈ l, ¬ n <+: key e := by
  induction l with
  | nil => intro e he; cases he
  | cons a l ih =>
    intro e he hpe
    unfold least at h
    cases hl : least key n l with
    | some x => rw [hl] at h; dsimp only at h; split at h <;> cases h
    | none =>
      rw [hl] at h
      dsimp only at h
      split at h
      · cases h
      · rename_i hnp
        rcases List.mem_cons.1 he with rfl | he
        · exact hnp (List.isPrefixOf_iff_prefix.2 hpe)
        · exact ih hl e he hpe

/-- A name comes before all longer names that begin with it. -/
theorem lt_of_prefix {a b : Name} (h : a <+: b) (hne : a ≠ b) : Name.lt a b = true := by
  obtain ⟨t, rfl⟩ := h
  have ht : t ≠ [] := fun e => hne (by simp [e])
  unfold Name.lt
  rw [decide_eq_true_eq, List.map_append]
  generalize a.map Comp.key = x
  cases t with
  | nil => exact absurd rfl ht
  | cons y ys =>
    rw [List.map_cons]
    induction x with
    | nil => exact List.Lex.nil
    | cons z zs ih => exact List.Lex.cons ih

/-- An entry of exactly that name is found. -/
theorem least_exact {α : Type} {key : α → Name} {n : Name} {l : List α} {d : α} (hd : d ∈ l) (e : key d = n) :
    ∃ d', least key n l = some d' ∧ d' ∈ l ∧ key d' = n := by
  cases h : least key n l with
  | none => exact absurd (e ▸ List.prefix_rfl) (least_none h d hd)
  | some d' =>
    obtain ⟨h1, h2, h3⟩ := least_some h
    refine ⟨d', rfl, h1, ?_⟩
    have g := h3 d hd (e ▸ List.prefix_rfl)
    rw [e] at g
    exact (Classical.byContradiction fun hne => by
      rw [lt_of_prefix h2 (fun e => hne e.symm)] at g; cases g)

theorem find_some {s : Lsdb} {r : Name} {t : LsaType} {o : Obj} (h : s.find r t = some o) :
    o ∈ s.db ∧ o.lsa.origin = r ∧ o.lsa.type = t := by
  unfold find at h
  exact ⟨List.mem_of_find?_eq_some h, isKey_iff.mp (List.find?_some h)⟩

theorem find_none {s : Lsdb} {r : Name} {t : LsaType} (h : s.find r t = none) :
    ∀ o ∈ s.db, ¬ (o.lsa.origin = r ∧ o.lsa.type = t) := by
  intro o ho hk
  unfold find at h
  rw [List.find?_eq_none] at h
  exact h o ho (isKey_iff.mpr hk)

theorem Content.update_type (a b : Content) : (a.update b).content.type = a.type := by
  cases a <;> cases b <;> simp only [Content.update, updateAdj, updateCoord, updateNames, Content.type] <;>
    split <;> simp_all <;> split at * <;> simp_all

def Out.isSignal : Out → Bool
  | .signal .. => true
  | _ => false

/-- `b` extends the log of `a` without emitting a modification signal. -/
def QuietLog (a b : List Out) : Prop := ∃ outs, b = a ++ outs ∧ ∀ o ∈ outs, Out.isSignal o = false

theorem QuietLog.refl (a : List Out) : QuietLog a a := ⟨[], by simp, by simp⟩

theorem QuietLog.one (a : List Out) (o : Out) (h : Out.isSignal o = false) : QuietLog a (a ++ [o]) :=
  ⟨[o], rfl, by simpa using h⟩

theorem QuietLog.trans {a b c : List Out} (h : QuietLog a b) (h' : QuietLog b c) : QuietLog a c := by
  obtain ⟨o, rfl, ho⟩ := h
  obtain ⟨o', rfl, ho'⟩ := h'
  refine ⟨o ++ o', by simp, ?_⟩
  intro x hx
  rcases List.mem_append.mp hx with hx | hx
  · exact ho x hx
  · exact ho' x hx

/-- Objects, timers and signals are not touched. -/
structure Frame (s s' : Lsdb) : Prop where
  db : s'.db = s.db
  dead : s'.dead = s.dead
  events : s'.events = s.events
  nextId : s'.nextId = s.nextId
  log : QuietLog s.log s'.log

theorem Frame.refl (s : Lsdb) : Frame s s := ⟨rfl, rfl, rfl, rfl, QuietLog.refl _⟩

theorem Frame.trans {a b c : Lsdb} (h : Frame a b) (h' : Frame b c) : Frame a c :=
  ⟨h'.db.trans h.db, h'.dead.trans h.dead, h'.events.trans h.events, h'.nextId.trans h.nextId, h.log.trans h'.log⟩

theorem Frame.after {a b c : Lsdb} (h' : Frame b c) (h : Frame a b) : Frame a c := h.trans h'

theorem Frame.emit (s : Lsdb) (o : Out) (h : Out.isSignal o = false) : Frame s (s.emit o) :=
  ⟨rfl, rfl, rfl, rfl, QuietLog.one _ _ h⟩

/-- A basic transition of the objects. -/
inductive Tr (c : LConf) : Lsdb → Lsdb → Prop
  | frame {s s' : Lsdb} (h : Frame s s') : Tr c s s'
  | install (s : Lsdb) (l : Lsa) (h : l.content.norm = l.content) : Tr c s (installLsa c s l)
  | removeOwn (s : Lsdb) : Tr c s (removeLsa s c.router .adjacency)
  | fire (s : Lsdb) (eid : Nat) : Tr c s (fire c s eid)

abbrev Trs (c : LConf) := Relation.ReflTransGen (Tr c)

theorem Trs.after {c : LConf} {s s1 s2 : Lsdb} (h : Trs c s1 s2) (hf : Frame s s1) : Trs c s s2 :=
  .head (.frame hf) h

theorem Trs.frame {c : LConf} {s s' : Lsdb} (h : Frame s s') : Trs c s s' := .single (.frame h)

theorem adj_insert_names (l : AdjacencyList) (a : Adjacent) (h : (l.map (·.name)).Nodup) :
    (((AdjacencyList.insert l a).1).map (·.name)).Nodup := by
  unfold AdjacencyList.insert
  cases hf : AdjacencyList.find l a.name with
  | some _ => simpa using h
  | none =>
    simp only [AdjacencyList.find, List.find?_eq_none, beq_iff_eq] at hf
    simp only [List.map_append, List.map_cons, List.map_nil]
    rw [List.nodup_append]
    refine ⟨h, by simp, ?_⟩
    intro x hx y hy
    simp only [List.mem_singleton] at hy
    obtain ⟨b, hb, rfl⟩ := List.mem_map.mp hx
    intro he
    exact hf b hb (he.trans hy)

theorem adj_fold_nodup (l : List Adjacent) : ∀ acc : AdjacencyList, ((acc ++ l).map (·.name)).Nodup →
    l.foldl (fun acc a => (AdjacencyList.insert acc a).1) acc = acc ++ l := by
  induction l with
  | nil => intro acc _; simp
  | cons a as ih =>
    intro acc h
    have hins : (AdjacencyList.insert acc a).1 = acc ++ [a] := by
      unfold AdjacencyList.insert
      have : AdjacencyList.find acc a.name = none := by
        simp only [AdjacencyList.find, List.find?_eq_none, beq_iff_eq]
        intro b hb he
        rw [List.map_append, List.nodup_append] at h
        exact h.2.2 b.name (List.mem_map_of_mem hb) a.name (by simp) he
      rw [this]
    rw [List.foldl_cons, hins, ih]
    · simp
    · simpa using h

theorem adj_ofList_nodup (l : AdjacencyList) (h : (l.map (·.name)).Nodup) : AdjacencyList.ofList l = l := by
  unfold AdjacencyList.ofList
  simpa using adj_fold_nodup l [] (by simpa using h)

theorem adj_fold_names (l : List Adjacent) : ∀ acc : AdjacencyList, (acc.map (·.name)).Nodup →
    ((l.foldl (fun acc a => (AdjacencyList.insert acc a).1) acc).map (·.name)).Nodup := by
  induction l with
  | nil => intro acc h; exact h
  | cons a as ih => intro acc h; exact ih _ (adj_insert_names acc a h)

theorem adj_ofList_names (l : List Adjacent) : ((AdjacencyList.ofList l).map (·.name)).Nodup :=
  adj_fold_names l [] (by simp)

theorem lsaList_names (l : AdjacencyList) : ((AdjacencyList.lsaList l).map (·.name)).Nodup := by
  unfold AdjacencyList.lsaList
  suffices h : ∀ acc : AdjacencyList, (acc.map (·.name)).Nodup →
      ((l.foldl (fun acc a => if a.status = .active then (AdjacencyList.insert acc a).1 else acc) acc).map
        (·.name)).Nodup from h [] (by simp)
  induction l with
  | nil => intro acc h; exact h
  | cons a as ih =>
    intro acc h
    rw [List.foldl_cons]
    apply ih
    split
    · exact adj_insert_names acc a h
    · exact h

theorem norm_norm (c : Content) : c.norm.norm = c.norm := by
  cases c with
  | adj l => simp only [Content.norm]; rw [adj_ofList_nodup _ (adj_ofList_names l)]
  | coord r as => rfl
  | names l => simp only [Content.norm]; rw [PrefixMap.ofList_of_sorted (PrefixMap.ofList_sorted l)]

theorem announce_frame (s : Lsdb) (t : LsaType) (b : Bool) : Frame s (announce s t b) := by
  unfold announce persist publish
  dsimp only
  refine ⟨?_, ?_, ?_, ?_, ?_⟩
  · split <;> rfl
  · split <;> rfl
  · split <;> rfl
  · split <;> rfl
  · split
    · exact QuietLog.trans (QuietLog.one _ _ rfl) (QuietLog.one _ _ rfl)
    · exact QuietLog.one _ _ rfl

theorem trs_buildName (c : LConf) (s : Lsdb) : Trs c s (buildName c s) := by
  unfold buildName
  refine .tail (Trs.frame (announce_frame s _ _)) (.install _ _ ?_)
  simp only [Content.norm]
  rw [PrefixMap.ofList_of_sorted (PrefixMap.ofList_sorted _)]

theorem trs_buildCoord (c : LConf) (s : Lsdb) : Trs c s (buildCoord c s) := by
  unfold buildCoord
  exact .tail (Trs.frame (announce_frame s _ _)) (.install _ _ rfl)

theorem trs_buildAdj (c : LConf) (s : Lsdb) : Trs c s (buildAdj c s) := by
  unfold buildAdj
  refine .tail (Trs.frame (announce_frame s _ _)) (.install _ _ ?_)
  simp only [Content.norm]
  rw [adj_ofList_nodup _ (lsaList_names _)]

theorem frame_quiet {s s' : Lsdb} (h1 : s'.db = s.db) (h2 : s'.dead = s.dead) (h3 : s'.events = s.events)
    (h4 : s'.nextId = s.nextId) (h5 : s'.log = s.log) : Frame s s' :=
  ⟨h1, h2, h3, h4, by rw [h5]; exact QuietLog.refl _⟩

theorem trs_buildOrRemove (c : LConf) (s : Lsdb) : Trs c s (buildOrRemove c s) := by
  unfold buildOrRemove
  split
  · dsimp only
    split
    · exact .tail (trs_buildAdj c s) (.frame (frame_quiet rfl rfl rfl rfl rfl))
    · exact .tail (.single (.removeOwn s)) (.frame (frame_quiet rfl rfl rfl rfl rfl))
  · exact .refl

theorem trs_buildAdjLsa (c : LConf) (s : Lsdb) : Trs c s (buildAdjLsa c s) := by
  unfold buildAdjLsa
  dsimp only
  split
  · exact Trs.after (trs_buildOrRemove c _) (frame_quiet rfl rfl rfl rfl rfl)
  · exact Trs.frame (frame_quiet rfl rfl rfl rfl rfl)

theorem noteSeq_frame {s s' : Lsdb} {n : Name} {k : Nat} (h : s.noteSeq n k = some s') : Frame s s' := by
  unfold noteSeq at h
  split at h
  · cases h; exact frame_quiet rfl rfl rfl rfl rfl
  · split at h
    · cases h; exact frame_quiet rfl rfl rfl rfl rfl
    · split at h
      · cases h
      · cases h; exact Frame.refl _

theorem expressInterest_frame (s : Lsdb) (n : Name) (k d : Nat) : Frame s (expressInterest s n k d) := by
  unfold expressInterest
  cases h : s.noteSeq n k with
  | none => exact Frame.refl _
  | some s1 =>
    exact (noteSeq_frame h).trans ⟨rfl, rfl, rfl, rfl, QuietLog.one _ _ rfl⟩

theorem trs_ownUpdate (c : LConf) (s : Lsdb) (t : LsaType) (k : Nat) : Trs c s (ownUpdate c s t k) := by
  unfold ownUpdate
  split
  · exact Trs.after (trs_buildName c _) (frame_quiet rfl rfl rfl rfl rfl)
  · split
    · exact Trs.after (trs_buildAdj c _) (frame_quiet rfl rfl rfl rfl rfl)
    · exact .refl
  · split
    · exact Trs.after (trs_buildCoord c _) (frame_quiet rfl rfl rfl rfl rfl)
    · exact .refl
  · exact .refl

theorem trs_processUpdate (c : LConf) (s : Lsdb) (n : Name) (k : Nat) (o : Name) (t : LsaType) :
    Trs c s (processUpdate c s n k o t) := by
  unfold processUpdate
  split
  · split
    · exact trs_ownUpdate c s t k
    · exact .refl
  · split
    · split
      · exact .refl
      · exact Trs.frame ((Frame.emit _ _ rfl).trans (expressInterest_frame _ _ _ _))
    · exact .refl

theorem trs_afterFetch (c : LConf) (s : Lsdb) (f : Fetch) (p : Option Lsa)
    (hp : ∀ l, p = some l → l.content.norm = l.content) : Trs c s (afterFetch c s f p) := by
  unfold afterFetch
  cases h : s.noteSeq f.lsaName f.seq with
  | none => exact .refl
  | some s1 =>
    have hf := Trs.frame (c := c) (noteSeq_frame h)
    dsimp only
    split
    · exact hf
    · split
      · exact hf
      · unfold installFetched
        split
        · exact hf
        · split
          · exact .tail hf (.install _ _ (hp _ rfl))
          · exact hf

theorem trs_fetched (c : LConf) (s : Lsdb) (i : Nat) (p : Option Lsa) : Trs c s (fetched c s i p) := by
  unfold fetched
  split
  · exact .refl
  · unfold fetchDone
    dsimp only
    refine Trs.after (trs_afterFetch c _ _ _ ?_) (frame_quiet rfl rfl rfl rfl rfl)
    intro l hl
    simp only [Option.map_eq_some_iff] at hl
    obtain ⟨l', -, rfl⟩ := hl
    exact norm_norm _

theorem fetchError_frame (c : LConf) (s : Lsdb) (i : Nat) (b : Bool) : Frame s (fetchError c s i b) := by
  unfold fetchError
  split
  · exact Frame.refl _
  · unfold fetchFailed
    split
    · exact frame_quiet rfl rfl rfl rfl rfl
    · exact frame_quiet rfl rfl rfl rfl rfl

theorem retryTimer_frame (s : Lsdb) (i : Nat) : Frame s (retryTimer s i) := by
  unfold retryTimer
  split
  · exact Frame.refl _
  · split
    · exact Frame.refl _
    · exact Frame.after (expressInterest_frame _ _ _ _) (frame_quiet rfl rfl rfl rfl rfl)

theorem replyOwn_frame (c : LConf) (s : Lsdb) (n : Name) (t : LsaType) (k v : Nat) :
    Frame s (replyOwn c s n t k v) := by
  unfold replyOwn
  split
  · exact Frame.refl _
  · split
    · dsimp only
      split
      · exact Frame.after (Frame.emit _ _ rfl) (frame_quiet rfl rfl rfl rfl rfl)
      · exact frame_quiet rfl rfl rfl rfl rfl
    · exact Frame.refl _

theorem processStripped_frame (c : LConf) (s : Lsdb) (n m : Name) (v : Nat) :
    Frame s (processStripped c s n m v) := by
  unfold processStripped
  split
  · split
    · split
      · exact Frame.emit _ _ rfl
      · split
        · exact Frame.refl _
        · exact replyOwn_frame _ _ _ _ _ _
    · exact Frame.emit _ _ rfl
  · split
    · exact Frame.emit _ _ rfl
    · exact Frame.refl _

theorem processInterest_frame (c : LConf) (s : Lsdb) (n : Name) (v : Nat) : Frame s (processInterest c s n v) := by
  unfold processInterest
  split
  · split
    · exact Frame.refl _
    · split
      · split
        · exact Frame.emit _ _ rfl
        · exact processStripped_frame _ _ _ _ _
      · exact processStripped_frame _ _ _ _ _
  · exact Frame.refl _

theorem trs_step (c : LConf) (s : Lsdb) (op : Op) : Trs c s (step c s op) := by
  cases op with
  | clock dt sys => exact Trs.frame (frame_quiet rfl rfl rfl rfl rfl)
  | setAdjs l => exact Trs.frame (frame_quiet rfl rfl rfl rfl rfl)
  | setNpl l => exact Trs.frame (frame_quiet rfl rfl rfl rfl rfl)
  | buildName => exact trs_buildName c s
  | scheduleBuild =>
    refine Trs.frame ?_
    show Frame s (scheduleBuild c s)
    unfold scheduleBuild
    dsimp only
    split
    · exact frame_quiet rfl rfl rfl rfl rfl
    · exact frame_quiet rfl rfl rfl rfl rfl
  | buildTimer =>
    show Trs c s (buildTimer c s)
    unfold buildTimer
    split
    · exact .refl
    · split
      · exact .refl
      · exact trs_buildAdjLsa c s
  | timer eid => exact .single (.fire s eid)
  | sync n k =>
    show Trs c s (sync c s n _)
    unfold sync
    split
    · exact trs_processUpdate c s _ _ _ _
    · exact .refl
  | fetched i p => exact trs_fetched c s i p
  | fetchError i t => exact Trs.frame (fetchError_frame c s i t)
  | retryTimer i => exact Trs.frame (retryTimer_frame s i)
  | segment n => exact Trs.frame (frame_quiet rfl rfl rfl rfl rfl)
  | segmentGone n => exact Trs.frame (frame_quiet rfl rfl rfl rfl rfl)
  | interest n v =>
    show Trs c s (if n.length ≤ maxComponents then s.processInterest c n v else s)
    split
    · exact Trs.frame (processInterest_frame c s n v)
    · exact .refl
  | fifoGone n => exact Trs.frame (frame_quiet rfl rfl rfl rfl rfl)

theorem trs_run (c : LConf) (s : Lsdb) (ops : List Op) : Trs c s (run c s ops) := by
  unfold run
  induction ops generalizing s with
  | nil => exact .refl
  | cons op ops ih => exact .trans (trs_step c s op) (ih _)

theorem trs_init (c : LConf) (disk : Option Seqs) (adjs : AdjacencyList) (npl : List PrefixInfo) (sys : Int) :
    Trs c (boot c disk adjs npl sys) (init c disk adjs npl sys) := by
  unfold init
  dsimp only
  split
  · exact trs_buildName c _
  · exact .trans (trs_buildName c _) (trs_buildCoord c _)

/-- States the daemon can be in. -/
def Reachable (c : LConf) (s : Lsdb) : Prop :=
  ∃ disk adjs npl sys ops, s = run c (init c disk adjs npl sys) ops

theorem Reachable.trs {c : LConf} {s : Lsdb} (h : Reachable c s) :
    ∃ disk adjs npl sys, Trs c (boot c disk adjs npl sys) s := by
  obtain ⟨disk, adjs, npl, sys, ops, rfl⟩ := h
  exact ⟨disk, adjs, npl, sys, .trans (trs_init c disk adjs npl sys) (trs_run c _ ops)⟩

theorem Reachable.step {c : LConf} {s : Lsdb} (h : Reachable c s) (op : Op) : Reachable c (step c s op) := by
  obtain ⟨disk, adjs, npl, sys, ops, rfl⟩ := h
  exact ⟨disk, adjs, npl, sys, ops ++ [op], by simp [run]⟩

end Lsdb
end Nlsr
