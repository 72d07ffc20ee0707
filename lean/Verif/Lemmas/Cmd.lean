import Verif.Model.Cmd
import Verif.Lemmas.LsdbOwn
import Verif.Props.NplList
import Verif.Props.LsdbContent
/- The prefix commands: invariant, and what a step does to the list, the LSDB and the replies. -/
namespace Nlsr

namespace Npl

theorem infos_sorted {l : Npl} (h : Sorted l) : PrefixMap.Sorted l.infos := by
  unfold PrefixMap.Sorted infos
  rw [List.pairwise_map]
  exact h

theorem get_infos (l : Npl) (n : Name) : PrefixMap.get l.infos n = (get l n).map (·.cost) := by
  unfold PrefixMap.get get infos
  rw [List.find?_map, Option.map_map]
  rfl

/-- Every entry has the source of commands and configuration. -/
def Plain (l : Npl) : Prop := ∀ n e, get l n = some e → e.sources = [""]

theorem insert_plain {l : Npl} (hs : Sorted l) (h : Plain l) (n : Name) (c : Ext Rat) : Plain (insert l n "" c).2 := by
  intro m e he
  rw [get_insert hs] at he
  split at he
  · injection he with he
    subst he
    dsimp only
    cases hg : get l n with
    | none => rfl
    | some e => dsimp only; rw [h n e hg]; rfl
  · exact h m e he

theorem erase_plain {l : Npl} (h : Plain l) (n : Name) : Plain (erase l n "").2 := by
  intro m e he
  rw [get_erase] at he
  split at he
  · cases hg : get l n with
    | none => rw [hg] at he; cases he
    | some e' => rw [hg] at he; dsimp only at he; rw [h n e' hg] at he; simp at he
  · exact h m e he

theorem insert_fst_plain {l : Npl} (hs : Sorted l) (h : Plain l) (n : Name) (c : Ext Rat) :
    (insert l n "" c).1 = decide (n ∉ names l) := by
  rw [insert_fst hs]
  have := mem_names_iff l n
  cases hg : get l n with
  | none => simp [this, hg]
  | some e => simp [this, hg, h n e hg]

theorem erase_fst_plain {l : Npl} (h : Plain l) (n : Name) : (erase l n "").1 = decide (n ∈ names l) := by
  rw [erase_fst]
  have := mem_names_iff l n
  cases hg : get l n with
  | none => simp [this, hg]
  | some e => simp [this, hg, h n e hg]

theorem get_erase_plain {l : Npl} (h : Plain l) (n m : Name) :
    get (erase l n "").2 m = if m = n then none else get l m := by
  rw [get_erase]
  split
  · cases hg : get l n with
    | none => rfl
    | some e => dsimp only; rw [h n e hg]; simp
  · rfl

theorem get_insert_cost {l : Npl} (hs : Sorted l) (n : Name) (c : Ext Rat) (m : Name) :
    (get (insert l n "" c).2 m).map (·.cost) = if m = n then some c else (get l m).map (·.cost) := by
  rw [get_insert hs]
  split <;> rfl

theorem mem_names_insert {l : Npl} (hs : Sorted l) (n m : Name) (c : Ext Rat) :
    m ∈ names (insert l n "" c).2 ↔ m = n ∨ m ∈ names l := by
  rw [mem_names_iff, mem_names_iff, get_insert hs]
  by_cases h : m = n <;> simp [h]

theorem mem_names_erase {l : Npl} (h : Plain l) (n m : Name) :
    m ∈ names (erase l n "").2 ↔ m ≠ n ∧ m ∈ names l := by
  rw [mem_names_iff, mem_names_iff, get_erase_plain h]
  by_cases h : m = n <;> simp [h]

theorem ext {a b : Npl} (ha : Sorted a) (hb : Sorted b) (h : ∀ n, get a n = get b n) : a = b := by
  have hmem : ∀ q, q ∈ a ↔ q ∈ b := by
    intro q
    constructor
    · intro hq
      have := get_mem ha hq
      rw [h] at this
      exact List.mem_of_find?_eq_some this
    · intro hq
      have := get_mem hb hq
      rw [← h] at this
      exact List.mem_of_find?_eq_some this
  have hirr : ∀ l : Npl, Sorted l → l.Nodup := by
    intro l hl
    refine List.Pairwise.imp ?_ hl
    intro x y hxy he
    rw [he, Name.lt_irrefl] at hxy
    exact absurd hxy (by simp)
  have hperm : a.Perm b := (List.perm_ext_iff_of_nodup (hirr a ha) (hirr b hb)).2 hmem
  refine List.Perm.eq_of_pairwise ?_ ha hb hperm
  intro x y _ _ h1 h2
  have := Name.lt_asymm h1
  rw [h2] at this
  exact absurd this (by simp)

end Npl

namespace CmdState

/-- States the daemon can be in. -/
def Reachable (c : LConf) (s : CmdState) : Prop :=
  ∃ disk adjs npl sys file ops, s = run c (init c disk adjs npl sys file) ops

structure Inv (c : LConf) (s : CmdState) : Prop where
  sorted : Npl.Sorted s.npl
  plain : Npl.Plain s.npl
  mirror : s.lsdb.npl = s.npl.infos
  lsdb : Lsdb.Reachable c s.lsdb

theorem setNpl_reach {c : LConf} {s : CmdState} (h : Lsdb.Reachable c s.lsdb) (l : Npl) :
    Lsdb.Reachable c (s.setNpl l).lsdb := h.step (.setNpl l.infos)

theorem build_reach {c : LConf} {s : CmdState} (h : Lsdb.Reachable c s.lsdb) :
    Lsdb.Reachable c (s.build c).lsdb := h.step .buildName

/-- Parts a reply does not touch. -/
structure Answered (s s' : CmdState) : Prop where
  npl : s'.npl = s.npl
  lsdb : s'.lsdb = s.lsdb

theorem saveReply_answered (s : CmdState) (x : Cmd) (k : Nat) : Answered s (s.saveReply x k) := by
  unfold saveReply
  split
  · exact ⟨rfl, rfl⟩
  · split
    · exact ⟨rfl, rfl⟩
    · exact ⟨rfl, rfl⟩

theorem deleteReply_answered (s : CmdState) (x : Cmd) : Answered s (s.deleteReply x) := by
  unfold deleteReply
  split
  · exact ⟨rfl, rfl⟩
  · exact ⟨rfl, rfl⟩

/-- The list after a command. -/
def nplAfter (l : Npl) (x : Cmd) : Npl :=
  match x.verb with
  | .advertise => (Npl.insert l x.name "" (.fin (Dbl.roundNat (x.cost.getD 0) : Nat))).2
  | .withdraw => (Npl.erase l x.name "").2

/-- The command changes the set of advertised names. -/
def Changes (l : Npl) (x : Cmd) : Prop :=
  match x.verb with
  | .advertise => x.name ∉ l.names
  | .withdraw => x.name ∈ l.names

instance (l : Npl) (x : Cmd) : Decidable (Changes l x) := by
  unfold Changes
  split <;> infer_instance

theorem advertise_core {c : LConf} {s : CmdState} {x : Cmd} (h1 : Npl.Sorted s.npl) (h2 : Npl.Plain s.npl)
    (hv : x.verb = .advertise) :
    (s.advertise c x).npl = nplAfter s.npl x ∧
    (s.advertise c x).lsdb = (if Changes s.npl x then (s.setNpl (nplAfter s.npl x)).build c else s.setNpl (nplAfter s.npl x)).lsdb := by
  have hf := Npl.insert_fst_plain h1 h2 x.name (.fin (Dbl.roundNat (x.cost.getD 0) : Nat))
  have hch : Changes s.npl x ↔ x.name ∉ s.npl.names := by unfold Changes; rw [hv]
  have hna : nplAfter s.npl x = (Npl.insert s.npl x.name "" (.fin (Dbl.roundNat (x.cost.getD 0) : Nat))).2 := by
    unfold nplAfter; rw [hv]
  unfold advertise
  dsimp only
  rw [hf, ← hna]
  by_cases hc : x.name ∉ s.npl.names
  · rw [if_pos (by simpa using hc), if_pos (hch.2 hc)]
    split
    · obtain ⟨e1, e2⟩ := saveReply_answered ((s.setNpl (nplAfter s.npl x)).build c) x (Dbl.roundNat (x.cost.getD 0))
      exact ⟨e1, e2⟩
    · exact ⟨rfl, rfl⟩
  · rw [if_neg (by simpa using hc), if_neg (fun h => hc (hch.1 h))]
    split
    · obtain ⟨e1, e2⟩ := saveReply_answered (s.setNpl (nplAfter s.npl x)) x (Dbl.roundNat (x.cost.getD 0))
      exact ⟨e1, e2⟩
    · exact ⟨rfl, rfl⟩

theorem withdraw_core {c : LConf} {s : CmdState} {x : Cmd} (h2 : Npl.Plain s.npl) (hv : x.verb = .withdraw) :
    (s.withdraw c x).npl = nplAfter s.npl x ∧
    (s.withdraw c x).lsdb = (if Changes s.npl x then (s.setNpl (nplAfter s.npl x)).build c else s.setNpl (nplAfter s.npl x)).lsdb := by
  have hf := Npl.erase_fst_plain h2 x.name
  have hch : Changes s.npl x ↔ x.name ∈ s.npl.names := by unfold Changes; rw [hv]
  have hna : nplAfter s.npl x = (Npl.erase s.npl x.name "").2 := by
    unfold nplAfter; rw [hv]
  unfold withdraw
  dsimp only
  rw [hf, ← hna]
  by_cases hc : x.name ∈ s.npl.names
  · rw [if_pos (by simpa using hc), if_pos (hch.2 hc)]
    split
    · obtain ⟨e1, e2⟩ := deleteReply_answered ((s.setNpl (nplAfter s.npl x)).build c) x
      exact ⟨e1, e2⟩
    · exact ⟨rfl, rfl⟩
  · rw [if_neg (by simpa using hc), if_neg (fun h => hc (hch.1 h))]
    split
    · obtain ⟨e1, e2⟩ := deleteReply_answered (s.setNpl (nplAfter s.npl x)) x
      exact ⟨e1, e2⟩
    · exact ⟨rfl, rfl⟩

theorem cmd_core {c : LConf} {s : CmdState} (h : Inv c s) (x : Cmd) :
    (step c s (.cmd x)).npl = nplAfter s.npl x ∧
    (step c s (.cmd x)).lsdb =
      (if Changes s.npl x then (s.setNpl (nplAfter s.npl x)).build c else s.setNpl (nplAfter s.npl x)).lsdb := by
  unfold step
  dsimp only
  cases hv : x.verb with
  | advertise => exact advertise_core h.sorted h.plain hv
  | withdraw => exact withdraw_core h.plain hv

theorem nplAfter_sorted {l : Npl} (h : Npl.Sorted l) (x : Cmd) : Npl.Sorted (nplAfter l x) := by
  unfold nplAfter
  split
  · exact Npl.insert_sorted h ..
  · exact Npl.erase_sorted h ..

theorem nplAfter_plain {l : Npl} (hs : Npl.Sorted l) (h : Npl.Plain l) (x : Cmd) : Npl.Plain (nplAfter l x) := by
  unfold nplAfter
  split
  · exact Npl.insert_plain hs h _ _
  · exact Npl.erase_plain h _

/-- Events other than commands keep the list. -/
theorem lsdb_npl (c : LConf) (s : Lsdb) (op : Lsdb.Op) (h : ∀ l, op ≠ .setNpl l) : (Lsdb.step c s op).npl = s.npl := by
  by_cases hs : Lsdb.Op.special op = false
  · exact (Lsdb.step_keep c s op hs).npl
  · cases op with
    | setAdjs l => rfl
    | setNpl l => exact absurd rfl (h l)
    | scheduleBuild =>
      show (Lsdb.scheduleBuild c s).npl = s.npl
      unfold Lsdb.scheduleBuild
      dsimp only
      split <;> rfl
    | buildTimer =>
      show (Lsdb.buildTimer c s).npl = s.npl
      unfold Lsdb.buildTimer
      split
      · rfl
      · split
        · rfl
        · unfold Lsdb.buildAdjLsa
          dsimp only
          split
          · unfold Lsdb.buildOrRemove
            dsimp only
            split
            · split
              · exact (Lsdb.buildAdj_keep c _).npl
              · exact (Lsdb.removeLsa_sig _ _ _).npl
            · rfl
          · rfl
    | interest n v =>
      show (if n.length ≤ Lsdb.maxComponents then Lsdb.processInterest c s n v else s).npl = s.npl
      split
      · obtain ⟨f, l, e⟩ := Lsdb.processInterest_build c s n v
        rw [e]
      · rfl
    | fifoGone n => rfl
    | _ => exact absurd rfl hs

theorem step_lsdb (c : LConf) (s : CmdState) (op : Lsdb.Op) :
    step c s (.lsdb op) = s ∨ ((∀ l, op ≠ .setNpl l) ∧ step c s (.lsdb op) = { s with lsdb := s.lsdb.step c op }) := by
  cases op with
  | setNpl l => exact Or.inl rfl
  | _ => exact Or.inr ⟨nofun, rfl⟩

theorem Inv.step {c : LConf} {s : CmdState} (h : Inv c s) (op : Op) : Inv c (step c s op) := by
  cases op with
  | cmd x =>
    obtain ⟨e1, e2⟩ := cmd_core h x
    refine ⟨?_, ?_, ?_, ?_⟩
    · rw [e1]; exact nplAfter_sorted h.sorted x
    · rw [e1]; exact nplAfter_plain h.sorted h.plain x
    · rw [e1, e2]
      split
      · exact (Lsdb.buildName_keep c _).npl
      · rfl
    · rw [e2]
      split
      · exact build_reach (setNpl_reach h.lsdb _)
      · exact setNpl_reach h.lsdb _
  | lsdb op =>
    rcases step_lsdb c s op with e | ⟨hn, e⟩
    · rw [e]; exact h
    · rw [e]
      exact ⟨h.sorted, h.plain, (lsdb_npl c _ _ hn).trans h.mirror, h.lsdb.step op⟩

/-- The list the configuration gives. -/
def startList (npl : List (Name × Ext Rat)) : Npl := npl.foldl (fun l p => (Npl.insert l p.1 "" p.2).2) []

theorem startList_snoc (npl : List (Name × Ext Rat)) (p : Name × Ext Rat) :
    startList (npl ++ [p]) = (Npl.insert (startList npl) p.1 "" p.2).2 := by
  simp [startList]

theorem startList_ok (npl : List (Name × Ext Rat)) : Npl.Sorted (startList npl) ∧ Npl.Plain (startList npl) := by
  obtain ⟨r, rfl⟩ : ∃ r : List (Name × Ext Rat), npl = r.reverse := ⟨npl.reverse, (List.reverse_reverse npl).symm⟩
  induction r with
  | nil => exact ⟨List.Pairwise.nil, nofun⟩
  | cons p r ih =>
    rw [List.reverse_cons, startList_snoc]
    exact ⟨Npl.insert_sorted ih.1 .., Npl.insert_plain ih.1 ih.2 _ _⟩

theorem init_inv (c : LConf) (disk : Option Seqs) (adjs : AdjacencyList) (npl : List (Name × Ext Rat)) (sys : Int)
    (file : Option ConfFile) : Inv c (init c disk adjs npl sys file) := by
  refine ⟨(startList_ok npl).1, (startList_ok npl).2, (Lsdb.init_keep c disk adjs (startList npl).infos sys).npl, ?_⟩
  exact ⟨disk, adjs, (startList npl).infos, sys, [], rfl⟩

theorem run_snoc (c : LConf) (s : CmdState) (ops : List Op) (op : Op) :
    run c s (ops ++ [op]) = step c (run c s ops) op := by
  simp [run]

theorem run_inv {c : LConf} {s : CmdState} (h : Inv c s) (ops : List Op) : Inv c (run c s ops) := by
  induction ops generalizing s with
  | nil => exact h
  | cons op ops ih => exact ih (h.step op)

theorem Reachable.inv {c : LConf} {s : CmdState} (h : Reachable c s) : Inv c s := by
  obtain ⟨disk, adjs, npl, sys, file, ops, rfl⟩ := h
  exact run_inv (init_inv ..) ops

end CmdState
end Nlsr
