import Verif.Lemmas.Cmd
/- C49, C50: the advertise and withdraw commands. -/
namespace Nlsr
open CmdState

/-- Computed from the configured prefixes and the events alone, latest event first: the prefix is advertised. -/
def AdvertisedFrom (start : List (Name × Ext Rat)) (n : Name) : List CmdState.Op → Prop
  | [] => ∃ p ∈ start, p.1 = n
  | .cmd x :: earlier => if x.name = n then x.verb = .advertise else AdvertisedFrom start n earlier
  | .lsdb _ :: earlier => AdvertisedFrom start n earlier

/-- The same, events given oldest first. -/
def Advertised (start : List (Name × Ext Rat)) (ops : List CmdState.Op) (n : Name) : Prop :=
  AdvertisedFrom start n ops.reverse

theorem Advertised_snoc (start : List (Name × Ext Rat)) (ops : List CmdState.Op) (op : CmdState.Op) (n : Name) :
    Advertised start (ops ++ [op]) n = match op with
      | .cmd x => if x.name = n then x.verb = .advertise else Advertised start ops n
      | .lsdb _ => Advertised start ops n := by
  unfold Advertised
  rw [List.reverse_append]
  cases op <;> rfl

/-- Induction on the list of events, the latest taken off. -/
theorem snoc_induction {α : Type} {P : List α → Prop} (nil : P []) (snoc : ∀ l a, P l → P (l ++ [a])) (l : List α) : P l := by
  obtain ⟨r, rfl⟩ : ∃ r : List α, l = r.reverse := ⟨l.reverse, (List.reverse_reverse l).symm⟩
  induction r with
  | nil => exact nil
  | cons a r ih => rw [List.reverse_cons]; exact snoc _ _ ih

theorem startList_names (start : List (Name × Ext Rat)) (n : Name) :
    n ∈ (startList start).names ↔ ∃ p ∈ start, p.1 = n := by
  induction start using snoc_induction with
  | nil => simp [startList, Npl.names]
  | snoc l p ih =>
    rw [startList_snoc, Npl.mem_names_insert (startList_ok l).1, ih]
    simp only [List.mem_append, List.mem_singleton]
    constructor
    · rintro (rfl | ⟨q, hq, e⟩)
      · exact ⟨p, Or.inr rfl, rfl⟩
      · exact ⟨q, Or.inl hq, e⟩
    · rintro ⟨q, hq | rfl, e⟩
      · exact Or.inr ⟨q, hq, e⟩
      · exact Or.inl e.symm

theorem names_after {c : LConf} {s : CmdState} (h : CmdState.Inv c s) (x : Cmd) (n : Name) :
    n ∈ (nplAfter s.npl x).names ↔ if x.name = n then x.verb = .advertise else n ∈ s.npl.names := by
  unfold nplAfter
  by_cases hn : x.name = n
  · rw [if_pos hn]
    split
    · rw [Npl.mem_names_insert h.sorted]; simp [hn, *]
    · rw [Npl.mem_names_erase h.plain]; simp [hn, *]
  · rw [if_neg hn]
    split
    · rw [Npl.mem_names_insert h.sorted]
      exact ⟨fun h => h.resolve_left (fun e => hn e.symm), Or.inr⟩
    · rw [Npl.mem_names_erase h.plain]
      exact ⟨fun h => h.2, fun h => ⟨fun e => hn e.symm, h⟩⟩

/-- C49, the advertised set: after any events, the list of prefixes holds exactly those that the configuration or an
advertise command gave and no later command withdrew. -/
theorem C49_names (c : LConf) (disk : Option Seqs) (adjs : AdjacencyList) (start : List (Name × Ext Rat)) (sys : Int)
    (file : Option ConfFile) (ops : List CmdState.Op) (n : Name) :
    n ∈ (run c (init c disk adjs start sys file) ops).npl.names ↔ Advertised start ops n := by
  induction ops using snoc_induction with
  | nil => exact startList_names start n
  | snoc ops op ih =>
    rw [run_snoc, Advertised_snoc]
    have hi := run_inv (init_inv c disk adjs start sys file) ops
    cases op with
    | cmd x =>
      rw [(cmd_core hi x).1, names_after hi]
      dsimp only
      by_cases hn : x.name = n
      · simp [hn]
      · simp [hn, ih]
    | lsdb op =>
      rcases step_lsdb c (run c (init c disk adjs start sys file) ops) op with e | ⟨-, e⟩
      · rw [e]; exact ih
      · rw [e]; exact ih

/-- The list never holds a name twice. -/
theorem C49_no_duplicates {c : LConf} {s : CmdState} (h : CmdState.Reachable c s) : s.npl.names.Nodup := by
  have := h.inv.sorted
  unfold Npl.names List.Nodup
  rw [List.pairwise_map]
  refine List.Pairwise.imp ?_ this
  intro a b hab e
  rw [e, Name.lt_irrefl] at hab
  cases hab

/-- C49, publishing: a command publishes exactly one new Name LSA, with the next number, if it changes the advertised
set; if not, it writes, announces and signals nothing and leaves the database and the numbers alone. -/
theorem C49_publish (c : LConf) (disk : Option Seqs) (adjs : AdjacencyList) (start : List (Name × Ext Rat)) (sys : Int)
    (file : Option ConfFile) (ops : List CmdState.Op) (x : Cmd) :
    let s := run c (init c disk adjs start sys file) ops
    let s' := step c s (.cmd x)
    ((x.verb = .advertise ↔ ¬ Advertised start ops x.name) →
      ∃ outs, s'.lsdb.log = s.lsdb.log ++
          .persist { s.lsdb.seqs with name := inc64 s.lsdb.seqs.name } :: .publish .name (inc64 s.lsdb.seqs.name) :: outs ∧
        ∀ o ∈ outs, Lsdb.Out.isSeq o = false) ∧
    (¬ (x.verb = .advertise ↔ ¬ Advertised start ops x.name) →
      s'.lsdb.log = s.lsdb.log ∧ s'.lsdb.db = s.lsdb.db ∧ s'.lsdb.seqs = s.lsdb.seqs) := by
  intro s s'
  have hi := run_inv (init_inv c disk adjs start sys file) ops
  have hn := C49_names c disk adjs start sys file ops x.name
  have hch : Changes s.npl x ↔ (x.verb = .advertise ↔ ¬ Advertised start ops x.name) := by
    unfold Changes
    cases hv : x.verb with
    | advertise => dsimp only; simp only [true_iff]; exact not_congr hn
    | withdraw =>
      dsimp only
      rw [hn]
      constructor
      · intro h; exact ⟨nofun, fun h' => absurd h h'⟩
      · intro h; exact Classical.byContradiction fun h' => by cases h.2 h'
  obtain ⟨-, e⟩ := cmd_core hi x
  constructor
  · intro hc
    have e : s'.lsdb = _ := e
    rw [if_pos (hch.2 hc)] at e
    have hr := (setNpl_reach hi.lsdb (nplAfter s.npl x)).inv
    have ha := Lsdb.buildName_announced hr s.lsdb.seqs.name
    have hs := Lsdb.seqs_set_self (s.setNpl (nplAfter s.npl x)).lsdb .name
    have hs' : { (s.setNpl (nplAfter s.npl x)).lsdb with
        seqs := (s.setNpl (nplAfter s.npl x)).lsdb.seqs.set .name s.lsdb.seqs.name } = (s.setNpl (nplAfter s.npl x)).lsdb := hs
    rw [hs'] at ha
    obtain ⟨outs, h1, h2⟩ := ha.log
    refine ⟨outs, ?_, h2⟩
    rw [e]
    show (Lsdb.buildName c (s.setNpl (nplAfter s.npl x)).lsdb).log = _
    rw [h1, ha.seqs]
    rfl
  · intro hc
    have e : s'.lsdb = _ := e
    rw [if_neg (fun h => hc (hch.1 h))] at e
    rw [e]
    exact ⟨rfl, rfl, rfl⟩

/-- C49, repetition: the same command once more changes neither the list of prefixes nor the database, the numbers and
the announcements. -/
theorem C49_idempotent {c : LConf} {s : CmdState} (h : CmdState.Reachable c s) (x : Cmd) :
    let s1 := step c s (.cmd x)
    let s2 := step c s1 (.cmd x)
    s2.npl = s1.npl ∧ s2.lsdb = s1.lsdb := by
  intro s1 s2
  have hi := h.inv
  have hi1 : CmdState.Inv c s1 := hi.step (.cmd x)
  obtain ⟨e1, -⟩ := cmd_core hi x
  obtain ⟨e2, e3⟩ := cmd_core hi1 x
  have e1 : s1.npl = nplAfter s.npl x := e1
  have hsame : nplAfter s1.npl x = s1.npl := by
    rw [e1]
    unfold nplAfter
    cases hv : x.verb with
    | advertise =>
      dsimp only
      generalize (Ext.fin ↑(Dbl.roundNat (x.cost.getD 0)) : Ext Rat) = k
      refine Npl.ext (Npl.insert_sorted (Npl.insert_sorted hi.sorted ..) ..) (Npl.insert_sorted hi.sorted ..) ?_
      intro m
      rw [Npl.get_insert (Npl.insert_sorted hi.sorted ..)]
      split
      · rename_i hm
        subst hm
        rw [Npl.get_insert hi.sorted, if_pos rfl]
        dsimp only
        cases hg : Npl.get s.npl x.name with
        | none => rfl
        | some e => have := hi.plain _ e hg; simp [this]
      · rfl
    | withdraw =>
      dsimp only
      refine Npl.ext (Npl.erase_sorted (Npl.erase_sorted hi.sorted ..) ..) (Npl.erase_sorted hi.sorted ..) ?_
      intro m
      rw [Npl.get_erase_plain (Npl.erase_plain hi.plain _), Npl.get_erase_plain hi.plain]
      split <;> rfl
  have hnc : ¬ Changes s1.npl x := by
    have := names_after hi x x.name
    rw [if_pos rfl, ← e1] at this
    unfold Changes
    cases hv : x.verb with
    | advertise => dsimp only; rw [hv] at this; exact fun h => h (this.2 rfl)
    | withdraw => dsimp only; rw [hv] at this; exact fun h => by cases this.1 h
  refine ⟨e2.trans hsame, ?_⟩
  have e3 : s2.lsdb = _ := e3
  rw [e3, if_neg hnc, hsame]
  show ({ s1.lsdb with npl := s1.npl.infos } : Lsdb) = s1.lsdb
  rw [← hi1.mirror]

/-- What a reply to `x` may be, given whether the advertised set changed. -/
def CodeSpec (x : Cmd) (s s' : CmdState) (changes : Prop) : Prop :=
  (∃ code, s'.replies = s.replies ++ [⟨code, if ∃ f, x.faceId = some f ∧ 0 < f then x.faceId.getD 1 else 1⟩] ∧
    s'.undef = s.undef ∧
    (x.flags ≠ some 1 → s'.file = s.file ∧ (changes → code = 200) ∧ (¬ changes → code = 204)) ∧
    (x.flags = some 1 → (code = 205 ∨ (code = 500 ∧ s'.file = s.file ∧ x.via = .nlsr)) ∧
      (x.via = .rib → code = 205 ∧ s'.file = s.file))) ∨
  (s'.replies = s.replies ∧ s'.file = s.file ∧ s'.undef = true ∧ x.flags = some 1 ∧ x.via = .nlsr ∧
    x.verb = .advertise ∧ 2 ^ 64 ≤ Dbl.roundNat (x.cost.getD 0))

theorem replyFace_eq (x : Cmd) : replyFace x = if ∃ f, x.faceId = some f ∧ 0 < f then x.faceId.getD 1 else 1 := by
  unfold replyFace
  cases hf : x.faceId with
  | none => simp
  | some f => simp

theorem put_file (f : ConfFile) (a v : Text) (hv : (f.put a v).1 = false) : (f.put a v).2 = f := by
  unfold ConfFile.put at hv ⊢
  split
  · rfl
  · rename_i t ht
    rw [ht] at hv
    dsimp only at hv
    unfold ConfFile.save at hv ⊢
    split
    · rename_i hw; rw [if_pos hw] at hv; cases hv
    · rfl

theorem remove_file (f : ConfFile) (a : Text) (hv : (f.remove a).1 = false) : (f.remove a).2 = f := by
  unfold ConfFile.remove at hv ⊢
  split
  · rfl
  · rename_i t ht
    rw [ht] at hv
    dsimp only at hv
    unfold ConfFile.save at hv ⊢
    split
    · rename_i hw; rw [if_pos hw] at hv; cases hv
    · rfl

/-- A failed save or deletion leaves the file alone. -/
theorem addOrDelete_file (file : Option ConfFile) (n : Name) (k : Nat) (b : Bool)
    (hb : (addOrDelete file n k b).1 = false) : (addOrDelete file n k b).2 = file := by
  unfold addOrDelete at hb ⊢
  cases file with
  | none => rfl
  | some f =>
    dsimp only at hb ⊢
    split
    · rename_i h1
      rw [if_pos h1] at hb
      split
      · rfl
      · rename_i h2
        rw [if_neg h2] at hb
        dsimp only at hb ⊢
        rw [put_file _ _ _ hb]
    · rename_i h1
      rw [if_neg h1] at hb
      split
      · rfl
      · rename_i h2
        rw [if_neg h2] at hb
        dsimp only at hb ⊢
        rw [remove_file _ _ hb]

theorem code_plain {x : Cmd} {s t : CmdState} {changes : Prop} (code : Nat) (hf : x.flags ≠ some 1)
    (h1 : t.replies = s.replies) (h2 : t.file = s.file) (h3 : t.undef = s.undef) (h4 : changes → code = 200)
    (h5 : ¬ changes → code = 204) : CodeSpec x s (t.reply x code) changes := by
  refine Or.inl ⟨code, ?_, h3, fun _ => ⟨h2, h4, h5⟩, fun h => absurd h hf⟩
  rw [← replyFace_eq, ← h1]
  rfl

theorem code_saved {x : Cmd} {s t : CmdState} {changes : Prop} (hf : x.flags = some 1) (h1 : t.replies = s.replies)
    (h2 : t.file = s.file) (h3 : t.undef = s.undef) (hv : x.via = .nlsr) (n : Name) (k : Nat) (b : Bool) :
    CodeSpec x s ({ t with file := (addOrDelete t.file n k b).2 }.reply x
      (if (addOrDelete t.file n k b).1 then 205 else 500)) changes := by
  refine Or.inl ⟨if (addOrDelete t.file n k b).1 then 205 else 500, ?_, h3, fun h => absurd hf h,
    fun _ => ⟨?_, fun h => by rw [hv] at h; cases h⟩⟩
  · rw [← replyFace_eq, ← h1]
    rfl
  · cases hb : (addOrDelete t.file n k b).1 with
    | true => exact Or.inl (by simp)
    | false =>
      refine Or.inr ⟨by simp, ?_, hv⟩
      show (addOrDelete t.file n k b).2 = s.file
      rw [addOrDelete_file _ _ _ _ hb, h2]

theorem code_rib {x : Cmd} {s t : CmdState} {changes : Prop} (hf : x.flags = some 1) (h1 : t.replies = s.replies)
    (h2 : t.file = s.file) (h3 : t.undef = s.undef) : CodeSpec x s (t.reply x 205) changes := by
  refine Or.inl ⟨205, ?_, h3, fun h => absurd hf h, fun _ => ⟨Or.inl rfl, fun _ => ⟨rfl, h2⟩⟩⟩
  rw [← replyFace_eq, ← h1]
  rfl

theorem code_save {x : Cmd} {s t : CmdState} {changes : Prop} (hf : x.flags = some 1) (ha : x.verb = .advertise)
    (h1 : t.replies = s.replies) (h2 : t.file = s.file) (h3 : t.undef = s.undef) :
    CodeSpec x s (t.saveReply x (Dbl.roundNat (x.cost.getD 0))) changes := by
  unfold saveReply
  split
  · exact code_rib hf h1 h2 h3
  · rename_i hv
    split
    · rename_i hk
      refine Or.inr ⟨h1, h2, rfl, hf, hv, ha, ?_⟩
      refine Nat.le_of_not_lt fun hlt => ?_
      unfold Dbl.toU64 at hk
      rw [if_pos hlt] at hk
      cases hk
    · exact code_saved hf h1 h2 h3 hv _ _ _

theorem code_delete {x : Cmd} {s t : CmdState} {changes : Prop} (hf : x.flags = some 1)
    (h1 : t.replies = s.replies) (h2 : t.file = s.file) (h3 : t.undef = s.undef) :
    CodeSpec x s (t.deleteReply x) changes := by
  unfold deleteReply
  split
  · exact code_rib hf h1 h2 h3
  · rename_i hv
    exact code_saved hf h1 h2 h3 hv _ _ _

/-- C49, replies: the reply has the face of the command, or 1 if it has none.  Without the save flag the code is 200 if
the advertised set changed and 204 if not, and the file stays as it is.  With it, the code is 205 or 500; 500 leaves the
file as it is, and so does a command from NFD's RIB, which is always answered 205.  The only command without a reply is
one whose cost, as a double, does not fit 64 bits. -/
theorem C49_code {c : LConf} {s : CmdState} (h : CmdState.Reachable c s) (x : Cmd) :
    let s' := step c s (.cmd x)
    let changes := x.verb = .advertise ↔ x.name ∉ s.npl.names
    (∃ code, s'.replies = s.replies ++ [⟨code, if ∃ f, x.faceId = some f ∧ 0 < f then x.faceId.getD 1 else 1⟩] ∧
      s'.undef = s.undef ∧
      (x.flags ≠ some 1 → s'.file = s.file ∧ (changes → code = 200) ∧ (¬ changes → code = 204)) ∧
      (x.flags = some 1 → (code = 205 ∨ (code = 500 ∧ s'.file = s.file ∧ x.via = .nlsr)) ∧
        (x.via = .rib → code = 205 ∧ s'.file = s.file))) ∨
    (s'.replies = s.replies ∧ s'.file = s.file ∧ s'.undef = true ∧ x.flags = some 1 ∧ x.via = .nlsr ∧
      x.verb = .advertise ∧ 2 ^ 64 ≤ Dbl.roundNat (x.cost.getD 0)) := by
  intro s' changes
  show CodeSpec x s s' changes
  have hi := h.inv
  show CodeSpec x s (match x.verb with | .advertise => s.advertise c x | .withdraw => s.withdraw c x) changes
  cases hv : x.verb with
  | advertise =>
    have hch : changes ↔ x.name ∉ s.npl.names := by show (x.verb = .advertise ↔ _) ↔ _; simp [hv]
    have hins := Npl.insert_fst_plain hi.sorted hi.plain x.name (.fin (Dbl.roundNat (x.cost.getD 0) : Nat))
    dsimp only
    unfold advertise
    dsimp only
    rw [hins]
    split
    · rename_i hn
      split
      · rename_i hf; exact code_save hf hv rfl rfl rfl
      · rename_i hf
        exact code_plain 200 hf rfl rfl rfl (fun _ => rfl) (fun h => absurd (hch.2 (by simpa using hn)) h)
    · rename_i hn
      split
      · rename_i hf; exact code_save hf hv rfl rfl rfl
      · rename_i hf
        exact code_plain 204 hf rfl rfl rfl (fun h => absurd (hch.1 h) (by simpa using hn)) (fun _ => rfl)
  | withdraw =>
    have hch : changes ↔ x.name ∈ s.npl.names := by show (x.verb = .advertise ↔ _) ↔ _; simp [hv]
    have hins := Npl.erase_fst_plain hi.plain x.name
    dsimp only
    unfold withdraw
    dsimp only
    rw [hins]
    split
    · rename_i hn
      split
      · rename_i hf; exact code_delete hf rfl rfl rfl
      · rename_i hf
        exact code_plain 200 hf rfl rfl rfl (fun _ => rfl) (fun h => absurd (hch.2 (by simpa using hn)) h)
    · rename_i hn
      split
      · rename_i hf; exact code_delete hf rfl rfl rfl
      · rename_i hf
        exact code_plain 204 hf rfl rfl rfl (fun h => absurd (hch.1 h) (by simpa using hn)) (fun _ => rfl)

/-! The own Name LSA. -/

/-- The cost the configuration gives a prefix: that of its last line. -/
def startCost (start : List (Name × Ext Rat)) (n : Name) : Option (Ext Rat) :=
  start.reverse.findSome? (fun p => if p.1 = n then some p.2 else none)

/-- Computed from the configuration and the events alone, latest event first: the cost a prefix had when it was last
added to the advertised set; `none` if it is not advertised. -/
def AddedCostFrom (start : List (Name × Ext Rat)) (n : Name) : List CmdState.Op → Option (Ext Rat)
  | [] => startCost start n
  | .cmd x :: earlier =>
    if x.name = n then
      match x.verb with
      | .advertise => some ((AddedCostFrom start n earlier).getD (.fin (Dbl.roundNat (x.cost.getD 0) : Nat)))
      | .withdraw => none
    else AddedCostFrom start n earlier
  | .lsdb _ :: earlier => AddedCostFrom start n earlier

def AddedCost (start : List (Name × Ext Rat)) (ops : List CmdState.Op) (n : Name) : Option (Ext Rat) :=
  AddedCostFrom start n ops.reverse

theorem AddedCost_snoc (start : List (Name × Ext Rat)) (ops : List CmdState.Op) (op : CmdState.Op) (n : Name) :
    AddedCost start (ops ++ [op]) n = match op with
      | .cmd x =>
        if x.name = n then
          match x.verb with
          | .advertise => some ((AddedCost start ops n).getD (.fin (Dbl.roundNat (x.cost.getD 0) : Nat)))
          | .withdraw => none
        else AddedCost start ops n
      | .lsdb _ => AddedCost start ops n := by
  unfold AddedCost
  rw [List.reverse_append]
  cases op <;> rfl

theorem startList_cost (start : List (Name × Ext Rat)) (n : Name) :
    ((startList start).get n).map (·.cost) = startCost start n := by
  induction start using snoc_induction with
  | nil => rfl
  | snoc l p ih =>
    rw [startList_snoc, Npl.get_insert_cost (startList_ok l).1, ih]
    unfold startCost
    rw [List.reverse_append]
    simp only [List.reverse_cons, List.reverse_nil, List.nil_append, List.cons_append, List.findSome?_cons]
    by_cases h : n = p.1
    · simp [h]
    · have : p.1 ≠ n := fun e => h e.symm
      simp [h, this]

theorem AddedCost_some (start : List (Name × Ext Rat)) (ops : List CmdState.Op) (n : Name) :
    (∃ k, AddedCost start ops n = some k) ↔ Advertised start ops n := by
  induction ops using snoc_induction with
  | nil =>
    show (∃ k, startCost start n = some k) ↔ ∃ p ∈ start, p.1 = n
    rw [← startList_cost, ← startList_names, Npl.mem_names_iff]
    constructor
    · rintro ⟨k, hk⟩
      obtain ⟨e, he, -⟩ := Option.map_eq_some_iff.1 hk
      exact ⟨e, he⟩
    · rintro ⟨e, he⟩
      exact ⟨e.cost, by rw [he]; rfl⟩
  | snoc ops op ih =>
    rw [AddedCost_snoc, Advertised_snoc]
    cases op with
    | lsdb op => exact ih
    | cmd x =>
      dsimp only
      by_cases hn : x.name = n
      · rw [if_pos hn, if_pos hn]
        cases hv : x.verb with
        | advertise => simp
        | withdraw => simp
      · rw [if_neg hn, if_neg hn]; exact ih

/-- No event is the arrival of a Name LSA claiming to be this router's own. -/
def NoForgedName (c : LConf) (ops : List CmdState.Op) : Prop :=
  ∀ i l, .lsdb (.fetched i (some l)) ∈ ops → l.origin = c.router → l.type ≠ .name

/-- The own Name LSA in the database: number and prefixes with costs. -/
def OwnNames (c : LConf) (s : Lsdb) (seq : Nat) (cost : Name → Option (Ext Rat)) : Prop :=
  ∃ o m, s.find c.router .name = some o ∧ o.lsa.seq = seq ∧ o.lsa.content = .names m ∧ PrefixMap.Sorted m ∧
    ∀ n, PrefixMap.get m n = cost n

theorem inc64_le {b : Nat} (h : inc64 b ≠ 0) : inc64 b = b % 18446744073709551616 + 1 := by
  unfold inc64 at h ⊢
  omega

namespace Lsdb

theorem own_built {c : LConf} {s : Lsdb} (hi : Inv c s) {seq : Nat} {cost : Name → Option (Ext Rat)}
    (ho : OwnNames c s seq cost) (b : Nat) (hb : seq < inc64 b) :
    OwnNames c (buildName c { s with seqs := s.seqs.set .name b }) (inc64 b)
      (fun n => (PrefixMap.get (PrefixMap.ofList s.npl) n).map (fun k => (cost n).getD k)) := by
  obtain ⟨o, m, hf, hs, hc, hm, hg⟩ := ho
  obtain ⟨hmem, hor, hot⟩ := find_some hf
  have e := announce_eq { s with seqs := s.seqs.set .name b } .name true (by simp)
  have hi1 : Inv c (announce { s with seqs := s.seqs.set .name b } .name true) := by
    rw [e]
    refine hi.frame ⟨rfl, rfl, rfl, rfl, _, rfl, ?_⟩
    simp [Out.isSignal]
  have hmem1 : o ∈ (announce { s with seqs := s.seqs.set .name b } .name true).db := by rw [e]; exact hmem
  have hn : (Content.names (PrefixMap.ofList s.npl)).norm = .names (PrefixMap.ofList s.npl) :=
    norm_names.2 (PrefixMap.ofList_sorted _)
  obtain ⟨o', h1, h2, -, h4⟩ := installed_content (l := ⟨c.router, inc64 b, expirationPoint c s, .names (PrefixMap.ofList s.npl)⟩)
    hi1 hmem1 hor (hot.trans rfl) (by rw [hs]; exact hb) hn
  obtain ⟨m', h5, h6, h7⟩ := get_updateNames hm (PrefixMap.ofList_sorted s.npl)
  refine ⟨o', m', h1, h2, ?_, h6, ?_⟩
  · rw [h4, hc]
    exact h5
  · intro n
    rw [h7, hg]

theorem _root_.Nlsr.OwnNames.view {c : LConf} {s s' : Lsdb} {seq : Nat} {cost : Name → Option (Ext Rat)} {seq' : Nat}
    (h : OwnNames c s seq cost) (hv : Lsdb.view s' c.router .name = Lsdb.view s c.router .name)
    (hs : storedAt s' c.router .name = some seq') : OwnNames c s' seq' cost := by
  obtain ⟨o, m, hf, -, hc, hm, hg⟩ := h
  unfold Lsdb.view at hv
  unfold storedAt at hs
  rw [hf] at hv
  obtain ⟨o', h1, h2⟩ := Option.map_eq_some_iff.1 hs
  rw [h1] at hv
  injection hv with hv
  exact ⟨o', m, h1, h2, hv.trans hc, hm, hg⟩

theorem _root_.Nlsr.OwnNames.stored {c : LConf} {s : Lsdb} {seq : Nat} {cost : Name → Option (Ext Rat)} (h : OwnNames c s seq cost) :
    storedAt s c.router .name = some seq := by
  obtain ⟨o, m, hf, hs, -⟩ := h
  unfold storedAt
  rw [hf, ← hs]
  rfl

theorem name_lt {c : LConf} {s : Lsdb} (h : Reachable c s) : s.seqs.name < 18446744073709551616 := by
  refine Reachable.induct_step (P := fun s => s.seqs.name < 18446744073709551616) ?_ ?_ h
  · intro disk adjs npl sys
    have h1 := buildName_announced (boot_inv c disk adjs npl sys) (boot c disk adjs npl sys).seqs.name
    have h2 := seqs_set_self (boot c disk adjs npl sys) .name
    dsimp only [Seqs.get] at h2
    rw [h2] at h1
    have h3 : (buildName c (boot c disk adjs npl sys)).seqs.name < 18446744073709551616 := by
      rw [h1.seqs]
      exact Nat.mod_lt _ (by decide)
    unfold init
    dsimp only
    split
    · exact h3
    · show (installLsa c (announce _ _ _) _).seqs.name < _
      rw [(installLsa_sig c _ _).seqs, announce_eq _ _ _ (by simp)]
      exact h3
  · intro s op hr hs
    cases step_seq hr op with
    | quiet q => rw [q.seqs]; exact hs
    | announced t b src a =>
      rw [a.seqs]
      cases t <;> first | exact hs | exact Nat.mod_lt _ (by decide)

/-- Events other than commands leave the own Name LSA's prefixes alone, and its number that of the counter. -/
theorem own_step {c : LConf} {s : Lsdb} (h : Reachable c s) (op : Op) {cost : Name → Option (Ext Rat)}
    (hf : ∀ i l, op = .fetched i (some l) → l.origin = c.router → l.type ≠ .name)
    (ho : OwnNames c s s.seqs.name cost)
    (hmatch : ∀ n, cost n = none ↔ PrefixMap.get (PrefixMap.ofList s.npl) n = none)
    (hw : Out.publish .name 0 ∉ (step c s op).log) : OwnNames c (step c s op) (step c s op).seqs.name cost := by
  have hst := ho.stored
  -- the number
  have hseq : storedAt (step c s op) c.router .name = some (step c s op).seqs.name := by
    cases step_seq h op with
    | quiet q =>
      rcases q.own .name with e | ⟨e, -⟩ | ⟨i, l, e, h1, h2, -⟩
      · rw [e, hst, q.seqs]
      · cases e
      · exact absurd h2 (hf i l e h1)
    | announced t b src a =>
      by_cases ht : t = .name
      · subst ht
        have hnum : (step c s op).seqs.name = inc64 b := by rw [a.seqs]; rfl
        rw [hnum]
        rcases a.own with e | ⟨m, h1, h2, h3⟩
        · exact e
        · exfalso
          have hz : inc64 b ≠ 0 := by
            intro hz
            obtain ⟨outs, hl, -⟩ := a.log
            refine hw ?_
            rw [hl, hz]
            simp
          have hb := inc64_le hz
          rw [hst] at h1
          injection h1 with h1
          have hlt : b < 18446744073709551616 ∧ m ≤ b := by
            have hcnt : s.seqs.name < 18446744073709551616 := name_lt h
            cases src with
            | build hb' _ =>
              have : b = s.seqs.name := hb'
              omega
            | adopt u k last hop hb' hu hl ht hnew hmode =>
              have := hnew m (by rw [hst, h1])
              omega
            | refresh eid hop hb' =>
              rw [hst] at hb'
              injection hb' with hb'
              omega
          rw [Nat.mod_eq_of_lt hlt.1] at hb
          omega
      · have hnum : (step c s op).seqs.name = s.seqs.name := by
          rw [a.seqs]
          exact Seqs.get_set_ne (t := t) (t' := .name) s.seqs (inc64 b) (fun e => ht e.symm)
        rw [a.rest .name (fun e => ht e.symm), hst, hnum]
  cases ownName_step h op with
  | same hv => exact ho.view hv hseq
  | built b e hb =>
    have hlt : s.seqs.name < inc64 b := by
      have ha := buildName_announced h.inv b
      have hz : inc64 b ≠ 0 := by
        intro hz
        obtain ⟨outs, hl, -⟩ := ha.log
        refine hw ?_
        rw [e, hl, hz]
        simp
      have hb' := inc64_le hz
      have hcnt := name_lt h
      rcases hb with hb | ⟨hb1, hb2⟩
      · subst hb; omega
      · have := hb2 _ hst; omega
    have := own_built h.inv ho b hlt
    rw [← e] at this
    have h2 := this.stored
    rw [hseq] at h2
    injection h2 with h2
    rw [h2]
    obtain ⟨o, m, h3, h4, h5, h6, h7⟩ := this
    refine ⟨o, m, h3, h4, h5, h6, ?_⟩
    intro n
    rw [h7]
    dsimp only
    cases hn : PrefixMap.get (PrefixMap.ofList s.npl) n with
    | none => rw [(hmatch n).2 hn]; rfl
    | some k =>
      dsimp only [Option.map]
      cases hc : cost n with
      | none => rw [(hmatch n).1 hc] at hn; cases hn
      | some k' => rfl
  | fetched i l e h1 h2 => exact absurd h2 (hf i l e h1)

theorem own_init (c : LConf) (disk : Option Seqs) (adjs : AdjacencyList) (npl : List PrefixInfo) (sys : Int) :
    OwnNames c (init c disk adjs npl sys) (init c disk adjs npl sys).seqs.name (PrefixMap.get (PrefixMap.ofList npl)) := by
  have hi := boot_inv c disk adjs npl sys
  have hb := buildName_announced hi (boot c disk adjs npl sys).seqs.name
  have hs := seqs_set_self (boot c disk adjs npl sys) .name
  dsimp only [Seqs.get] at hs
  rw [hs] at hb
  have hn : (Content.names (PrefixMap.ofList npl)).norm = .names (PrefixMap.ofList npl) :=
    norm_names.2 (PrefixMap.ofList_sorted _)
  have h1 : OwnNames c (buildName c (boot c disk adjs npl sys)) (buildName c (boot c disk adjs npl sys)).seqs.name
      (PrefixMap.get (PrefixMap.ofList npl)) := by
    refine ⟨⟨0, ⟨c.router, inc64 (Seqs.init c.hyp disk).name, expirationPoint c (boot c disk adjs npl sys),
      .names (PrefixMap.ofList npl)⟩, 1⟩, PrefixMap.ofList npl, ?_, ?_, rfl, PrefixMap.ofList_sorted _, fun _ => rfl⟩
    · unfold buildName
      dsimp only
      unfold installLsa
      dsimp only
      have : (announce (boot c disk adjs npl sys) .name true).find c.router .name = none := rfl
      have e2 : Lsa.type ⟨c.router, inc64 (boot c disk adjs npl sys).seqs.name, expirationPoint c (boot c disk adjs npl sys),
        .names (PrefixMap.ofList (boot c disk adjs npl sys).npl)⟩ = .name := rfl
      rw [e2, this]
      unfold find installNew
      simp [announce, persist, publish, emit, boot, isKey, Lsa.type, Content.type]
    · rw [hb.seqs]; rfl
  unfold init
  dsimp only
  split
  · exact h1
  · have hib : Inv c (buildName c (boot c disk adjs npl sys)) := trs_inv hi (trs_buildName c _)
    rename_i hoff
    have ha := buildCoord_announced hib hoff (buildName c (boot c disk adjs npl sys)).seqs.cor
    have hs2 := seqs_set_self (buildName c (boot c disk adjs npl sys)) .coordinate
    dsimp only [Seqs.get] at hs2
    rw [hs2] at ha
    refine h1.view ?_ ?_
    · exact view_build_ne hib .coordinate (c.hyp ≠ .off) ⟨c.router, inc64 _, expirationPoint c _,
        .coord c.radius c.angles⟩ rfl (by simp [Lsa.type, Content.type]) c.router
    · rw [ha.rest .name (by simp), h1.stored, ha.seqs]
      rfl

end Lsdb

/-- The log only grows. -/
theorem log_grows (c : LConf) {s : CmdState} (h : CmdState.Inv c s) (op : CmdState.Op) :
    ∃ outs, (step c s op).lsdb.log = s.lsdb.log ++ outs := by
  cases op with
  | cmd x =>
    obtain ⟨-, e⟩ := cmd_core h x
    rw [e]
    split
    · exact ⟨_, (Lsdb.vss_step (setNpl_reach h.lsdb (nplAfter s.npl x)).inv .buildName).1⟩
    · exact ⟨[], by simp [setNpl]⟩
  | lsdb op =>
    rcases step_lsdb c s op with e | ⟨-, e⟩
    · rw [e]; exact ⟨[], by simp⟩
    · rw [e]; exact ⟨_, (Lsdb.vss_step h.lsdb.inv op).1⟩

theorem mirror_get {c : LConf} {s : CmdState} (h : CmdState.Inv c s) (n : Name) :
    PrefixMap.get (PrefixMap.ofList s.lsdb.npl) n = (s.npl.get n).map (·.cost) := by
  rw [h.mirror, PrefixMap.ofList_of_sorted (Npl.infos_sorted h.sorted), Npl.get_infos]

theorem mirror_none {c : LConf} {s : CmdState} (h : CmdState.Inv c s) (n : Name) :
    PrefixMap.get (PrefixMap.ofList s.lsdb.npl) n = none ↔ n ∉ s.npl.names := by
  rw [mirror_get h, Npl.mem_names_iff]
  cases s.npl.get n <;> simp

theorem none_iff_not_some {α : Type} (x : Option α) : x = none ↔ ¬ ∃ k, x = some k := by
  cases x <;> simp

/-- C49, the LSA: as long as no forged Name LSA arrives and the numbers do not wrap around, the router's own Name LSA in
the database has the current number and lists exactly the advertised prefixes, each with the cost it had when it was
last added. -/
theorem C49_lsa (c : LConf) (disk : Option Seqs) (adjs : AdjacencyList) (start : List (Name × Ext Rat)) (sys : Int)
    (file : Option ConfFile) (ops : List CmdState.Op) (hf : NoForgedName c ops)
    (hw : Out.publish .name 0 ∉ (run c (init c disk adjs start sys file) ops).lsdb.log) :
    OwnNames c (run c (init c disk adjs start sys file) ops).lsdb
      (run c (init c disk adjs start sys file) ops).lsdb.seqs.name (AddedCost start ops) := by
  induction ops using snoc_induction with
  | nil =>
    have h := Lsdb.own_init c disk adjs (startList start).infos sys
    obtain ⟨o, m, h1, h2, h3, h4, h5⟩ := h
    refine ⟨o, m, h1, h2, h3, h4, ?_⟩
    intro n
    rw [h5, PrefixMap.ofList_of_sorted (Npl.infos_sorted (startList_ok start).1), Npl.get_infos, startList_cost]
    rfl
  | snoc ops op ih =>
    have hi := run_inv (init_inv c disk adjs start sys file) ops
    have hnames := C49_names c disk adjs start sys file ops
    rw [run_snoc] at hw ⊢
    obtain ⟨outs, hlog⟩ := log_grows c hi op
    have ho := ih (fun i l hm => hf i l (by simp [hm])) (fun hm => hw (by rw [hlog]; simp [hm]))
    generalize run c (init c disk adjs start sys file) ops = s at hi hnames hw hlog ho
    cases op with
    | cmd x =>
      obtain ⟨e1, e2⟩ := cmd_core hi x
      by_cases hc : Changes s.npl x
      · rw [if_pos hc] at e2
        have hr := setNpl_reach hi.lsdb (nplAfter s.npl x)
        have ha := Lsdb.buildName_announced hr.inv s.lsdb.seqs.name
        have hs : { (s.setNpl (nplAfter s.npl x)).lsdb with
            seqs := (s.setNpl (nplAfter s.npl x)).lsdb.seqs.set .name s.lsdb.seqs.name } = (s.setNpl (nplAfter s.npl x)).lsdb :=
          Lsdb.seqs_set_self (s.setNpl (nplAfter s.npl x)).lsdb .name
        rw [hs] at ha
        have e3 : (step c s (.cmd x)).lsdb = Lsdb.buildName c (s.setNpl (nplAfter s.npl x)).lsdb := e2
        have hz : inc64 s.lsdb.seqs.name ≠ 0 := by
          intro hz
          obtain ⟨outs, hl, -⟩ := ha.log
          refine hw ?_
          rw [e3, hl, hz]
          simp
        have hcnt := Lsdb.name_lt hi.lsdb
        have ho' : OwnNames c (s.setNpl (nplAfter s.npl x)).lsdb s.lsdb.seqs.name (AddedCost start ops) := ho
        have hb := Lsdb.own_built hr.inv ho' s.lsdb.seqs.name (by rw [inc64_le hz]; omega)
        rw [hs] at hb
        rw [e3]
        have hseq : (Lsdb.buildName c (s.setNpl (nplAfter s.npl x)).lsdb).seqs.name = inc64 s.lsdb.seqs.name := by
          rw [ha.seqs]; rfl
        rw [hseq]
        obtain ⟨o, m, h1, h2, h3, h4, h5⟩ := hb
        refine ⟨o, m, h1, h2, h3, h4, ?_⟩
        intro n
        rw [h5, AddedCost_snoc]
        dsimp only
        have hget : PrefixMap.get (PrefixMap.ofList (s.setNpl (nplAfter s.npl x)).lsdb.npl) n =
            ((nplAfter s.npl x).get n).map (·.cost) := by
          show PrefixMap.get (PrefixMap.ofList (nplAfter s.npl x).infos) n = _
          rw [PrefixMap.ofList_of_sorted (Npl.infos_sorted (nplAfter_sorted hi.sorted x)), Npl.get_infos]
        rw [hget]
        have hold : ∀ m, AddedCost start ops m = none ↔ m ∉ s.npl.names := by
          intro m
          rw [none_iff_not_some, AddedCost_some, ← hnames]
        have hother : x.name ≠ n → ((nplAfter s.npl x).get n).map (·.cost) = (s.npl.get n).map (·.cost) := by
          intro hn
          unfold nplAfter
          cases x.verb with
          | advertise => dsimp only; rw [Npl.get_insert_cost hi.sorted, if_neg (fun e => hn e.symm)]
          | withdraw => dsimp only; rw [Npl.get_erase_plain hi.plain, if_neg (fun e => hn e.symm)]
        by_cases hn : x.name = n
        · rw [if_pos hn]
          subst hn
          unfold nplAfter
          cases hv : x.verb with
          | advertise =>
            dsimp only
            rw [Npl.get_insert_cost hi.sorted, if_pos rfl]
            rfl
          | withdraw =>
            dsimp only
            rw [Npl.get_erase_plain hi.plain, if_pos rfl]
            rfl
        · rw [if_neg hn, hother hn]
          have h6 := hold n
          rw [Npl.mem_names_iff] at h6
          cases hg : s.npl.get n with
          | none => rw [h6.2 (by simp [hg])]; rfl
          | some e =>
            cases hac : AddedCost start ops n with
            | none => exact absurd ⟨e, hg⟩ (h6.1 hac)
            | some k => rfl
      · rw [if_neg hc] at e2
        rw [e2]
        obtain ⟨o, m, h1, h2, h3, h4, h5⟩ := ho
        refine ⟨o, m, h1, h2, h3, h4, ?_⟩
        intro n
        rw [h5, AddedCost_snoc]
        dsimp only
        by_cases hn : x.name = n
        · rw [if_pos hn]
          subst hn
          unfold Changes at hc
          cases hv : x.verb with
          | advertise =>
            rw [hv] at hc
            dsimp only at hc ⊢
            obtain ⟨k, hk⟩ := (AddedCost_some start ops x.name).2 ((hnames x.name).1 (Decidable.not_not.1 hc))
            rw [hk]; rfl
          | withdraw =>
            rw [hv] at hc
            dsimp only at hc ⊢
            rw [none_iff_not_some, AddedCost_some, ← hnames]
            exact hc
        · rw [if_neg hn]
    | lsdb op =>
      have hac : AddedCost start (ops ++ [.lsdb op]) = AddedCost start ops := by
        funext n
        rw [AddedCost_snoc]
      rw [hac]
      rcases step_lsdb c s op with e | ⟨-, e⟩
      · rw [e]; exact ho
      · rw [e] at hw ⊢
        refine Lsdb.own_step hi.lsdb op ?_ ho ?_ hw
        · intro i l hop hor
          exact hf i l (by simp [hop]) hor
        · intro n
          rw [mirror_none hi, none_iff_not_some, AddedCost_some, ← hnames]

/-- The code of the reply to a command in state `s` (`none`: no reply). -/
def codeOf (c : LConf) (s : CmdState) (x : Cmd) : Option Nat :=
  ((step c s (.cmd x)).replies[s.replies.length]?).map (·.code)

theorem codeOf_eq {c : LConf} {s : CmdState} {x : Cmd} {k f : Nat} {r : Nat}
    (h : (step c s (.cmd x)).replies = s.replies ++ [⟨k, f⟩]) (hr : codeOf c s x = some r) : r = k := by
  unfold codeOf at hr
  rw [h] at hr
  simpa using hr.symm

/-- C50, refusal: an advertise or withdraw command answered 204 changes nothing that the router advertises: database,
numbers and announcements stay as they are. -/
theorem C50_refused {c : LConf} {s : CmdState} (h : CmdState.Reachable c s) (x : Cmd) (hr : codeOf c s x = some 204) :
    let s' := step c s (.cmd x)
    s'.lsdb.db = s.lsdb.db ∧ s'.lsdb.log = s.lsdb.log ∧ s'.lsdb.seqs = s.lsdb.seqs ∧ s'.npl.names = s.npl.names := by
  intro s'
  have hnc : ¬ (x.verb = .advertise ↔ x.name ∉ s.npl.names) := by
    intro hch
    rcases C49_code h x with ⟨code, h1, -, h3, h4⟩ | ⟨h1, -⟩
    · have := codeOf_eq h1 hr
      subst this
      by_cases hf : x.flags = some 1
      · rcases (h4 hf).1 with h5 | ⟨h5, -⟩ <;> cases h5
      · cases (h3 hf).2.1 hch
    · unfold codeOf at hr
      rw [h1] at hr
      simp at hr
  have hc : ¬ Changes s.npl x := by
    unfold Changes
    cases hv : x.verb with
    | advertise => rw [hv] at hnc; simpa using hnc
    | withdraw => rw [hv] at hnc; simpa using hnc
  obtain ⟨e1, e2⟩ := cmd_core h.inv x
  rw [if_neg hc] at e2
  have e2 : s'.lsdb = (s.setNpl (nplAfter s.npl x)).lsdb := e2
  have e1 : s'.npl = nplAfter s.npl x := e1
  refine ⟨by rw [e2]; rfl, by rw [e2]; rfl, by rw [e2]; rfl, ?_⟩
  rw [e1]
  have hi := h.inv
  refine List.Perm.eq_of_pairwise (le := fun a b => Name.lt a b = true) ?_ ?_ ?_ ?_
  · intro a b _ _ h1 h2
    have := Name.lt_asymm h1
    rw [h2] at this
    cases this
  · unfold Npl.names; rw [List.pairwise_map]; exact nplAfter_sorted hi.sorted x
  · unfold Npl.names; rw [List.pairwise_map]; exact hi.sorted
  · refine (List.perm_ext_iff_of_nodup ?_ (C49_no_duplicates h)).2 ?_
    · exact e1 ▸ C49_no_duplicates (s := s') (by
        obtain ⟨disk, adjs, npl, sys, file, ops, rfl⟩ := h
        exact ⟨disk, adjs, npl, sys, file, ops ++ [.cmd x], (run_snoc c _ ops (.cmd x)).symm⟩)
    · intro n
      rw [names_after hi]
      by_cases hn : x.name = n
      · rw [if_pos hn]
        subst hn
        unfold Changes at hc
        cases hv : x.verb with
        | advertise => rw [hv] at hc; simpa using hc
        | withdraw => rw [hv] at hc; simpa using hc
      · rw [if_neg hn]

/-- C50, acceptance, for commands without the save flag: an advertise command answered 200 makes the router's own Name
LSA list the prefix with the cost of the command (exactly so below 2^53), as long as no forged Name LSA arrived and the
numbers did not wrap around.  Missing: commands with the save flag, which are answered 205 although the LSA keeps the old cost
(`C50_violated_saved`). -/
theorem C50_new_cost_partial (c : LConf) (disk : Option Seqs) (adjs : AdjacencyList) (start : List (Name × Ext Rat))
    (sys : Int) (file : Option ConfFile) (ops : List CmdState.Op) (x : Cmd) (hv : x.verb = .advertise)
    (hcode : codeOf c (run c (init c disk adjs start sys file) ops) x = some 200) (hk : x.cost.getD 0 < 2 ^ 53)
    (hf : NoForgedName c ops)
    (hw : Out.publish .name 0 ∉ (run c (init c disk adjs start sys file) (ops ++ [.cmd x])).lsdb.log) :
    ∃ o m, (run c (init c disk adjs start sys file) (ops ++ [.cmd x])).lsdb.find c.router .name = some o ∧
      o.lsa.content = .names m ∧ (⟨x.name, .fin (x.cost.getD 0 : Nat)⟩ : PrefixInfo) ∈ m := by
  have h : CmdState.Reachable c (run c (init c disk adjs start sys file) ops) := ⟨_, _, _, _, _, _, rfl⟩
  have hch : x.name ∉ (run c (init c disk adjs start sys file) ops).npl.names := by
    rcases C49_code h x with ⟨code, h1, -, h3, h4⟩ | ⟨h1, -⟩
    · have := codeOf_eq h1 hcode
      subst this
      by_cases hf : x.flags = some 1
      · rcases (h4 hf).1 with h5 | ⟨h5, -⟩ <;> cases h5
      · intro hn
        have := (h3 hf).2.2 (by rw [hv]; simpa using hn)
        cases this
    · unfold codeOf at hcode
      rw [h1] at hcode
      simp at hcode
  have hac : AddedCost start ops x.name = none := by
    rw [none_iff_not_some, AddedCost_some, ← C49_names c disk adjs start sys file]
    exact hch
  obtain ⟨o, m, h1, -, h3, h4, h5⟩ := C49_lsa c disk adjs start sys file (ops ++ [.cmd x])
    (fun i l hm => hf i l (by simpa using hm)) hw
  refine ⟨o, m, h1, h3, PrefixMap.get_some ?_⟩
  rw [h5, AddedCost_snoc]
  dsimp only
  rw [if_pos rfl, hv, hac]
  have hr : Dbl.roundNat (x.cost.getD 0) = x.cost.getD 0 := by unfold Dbl.roundNat; rw [if_pos hk]
  dsimp only
  rw [hr]
  rfl

/-! Cases. -/

/-- A file with an empty advertising section. -/
def exFile : ConfFile :=
  { lines := ["advertising".toList, "{".toList, "}".toList], tree := some (.node [] [("advertising".toList, .node [] [])]) }

def exCmdStart : CmdState := init (exConf .off) none [] [(nm ["p"], .fin 7)] 0 (some exFile)

def exAdv (n : String) (cost : Nat) (save : Bool) : Cmd :=
  { verb := .advertise, name := nm [n], cost := some cost, flags := if save then some 1 else none }

def exWdr (n : String) (save : Bool) : Cmd :=
  { verb := .withdraw, name := nm [n], flags := if save then some 1 else none }

/-- The prefixes of the own Name LSA and the codes of the replies. -/
def ownAndCodes (s : CmdState) : Option (Nat × Content) × List Nat :=
  ((s.lsdb.find exR1 .name).map (fun o => (o.lsa.seq, o.lsa.content)), s.replies.map (·.code))

/-- Advertise, advertise again, withdraw, withdraw again. -/
example : ownAndCodes (run (exConf .off) exCmdStart [.cmd (exAdv "a" 10 false), .cmd (exAdv "a" 10 false),
      .cmd (exWdr "p" false), .cmd (exWdr "p" false)]) =
    (some (3, .names [⟨nm ["a"], .fin 10⟩]), [200, 204, 200, 204]) := by decide +kernel

/-- A case for `C49_lsa` and `C50_new_cost_partial`. -/
example : NoForgedName (exConf .off) [.cmd (exWdr "p" false), .lsdb (.sync (exUpdate "r1" "NAME") 9)] ∧
    Out.publish .name 0 ∉ (run (exConf .off) exCmdStart [.cmd (exWdr "p" false), .lsdb (.sync (exUpdate "r1" "NAME") 9),
      .cmd (exAdv "a" 10 false)]).lsdb.log ∧
    codeOf (exConf .off) (run (exConf .off) exCmdStart [.cmd (exWdr "p" false), .lsdb (.sync (exUpdate "r1" "NAME") 9)])
      (exAdv "a" 10 false) = some 200 ∧
    (ownAndCodes (run (exConf .off) exCmdStart [.cmd (exWdr "p" false), .lsdb (.sync (exUpdate "r1" "NAME") 9),
      .cmd (exAdv "a" 10 false)])).1 = some (11, .names [⟨nm ["a"], .fin 10⟩]) := by
  refine ⟨?_, ?_, ?_, ?_⟩
  · intro i l h
    simp at h
  · decide +kernel
  · decide +kernel
  · decide +kernel

/-- C50 fails: /p is advertised with cost 7.  Advertising it with cost 20 and the save flag is answered 205 (success) and
saved, but the router goes on advertising cost 7. -/
theorem C50_violated_saved :
    codeOf (exConf .off) exCmdStart (exAdv "p" 20 true) = some 205 ∧
    (step (exConf .off) exCmdStart (.cmd (exAdv "p" 20 true))).lsdb.db = exCmdStart.lsdb.db ∧
    ((step (exConf .off) exCmdStart (.cmd (exAdv "p" 20 true))).lsdb.find exR1 .name).map (·.lsa.content) =
      some (.names [⟨nm ["p"], .fin 7⟩]) ∧
    (step (exConf .off) exCmdStart (.cmd (exAdv "p" 20 true))).file.map (·.lines) =
      some ["advertising".toList, "{".toList, "    /p 20".toList, "}".toList] := by
  decide +kernel

end Nlsr
