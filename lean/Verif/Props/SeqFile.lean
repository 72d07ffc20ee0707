import Verif.Lemmas.SeqFile
import Verif.Props.LsdbSeqs
/- C96: the text of the state file. -/
namespace Nlsr.SeqFile
open Num Lsdb

theorem label_name : Label "NameLsaSeq".toList := by
  constructor
  · decide
  · decide
theorem label_adj : Label "AdjLsaSeq".toList := by
  constructor
  · decide
  · decide
theorem label_cor : Label "CorLsaSeq".toList := by
  constructor
  · decide
  · decide

theorem render_eq (s : Seqs) : render s = [] ++ ("NameLsaSeq".toList ++ (' ' :: (Uri.dec s.name ++
    (['\n'] ++ ("AdjLsaSeq".toList ++ (' ' :: (Uri.dec s.adj ++
      (['\n'] ++ ("CorLsaSeq".toList ++ (' ' :: (Uri.dec s.cor ++ [])))))))))))  := by
  have h1 : "NameLsaSeq ".toList = "NameLsaSeq".toList ++ [' '] := by decide
  have h2 : "AdjLsaSeq ".toList = "AdjLsaSeq".toList ++ [' '] := by decide
  have h3 : "CorLsaSeq ".toList = "CorLsaSeq".toList ++ [' '] := by decide
  unfold render
  rw [h1, h2, h3]
  simp

theorem parse_take (s : Seqs) (h : Fits s) (k : Nat) :
    let r := parse ((render s).take k)
    (r.name ≤ s.name ∧ r.adj ≤ s.adj ∧ r.cor ≤ s.cor) ∧
    (11 + (Uri.dec s.name).length ≤ k → r.name = s.name) ∧
    (22 + (Uri.dec s.name).length + (Uri.dec s.adj).length ≤ k → r.adj = s.adj) ∧
    (33 + (Uri.dec s.name).length + (Uri.dec s.adj).length + (Uri.dec s.cor).length ≤ k → r.cor = s.cor) := by
  intro r
  have hl1 : ([] ++ ("NameLsaSeq".toList ++ (' ' :: Uri.dec s.name))).length = 11 + (Uri.dec s.name).length := by
    simp; omega
  have hl2 : (['\n'] ++ ("AdjLsaSeq".toList ++ (' ' :: Uri.dec s.adj))).length = 11 + (Uri.dec s.adj).length := by
    simp; omega
  have hl3 : (['\n'] ++ ("CorLsaSeq".toList ++ (' ' :: Uri.dec s.cor))).length = 11 + (Uri.dec s.cor).length := by
    simp; omega
  have hnl : ∀ c ∈ ['\n'], isSpace c = true := by decide
  have hr : r = parse ((render s).take k) := rfl
  rw [render_eq] at hr
  clear_value r
  unfold parse at hr
  dsimp only at hr
  have f1 := field_cut (sp := []) (t := ['\n'] ++ ("AdjLsaSeq".toList ++ (' ' :: (Uri.dec s.adj ++
      (['\n'] ++ ("CorLsaSeq".toList ++ (' ' :: (Uri.dec s.cor ++ [])))))))) (by simp) label_name h.1 (Or.inr ⟨_, rfl⟩) k
  rw [hl1] at f1
  generalize In.number (In.word _) 0 = p1 at f1 hr
  rcases f1 with ⟨j, f1, ek⟩ | ⟨ek, f1, f1'⟩
  · rw [f1] at hr
    dsimp only at hr
    have f2 := field_cut (sp := ['\n']) (t := ['\n'] ++ ("CorLsaSeq".toList ++ (' ' :: (Uri.dec s.cor ++ [])))) hnl label_adj
      h.2.1 (Or.inr ⟨_, rfl⟩) j
    rw [hl2] at f2
    generalize In.number (In.word _) 0 = p2 at f2 hr
    rcases f2 with ⟨j', f2, ej⟩ | ⟨ej, f2, f2'⟩
    · rw [f2] at hr
      dsimp only at hr
      have f3 := field_cut (sp := ['\n']) (t := []) hnl label_cor h.2.2 (Or.inl rfl) j'
      rw [hl3] at f3
      generalize In.number (In.word _) 0 = p3 at f3 hr
      rcases f3 with ⟨j'', f3, ej'⟩ | ⟨ej', f3, f3'⟩
      · rw [f3] at hr
        subst hr
        exact ⟨⟨Nat.le_refl _, Nat.le_refl _, Nat.le_refl _⟩, fun _ => rfl, fun _ => rfl, fun _ => rfl⟩
      · subst hr
        exact ⟨⟨Nat.le_refl _, Nat.le_refl _, f3'⟩, fun _ => rfl, fun _ => rfl, fun hk => by omega⟩
    · have f3 := Spent.number (Spent.word f2) 0
      subst hr
      exact ⟨⟨Nat.le_refl _, f2', by show _ ≤ _; rw [f3.2]; exact Nat.zero_le _⟩, fun _ => rfl, fun hk => by omega,
        fun hk => by omega⟩
  · have f2 := Spent.number (Spent.word f1) 0
    have f3 := Spent.number (Spent.word f2.1) 0
    subst hr
    exact ⟨⟨f1', by show _ ≤ _; rw [f2.2]; exact Nat.zero_le _, by show _ ≤ _; rw [f3.2]; exact Nat.zero_le _⟩,
      fun hk => by omega, fun hk => by omega, fun hk => by omega⟩

theorem render_length (s : Seqs) :
    (render s).length = 33 + (Uri.dec s.name).length + (Uri.dec s.adj).length + (Uri.dec s.cor).length := by
  unfold render
  simp
  omega

/-- What the daemon writes to its state file is what it reads at the next start. -/
theorem C96_round_trip (s : Seqs) (h1 : s.name < 2 ^ 64) (h2 : s.adj < 2 ^ 64) (h3 : s.cor < 2 ^ 64) :
    parse (render s) = s := by
  have h := parse_take s ⟨h1, h2, h3⟩ (render s).length
  rw [List.take_of_length_le (Nat.le_refl _), render_length] at h
  obtain ⟨-, a, b, d⟩ := h
  cases hp : parse (render s) with
  | mk x y z =>
    rw [hp] at a b d
    cases s
    simp only [Seqs.mk.injEq]
    exact ⟨a (by omega), b (by omega), d (by omega)⟩

/-- A state file that ends early never gives a number that is higher than the one that was to be written. -/
theorem C96_cut_lower (s : Seqs) (h1 : s.name < 2 ^ 64) (h2 : s.adj < 2 ^ 64) (h3 : s.cor < 2 ^ 64) (k : Nat) (t : LsaType) :
    (parse ((render s).take k)).get t ≤ s.get t := by
  obtain ⟨⟨a, b, d⟩, -⟩ := parse_take s ⟨h1, h2, h3⟩ k
  cases t with
  | name => exact a
  | adjacency => exact b
  | coordinate => exact d
  | base => exact Nat.le_refl _

/-- And a number that is wholly in the part that was kept is not lost: the first line, and the first two lines. -/
theorem C96_cut_keeps (s : Seqs) (h1 : s.name < 2 ^ 64) (h2 : s.adj < 2 ^ 64) (h3 : s.cor < 2 ^ 64) (k : Nat) :
    (("NameLsaSeq ".toList ++ Uri.dec s.name).length ≤ k → (parse ((render s).take k)).name = s.name) ∧
    (("NameLsaSeq ".toList ++ Uri.dec s.name ++ "\nAdjLsaSeq ".toList ++ Uri.dec s.adj).length ≤ k →
      (parse ((render s).take k)).name = s.name ∧ (parse ((render s).take k)).adj = s.adj) := by
  obtain ⟨-, a, b, -⟩ := parse_take s ⟨h1, h2, h3⟩ k
  constructor
  · intro h; refine a ?_; simp at h; omega
  · intro h; simp at h; exact ⟨a (by omega), b (by omega)⟩

example : parse (render ⟨12, 7, 0⟩) = ⟨12, 7, 0⟩ ∧ parse ((render ⟨12, 7, 0⟩).take 25) = ⟨12, 7, 0⟩ ∧
    parse ((render ⟨12, 7, 0⟩).take 24) = ⟨12, 0, 0⟩ ∧ parse ((render ⟨12, 7, 0⟩).take 12) = ⟨1, 0, 0⟩ ∧
    (render ⟨12, 7, 0⟩).length = 37 := by decide +kernel

/-! ### writing -/

theorem dec_length_le : ∀ (d n : Nat), n < 10 ^ (d + 1) → (Uri.dec n).length ≤ d + 1
  | 0, n, h => by rw [Uri.dec, if_pos (by omega)]; simp
  | d + 1, n, h => by
    rw [Uri.dec]
    split
    · simp
    · have := dec_length_le d (n / 10) (by rw [Nat.div_lt_iff_lt_mul (by decide)]; rw [Nat.pow_succ] at h; omega)
      simp
      omega

theorem render_fits {s : Seqs} (h : Fits s) : (render s).length ≤ 93 := by
  rw [render_length]
  have e : (2 : Nat) ^ 64 < 10 ^ (19 + 1) := by decide
  have h1 := dec_length_le 19 s.name (Nat.lt_trans h.1 e)
  have h2 := dec_length_le 19 s.adj (Nat.lt_trans h.2.1 e)
  have h3 := dec_length_le 19 s.cor (Nat.lt_trans h.2.2 e)
  omega

theorem filesAfter_append (f : Files) (a b : List Deed) : filesAfter f (a ++ b) = filesAfter (filesAfter f a) b := by
  unfold filesAfter; rw [List.foldl_append]

theorem filesAfter_puts (t : Text) : ∀ (f : Files) (u : Text), f.tmp = some u →
    filesAfter f (t.map (fun c => Deed.file (.put c))) = { f with tmp := some (u ++ t) } := by
  induction t with
  | nil => intro f u h; rw [List.append_nil, ← h]; rfl
  | cons c t ih =>
    intro f u h
    show filesAfter (f.step (.put c)) _ = _
    have : f.step (.put c) = { f with tmp := some (u ++ [c]) } := by
      unfold Files.step; rw [h]; rfl
    rw [this, ih _ (u ++ [c]) rfl]
    simp

/-- The writing, cut anywhere before the end, leaves the state file alone; whole, it replaces it. -/
theorem write_take (room : Nat) (s : Seqs) (f : Files) (k : Nat) :
    (k < ((deedsOf room (.persist s))).length → (filesAfter f ((deedsOf room (.persist s)).take k)).file = f.file) ∧
    filesAfter f (deedsOf room (.persist s)) = ⟨some ((render s).take room), none⟩ := by
  have e : deedsOf room (.persist s) =
      (.file .create :: ((render s).take room).map (fun c => Deed.file (.put c))) ++ [.file .rename] := by
    show (writeOps room s).map Deed.file = _
    unfold writeOps
    rw [List.map_cons, List.map_append, List.map_map]
    rfl
  rw [e]
  constructor
  · intro hk
    rw [List.length_append, List.length_singleton] at hk
    rw [List.take_append_of_le_length (by omega)]
    cases k with
    | zero => rfl
    | succ k =>
      rw [List.take_succ_cons, ← List.map_take]
      show (filesAfter (f.step .create) _).file = _
      rw [filesAfter_puts _ (f.step .create) [] rfl]
      rfl
  · rw [filesAfter_append]
    show filesAfter (filesAfter (f.step .create) _) _ = _
    rw [filesAfter_puts _ (f.step .create) [] rfl]
    simp [filesAfter, Files.step]

/-- Killed anywhere while it writes the state file, the daemon finds either the old numbers or the new ones at the
next start, whatever is left in the temporary file. -/
theorem C96_crash (room : Nat) (hroom : 93 ≤ room) (s : Seqs) (h1 : s.name < 2 ^ 64) (h2 : s.adj < 2 ^ 64)
    (h3 : s.cor < 2 ^ 64) (f : Files) (k : Nat) :
    (filesAfter f ((deedsOf room (.persist s)).take k)).seqs = f.seqs ∨
    (filesAfter f ((deedsOf room (.persist s)).take k)).seqs = some s := by
  by_cases hk : k < (deedsOf room (.persist s)).length
  · left
    unfold Files.seqs
    rw [(write_take room s f k).1 hk]
  · right
    rw [List.take_of_length_le (by omega), (write_take room s f k).2]
    show some (parse _) = _
    rw [List.take_of_length_le (Nat.le_trans (render_fits ⟨h1, h2, h3⟩) hroom), C96_round_trip s h1 h2 h3]

example : (filesAfter ⟨some "NameLsaSeq 3\nAdjLsaSeq 4\nCorLsaSeq 0".toList, some "junk".toList⟩
      ((deedsOf 93 (.persist ⟨5, 4, 0⟩)).take 20)) =
      ⟨some "NameLsaSeq 3\nAdjLsaSeq 4\nCorLsaSeq 0".toList, some "NameLsaSeq 5\nAdjLsa".toList⟩ ∧
    (filesAfter ⟨some "NameLsaSeq 3\nAdjLsaSeq 4\nCorLsaSeq 0".toList, none⟩
      (deedsOf 93 (.persist ⟨5, 4, 0⟩))).seqs = some ⟨5, 4, 0⟩ := by decide +kernel

/-! ### whole lives of the daemon -/

theorem Fits.set {s : Seqs} (h : Fits s) (t : LsaType) (b : Nat) : Fits (s.set t (inc64 b)) := by
  have hb := inc64_bound b
  obtain ⟨a, b, c⟩ := h
  cases t
  · exact ⟨a, hb, c⟩
  · exact ⟨a, b, hb⟩
  · exact ⟨hb, b, c⟩
  · exact ⟨a, b, c⟩

/-- All numbers that go to the state file fit. -/
theorem persisted_fits {c : LConf} {s : Lsdb} (h : Reachable c s) : Fits s.seqs ∧ ∀ q, .persist q ∈ s.log → Fits q := by
  have ext : ∀ (s s' : Lsdb) (t' : LsaType) (b : Nat), Announced c s s' t' b →
      (Fits s.seqs ∧ ∀ q, Out.persist q ∈ s.log → Fits q) → (Fits s'.seqs ∧ ∀ q, Out.persist q ∈ s'.log → Fits q) := by
    intro s s' t' b ha ih
    have hs : Fits s'.seqs := by rw [ha.seqs]; exact ih.1.set t' b
    refine ⟨hs, ?_⟩
    intro q hq
    obtain ⟨outs, h1, h2⟩ := ha.log
    rw [h1] at hq
    rcases List.mem_append.1 hq with hq | hq
    · exact ih.2 q hq
    · rcases List.mem_cons.1 hq with hq | hq
      · cases hq; exact hs
      · rcases List.mem_cons.1 hq with hq | hq
        · cases hq
        · cases h2 _ hq
  refine Reachable.induct_step (P := fun s => Fits s.seqs ∧ ∀ q, .persist q ∈ s.log → Fits q) ?_ ?_ h
  · intro disk adjs npl sys
    obtain ⟨s1, h1, h2⟩ := init_seq c disk adjs npl sys
    have hb : Fits (boot c disk adjs npl sys).seqs := by
      show Fits (Seqs.init c.hyp disk)
      have hp : ∀ n, Seqs.plus10 n < 2 ^ 64 := fun n => Nat.mod_lt _ (by decide)
      cases disk with
      | none => exact ⟨(by show (0 : Nat) < 2 ^ 64; decide), (by show (0 : Nat) < 2 ^ 64; decide), (by show (0 : Nat) < 2 ^ 64; decide)⟩
      | some d =>
        show Fits (Seqs.initB c.hyp (Seqs.initA c.hyp d))
        unfold Seqs.initB Seqs.initA
        cases hh : c.hyp
        · simp only [reduceCtorEq, if_false, if_true]
          exact ⟨hp _, hp _, by show (0 : Nat) < _; decide⟩
        · simp only [reduceCtorEq, if_false, if_true]
          exact ⟨hp _, by show (0 : Nat) < _; decide, hp _⟩
        · simp only [reduceCtorEq, if_false, if_true]
          exact ⟨hp _, by show (0 : Nat) < _; decide, hp _⟩
    have h0 := ext _ _ _ _ h1 ⟨hb, by intro q e; simp [boot] at e⟩
    rcases h2 with ⟨-, h2⟩ | ⟨-, h2⟩
    · rw [h2]; exact h0
    · exact ext _ _ _ _ h2 h0
  · intro s op hr ih
    cases step_seq hr op with
    | announced t' b _ ha => exact ext _ _ _ _ ha ih
    | quiet hq =>
      obtain ⟨outs, h1, h2⟩ := hq.log
      refine ⟨by rw [hq.seqs]; exact ih.1, ?_⟩
      intro q hqm
      rw [h1] at hqm
      rcases List.mem_append.1 hqm with hqm | hqm
      · exact ih.2 q hqm
      · cases h2 _ hqm

/-- One life of the daemon: as in `Session`, but it is killed after `σ.cut` steps of which the writing of the state
file takes one for each character, on a disk with room for `room` characters. -/
structure Life where
  σ : Session
  room : Nat

/-- The steps it takes before it is killed. -/
def Life.deeds (c : LConf) (f : Files) (l : Life) : List Deed := (SeqFile.deeds l.room (l.σ.full c f.seqs)).take l.σ.cut

/-- The outputs of all lives; each starts from the files the one before has left. -/
def fileHistory (c : LConf) : Files → List Life → List Out
  | _, [] => []
  | f, l :: ls => outs (l.deeds c f) ++ fileHistory c (filesAfter f (l.deeds c f)) ls

/-- No counter reaches 2^64 (as `NoWrap`). -/
def FileNoWrap (c : LConf) (t : LsaType) : Files → List Life → Prop
  | _, [] => True
  | f, l :: ls => dget t f.seqs + 10 < 2 ^ 64 ∧ 0 ∉ published t (l.σ.full c f.seqs) ∧
      FileNoWrap c t (filesAfter f (l.deeds c f)) ls

theorem outs_append (a b : List Deed) : outs (a ++ b) = outs a ++ outs b := by simp [outs]

theorem outs_write (room : Nat) (s : Seqs) (k : Nat) : outs ((deedsOf room (.persist s)).take k) = [] := by
  show outs (((writeOps room s).map Deed.file).take k) = []
  rw [← List.map_take]
  generalize (writeOps room s).take k = l
  induction l with
  | nil => rfl
  | cons x l ih => exact ih

/-- The first `k` steps amount to the first `k'` outputs. -/
theorem deeds_take {room : Nat} (hroom : 93 ≤ room) (t : LsaType) : ∀ (l : List Out), (∀ q, Out.persist q ∈ l → Fits q) →
    ∀ (k : Nat) (f : Files), ∃ k', published t (outs ((deeds room l).take k)) = published t (l.take k') ∧
      (filesAfter f ((deeds room l).take k)).seqs = diskAfter f.seqs (l.take k')
  | [], _, k, f => ⟨0, by simp [deeds, outs, published], by simp [deeds, filesAfter, diskAfter]⟩
  | o :: l, hq, k, f => by
    have hdeeds : deeds room (o :: l) = deedsOf room o ++ deeds room l := rfl
    rw [hdeeds]
    by_cases hk : (deedsOf room o).length ≤ k
    · rw [List.take_append, List.take_of_length_le hk]
      obtain ⟨k', h1, h2⟩ := deeds_take hroom t l (fun q h => hq q (List.mem_cons_of_mem _ h)) (k - (deedsOf room o).length)
        (filesAfter f (deedsOf room o))
      refine ⟨k' + 1, ?_, ?_⟩
      · rw [outs_append, published_append, h1, List.take_succ_cons]
        show _ = published t ([o] ++ l.take k')
        rw [published_append]
        congr 1
        cases o with
        | persist q =>
          have := outs_write room q (deedsOf room (.persist q)).length
          rw [List.take_of_length_le (Nat.le_refl _)] at this
          rw [this]
          rfl
        | _ => rfl
      · rw [filesAfter_append, h2, List.take_succ_cons]
        show _ = diskAfter _ (o :: l.take k')
        cases o with
        | persist q =>
          have hf := hq q (by simp)
          rw [(write_take room q f 0).2]
          show diskAfter (some (parse _)) _ = diskAfter (some q) _
          rw [List.take_of_length_le (Nat.le_trans (render_fits hf) hroom), C96_round_trip q hf.1 hf.2.1 hf.2.2]
        | _ => rfl
    · rw [List.take_append_of_le_length (by omega)]
      refine ⟨0, ?_, ?_⟩
      · cases o with
        | persist q => rw [outs_write]; rfl
        | _ =>
          have : k = 0 := by
            have h1 : ¬ (1 ≤ k) := hk
            omega
          rw [this]; rfl
      · cases o with
        | persist q =>
          unfold Files.seqs
          rw [(write_take room q f k).1 (by omega)]
          rfl
        | _ =>
          have : k = 0 := by
            have h1 : ¬ (1 ≤ k) := hk
            omega
          rw [this]; rfl

/-- The history with the file as text is one of those with the numbers themselves. -/
theorem refines (c : LConf) (t : LsaType) : ∀ (ls : List Life) (f : Files), (∀ l ∈ ls, 93 ≤ l.room) → FileNoWrap c t f ls →
    ∃ σs, published t (fileHistory c f ls) = published t (history c f.seqs σs) ∧ NoWrap c t f.seqs σs
  | [], f, _, _ => ⟨[], rfl, trivial⟩
  | l :: ls, f, hr, hw => by
    obtain ⟨w1, w2, w3⟩ := hw
    have hreach : Reachable c (run c (Lsdb.init c f.seqs l.σ.adjs l.σ.npl l.σ.sys) l.σ.ops) :=
      ⟨f.seqs, l.σ.adjs, l.σ.npl, l.σ.sys, l.σ.ops, rfl⟩
    obtain ⟨k', h1, h2⟩ := deeds_take (hr l (by simp)) t (l.σ.full c f.seqs) (persisted_fits hreach).2 l.σ.cut f
    obtain ⟨σs, h3, h4⟩ := refines c t ls (filesAfter f (l.deeds c f)) (fun x hx => hr x (List.mem_cons_of_mem _ hx)) w3
    have h2' : (filesAfter f (l.deeds c f)).seqs = diskAfter f.seqs (({ l.σ with cut := k' } : Session).log c f.seqs) := h2
    rw [h2'] at h3 h4
    refine ⟨{ l.σ with cut := k' } :: σs, ?_, w1, w2, h4⟩
    show published t (outs (l.deeds c f) ++ _) = published t (_ ++ _)
    rw [published_append, published_append, h3]
    congr 1

/-- Killed at any step of writing the state file, any number of times, and started again from the files it finds, the
router never announces a number that is not above all the numbers it announced before: NAME in every mode, COORDINATE with
hyperbolic routing on.  (The case of ADJACENCY is C39's.) -/
theorem C96_no_reuse_partial (c : LConf) (t : LsaType) (ht : t = .name ∨ (t = .coordinate ∧ c.hyp = .on))
    (f : Files) (ls : List Life) (hroom : ∀ l ∈ ls, 93 ≤ l.room) (hw : FileNoWrap c t f ls) :
    (published t (fileHistory c f ls)).Pairwise (· < ·) := by
  obtain ⟨σs, h1, h2⟩ := refines c t ls f hroom hw
  rw [h1]
  exact C39_no_reuse_partial c t ht f.seqs σs h2

/-- Whenever the router announces a number, the state file holds a text from which the next start reads that number. -/
theorem C96_on_disk {c : LConf} {s : Lsdb} (h : Reachable c s) (room : Nat) (hroom : 93 ≤ room) (f : Files)
    (pre post : List Deed) (t : LsaType) (n : Nat) (hd : deeds room s.log = pre ++ .out (.publish t n) :: post) :
    ∃ q, (filesAfter f pre).seqs = some q ∧ q.get t = n := by
  -- the outputs before the announcement
  have split : ∀ (l : List Out) (pre post : List Deed), deeds room l = pre ++ .out (.publish t n) :: post →
      ∃ a b, l = a ++ .publish t n :: b ∧ pre = deeds room a := by
    intro l
    induction l with
    | nil => intro pre post e; simp [deeds] at e
    | cons o l ih =>
      intro pre post e
      have e : deedsOf room o ++ deeds room l = pre ++ .out (.publish t n) :: post := e
      rcases List.append_eq_append_iff.1 e with ⟨r, e1, e2⟩ | ⟨r, e1, e2⟩
      · obtain ⟨a, b, h1, h2⟩ := ih r post e2
        refine ⟨o :: a, b, by rw [h1]; rfl, ?_⟩
        rw [e1, h2]; rfl
      · cases r with
        | nil =>
          rw [List.append_nil] at e1
          obtain ⟨a, b, h1, h2⟩ := ih [] post (by rw [List.nil_append] at e2 ⊢; exact e2.symm)
          refine ⟨o :: a, b, by rw [h1]; rfl, ?_⟩
          show pre = deedsOf room o ++ deeds room a
          rw [← h2, List.append_nil, e1]
        | cons x r =>
          rw [List.cons_append] at e2
          obtain ⟨rfl, e3⟩ := List.cons.inj e2
          cases o with
          | persist q =>
            have : Deed.out (.publish t n) ∈ (writeOps room q).map Deed.file := by
              show _ ∈ deedsOf room (.persist q)
              rw [e1]; simp
            obtain ⟨y, -, hy⟩ := List.mem_map.1 this
            cases hy
          | _ =>
            have e1 : [Deed.out _] = pre ++ Deed.out (.publish t n) :: r := e1
            cases pre with
            | nil =>
              rw [List.nil_append] at e1
              obtain ⟨e4, e5⟩ := List.cons.inj e1
              cases e4
              all_goals exact ⟨[], l, rfl, rfl⟩
            | cons y pre => simp at e1
  obtain ⟨a, b, h1, rfl⟩ := split _ _ _ hd
  obtain ⟨a', q, h2, h3⟩ := C40_disk_first h a b t n h1
  have hq : Fits q := (persisted_fits h).2 q (by rw [h1, h2]; simp)
  refine ⟨q, ?_, h3⟩
  rw [h2]
  have : deeds room (a' ++ [.persist q]) = deeds room a' ++ deedsOf room (.persist q) := by
    unfold deeds; rw [List.flatMap_append]; simp
  rw [this, filesAfter_append, (write_take room q _ 0).2]
  show some (parse _) = _
  rw [List.take_of_length_le (Nat.le_trans (render_fits hq) hroom), C96_round_trip q hq.1 hq.2.1 hq.2.2]

/-- Three lives; the second is killed in the middle of writing its first number, so the third finds the first's file. -/
example : FileNoWrap (exConf .off) .name {} [⟨exSession [.buildName], 93⟩, ⟨{ exSession [] with cut := 20 }, 93⟩, ⟨exSession [], 93⟩] ∧
    published .name (fileHistory (exConf .off) {} [⟨exSession [.buildName], 93⟩, ⟨{ exSession [] with cut := 20 }, 93⟩,
      ⟨exSession [], 93⟩]) = [1, 2, 13] := by
  refine ⟨⟨?_, ?_, ?_, ?_, ?_, ?_, trivial⟩, ?_⟩ <;> decide +kernel

/-- On a full disk C96 fails: the errors of the stream are not looked at, so a cut file takes the place of the good
one, and after the next start the router announces numbers it has used long ago. -/
theorem C96_violated_disk_full :
    published .name (fileHistory (exConf .off) {} [⟨exSession [], 93⟩, ⟨exSession [], 93⟩, ⟨exSession [], 5⟩, ⟨exSession [], 93⟩]) =
      [1, 12, 23, 11] := by
  decide +kernel

/-- A damaged file is not noticed either: any text is taken for numbers. -/
theorem C96_violated_damaged :
    parse "NameLsaSeq: 40\nAdjLsaSeq 7\nCorLsaSeq 0".toList = ⟨40, 7, 0⟩ ∧
    parse "NameLsaSeq=40\nAdjLsaSeq=7\nCorLsaSeq=0".toList = ⟨0, 0, 0⟩ ∧
    parse "NameLsaSeq -1\nAdjLsaSeq 7\nCorLsaSeq 0".toList = ⟨18446744073709551615, 7, 0⟩ := by
  decide +kernel

end Nlsr.SeqFile
