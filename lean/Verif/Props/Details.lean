import Verif.Props.Segments
import Verif.Props.Print
import Verif.Props.ConfWords

namespace Nlsr

/-! ### Segments kept for later -/

namespace Lsdb

/-- C105: no more than 100 segments of own LSAs are kept, and those pushed out are the oldest: after an interest the store is as it
was, or the last 100 of what it was followed by all segments of one LSA. -/
theorem C105_kept {c : LConf} (hnet : Comp.str "LSA" ∉ c.names.network) {s : Lsdb} (h : Reachable c s) :
    s.fifo.length ≤ 100 ∧ ∀ n v, (step c s (.interest n v)).fifo = s.fifo ∨
      ∃ o ∈ s.db, o.lsa.origin = c.router ∧
        (step c s (.interest n v)).fifo <:+ s.fifo ++ (List.range (c.segments o.lsa)).map (fun i => (⟨segName n v i, o.lsa, i⟩ : Seg)) ∧
        (step c s (.interest n v)).fifo.length = min 100 (s.fifo.length + c.segments o.lsa) := by
  have key : ∀ (s : Lsdb) n v, (step c s (.interest n v)).fifo = s.fifo ∨
      ∃ o ∈ s.db, o.lsa.origin = c.router ∧
        (step c s (.interest n v)).fifo <:+ s.fifo ++ (List.range (c.segments o.lsa)).map (fun i => (⟨segName n v i, o.lsa, i⟩ : Seg)) ∧
        (step c s (.interest n v)).fifo.length = min 100 (s.fifo.length + c.segments o.lsa) := by
    intro s n v
    rcases step_interest_cases c s n v with ⟨h1, -⟩ | ⟨d, hd, -, -, h1, -⟩ | ⟨iname, hl, h1, h2, -, h4⟩
    · exact Or.inl h1
    · exact Or.inl h1
    · have hil : iname.length < 2 ^ 62 := Nat.lt_of_le_of_lt (Nat.le_trans h2.length_le hl) (by decide)
      rcases processStripped_cases c s n iname v hnet hil h1 h2 with ⟨h5, -⟩ | ⟨o, ho, ho', -, h7, -⟩
      · exact Or.inl (by rw [h4, h5])
      · refine Or.inr ⟨o, ho, ho', ?_, ?_⟩
        · rw [h4, h7]; unfold fifoInsert; exact List.drop_suffix _ _
        · rw [h4, h7]
          unfold fifoInsert
          simp only [List.length_drop, List.length_append, List.length_map, List.length_range]
          omega
  refine ⟨?_, key s⟩
  refine Reachable.induct_step (P := fun s => s.fifo.length ≤ 100) ?_ ?_ h
  · intro disk adjs npl sys
    rw [(init_keep c disk adjs npl sys).fifo]
    exact Nat.zero_le _
  · intro s op _ ih
    by_cases hs : Op.special op = false
    · rw [(step_keep c s op hs).fifo]; exact ih
    · cases op with
      | setAdjs l => exact ih
      | setNpl l => exact ih
      | scheduleBuild =>
        have : (step c s .scheduleBuild).fifo = s.fifo := by
          show (scheduleBuild c s).fifo = _
          unfold scheduleBuild
          dsimp only
          split <;> rfl
        rw [this]; exact ih
      | buildTimer =>
        have : (step c s .buildTimer).fifo = s.fifo := by
          show (buildTimer c s).fifo = _
          unfold buildTimer
          split
          · rfl
          · split
            · rfl
            · exact (buildAdjLsa_spec c s).2.2.1
        rw [this]; exact ih
      | interest n v =>
        rcases key s n v with h1 | ⟨o, -, -, -, h1⟩
        · rw [h1]; exact ih
        · rw [h1]; exact Nat.min_le_left _ _
      | fifoGone n => exact Nat.le_trans (List.length_filter_le _ _) ih
      | _ => exact absurd rfl hs

open Segments in
/-- A run in which the store is full. -/
example : ((run exConf2 exStart2 ((List.range 51).map (fun v => .interest exAsk v))).fifo).length = 100 ∧
    (run exConf2 exStart2 ((List.range 51).map (fun v => .interest exAsk v))).fifo.head?.map (·.name) = some (segName exAsk 1 0) := by
  decide +kernel

end Lsdb

/-! ### Names as they may be written -/

theorem takeWhile_scheme {w : Text} (hw : '/' ∉ w) (r : Text) : ((w ++ ':' :: r).takeWhile (· != '/')).contains ':' = true := by
  induction w with
  | nil => simp
  | cons a w ih =>
    have ha : (a != '/') = true := by simp; rintro rfl; simp at hw
    rw [List.cons_append, List.takeWhile_cons, if_pos ha, List.contains_cons, ih (by intro h; exact hw (List.mem_cons_of_mem _ h)), Bool.or_true]

theorem dropWhile_scheme {w : Text} (hw : ':' ∉ w) (r : Text) : (w ++ ':' :: r).dropWhile (· != ':') = ':' :: r := by
  induction w with
  | nil => simp
  | cons a w ih =>
    have ha : (a != ':') = true := by simp; rintro rfl; simp at hw
    rw [List.cons_append, List.dropWhile_cons, if_pos ha, ih (by intro h; exact hw (List.mem_cons_of_mem _ h))]

/-- C107: in configuration files (and commands) a name may be written with a scheme, `ndn:/a/b`, with a host as well,
`ndn://host/a/b`, or plainly, `/a/b`; it is the same name. -/
theorem C107_names {w host : Text} (hw : ∀ ch ∈ w, ch ≠ '/' ∧ ch ≠ ':') (hh : ∀ ch ∈ host, ch ≠ '/') {n : Name}
    (hn : ∀ x ∈ n, 1 ≤ x.typ ∧ x.typ ≤ 65535) :
    Uri.parseName (Uri.ofName n) = some n ∧ Uri.parseName (w ++ ':' :: Uri.ofName n) = some n ∧
    Uri.parseName ('/' :: '/' :: host ++ Uri.ofName n) = some n ∧
    Uri.parseName (w ++ ':' :: '/' :: '/' :: host ++ Uri.ofName n) = some n := by
  have hp := Uri.parseName_ofName hn
  have hw1 : '/' ∉ w := fun h => (hw _ h).1 rfl
  have hw2 : ':' ∉ w := fun h => (hw _ h).2 rfl
  have hs : ∀ r, Uri.dropScheme (w ++ ':' :: r) = r := by
    intro r
    unfold Uri.dropScheme
    rw [takeWhile_scheme hw1, if_pos rfl, dropWhile_scheme hw2]
    rfl
  have hslash : ∀ r, Uri.dropScheme ('/' :: r) = '/' :: r := by
    intro r
    unfold Uri.dropScheme
    rw [List.takeWhile_cons_of_neg (by simp)]
    rfl
  obtain ⟨r, hr, hl⟩ : ∃ r, Uri.ofName n = '/' :: r ∧ Uri.dropLead (Uri.ofName n) = r := by
    cases n with
    | nil => exact ⟨[], rfl, rfl⟩
    | cons x n =>
      refine ⟨Uri.ofComp x ++ n.flatMap (fun y => '/' :: Uri.ofComp y), rfl, ?_⟩
      show Uri.dropLead ('/' :: (Uri.ofComp x ++ _)) = _
      cases hx : Uri.ofComp x with
      | nil => exact absurd hx (Uri.ofComp_ne x)
      | cons c t =>
        have : c ≠ '/' := fun e => by
          have h := Uri.ofComp_inComp x c (by rw [hx]; exact List.mem_cons_self ..)
          rw [e] at h
          revert h; decide
        show Uri.dropLead ('/' :: c :: _) = _
        unfold Uri.dropLead
        split
        · rename_i e; injection e with _ e; injection e with e; exact absurd e this
        · rename_i e; injection e with _ e; exact e.symm
        · rename_i hh; exact absurd rfl (hh _)
  have hhost : Uri.dropLead ('/' :: '/' :: host ++ Uri.ofName n) = r := by
    show ((host ++ Uri.ofName n).dropWhile (· != '/')).drop 1 = r
    rw [hr]
    have : (host ++ '/' :: r).dropWhile (· != '/') = '/' :: r := by
      clear hl
      induction host with
      | nil => simp
      | cons a t ih =>
        have ha : (a != '/') = true := by simpa using hh a (List.mem_cons_self ..)
        rw [List.cons_append, List.dropWhile_cons, if_pos ha, ih (fun ch h => hh ch (List.mem_cons_of_mem _ h))]
    rw [this]; rfl
  have hp' : (Uri.pieces r).mapM Uri.parseComp = some n := by
    unfold Uri.parseName at hp
    rw [hr, hslash, ← hr, hl] at hp
    exact hp
  refine ⟨hp, ?_, ?_, ?_⟩
  · unfold Uri.parseName; rw [hs]; unfold Uri.parseName at hp; rw [hr, hslash, ← hr] at hp; exact hp
  · unfold Uri.parseName; rw [List.cons_append, hslash, ← List.cons_append, hhost]; exact hp'
  · unfold Uri.parseName
    rw [show w ++ ':' :: '/' :: '/' :: host ++ Uri.ofName n = w ++ ':' :: ('/' :: '/' :: host ++ Uri.ofName n) by simp, hs, hhost]
    exact hp'

example : Uri.parseName "ndn://host:6363/a/b".toList = some (nm ["a", "b"]) ∧ Uri.parseName "ndn:/a/b".toList = some (nm ["a", "b"]) := by
  decide +kernel

/-! ### Numbers as they are printed -/

theorem dec_digitsOf (n : Nat) : Uri.dec n = Nat.toDigits 10 n := by
  induction n using Nat.strongRecOn with
  | ind n ih =>
    rw [Uri.dec]
    by_cases h : n < 10
    · rw [if_pos h, Nat.toDigits_of_lt_base h]
      have : ∀ k < 10, Uri.digit k = Nat.digitChar k := by decide
      rw [this n h]
    · rw [if_neg h, Nat.toDigits_of_base_le (by decide) (by omega), ih (n / 10) (by omega)]
      have : ∀ k < 10, Uri.digit k = Nat.digitChar k := by decide
      rw [this _ (by omega)]

/-- C110: times are printed as whole numbers are written. -/
theorem C110_time (i : Int) : Print.showInt i = (toString i).toList := by
  have hd : ∀ n : Nat, (toString n).toList = Uri.dec n := by
    intro n
    rw [dec_digitsOf]
    exact Nat.toList_repr
  cases i with
  | ofNat n =>
    show (if (n : Int) < 0 then _ else Uri.dec n) = (toString n).toList
    rw [if_neg (by omega), hd]
  | negSucc n =>
    show (if Int.negSucc n < 0 then '-' :: Uri.dec (n + 1) else _) = ("-" ++ toString (n + 1)).toList
    rw [if_pos (Int.negSucc_lt_zero n), String.toList_append, hd]
    rfl

example : Print.showMs 0 = "0 milliseconds".toList ∧ Print.showMs (-1) = "-1 millisecond".toList := by decide +kernel

end Nlsr
