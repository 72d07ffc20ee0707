import Verif.Model.Nlsrc
import Verif.Props.CmdFile
/- C63, C78: prefix updates with the command line tool. -/
namespace Nlsr
open CmdState

/-! ### what a number in a text is -/

/-- `t` is white space, a sign or none, digits, and then something else: the number it starts with, with its sign. -/
def NumberAhead (t : Text) (neg : Bool) (n : Nat) : Prop :=
  ∃ sp sg ds rest, t = sp ++ (sg ++ (ds ++ rest)) ∧ (∀ c ∈ sp, Num.isSpace c = true) ∧
    ((neg = true ∧ sg = ['-']) ∨ (neg = false ∧ (sg = [] ∨ sg = ['+']))) ∧
    ds ≠ [] ∧ (∀ c ∈ ds, Num.isDigit c = true) ∧ (∀ c, rest.head? = some c → Num.isDigit c = false) ∧ n = Num.decOf ds

theorem dropWhile_split {p : Char → Bool} (a b : Text) (ha : ∀ c ∈ a, p c = true) (hb : ∀ c, b.head? = some c → p c = false) :
    (a ++ b).dropWhile p = b ∧ (a ++ b).takeWhile p = a := by
  rw [List.dropWhile_append_of_pos ha, List.takeWhile_append_of_pos ha]
  cases b with
  | nil => simp
  | cons c b => simp [hb c rfl]

theorem head_dropWhile {p : Char → Bool} (l : Text) : ∀ c, (l.dropWhile p).head? = some c → p c = false := by
  intro c hc
  have := List.head?_dropWhile_not p l
  rw [hc] at this
  exact this

theorem mem_takeWhile {p : Char → Bool} (l : Text) : ∀ c ∈ l.takeWhile p, p c = true := by
  intro c hc
  have := List.all_takeWhile (p := p) (l := l)
  rw [List.all_eq_true] at this
  exact this c hc

theorem digit_not_space {c : Char} (h : Num.isDigit c = true) : Num.isSpace c = false ∧ c ≠ '-' ∧ c ≠ '+' := by
  have hs : ∀ d : Char, d ∈ [' ', '\t', '\n', '\x0b', '\x0c', '\r', '-', '+'] → Num.isDigit d = false := by decide
  refine ⟨?_, ?_, ?_⟩
  · cases hc : Num.isSpace c with
    | false => rfl
    | true =>
      unfold Num.isSpace at hc
      rw [List.contains_iff_mem] at hc
      have := hs c (by
        simp only [List.mem_cons, List.not_mem_nil, or_false] at hc ⊢
        rcases hc with h | h | h | h | h | h <;> simp [h])
      rw [h] at this; cases this
  · rintro rfl; exact absurd h (by decide)
  · rintro rfl; exact absurd h (by decide)

theorem readInt_iff (t : Text) (neg : Bool) (n : Nat) :
    (∃ r, Num.readInt t = some (neg, n, r)) ↔ NumberAhead t neg n := by
  constructor
  · rintro ⟨r, h⟩
    unfold Num.readInt at h
    dsimp only at h
    split at h
    · cases h
    · rename_i hds
      injection h with h
      injection h with h1 h
      injection h with h2 h3
      have ht : t = t.takeWhile Num.isSpace ++ t.dropWhile Num.isSpace := List.takeWhile_append_dropWhile.symm
      have hr : ∀ u : Text, u = u.takeWhile Num.isDigit ++ u.dropWhile Num.isDigit :=
        fun u => List.takeWhile_append_dropWhile.symm
      have hsg : ∃ sg, t.dropWhile Num.isSpace = sg ++ (Num.sign (t.dropWhile Num.isSpace)).2 ∧
          (((Num.sign (t.dropWhile Num.isSpace)).1 = true ∧ sg = ['-']) ∨
            ((Num.sign (t.dropWhile Num.isSpace)).1 = false ∧ (sg = [] ∨ sg = ['+']))) := by
        unfold Num.sign
        split
        · rename_i e; exact ⟨['-'], e, Or.inl ⟨rfl, rfl⟩⟩
        · rename_i e; exact ⟨['+'], e, Or.inr ⟨rfl, Or.inr rfl⟩⟩
        · exact ⟨[], rfl, Or.inr ⟨rfl, Or.inl rfl⟩⟩
      obtain ⟨sg, hsg, hsg'⟩ := hsg
      refine ⟨t.takeWhile Num.isSpace, sg, (Num.sign (t.dropWhile Num.isSpace)).2.takeWhile Num.isDigit,
        (Num.sign (t.dropWhile Num.isSpace)).2.dropWhile Num.isDigit, ?_, mem_takeWhile t, ?_, hds, mem_takeWhile _,
        head_dropWhile _, h2.symm⟩
      · rw [← hr, ← hsg, ← ht]
      · rw [← h1]; exact hsg'
  · rintro ⟨sp, sg, ds, rest, rfl, h1, h2, h3, h4, h5, rfl⟩
    obtain ⟨d, ds', rfl⟩ : ∃ d ds', ds = d :: ds' := by
      cases ds with
      | nil => exact absurd rfl h3
      | cons d ds' => exact ⟨d, ds', rfl⟩
    have hd := digit_not_space (h4 d List.mem_cons_self)
    refine ⟨rest, ?_⟩
    unfold Num.readInt
    have e1 : (sp ++ (sg ++ (d :: ds' ++ rest))).dropWhile Num.isSpace = sg ++ (d :: ds' ++ rest) := by
      refine (dropWhile_split _ _ h1 ?_).1
      intro c hc
      rcases h2 with ⟨-, rfl⟩ | ⟨-, rfl | rfl⟩
      · cases hc; decide
      · cases hc; exact hd.1
      · cases hc; decide
    have e2 : Num.sign (sg ++ (d :: ds' ++ rest)) = (neg, d :: ds' ++ rest) := by
      rcases h2 with ⟨rfl, rfl⟩ | ⟨rfl, rfl | rfl⟩
      · rfl
      · show Num.sign (d :: (ds' ++ rest)) = _
        unfold Num.sign
        split
        · rename_i e; injection e with e _; exact absurd e hd.2.1
        · rename_i e; injection e with e _; exact absurd e hd.2.2
        · rfl
      · rfl
    have e3 := dropWhile_split (d :: ds') rest h4 h5
    rw [e1, e2]
    dsimp only
    rw [e3.1, e3.2, if_neg h3]

/-- The number a text starts with is unique. -/
theorem NumberAhead.unique {t : Text} {a b : Bool} {n m : Nat} (h : NumberAhead t a n) (h' : NumberAhead t b m) : a = b ∧ n = m := by
  obtain ⟨r, h⟩ := (readInt_iff ..).2 h
  obtain ⟨r', h'⟩ := (readInt_iff ..).2 h'
  rw [h] at h'
  injection h' with h'
  injection h' with h1 h2
  injection h2 with h2 _
  exact ⟨h1, h2⟩

/-- What `stoi` takes for a cost. -/
def CostText (t : Text) (cost : Nat) : Prop :=
  (NumberAhead t false cost ∧ cost < 2 ^ 31) ∨
  ∃ n, NumberAhead t true n ∧ n ≤ 2 ^ 31 ∧ cost = if n = 0 then 0 else 2 ^ 64 - n

theorem stoi_iff (t : Text) (cost : Nat) : (∃ v, Nlsrc.stoi t = some v ∧ Nlsrc.toU64 v = cost) ↔ CostText t cost := by
  unfold Nlsrc.stoi Num.readSigned CostText
  constructor
  · rintro ⟨v, h, rfl⟩
    cases hr : Num.readInt t with
    | none => rw [hr] at h; cases h
    | some p =>
      obtain ⟨neg, n, r⟩ := p
      rw [hr] at h
      dsimp only at h
      have hn : NumberAhead t neg n := (readInt_iff ..).1 ⟨r, hr⟩
      cases neg with
      | false =>
        simp only [Bool.false_eq_true, if_false] at h
        split at h
        · rename_i hlt
          cases h
          left
          have : Nlsrc.toU64 ((n : Nat) : Int) = n := by
            unfold Nlsrc.toU64
            rw [Int.emod_eq_of_lt (by omega) (by omega)]
            rfl
          show NumberAhead t false (Nlsrc.toU64 (n : Int)) ∧ Nlsrc.toU64 (n : Int) < 2 ^ 31
          rw [this]
          exact ⟨hn, hlt⟩
        · cases h
      | true =>
        simp only [if_true] at h
        split at h
        · rename_i hle
          cases h
          right
          refine ⟨n, hn, hle, ?_⟩
          show Nlsrc.toU64 (-(n : Int)) = _
          unfold Nlsrc.toU64
          have : n ≤ 2147483648 := hle
          split <;> omega
        · cases h
  · rintro (⟨hn, hlt⟩ | ⟨n, hn, hle, rfl⟩)
    · obtain ⟨r, hr⟩ := (readInt_iff ..).2 hn
      refine ⟨(cost : Int), ?_, ?_⟩
      · rw [hr]
        dsimp only
        rw [if_neg (by simp), if_pos (show cost < 2 ^ (32 - 1) from hlt)]
        rfl
      · unfold Nlsrc.toU64
        omega
    · obtain ⟨r, hr⟩ := (readInt_iff ..).2 hn
      refine ⟨-(n : Int), ?_, ?_⟩
      · rw [hr]
        dsimp only
        rw [if_pos rfl, if_pos (show n ≤ 2 ^ (32 - 1) from hle)]
        rfl
      · unfold Nlsrc.toU64
        have : n ≤ 2147483648 := hle
        split <;> omega

/-! ### C63 -/

/-- The prefix updates there are command lines for, and what each sends. -/
inductive UpdateLine : List Text → Cmd → Prop
  | advertise {t n} : Uri.parseName t = some n → UpdateLine ["advertise".toList, t] { verb := .advertise, name := n }
  | save {t n} : Uri.parseName t = some n →
      UpdateLine ["advertise".toList, t, "save".toList] { verb := .advertise, name := n, flags := some 1 }
  | cost {t n ct k} : Uri.parseName t = some n → CostText ct k →
      UpdateLine ["advertise".toList, t, "cost".toList, ct]
        ⟨.nlsr, .advertise, n, if 0 < k then some k else none, none, none⟩
  | costSave {t n ct k} : Uri.parseName t = some n → CostText ct k →
      UpdateLine ["advertise".toList, t, "cost".toList, ct, "save".toList]
        ⟨.nlsr, .advertise, n, if 0 < k then some k else none, some 1, none⟩
  | withdraw {t n} : Uri.parseName t = some n → UpdateLine ["withdraw".toList, t] { verb := .withdraw, name := n }
  | delete {t n} : Uri.parseName t = some n →
      UpdateLine ["withdraw".toList, t, "delete".toList] { verb := .withdraw, name := n, flags := some 1 }

theorem update_send {verb : CmdVerb} {t : Text} {flag : Bool} {cost : Nat} {x : Cmd} (h : Nlsrc.update verb t flag cost = .send x) :
    ∃ n, Uri.parseName t = some n ∧ x = 
      ⟨.nlsr, verb, n, if verb = .advertise ∧ 0 < cost then some cost else none, if flag then some 1 else none, none⟩ := by
  unfold Nlsrc.update at h
  split at h
  · cases h
  · rename_i n hn
    cases h
    exact ⟨n, hn, rfl⟩

theorem update_of {verb : CmdVerb} {t : Text} {flag : Bool} {cost : Nat} {n : Name} (h : Uri.parseName t = some n) :
    Nlsrc.update verb t flag cost = .send 
      ⟨.nlsr, verb, n, if verb = .advertise ∧ 0 < cost then some cost else none, if flag then some 1 else none, none⟩ := by
  unfold Nlsrc.update
  rw [h]

theorem costly_send {t kw ct : Text} {save : Bool} {x : Cmd} (h : Nlsrc.costly t kw ct save = .send x) :
    kw = "cost".toList ∧ ∃ n k, Uri.parseName t = some n ∧ CostText ct k ∧
      x = ⟨.nlsr, .advertise, n, if 0 < k then some k else none, if save then some 1 else none, none⟩ := by
  unfold Nlsrc.costly at h
  split at h
  · cases h
  · rename_i hk
    refine ⟨Decidable.not_not.1 hk, ?_⟩
    split at h
    · cases h
    · rename_i v hv
      obtain ⟨n, hn, rfl⟩ := update_send h
      exact ⟨n, _, hn, (stoi_iff _ _).1 ⟨v, hv, rfl⟩, by simp⟩

theorem costly_of {t ct : Text} {save : Bool} {n : Name} {k : Nat} (hn : Uri.parseName t = some n) (hk : CostText ct k) :
    Nlsrc.costly t "cost".toList ct save = .send 
      ⟨.nlsr, .advertise, n, if 0 < k then some k else none, if save then some 1 else none, none⟩ := by
  obtain ⟨v, hv, rfl⟩ := (stoi_iff _ _).2 hk
  unfold Nlsrc.costly
  rw [if_neg (by simp), hv]
  dsimp only
  rw [update_of hn]
  simp

/-- C63: exactly these command lines send a prefix update, and what they send is determined by the texts. -/
theorem C63_lines (args : List Text) (x : Cmd) : Nlsrc.dispatch args = .send x ↔ UpdateLine args x := by
  constructor
  · intro h
    unfold Nlsrc.dispatch at h
    split at h
    · cases h
    · rename_i sub args
      split at h
      · rename_i hs
        subst hs
        split at h
        · obtain ⟨n, hn, rfl⟩ := update_send h
          exact .advertise hn
        · split at h
          · cases h
          · rename_i ha
            rw [Decidable.not_not.1 ha]
            obtain ⟨n, hn, rfl⟩ := update_send h
            exact .save hn
        · obtain ⟨rfl, n, k, hn, hk, rfl⟩ := costly_send h
          exact .cost hn hk
        · split at h
          · cases h
          · rename_i ha
            rw [Decidable.not_not.1 ha]
            obtain ⟨rfl, n, k, hn, hk, rfl⟩ := costly_send h
            exact .costSave hn hk
        · cases h
      · split at h
        · rename_i hs
          subst hs
          split at h
          · obtain ⟨n, hn, rfl⟩ := update_send h
            exact .withdraw hn
          · split at h
            · cases h
            · rename_i ha
              rw [Decidable.not_not.1 ha]
              obtain ⟨n, hn, rfl⟩ := update_send h
              exact .delete hn
          · cases h
        · split at h
          · split at h <;> cases h
          · cases h
  · intro h
    cases h with
    | advertise hn => exact update_of hn
    | save hn => exact update_of hn
    | cost hn hk => exact costly_of hn hk
    | costSave hn hk => exact costly_of hn hk
    | withdraw hn => exact update_of hn
    | delete hn => exact update_of hn

/-- C63, for costs written as plain numbers: those below 2^31 are requested as they are (a request without cost is one
for cost 0), and greater ones are refused; so is anything that does not start with a number.  Missing: texts with a sign,
or with something before or behind the number (`C63_violated_negative`, `C63_violated_rest`). -/
theorem C63_cost_partial (t : Text) (n : Name) (hn : Uri.parseName t = some n) (save : List Text)
    (hs : save = [] ∨ save = ["save".toList]) :
    (∀ k, k < 2 ^ 31 → ∃ x, Nlsrc.dispatch (["advertise".toList, t, "cost".toList, Uri.dec k] ++ save) = .send x ∧
      x.verb = .advertise ∧ x.name = n ∧ x.cost.getD 0 = k ∧ (x.flags = some 1 ↔ save ≠ [])) ∧
    (∀ k, 2 ^ 31 ≤ k → Nlsrc.dispatch (["advertise".toList, t, "cost".toList, Uri.dec k] ++ save) = .usage) ∧
    (∀ ct, (∀ neg k, ¬ NumberAhead ct neg k) →
      Nlsrc.dispatch (["advertise".toList, t, "cost".toList, ct] ++ save) = .usage) := by
  have hd : ∀ k, NumberAhead (Uri.dec k) false k := fun k => (readInt_iff ..).1 ⟨_, Num.readInt_dec k⟩
  have hcost : ∀ ct, Nlsrc.dispatch (["advertise".toList, t, "cost".toList, ct] ++ save) =
      Nlsrc.costly t "cost".toList ct (!decide (save = [])) := by
    intro ct
    rcases hs with rfl | rfl <;> rfl
  have hno : ∀ ct, (∀ k, ¬ CostText ct k) → Nlsrc.dispatch (["advertise".toList, t, "cost".toList, ct] ++ save) = .usage := by
    intro ct h
    rw [hcost]
    unfold Nlsrc.costly
    rw [if_neg (by simp)]
    cases hv : Nlsrc.stoi ct with
    | none => rfl
    | some v => exact absurd ((stoi_iff _ _).1 ⟨v, hv, rfl⟩) (h _)
  refine ⟨fun k hk => ?_, fun k hk => hno _ ?_, fun ct hct => hno _ ?_⟩
  · refine ⟨_, (hcost _).trans (costly_of hn (Or.inl ⟨hd k, hk⟩)), rfl, rfl, ?_, ?_⟩
    · dsimp only
      split
      · rfl
      · simp; omega
    · rcases hs with rfl | rfl <;> simp
  · rintro j (⟨h1, h2⟩ | ⟨m, h1, -, -⟩)
    · have := (h1.unique (hd k)).2
      omega
    · exact absurd (h1.unique (hd k)).1 (by simp)
  · rintro j (⟨h1, -⟩ | ⟨m, h1, -, -⟩)
    · exact hct _ _ h1
    · exact hct _ _ h1

/-- C63, end to end: after a command line with a plain cost below 2^31, the daemon's list of prefixes has that cost. -/
theorem C63_listed (c : LConf) {s : CmdState} (h : CmdState.Reachable c s) (t : Text) (n : Name)
    (hn : Uri.parseName t = some n) (k : Nat) (hk : k < 2 ^ 31) :
    ∃ x, Nlsrc.dispatch ["advertise".toList, t, "cost".toList, Uri.dec k] = .send x ∧
      costOf (step c s (.cmd x)).npl n = some (.fin (k : Nat)) := by
  obtain ⟨x, h1, h2, h3, h4, -⟩ := (C63_cost_partial t n hn [] (Or.inl rfl)).1 k hk
  refine ⟨x, h1, ?_⟩
  rw [(cmd_core h.inv x).1]
  unfold nplAfter
  rw [h2]
  dsimp only
  unfold costOf
  have hr : Dbl.roundNat k = k := by
    unfold Dbl.roundNat
    rw [if_pos (Nat.lt_trans hk (by decide))]
  rw [Npl.get_insert_cost h.inv.sorted, if_pos h3.symm, h4, hr]

/-- C63, end to end: if the prefix was not advertised before, so does the Name LSA that is announced. -/
theorem C63_announced (c : LConf) (disk : Option Seqs) (adjs : AdjacencyList) (start : List (Name × Ext Rat))
    (sys : Int) (file : Option ConfFile) (ops : List CmdState.Op) (t : Text) (n : Name)
    (hn : Uri.parseName t = some n) (k : Nat) (hk : k < 2 ^ 31) (hnew : ¬ Advertised start ops n) (hf : NoForgedName c ops) :
    ∃ x, Nlsrc.dispatch ["advertise".toList, t, "cost".toList, Uri.dec k] = .send x ∧
      (Out.publish .name 0 ∉ (run c (init c disk adjs start sys file) (ops ++ [.cmd x])).lsdb.log →
        ∃ o m, (run c (init c disk adjs start sys file) (ops ++ [.cmd x])).lsdb.find c.router .name = some o ∧
          o.lsa.content = .names m ∧ (⟨n, .fin (k : Nat)⟩ : PrefixInfo) ∈ m) := by
  obtain ⟨x, h1, h2, h3, h4, h5⟩ := (C63_cost_partial t n hn [] (Or.inl rfl)).1 k hk
  refine ⟨x, h1, fun hw => ?_⟩
  have hr : CmdState.Reachable c (run c (init c disk adjs start sys file) ops) := ⟨_, _, _, _, _, _, rfl⟩
  have hx : x.flags ≠ some 1 := fun e => (h5.1 e) rfl
  have hch : x.verb = .advertise ↔ x.name ∉ (run c (init c disk adjs start sys file) ops).npl.names := by
    rw [h2, h3, C49_names]
    exact ⟨fun _ => hnew, fun _ => rfl⟩
  have hcode : codeOf c (run c (init c disk adjs start sys file) ops) x = some 200 := by
    rcases C49_code hr x with ⟨code, e1, -, e3, -⟩ | ⟨-, -, -, e4, -⟩
    · unfold codeOf
      rw [e1, (e3 hx).2.1 hch]
      simp
    · exact absurd e4 hx
  have := C50_new_cost_partial c disk adjs start sys file ops x h2 hcode (by rw [h4]; exact Nat.lt_trans hk (by decide)) hf hw
  rw [h3, h4] at this
  exact this

/-- C63 fails for negative numbers: they are accepted, and -1 becomes the cost 2^64 - 1.  (`main` hands them over if options
must come first, or behind `--`, see C97.) -/
theorem C63_violated_negative :
    Nlsrc.dispatch ["advertise".toList, "/a".toList, "cost".toList, "-1".toList] =
      .send { verb := .advertise, name := nm ["a"], cost := some (2 ^ 64 - 1) } := by decide +kernel

/-- C63 fails for texts with something behind a number: `5abc`, `1.9` and `1e6` are taken for 5, 1 and 1. -/
theorem C63_violated_rest :
    Nlsrc.dispatch ["advertise".toList, "/a".toList, "cost".toList, "5abc".toList] =
      .send { verb := .advertise, name := nm ["a"], cost := some 5 } ∧
    Nlsrc.dispatch ["advertise".toList, "/a".toList, "cost".toList, "1.9".toList] =
      .send { verb := .advertise, name := nm ["a"], cost := some 1 } ∧
    Nlsrc.dispatch ["advertise".toList, "/a".toList, "cost".toList, "1e6".toList] =
      .send { verb := .advertise, name := nm ["a"], cost := some 1 } := by
  refine ⟨?_, ?_, ?_⟩ <;> decide +kernel

example : Uri.parseName "/a/b".toList = some (nm ["a", "b"]) ∧
    Nlsrc.dispatch ["advertise".toList, "/a/b".toList, "cost".toList, "2147483647".toList, "save".toList] =
      .send { verb := .advertise, name := nm ["a", "b"], cost := some 2147483647, flags := some 1 } ∧
    Nlsrc.dispatch ["advertise".toList, "/a/b".toList, "cost".toList, "2147483648".toList] = .usage ∧
    Nlsrc.dispatch ["advertise".toList, "/a/b".toList, "cost".toList, "x".toList] = .usage ∧
    Nlsrc.dispatch ["withdraw".toList, "/a/b".toList, "delete".toList] =
      .send { verb := .withdraw, name := nm ["a", "b"], flags := some 1 } := by
  refine ⟨?_, ?_, ?_, ?_, ?_⟩ <;> decide +kernel

/-! ### C78 -/

/-- C78: the exit status of a prefix update is 0 exactly if an answer says that it was applied, saved, or without effect,
or is of content type Nack. -/
theorem C78_exit (args : List Text) (x : Cmd) (h : UpdateLine args x) (a : Nlsrc.Answer) :
    Nlsrc.exitStatus args a = some 0 ↔ a = .code 200 ∨ a = .code 204 ∨ a = .code 205 ∨ a = .nackData := by
  unfold Nlsrc.exitStatus
  rw [(C63_lines args x).2 h]
  dsimp only
  cases a with
  | nackData => simp [Nlsrc.answered]
  | garbage => simp [Nlsrc.answered]
  | lost => simp [Nlsrc.answered]
  | code k =>
    unfold Nlsrc.answered
    dsimp only
    split
    · rename_i h
      split
      · simp_all
      · rename_i h4; simp [h.1, h.2, h4]
    · rename_i h
      by_cases h1 : k = 200
      · simp [h1]
      · have : k = 205 := Decidable.not_not.1 (fun h2 => h ⟨h1, h2⟩)
        simp [this]

/-- A command line that sends nothing ends with a status that is not 0. -/
theorem C78_not_sent (args : List Text) (h : ∀ x, ¬ UpdateLine args x) (a : Nlsrc.Answer) : Nlsrc.exitStatus args a ≠ some 0 := by
  unfold Nlsrc.exitStatus
  cases hd : Nlsrc.dispatch args with
  | send x => exact absurd ((C63_lines args x).1 hd) (h x)
  | usage => simp
  | failed => simp
  | status w => simp

/-- C78, with the daemon's answer: the prefix is then advertised (or not) as asked for, and status 0 says so, unless a
save or delete was asked for.  Missing: these (`C78_violated_applied`, `C78_violated_saved`). -/
theorem C78_daemon_partial (c : LConf) {s : CmdState} (h : CmdState.Reachable c s) (args : List Text) (x : Cmd)
    (hl : UpdateLine args x) :
    (x.name ∈ (step c s (.cmd x)).npl.names ↔ x.verb = .advertise) ∧
    (x.flags ≠ some 1 → ∃ k, codeOf c s x = some k ∧ Nlsrc.exitStatus args (.code k) = some 0) ∧
    (∀ k, codeOf c s x = some k → Nlsrc.exitStatus args (.code k) ≠ some 0 → k = 500 ∧ x.flags = some 1 ∧
      (step c s (.cmd x)).file = s.file) := by
  have hcode := C49_code h x
  refine ⟨?_, ?_, ?_⟩
  · rw [(cmd_core h.inv x).1, names_after h.inv]
    cases x.verb <;> simp
  · intro hf
    rcases hcode with ⟨code, h1, -, h3, -⟩ | ⟨-, -, -, h4, -⟩
    · have hk : codeOf c s x = some code := by unfold codeOf; rw [h1]; simp
      refine ⟨code, hk, (C78_exit args x hl _).2 ?_⟩
      by_cases hch : x.verb = .advertise ↔ x.name ∉ s.npl.names
      · exact Or.inl (by rw [(h3 hf).2.1 hch])
      · exact Or.inr (Or.inl (by rw [(h3 hf).2.2 hch]))
    · exact absurd h4 hf
  · intro k hk hne
    rcases hcode with ⟨code, h1, -, h3, h4⟩ | ⟨h1, -⟩
    · have := codeOf_eq h1 hk
      subst this
      have hn := fun e => hne ((C78_exit args x hl _).2 e)
      by_cases hf : x.flags = some 1
      · rcases (h4 hf).1 with h5 | ⟨h5, h6, -⟩
        · exact absurd (Or.inr (Or.inr (Or.inl (by rw [h5])))) hn
        · exact ⟨h5, hf, h6⟩
      · by_cases hch : x.verb = .advertise ↔ x.name ∉ s.npl.names
        · exact absurd (Or.inl (by rw [(h3 hf).2.1 hch])) hn
        · exact absurd (Or.inr (Or.inl (by rw [(h3 hf).2.2 hch]))) hn
    · unfold codeOf at hk
      rw [h1] at hk
      simp at hk

/-- C78 fails for an answer of content type Nack: an error is printed, and the status is 0. -/
theorem C78_violated_nack : ∃ args x, UpdateLine args x ∧ Nlsrc.exitStatus args .nackData = some 0 :=
  ⟨_, _, .advertise (t := "/a".toList) (n := nm ["a"]) (by decide +kernel), by decide +kernel⟩

/-- C78 fails for a save that does not work: the status is 1 although the prefix is now advertised and announced. -/
theorem C78_violated_applied : let s := init (exConf .off) none [] [] 0 none
    let args := ["advertise".toList, "/a".toList, "save".toList]
    ∃ x, Nlsrc.dispatch args = .send x ∧ codeOf (exConf .off) s x = some 500 ∧
      Nlsrc.exitStatus args (.code 500) = some 1 ∧ (step (exConf .off) s (.cmd x)).npl.names = [nm ["a"]] ∧
      Out.publish .name 1 ∈ (step (exConf .off) s (.cmd x)).lsdb.log := by
  refine ⟨{ verb := .advertise, name := nm ["a"], flags := some 1 }, ?_, ?_, ?_, ?_, ?_⟩ <;> decide +kernel

/-- C78 fails for what is saved already: the second time the status is 1, although prefix and file are as asked for. -/
theorem C78_violated_saved : let args := ["advertise".toList, "/a".toList, "cost".toList, "10".toList, "save".toList]
    ∃ x, Nlsrc.dispatch args = .send x ∧ codeOf (exConf .off) exFull x = some 205 ∧
      codeOf (exConf .off) (step (exConf .off) exFull (.cmd x)) x = some 500 ∧ Nlsrc.exitStatus args (.code 500) = some 1 ∧
      restart (step (exConf .off) (step (exConf .off) exFull (.cmd x)) (.cmd x)) =
        some [(nm ["a"], some (.fin 10)), (nm ["p"], some (.fin 7)), (nm ["q"], some (.fin 0))] := by
  refine ⟨exAdv "a" 10 true, ?_, ?_, ?_, ?_, ?_⟩ <;> decide +kernel

example : CmdState.Reachable (exConf .off) exFull := ⟨_, _, _, _, _, [], rfl⟩

end Nlsr
