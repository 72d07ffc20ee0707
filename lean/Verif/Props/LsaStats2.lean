import Verif.Props.LsaStats
/- C76: which counters single packets go to, and sums. -/
namespace Nlsr
namespace Lsdb

/-- The counters of LSA interests received, per type. -/
def Counts.interest : LsaType → Option Packet
  | .adjacency => some .rcvAdjInterest
  | .coordinate => some .rcvCoordInterest
  | .name => some .rcvNameInterest
  | .base => none

/-- The counters of LSA data sent, per type. -/
def Counts.sent : LsaType → Option Packet
  | .adjacency => some .sentAdjData
  | .coordinate => some .sentCoordData
  | .name => some .sentNameData
  | .base => none

/-- The counters of LSA data received, per type. -/
def Counts.data : LsaType → Option Packet
  | .adjacency => some .rcvAdjData
  | .coordinate => some .rcvCoordData
  | .name => some .rcvNameData
  | .base => none

theorem counts_own (c : LConf) (s : Lsdb) (t : LsaType) (seq ver : Nat) (ht : t ≠ .base)
    (hnet : Comp.str "LSA" ∉ c.names.network) (hlen : (c.names.lsaInterest t seq).length ≤ 8800) (hseq : seq < 2 ^ 64) :
    counts c s (.interest (c.names.lsaInterest t seq) ver) = .rcvLsaInterest :: countReply c s t seq := by
  obtain ⟨h1, h2, h3, h4, h5⟩ := own_interest_parts (c := c) t (Comp.number seq) hnet
    (Nat.lt_of_le_of_lt hlen (by decide))
  unfold counts
  dsimp only
  rw [if_pos (show _ ≤ maxComponents from hlen)]
  unfold countInterest
  have hp : Name.isPrefixOf c.names.lsaPrefix (c.names.lsaInterest t seq) = true := List.isPrefixOf_iff_prefix.2 h1
  rw [if_pos hp]
  have h5' : (c.names.lsaInterest t seq).fromEnd 2 = some (Comp.str t.text) := h5
  have h4' : (c.names.lsaInterest t seq).fromEnd 1 = some (Comp.number seq) := h4
  rw [h5']
  dsimp only
  rw [not_version_text t]
  simp only [Bool.false_eq_true, if_false]
  unfold countStripped
  rw [if_pos ⟨h2, h3⟩, h4', h5']
  dsimp only
  rw [Comp.toNumber_number hseq]
  dsimp only
  rw [LsaType.ofComp_text]
  cases t <;> first | rfl | exact absurd rfl ht

/-- What is counted of one event adds up. -/
structure Adds (l : List Packet) : Prop where
  sent : l.count .sentAdjData + l.count .sentCoordData + l.count .sentNameData = l.count .sentLsaData
  asked : l.count .sentAdjInterest + l.count .sentCoordInterest + l.count .sentNameInterest ≤ l.count .sentLsaInterest
  wanted : l.count .rcvAdjInterest + l.count .rcvCoordInterest + l.count .rcvNameInterest ≤ l.count .rcvLsaInterest
  got : l.count .rcvAdjData + l.count .rcvCoordData + l.count .rcvNameData ≤ l.count .rcvLsaData

theorem Adds.append {l m : List Packet} (h : Adds l) (k : Adds m) : Adds (l ++ m) := by
  obtain ⟨h1, h2, h3, h4⟩ := h
  obtain ⟨k1, k2, k3, k4⟩ := k
  constructor <;> simp only [List.count_append] <;> omega

theorem Adds.nil : Adds [] := by constructor <;> decide

theorem adds_express (s : Lsdb) (n : Name) (k : Nat) : Adds (countExpress s n k) := by
  unfold countExpress
  split
  · constructor <;> decide
  · split
    · cases LsaType.ofComp _ <;> constructor <;> decide
    · constructor <;> decide

theorem adds_reply (c : LConf) (s : Lsdb) (t : LsaType) (k : Nat) (ht : t ≠ .base) :
    Adds (.rcvLsaInterest :: countReply c s t k) := by
  unfold countReply
  split
  · cases t <;> constructor <;> decide
  · split <;> cases t <;> first | exact absurd rfl ht | (constructor <;> decide)

theorem adds_stripped (c : LConf) (s : Lsdb) (n : Name) : Adds (countStripped c s n) := by
  have h0 : Adds [.rcvLsaInterest] := by constructor <;> decide
  unfold countStripped
  split
  · split
    · split
      · exact h0
      · split
        · exact h0
        · rename_i h
          exact adds_reply c s _ _ h
    · exact h0
  · exact h0

theorem adds_fetched (s : Lsdb) (f : Fetch) (p : Option Lsa) : Adds (countFetched s f p) := by
  have h0 : Adds [.rcvLsaData] := by constructor <;> decide
  unfold countFetched
  split
  · exact h0
  · dsimp only
    split
    · exact h0
    · split
      · exact h0
      · split
        · cases LsaType.ofComp _ <;> constructor <;> decide
        · exact h0

theorem adds_step (c : LConf) (s : Lsdb) (op : Op) : Adds (counts c s op) := by
  unfold counts
  split
  · unfold countSync
    split
    · dsimp only
      split
      · exact .nil
      · split
        · split
          · exact .nil
          · exact adds_express ..
        · exact .nil
    · exact .nil
  · split
    · exact .nil
    · exact adds_fetched ..
  · split
    · exact .nil
    · split
      · exact .nil
      · exact adds_express ..
  · split
    · unfold countInterest
      split
      · split
        · exact .nil
        · split
          · split
            · exact .nil
            · exact adds_stripped ..
          · exact adds_stripped ..
      · exact .nil
    · exact .nil
  · exact .nil

theorem adds_run (c : LConf) (ops : List Op) : ∀ s : Lsdb, Adds (countsRun c s ops) := by
  induction ops with
  | nil => exact fun _ => .nil
  | cons op ops ih => exact fun s => (adds_step c s op).append (ih _)

end Lsdb
open Lsdb

/-- C76, third part.  An interest for an LSA of this router, as its peers express it, counts once in the total and once
for its type; LSA data count as sent, once in the total and once for the type, exactly when they are sent. -/
theorem C76_own_reply_partial (c : LConf) (s : Lsdb) (t : LsaType) (seq ver : Nat) (ht : t ≠ .base)
    (hnet : Comp.str "LSA" ∉ c.names.network) (hlen : (c.names.lsaInterest t seq).length ≤ 8800)
    (hseq : seq < 2 ^ 64) (hseg : ∀ l, 0 < c.segments l) :
    let l := counts c s (.interest (c.names.lsaInterest t seq) ver)
    let s' := step c s (.interest (c.names.lsaInterest t seq) ver)
    let n := (if (s.find c.router t).map (·.lsa.seq) = some seq then 1 else 0 : Nat)
    (s'.log.filter Out.isLsaData).length = (s.log.filter Out.isLsaData).length + n ∧
    ∀ p, l.count p = (if p = .rcvLsaInterest then 1 else 0) + (if Counts.interest t = some p then 1 else 0) +
      n * ((if p = .sentLsaData then 1 else 0) + (if Counts.sent t = some p then 1 else 0)) := by
  intro l s' n
  obtain ⟨h1, h2⟩ := C33_own_interest c s t seq ver ht hnet hlen hseq hseg
  have hl : l = .rcvLsaInterest :: countReply c s t seq := counts_own c s t seq ver ht hnet hlen hseq
  rw [hl]
  unfold countReply
  cases hf : s.find c.router t with
  | none =>
    have hn : n = 0 := by show (if _ then 1 else 0) = 0; rw [hf]; rfl
    have e : s'.log = s.log := h2 (fun o ho => by rw [hf] at ho; cases ho)
    rw [hn, e]
    refine ⟨rfl, fun p => ?_⟩
    cases t <;> cases p <;> rfl
  | some o =>
    by_cases ho : o.lsa.seq = seq
    · have hn : n = 1 := by show (if _ then 1 else 0) = 1; rw [hf, if_pos (by rw [← ho]; rfl)]
      have e := h1 o hf ho
      rw [hn]
      refine ⟨?_, fun p => ?_⟩
      · show (s'.log.filter _).length = _
        rw [show s'.log = _ from e, List.filter_append, List.length_append]
        rfl
      · dsimp only
        rw [if_pos ho]
        cases t <;> cases p <;> rfl
    · have hn : n = 0 := by
        show (if _ then 1 else 0) = 0
        rw [hf, if_neg (fun h => ho (by injection h))]
      have e : s'.log = s.log := h2 (fun o' ho' => by rw [hf] at ho'; cases ho'; exact ho)
      rw [hn, e]
      refine ⟨rfl, fun p => ?_⟩
      dsimp only
      rw [if_neg ho]
      cases t <;> cases p <;> rfl

example : let c := exConf .off
    (∀ l, 0 < c.segments l) ∧ Comp.str "LSA" ∉ c.names.network ∧ ((exStart .off).find c.router .name).map (·.lsa.seq) = some 1 ∧
    counts c (exStart .off) (.interest (c.names.lsaInterest .name 1) 5) = [.rcvLsaInterest, .rcvNameInterest, .sentNameData, .sentLsaData] ∧
    counts c (exStart .off) (.interest (c.names.lsaInterest .name 2) 5) = [.rcvLsaInterest, .rcvNameInterest] :=
  ⟨fun l => by show 0 < 1; decide, by decide +kernel, by decide +kernel, by decide +kernel, by decide +kernel⟩

/-- C76, fourth part.  An LSA received, in answer to a request for a type of LSA of some router, counts once in the total,
and once for its type unless a higher number is known by then. -/
theorem C76_fetched_partial (c : LConf) (s : Lsdb) (i : Nat) (f : Fetch) (l : Lsa) (r : RouterConf) (t : LsaType)
    (hf : s.fetches[i]? = some f) (hr : f.lsaName = r.lsaUserPrefix t) (hnet : Comp.str "LSA" ∉ r.network) (p : Packet) :
    (counts c s (.fetched i (some l))).count p = (if p = .rcvLsaData then 1 else 0) +
      (if (∃ k, s.highestOf f.lsaName = some k ∧ f.seq < k) then 0 else if Counts.data t = some p then 1 else 0) := by
  have hpos : ¬ Name.position (f.lsaName ++ [Comp.number f.seq]) (Comp.str "LSA") < 0 := by
    have e : f.lsaName ++ [Comp.number f.seq] = r.lsaPrefix ++ (r.site ++ r.router ++ [Comp.str t.text, Comp.number f.seq]) := by
      rw [hr]
      simp [RouterConf.lsaUserPrefix, RouterConf.syncUserPrefix]
    rw [e, position_lsa r hnet]
    omega
  have hend : (f.lsaName ++ [Comp.number f.seq]).fromEnd 2 = some (Comp.str t.text) := by
    rw [fromEnd_snoc, hr]
    simp [RouterConf.lsaUserPrefix]
  unfold counts
  dsimp only
  rw [hf]
  dsimp only
  unfold countFetched
  dsimp only
  rw [if_neg hpos, hend]
  dsimp only
  rw [LsaType.ofComp_text, if_pos (show (some l).isSome = true from rfl)]
  have key : ∀ m : Option Lsdb, m = s.noteSeq f.lsaName f.seq →
      ((∃ k, s.highestOf f.lsaName = some k ∧ f.seq < k) ↔ m = none) := by
    rintro m rfl
    unfold noteSeq
    cases s.highestOf f.lsaName with
    | none => simp
    | some k =>
      dsimp only
      constructor
      · rintro ⟨k', h1, h2⟩
        cases h1
        rw [if_neg (by omega), if_pos h2]
      · intro h
        split at h
        · cases h
        · split at h
          · exact ⟨k, rfl, by assumption⟩
          · cases h
  have hk := key _ rfl
  cases hm : s.noteSeq f.lsaName f.seq with
  | none =>
    rw [if_pos (c := ∃ k, s.highestOf f.lsaName = some k ∧ f.seq < k) (hk.2 hm)]
    cases p <;> rfl
  | some x =>
    rw [if_neg (c := ∃ k, s.highestOf f.lsaName = some k ∧ f.seq < k) (fun h => by rw [hk.1 h] at hm; cases hm)]
    cases t <;> cases p <;> rfl

example : let s := step (exConf .off) (exStart .off) (.sync (exUpdate "r2" "NAME") 7)
    s.fetches.map (fun f => (f.lsaName, f.seq)) = [(RouterConf.lsaUserPrefix ⟨nm ["net"], nm ["site"], nm ["r2"]⟩ .name, 7)] ∧
    counts (exConf .off) s (.fetched 0 (some ⟨exR2, 7, 5000000000000, .names []⟩)) = [.rcvLsaData, .rcvNameData] := by
  decide +kernel

/-- C76, fifth part.  The counters per type add up: exactly to the total for data sent, and to at most the total for the
rest (the totals also count packets that are no LSA's: interests not sent, names that are malformed, data that come late). -/
theorem C76_sums_partial (c : LConf) (disk : Option Seqs) (adjs : AdjacencyList) (npl : List PrefixInfo) (sys : Int)
    (ops : List Lsdb.Op) (hsmall : ∀ t, (countsRun c (init c disk adjs npl sys) ops).count t < 2 ^ 31) :
    let st := Stats.run ((countsRun c (init c disk adjs npl sys) ops).map .increment)
    st.get .sentAdjData + st.get .sentCoordData + st.get .sentNameData = st.get .sentLsaData ∧
    st.get .sentAdjInterest + st.get .sentCoordInterest + st.get .sentNameInterest ≤ st.get .sentLsaInterest ∧
    st.get .rcvAdjInterest + st.get .rcvCoordInterest + st.get .rcvNameInterest ≤ st.get .rcvLsaInterest ∧
    st.get .rcvAdjData + st.get .rcvCoordData + st.get .rcvNameData ≤ st.get .rcvLsaData := by
  intro st
  have key : ∀ t, st.get t = _ := fun t => (C64_increments _ hsmall t).1
  have h := adds_run c ops (init c disk adjs npl sys)
  simp only [key]
  exact ⟨h.sent, h.asked, h.wanted, h.got⟩

end Nlsr
