import Verif.Lemmas.LsdbStorage
import Verif.Props.Segments
/- C106: LSAs of others are handed on whole, and no old ones. -/
namespace Nlsr
namespace Segments
open Lsdb

/-- **C106, kept.** A segment of another router's LSA stays until its timer ends, or until a fetch of the number after it
completes; no other event takes it away, neither interests nor the removal of the LSA. -/
theorem C106_kept (c : LConf) (s : Lsdb) (op : Op) (m : Name) (hm : m ∈ s.storage) (hgone : m ∉ (step c s op).storage) :
    (∃ n, op = .segmentGone n ∧ n <+: m) ∨
    ∃ i p f, op = .fetched i p ∧ s.fetches[i]? = some f ∧
      ∃ k, k < 2 ^ 64 ∧ (k + 1) % 2 ^ 64 = f.seq % 2 ^ 64 ∧ f.lsaName ++ [Comp.number k] <+: m := by
  rw [storage_step] at hgone
  have hfilter : ∀ n : Name, m ∉ s.storage.filter (fun m => !Name.isPrefixOf n m) → n <+: m := by
    intro n h
    cases e : Name.isPrefixOf n m with
    | true => exact List.isPrefixOf_iff_prefix.1 e
    | false => exact absurd (List.mem_filter.2 ⟨hm, by rw [e]; rfl⟩) h
  cases op with
  | segment n => exact absurd (List.mem_append_left _ hm) hgone
  | segmentGone n => exact Or.inl ⟨n, rfl, hfilter n hgone⟩
  | fetched i p =>
    unfold storageAfter at hgone
    dsimp only at hgone
    cases hf : s.fetches[i]? with
    | none => rw [hf] at hgone; exact absurd hm hgone
    | some f =>
      rw [hf] at hgone
      refine Or.inr ⟨i, p, f, rfl, hf, (f.seq + 18446744073709551615) % 18446744073709551616, ?_, ?_, hfilter _ hgone⟩
      · exact Nat.mod_lt _ (by decide)
      · have h1 : (2 : Nat) ^ 64 = 18446744073709551616 := by decide
        rw [h1]
        omega
  | _ => exact absurd hm hgone

/-- In particular a fetch that completes leaves the segments just fetched. -/
theorem C106_current (c : LConf) (s : Lsdb) (i : Nat) (p : Option Lsa) (f : Fetch) (hf : s.fetches[i]? = some f)
    (hseq : f.seq < 2 ^ 64) (m : Name) (hm : m ∈ s.storage) (hu : f.lsaName ++ [Comp.number f.seq] <+: m) :
    m ∈ (step c s (.fetched i p)).storage := by
  refine Classical.byContradiction fun hgone => ?_
  rcases C106_kept c s _ m hm hgone with ⟨n, h, -⟩ | ⟨i', p', f', h1, h2, k, h3, h4, h5⟩
  · cases h
  · cases h1
    rw [hf] at h2
    cases h2
    have e := eq_of_prefix hu h5 (by simp)
    have e := List.append_cancel_left e
    simp only [List.cons.injEq, Comp.number, Comp.mk.injEq, true_and, and_true] at e
    have := encNni_inj hseq h3 e
    have h1 : (2 : Nat) ^ 64 = 18446744073709551616 := by decide
    rw [h1] at h4 hseq
    omega

/-- What an interest for a name is answered with, from the segments of others. -/
def fromStorage (s : Lsdb) (n : Name) : Lsdb :=
  match least id n s.storage with
  | some m => s.emit (.storedData m)
  | none => s

/-- An interest for an LSA of another router, or for one of its segments, is answered from what is kept. -/
theorem other_interest {c : LConf} {s : Lsdb} {r : RouterConf} (hr : r.network = c.names.network)
    (hnet : Comp.str "LSA" ∉ c.names.network) (hother : r.routerPrefix ≠ c.router) (t : LsaType) (k : Nat)
    (hlen : (r.lsaInterest t k).length + 2 ≤ 8800) (hfifo : ∀ d ∈ s.fifo, ¬ r.lsaInterest t k <+: d.name) (w : Nat) :
    step c s (.interest (r.lsaInterest t k) w) = fromStorage s (r.lsaInterest t k) ∧
    ∀ v < 2 ^ 64, ∀ i, step c s (.interest (segName (r.lsaInterest t k) v i) w) =
      fromStorage s (segName (r.lsaInterest t k) v i) := by
  have hpre : r.lsaPrefix = c.names.lsaPrefix := by simp [RouterConf.lsaPrefix, hr]
  obtain ⟨h1, h2, h3, h4, h5⟩ := own_interest_parts (c := { c with names := r }) t (Comp.number k)
    (by show _ ∉ r.network; rw [hr]; exact hnet) (Nat.lt_of_le_of_lt (Nat.le_of_lt (Nat.lt_of_lt_of_le (Nat.lt_add_of_pos_right (by decide : 0 < 2)) hlen)) (by decide))
  have h1' : c.names.lsaPrefix <+: r.lsaInterest t k := hpre ▸ h1
  have horig : interestOrigin c.names.network (r.lsaInterest t k) ≠ c.router := by
    have : interestOrigin r.network (r.lsaInterest t k) = r.routerPrefix := h2
    rw [← hr, this]
    exact hother
  have hstr : ∀ name, processStripped c s name (r.lsaInterest t k) w = fromStorage s name := by
    intro name
    unfold processStripped
    rw [if_neg (fun h => horig h.1)]
    rfl
  constructor
  · show (if (r.lsaInterest t k).length ≤ maxComponents then processInterest c s (r.lsaInterest t k) w else s) = _
    rw [if_pos (show (r.lsaInterest t k).length ≤ maxComponents from Nat.le_trans (Nat.le_add_right _ 2) hlen)]
    unfold processInterest
    rw [if_pos (show Name.isPrefixOf _ _ = true from List.isPrefixOf_iff_prefix.2 h1')]
    have h5' : (r.lsaInterest t k).fromEnd 2 = some (Comp.str t.text) := h5
    rw [h5']
    dsimp only
    rw [not_version_text t]
    exact hstr _
  · intro v hv i
    show (if (segName (r.lsaInterest t k) v i).length ≤ maxComponents then processInterest c s (segName (r.lsaInterest t k) v i) w else s) = _
    have hl2 : (segName (r.lsaInterest t k) v i).length ≤ 8800 := by simpa [segName] using hlen
    rw [if_pos (show _ ≤ maxComponents from hl2)]
    unfold processInterest
    have hp' : c.names.lsaPrefix <+: segName (r.lsaInterest t k) v i := h1'.trans (List.prefix_append _ _)
    have h2' : (segName (r.lsaInterest t k) v i).fromEnd 2 = some ⟨54, Tlv.encNni v⟩ := Name.fromEnd_append2
    have hver : (⟨54, Tlv.encNni v⟩ : Comp).isVersion = true := by simp [Comp.isVersion, Tlv.decNni_encNni v hv]
    rw [if_pos (show Name.isPrefixOf _ _ = true from List.isPrefixOf_iff_prefix.2 hp'), h2']
    dsimp only
    rw [if_pos hver]
    cases hl : least (fun d : Seg => d.name) (segName (r.lsaInterest t k) v i) s.fifo with
    | some d => exact absurd ((List.prefix_append _ _).trans (least_some hl).2.1) (hfifo d (least_some hl).1)
    | none =>
      dsimp only
      obtain ⟨-, -, x, hx⟩ := strip_prefix hp' (Nat.lt_of_le_of_lt hl2 (by decide)) h2' hver
      have : r.lsaInterest t k = Name.getPrefix (segName (r.lsaInterest t k) v i) (-2) := (List.append_inj' hx rfl).1
      rw [← this]
      exact hstr _

/-- **C106, handed on.** A router keeps segments of an LSA of another router, of one or more versions, each of them
complete.  Then an interest for that LSA is answered with a segment of one of these versions, the interests for the other
segments of that version are answered with exactly those, and the fetcher that gets them has the whole.  Missing for the
full claim: versions that are kept in part, see `C106_violated_leftover`. -/
theorem C106_handed_on_partial {c : LConf} {s : Lsdb} {r : RouterConf} (hr : r.network = c.names.network)
    (hnet : Comp.str "LSA" ∉ c.names.network) (hother : r.routerPrefix ≠ c.router) (t : LsaType) (k : Nat)
    (hlen : (r.lsaInterest t k).length + 2 ≤ 8800) (hfifo : ∀ d ∈ s.fifo, ¬ r.lsaInterest t k <+: d.name) (w : Nat)
    (b : Nat → List UInt8) (hbig : ∀ v, count (b v) < 2 ^ 64)
    (hsome : ∃ m ∈ s.storage, r.lsaInterest t k <+: m)
    (hall : ∀ m ∈ s.storage, r.lsaInterest t k <+: m → ∃ v < 2 ^ 64, ∃ i < count (b v), m = segName (r.lsaInterest t k) v i ∧
      ∀ i' < count (b v), segName (r.lsaInterest t k) v i' ∈ s.storage) :
    ∃ v < 2 ^ 64, ∃ i < count (b v),
      (step c s (.interest (r.lsaInterest t k) w)).log = s.log ++ [.storedData (segName (r.lsaInterest t k) v i)] ∧
      (step c s (.interest (r.lsaInterest t k) w)).storage = s.storage ∧
      (∀ i' < count (b v), step c s (.interest (segName (r.lsaInterest t k) v i') w) =
        s.emit (.storedData (segName (r.lsaInterest t k) v i'))) ∧
      ∀ is : List Nat, (∀ i' ∈ is, i' < count (b v)) → (∀ i' < count (b v), i' = i ∨ i' ∈ is) →
        Fetcher.fetch { ask := r.lsaInterest t k }
          ((i :: is).map (fun i => ⟨segName (r.lsaInterest t k) v i, piece (b v) i, count (b v) - 1⟩)) = some (b v) := by
  obtain ⟨g1, g2⟩ := other_interest hr hnet hother t k hlen hfifo w
  obtain ⟨m0, hm0, hp0⟩ := hsome
  cases hl : least id (r.lsaInterest t k) s.storage with
  | none => exact absurd hp0 (least_none hl m0 hm0)
  | some m =>
    obtain ⟨h1, h2, -⟩ := least_some hl
    obtain ⟨v, hv, i, hi, e, hcomplete⟩ := hall m h1 h2
    refine ⟨v, hv, i, hi, ?_, ?_, ?_, ?_⟩
    · rw [g1, fromStorage, hl, ← e]; rfl
    · rw [g1, fromStorage, hl]; rfl
    · intro i' hi'
      obtain ⟨d, h3, -, h4⟩ := least_exact (key := id) (n := segName (r.lsaInterest t k) v i') (hcomplete i' hi') rfl
      rw [g2 v hv i', fromStorage, h3]
      have h4' : d = segName (r.lsaInterest t k) v i' := h4
      rw [h4']
    · intro is h3 h4
      refine assembled (b v) (hbig v) _ v (i :: is) ?_ ?_
      · intro i' hi'
        rcases List.mem_cons.1 hi' with rfl | hi'
        · exact hi
        · exact h3 i' hi'
      · intro i' hi'
        rcases h4 i' hi' with rfl | h
        · exact List.mem_cons_self
        · exact List.mem_cons_of_mem _ h

/-- What is left of a fetch that was given up stands in the way: if the least name kept is of a version that is not
complete, whoever asks for the LSA is given that one, and the interest for a missing segment of it gets no answer, although
the router may have the LSA complete under another version and in its LSDB (src/lsdb.cpp:262-266, 499-510). -/
theorem C106_violated_leftover {c : LConf} {s : Lsdb} {r : RouterConf} (hr : r.network = c.names.network)
    (hnet : Comp.str "LSA" ∉ c.names.network) (hother : r.routerPrefix ≠ c.router) (t : LsaType) (k : Nat)
    (hlen : (r.lsaInterest t k).length + 2 ≤ 8800) (hfifo : ∀ d ∈ s.fifo, ¬ r.lsaInterest t k <+: d.name) (w : Nat)
    (v i j : Nat) (hv : v < 2 ^ 64) (hin : segName (r.lsaInterest t k) v i ∈ s.storage)
    (hleast : ∀ m ∈ s.storage, r.lsaInterest t k <+: m → m ≠ segName (r.lsaInterest t k) v i →
      Name.lt (segName (r.lsaInterest t k) v i) m = true)
    (hmiss : ∀ m ∈ s.storage, ¬ segName (r.lsaInterest t k) v j <+: m) :
    (step c s (.interest (r.lsaInterest t k) w)).log = s.log ++ [.storedData (segName (r.lsaInterest t k) v i)] ∧
    step c s (.interest (segName (r.lsaInterest t k) v j) w) = s := by
  obtain ⟨g1, g2⟩ := other_interest hr hnet hother t k hlen hfifo w
  constructor
  · rw [g1, fromStorage]
    cases hl : least id (r.lsaInterest t k) s.storage with
    | none => exact absurd (List.prefix_append _ _) (least_none hl _ hin)
    | some m =>
      obtain ⟨h1, h2, h3⟩ := least_some hl
      have : m = segName (r.lsaInterest t k) v i := Classical.byContradiction fun hne => by
        have h4 := h3 _ hin (List.prefix_append _ _)
        have h5 := hleast m h1 h2 hne
        have : Name.lt (segName (r.lsaInterest t k) v i) m = false := h4
        rw [h5] at this
        cases this
      rw [this]
      rfl
  · rw [g2 v hv j, fromStorage]
    cases hl : least id (segName (r.lsaInterest t k) v j) s.storage with
    | none => rfl
    | some m => exact absurd (least_some hl).2.1 (hmiss m (least_some hl).1)

/-! ### Examples -/

/-- The names of the neighbour. -/
def exOther : RouterConf := ⟨nm ["net"], nm ["site"], nm ["r2"]⟩

/-- C106 fails after a fetch that was given up: the router has the first segment from the first attempt, then fetches both
segments of another version, and installs the LSA.  A third router that asks it gets the first segment of the first
version, and nothing for the second. -/
example : ∃ s v w, Lsdb.Reachable exConf2 s ∧ v ≠ w ∧
    (∀ i < 2, segName (exOther.lsaInterest .name 4) w i ∈ s.storage) ∧ (s.find exR2 .name).map (·.lsa.seq) = some 4 ∧
    (step exConf2 s (.interest (exOther.lsaInterest .name 4) 9)).log =
      s.log ++ [.storedData (segName (exOther.lsaInterest .name 4) v 0)] ∧
    step exConf2 s (.interest (segName (exOther.lsaInterest .name 4) v 1) 9) = s := by
  let ops : List Op := [.sync (exUpdate "r2" "NAME") 4, .segment (segName (exOther.lsaInterest .name 4) 1 0), .fetchError 0 true,
    .retryTimer 0, .segment (segName (exOther.lsaInterest .name 4) 2 0), .segment (segName (exOther.lsaInterest .name 4) 2 1),
    .fetched 0 (some ⟨exR2, 4, 100, .names [⟨nm ["b"], .fin 1⟩]⟩)]
  refine ⟨run exConf2 exStart2 ops, 1, 2, ⟨none, _, _, _, ops, rfl⟩, by decide, by decide +kernel, by decide +kernel, ?_⟩
  refine C106_violated_leftover (c := exConf2) (r := exOther) rfl (by decide +kernel) (by decide +kernel) .name 4
    (by decide +kernel) (by decide +kernel) 9 1 0 1 (by decide) (by decide +kernel) (by decide +kernel) (by decide +kernel)

/-- Old LSAs are still handed out: when a number is skipped, because two changes come close together, the segments of the
LSA before are not taken out when the new one is installed, and an interest for the old one is answered
(src/lsdb.cpp:513). -/
theorem C106_violated_old : ∃ s, Lsdb.Reachable exConf2 s ∧ (s.find exR2 .name).map (·.lsa.seq) = some 6 ∧
    (step exConf2 s (.interest (exOther.lsaInterest .name 4) 9)).log =
      s.log ++ [.storedData (segName (exOther.lsaInterest .name 4) 1 0)] := by
  let ops : List Op := [.sync (exUpdate "r2" "NAME") 4, .segment (segName (exOther.lsaInterest .name 4) 1 0),
    .fetched 0 (some ⟨exR2, 4, 100, .names [⟨nm ["b"], .fin 1⟩]⟩), .sync (exUpdate "r2" "NAME") 6,
    .segment (segName (exOther.lsaInterest .name 6) 2 0), .fetched 0 (some ⟨exR2, 6, 100, .names [⟨nm ["c"], .fin 1⟩]⟩)]
  exact ⟨run exConf2 exStart2 ops, ⟨none, _, _, _, ops, rfl⟩, by decide +kernel, by decide +kernel⟩

/-- The hypotheses of `C106_handed_on_partial`: two versions, both complete. -/
example : ∃ s, Lsdb.Reachable exConf2 s ∧ ∀ b : Nat → List UInt8, (∀ v, count (b v) = 2) → ∃ v < 2 ^ 64, ∃ i < count (b v),
    (step exConf2 s (.interest (exOther.lsaInterest .name 4) 9)).log =
      s.log ++ [.storedData (segName (exOther.lsaInterest .name 4) v i)] := by
  let ops : List Op := [.sync (exUpdate "r2" "NAME") 4, .segment (segName (exOther.lsaInterest .name 4) 2 1),
    .segment (segName (exOther.lsaInterest .name 4) 2 0), .segment (segName (exOther.lsaInterest .name 4) 1 0),
    .segment (segName (exOther.lsaInterest .name 4) 1 1), .fetched 0 (some ⟨exR2, 4, 100, .names [⟨nm ["b"], .fin 1⟩]⟩)]
  refine ⟨run exConf2 exStart2 ops, ⟨none, _, _, _, ops, rfl⟩, fun b hb => ?_⟩
  obtain ⟨v, hv, i, hi, h, -⟩ := C106_handed_on_partial (c := exConf2) (s := run exConf2 exStart2 ops) (r := exOther) rfl
    (by decide +kernel) (by decide +kernel) .name 4
    (by decide +kernel) (by decide +kernel) 9 b (fun v => by rw [hb]; decide) (by decide +kernel) (by
      intro m hm _
      have hst : (run exConf2 exStart2 ops).storage = [segName (exOther.lsaInterest .name 4) 2 1,
        segName (exOther.lsaInterest .name 4) 2 0, segName (exOther.lsaInterest .name 4) 1 0,
        segName (exOther.lsaInterest .name 4) 1 1] := by decide +kernel
      rw [hst] at hm ⊢
      simp only [List.mem_cons, List.not_mem_nil, or_false] at hm
      have two : ∀ i, i < 2 → i = 0 ∨ i = 1 := by omega
      rcases hm with rfl | rfl | rfl | rfl
      · exact ⟨2, by decide, 1, by rw [hb]; decide, rfl, fun i hi => by
          rw [hb] at hi; rcases two i hi with rfl | rfl <;> simp⟩
      · exact ⟨2, by decide, 0, by rw [hb]; decide, rfl, fun i hi => by
          rw [hb] at hi; rcases two i hi with rfl | rfl <;> simp⟩
      · exact ⟨1, by decide, 0, by rw [hb]; decide, rfl, fun i hi => by
          rw [hb] at hi; rcases two i hi with rfl | rfl <;> simp⟩
      · exact ⟨1, by decide, 1, by rw [hb]; decide, rfl, fun i hi => by
          rw [hb] at hi; rcases two i hi with rfl | rfl <;> simp⟩)
  exact ⟨v, hv, i, hi, h⟩

end Segments
end Nlsr
