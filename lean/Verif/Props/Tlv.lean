import Verif.Lemmas.RtWire
/- C15, C54, C55, C56: wire formats. -/
namespace Nlsr
open Tlv Wire

/-! ### C54: TLV primitives -/

/-- **C54, round trips.** Numbers, non-negative integers, doubles, blocks and names, followed by any
octets where the reader leaves a remainder. -/
theorem C54_round_trip (rest : Bytes) :
    (∀ n, n < 2 ^ 64 → decVar (encVar n ++ rest) = some (n, rest)) ∧
    (∀ n, n < 2 ^ 64 → decNni (encNni n) = some n) ∧
    (∀ f d, decDouble f (encDouble d) = some d) ∧
    (∀ t v, 1 ≤ t → t < 2 ^ 32 → v.length < 2 ^ 64 →
      decBlock (block t v ++ rest) = some (t, v, rest)) ∧
    (∀ n : Name, (∀ c ∈ n, 1 ≤ c.typ ∧ c.typ < 2 ^ 32) → (encComps n).length < 2 ^ 64 →
      ∃ v, decBlock (encName n ++ rest) = some (7, v, rest) ∧ decName v = some n) := by
  refine ⟨fun n h => decVar_encVar n h rest, decNni_encNni, decDouble_enc, ?_, ?_⟩
  · intro t v h1 h2 h3
    exact decBlock_block ⟨⟨h1, h2⟩, h3⟩ rest
  · intro n hn hl
    exact ⟨encComps n, decBlock_block ⟨by simp, hl⟩ rest, decName_enc (nameOk_of_length hn (by omega))⟩

/-- **C54, totality.** A reader either fails or consumes a non-empty prefix; what it reports lies in
the consumed part. -/
theorem C54_consumes_prefix (b : Bytes) :
    (∀ n rest, decVar b = some (n, rest) → n < 2 ^ 64 ∧ ∃ pre, pre ≠ [] ∧ b = pre ++ rest) ∧
    (∀ t v rest, decBlock b = some (t, v, rest) →
      1 ≤ t ∧ t < 2 ^ 32 ∧ ∃ pre, pre ≠ [] ∧ b = pre ++ (v ++ rest)) := by
  constructor
  · intro n rest h
    exact ⟨decVar_lt h, decVar_consumes h⟩
  · intro t v rest h
    obtain ⟨pre, h1, h2, h3⟩ := decBlock_consumes h
    exact ⟨h3.1.1, h3.1.2, pre, h1, h2⟩

/-- **C54, format.** Numbers use the sizes of the NDN packet format, most significant octet first. -/
theorem C54_format (n : Nat) (h : n < 2 ^ 64) :
    (n < 253 → encVar n = [UInt8.ofNat n]) ∧
    (253 ≤ n → n < 2 ^ 16 → ∃ a b : UInt8, encVar n = [253, a, b] ∧ a.toNat * 256 + b.toNat = n) ∧
    (2 ^ 16 ≤ n → n < 2 ^ 32 → (encVar n).head? = some 254 ∧ (encVar n).length = 5 ∧
      fromBe (encVar n).tail = n) ∧
    (2 ^ 32 ≤ n → (encVar n).head? = some 255 ∧ (encVar n).length = 9 ∧ fromBe (encVar n).tail = n) ∧
    ((encNni n).length = 1 ∨ (encNni n).length = 2 ∨ (encNni n).length = 4 ∨ (encNni n).length = 8) ∧
    fromBe (encNni n) = n := by
  refine ⟨fun h1 => by simp [encVar, h1], fun h1 h2 => ?_, fun h1 h2 => ?_, fun h1 => ?_, ?_, ?_⟩
  · refine ⟨UInt8.ofNat (n / 256), UInt8.ofNat n, ?_, ?_⟩
    · have : ¬ n < 253 := by omega
      simp [encVar, this, be]; omega
    · simp; omega
  · have a1 : ¬ n < 253 := by omega
    have a2 : ¬ n < 65536 := by omega
    have a3 : n < 4294967296 := by omega
    simp only [encVar, a1, a2, a3, if_true, if_false]
    exact ⟨rfl, by simp [be_length], fromBe_be 4 n (by omega)⟩
  · have a1 : ¬ n < 253 := by omega
    have a2 : ¬ n < 65536 := by omega
    have a3 : ¬ n < 4294967296 := by omega
    simp only [encVar, a1, a2, a3, if_false]
    exact ⟨rfl, by simp [be_length], fromBe_be 8 n (by omega)⟩
  · unfold encNni
    split <;> (try split) <;> (try split) <;> simp [be_length]
  · have := decNni_encNni n h
    unfold decNni at this
    split at this
    · simpa using this
    · simp at this

example : encVar 300 = [253, 1, 44] ∧ encName (nm ["ndn", "x"]) = [7, 8, 8, 3, 110, 100, 110, 8, 1, 120] := by
  decide +kernel

/-! ### C55: LSA round trips -/

/-- **C55.** An LSA whose parts can be put on the wire decodes from its encoding to itself: an
adjacency LSA with pairwise different neighbor names (what an `AdjacencyList` holds), a name LSA whose
prefixes are in map order, any coordinate LSA. -/
theorem C55_round_trip (C : Codec) (hT : ∀ t, C.timeFrom (C.timeTo t) = some t) :
    (∀ l : WAdjLsa, NameTypes l.base.origin → l.base.seq < 2 ^ 64 →
      (∀ a ∈ l.adjs, NameTypes a.name ∧ C.uri a.uri = some a.uri) → (l.adjs.map (·.name)).Nodup →
      (encAdjLsa C l).length ≤ 2 ^ 64 → decAdjLsa C (encAdjLsa C l) = some l) ∧
    (∀ l : WNameLsa, NameTypes l.base.origin → l.base.seq < 2 ^ 64 →
      (∀ p ∈ l.names, NameTypes p.name) → l.names.Pairwise (fun p q => Name.lt p.name q.name = true) →
      (encNameLsa C l).length ≤ 2 ^ 64 → decNameLsa C (encNameLsa C l) = some l) ∧
    (∀ l : WCoordLsa, NameTypes l.base.origin → l.base.seq < 2 ^ 64 →
      (encCoordLsa C l).length ≤ 2 ^ 64 → decCoordLsa C (encCoordLsa C l) = some l) :=
  ⟨fun _ h1 h2 h3 h4 hl => decAdjLsa_enc ⟨⟨h1, h2, hT _⟩, h3, h4⟩ hl,
   fun _ h1 h2 h3 h4 hl => decNameLsa_enc ⟨⟨h1, h2, hT _⟩, h3, h4⟩ hl,
   fun _ h1 h2 hl => decCoordLsa_enc ⟨h1, h2, hT _⟩ hl⟩

/-- A toy text codec for examples: times as a sign octet and a number, URIs that start with 'u'. -/
def toyCodec : Codec where
  uri b := if b.head? = some 117 then some b else none
  timeTo t := if t < 0 then 45 :: encNni t.natAbs else 43 :: encNni t.natAbs
  timeFrom b := match b with
    | [] => none
    | s :: r => (decNni r).map (fun (n : Nat) => if s = 45 then -(n : Int) else (n : Int))
  f32 x := x.toUInt64

example : decAdjLsa toyCodec (encAdjLsa toyCodec
      ⟨⟨nm ["ndn", "r1"], 70000, 12⟩, [⟨nm ["r2"], [117, 58], 5⟩, ⟨nm ["r3"], [117], 7⟩]⟩)
    = some ⟨⟨nm ["ndn", "r1"], 70000, 12⟩, [⟨nm ["r2"], [117, 58], 5⟩, ⟨nm ["r3"], [117], 7⟩]⟩ := by
  decide +kernel

example : Name.lt (nm ["a"]) (nm ["a", "b"]) = true ∧
    decNameLsa toyCodec (encNameLsa toyCodec ⟨⟨nm ["r1"], 3, 12⟩, [⟨nm ["a"], 5⟩, ⟨nm ["a", "b"], 7⟩]⟩)
    = some ⟨⟨nm ["r1"], 3, 12⟩, [⟨nm ["a"], 5⟩, ⟨nm ["a", "b"], 7⟩]⟩ := by decide +kernel

/-- The TLV type assigned by src/tlv-nlsr.hpp:32-52 stands first in each encoding. -/
theorem C55_types (C : Codec) :
    (∀ l, (encAdjLsa C l).head? = some 131) ∧ (∀ l, (encNameLsa C l).head? = some 137) ∧
    (∀ l, (encCoordLsa C l).head? = some 133) := by
  refine ⟨fun l => ?_, fun l => ?_, fun l => ?_⟩ <;> rfl

/-! ### C56: what a decoder accepts -/

private theorem top_other {t t' : Nat} {v : Bytes} (h : ElemOk (t', v)) (hne : t' ≠ t) (rest : Bytes) :
    top t (block t' v ++ rest) = none := by
  unfold top
  rw [decBlock_block h rest]
  cases rest <;> simp [hne]

/-- **C56, canonical.** Whatever block is accepted, encoding the result and decoding again gives the
same LSA. -/
theorem C56_accepted_reencodes (C : Codec)
    (hT : ∀ b t, C.timeFrom b = some t → C.timeFrom (C.timeTo t) = some t)
    (hU : ∀ u u', C.uri u = some u' → C.uri u' = some u') (b : Bytes) :
    (∀ l, decAdjLsa C b = some l → (encAdjLsa C l).length ≤ 2 ^ 64 →
      decAdjLsa C (encAdjLsa C l) = some l) ∧
    (∀ l, decNameLsa C b = some l → (encNameLsa C l).length ≤ 2 ^ 64 →
      decNameLsa C (encNameLsa C l) = some l) ∧
    (∀ l, decCoordLsa C b = some l → (encCoordLsa C l).length ≤ 2 ^ 64 →
      decCoordLsa C (encCoordLsa C l) = some l) :=
  ⟨fun _ h hl => decAdjLsa_enc (decAdjLsa_ok hT hU h) hl,
   fun _ h hl => decNameLsa_enc (decNameLsa_ok hT h) hl,
   fun _ h hl => decCoordLsa_enc (decCoordLsa_ok hT h) hl⟩

/-- What a decoded LSA always satisfies: one entry per neighbor, prefixes in map order, a 64-bit
sequence number. -/
theorem C56_accepted_wellformed (C : Codec)
    (hT : ∀ b t, C.timeFrom b = some t → C.timeFrom (C.timeTo t) = some t)
    (hU : ∀ u u', C.uri u = some u' → C.uri u' = some u') (b : Bytes) :
    (∀ l, decAdjLsa C b = some l → l.base.seq < 2 ^ 64 ∧ (l.adjs.map (·.name)).Nodup) ∧
    (∀ l, decNameLsa C b = some l → l.base.seq < 2 ^ 64 ∧
      l.names.Pairwise (fun p q => Name.lt p.name q.name = true)) ∧
    (∀ l, decCoordLsa C b = some l → l.base.seq < 2 ^ 64) :=
  ⟨fun _ h => ⟨(decAdjLsa_ok hT hU h).1.2.1, (decAdjLsa_ok hT hU h).2.2⟩,
   fun _ h => ⟨(decNameLsa_ok hT h).1.2.1, (decNameLsa_ok hT h).2.2⟩,
   fun _ h => (decCoordLsa_ok hT h).2.1⟩

/-- **C56, injective.** Different decodable LSAs have different encodings. -/
theorem C56_injective (C : Codec) (hT : ∀ b t, C.timeFrom b = some t → C.timeFrom (C.timeTo t) = some t)
    (hU : ∀ u u', C.uri u = some u' → C.uri u' = some u') (b b' : Bytes) :
    (∀ l l', decAdjLsa C b = some l → decAdjLsa C b' = some l' → (encAdjLsa C l).length ≤ 2 ^ 64 →
      encAdjLsa C l = encAdjLsa C l' → l = l') ∧
    (∀ l l', decNameLsa C b = some l → decNameLsa C b' = some l' → (encNameLsa C l).length ≤ 2 ^ 64 →
      encNameLsa C l = encNameLsa C l' → l = l') ∧
    (∀ l l', decCoordLsa C b = some l → decCoordLsa C b' = some l' → (encCoordLsa C l).length ≤ 2 ^ 64 →
      encCoordLsa C l = encCoordLsa C l' → l = l') := by
  have key := C56_accepted_reencodes C hT hU
  refine ⟨fun l l' h h' hl he => ?_, fun l l' h h' hl he => ?_, fun l l' h h' hl he => ?_⟩
  · have h1 := (key b).1 l h hl
    have h2 := (key b').1 l' h' (he ▸ hl)
    rw [he, h2] at h1
    exact (Option.some.inj h1).symm
  · have h1 := (key b).2.1 l h hl
    have h2 := (key b').2.1 l' h' (he ▸ hl)
    rw [he, h2] at h1
    exact (Option.some.inj h1).symm
  · have h1 := (key b).2.2 l h hl
    have h2 := (key b').2.2 l' h' (he ▸ hl)
    rw [he, h2] at h1
    exact (Option.some.inj h1).symm

/-- **C56, types.** A block of any other type is rejected, whatever it contains. -/
theorem C56_wrong_type_rejected (C : Codec) (t : Nat) (v rest : Bytes) (h1 : 1 ≤ t) (h2 : t < 2 ^ 32)
    (hv : v.length < 2 ^ 64) :
    (t ≠ 131 → decAdjLsa C (block t v ++ rest) = none) ∧
    (t ≠ 137 → decNameLsa C (block t v ++ rest) = none) ∧
    (t ≠ 133 → decCoordLsa C (block t v ++ rest) = none) := by
  have ok : ElemOk (t, v) := ⟨⟨h1, h2⟩, hv⟩
  refine ⟨fun h => ?_, fun h => ?_, fun h => ?_⟩
  · simp [decAdjLsa, top_other ok h]
  · simp [decNameLsa, top_other ok h]
  · simp [decCoordLsa, top_other ok h]

/-- **C56, truncation.** Octets after the block are never silently dropped. -/
theorem C56_trailing_rejected (C : Codec) (t : Nat) (v : Bytes) (x : UInt8) (rest : Bytes)
    (h1 : 1 ≤ t) (h2 : t < 2 ^ 32) (hv : v.length < 2 ^ 64) :
    decAdjLsa C (block t v ++ x :: rest) = none ∧ decNameLsa C (block t v ++ x :: rest) = none ∧
    decCoordLsa C (block t v ++ x :: rest) = none := by
  have hd : decBlock (block t v ++ x :: rest) = some (t, v, x :: rest) := decBlock_block ⟨⟨h1, h2⟩, hv⟩ _
  have ht : ∀ t', top t' (block t v ++ x :: rest) = none := by intro t'; unfold top; rw [hd]
  simp [decAdjLsa, decNameLsa, decCoordLsa, ht]

example : ∃ l, decNameLsa toyCodec (encNameLsa toyCodec ⟨⟨nm ["r1"], 3, 12⟩, [⟨nm ["a"], 5⟩]⟩) = some l ∧
    decAdjLsa toyCodec (encNameLsa toyCodec l) = none := by
  refine ⟨⟨⟨nm ["r1"], 3, 12⟩, [⟨nm ["a"], 5⟩]⟩, ?_⟩
  decide +kernel

/-! ### C15: routing-table dataset -/

/-- "Table `t` has a hop on face `u` at cost `c` towards `d`". -/
def Listed (t : RTable) (d : Name) (u : Uri) (c : Rat) : Prop :=
  ∃ e ∈ t, e.dest = d ∧ ∃ h ∈ e.hops, h.uri = u ∧ h.cost = c

private theorem listed_norm (t : RTable) (hu : ∀ e ∈ t, UriNodup e.hops) (d : Name) (u : Uri) (c : Rat) :
    Listed (t.map normEntry) d u c ↔ Listed t d u c := by
  have key : ∀ e ∈ t, ∀ a, a ∈ (normEntry e).hops ↔
      a ∈ e.hops.map (fun h => (⟨h.uri, h.cost, false⟩ : NextHop)) := by
    intro e he a
    have hn : UriNodup (e.hops.map (fun h => (⟨h.uri, h.cost, false⟩ : NextHop))) := by
      have := hu e he
      simpa [UriNodup, Function.comp_def] using this
    have := (mem_foldl_add (e.hops.map (fun h => (⟨h.uri, h.cost, false⟩ : NextHop))) []
      (by simpa using hn)).2 a
    simpa [normEntry] using this
  constructor
  · rintro ⟨e', he', hd, a, ha, h1, h2⟩
    obtain ⟨e, he, rfl⟩ := List.mem_map.1 he'
    obtain ⟨h, hh, rfl⟩ := List.mem_map.1 ((key e he a).1 ha)
    exact ⟨e, he, hd, h, hh, h1, h2⟩
  · rintro ⟨e, he, hd, h, hh, h1, h2⟩
    exact ⟨normEntry e, List.mem_map.2 ⟨e, he, rfl⟩, hd, ⟨h.uri, h.cost, false⟩,
      (key e he _).2 (List.mem_map.2 ⟨h, hh, rfl⟩), h1, h2⟩

/-- **C15, partial.** If every dry-run destination is also a destination of the routing table, the
decoded tables list the same destinations in the same order, with the same faces and costs. The
missing part (dry-run destinations without a link-state route) is false: `C15_violated_dry_only`. -/
theorem C15_round_trip_partial (C : RtCodec) (rt dry : RTable)
    (hr : ∀ e ∈ rt, EntryOk C e) (hd : ∀ e ∈ dry, EntryOk C e)
    (hru : ∀ e ∈ rt, UriNodup e.hops) (hdu : ∀ e ∈ dry, UriNodup e.hops)
    (hn : (rt.map (·.dest)).Nodup) (hsub : ∀ e ∈ dry, ∃ x ∈ rt, x.dest = e.dest)
    (hl : (encRt C rt dry).length ≤ 2 ^ 64) :
    ∃ rt' dry', decRt C (encRt C rt dry) = some (rt', dry') ∧
      rt'.map (·.dest) = rt.map (·.dest) ∧ dry'.map (·.dest) = dry.map (·.dest) ∧
      (∀ d u c, Listed rt' d u c ↔ Listed rt d u c) ∧ (∀ d u c, Listed dry' d u c ↔ Listed dry d u c) := by
  refine ⟨rt.map normEntry, dry.map normEntry, ?_, ?_, ?_, listed_norm rt hru, listed_norm dry hdu⟩
  · rw [decRt_enc hr hd hl, List.map_append, splitTables_two]
    · simpa [Function.comp_def, normEntry] using hn
    · intro e' he'
      obtain ⟨e, he, rfl⟩ := List.mem_map.1 he'
      obtain ⟨x, hx, hxd⟩ := hsub e he
      exact ⟨normEntry x, List.mem_map.2 ⟨x, hx, rfl⟩, hxd⟩
  · simp [Function.comp_def, normEntry]
  · simp [Function.comp_def, normEntry]

/-- **C15, link-state tables.** With no dry-run table, tables whose hops are not hyperbolic and are
stored in list order come back unchanged. -/
theorem C15_link_state_exact (C : RtCodec) (rt : RTable) (hr : ∀ e ∈ rt, EntryOk C e)
    (hru : ∀ e ∈ rt, UriNodup e.hops) (hs : ∀ e ∈ rt, e.hops.Pairwise (fun a b => NextHop.lt a b = true))
    (hh : ∀ e ∈ rt, ∀ h ∈ e.hops, h.hyp = false) (hn : (rt.map (·.dest)).Nodup)
    (hl : (encRt C rt []).length ≤ 2 ^ 64) :
    decRt C (encRt C rt []) = some (rt, []) := by
  have hnorm : rt.map normEntry = rt := by
    conv => rhs; rw [← List.map_id rt]
    refine List.map_congr_left fun e he => ?_
    have : e.hops.map (fun h => (⟨h.uri, h.cost, false⟩ : NextHop)) = e.hops := by
      conv => rhs; rw [← List.map_id e.hops]
      refine List.map_congr_left fun h hhm => ?_
      have := hh e he h hhm
      cases h; simp_all
    simp only [normEntry, this, foldl_add_sorted e.hops (hru e he) (hs e he), id]
  rw [decRt_enc hr (by simp) hl, List.append_nil, hnorm]
  have := splitTables_two (dry := []) hn (by simp)
  rw [List.append_nil] at this
  rw [this]

/-- **C15 is false for dry-run tables.** A destination known only to the dry-run table is decoded as
a link-state route, for every codec. -/
theorem C15_violated_dry_only (C : RtCodec) (e : RtEntry) (he : EntryOk C e) (hu : UriNodup e.hops)
    (hne : e.hops ≠ []) (hl : (encRt C [] [e]).length ≤ 2 ^ 64) :
    ∃ rt' dry', decRt C (encRt C [] [e]) = some (rt', dry') ∧
      ¬ (∀ d u c, Listed rt' d u c ↔ Listed [] d u c) ∧ dry' = [] := by
  refine ⟨[normEntry e], [], ?_, ?_, rfl⟩
  · rw [decRt_enc (by simp) (by simpa using he) hl]; rfl
  · intro h
    obtain ⟨a, ha⟩ := List.exists_mem_of_ne_nil _ hne
    have h1 := (listed_norm [e] (by simpa using hu) e.dest a.uri a.cost).2
      ⟨e, by simp, rfl, a, ha, rfl, rfl⟩
    obtain ⟨x, hx, -⟩ := (h _ _ _).1 h1
    simp at hx

/-- A toy codec that handles the two hops below. -/
def toyRt : RtCodec where
  uriTo s := s.toUTF8.toList
  uriFrom b := if b = "udp4://1".toUTF8.toList then some "udp4://1"
    else if b = "udp4://2".toUTF8.toList then some "udp4://2" else none
  costTo q := UInt64.ofNat (q * 10).floor.toNat
  costFrom b := (b.toNat : Rat) / 10
  f32 x := x.toUInt64

/-- Hypotheses are met, and the order of hyperbolic hops is not kept: 0.3 before 0.7 in the dry-run
table, but sorted by face after decoding because the hyperbolic flag is not on the wire. -/
example :
    (EntryOk toyRt ⟨nm ["r2"], [⟨"udp4://2", 3/10, true⟩, ⟨"udp4://1", 7/10, true⟩]⟩) ∧
    decRt toyRt (encRt toyRt [⟨nm ["r2"], [⟨"udp4://1", 5, false⟩]⟩]
      [⟨nm ["r2"], [⟨"udp4://2", 3/10, true⟩, ⟨"udp4://1", 7/10, true⟩]⟩])
    = some ([⟨nm ["r2"], [⟨"udp4://1", 5, false⟩]⟩],
      [⟨nm ["r2"], [⟨"udp4://1", 7/10, false⟩, ⟨"udp4://2", 3/10, false⟩]⟩]) := by
  constructor
  · refine ⟨by unfold NameTypes; decide +kernel, ?_⟩
    intro h hh
    simp only [List.mem_cons, List.not_mem_nil, or_false] at hh
    rcases hh with rfl | rfl <;> exact ⟨by decide +kernel, by decide +kernel⟩
  · decide +kernel

example : decRt toyRt (encRt toyRt [] [⟨nm ["r2"], [⟨"udp4://2", 3/10, true⟩]⟩])
    = some ([⟨nm ["r2"], [⟨"udp4://2", 3/10, false⟩]⟩], []) := by decide +kernel

end Nlsr
