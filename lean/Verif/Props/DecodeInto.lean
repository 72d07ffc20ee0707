import Verif.Model.DecodeInto
import Verif.Props.WireCache2
/- C119: `wireDecode` on an object that is in use. -/
namespace Nlsr
open Tlv Wire

namespace Into

theorem base_spec (C : Codec) (o : WBase) (v : Bytes) :
    (∀ x, decBase C v = some x → base C o v = (x, true)) ∧ (decBase C v = none → (base C o v).2 = false) := by
  unfold decBase base
  cases h1 : parse v with
  | none => simp
  | some es =>
    cases h2 : expect 7 es with
    | none => simp [h2]
    | some p =>
      obtain ⟨nv, es⟩ := p
      cases h3 : decName nv with
      | none => simp [h2, h3]
      | some n =>
        cases h4 : expect 130 es with
        | none => simp [h2, h3, h4]
        | some p =>
          obtain ⟨sv, es⟩ := p
          cases h5 : decNni sv with
          | none => simp [h2, h3, h4, h5]
          | some k =>
            cases h6 : expect 139 es with
            | none => simp [h2, h3, h4, h5, h6]
            | some p =>
              obtain ⟨tv, es⟩ := p
              cases h7 : C.timeFrom tv with
              | none => simp [h2, h3, h4, h5, h6, h7]
              | some t => simp [h2, h3, h4, h5, h6, h7]

/-- What `lsaHead` finds in a block, if it does not throw. -/
def headOf (C : Codec) (t : Nat) (b : Bytes) : Option (WBase × List Elem) :=
  (((top t b).bind parse).bind (expect 128)).bind fun p => (decBase C p.1).map fun x => (x, p.2)

theorem head_spec {α : Type} (C : Codec) (t : Nat) (get : α → WBase) (set : α → WBase → α) (s : Cached α) (b : Bytes) :
    (lsaHead C t get set s b).1.wire = some b ∧
    (∀ x rest, headOf C t b = some (x, rest) → lsaHead C t get set s b = (⟨set s.val x, some b⟩, some rest)) ∧
    (headOf C t b = none → (lsaHead C t get set s b).2 = none) := by
  unfold lsaHead headOf
  cases h1 : ((top t b).bind parse).bind (expect 128) with
  | none => simp
  | some p =>
    obtain ⟨bv, rest⟩ := p
    have hb := base_spec C (get s.val) bv
    cases h4 : decBase C bv with
    | none => simp [hb.2 h4, h4]
    | some x =>
      have := hb.1 x h4
      simp only [Option.bind_some, h4, Option.map_some, this]
      refine ⟨trivial, ?_, fun hc => (nomatch hc)⟩
      intro y r hy
      injection hy with hy
      injection hy with h1 h2
      subst h1 h2
      rfl

theorem adj_head (C : Codec) (b : Bytes) : decAdjLsa C b =
    (headOf C 131 b).bind fun p => (loopOf 132 (decAdj C) p.2).map fun l => ⟨p.1, l.foldl insertAdj []⟩ := by
  unfold decAdjLsa headOf
  cases h1 : top 131 b with
  | none => rfl
  | some v =>
    cases h2 : parse v with
    | none => simp [h2]
    | some es =>
      cases h3 : expect 128 es with
      | none => simp [h2, h3]
      | some p => cases h4 : decBase C p.1 <;> simp [h2, h3, h4, Option.map_eq_bind] <;> rfl

theorem name_head (C : Codec) (b : Bytes) : decNameLsa C b =
    (headOf C 137 b).bind fun p => (loopOf 146 (decPrefix C) p.2).map fun l => ⟨p.1, l.foldl insertPrefix []⟩ := by
  unfold decNameLsa headOf
  cases h1 : top 137 b with
  | none => rfl
  | some v =>
    cases h2 : parse v with
    | none => simp [h2]
    | some es =>
      cases h3 : expect 128 es with
      | none => simp [h2, h3]
      | some p => cases h4 : decBase C p.1 <;> simp [h2, h3, h4, Option.map_eq_bind] <;> rfl

theorem coord_head (C : Codec) (b : Bytes) : decCoordLsa C b =
    (headOf C 133 b).bind fun p => ((expect 135 p.2).bind fun q => (decDouble C.f32 q.1).map fun x => (x, q.2)).bind fun q =>
      (loopOf 136 (decDouble C.f32) q.2).map fun l => ⟨p.1, q.1, l⟩ := by
  unfold decCoordLsa headOf
  cases h1 : top 133 b with
  | none => rfl
  | some v =>
    cases h2 : parse v with
    | none => simp [h2]
    | some es =>
      cases h3 : expect 128 es with
      | none => simp [h2, h3]
      | some p =>
        cases h4 : decBase C p.1 with
        | none => simp [h2, h3, h4]
        | some x =>
          cases h5 : expect 135 p.2 with
          | none => simp [h2, h3, h4, h5]
          | some q => cases h6 : decDouble C.f32 q.1 <;> simp [h2, h3, h4, h5, h6, Option.map_eq_bind] <;> rfl

end Into
open Into

/-- **C119** for the LSA classes: `wireDecode` of a block on any object, whatever it held and had cached, makes it what the
constructor makes of the block, and throws exactly if the constructor throws. -/
theorem C119_lsas (C : Codec) (b : Bytes) :
    (∀ s, (∀ v, decAdjLsa C b = some v → adjLsa C s b = (⟨v, some b⟩, true)) ∧ (decAdjLsa C b = none → (adjLsa C s b).2 = false)) ∧
    (∀ s, (∀ v, decNameLsa C b = some v → nameLsa C s b = (⟨v, some b⟩, true)) ∧ (decNameLsa C b = none → (nameLsa C s b).2 = false)) ∧
    (∀ s, (∀ v, decCoordLsa C b = some v → coordLsa C s b = (⟨v, some b⟩, true)) ∧ (decCoordLsa C b = none → (coordLsa C s b).2 = false)) := by
  refine ⟨fun s => ?_, fun s => ?_, fun s => ?_⟩
  · have hh := head_spec C 131 (·.base) (fun (l : WAdjLsa) x => { l with base := x }) s b
    rw [adj_head]
    unfold adjLsa
    cases h1 : headOf C 131 b with
    | none => simp [hh.2.2 h1]
    | some p =>
      rw [hh.2.1 p.1 p.2 h1]
      cases h2 : loopOf 132 (decAdj C) p.2 <;> simp [h2]
  · have hh := head_spec C 137 (·.base) (fun (l : WNameLsa) x => { l with base := x }) s b
    rw [name_head]
    unfold nameLsa
    cases h1 : headOf C 137 b with
    | none => simp [hh.2.2 h1]
    | some p =>
      rw [hh.2.1 p.1 p.2 h1]
      cases h2 : loopOf 146 (decPrefix C) p.2 <;> simp [h2]
  · have hh := head_spec C 133 (·.base) (fun (l : WCoordLsa) x => { l with base := x }) s b
    rw [coord_head]
    unfold coordLsa
    cases h1 : headOf C 133 b with
    | none => simp [hh.2.2 h1]
    | some p =>
      rw [hh.2.1 p.1 p.2 h1]
      cases h2 : (expect 135 p.2).bind fun q => (decDouble C.f32 q.1).map fun x => (x, q.2) with
      | none => simp [h2]
      | some q => cases h3 : loopOf 136 (decDouble C.f32) q.2 <;> simp [h2, h3]

/-- **C119** for a neighbour, a prefix and a next hop: the encoded members are those of the block; the others (status, timeouts and
face id; the hyperbolic flag) stay as they were, so that the object is as from the constructor only if they were as they
are in a new one (`C119_violated_kept`). -/
theorem C119_small_partial (C : Codec) (R : RtCodec) (b : Bytes) :
    (∀ s : Cached AdjObj, (∀ v, decAdjBlock C b = some v → adjacent C s b = (⟨{ s.val with wire := v }, some b⟩, true)) ∧
      (decAdjBlock C b = none → (adjacent C s b).2 = false)) ∧
    (∀ s : Cached WPrefix, (∀ v, (top 146 b).bind (decPrefix C) = some v → prefixInfo C s b = (⟨v, some b⟩, true)) ∧
      ((top 146 b).bind (decPrefix C) = none → (prefixInfo C s b).2 = false)) ∧
    (∀ s : Cached NextHop, (∀ v, decHopBlock R b = some v → nextHop R s b = (⟨{ v with hyp := s.val.hyp }, some b⟩, true)) ∧
      (decHopBlock R b = none → (nextHop R s b).2 = false)) := by
  refine ⟨fun s => ?_, fun s => ?_, fun s => ?_⟩
  · unfold decAdjBlock adjacent decAdj
    cases h1 : top 132 b with
    | none => simp
    | some v =>
      cases h2 : parse v with
      | none => simp [h2]
      | some es =>
        cases h3 : expect 7 es with
        | none => simp [h2, h3]
        | some p =>
          obtain ⟨nv, es⟩ := p
          cases h4 : decName nv with
          | none => simp [h2, h3, h4]
          | some n =>
            cases h5 : expect 141 es with
            | none => simp [h2, h3, h4, h5]
            | some p =>
              obtain ⟨uv, es⟩ := p
              cases h6 : C.uri uv with
              | none => simp [h2, h3, h4, h5, h6]
              | some u =>
                cases h7 : expect 140 es with
                | none => simp [h2, h3, h4, h5, h6, h7]
                | some p =>
                  obtain ⟨cv, es⟩ := p
                  cases h8 : decDouble C.f32 cv <;> simp [h2, h3, h4, h5, h6, h7, h8]
  · unfold prefixInfo decPrefix
    cases h1 : top 146 b with
    | none => simp
    | some v =>
      cases h2 : parse v with
      | none => simp [h2]
      | some es =>
        cases h3 : expect 7 es with
        | none => simp [h2, h3]
        | some p =>
          obtain ⟨nv, es⟩ := p
          cases h4 : decName nv with
          | none => simp [h2, h3, h4]
          | some n =>
            cases h7 : expect 140 es with
            | none => simp [h2, h3, h4, h7]
            | some p =>
              obtain ⟨cv, es⟩ := p
              cases h8 : decDouble C.f32 cv <;> simp [h2, h3, h4, h7, h8]
  · unfold decHopBlock nextHop decHop
    cases h1 : top 143 b with
    | none => simp
    | some v =>
      cases h2 : parse v with
      | none => simp [h2]
      | some es =>
        cases h5 : expect 141 es with
        | none => simp [h2, h5]
        | some p =>
          obtain ⟨uv, es⟩ := p
          cases h6 : R.uriFrom uv with
          | none => simp [h2, h5, h6]
          | some u =>
            cases h7 : expect 134 es with
            | none => simp [h2, h5, h6, h7]
            | some p =>
              obtain ⟨cv, es⟩ := p
              cases h8 : decDouble R.f32 cv <;> simp [h2, h5, h6, h7, h8]

theorem hops_spec (R : RtCodec) : ∀ (es : List Elem) (l : List NextHop),
    (∀ hs, loopOf 143 (decHop R) es = some hs → hops R es l = (hs.foldl NexthopList.add l, true)) ∧
    (loopOf 143 (decHop R) es = none → (hops R es l).2 = false)
  | [], l => by simp [loopOf, hops]
  | e :: es, l => by
    unfold loopOf hops
    by_cases h : e.1 = 143
    · simp only [if_pos h]
      cases h1 : decHop R e.2 with
      | none => simp
      | some x =>
        have ih := hops_spec R es (NexthopList.add l x)
        cases h2 : loopOf 143 (decHop R) es with
        | none => simp [ih.2 h2]
        | some hs => simp [ih.1 hs h2]
    · simp [if_neg h]

theorem entries_spec (R : RtCodec) : ∀ (es : List Elem) (seen : List Name) (rt dry dry0 : RTable), seen = rt.map (·.dest) →
    (∀ xs, loopOf 145 (decRte R) es = some xs →
      let r := xs.foldl (fun (p : RTable × RTable) e =>
        if p.1.any (fun x => x.dest == e.dest) then (p.1, p.2 ++ [e]) else (p.1 ++ [e], p.2)) (rt, dry)
      entries R es seen (rt, dry0 ++ dry) = ((r.1, dry0 ++ r.2), true)) ∧
    (loopOf 145 (decRte R) es = none → (entries R es seen (rt, dry0 ++ dry)).2 = false)
  | [], seen, rt, dry, dry0, _ => by simp [loopOf, entries]
  | e :: es, seen, rt, dry, dry0, hs => by
    unfold loopOf entries
    by_cases h : e.1 = 145
    · simp only [if_pos h]
      cases h1 : decRte R e.2 with
      | none => simp
      | some x =>
        dsimp only
        have hmem : (x.dest ∈ seen) ↔ rt.any (fun y => y.dest == x.dest) = true := by
          rw [hs, List.mem_map, List.any_eq_true]
          simp
        by_cases hx : x.dest ∈ seen
        · rw [if_pos hx]
          have ih := entries_spec R es seen rt (dry ++ [x]) dry0 hs
          rw [← List.append_assoc] at ih
          cases h2 : loopOf 145 (decRte R) es with
          | none => exact ⟨fun _ hc => (nomatch hc), fun _ => ih.2 h2⟩
          | some xs =>
            refine ⟨?_, fun hc => (nomatch hc)⟩
            intro ys hy
            injection hy with hy
            subst hy
            have := ih.1 xs h2
            rw [List.foldl_cons]
            dsimp only
            rw [if_pos (hmem.1 hx)]
            exact this
        · rw [if_neg hx]
          have ih := entries_spec R es (seen ++ [x.dest]) (rt ++ [x]) dry dry0 (by rw [hs, List.map_append]; rfl)
          cases h2 : loopOf 145 (decRte R) es with
          | none => exact ⟨fun _ hc => (nomatch hc), fun _ => ih.2 h2⟩
          | some xs =>
            refine ⟨?_, fun hc => (nomatch hc)⟩
            intro ys hy
            injection hy with hy
            subst hy
            have := ih.1 xs h2
            rw [List.foldl_cons]
            dsimp only
            rw [if_neg (fun hc => hx (hmem.2 hc))]
            exact this
    · simp [if_neg h]

/-- **C119** for an entry and the tables, as far as it holds: an entry becomes what the constructor makes of the block; so
does a `RoutingTableStatus` whose dry-run table is empty.  In general the new dry-run entries come behind the old ones
(`C119_violated_dry`). -/
theorem C119_tables_partial (R : RtCodec) (b : Bytes) :
    (∀ s, (∀ v, decRteBlock R b = some v → entry R s b = (⟨v, some b⟩, true)) ∧ (decRteBlock R b = none → (entry R s b).2 = false)) ∧
    (∀ s, (∀ rt dry, decRt R b = some (rt, dry) → tables R s b = (⟨(rt, s.val.2 ++ dry), some b⟩, true)) ∧
      (decRt R b = none → (tables R s b).2 = false)) := by
  refine ⟨fun s => ?_, fun s => ?_⟩
  · unfold decRteBlock entry decRte
    cases h1 : top 145 b with
    | none => simp
    | some v =>
      cases h2 : parse v with
      | none => simp [h2]
      | some es =>
        cases h3 : expect 7 es with
        | none => simp [h2, h3]
        | some p =>
          obtain ⟨nv, es⟩ := p
          cases h4 : decName nv with
          | none => simp [h2, h3, h4]
          | some n =>
            have hh := hops_spec R es []
            cases h5 : loopOf 143 (decHop R) es with
            | none => simp [h2, h3, h4, h5, hh.2 h5]
            | some hs => simp [h2, h3, h4, h5, hh.1 hs h5]
  · unfold decRt tables
    cases h1 : top 144 b with
    | none => simp
    | some v =>
      cases h2 : parse v with
      | none => simp [h2]
      | some es =>
        have hh := entries_spec R es [] [] [] s.val.2 rfl
        rw [List.append_nil] at hh
        cases h5 : loopOf 145 (decRte R) es with
        | none => simp [h2, h5, hh.2 h5]
        | some xs =>
          have hx := hh.1 xs h5
          simp only [h2, h5, Option.bind_some, Option.bind_eq_bind]
          refine ⟨?_, fun hc => (nomatch hc)⟩
          intro rt dry hd
          injection hd with hd
          unfold splitTables at hd
          rw [hx, hd]

/-- **C119** when the block is refused, as far as it holds: the lists of an LSA (neighbours, names, angles) are those it had.
The rest is not (`C119_violated_refused`): the refused block is what the object is encoded to from then on. -/
theorem C119_refused_partial (C : Codec) (b : Bytes) :
    (∀ s, decAdjLsa C b = none → (adjLsa C s b).1.val.adjs = s.val.adjs ∧ ((adjLsa C s b).1.encode (encAdjLsa C)).1 = b) ∧
    (∀ s, decNameLsa C b = none → (nameLsa C s b).1.val.names = s.val.names ∧ ((nameLsa C s b).1.encode (encNameLsa C)).1 = b) ∧
    (∀ s, decCoordLsa C b = none → (coordLsa C s b).1.val.angles = s.val.angles ∧ ((coordLsa C s b).1.encode (encCoordLsa C)).1 = b) := by
  have hl := C119_lsas C b
  have enc : ∀ {α : Type} (e : α → Bytes) (s : Cached α), s.wire = some b → (s.encode e).1 = b := by
    intro α e s h
    unfold Cached.encode
    rw [h]
  have keep : ∀ {α : Type} {β : Type} (t : Nat) (get : α → WBase) (set : α → WBase → α) (f : α → β) (s : Cached α),
      (∀ l x, f (set l x) = f l) → f (lsaHead C t get set s b).1.val = f s.val := by
    intro α β t get set f s hf
    unfold lsaHead
    dsimp only
    split
    · rfl
    · exact hf _ _
  refine ⟨fun s h => ?_, fun s h => ?_, fun s h => ?_⟩
  · have hw := (head_spec C 131 (·.base) (fun (l : WAdjLsa) x => { l with base := x }) s b).1
    have hk := keep 131 (·.base) (fun (l : WAdjLsa) x => { l with base := x }) (·.adjs) s (fun _ _ => rfl)
    have hf := (hl.1 s).2 h
    unfold adjLsa at hf ⊢
    dsimp only at hf ⊢
    split at hf
    · exact ⟨hk, enc _ _ hw⟩
    · exact absurd hf nofun
  · have hw := (head_spec C 137 (·.base) (fun (l : WNameLsa) x => { l with base := x }) s b).1
    have hk := keep 137 (·.base) (fun (l : WNameLsa) x => { l with base := x }) (·.names) s (fun _ _ => rfl)
    have hf := (hl.2.1 s).2 h
    unfold nameLsa at hf ⊢
    dsimp only at hf ⊢
    split at hf
    · exact ⟨hk, enc _ _ hw⟩
    · exact absurd hf nofun
  · have hw := (head_spec C 133 (·.base) (fun (l : WCoordLsa) x => { l with base := x }) s b).1
    have hk := keep 133 (·.base) (fun (l : WCoordLsa) x => { l with base := x }) (·.angles) s (fun _ _ => rfl)
    have hf := (hl.2.2 s).2 h
    unfold coordLsa at hf ⊢
    dsimp only at hf ⊢
    split at hf
    · exact ⟨hk, enc _ _ hw⟩
    · split at hf
      · exact ⟨hk, enc _ _ hw⟩
      · exact absurd hf nofun

/-! ### cases -/

namespace IntoWitness
open CacheWitness
def other : WNameLsa := ⟨⟨nm ["r2"], 7, 40⟩, [⟨nm ["b"], 3⟩, ⟨nm ["c"], 4⟩]⟩
def entry2 : RtEntry := ⟨nm ["r3"], [⟨"udp4://2", 3, false⟩]⟩
def table : Cached (RTable × RTable) := ⟨([entry], [entry]), none⟩
end IntoWitness
open CacheWitness IntoWitness

/-- The claims have cases: a name LSA that is encoded and then decoded into, and blocks of the other classes
(refused ones in `C119_violated_refused`). -/
example :
    decNameLsa toyCodec (encNameLsa toyCodec other) = some other ∧
    nameLsa toyCodec ((⟨names, none⟩ : Cached WNameLsa).encode (encNameLsa toyCodec)).2 (encNameLsa toyCodec other) =
      (⟨other, some (encNameLsa toyCodec other)⟩, true) ∧
    decRteBlock toyRt (encRte toyRt entry2) = some entry2 ∧
    (entry toyRt ⟨CacheWitness.entry, some [1]⟩ (encRte toyRt entry2)).1.val = entry2 ∧
    (decRt toyRt (encRt toyRt [entry2] [entry2])) = some ([entry2], [entry2]) ∧
    decAdjBlock toyCodec (encAdj adj) = some adj ∧
    (top 146 (encPrefix ⟨nm ["b"], 3⟩)).bind (decPrefix toyCodec) = some ⟨nm ["b"], 3⟩ ∧ decHopBlock toyRt (encHop toyRt hop) = some hop := by
  decide +kernel

/-- **C119 fails** for the tables: `RoutingTableStatus::wireDecode` empties the routing table and not the dry-run table
(src/route/routing-table.cpp:285), so that an object that is decoded into twice has the dry-run entries of both data sets. -/
theorem C119_violated_dry : ∃ (s : Cached (RTable × RTable)) (b : Bytes) (rt dry : RTable),
    decRt toyRt b = some (rt, dry) ∧ (tables toyRt s b).2 = true ∧ (tables toyRt s b).1.val.1 = rt ∧
    (tables toyRt s b).1.val.2 ≠ dry := by
  refine ⟨table, encRt toyRt [entry2] [entry2], [entry2], [entry2], ?_⟩
  decide +kernel

/-- **C119 fails** for neighbours and next hops: `Adjacent::wireDecode` (src/adjacent.cpp:117-157) leaves status, timeouts
and face id as they are, `NextHop::wireDecode` (src/route/nexthop.cpp:63-99) the hyperbolic flag.  A neighbour that was up
on face 300 is up on face 300 after another neighbour's block has been decoded into it; and a hyperbolic next hop stays one,
so that its cost is compared and printed as a distance. -/
theorem C119_violated_kept :
    (∃ (s : Cached AdjObj) (b : Bytes) (v : WAdj), decAdjBlock toyCodec b = some v ∧ s.val.wire.name ≠ v.name ∧
      (adjacent toyCodec s b).1.val.wire = v ∧ (adjacent toyCodec s b).1.val ≠ { wire := v } ∧
      (adjacent toyCodec s b).1.val.status = .active ∧ (adjacent toyCodec s b).1.val.faceId = 300) ∧
    ∃ (s : Cached NextHop) (b : Bytes) (v : NextHop), decHopBlock toyRt b = some v ∧ (nextHop toyRt s b).1.val ≠ v := by
  refine ⟨⟨⟨⟨⟨nm ["r9"], [], 1⟩, .active, 0, 300⟩, none⟩, encAdj adj, adj, ?_⟩, ⟨{ hop with hyp := true }, none⟩, encHop toyRt hop, hop, ?_⟩ <;>
    decide +kernel

/-- A name LSA whose last element is not a prefix. -/
def IntoWitness.bad : Bytes := block 137 (encBase toyCodec other.base ++ (encPrefix ⟨nm ["b"], 3⟩ ++ encAdj adj))

/-- **C119 fails** when the block is refused: `m_wire` is set before anything is tested (src/lsa/name-lsa.cpp:85, and so in
all classes) and the base class is decoded in place.  After the exception the LSA has the origin and number of the refused
block with the old names, and is encoded to the refused block, which no router accepts. -/
theorem C119_violated_refused : ∃ (s : Cached WNameLsa) (b : Bytes),
    decNameLsa toyCodec (s.encode (encNameLsa toyCodec)).1 = some s.val ∧ (nameLsa toyCodec s b).2 = false ∧
    (nameLsa toyCodec s b).1.val.base ≠ s.val.base ∧ (nameLsa toyCodec s b).1.val.names = s.val.names ∧
    decNameLsa toyCodec ((nameLsa toyCodec s b).1.encode (encNameLsa toyCodec)).1 = none := by
  refine ⟨⟨names, none⟩, IntoWitness.bad, ?_⟩
  decide +kernel

end Nlsr
