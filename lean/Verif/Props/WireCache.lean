import Verif.Model.WireCache
import Verif.Model.Nlsrc
import Verif.Lemmas.Wire
import Verif.Props.Tlv
/- C80: cached encodings.  C79: data sets as `nlsrc` gets them. -/
namespace Nlsr
open Tlv Wire

/-! ### C80 -/

/-- The cache is empty or stands for the object as it is. -/
def Cached.Good {α : Type} (enc : α → Bytes) (dec : Bytes → Option α) (s : Cached α) : Prop :=
  ∀ w, s.wire = some w → w = enc s.val ∨ dec w = some s.val

theorem Cached.Good.encode {α : Type} {enc : α → Bytes} {dec : Bytes → Option α} {s : Cached α} (h : s.Good enc dec) :
    ((s.encode enc).1 = enc s.val ∨ dec (s.encode enc).1 = some s.val) ∧ (s.encode enc).2.Good enc dec ∧
      (s.encode enc).2.val = s.val := by
  unfold Cached.encode
  split
  · rename_i w hw
    exact ⟨h w hw, h, rfl⟩
  · refine ⟨Or.inl rfl, ?_, rfl⟩
    intro w hw
    injection hw with hw
    exact Or.inl hw.symm

theorem Cached.good_change {α : Type} (enc : α → Bytes) (dec : Bytes → Option α) (s : Cached α) (f : α → α) :
    (s.change f).Good enc dec := by
  intro w hw
  cases hw

theorem Cached.good_none {α : Type} (enc : α → Bytes) (dec : Bytes → Option α) (s : Cached α) (h : s.wire = none) :
    s.Good enc dec := by
  intro w hw
  rw [h] at hw
  cases hw

/-- A new LSA object, or one made from a block. -/
def Fresh {α : Type} (dec : Bytes → Option α) (s : HeldLsa α) : Prop :=
  s.out = [] ∧ (s.obj.wire = none ∨ ∃ b, Cached.decode dec b = some s.obj)

theorem Fresh.good {α : Type} {dec : Bytes → Option α} {s : HeldLsa α} (h : Fresh dec s) (enc : α → Bytes) : s.obj.Good enc dec := by
  obtain ⟨-, h | ⟨b, hb⟩⟩ := h
  · exact Cached.good_none enc dec _ h
  · unfold Cached.decode at hb
    obtain ⟨v, hv, e⟩ := Option.map_eq_some_iff.1 hb
    intro w hw
    rw [← e] at hw ⊢
    cases hw
    exact Or.inr hv

/-- All blocks made so far stand for what the object was then. -/
def HeldLsa.Good {α : Type} (enc : α → Bytes) (dec : Bytes → Option α) (s : HeldLsa α) : Prop :=
  s.obj.Good enc dec ∧ ∀ p ∈ s.out, p.1 = enc p.2 ∨ dec p.1 = some p.2

theorem HeldLsa.Good.encode {α : Type} {enc : α → Bytes} {dec : Bytes → Option α} {s : HeldLsa α} (h : s.Good enc dec) :
    HeldLsa.Good enc dec { obj := (s.obj.encode enc).2, out := s.out ++ [((s.obj.encode enc).1, s.obj.val)] } := by
  obtain ⟨h1, h2, -⟩ := h.1.encode
  refine ⟨h2, fun p hp => ?_⟩
  rcases List.mem_append.1 hp with hp | hp
  · exact h.2 p hp
  · rw [List.mem_singleton.1 hp]
    exact h1

/-- The methods keep the cache good; `update` only has to from an empty cache. -/
structure Sound {α : Type} (M : LsaMethods α) : Prop where
  seq : ∀ s n, (M.setSeq s n).wire = none
  exp : ∀ s t, (M.setExp s t).wire = none
  upd : ∀ s o, s.wire = none → (M.update s o).wire = none

theorem held_good {α : Type} {M : LsaMethods α} (hM : Sound M) (enc : α → Bytes) (dec : Bytes → Option α) :
    ∀ (l : List (Held α)) (s : HeldLsa α), s.Good enc dec → (s.run M enc l).Good enc dec := by
  intro l
  induction l with
  | nil => exact fun _ h => h
  | cons e l ih =>
    intro s h
    refine ih _ ?_
    cases e with
    | encode => exact h.encode
    | refresh exp => exact ⟨Cached.good_none enc dec _ (hM.exp _ _), h.2⟩
    | later o => exact ⟨Cached.good_none enc dec _ (hM.upd _ _ (hM.exp _ _)), h.2⟩

theorem foldl_change_wire {α β : Type} (f : β → α → α) (l : List β) : ∀ s : Cached α, s.wire = none →
    (l.foldl (fun s x => s.change (f x)) s).wire = none := by
  induction l with
  | nil => exact fun _ h => h
  | cons x l ih => exact fun s _ => ih _ rfl

theorem adj_sound (same) : Sound (adjMethods same) := by
  refine ⟨fun _ _ => rfl, fun _ _ => rfl, fun s o h => ?_⟩
  unfold adjMethods
  dsimp only
  split
  · exact h
  · exact foldl_change_wire (fun a (l : WAdjLsa) => { l with adjs := insertAdj l.adjs a }) _ _ rfl

theorem name_sound : Sound nameMethods := by
  refine ⟨fun _ _ => rfl, fun _ _ => rfl, fun s o h => ?_⟩
  unfold nameMethods
  dsimp only
  exact foldl_change_wire (fun (p : WPrefix) (l : WNameLsa) => { l with names := l.names.filter (fun q => !(q.name == p.name)) }) _ _
    (foldl_change_wire (fun (p : WPrefix) (l : WNameLsa) => { l with names := insertPrefix l.names p }) _ _ h)

theorem coord_sound (same) : Sound (coordMethods same) := by
  refine ⟨fun _ _ => rfl, fun _ _ => rfl, fun s o h => ?_⟩
  unfold coordMethods
  dsimp only
  split
  · exact h
  · exact h

/-- C80, in the LSDB: whatever happens to an LSA that is kept there, made or received, refreshed, or overwritten by later
ones, any block it is encoded to decodes to what it is at that moment (if it can be put on the wire at all, see
`C55_round_trip`), however two LSAs are compared.  Missing: other orders of calls (`C80_violated_coordinates`). -/
theorem C80_lsdb_partial (C : Codec) :
    (∀ same (s : HeldLsa WAdjLsa) (l : List (Held WAdjLsa)), Fresh (decAdjLsa C) s →
      ∀ p ∈ (s.run (adjMethods same) (encAdjLsa C) l).out,
        decAdjLsa C (encAdjLsa C p.2) = some p.2 → decAdjLsa C p.1 = some p.2) ∧
    (∀ (s : HeldLsa WNameLsa) (l : List (Held WNameLsa)), Fresh (decNameLsa C) s →
      ∀ p ∈ (s.run nameMethods (encNameLsa C) l).out,
        decNameLsa C (encNameLsa C p.2) = some p.2 → decNameLsa C p.1 = some p.2) ∧
    (∀ same (s : HeldLsa WCoordLsa) (l : List (Held WCoordLsa)), Fresh (decCoordLsa C) s →
      ∀ p ∈ (s.run (coordMethods same) (encCoordLsa C) l).out,
        decCoordLsa C (encCoordLsa C p.2) = some p.2 → decCoordLsa C p.1 = some p.2) := by
  have fin : ∀ {α : Type} {enc : α → Bytes} {dec : Bytes → Option α} {s : HeldLsa α}, s.Good enc dec →
      ∀ p ∈ s.out, dec (enc p.2) = some p.2 → dec p.1 = some p.2 := by
    intro α enc dec s h p hp he
    rcases h.2 p hp with e | e
    · rw [e]; exact he
    · exact e
  have st : ∀ {α : Type} {enc : α → Bytes} {dec : Bytes → Option α} {s : HeldLsa α}, Fresh dec s → s.Good enc dec :=
    fun h => ⟨h.good _, by rw [h.1]; simp⟩
  exact ⟨fun same s l h => fin (held_good (adj_sound same) _ _ l s (st h)),
    fun s l h => fin (held_good name_sound _ _ l s (st h)),
    fun same s l h => fin (held_good (coord_sound same) _ _ l s (st h))⟩

/-- C80 for adjacency and name LSAs: after any calls in any order. -/
theorem C80_objects (C : Codec) :
    (∀ same (s : HeldLsa WAdjLsa) (l : List (LsaCall WAdjLsa)), Fresh (decAdjLsa C) s →
      ∀ p ∈ (l.foldl (LsaCall.step (adjMethods same) (encAdjLsa C)) s).out,
        decAdjLsa C (encAdjLsa C p.2) = some p.2 → decAdjLsa C p.1 = some p.2) ∧
    (∀ (s : HeldLsa WNameLsa) (l : List (LsaCall WNameLsa)), Fresh (decNameLsa C) s →
      ∀ p ∈ (l.foldl (LsaCall.step nameMethods (encNameLsa C)) s).out,
        decNameLsa C (encNameLsa C p.2) = some p.2 → decNameLsa C p.1 = some p.2) := by
  have go : ∀ {α : Type} {M : LsaMethods α} {enc : α → Bytes} {dec : Bytes → Option α} (_ : Sound M)
      (_ : ∀ s o, s.Good enc dec → (M.update s o).Good enc dec) (l : List (LsaCall α)) (s : HeldLsa α), s.Good enc dec →
      (l.foldl (LsaCall.step M enc) s).Good enc dec := by
    intro α M enc dec hM hu l
    induction l with
    | nil => exact fun _ h => h
    | cons e l ih =>
      intro s h
      refine ih _ ?_
      cases e with
      | encode => exact h.encode
      | setSeq n => exact ⟨Cached.good_none enc dec _ (hM.seq _ _), h.2⟩
      | setExp t => exact ⟨Cached.good_none enc dec _ (hM.exp _ _), h.2⟩
      | update o => exact ⟨hu _ _ h.1, h.2⟩
  have fin : ∀ {α : Type} {enc : α → Bytes} {dec : Bytes → Option α} {s : HeldLsa α}, s.Good enc dec →
      ∀ p ∈ s.out, dec (enc p.2) = some p.2 → dec p.1 = some p.2 := by
    intro α enc dec s h p hp he
    rcases h.2 p hp with e | e
    · rw [e]; exact he
    · exact e
  have st : ∀ {α : Type} {enc : α → Bytes} {dec : Bytes → Option α} {s : HeldLsa α}, Fresh dec s → s.Good enc dec :=
    fun h => ⟨h.good _, by rw [h.1]; simp⟩
  refine ⟨fun same s l h => fin (go (adj_sound same) ?_ l s (st h)), fun s l h => fin (go name_sound ?_ l s (st h))⟩
  · intro s o h
    unfold adjMethods
    dsimp only
    split
    · exact h
    · exact Cached.good_none _ _ _ (foldl_change_wire (fun a (l : WAdjLsa) => { l with adjs := insertAdj l.adjs a }) _ _ rfl)
  · intro s o h
    unfold nameMethods
    dsimp only
    have step : ∀ {β : Type} (f : β → WNameLsa → WNameLsa) (l : List β) (s : Cached WNameLsa), s.Good (encNameLsa C) (decNameLsa C) →
        (l.foldl (fun s x => s.change (f x)) s).Good (encNameLsa C) (decNameLsa C) := by
      intro β f l
      induction l with
      | nil => exact fun _ h => h
      | cons x l ih => exact fun s _ => ih _ (Cached.good_change _ _ _ _)
    exact step (fun (p : WPrefix) (l : WNameLsa) => { l with names := l.names.filter (fun q => !(q.name == p.name)) }) _ _
      (step (fun (p : WPrefix) (l : WNameLsa) => { l with names := insertPrefix l.names p }) _ _ h)

/-- C80, routing table: the data set encodes the tables as they are. -/
theorem C80_routing_table (C : RtCodec) (l : List RtCall) :
    ∀ p ∈ (RtObj.run C { obj := ⟨([], []), none⟩ } l).out, p.1 = encRt C p.2.1 p.2.2 := by
  suffices ∀ (l : List RtCall) (s : RtObj), (∀ w, s.obj.wire = some w → w = encRt C s.obj.val.1 s.obj.val.2) →
      (∀ p ∈ s.out, p.1 = encRt C p.2.1 p.2.2) → ∀ p ∈ (RtObj.run C s l).out, p.1 = encRt C p.2.1 p.2.2 from
    this l _ (by simp) (by simp)
  intro l
  induction l with
  | nil => exact fun s _ h => h
  | cons e l ih =>
    intro s hw ho
    refine ih _ ?_ ?_
    · cases e with
      | encode =>
        unfold RtObj.step Cached.encode
        dsimp only
        split
        · rename_i w hs
          intro w' hw'
          exact hw w' hw'
        · intro w hs
          injection hs with hs
          exact hs.symm
      | add d h => intro w hs; cases hs
      | addDry d h => intro w hs; cases hs
      | clear => intro w hs; cases hs
      | clearDry => intro w hs; cases hs
    · cases e with
      | encode =>
        unfold RtObj.step
        dsimp only
        intro p hp
        rcases List.mem_append.1 hp with hp | hp
        · exact ho p hp
        · rw [List.mem_singleton.1 hp]
          unfold Cached.encode
          split
          · rename_i w hs
            exact hw w hs
          · rfl
      | add d h => exact ho
      | addDry d h => exact ho
      | clear => exact ho
      | clearDry => exact ho

namespace CacheWitness
def coordLsa : WCoordLsa := ⟨⟨nm ["r1"], 1, 12⟩, 5, [7]⟩
def newer : WCoordLsa := ⟨⟨nm ["r1"], 2, 20⟩, 6, [8]⟩
def same (a b : WCoordLsa) : Bool := a.radius == b.radius && a.angles == b.angles
end CacheWitness
open CacheWitness

/-- C80 fails for the object: a coordinate LSA that is encoded, then updated, then encoded again gives the old block. -/
theorem C80_violated_coordinates :
    let s := [LsaCall.encode, .update newer, .encode].foldl (LsaCall.step (coordMethods same) (encCoordLsa toyCodec)) { obj := ⟨coordLsa, none⟩ }
    s.obj.val.radius = 6 ∧ s.out.map (fun p => (decCoordLsa toyCodec p.1).map (·.radius)) = [some 5, some 5] := by
  decide +kernel

example :
    let s := HeldLsa.run (coordMethods same) (encCoordLsa toyCodec) { obj := ⟨coordLsa, none⟩ }
      [.encode, .later newer, .encode, .encode, .refresh 30, .encode]
    Fresh (decCoordLsa toyCodec) ({ obj := ⟨coordLsa, none⟩ } : HeldLsa WCoordLsa) ∧
    s.out.map (fun p => decCoordLsa toyCodec p.1) = [some coordLsa, some newer, some newer, some ⟨⟨nm ["r1"], 3, 30⟩, 6, [8]⟩] := by
  exact ⟨⟨rfl, Or.inl rfl⟩, by decide +kernel⟩

example :
    let s := HeldLsa.run nameMethods (encNameLsa toyCodec) { obj := ⟨⟨⟨nm ["r1"], 1, 12⟩, [⟨nm ["a"], 1⟩, ⟨nm ["b"], 2⟩]⟩, none⟩ }
      [.encode, .later ⟨⟨nm ["r1"], 4, 20⟩, [⟨nm ["b"], 9⟩, ⟨nm ["c"], 3⟩]⟩, .encode]
    s.out.map (fun p => (decNameLsa toyCodec p.1).map (fun l => (l.base.seq, l.names))) =
      [some (1, [⟨nm ["a"], 1⟩, ⟨nm ["b"], 2⟩]), some (4, [⟨nm ["b"], 2⟩, ⟨nm ["c"], 3⟩])] := by decide +kernel

/-! ### C79 -/

theorem decVar_append {b r : Bytes} {n : Nat} (h : decVar b = some (n, r)) (c : Bytes) : decVar (b ++ c) = some (n, r ++ c) := by
  cases b with
  | nil => cases h
  | cons x xs =>
    unfold decVar at h
    show decVar (x :: (xs ++ c)) = _
    unfold decVar
    dsimp only at h ⊢
    split at h
    · rename_i hx
      rw [if_pos hx]
      cases h
      rfl
    · rename_i hx
      rw [if_neg hx]
      split at h
      · cases h
      · rename_i hl
        cases h
        rw [if_neg (by simp; omega), List.take_append_of_le_length (by omega), List.drop_append_of_le_length (by omega)]

theorem decBlock_append {b v r : Bytes} {t : Nat} (h : decBlock b = some (t, v, r)) (c : Bytes) :
    decBlock (b ++ c) = some (t, v, r ++ c) := by
  unfold decBlock at h ⊢
  cases h1 : decVar b with
  | none => rw [h1] at h; cases h
  | some p =>
    obtain ⟨t', r1⟩ := p
    rw [h1] at h
    rw [decVar_append h1]
    dsimp only at h ⊢
    split at h
    · rename_i ht
      rw [if_pos ht]
      cases h2 : decVar r1 with
      | none => rw [h2] at h; cases h
      | some q =>
        obtain ⟨l, r2⟩ := q
        rw [h2] at h
        rw [decVar_append h2]
        dsimp only at h ⊢
        split at h
        · rename_i hl
          cases h
          rw [if_pos (by simp; omega), List.take_append_of_le_length hl, List.drop_append_of_le_length hl]
        · cases h
    · cases h

/-- Blocks one after the other are recorded one after the other. -/
theorem records_concat {α : Type} (dec : Bytes → Option α) (hdec : ∀ b x, dec b = some x → ∃ t v, decBlock b = some (t, v, [])) :
    ∀ (l : List (Bytes × α)), (∀ p ∈ l, dec p.1 = some p.2) → ∀ fuel, l.length < fuel →
      Nlsrc.records dec fuel (l.map (·.1)).flatten = (l.map (·.2), .fine) := by
  intro l
  induction l with
  | nil =>
    intro _ fuel hf
    obtain ⟨f, rfl⟩ : ∃ f, fuel = f + 1 := ⟨fuel - 1, by simp at hf; omega⟩
    rfl
  | cons p l ih =>
    intro h fuel hf
    obtain ⟨f, rfl⟩ : ∃ f, fuel = f + 1 := ⟨fuel - 1, by simp at hf; omega⟩
    have hp := h p List.mem_cons_self
    obtain ⟨t, v, hb⟩ := hdec _ _ hp
    have hcat := decBlock_append hb (l.map (·.1)).flatten
    rw [List.map_cons, List.flatten_cons]
    unfold Nlsrc.records
    have hne : p.1 ++ (l.map (·.1)).flatten ≠ [] := by
      intro e
      rw [e] at hcat
      cases hcat
    rw [if_neg hne, hcat]
    dsimp only
    rw [List.nil_append]
    have ht : (p.1 ++ (l.map (·.1)).flatten).take ((p.1 ++ (l.map (·.1)).flatten).length - (l.map (·.1)).flatten.length) = p.1 := by
      rw [List.length_append, Nat.add_sub_cancel, List.take_left' rfl]
    rw [ht, hp]
    dsimp only
    rw [ih (fun q hq => h q (List.mem_cons_of_mem _ hq)) f (by simp at hf; omega)]
    rfl

theorem record_new {α : Type} : ∀ (m : List (Name × α)) (k : Name) (x : α), k ∉ m.map (·.1) → Nlsrc.record m k x = m ++ [(k, x)]
  | [], _, _, _ => rfl
  | p :: ps, k, x, h => by
    unfold Nlsrc.record
    rw [if_neg (by rintro rfl; exact h List.mem_cons_self), record_new ps k x (fun hk => h (List.mem_cons_of_mem _ hk))]
    rfl

/-- With one LSA for each origin, all are recorded. -/
theorem recordAll_nodup {α : Type} (key : α → Name) (l : List α) (h : (l.map key).Nodup) :
    Nlsrc.recordAll key l = l.map (fun x => (key x, x)) := by
  suffices ∀ (l : List α) (m : List (Name × α)), (l.map key).Nodup → (∀ x ∈ l, key x ∉ m.map (·.1)) →
      l.foldl (fun m x => Nlsrc.record m (key x) x) m = m ++ l.map (fun x => (key x, x)) from by
    rw [Nlsrc.recordAll, this l [] h (by simp), List.nil_append]
  intro l
  induction l with
  | nil => intro m _ _; simp
  | cons x l ih =>
    intro m hn hm
    rw [List.map_cons, List.nodup_cons] at hn
    rw [List.foldl_cons, record_new m _ _ (hm x List.mem_cons_self), ih _ hn.2]
    · simp
    · intro y hy
      rw [List.map_append, List.mem_append]
      rintro (hk | hk)
      · exact hm y (List.mem_cons_of_mem _ hy) hk
      · rw [List.map_singleton, List.mem_singleton] at hk
        exact hn.1 (List.mem_map.2 ⟨y, hy, hk⟩)

theorem top_decBlock {t : Nat} {b v : Bytes} (h : top t b = some v) : decBlock b = some (t, v, []) := by
  unfold top at h
  split at h
  · rename_i t' v' hb
    split at h
    · rename_i ht
      cases h
      rw [hb, ht]
    · cases h
  · cases h

theorem adj_block {C : Codec} {b : Bytes} {l : WAdjLsa} (h : decAdjLsa C b = some l) : ∃ t v, decBlock b = some (t, v, []) := by
  unfold decAdjLsa at h
  cases ht : top 131 b with
  | none => rw [ht] at h; cases h
  | some v => exact ⟨_, _, top_decBlock ht⟩

theorem name_block {C : Codec} {b : Bytes} {l : WNameLsa} (h : decNameLsa C b = some l) : ∃ t v, decBlock b = some (t, v, []) := by
  unfold decNameLsa at h
  cases ht : top 137 b with
  | none => rw [ht] at h; cases h
  | some v => exact ⟨_, _, top_decBlock ht⟩

theorem coord_block {C : Codec} {b : Bytes} {l : WCoordLsa} (h : decCoordLsa C b = some l) : ∃ t v, decBlock b = some (t, v, []) := by
  unfold decCoordLsa at h
  cases ht : top 133 b with
  | none => rw [ht] at h; cases h
  | some v => exact ⟨_, _, top_decBlock ht⟩

/-- C79: what `nlsrc` records of the LSDB's data sets is exactly what is in the LSDB: for LSAs of a type, one for each
origin, each published as a block that decodes to it (`C80_lsdb_partial`), all are recorded under their origins, nothing
else is, and no error is met. -/
theorem C79_lsdb (C : Codec) :
    (∀ l : List (Bytes × WAdjLsa), (∀ p ∈ l, decAdjLsa C p.1 = some p.2) → (l.map (·.2.base.origin)).Nodup → ∀ fuel, l.length < fuel →
      let r := Nlsrc.records (decAdjLsa C) fuel (Nlsrc.dataset (·.1) l)
      r.2 = .fine ∧ Nlsrc.recordAll (·.base.origin) r.1 = l.map (fun p => (p.2.base.origin, p.2))) ∧
    (∀ l : List (Bytes × WNameLsa), (∀ p ∈ l, decNameLsa C p.1 = some p.2) → (l.map (·.2.base.origin)).Nodup → ∀ fuel, l.length < fuel →
      let r := Nlsrc.records (decNameLsa C) fuel (Nlsrc.dataset (·.1) l)
      r.2 = .fine ∧ Nlsrc.recordAll (·.base.origin) r.1 = l.map (fun p => (p.2.base.origin, p.2))) ∧
    (∀ l : List (Bytes × WCoordLsa), (∀ p ∈ l, decCoordLsa C p.1 = some p.2) → (l.map (·.2.base.origin)).Nodup → ∀ fuel, l.length < fuel →
      let r := Nlsrc.records (decCoordLsa C) fuel (Nlsrc.dataset (·.1) l)
      r.2 = .fine ∧ Nlsrc.recordAll (·.base.origin) r.1 = l.map (fun p => (p.2.base.origin, p.2))) := by
  refine ⟨fun l h hn fuel hf => ?_, fun l h hn fuel hf => ?_, fun l h hn fuel hf => ?_⟩
  · intro r
    have e : r = (l.map (·.2), .fine) := records_concat _ (fun _ _ h => adj_block h) l h fuel hf
    rw [e]
    exact ⟨rfl, (recordAll_nodup _ _ (by rw [List.map_map]; exact hn)).trans (by rw [List.map_map]; rfl)⟩
  · intro r
    have e : r = (l.map (·.2), .fine) := records_concat _ (fun _ _ h => name_block h) l h fuel hf
    rw [e]
    exact ⟨rfl, (recordAll_nodup _ _ (by rw [List.map_map]; exact hn)).trans (by rw [List.map_map]; rfl)⟩
  · intro r
    have e : r = (l.map (·.2), .fine) := records_concat _ (fun _ _ h => coord_block h) l h fuel hf
    rw [e]
    exact ⟨rfl, (recordAll_nodup _ _ (by rw [List.map_map]; exact hn)).trans (by rw [List.map_map]; rfl)⟩

example : let l := [coordLsa, ⟨⟨nm ["r2"], 1, 12⟩, 5, [7, 9]⟩]
    let r := Nlsrc.records (decCoordLsa toyCodec) 1000 (Nlsrc.dataset (encCoordLsa toyCodec) l)
    r = (l, .fine) ∧ Nlsrc.recordAll (·.base.origin) r.1 = [(nm ["r1"], coordLsa), (nm ["r2"], ⟨⟨nm ["r2"], 1, 12⟩, 5, [7, 9]⟩)] := by
  decide +kernel

end Nlsr
