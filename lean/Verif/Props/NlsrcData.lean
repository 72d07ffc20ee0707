import Verif.Props.WireCache
/- C79: data sets that nlsrc cannot read to their end, and several LSAs of one origin. -/
namespace Nlsr
open Tlv Wire CacheWitness

theorem records_end {α : Type} (dec : Bytes → Option α) (hdec : ∀ b x, dec b = some x → ∃ t v, decBlock b = some (t, v, []))
    (g : Bytes) (e : Nlsrc.Ended) (hg : ∀ fuel, 0 < fuel → Nlsrc.records dec fuel g = ([], e)) :
    ∀ (l : List (Bytes × α)), (∀ p ∈ l, dec p.1 = some p.2) → ∀ fuel, l.length < fuel →
      Nlsrc.records dec fuel (Nlsrc.dataset (·.1) l ++ g) = (l.map (·.2), e) := by
  intro l
  induction l with
  | nil =>
    intro _ fuel hf
    exact hg fuel hf
  | cons p l ih =>
    intro h fuel hf
    obtain ⟨f, rfl⟩ : ∃ f, fuel = f + 1 := ⟨fuel - 1, by omega⟩
    have hp := h p List.mem_cons_self
    obtain ⟨t, v, hb⟩ := hdec _ _ hp
    have hcat : Nlsrc.dataset (·.1) (p :: l) ++ g = p.1 ++ (Nlsrc.dataset (·.1) l ++ g) := by
      unfold Nlsrc.dataset
      rw [List.map_cons, List.flatten_cons, List.append_assoc]
    rw [hcat]
    have hne : p.1 ++ (Nlsrc.dataset (·.1) l ++ g) ≠ [] := by
      intro h0
      rw [(List.append_eq_nil_iff.1 h0).1] at hb
      cases hb
    unfold Nlsrc.records
    rw [if_neg hne, decBlock_append hb]
    dsimp only
    rw [List.nil_append]
    have ht : (p.1 ++ (Nlsrc.dataset (·.1) l ++ g)).take ((p.1 ++ (Nlsrc.dataset (·.1) l ++ g)).length -
        (Nlsrc.dataset (·.1) l ++ g).length) = p.1 := by
      rw [List.length_append (as := p.1), Nat.add_sub_cancel, List.take_left' rfl]
    rw [ht, hp]
    dsimp only
    rw [ih (fun q hq => h q (List.mem_cons_of_mem _ hq)) f (by simp at hf; omega)]
    rfl

theorem records_cut {α : Type} (dec : Bytes → Option α) (g : Bytes) (hne : g ≠ []) (hg : decBlock g = none) (fuel : Nat)
    (hf : 0 < fuel) : Nlsrc.records dec fuel g = ([], .cut) := by
  obtain ⟨f, rfl⟩ : ∃ f, fuel = f + 1 := ⟨fuel - 1, by omega⟩
  unfold Nlsrc.records
  rw [if_neg hne, hg]

theorem records_threw {α : Type} (dec : Bytes → Option α) (w rest : Bytes) (t : Nat) (v : Bytes)
    (hw : decBlock w = some (t, v, [])) (hx : dec w = none) (fuel : Nat) (hf : 0 < fuel) :
    Nlsrc.records dec fuel (w ++ rest) = ([], .threw) := by
  obtain ⟨f, rfl⟩ : ∃ f, fuel = f + 1 := ⟨fuel - 1, by omega⟩
  unfold Nlsrc.records
  have hne : w ++ rest ≠ [] := by
    intro h0
    rw [(List.append_eq_nil_iff.1 h0).1] at hw
    cases hw
  rw [if_neg hne, decBlock_append hw]
  dsimp only
  rw [List.nil_append, List.length_append, Nat.add_sub_cancel, List.take_left' rfl, hx]

/-- The data sets of the three types of LSA. -/
inductive IsDecoder (C : Codec) : {α : Type} → (Bytes → Option α) → Prop
  | adj : IsDecoder C (decAdjLsa C)
  | name : IsDecoder C (decNameLsa C)
  | coord : IsDecoder C (decCoordLsa C)

theorem IsDecoder.block {C : Codec} {α : Type} {dec : Bytes → Option α} (h : IsDecoder C dec) (b : Bytes) (x : α) (hb : dec b = some x) :
    ∃ t v, decBlock b = some (t, v, []) := by
  cases h with
  | adj => exact adj_block hb
  | name => exact name_block hb
  | coord => exact coord_block hb

/-- C79: data that are no data set.  After any number of LSAs, octets that do not begin with a block end the data set with
an error message; a block that is no LSA of the type ends `nlsrc`.  In both cases all LSAs before it are recorded, and no
other. -/
theorem C79_unreadable (C : Codec) {α : Type} (dec : Bytes → Option α) (hd : IsDecoder C dec) (l : List (Bytes × α))
    (hl : ∀ p ∈ l, dec p.1 = some p.2) (fuel : Nat) (hf : l.length < fuel) :
    (∀ g, g ≠ [] → decBlock g = none →
      Nlsrc.records dec fuel (Nlsrc.dataset (·.1) l ++ g) = (l.map (·.2), .cut)) ∧
    (∀ w t v rest, decBlock w = some (t, v, []) → dec w = none →
      Nlsrc.records dec fuel (Nlsrc.dataset (·.1) l ++ (w ++ rest)) = (l.map (·.2), .threw)) :=
  ⟨fun g h1 h2 => records_end dec hd.block g .cut (fun f hf => records_cut dec g h1 h2 f hf) l hl fuel hf,
   fun w t v rest h1 h2 => records_end dec hd.block (w ++ rest) .threw (fun f hf => records_threw dec w rest t v h1 h2 f hf) l hl fuel hf⟩

example : let b := encCoordLsa toyCodec coordLsa
    Nlsrc.records (decCoordLsa toyCodec) 1000 (b ++ b.take 5) = ([coordLsa], .cut) ∧
    Nlsrc.records (decCoordLsa toyCodec) 1000 (b ++ ([7, 0] ++ b)) = ([coordLsa], .threw) ∧
    decBlock (b.take 5) = none ∧ decBlock [7, 0] = some (7, [], []) ∧ decCoordLsa toyCodec [7, 0] = none := by
  decide +kernel

theorem record_find {α : Type} (m : List (Name × α)) (k n : Name) (x : α) :
    ((Nlsrc.record m k x).find? (fun p => decide (p.1 = n))).map (·.2) =
      if k = n then some x else (m.find? (fun p => decide (p.1 = n))).map (·.2) := by
  induction m with
  | nil =>
    unfold Nlsrc.record
    by_cases h : k = n
    · simp [h]
    · simp [h]
  | cons p ps ih =>
    unfold Nlsrc.record
    by_cases hp : p.1 = k
    · rw [if_pos hp]
      by_cases h : k = n
      · simp [h]
      · rw [if_neg h]
        simp [h, hp]
    · rw [if_neg hp]
      by_cases h : p.1 = n
      · have hk : k ≠ n := by rintro rfl; exact hp h
        rw [if_neg hk]
        simp [h]
      · have e : ∀ l, List.find? (fun q : Name × α => decide (q.1 = n)) (p :: l) = List.find? (fun q => decide (q.1 = n)) l := by
          intro l; simp [h]
        rw [e, e, ih]

/-- C79: of several LSAs of one type and origin, as data sets of several daemons would have, the last one received is
shown. -/
theorem C79_last {α : Type} (key : α → Name) (l : List α) (n : Name) :
    ((Nlsrc.recordAll key l).find? (fun p => decide (p.1 = n))).map (·.2) = l.reverse.find? (fun x => decide (key x = n)) := by
  suffices ∀ (l : List α) (m : List (Name × α)),
      ((l.foldl (fun m x => Nlsrc.record m (key x) x) m).find? (fun p => decide (p.1 = n))).map (·.2) =
        (l.reverse.find? (fun x => decide (key x = n))).or ((m.find? (fun p => decide (p.1 = n))).map (·.2)) from by
    have h := this l []
    rw [Nlsrc.recordAll, h]
    cases List.find? (fun x => decide (key x = n)) l.reverse <;> rfl
  intro l
  induction l with
  | nil => intro m; rfl
  | cons x l ih =>
    intro m
    rw [List.foldl_cons, ih, record_find, List.reverse_cons, List.find?_append]
    cases List.find? (fun x => decide (key x = n)) l.reverse with
    | some y => rfl
    | none =>
      by_cases h : key x = n
      · simp [h]
      · simp [h]

example : let l := [coordLsa, ⟨⟨nm ["r2"], 1, 12⟩, 5, [7, 9]⟩, { coordLsa with angles := [4] }]
    ((Nlsrc.recordAll (·.base.origin) l).find? (fun p => decide (p.1 = nm ["r1"]))).map (·.2.angles) = some [4] := by
  decide +kernel

end Nlsr
