import Verif.Props.WireCache
/- C80: cached encodings, the methods of the LSA classes and the small objects (neighbours, next hops, table entries). -/
namespace Nlsr
open Tlv Wire

/-- The method leaves the object as it is, or resets its cache. -/
def Touch.Clean {α : Type} : Touch α → Prop
  | .quiet f => f = id
  | _ => True

theorem touch_good {α : Type} {enc : α → Bytes} {dec : Bytes → Option α} : ∀ (l : List (Touch α)) (s : HeldLsa α),
    s.Good enc dec → (∀ c ∈ l, c.Clean) → (Touch.run enc s l).Good enc dec := by
  intro l
  induction l with
  | nil => exact fun _ h _ => h
  | cons c l ih =>
    intro s h hc
    refine ih _ ?_ (fun x hx => hc x (List.mem_cons_of_mem _ hx))
    have hq := hc c List.mem_cons_self
    cases c with
    | encode => exact h.encode
    | change f => exact ⟨Cached.good_change enc dec _ _, h.2⟩
    | quiet f =>
      have : f = id := hq
      subst this
      exact h

theorem touch_fine {α κ : Type} {enc : α → Bytes} {dec : Bytes → Option α} {touch : κ → Touch α} {s : HeldLsa α} {l : List κ}
    (h : Fresh dec s) (hc : ∀ c ∈ l, (touch c).Clean) :
    ∀ p ∈ (Touch.run enc s (l.map touch)).out, dec (enc p.2) = some p.2 → dec p.1 = some p.2 := by
  intro p hp he
  have g : (Touch.run enc s (l.map touch)).Good enc dec := by
    refine touch_good _ s ⟨h.good _, by rw [h.1]; simp⟩ ?_
    intro c hc'
    obtain ⟨k, hk, rfl⟩ := List.mem_map.1 hc'
    exact hc k hk
  rcases g.2 p hp with e | e
  · rw [e]; exact he
  · exact e

/-- C80, the methods of the LSA classes: after any calls that change an adjacency, name or coordinate LSA by its own
methods (numbers, times, neighbours, names, radius, angles), each block decodes to the LSA as it was then.  Missing:
a name LSA changed through the list it hands out (`C80_violated_name_list`), `CoordinateLsa::update`
(`C80_violated_coordinates`). -/
theorem C80_methods_partial (C : Codec) :
    (∀ (s : HeldLsa WAdjLsa) (l : List AdjLsaCall), Fresh (decAdjLsa C) s →
      ∀ p ∈ (Touch.run (encAdjLsa C) s (l.map AdjLsaCall.touch)).out,
        decAdjLsa C (encAdjLsa C p.2) = some p.2 → decAdjLsa C p.1 = some p.2) ∧
    (∀ (s : HeldLsa WNameLsa) (l : List NameLsaCall), Fresh (decNameLsa C) s → (∀ p, .viaList p ∉ l) →
      ∀ p ∈ (Touch.run (encNameLsa C) s (l.map NameLsaCall.touch)).out,
        decNameLsa C (encNameLsa C p.2) = some p.2 → decNameLsa C p.1 = some p.2) ∧
    (∀ (s : HeldLsa WCoordLsa) (l : List CoordLsaCall), Fresh (decCoordLsa C) s →
      ∀ p ∈ (Touch.run (encCoordLsa C) s (l.map CoordLsaCall.touch)).out,
        decCoordLsa C (encCoordLsa C p.2) = some p.2 → decCoordLsa C p.1 = some p.2) := by
  refine ⟨fun s l h => touch_fine h ?_, fun s l h hv => touch_fine h ?_, fun s l h => touch_fine h ?_⟩
  · intro c _; cases c <;> trivial
  · intro c hc
    cases c with
    | viaList p => exact absurd hc (hv p)
    | _ => trivial
  · intro c _; cases c <;> trivial

/-- C80, a neighbour (`Adjacent`): after any calls without `setLinkCost`, each block decodes to the neighbour as it was
then.  Missing: `setLinkCost` (`C80_violated_link_cost`). -/
theorem C80_neighbour_partial (C : Codec) (s : HeldLsa WAdj) (l : List AdjCall) (h : Fresh (decAdjBlock C) s)
    (hl : ∀ c, .setLinkCost c ∉ l) :
    ∀ p ∈ (Touch.run encAdj s (l.map AdjCall.touch)).out,
      decAdjBlock C (encAdj p.2) = some p.2 → decAdjBlock C p.1 = some p.2 := by
  refine touch_fine h ?_
  intro c hc
  cases c with
  | setLinkCost c => exact absurd hc (hl c)
  | setFaceId => rfl
  | _ => trivial

/-! ### Cases -/

namespace CacheWitness
def adj : WAdj := ⟨nm ["r2"], "udp".toUTF8.toList, 10⟩
def names : WNameLsa := ⟨⟨nm ["r1"], 1, 12⟩, [⟨nm ["a"], 1⟩]⟩
def hop : NextHop := ⟨"udp4://1", 5, false⟩
def entry : RtEntry := ⟨nm ["r2"], [hop]⟩
end CacheWitness
open CacheWitness

/-- C80 fails for a neighbour: encoded, given another link cost, and encoded again, it gives the block with the old cost
(`setLinkCost`, src/adjacent.cpp:66-77, is the only setter of an encoded field that does not reset the cache). -/
theorem C80_violated_link_cost :
    let s := Touch.run encAdj { obj := ⟨adj, none⟩ } ([AdjCall.encode, .setLinkCost 25, .encode, .setName (nm ["r3"]), .encode].map AdjCall.touch)
    s.out.map (fun p => (p.2.cost, (decAdjBlock toyCodec p.1).map (fun a => (a.name, a.cost)))) =
      [(10, some (nm ["r2"], 10)), (25, some (nm ["r2"], 10)), (25, some (nm ["r3"], 25))] := by
  decide +kernel

/-- C80 fails for a next hop: no setter resets its cache (src/route/nexthop.hpp:71-101). -/
theorem C80_violated_next_hop :
    let s := Touch.run (encHop toyRt) { obj := ⟨hop, none⟩ } ([HopCall.encode, .setUri "udp4://2", .setCost 7, .encode].map HopCall.touch)
    s.obj.val = ⟨"udp4://2", 7, false⟩ ∧ s.out.map (fun p => decHopBlock toyRt p.1) = [some hop, some hop] := by
  decide +kernel

/-- C80 fails for a table entry: a next hop put into the list it hands out (src/route/routing-table-entry.hpp:64-68) is
not in the next block. -/
theorem C80_violated_entry :
    let s := Touch.run (encRte toyRt) { obj := ⟨entry, none⟩ } ([RteCall.encode, .addNextHop ⟨"udp4://2", 3, false⟩, .encode].map RteCall.touch)
    s.obj.val.hops.length = 2 ∧ s.out.map (fun p => decRteBlock toyRt p.1) = [some entry, some entry] := by
  decide +kernel

/-- C80 fails for a name LSA whose list of names is changed through `getNpl()` (src/lsa/name-lsa.hpp:66-70): the next
block does not have the name. -/
theorem C80_violated_name_list :
    let s := Touch.run (encNameLsa toyCodec) { obj := ⟨names, none⟩ } ([NameLsaCall.encode, .viaList ⟨nm ["b"], 2⟩, .encode].map NameLsaCall.touch)
    s.obj.val.names.length = 2 ∧ s.out.map (fun p => decNameLsa toyCodec p.1) = [some names, some names] := by
  decide +kernel

example :
    Fresh (decAdjBlock toyCodec) ({ obj := ⟨adj, none⟩ } : HeldLsa WAdj) ∧
    (Touch.run encAdj { obj := ⟨adj, none⟩ } ([AdjCall.encode, .setFaceUri "uds".toUTF8.toList, .setFaceId, .encode, .setStatus, .encode].map AdjCall.touch)).out.map
      (fun p => decAdjBlock toyCodec p.1) =
      [some adj, some { adj with uri := "uds".toUTF8.toList }, some { adj with uri := "uds".toUTF8.toList }] :=
  ⟨⟨rfl, Or.inl rfl⟩, by decide +kernel⟩

example :
    (Touch.run (encNameLsa toyCodec) { obj := ⟨names, none⟩ }
      ([NameLsaCall.encode, .addName ⟨nm ["b"], 2⟩, .encode, .removeName (nm ["a"]), .setSeq 7, .encode].map NameLsaCall.touch)).out.map
      (fun p => decNameLsa toyCodec p.1) =
      [some names, some ⟨⟨nm ["r1"], 1, 12⟩, [⟨nm ["a"], 1⟩, ⟨nm ["b"], 2⟩]⟩, some ⟨⟨nm ["r1"], 7, 12⟩, [⟨nm ["b"], 2⟩]⟩] ∧
    (Touch.run (encAdjLsa toyCodec) { obj := ⟨⟨⟨nm ["r1"], 1, 12⟩, [adj]⟩, none⟩ }
      ([AdjLsaCall.encode, .resetAdl, .encode, .addAdjacent adj, .setExp 30, .encode].map AdjLsaCall.touch)).out.map
      (fun p => decAdjLsa toyCodec p.1) =
      [some ⟨⟨nm ["r1"], 1, 12⟩, [adj]⟩, some ⟨⟨nm ["r1"], 1, 12⟩, []⟩, some ⟨⟨nm ["r1"], 1, 30⟩, [adj]⟩] ∧
    (Touch.run (encCoordLsa toyCodec) { obj := ⟨coordLsa, none⟩ }
      ([CoordLsaCall.encode, .setRadius 9, .encode, .setTheta [1, 2], .encode].map CoordLsaCall.touch)).out.map
      (fun p => decCoordLsa toyCodec p.1) =
      [some coordLsa, some { coordLsa with radius := 9 }, some { coordLsa with radius := 9, angles := [1, 2] }] := by
  decide +kernel

end Nlsr
