import Verif.Lemmas.PrintAll
import Verif.Lemmas.PrintNum
import Verif.Props.NlsrcMain
/- C110: what `nlsrc` prints tells what the daemon has. -/
namespace Nlsr
namespace Print
open Tlv Wire Nlsrc CacheWitness

/-- C110 for `lsdb`: two data sets look the same exactly if they have LSAs of the same routers and types, with the same
origins, numbers, times, links, coordinates and prefixes, costs to six digits. -/
theorem C110_lsdb {now : Int} {s s' : Shown} (hs : Legible s) (hs' : Legible s') :
    lsdbText now s = lsdbText now s' ↔ ∀ n, SameAt now s s' n := by
  rw [lsdb_unlines, lsdb_unlines, ← lsdbLines_same hs hs']
  exact ⟨fun h => unlines_inj (fun l hl => (lsdbLines_good now hs l hl).1) (fun l hl => (lsdbLines_good now hs' l hl).1) h, fun h => by rw [h]⟩

/-- C110 for `routing`: two pairs of tables look the same exactly if they have the same destinations and next hops, in the
same order, costs to six digits. -/
theorem C110_routing {t t' : RTable × RTable} (h1 : PlainTable t.1) (h2 : PlainTable t.2) (h1' : PlainTable t'.1) (h2' : PlainTable t'.2) :
    tableText t = tableText t' ↔ seenTable t.1 = seenTable t'.1 ∧ seenTable t.2 = seenTable t'.2 := by
  rw [table_unlines, table_unlines, ← tableLines_same h1 h2 h1' h2']
  exact ⟨fun h => unlines_inj (tableLines_good h1 h2) (tableLines_good h1' h2') h, fun h => by rw [h]⟩

/-- Plain tables, if there are any. -/
def PlainRt (o : Option (RTable × RTable)) : Prop := ∀ t, o = some t → PlainTable t.1 ∧ PlainTable t.2

/-- The lines of `printRT`. -/
def rtLines (s : Shown) : List Line :=
  match s.rt with
  | none => [(.notYet, [])]
  | some t => tableLines t

theorem rt_unlines (s : Shown) : rtText s = unlines (rtLines s) := by
  unfold rtText rtString rtLines
  cases hr : s.rt with
  | none =>
    rw [if_neg (by simp)]
    dsimp only
    rw [unlines_cons, unlines_nil]
    rfl
  | some t =>
    have : tableText t ≠ [] := by
      rw [table_unlines]
      unfold tableLines
      rw [unlines_cons]
      intro h
      have := congrArg List.length h
      simp at this
    rw [if_pos (show (Option.map tableText (some t)).getD [] ≠ [] from this)]
    exact table_unlines t

theorem rtLines_good {s : Shown} (h : PlainRt s.rt) : ∀ l ∈ rtLines s, Good l := by
  unfold rtLines
  cases hr : s.rt with
  | none =>
    intro l hl
    obtain rfl := List.mem_singleton.1 hl
    exact ⟨fun _ => rfl, List.not_mem_nil⟩
  | some t => exact tableLines_good (h t hr).1 (h t hr).2

theorem rtLines_head (s : Shown) : ∀ l, (rtLines s).head? = some l → isTable l := by
  intro l hl
  unfold rtLines at hl
  split at hl
  · injection hl with hl; rw [← hl]; exact Or.inr rfl
  · injection hl with hl; rw [← hl]; exact Or.inl rfl

/-- The same can be seen of the tables. -/
def SameRt (s s' : Shown) : Prop :=
  s.rt.map (fun t => (seenTable t.1, seenTable t.2)) = s'.rt.map (fun t => (seenTable t.1, seenTable t.2))

theorem rtLines_same {s s' : Shown} (h : PlainRt s.rt) (h' : PlainRt s'.rt) : rtLines s = rtLines s' ↔ SameRt s s' := by
  unfold rtLines SameRt
  cases hr : s.rt with
  | none =>
    cases hr' : s'.rt with
    | none => exact ⟨fun _ => rfl, fun _ => rfl⟩
    | some t =>
      constructor
      · intro e
        exact absurd (Prod.mk.inj (List.cons.inj e).1).1 (by decide)
      · intro e; cases e
  | some t =>
    cases hr' : s'.rt with
    | none =>
      constructor
      · intro e
        exact absurd (Prod.mk.inj (List.cons.inj e).1).1 (by decide)
      · intro e; cases e
    | some t' =>
      dsimp only
      rw [tableLines_same (h t hr).1 (h t hr).2 (h' t' hr').1 (h' t' hr').2]
      simp only [Option.map_some, Option.some.injEq, Prod.mk.injEq]

/-- C110 for `status`: both parts can be told apart. -/
theorem C110_status {now : Int} {s s' : Shown} (hs : Legible s) (hs' : Legible s') (ht : PlainRt s.rt) (ht' : PlainRt s'.rt) :
    screen now "status".toList s = screen now "status".toList s' ↔ (∀ n, SameAt now s s' n) ∧ SameRt s s' := by
  have e : ∀ s : Shown, Legible s → PlainRt s.rt → screen now "status".toList s = unlines ((.status, []) :: (lsdbLines now s ++ rtLines s)) := by
    intro s _ _
    unfold screen
    rw [if_neg (by decide), if_neg (by decide), lsdb_unlines, rt_unlines, unlines_cons, unlines_append]
    simp only [render, nl, List.append_assoc, List.cons_append, List.nil_append]
    rfl
  rw [e s hs ht, e s' hs' ht', ← lsdbLines_same hs hs', ← rtLines_same ht ht']
  have g : ∀ s : Shown, Legible s → PlainRt s.rt → ∀ l ∈ (Kind.status, []) :: (lsdbLines now s ++ rtLines s), Good l := by
    intro s hs ht l hl
    rcases List.mem_cons.1 hl with rfl | hl
    · exact ⟨fun _ => rfl, List.not_mem_nil⟩
    · rcases List.mem_append.1 hl with hl | hl
      · exact (lsdbLines_good now hs l hl).1
      · exact rtLines_good ht l hl
  constructor
  · intro h
    exact split_at (P := isTable) (fun l hl => (lsdbLines_good now hs l hl).2) (fun l hl => (lsdbLines_good now hs' l hl).2)
      (rtLines_head s) (rtLines_head s') (List.cons.inj (unlines_inj (g s hs ht) (g s' hs' ht') h)).2
  · rintro ⟨h1, h2⟩
    rw [h1, h2]

/-- What a daemon publishes can be read when it is printed. -/
structure Published.Legible (d : Published) : Prop where
  adj : ∀ p ∈ d.adj, AdjOk p.2
  cor : ∀ p ∈ d.cor, CorOk p.2
  name : ∀ p ∈ d.name, NameOk p.2
  rt : PlainTable d.tables.1
  dry : PlainTable d.tables.2

theorem recorded_map {α : Type} {f : α → Name} {l : List (Bytes × α)} {p : Bytes × α} (hn : (l.map (fun q => f q.2)).Nodup) (hp : p ∈ l) :
    recorded (l.map (fun q => (f q.2, q.2))) (f p.2) = some p.2 := by
  unfold recorded
  induction l with
  | nil => cases hp
  | cons q l ih =>
    rw [List.map_cons, List.nodup_cons] at hn
    rw [List.map_cons, List.find?_cons]
    rcases List.mem_cons.1 hp with rfl | hp
    · rw [decide_eq_true rfl]
      rfl
    · rw [decide_eq_false (show ¬ (f q.2 = f p.2) from fun e => hn.1 (by rw [e]; exact List.mem_map.2 ⟨p, hp, rfl⟩))]
      exact ih hn.2 hp

theorem recorded_map_mem {α : Type} {f : α → Name} {l : List (Bytes × α)} {n : Name} {x : α}
    (h : recorded (l.map (fun q => (f q.2, q.2))) n = some x) : ∃ b, (b, x) ∈ l := by
  have := recorded_mem h
  obtain ⟨q, hq, e⟩ := List.mem_map.1 this
  refine ⟨q.1, ?_⟩
  rw [← (Prod.mk.inj e).2]
  exact hq

/-- C110: if `nlsrc status` prints the same for two daemons, then every LSA of the one is an LSA of the other, of the same
type, origin, number and time to live, with the same links, coordinates or prefixes, and the tables have the same
destinations and next hops; costs and coordinates to six digits. -/
theorem C110_told (C : Codec) (R : RtCodec) (d d' : Published) (hd : d.Ok C R) (hd' : d'.Ok C R) (hl : Published.Legible d)
    (hl' : Published.Legible d') (router : Name) (verify : Option Text) (pass pass' : Text → Bool) (hp : ∀ f, verify = some f → pass f = true)
    (hp' : ∀ f, verify = some f → pass' f = true) (a : Answer) (p : Text → Bool) (now : Int) :
    ∃ s s', finish C R ⟨router, verify, .status "status".toList⟩ (fun x => Reply.data (d.octets x) pass) a p = (0, some s) ∧
      finish C R ⟨router, verify, .status "status".toList⟩ (fun x => Reply.data (d'.octets x) pass') a p = (0, some s') ∧
      (screen now "status".toList s = screen now "status".toList s' →
        (∀ x ∈ d.adj, ∃ y ∈ d'.adj, seenAdj now x.2 = seenAdj now y.2) ∧
        (∀ x ∈ d.cor, ∃ y ∈ d'.cor, seenCor now x.2 = seenCor now y.2) ∧
        (∀ x ∈ d.name, ∃ y ∈ d'.name, seenName now x.2 = seenName now y.2) ∧
        seenTable d.tables.1 = seenTable d'.tables.1 ∧ seenTable d.tables.2 = seenTable d'.tables.2) := by
  refine ⟨_, _, (C97_shows C R d hd router verify pass hp a p).2.2, (C97_shows C R d' hd' router verify pass' hp' a p).2.2, ?_⟩
  intro h
  have leg : ∀ d : Published, Published.Legible d → Legible ⟨d.adj.map (fun p => (p.2.base.origin, p.2)), d.cor.map (fun p => (p.2.base.origin, p.2)),
      d.name.map (fun p => (p.2.base.origin, p.2)), some d.tables⟩ := by
    intro d hl
    refine ⟨?_, ?_, ?_⟩ <;> intro q hq <;> obtain ⟨r, hr, rfl⟩ := List.mem_map.1 hq
    · exact ⟨(hl.adj r hr).origin, hl.adj r hr⟩
    · exact ⟨hl.cor r hr, hl.cor r hr⟩
    · exact ⟨(hl.name r hr).origin, hl.name r hr⟩
  obtain ⟨h1, h2⟩ := (C110_status (leg d hl) (leg d' hl') (fun t e => by injection e with e; subst e; exact ⟨hl.rt, hl.dry⟩)
    (fun t e => by injection e with e; subst e; exact ⟨hl'.rt, hl'.dry⟩)).1 h
  refine ⟨?_, ?_, ?_, ?_⟩
  · intro x hx
    have e := (h1 x.2.base.origin).1
    dsimp only at e
    rw [recorded_map (f := fun z => z.base.origin) hd.adj1 hx] at e
    obtain ⟨y, hy, e⟩ := Option.map_eq_some_iff.1 e.symm
    obtain ⟨b, hb⟩ := recorded_map_mem (f := fun z : WAdjLsa => z.base.origin) hy
    exact ⟨_, hb, e.symm⟩
  · intro x hx
    have e := (h1 x.2.base.origin).2.1
    dsimp only at e
    rw [recorded_map (f := fun z => z.base.origin) hd.cor1 hx] at e
    obtain ⟨y, hy, e⟩ := Option.map_eq_some_iff.1 e.symm
    obtain ⟨b, hb⟩ := recorded_map_mem (f := fun z : WCoordLsa => z.base.origin) hy
    exact ⟨_, hb, e.symm⟩
  · intro x hx
    have e := (h1 x.2.base.origin).2.2
    dsimp only at e
    rw [recorded_map (f := fun z => z.base.origin) hd.name1 hx] at e
    obtain ⟨y, hy, e⟩ := Option.map_eq_some_iff.1 e.symm
    obtain ⟨b, hb⟩ := recorded_map_mem (f := fun z : WNameLsa => z.base.origin) hy
    exact ⟨_, hb, e.symm⟩
  · unfold SameRt at h2
    simp only [Option.map_some, Option.some.injEq, Prod.mk.injEq] at h2
    exact h2

/-! ### numbers -/

/-- C110: whole costs below a million are printed as they are, so different ones look different. -/
theorem C110_whole {b : UInt64} {n : Nat} (hs : signOf b = false) (hm : magOf b = some (some (n : Rat))) (h : n < 1000000) :
    showDouble b = Uri.dec n ∧ showRat (n : Rat) = Uri.dec n := by
  unfold showDouble showRat
  rw [hs, hm]
  refine ⟨showMag_nat h, ?_⟩
  rw [if_neg (by rw [Rat.not_lt]; exact Rat.natCast_nonneg), showMag_nat h]

theorem mag_small {b : UInt64} {q : Rat} (hm : magOf b = some (some q)) : q = 0 ∨ 1 ≤ q * Num.pow10 400 := by
  have hden : ∀ (k j : Nat), 0 < k → j ≤ 1075 → 1 ≤ (k : Rat) / ((2 ^ j : Nat) : Rat) * Num.pow10 400 := by
    intro k j hk hj
    have h2 : ((2 ^ j : Nat) : Rat) ≤ Num.pow10 400 := by
      rw [show (400 : Int) = ((400 : Nat) : Int) from rfl, pow10_nat, Rat.natCast_le_natCast]
      calc 2 ^ j ≤ 2 ^ 1075 := Nat.pow_le_pow_right (by decide) hj
        _ ≤ 10 ^ 400 := by decide +kernel
    have h3 : (0 : Rat) < ((2 ^ j : Nat) : Rat) := by rw [Rat.natCast_pos]; exact Nat.pow_pos (by decide)
    have h4 : (1 : Rat) ≤ (k : Rat) := by
      have : ((1 : Nat) : Rat) ≤ (k : Rat) := Rat.natCast_le_natCast.2 hk
      exact this
    generalize ((2 ^ j : Nat) : Rat) = x at *
    generalize (k : Rat) = y at *
    generalize Num.pow10 400 = z at *
    refine Rat.le_of_mul_le_mul_right (c := x) ?_ h3
    rw [Rat.one_mul, Rat.mul_assoc, Rat.mul_comm z, ← Rat.mul_assoc, Rat.div_mul_cancel (by grind)]
    have := Rat.mul_le_mul_of_nonneg_right h4 (show 0 ≤ z by grind)
    grind
  unfold magOf at hm
  dsimp only at hm
  split at hm
  · split at hm <;> cases hm
  · split at hm
    · injection hm with hm
      injection hm with hm
      by_cases h0 : b.toNat % 2 ^ 52 = 0
      · left
        rw [← hm, h0]
        decide +kernel
      · right
        rw [← hm]
        exact hden _ 1074 (by omega) (by decide)
    · injection hm with hm
      injection hm with hm
      right
      rw [← hm]
      exact hden _ 1075 (Nat.mul_pos (by omega) (Nat.pow_pos (by decide))) (by decide)

/-- C110: what is printed for a cost or coordinate, read as a number, is off by at most one part in 200000. -/
theorem C110_precise {b : UInt64} {q : Rat} (hs : signOf b = false) (hm : magOf b = some (some q)) (hq : q ≤ Num.pow10 300) :
    ∃ v, Num.parseDouble (showDouble b) = some v ∧ v - q ≤ q / 200000 ∧ q - v ≤ q / 200000 := by
  have e : showDouble b = showMag q := by
    unfold showDouble
    rw [hs, hm]
    rfl
  rw [e]
  unfold showMag
  rcases mag_small hm with rfl | h
  · rw [if_pos rfl]
    exact ⟨0, by decide +kernel, by decide +kernel, by decide +kernel⟩
  · rw [if_neg (by intro h0; rw [h0, Rat.zero_mul] at h; exact absurd h (by decide))]
    obtain ⟨a, b, c, d⟩ := six_ok h
    refine ⟨_, ?_, c, d⟩
    unfold Num.parseDouble
    rw [readDouble_layout a b, if_pos]
    · rfl
    · have hmax : 2 * Num.pow10 300 ≤ Num.dblMax := by decide +kernel
      have hq0 : 0 ≤ q := by
        refine Classical.byContradiction fun hc => ?_
        have := Rat.mul_lt_mul_of_pos_right (Rat.not_le.1 hc) (pow10_pos 400)
        rw [Rat.zero_mul] at this
        generalize Num.pow10 400 = z at *
        grind
      generalize Num.dblMax = m at *
      generalize Num.pow10 300 = t at *
      grind

/-! ### what cannot be told -/

/-- One link of cost `c`. -/
def oneLink (c : UInt64) : WAdjLsa := ⟨⟨nm ["ndn", "r1"], 7, 12⟩, [⟨nm ["r2"], "u://h".toUTF8.toList, c⟩]⟩

theorem oneLink_same {c c' : UInt64} (h : showDouble c = showDouble c') (now : Int) :
    lsdbText now { adj := [(nm ["ndn", "r1"], oneLink c)] } = lsdbText now { adj := [(nm ["ndn", "r1"], oneLink c')] } := by
  have hl : ∀ c, Legible { adj := [(nm ["ndn", "r1"], oneLink c)] } := by
    intro c
    have hr : Readable (nm ["ndn", "r1"]) := by unfold Readable; decide +kernel
    refine ⟨?_, fun _ h => (by cases h), fun _ h => (by cases h)⟩
    intro p hp
    obtain rfl := List.mem_singleton.1 hp
    refine ⟨hr, hr, ?_⟩
    intro x hx
    obtain rfl := List.mem_singleton.1 hx
    exact ⟨show Readable (nm ["r2"]) by unfold Readable; decide +kernel, show PlainUri "u://h".toUTF8.toList by unfold PlainUri; decide +kernel⟩
  refine (C110_lsdb (hl c) (hl c')).2 (fun n => ⟨?_, rfl, rfl⟩)
  unfold recorded
  dsimp only
  by_cases hn : nm ["ndn", "r1"] = n
  · rw [List.find?_cons, List.find?_cons, decide_eq_true hn]
    dsimp only [Option.map]
    unfold seenAdj oneLink
    dsimp only [List.map]
    rw [h]
  · rw [List.find?_cons, List.find?_cons, decide_eq_false hn]

theorem million : showDouble 4696837146684686336 = showDouble 4696837155274620928 := by decide +kernel

/-- C110 fails for costs from a million on: links of cost 1000000 and 1000001 look the same. -/
theorem C110_violated_digits : magOf 4696837146684686336 = some (some 1000000) ∧ magOf 4696837155274620928 = some (some 1000001) ∧
    ∀ now, lsdbText now { adj := [(nm ["ndn", "r1"], oneLink 4696837146684686336)] } =
      lsdbText now { adj := [(nm ["ndn", "r1"], oneLink 4696837155274620928)] } :=
  ⟨by decide +kernel, by decide +kernel, fun now => oneLink_same million now⟩

/-- C110: "Routing Table is not calculated yet" is not printed for any daemon's answer. -/
theorem C110_violated_notYet (C : Codec) (R : RtCodec) (d : Published) (hd : d.Ok C R) (router : Name) (a : Answer) (p : Text → Bool) (now : Int) :
    ∃ s, finish C R ⟨router, none, .status "routing".toList⟩ (fun x => Reply.data (d.octets x) (fun _ => true)) a p = (0, some s) ∧
      screen now "routing".toList s = tableText d.tables ∧ (d.tables = ([], []) → screen now "routing".toList s = "Routing Table:\n".toList) := by
  refine ⟨_, (C97_shows C R d hd router none (fun _ => true) (fun _ _ => rfl) a p).2.1, ?_⟩
  have e : screen now "routing".toList ⟨[], [], [], some d.tables⟩ = tableText d.tables := by
    unfold screen
    rw [if_neg (by decide), if_pos rfl, rt_unlines, table_unlines]
    rfl
  refine ⟨e, fun h => ?_⟩
  rw [e, h]
  decide +kernel

/-- A link whose URI has a path with text in it. -/
def forged : WAdjLsa :=
  ⟨⟨nm ["ndn", "r1"], 7, 12⟩,
   [⟨nm ["a"], "u://h/, cost=1)\n        Adjacent 1: (name=/b, uri=u://k".toUTF8.toList, 4611686018427387904⟩]⟩

/-- Two links. -/
def honest : WAdjLsa :=
  ⟨⟨nm ["ndn", "r1"], 7, 12⟩,
   [⟨nm ["a"], "u://h/".toUTF8.toList, 4607182418800017408⟩, ⟨nm ["b"], "u://k".toUTF8.toList, 4611686018427387904⟩]⟩

/-- C110 fails for URIs with line ends in them, which a router can put into its LSA if the codec lets them pass: one link
is printed as two. -/
theorem C110_violated_forged : decAdjLsa toyCodec (encAdjLsa toyCodec forged) = some forged ∧
    decAdjLsa toyCodec (encAdjLsa toyCodec honest) = some honest ∧ forged.adjs.length = 1 ∧ honest.adjs.length = 2 ∧
    ∀ now, adjText now forged = adjText now honest := by
  refine ⟨by decide +kernel, by decide +kernel, rfl, rfl, fun now => ?_⟩
  have h : adjsText 0 forged.adjs = adjsText 0 honest.adjs := by decide +kernel
  unfold adjText
  rw [h]
  rfl

/-! ### examples -/

/-- The small daemon of C97, legible. -/
example : Published.Legible exPublished where
  adj := by
    intro p hp
    obtain rfl := List.mem_singleton.1 hp
    refine ⟨by unfold Readable; decide +kernel, ?_⟩
    unfold Readable PlainUri
    decide +kernel
  cor := by
    intro p hp
    obtain rfl := List.mem_singleton.1 hp
    unfold CorOk Readable
    decide +kernel
  name := by
    intro p hp
    rcases List.mem_cons.1 hp with rfl | hp
    · exact ⟨by unfold Readable; decide +kernel, by unfold Readable; decide +kernel⟩
    · obtain rfl := List.mem_singleton.1 hp
      exact ⟨by unfold Readable; decide +kernel, by unfold Readable; decide +kernel⟩
  rt := by unfold PlainTable Readable; decide +kernel
  dry := by unfold PlainTable; intro e he; cases he

/-- What it looks like. -/
example : screen 0 "status".toList ⟨[(nm ["ndn", "r1"], oneLink 4607182418800017408)], [], [], some ([⟨nm ["r2"], [⟨"udp4://1", 5/2, false⟩]⟩], [])⟩ =
    ("NLSR Status\nLSDB:\n  OriginRouter: /ndn/r1\n\n    ADJACENCY LSA:\n      Origin Router      : /ndn/r1\n" ++
     "      Sequence Number    : 7\n      Expires in         : 0 milliseconds\n      Adjacent(s):\n" ++
     "        Adjacent 0: (name=/r2, uri=u://h, cost=1)\n\nRouting Table:\n  Destination: /r2\n    NextHop(Uri: udp4://1, Cost: 2.5)\n").toList := by
  decide +kernel

/-- Numbers as they are printed. -/
example : showRat 25 = "25".toList ∧ showRat (1/3) = "0.333333".toList ∧ showRat 1234567 = "1.23457e+06".toList ∧
    showRat (1/100000) = "1e-05".toList ∧ showRat (-3/2) = "-1.5".toList ∧ showRat 0 = "0".toList ∧ showRat (1999999/2) = "1e+06".toList ∧
    showDouble 9218868437227405312 = "inf".toList ∧ showDouble 4607182418800017408 = "1".toList := by
  decide +kernel

/-- A cost that meets the conditions. -/
example : signOf 4627730092099895296 = false ∧ magOf 4627730092099895296 = some (some ((25 : Nat) : Rat)) ∧ (25 : Rat) ≤ Num.pow10 300 := by
  decide +kernel

end Print
end Nlsr
