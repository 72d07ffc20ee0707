import Verif.Lemmas.RouterInv
import Verif.Props.Npt
/-
C82: the FIB of a router as a whole, in every state its parts reach together.
-/
namespace Nlsr
open Npt (lastCmd Tells updCmd adjusted)
open Fib (hopsToAdd)

/-! ### vocabulary -/

/-- A router that advertises `p` (in a stored Name LSA) can be reached over face `u` at cost `k`, by the routing table. -/
def Reaches (own : Name) (s : Router) (p : Name) (u : Uri) (k : Rat) : Prop :=
  ∃ r, r ≠ own ∧ (∃ x, Announces s.core.lsdb r p x) ∧ ∃ e ∈ s.core.rt.table, e.dest = r ∧ ∃ h ∈ e.hops, h.uri = u ∧ h.cost = k

/-- `F` are the faces an FIB entry should have: some of the faces by which `p` can be reached, none twice,
no cheaper one left out, none left out at all unless the limit (0: no limit) is reached. -/
structure BestFaces (own : Name) (s : Router) (p : Name) (most : Nat) (F : List Uri) : Prop where
  nodup : F.Nodup
  real : ∀ u ∈ F, ∃ k, Reaches own s p u k
  limit : most ≠ 0 → F.length ≤ most
  full : ∀ v k, Reaches own s p v k → v ∉ F → most ≠ 0 ∧ F.length = most
  cheap : ∀ u ∈ F, ∀ v k, Reaches own s p v k → v ∉ F → ∃ j, Reaches own s p u j ∧ j ≤ k

/-! ### proofs -/

theorem adjusted_offers {q : Rat} {l l' : NexthopList} (h : adjusted (.fin q) l = some l') :
    l' = offerAll (l.map (fun h => ⟨h.uri, h.cost + q, false⟩)) := by
  simp only [adjusted] at h
  split at h
  · injection h with h
    rw [← h]; unfold offerAll; rw [List.foldl_map]
  · cases h

theorem offers_sorted (offers : List NextHop) (k : Nat) :
    (∀ a ∈ (offerAll offers).take k, ∀ b ∈ (offerAll offers).drop k, a.adj ≤ b.adj) ∧ ((offerAll offers).map NextHop.uri).Nodup := by
  have h := C02_cheapest_first (offers.map .add) k
  have e : (offers.map NhOp.add).foldl nhStep [] = offerAll offers := by
    rw [List.foldl_map]; rfl
  dsimp only at h
  rw [e] at h
  exact h.2

theorem whole_adj {h : NextHop} {n : Int} {q : Rat} (hh : h.hyp = false) (hc : h.cost = (n : Rat) + q) : h.adj = n + q.floor := by
  unfold NextHop.adj
  rw [hh, hc, if_neg (by simp), Rat.add_comm, Rat.floor_add_intCast, Int.add_comm]

theorem lastCmd_mem {out : List FibCmd} {p : Name} {c : FibCmd} (h : lastCmd out p = some c) : c ∈ out := by
  unfold lastCmd at h
  exact (List.mem_filter.1 (List.mem_of_getLast? h)).1

theorem lists_announces {c : CConf} {s : Core} (h : Core.Reachable c s) {p : Name} (hp : p ≠ c.router)
    (hpo : ∀ o ∈ s.lsdb.db, o.lsa.origin ≠ p) (r : Name) :
    Lists s.npt p r ↔ r ≠ c.router ∧ ∃ x, Announces s.lsdb r p x := by
  constructor
  · intro hl
    have hr := (C16_not_own h p r hl).1
    have hne : p ≠ r := by
      rintro rfl
      obtain ⟨o, ho, hoo⟩ := C16_own_prefix_partial h p hl
      exact hpo o ho hoo
    exact ⟨hr, (C16_advertisers h p r hr hp hne).1 hl⟩
  · rintro ⟨hr, x, hx⟩
    have hne : p ≠ r := by
      rintro rfl
      obtain ⟨o, ho, hoo, -⟩ := hx
      exact hpo o ho hoo
    exact (C16_advertisers h p r hr hp hne).2 ⟨x, hx⟩

theorem reaches_iff {c : RConf} {s : Router} (h : Core.Reachable c.core s.core) {p : Name} (hp : p ≠ c.lsdb.router)
    (hpo : ∀ o ∈ s.core.lsdb.db, o.lsa.origin ≠ p) (u : Uri) (k : Rat) :
    Reaches c.lsdb.router s p u k ↔ ∃ x, Offered s.core p x ∧ x.uri = u ∧ x.cost = k := by
  constructor
  · rintro ⟨r, hr, hx, e, he, hd, y, hy, h1, h2⟩
    exact ⟨y, ⟨r, (lists_announces h hp hpo r).2 ⟨hr, hx⟩, e, he, hd, hy⟩, h1, h2⟩
  · rintro ⟨y, ⟨r, hl, e, he, hd, hy⟩, h1, h2⟩
    obtain ⟨hr, hx⟩ := (lists_announces h hp hpo r).1 hl
    exact ⟨r, hr, hx, e, he, hd, y, hy, h1, h2⟩

theorem best_empty {own : Name} {s : Router} {p : Name} {most : Nat} {F : List Uri} (hF : F = [])
    (h : ∀ u k, ¬ Reaches own s p u k) : BestFaces own s p most F := by
  subst hF
  exact ⟨List.nodup_nil, fun u hu => (by cases hu), fun _ => Nat.zero_le _, fun v k hr => absurd hr (h v k),
    fun u hu => (by cases hu)⟩

/-! ### C82 -/

/-- Link-state routing: whenever the router is idle, the FIB entry of a prefix has the cheapest faces by which
the routing table reaches the routers advertising it, as many as allowed, and no other; nothing if there are
none.  The prefix is not a router's name here, and no cost has been out of range. -/
theorem C82_best_faces_partial {c : RConf} {s : Router} (h : Router.Reachable c s) (hh : c.lsdb.hyp ≠ .on) (hu : s.undef = false)
    (p : Name) (hp : p ≠ c.lsdb.router) (hpn : ∀ a ∈ s.nbr.adjs, a.name ≠ p) (hpo : ∀ o ∈ s.core.lsdb.db, o.lsa.origin ≠ p) :
    BestFaces c.lsdb.router s p c.maxFaces (s.fib.faces p) := by
  have hb := h.all.base
  have hr := reaches_iff hb.core hp hpo
  have hnb : s.fib.adjs.isNeighbor p = false := by
    rw [AdjacencyList.isNeighbor_congr (AdjacencyList.map_names_of_place hb.place)]
    unfold AdjacencyList.isNeighbor AdjacencyList.find
    rw [Option.isSome_eq_false_iff, Option.isNone_iff_eq_none, List.find?_eq_none]
    intro a ha; simpa using hpn a ha
  obtain ⟨hbad, hsh⟩ := hb.shown hu
  have hsh := hsh p hnb
  rw [← recorded_eq hb.fib.inv] at hsh
  change (s.fib.faces p).Perm _ at hsh
  have heard := hb.core.follows.fresh.heard
  by_cases hex : ∃ e ∈ s.core.npt.table, e.name = p
  · obtain ⟨e, he, rfl⟩ := hex
    obtain ⟨k1, k2, k3⟩ := C17_link_state_partial hb.core hh e he
    have hw := hb.core.whole hh
    obtain ⟨cmd, v, hl, ht⟩ := heard.entry e he
    rw [hl] at hsh
    have hnil : e.nhl = [] → ∀ u k, ¬ Reaches c.lsdb.router s e.name u k := by
      intro hn u k hrk
      obtain ⟨o, ho, -⟩ := (hr u k).1 hrk
      obtain ⟨x, hx, -⟩ := k2 o ho
      rw [hn] at hx; cases hx
    rcases ht with ⟨hn, rfl⟩ | rfl
    · exact best_empty hsh.eq_nil (hnil hn)
    · unfold updCmd at hsh hl
      by_cases hn : e.nhl = []
      · rw [hn, if_pos (by rfl)] at hsh
        have h0 : Router.want c.fib (some (FibCmd.update e.name [] e.flags)) = [] := by
          show (hopsToAdd c.fib []).map _ = []
          have := Fib.hopsToAdd_perm c.fib (l := []) List.nodup_nil
          unfold Fib.wanted at this
          rw [show hopsToAdd c.fib [] = [] from List.Perm.eq_nil (by split at this <;> simpa using this)]
          rfl
        rw [h0] at hsh
        exact best_empty hsh.eq_nil (hnil hn)
      · have hne : e.nhl.isEmpty = false := by rw [List.isEmpty_eq_false_iff]; exact hn
        rw [hne] at hsh hl
        simp only [Bool.false_eq_true, if_false] at hsh hl
        cases ha : adjusted v e.nhl with
        | none =>
          rw [ha] at hl
          exact absurd (lastCmd_mem hl) (hbad e.name)
        | some l' =>
          rw [ha] at hsh
          cases v with
          | fin q =>
            have hl' := adjusted_offers ha
            have hm := adjusted_mem k3 ha
            have hs := offers_sorted (e.nhl.map (fun h => ⟨h.uri, h.cost + q, false⟩)) c.maxFaces
            rw [← hl'] at hs
            have hhyp : ∀ x ∈ l', x.hyp = false := by
              intro x hx
              rw [hl'] at hx
              obtain ⟨b, -, rfl⟩ := List.mem_map.1 ((C01_cheapest_per_face _).1 x hx).1
              rfl
            have hF : (s.fib.faces e.name).Perm ((Fib.wanted c.fib l').map (·.uri)) :=
              hsh.trans ((Fib.hopsToAdd_perm c.fib hs.2).map _)
            have sub : ∀ x ∈ Fib.wanted c.fib l', x ∈ l' := by
              intro x hx
              unfold Fib.wanted at hx
              split at hx
              · exact hx
              · exact List.mem_of_mem_take hx
            have back : ∀ x ∈ l', ∃ b ∈ e.nhl, b.uri = x.uri ∧ x.cost = b.cost + q := fun x hx => (hm x.uri x.cost).1 ⟨x, hx, rfl, rfl⟩
            have forth : ∀ u k, Reaches c.lsdb.router s e.name u k → ∃ b ∈ e.nhl, b.uri = u ∧ b.cost ≤ k ∧ ∃ x ∈ l', x.uri = u ∧ x.cost = b.cost + q := by
              intro u k hrk
              obtain ⟨o, ho, rfl, rfl⟩ := (hr u k).1 hrk
              obtain ⟨b, hb, hbu⟩ := k2 o ho
              obtain ⟨x, hx, h1, h2⟩ := (hm b.uri (b.cost + q)).2 ⟨b, hb, rfl, rfl⟩
              exact ⟨b, hb, hbu, (k1 b hb).2 o ho hbu.symm, x, hx, h1.trans hbu, h2⟩
            have reach : ∀ b ∈ e.nhl, Reaches c.lsdb.router s e.name b.uri b.cost := fun b hb => (hr _ _).2 ⟨b, (k1 b hb).1, rfl, rfl⟩
            have split' : ∀ x ∈ l', x.uri ∉ s.fib.faces e.name → c.maxFaces ≠ 0 ∧ x ∈ l'.drop c.maxFaces := by
              intro x hx hxF
              have hxw : x ∉ Fib.wanted c.fib l' := fun hc => hxF (hF.mem_iff.2 (List.mem_map_of_mem hc))
              unfold Fib.wanted at hxw
              have hne : c.fib.maxFaces ≠ 0 := by
                intro h0; rw [if_pos h0] at hxw; exact hxw hx
              rw [if_neg hne] at hxw
              refine ⟨hne, ?_⟩
              rw [← List.take_append_drop c.maxFaces l'] at hx
              exact (List.mem_append.1 hx).resolve_left hxw
            refine ⟨?_, ?_, ?_, ?_, ?_⟩
            · exact (hF.nodup_iff).2 (Fib.wanted_nodup c.fib hs.2)
            · intro u hu
              obtain ⟨x, hx, rfl⟩ := List.mem_map.1 (hF.mem_iff.1 hu)
              obtain ⟨b, hb, hbu, -⟩ := back x (sub x hx)
              exact ⟨b.cost, hbu ▸ reach b hb⟩
            · intro hne
              rw [hF.length_eq, List.length_map]
              unfold Fib.wanted
              rw [if_neg (show c.fib.maxFaces ≠ 0 from hne), List.length_take]
              exact Nat.min_le_left _ _
            · intro v k hrk hv
              obtain ⟨b, -, -, -, x, hx, hxu, -⟩ := forth v k hrk
              subst hxu
              obtain ⟨hne, hd⟩ := split' x hx hv
              refine ⟨hne, ?_⟩
              rw [hF.length_eq, List.length_map]
              unfold Fib.wanted
              rw [if_neg (show c.fib.maxFaces ≠ 0 from hne), List.length_take]
              have : l'.drop c.maxFaces ≠ [] := List.ne_nil_of_mem hd
              have : c.maxFaces < l'.length := by
                refine Nat.lt_of_not_le fun hle => this (List.drop_eq_nil_of_le hle)
              exact Nat.min_eq_left (Nat.le_of_lt this)
            · intro u hu v k hrk hv
              obtain ⟨b, hbm, -, hbk, x, hx, hxu, hxc⟩ := forth v k hrk
              subst hxu
              obtain ⟨hne, hd⟩ := split' x hx hv
              obtain ⟨y, hy, rfl⟩ := List.mem_map.1 (hF.mem_iff.1 hu)
              obtain ⟨a, ha', hau, hac⟩ := back y (sub y hy)
              refine ⟨a.cost, hau ▸ reach a ha', Rat.le_trans ?_ hbk⟩
              have hy' : y ∈ l'.take c.maxFaces := by
                unfold Fib.wanted at hy
                rwa [if_neg (show c.fib.maxFaces ≠ 0 from hne)] at hy
              have hle := hs.1 y hy' x hd
              obtain ⟨-, n, hn⟩ := offered_good hb.core hw (k1 a ha').1
              obtain ⟨-, m, hm'⟩ := offered_good hb.core hw (k1 b hbm).1
              rw [whole_adj (hhyp y (sub y hy)) (hn ▸ hac), whole_adj (hhyp x hx) (hm' ▸ hxc)] at hle
              rw [hn, hm']
              exact Rat.intCast_le_intCast.2 (by omega)
          | _ => cases ha
  · have hgone := heard.gone p (fun e he hn => hex ⟨e, he, hn⟩)
    refine best_empty ?_ ?_
    · rcases hgone with h0 | h0
      · rw [h0] at hsh; exact hsh.eq_nil
      · rw [h0] at hsh; exact hsh.eq_nil
    · intro u k hrk
      obtain ⟨o, ⟨r, ⟨e, he, hn, -⟩, -⟩, -⟩ := (hr u k).1 hrk
      exact hex ⟨e, he, hn⟩

/-! ### a router with two neighbours, r2 and r3, and a third router r4 behind them -/

def exRC (h : HypState) (maxFaces : Nat) : RConf :=
  ⟨exConf h, maxFaces, 15, exTrig, 60, nm ["localhop", "nlsr", "sync"], 3, 3600, fun t => t == 7⟩

def exR4 : Name := nm ["net", "site", "r4"]

def exNbrs : AdjacencyList := [{ name := exR2, uri := "udp4://10.0.0.2" }, { name := exR3, uri := "udp4://10.0.0.3" }]

theorem exNbrs_fresh : Nbr.Fresh exNbrs := by
  refine ⟨by decide +kernel, ?_, ?_⟩ <;> decide +kernel

/-- The name of r's answer to a hello. -/
def exAnswer (r : Name) : Name := r ++ [Comp.str "nlsr", Comp.str "INFO", ⟨8, Tlv.encName exR1⟩, Comp.str "v1"]

def exPause : Router.Op := .clock (15 * Lsdb.nsPerSec) 0

/-- The faces of both are found, hellos are exchanged and answered. -/
def exUp : List Router.Op :=
  [.nbr (.fetchOk 0 [("udp4://10.0.0.2", 300), ("udp4://10.0.0.3", 301)]), .regOk 0, .regOk 0, .regOk 0, .regOk 0,
   .nbr (.data 0 (exAnswer exR2)), .nbr (.valid 0), .nbr (.data 0 (exAnswer exR3)), .nbr (.valid 0)]

/-- The LSAs of all routers; r4 is linked to r2 (cost 10) and r3 (cost 10), and advertises /p. -/
def exLearn : List Router.Op := [exPause, .core (.lsdb .buildTimer)] ++
  (exGet "r2" "ADJACENCY" exR2 1 (.adj [exAdj exR1 "udp4://10.0.0.1", exAdj exR4 "udp4://10.0.0.4"]) ++
   exGet "r3" "ADJACENCY" exR3 1 (.adj [exAdj exR1 "udp4://10.0.0.1", exAdj exR4 "udp4://10.0.0.4"]) ++
   exGet "r4" "ADJACENCY" exR4 1 (.adj [exAdj exR2 "udp4://10.0.0.2", exAdj exR3 "udp4://10.0.0.3"]) ++
   exGet "r4" "NAME" exR4 1 (.names [⟨nm ["p"], .fin 5⟩])).map .core ++ [exPause, .core (.calcTimer 0 [])]

def exRouter (h : HypState) (maxFaces : Nat) (ops : List Router.Op) : Router :=
  Router.run (exRC h maxFaces) (Router.init (exRC h maxFaces) none exNbrs [] 0) ops

theorem exRouter_reachable (h : HypState) (maxFaces : Nat) (ops : List Router.Op) :
    Router.Reachable (exRC h maxFaces) (exRouter h maxFaces ops) := ⟨_, _, _, _, ops, exNbrs_fresh, rfl⟩

/-- The claim has cases: two faces. -/
example : (exRouter .off 0 (exUp ++ exLearn)).fib.faces (nm ["p"]) = ["udp4://10.0.0.2", "udp4://10.0.0.3"] ∧
    (exRouter .off 0 (exUp ++ exLearn)).undef = false ∧
    (∀ a ∈ (exRouter .off 0 (exUp ++ exLearn)).nbr.adjs, a.name ≠ nm ["p"]) ∧
    (∀ o ∈ (exRouter .off 0 (exUp ++ exLearn)).core.lsdb.db, o.lsa.origin ≠ nm ["p"]) := by
  decide +kernel

/-- `Reaches` computed. -/
def reachList (own : Name) (s : Router) (p : Name) : List (Uri × Rat) :=
  s.core.lsdb.db.flatMap fun o =>
    match o.lsa.content with
    | .names m =>
      if o.lsa.origin ≠ own ∧ ∃ q ∈ m, q.name = p then
        (s.core.rt.table.filter (fun e => e.dest == o.lsa.origin)).flatMap (fun e => e.hops.map (fun h => (h.uri, h.cost)))
      else []
    | _ => []

theorem reaches_list (own : Name) (s : Router) (p : Name) (u : Uri) (k : Rat) :
    Reaches own s p u k ↔ (u, k) ∈ reachList own s p := by
  unfold reachList Reaches Announces
  rw [List.mem_flatMap]
  constructor
  · rintro ⟨r, hr, ⟨x, o, ho, rfl, m, hm, hx⟩, e, he, hd, y, hy, rfl, rfl⟩
    refine ⟨o, ho, ?_⟩
    rw [hm]
    dsimp only
    rw [if_pos ⟨hr, _, hx, rfl⟩]
    exact List.mem_flatMap.2 ⟨e, List.mem_filter.2 ⟨he, by simpa using hd⟩, List.mem_map.2 ⟨y, hy, rfl⟩⟩
  · rintro ⟨o, ho, h⟩
    split at h
    · rename_i m hm
      split at h
      · rename_i hc
        obtain ⟨hr, ⟨n, x⟩, hq, rfl⟩ := hc
        obtain ⟨e, he, hy⟩ := List.mem_flatMap.1 h
        obtain ⟨y, hy, hyu⟩ := List.mem_map.1 hy
        injection hyu with h1 h2
        exact ⟨o.lsa.origin, hr, ⟨x, o, ho, rfl, m, hm, hq⟩, e, (List.mem_filter.1 he).1,
          by simpa using (List.mem_filter.1 he).2, y, hy, h1, h2⟩
      · cases h
    · cases h

/-- With a limit of 1 and both neighbours advertising /p, one face is left out. -/
example : let s := exRouter .off 1 (exUp ++ exLearn ++
      (exGet "r2" "NAME" exR2 1 (.names [⟨nm ["q"], .fin 5⟩]) ++ exGet "r3" "NAME" exR3 1 (.names [⟨nm ["q"], .fin 5⟩])).map .core)
    s.fib.faces (nm ["q"]) = ["udp4://10.0.0.2"] ∧
    reachList exR1 s (nm ["q"]) = [("udp4://10.0.0.2", 10), ("udp4://10.0.0.3", 10)] := by
  decide +kernel

/-- Coordinates of r2 (radius 1.9), r3 (radius 1.2) and r4 (radius 2). -/
def exLearnHyp : List Router.Op :=
  (exGet "r2" "COORDINATE" exR2 1 (.coord (.fin (19 / 10)) [.fin 1]) ++
   exGet "r3" "COORDINATE" exR3 1 (.coord (.fin (12 / 10)) [.fin 1]) ++
   exGet "r4" "COORDINATE" exR4 1 (.coord (.fin 2) [.fin 1]) ++
   exGet "r4" "NAME" exR4 1 (.names [⟨nm ["p"], .fin 5⟩])).map .core ++ [exPause, .core (.calcTimer 0 [])]

/-- C82 fails in hyperbolic mode: with one face per prefix allowed, the prefix /p is given the face towards r2,
at distance 3.9 (with the stand-in for the distance function used here), and not the face towards r3, at distance
3.2.  `adjustNexthopCosts` (src/route/name-prefix-table.cpp:121-131) makes the hops it hands to the FIB with the
constructor for link-state hops, so they are ordered by cost rounded down (8 and 8) and then by URI. -/
theorem C82_violated_hyperbolic : ∃ c s, Router.Reachable c s ∧ s.undef = false ∧ ∃ p, p ≠ c.lsdb.router ∧
    (∀ a ∈ s.nbr.adjs, a.name ≠ p) ∧ (∀ o ∈ s.core.lsdb.db, o.lsa.origin ≠ p) ∧
    ¬ BestFaces c.lsdb.router s p c.maxFaces (s.fib.faces p) := by
  refine ⟨_, _, exRouter_reachable .on 1 (exUp ++ exLearnHyp), by decide +kernel, nm ["p"], by decide +kernel,
    by decide +kernel, by decide +kernel, fun h => ?_⟩
  have hF : (exRouter .on 1 (exUp ++ exLearnHyp)).fib.faces (nm ["p"]) = ["udp4://10.0.0.2"] := by decide +kernel
  have hR : reachList exR1 (exRouter .on 1 (exUp ++ exLearnHyp)) (nm ["p"]) =
      [("udp4://10.0.0.3", 32 / 10), ("udp4://10.0.0.2", 39 / 10)] := by decide +kernel
  have hv : "udp4://10.0.0.3" ∉ (exRouter .on 1 (exUp ++ exLearnHyp)).fib.faces (nm ["p"]) := by rw [hF]; decide
  obtain ⟨j, hj, hle⟩ := h.cheap "udp4://10.0.0.2" (by rw [hF]; simp) "udp4://10.0.0.3" (32 / 10)
    ((reaches_list _ _ _ _ _).2 (by rw [show (exRC .on 1).lsdb.router = exR1 from rfl, hR]; simp)) hv
  rw [reaches_list, show (exRC .on 1).lsdb.router = exR1 from rfl, hR] at hj
  simp at hj
  subst hj
  exact absurd hle (by decide +kernel)

end Nlsr
