import Verif.Lemmas.LsdbSeq
import Verif.Props.LsdbContent
/- C37: building the own adjacency LSA. -/
namespace Nlsr
open Lsdb

/-- At most one build is pending; the flag consulted by the routing table says whether one is; with
hyperbolic routing on none is; a pending build has a request to serve. -/
theorem C37_pending {c : LConf} {s : Lsdb} (h : Reachable c s) :
    s.buildFlag = s.buildDue.isSome ∧ (c.hyp = .on → s.buildDue = none) ∧
    (s.buildDue.isSome = true → 0 < s.buildCount) :=
  ⟨h.sched.flag, h.sched.on, h.sched.count⟩

/-- Any number of requests in a row leave one build pending, `build` seconds after the last. -/
theorem C37_coalesced (c : LConf) (s : Lsdb) (k : Nat) (hh : c.hyp ≠ .on) :
    (run c s (List.replicate (k + 1) .scheduleBuild)).buildDue = some (s.now + c.build * 1000000000) ∧
    (run c s (List.replicate (k + 1) .scheduleBuild)).log = s.log := by
  have key : ∀ k s, (run c s (List.replicate k .scheduleBuild)).now = s.now ∧
      (run c s (List.replicate k .scheduleBuild)).log = s.log ∧
      (0 < k → (run c s (List.replicate k .scheduleBuild)).buildDue = some (s.now + c.build * 1000000000)) := by
    intro k
    induction k with
    | zero => intro s; exact ⟨rfl, rfl, fun h => absurd h (by omega)⟩
    | succ k ih =>
      intro s
      have e : step c s .scheduleBuild =
          { s with buildCount := s.buildCount + 1, buildFlag := true, buildDue := some (s.now + c.build * 1000000000) } := by
        show scheduleBuild c s = _
        unfold scheduleBuild
        dsimp only
        rw [if_neg hh]
        rfl
      have er : run c s (List.replicate (k + 1) .scheduleBuild) =
          run c (step c s .scheduleBuild) (List.replicate k .scheduleBuild) := rfl
      obtain ⟨h1, h2, h3⟩ := ih (step c s .scheduleBuild)
      rw [er]
      refine ⟨by rw [h1, e], by rw [h2, e], fun _ => ?_⟩
      by_cases hk : 0 < k
      · rw [h3 hk, e]
      · have : k = 0 := by omega
        subst this
        show (step c s .scheduleBuild).buildDue = _
        rw [e]
  exact ⟨(key (k + 1) s).2.2 (by omega), (key (k + 1) s).2.1⟩

theorem lsaList_eq (l : AdjacencyList) (hn : (l.map (·.name)).Nodup) :
    AdjacencyList.lsaList l = l.filter (fun a => decide (a.status = .active)) := by
  unfold AdjacencyList.lsaList
  have key : ∀ (l acc : List Adjacent), ((acc ++ l).map (·.name)).Nodup →
      l.foldl (fun acc a => if a.status = .active then (AdjacencyList.insert acc a).1 else acc) acc =
        acc ++ l.filter (fun a => decide (a.status = .active)) := by
    intro l
    induction l with
    | nil => intro acc _; simp
    | cons a l ih =>
      intro acc hnd
      rw [List.foldl_cons]
      by_cases ha : a.status = .active
      · rw [if_pos ha]
        have hfind : AdjacencyList.find acc a.name = none := by
          unfold AdjacencyList.find
          rw [List.find?_eq_none]
          intro x hx hxa
          rw [List.map_append, List.nodup_append] at hnd
          exact hnd.2.2 x.name (List.mem_map_of_mem hx) a.name (by simp) (by simpa using hxa)
        have : (AdjacencyList.insert acc a).1 = acc ++ [a] := by unfold AdjacencyList.insert; rw [hfind]
        rw [this, ih (acc ++ [a]) (by simpa using hnd)]
        simp [ha]
      · rw [if_neg ha, ih acc ?_]
        · simp [ha]
        · refine List.Nodup.sublist ?_ hnd
          exact List.Sublist.map _ (List.Sublist.append_left (List.sublist_cons_self _ _) _)
  simpa using key l [] (by simpa using hn)

/-- The adjacency LSA handed to the installation, whatever the costs and whatever is stored, lists exactly
the neighbours active at this moment, unchanged and in their configured order. -/
theorem C37_built_lists (c : LConf) (s : Lsdb) (d : Nat) (hd : s.buildDue = some d) (hdue : d ≤ s.now)
    (hb : AdjacencyList.isAdjLsaBuildable s.adjs c.retry = true) (hcount : 0 < s.buildCount)
    (a : Adjacent) (ha : a ∈ s.adjs) (hact : a.status = .active) (hnd : (s.adjs.map (·.name)).Nodup) :
    ∃ s1 s2, step c s .buildTimer = { s2 with buildCount := s2.buildCount - s.buildCount } ∧ s1.db = s.db ∧
      s2 = installLsa c s1 ⟨c.router, inc64 s.seqs.adj, s.expirationPoint c,
        .adj (s.adjs.filter (fun x => decide (x.status = .active)))⟩ := by
  have hnum : 0 < AdjacencyList.numActive s.adjs := by
    unfold AdjacencyList.numActive
    exact List.length_pos_of_mem (List.mem_filter.2 ⟨ha, by simpa using hact⟩)
  rw [← lsaList_eq s.adjs hnd]
  refine ⟨announce { s with buildFlag := false, buildDue := none } .adjacency (decide (c.hyp ≠ .on)),
    buildAdj c { s with buildFlag := false, buildDue := none }, ?_, (announce_frame _ _ _).db, ?_⟩
  · show buildTimer c s = _
    unfold buildTimer
    rw [hd]
    dsimp only
    rw [if_neg (by omega)]
    unfold buildAdjLsa
    dsimp only
    rw [if_pos hb]
    unfold buildOrRemove
    dsimp only
    rw [if_pos hcount, if_pos hnum]
  · unfold buildAdj
    rfl

/-- A build that is due but not yet possible is put off and nothing else happens. -/
theorem C37_put_off (c : LConf) (s : Lsdb) (d : Nat) (hd : s.buildDue = some d) (hdue : d ≤ s.now)
    (hb : AdjacencyList.isAdjLsaBuildable s.adjs c.retry = false) :
    step c s .buildTimer =
      { s with buildFlag := true, buildDue := some (s.now + c.retry * c.resend * 1000000000) } := by
  show buildTimer c s = _
  unfold buildTimer
  rw [hd]
  dsimp only
  rw [if_neg (by omega)]
  unfold buildAdjLsa
  dsimp only
  rw [if_neg (by simp [hb])]
  rfl

/-- A build without active neighbours removes the own adjacency LSA, announces nothing, and leaves
nothing pending. -/
theorem C37_none_active {c : LConf} {s : Lsdb} (h : Reachable c s) (d : Nat) (hd : s.buildDue = some d)
    (hdue : d ≤ s.now) (hb : AdjacencyList.isAdjLsaBuildable s.adjs c.retry = true)
    (hact : ∀ a ∈ s.adjs, a.status ≠ .active) :
    (step c s .buildTimer).buildDue = none ∧
    (∀ o ∈ (step c s .buildTimer).db, ¬ (o.lsa.origin = c.router ∧ o.lsa.type = .adjacency)) ∧
    (∀ o, ¬ (o.lsa.origin = c.router ∧ o.lsa.type = .adjacency) → (o ∈ (step c s .buildTimer).db ↔ o ∈ s.db)) ∧
    (step c s .buildTimer).seqs = s.seqs := by
  have hnum : AdjacencyList.numActive s.adjs = 0 := by
    unfold AdjacencyList.numActive
    rw [List.length_eq_zero_iff, List.filter_eq_nil_iff]
    simpa using hact
  have hcount : 0 < s.buildCount := h.sched.count (by rw [hd]; rfl)
  have e : step c s .buildTimer = { removeLsa { s with buildFlag := false, buildDue := none } c.router .adjacency with
      buildCount := (removeLsa { s with buildFlag := false, buildDue := none } c.router .adjacency).buildCount - s.buildCount } := by
    show buildTimer c s = _
    unfold buildTimer
    rw [hd]
    dsimp only
    rw [if_neg (by omega)]
    unfold buildAdjLsa
    dsimp only
    rw [if_pos hb]
    unfold buildOrRemove
    dsimp only
    rw [if_pos hcount, if_neg (by omega)]
  have hs := removeLsa_sig { s with buildFlag := false, buildDue := none } c.router .adjacency
  rw [e]
  refine ⟨hs.buildDue, ?_, ?_, hs.seqs⟩
  · intro o ho
    exact ((mem_removeLsa o).1 ho).2
  · intro o ho
    constructor
    · intro hm; exact ((mem_removeLsa o).1 hm).1
    · intro hm; exact (mem_removeLsa o).2 ⟨hm, ho⟩

/-- A build with an active neighbour leaves nothing pending, announces the next number, and stores an
adjacency LSA that lists exactly the neighbours that are active at this moment, with their configured URI
and cost.  `hnew` says the number is new, which only fails if the stored own LSA was received from the network. -/
theorem C37_builds_active {c : LConf} {s : Lsdb} (h : Reachable c s) (d : Nat) (hd : s.buildDue = some d)
    (hdue : d ≤ s.now) (hb : AdjacencyList.isAdjLsaBuildable s.adjs c.retry = true)
    (a : Adjacent) (ha : a ∈ s.adjs) (hact : a.status = .active) (hnd : (s.adjs.map (·.name)).Nodup)
    (hmax : s.seqs.adj + 1 < 2 ^ 64)
    (hnew : ∀ o ∈ s.db, o.lsa.origin = c.router → o.lsa.type = .adjacency → o.lsa.seq ≤ s.seqs.adj)
    (hint : IntegralCosts s.adjs)
    (hint' : ∀ o ∈ s.db, ∀ b, o.lsa.content = .adj b → IntegralCosts b) :
    (step c s .buildTimer).buildDue = none ∧
    (∃ q outs, (step c s .buildTimer).log = s.log ++ .persist q :: .publish .adjacency (s.seqs.adj + 1) :: outs) ∧
    ∃ o ∈ (step c s .buildTimer).db, ∃ m, o.lsa.origin = c.router ∧ o.lsa.seq = s.seqs.adj + 1 ∧
      o.lsa.content = .adj m ∧
      (m.map (fun x => (x.name, x.uri, x.cost))).Perm
        ((s.adjs.filter (fun x => decide (x.status = .active))).map (fun x => (x.name, x.uri, x.cost))) := by
  have hnum : 0 < AdjacencyList.numActive s.adjs := by
    unfold AdjacencyList.numActive
    exact List.length_pos_of_mem (List.mem_filter.2 ⟨ha, by simpa using hact⟩)
  have hcount : 0 < s.buildCount := h.sched.count (by rw [hd]; rfl)
  have hon : c.hyp ≠ .on := fun e => by have := h.sched.on e; rw [hd] at this; cases this
  have hinc : inc64 s.seqs.adj = s.seqs.adj + 1 := by unfold inc64; exact Nat.mod_eq_of_lt (by omega)
  let s0 : Lsdb := { s with buildFlag := false, buildDue := none }
  have hi0 : Inv c s0 := h.inv.frame (frame_quiet rfl rfl rfl rfl rfl)
  have e : step c s .buildTimer = { buildAdj c s0 with buildCount := (buildAdj c s0).buildCount - s.buildCount } := by
    show buildTimer c s = _
    unfold buildTimer
    rw [hd]
    dsimp only
    rw [if_neg (by omega)]
    unfold buildAdjLsa
    dsimp only
    rw [if_pos hb]
    unfold buildOrRemove
    dsimp only
    rw [if_pos hcount, if_pos hnum]
  have hann : Announced c s0 (buildAdj c s0) .adjacency s.seqs.adj := by
    have := buildAdj_announced hi0 hon (s0.seqs.get .adjacency)
    rw [seqs_set_self] at this
    exact this
  have hk := buildAdj_keep c s0
  rw [e]
  refine ⟨hk.buildDue, ?_, ?_⟩
  · obtain ⟨outs, h1, -⟩ := hann.log
    exact ⟨_, outs, by rw [hinc] at h1; exact h1⟩
  · -- the content
    let l : Lsa := ⟨c.router, s.seqs.adj + 1, s.expirationPoint c, .adj (AdjacencyList.lsaList s.adjs)⟩
    let s1 := announce s0 .adjacency (decide (c.hyp ≠ .on))
    have eb : buildAdj c s0 = installLsa c s1 l := by
      unfold buildAdj
      dsimp only
      rw [show inc64 s0.seqs.adj = s.seqs.adj + 1 from hinc]
      rfl
    have hfr := announce_frame s0 .adjacency (decide (c.hyp ≠ .on))
    have hi1 : Inv c s1 := hi0.frame hfr
    have hdb : s1.db = s.db := hfr.db
    have hnl : l.content.norm = l.content := norm_adj.2 (lsaList_names _)
    have hi2 := install_inv hi1 l hnl
    have hL := lsaList_eq s.adjs hnd
    show ∃ o ∈ (buildAdj c s0).db, _
    rw [eb]
    have hc := install_cases c s1 l
    generalize installLsa c s1 l = s2 at hc hi2
    cases hc with
    | rejected o hf hle =>
      obtain ⟨h1, h2, h3⟩ := find_some hf
      have := hnew o (hdb ▸ h1) h2 h3
      have hle : s.seqs.adj + 1 ≤ o.lsa.seq := hle
      omega
    | fresh hf =>
      refine ⟨⟨s1.nextId, l, s1.nextId + 1⟩, ?_, _, rfl, rfl, rfl, ?_⟩
      · show _ ∈ s1.db ++ [_]
        simp
      · rw [hL]
    | newer o hf hlt =>
      obtain ⟨h1, h2, h3⟩ := find_some hf
      obtain ⟨b, hbc⟩ : ∃ b, o.lsa.content = .adj b := by
        have : o.lsa.content.type = .adjacency := h3
        cases hcc : o.lsa.content with
        | adj b => exact ⟨b, rfl⟩
        | names _ => rw [hcc] at this; cases this
        | coord _ _ => rw [hcc] at this; cases this
      have hnb : (b.map (·.name)).Nodup := norm_adj.1 (hbc ▸ hi1.norm o h1)
      have hmem := (mem_installUpdate hi1 h1 l (timeToExpire c s1 l) _).2 (Or.inl rfl)
      refine ⟨_, hmem, ?_⟩
      have hcont : (o.lsa.content.update l.content).content = .adj (if AdjacencyList.eqv b (AdjacencyList.lsaList s.adjs) then b
          else AdjacencyList.lsaList s.adjs) := by
        rw [hbc]
        show (updateAdj b (AdjacencyList.lsaList s.adjs)).content = _
        unfold updateAdj
        split
        · rfl
        · rw [adj_ofList_nodup _ (lsaList_names _)]
      refine ⟨_, h2, rfl, hcont, ?_⟩
      split
      · rename_i heq
        have hib : IntegralCosts b := hint' o (hdb ▸ h1) b hbc
        have hil : IntegralCosts (AdjacencyList.lsaList s.adjs) := by
          rw [hL]
          intro x hx
          exact hint x (List.mem_filter.1 hx).1
        rw [← hL]
        exact ((C46_equality_partial b _ hnb (lsaList_names _) hib hil).1).1 heq
      · rw [hL]

/-- The hypotheses of `C37_builds_active` in a reachable state. -/
example : let s := run (exConf .off) (exStart .off) [.scheduleBuild, .clock 100000000000 0]
    (∃ d, s.buildDue = some d ∧ d ≤ s.now) ∧ AdjacencyList.isAdjLsaBuildable s.adjs (exConf .off).retry = true ∧
    exNeighbor .active ∈ s.adjs ∧ (s.adjs.map (·.name)).Nodup ∧ s.seqs.adj = 0 ∧
    (∀ o ∈ s.db, o.lsa.type ≠ .adjacency) := by
  refine ⟨⟨_, rfl, ?_⟩, ?_⟩ <;> decide +kernel

/-- And of `C37_none_active`. -/
example : let s := run (exConf .off) (exStart .off) [.setAdjs [exNeighbor .inactive], .scheduleBuild, .clock 100000000000 0]
    (∃ d, s.buildDue = some d ∧ d ≤ s.now) ∧ AdjacencyList.isAdjLsaBuildable s.adjs (exConf .off).retry = true ∧
    ∀ a ∈ s.adjs, a.status ≠ .active := by
  refine ⟨⟨_, rfl, ?_⟩, ?_⟩ <;> decide +kernel

end Nlsr
