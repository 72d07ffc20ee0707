import Verif.Lemmas.Fib
/- The FIB operations in normal form. -/
namespace Nlsr
namespace Fib

/-- Commands of a batch of registrations, numbered from `r`. -/
def regLog (A : AdjacencyList) (now : Nat) (n : Name) (exp flags : Nat) : Nat → List NextHop → List NfdCmd
  | _, [] => []
  | r, h :: t =>
    (if 0 < A.faceIdOf h.uri then [.register r n h.uri (A.faceIdOf h.uri) h.adj flags exp now] else []) ++
      regLog A now n exp flags (r + 1) t

def regReqs (A : AdjacencyList) (n : Name) (exp flags : Nat) : Nat → List NextHop → List RegReq
  | _, [] => []
  | r, h :: t =>
    (if 0 < A.faceIdOf h.uri then [⟨r, n, h.uri, A.faceIdOf h.uri, h.adj, flags, exp, 0⟩] else []) ++
      regReqs A n exp flags (r + 1) t

def unregLog (A : AdjacencyList) (n : Name) (l : List NextHop) : List NfdCmd :=
  l.flatMap (fun h => if 0 < A.faceIdOf h.uri then [.unregister n h.uri (A.faceIdOf h.uri)] else [])

theorem registerPrefix_eq (s : Fib) (n : Name) (u : Uri) (cost : Int) (exp flags : Nat) :
    s.registerPrefix n u cost exp flags =
      { s with nextRoot := s.nextRoot + 1
               regs := s.regs ++ (if 0 < s.adjs.faceIdOf u then [⟨s.nextRoot, n, u, s.adjs.faceIdOf u, cost, flags, exp, 0⟩] else [])
               log := s.log ++ (if 0 < s.adjs.faceIdOf u then [.register s.nextRoot n u (s.adjs.faceIdOf u) cost flags exp s.now] else []) } := by
  unfold registerPrefix send
  dsimp only
  split
  · rfl
  · simp

theorem regAll (n : Name) (exp flags : Nat) (hops : List NextHop) : ∀ s : Fib,
    hops.foldl (fun s h => s.registerPrefix n h.uri h.adj exp flags) s =
      { s with nextRoot := s.nextRoot + hops.length
               regs := s.regs ++ regReqs s.adjs n exp flags s.nextRoot hops
               log := s.log ++ regLog s.adjs s.now n exp flags s.nextRoot hops } := by
  induction hops with
  | nil => intro s; simp [regReqs, regLog]
  | cons h t ih =>
    intro s
    rw [List.foldl_cons, ih, registerPrefix_eq]
    simp only [regReqs, regLog, List.length_cons, List.append_assoc, Nat.add_assoc, Nat.add_comm 1]

theorem unregister_eq (s : Fib) (n : Name) (u : Uri) :
    s.unregisterPrefix n u = { s with log := s.log ++ (if 0 < s.adjs.faceIdOf u then [.unregister n u (s.adjs.faceIdOf u)] else []) } := by
  unfold unregisterPrefix AdjacencyList.faceIdOf
  cases s.adjs.findUri u with
  | none => simp
  | some a =>
    dsimp only
    split <;> simp

theorem unregAll (n : Name) (hops : List NextHop) : ∀ s : Fib,
    hops.foldl (fun s h => s.unregisterPrefix n h.uri) s = { s with log := s.log ++ unregLog s.adjs n hops } := by
  induction hops with
  | nil => intro s; simp [unregLog]
  | cons h t ih =>
    intro s
    rw [List.foldl_cons, ih, unregister_eq]
    simp [unregLog, List.append_assoc]

/-! ### the table as a map -/

theorem find_name {s : Fib} {n : Name} {e : FibEntry} (h : s.find n = some e) : e.name = n := by
  simpa using List.find?_some h

theorem find_mem {s : Fib} {n : Name} {e : FibEntry} (h : s.find n = some e) : e ∈ s.table := List.mem_of_find?_eq_some h

theorem find_congr {s s' : Fib} (h : s'.table = s.table) (n : Name) : s'.find n = s.find n := by
  unfold find; rw [h]

theorem find_modEntry (s : Fib) (n m : Name) (f : FibEntry → FibEntry) (hf : ∀ e, (f e).name = e.name) :
    (s.modEntry n f).find m = if m = n then (s.find n).map f else s.find m := by
  unfold modEntry find
  dsimp only
  by_cases hm : m = n
  · subst hm
    rw [if_pos rfl]
    induction s.table with
    | nil => rfl
    | cons e es ih =>
      by_cases hen : e.name = m
      · simp [hen, hf]
      · simp only [List.map_cons, List.find?_cons]
        have h1 : (e.name == m) = false := by simpa using hen
        simp only [h1, Bool.false_eq_true, if_false]
        exact ih
  · rw [if_neg hm]
    induction s.table with
    | nil => rfl
    | cons e es ih =>
      simp only [List.map_cons, List.find?_cons]
      by_cases hen : e.name = n
      · have h1 : (e.name == n) = true := by simpa using hen
        have h3 : (e.name == m) = false := by rw [hen]; simpa using fun h => hm h.symm
        simp only [h1, if_true, hf, h3]
        exact ih
      · have h1 : (e.name == n) = false := by simpa using hen
        simp only [h1, Bool.false_eq_true, if_false]
        rw [ih]

theorem find_setHops (s : Fib) (n m : Name) (g : FibEntry → List NextHop) :
    (s.modEntry n (fun e => { e with hops := g e })).find m =
      if m = n then (s.find n).map (fun e => { e with hops := g e }) else s.find m :=
  find_modEntry s n m _ (fun _ => rfl)

theorem find_setSeq (s : Fib) (n m : Name) :
    (s.modEntry n (fun e => { e with seqNo := e.seqNo + 1 })).find m =
      if m = n then (s.find n).map (fun e => { e with seqNo := e.seqNo + 1 }) else s.find m :=
  find_modEntry s n m (fun e => { e with seqNo := e.seqNo + 1 }) (fun _ => rfl)

theorem find_setRefresh (s : Fib) (n m : Name) (r : Option (Nat × Nat)) :
    (s.modEntry n (fun e => { e with refresh := r })).find m =
      if m = n then (s.find n).map (fun e => { e with refresh := r }) else s.find m :=
  find_modEntry s n m (fun e => { e with refresh := r }) (fun _ => rfl)

theorem find_filter (l : List FibEntry) (n m : Name) :
    (l.filter (fun x => !(x.name == n))).find? (fun e => e.name == m) = if m = n then none else l.find? (fun e => e.name == m) := by
  induction l with
  | nil => split <;> rfl
  | cons e es ih =>
    rw [List.filter_cons, List.find?_cons]
    by_cases hen : e.name = n
    · have h1 : (!(e.name == n)) = false := by simpa using hen
      rw [h1, if_neg (by simp), ih]
      by_cases hm : m = n
      · rw [if_pos hm, if_pos hm]
      · rw [if_neg hm, if_neg hm]
        have h3 : (e.name == m) = false := by rw [hen]; simpa using fun h => hm h.symm
        rw [h3]
    · have h1 : (!(e.name == n)) = true := by simpa using hen
      rw [h1, if_pos rfl, List.find?_cons, ih]
      by_cases hm : m = n
      · rw [if_pos hm, if_pos hm]
        have h3 : (e.name == m) = false := by rw [hm]; simpa using hen
        rw [h3]
      · rw [if_neg hm, if_neg hm]

/-! ### the operations -/

/-- Fields that only faces events and answers change. -/
structure Frame (s s' : Fib) : Prop where
  adjs : s'.adjs = s.adjs
  now : s'.now = s.now
  strats : s'.strats = s.strats
  ok : s'.ok = s.ok

theorem Frame.refl (s : Fib) : Frame s s := ⟨rfl, rfl, rfl, rfl⟩
theorem Frame.trans {a b c : Fib} (h : Frame a b) (g : Frame b c) : Frame a c :=
  ⟨g.adjs.trans h.adjs, g.now.trans h.now, g.strats.trans h.strats, g.ok.trans h.ok⟩

/-- The effect of an operation on the table, the log and the registrations in flight. -/
structure Eff (s s' : Fib) (n : Name) (e' : Option FibEntry) (cmds : List NfdCmd) (reqs : List RegReq) (k : Nat) : Prop
    extends Frame s s' where
  same : ∀ m, m ≠ n → s'.find m = s.find m
  here : s'.find n = e'
  log : s'.log = s.log ++ cmds
  regs : s'.regs = s.regs ++ reqs
  root : s'.nextRoot = s.nextRoot + k
  names : (s.table.map (·.name)).Nodup → (s'.table.map (·.name)).Nodup

theorem map_names {l : List FibEntry} {n : Name} {f : FibEntry → FibEntry} (hf : ∀ e, (f e).name = e.name) :
    (l.map (fun e => if e.name == n then f e else e)).map (·.name) = l.map (·.name) := by
  rw [List.map_map]
  refine List.map_congr_left (fun e _ => ?_)
  show (if e.name == n then f e else e).name = e.name
  split
  · exact hf e
  · rfl

theorem remove_eff (s : Fib) (n : Name) :
    Eff s (s.remove n) n (if s.adjs.isNeighbor n then s.find n else none)
      (if s.adjs.isNeighbor n then [] else match s.find n with | none => [] | some e => unregLog s.adjs n e.hops) [] 0 := by
  unfold remove
  cases hf : s.find n with
  | none => exact ⟨Frame.refl s, fun _ _ => rfl, by simp [hf], by simp, by simp, rfl, id⟩
  | some e =>
    have hen := find_name hf
    dsimp only
    rw [hen]
    split
    · exact ⟨Frame.refl s, fun _ _ => rfl, hf, by simp, by simp, rfl, id⟩
    · rw [unregAll]
      refine ⟨⟨rfl, rfl, rfl, rfl⟩, fun m hm => ?_, ?_, rfl, by simp, rfl, fun hn => ?_⟩
      · exact (find_filter s.table n m).trans (if_neg hm)
      · exact (find_filter s.table n n).trans (if_pos rfl)
      · exact (List.Sublist.map _ List.filter_sublist).nodup hn

theorem registerHops_eq (c : FConf) (s : Fib) (n : Name) (hops : List NextHop) (flags : Nat) :
    s.registerHops c n hops flags = if s.adjs.isNeighbor n then s else
      { s with nextRoot := s.nextRoot + hops.length
               regs := s.regs ++ regReqs s.adjs n (c.refresh + fibGrace) flags s.nextRoot hops
               log := s.log ++ regLog s.adjs s.now n (c.refresh + fibGrace) flags s.nextRoot hops } := by
  unfold registerHops
  split
  · rfl
  · exact regAll _ _ _ _ _

theorem dropHop_eq (n : Name) (s : Fib) (h : NextHop) :
    dropHop n s h = { s with
      log := s.log ++ (if s.adjs.isNeighbor n then [] else unregLog s.adjs n [h])
      table := s.table.map (fun e => if e.name == n then { e with hops := removeNextHop e.hops h } else e) } := by
  unfold dropHop modEntry
  split
  · simp
  · rw [unregister_eq]; simp [unregLog]

theorem unregLog_append (A : AdjacencyList) (n : Name) (a b : List NextHop) :
    unregLog A n (a ++ b) = unregLog A n a ++ unregLog A n b := List.flatMap_append

theorem dropAll (n : Name) (l : List NextHop) : ∀ s : Fib,
    l.foldl (dropHop n) s = { s with
      log := s.log ++ (if s.adjs.isNeighbor n then [] else unregLog s.adjs n l)
      table := s.table.map (fun e => if e.name == n then { e with hops := l.foldl removeNextHop e.hops } else e) } := by
  induction l with
  | nil =>
    intro s
    have : s.table.map (fun e => if e.name == n then { e with hops := [].foldl removeNextHop e.hops } else e) = s.table := by
      refine (List.map_congr_left (fun e _ => ?_)).trans (List.map_id _)
      show (if e.name == n then e else e) = e
      split <;> rfl
    rw [this]
    simp [unregLog]
  | cons h t ih =>
    intro s
    rw [List.foldl_cons, ih, dropHop_eq]
    have h1 : unregLog s.adjs n (h :: t) = unregLog s.adjs n [h] ++ unregLog s.adjs n t := unregLog_append _ _ [h] t
    simp only [List.map_map]
    congr 1
    · refine List.map_congr_left (fun e _ => ?_)
      show (if (if e.name == n then _ else e).name == n then _ else _) = _
      cases hb : (e.name == n) with
      | true => simp only [if_true, hb, List.foldl_cons]
      | false => simp [hb]
    · rw [h1]
      split <;> simp

/-- The entry after the refresh check at the end of `update`. -/
def withRefresh (c : FConf) (s : Fib) (flags : Nat) (e : FibEntry) : FibEntry :=
  if s.adjs.isNeighbor e.name then e
  else { e with refresh := some (e.refresh.getD (s.now + c.refresh * Lsdb.nsPerSec, flags)) }

theorem ensureRefresh_eff (c : FConf) (s : Fib) (n : Name) (flags : Nat) :
    Eff s (s.ensureRefresh c n flags) n ((s.find n).map (withRefresh c s flags)) [] [] 0 := by
  unfold ensureRefresh
  cases hf : s.find n with
  | none => exact ⟨Frame.refl s, fun _ _ => rfl, hf, by simp, by simp, rfl, id⟩
  | some e =>
    have hen := find_name hf
    dsimp only
    cases hb : s.adjs.isNeighbor e.name with
    | true =>
      rw [if_neg (by simp)]
      exact ⟨Frame.refl s, fun _ _ => rfl, by rw [hf]; simp [withRefresh, hb], by simp, by simp, rfl, id⟩
    | false =>
      cases hr : e.refresh with
      | some r =>
        rw [if_neg (by simp)]
        refine ⟨Frame.refl s, fun _ _ => rfl, ?_, by simp, by simp, rfl, id⟩
        rw [hf, Option.map_some]
        congr 1
        unfold withRefresh
        rw [hb, if_neg (by simp)]
        cases e; cases hr; rfl
      | none =>
        rw [if_pos (by simp)]
        unfold scheduleRefresh
        refine ⟨⟨rfl, rfl, rfl, rfl⟩, fun m hm => ?_, ?_, by simp [modEntry], by simp [modEntry], rfl, fun hn => ?_⟩
        · exact (find_setRefresh _ _ _ _).trans (if_neg hm)
        · rw [find_setRefresh, if_pos rfl, hf, Option.map_some, Option.map_some]
          congr 1
          unfold withRefresh
          rw [hb, if_neg (by simp), hr]; rfl
        · exact (map_names (l := s.table) (n := n)
            (f := fun e => { e with refresh := some (s.now + c.refresh * Lsdb.nsPerSec, flags) }) (fun _ => rfl)) ▸ hn

/-- The entry `update` leaves when hops are wanted. -/
def updEntry (c : FConf) (s : Fib) (n : Name) (new : List NextHop) (flags : Nat) : FibEntry :=
  withRefresh c s flags
    (match s.find n with
     | none => { name := n, hops := addHops [] new }
     | some e => { e with hops := mergedHops e.hops new, seqNo := e.seqNo + 1 })

/-- The hops recorded for `n`. -/
def hopsAt (s : Fib) (n : Name) : List NextHop :=
  match s.find n with
  | none => []
  | some e => e.hops

theorem update_empty (c : FConf) (s : Fib) (n : Name) (all : NexthopList) (flags : Nat) (h : hopsToAdd c all = []) :
    s.update c n all flags = s.remove n := by
  unfold update
  dsimp only
  rw [h]
  cases s.find n <;> rfl

theorem update_eff (c : FConf) (s : Fib) (n : Name) (all : NexthopList) (flags : Nat) (h : hopsToAdd c all ≠ []) :
    Eff s (s.update c n all flags) n (some (updEntry c s n (hopsToAdd c all) flags))
      (if s.adjs.isNeighbor n then [] else
        regLog s.adjs s.now n (c.refresh + fibGrace) flags s.nextRoot (hopsToAdd c all) ++
        unregLog s.adjs n (match s.find n with
          | none => [] | some e => uriMinus (addHops e.hops (hopsToAdd c all)) (hopsToAdd c all)))
      (if s.adjs.isNeighbor n then [] else regReqs s.adjs n (c.refresh + fibGrace) flags s.nextRoot (hopsToAdd c all))
      (if s.adjs.isNeighbor n then 0 else (hopsToAdd c all).length) := by
  unfold update
  dsimp only
  generalize hopsToAdd c all = new at h
  have hne : new.isEmpty = false := by cases new with | nil => exact absurd rfl h | cons _ _ => rfl
  cases hf : s.find n with
  | none =>
    dsimp only
    rw [if_neg (by simp [hne])]
    have key := ensureRefresh_eff c { s.registerHops c n new flags with
      table := (s.registerHops c n new flags).table ++ [{ name := n, hops := addHops [] new }] } n flags
    have htab : (s.registerHops c n new flags).table = s.table := by rw [registerHops_eq]; split <;> rfl
    have hfr : Frame s (s.registerHops c n new flags) := by rw [registerHops_eq]; split <;> exact ⟨rfl, rfl, rfl, rfl⟩
    have hfind : ∀ m, (s.table ++ [({ name := n, hops := addHops [] new } : FibEntry)]).find? (fun e => e.name == m) =
        if m = n then some ({ name := n, hops := addHops [] new } : FibEntry) else s.find m := by
      intro m
      rw [List.find?_append]
      split
      · rename_i hm
        subst hm
        change ((s.find m).or _) = _
        rw [hf]; simp
      · rename_i hm
        rw [List.find?_cons]
        have : (n == m) = false := by simpa using fun h => hm h.symm
        rw [show ((({ name := n, hops := addHops [] new } : FibEntry).name == m)) = false from this]
        simp [find]
    refine ⟨hfr.trans ⟨key.adjs, key.now, key.strats, key.ok⟩, fun m hm => ?_, ?_, ?_, ?_, ?_, fun hn => key.names ?_⟩
    · rw [key.same m hm]
      unfold find
      rw [htab]
      exact (hfind m).trans (if_neg hm)
    · rw [key.here]
      have : (Fib.find { s.registerHops c n new flags with
          table := (s.registerHops c n new flags).table ++ [{ name := n, hops := addHops [] new }] } n) =
          some ({ name := n, hops := addHops [] new } : FibEntry) := by
        unfold find
        dsimp only
        rw [htab]
        exact (hfind n).trans (if_pos rfl)
      rw [this, Option.map_some]
      unfold updEntry
      rw [hf]
      unfold withRefresh
      dsimp only
      rw [hfr.adjs, hfr.now]
    · rw [key.log, List.append_nil]
      dsimp only
      rw [registerHops_eq]
      split
      · simp
      · simp [unregLog]
    · rw [key.regs, List.append_nil]
      dsimp only
      rw [registerHops_eq]
      split <;> simp
    · rw [key.root]
      dsimp only
      rw [registerHops_eq]
      split <;> simp
    · show ((_ ++ [_]).map _).Nodup
      rw [htab, List.map_append, List.nodup_append]
      refine ⟨hn, by simp, ?_⟩
      intro a ha b hb hab
      obtain ⟨e, he, rfl⟩ := List.mem_map.1 ha
      have hb' : b = n := by simpa using hb
      have := List.find?_eq_none.1 hf e he
      simp [hab, hb'] at this
  | some e =>
    dsimp only
    rw [if_neg (by simp [hne])]
    have hen := find_name hf
    rw [dropAll]
    generalize hx : uriMinus (addHops e.hops new) new = x
    have hfr : Frame s (s.registerHops c n new flags) := by rw [registerHops_eq]; split <;> exact ⟨rfl, rfl, rfl, rfl⟩
    have htab : (s.registerHops c n new flags).table = s.table := by rw [registerHops_eq]; split <;> rfl
    have hfind0 : ∀ m, (s.registerHops c n new flags).find m = s.find m := fun m => find_congr htab m
    have hadj : (s.registerHops c n new flags).adjs = s.adjs := hfr.adjs
    have hlog : (s.registerHops c n new flags).log = s.log ++ (if s.adjs.isNeighbor n then [] else
        regLog s.adjs s.now n (c.refresh + fibGrace) flags s.nextRoot new) := by
      rw [registerHops_eq]; split <;> simp
    have hregs : (s.registerHops c n new flags).regs = s.regs ++ (if s.adjs.isNeighbor n then [] else
        regReqs s.adjs n (c.refresh + fibGrace) flags s.nextRoot new) := by
      rw [registerHops_eq]; split <;> simp
    have hroot : (s.registerHops c n new flags).nextRoot = s.nextRoot + (if s.adjs.isNeighbor n then 0 else new.length) := by
      rw [registerHops_eq]; split <;> simp
    generalize s.registerHops c n new flags = s1 at *
    -- the three entry updates, one after the other
    let s2 := s1.modEntry n (fun e => { e with hops := addHops e.hops new })
    let s3 := s2.modEntry n (fun e => { e with hops := x.foldl removeNextHop e.hops })
    let s4 := s3.modEntry n (fun e => { e with seqNo := e.seqNo + 1 })
    let s5 : Fib := { s4 with log := s1.log ++ (if s1.adjs.isNeighbor n then [] else unregLog s1.adjs n x) }
    show Eff s (s5.ensureRefresh c n flags) n _ _ _ _
    have key := ensureRefresh_eff c s5 n flags
    have hf5 : ∀ m, s5.find m = if m = n then some { e with hops := x.foldl removeNextHop (addHops e.hops new), seqNo := e.seqNo + 1 }
        else s.find m := by
      intro m
      show s4.find m = _
      refine (find_setSeq s3 n m).trans ?_
      split
      · rw [show s3.find n = _ from find_setHops s2 n n _, if_pos rfl, show s2.find n = _ from find_setHops s1 n n _, if_pos rfl, hfind0, hf]
        rfl
      · rename_i hm
        rw [show s3.find m = _ from find_setHops s2 n m _, if_neg hm, show s2.find m = _ from find_setHops s1 n m _, if_neg hm, hfind0]
    refine ⟨hfr.trans ⟨key.adjs, key.now, key.strats, key.ok⟩, fun m hm => ?_, ?_, ?_, ?_, ?_, fun hn => key.names ?_⟩
    · rw [key.same m hm, hf5, if_neg hm]
    · rw [key.here, hf5, if_pos rfl, Option.map_some]
      unfold updEntry
      rw [hf]
      unfold withRefresh mergedHops
      dsimp only
      rw [hx]
      show some (if s1.adjs.isNeighbor e.name = true then _ else _) = _
      rw [hadj, show s5.now = s.now from hfr.now]
    · rw [key.log, List.append_nil]
      show s1.log ++ _ = _
      rw [hlog, hadj]
      split <;> simp
    · rw [key.regs, List.append_nil]; exact hregs
    · rw [key.root]; exact hroot
    · have h4 : s4.table.map (·.name) = s3.table.map (·.name) := map_names (f := fun e => { e with seqNo := e.seqNo + 1 }) (fun _ => rfl)
      have h3 : s3.table.map (·.name) = s2.table.map (·.name) :=
        map_names (f := fun e => { e with hops := x.foldl removeNextHop e.hops }) (fun _ => rfl)
      have h2 : s2.table.map (·.name) = s1.table.map (·.name) := map_names (f := fun e => { e with hops := addHops e.hops new }) (fun _ => rfl)
      show (s4.table.map (·.name)).Nodup
      rw [h4, h3, h2, htab]; exact hn

theorem refresh_eff (c : FConf) (s : Fib) (n : Name) {e : FibEntry} {due flags : Nat} (hf : s.find n = some e)
    (hr : e.refresh = some (due, flags)) (hd : due ≤ s.now) :
    Eff s (s.refresh c n) n (some { e with seqNo := e.seqNo + 1, refresh := some (s.now + c.refresh * Lsdb.nsPerSec, flags) })
      (regLog s.adjs s.now n (c.refresh + fibGrace) flags s.nextRoot e.hops)
      (regReqs s.adjs n (c.refresh + fibGrace) flags s.nextRoot e.hops) e.hops.length := by
  unfold refresh
  rw [hf]
  dsimp only
  rw [hr]
  dsimp only
  rw [if_neg (by omega), regAll]
  unfold scheduleRefresh
  refine ⟨⟨rfl, rfl, rfl, rfl⟩, fun m hm => ?_, ?_, rfl, rfl, rfl, fun hn => ?_⟩
  · rw [find_setRefresh, if_neg hm]
    exact (find_setSeq s n m).trans (if_neg hm)
  · rw [find_setRefresh, if_pos rfl]
    show Option.map _ ((s.modEntry n (fun e => { e with seqNo := e.seqNo + 1 })).find n) = _
    rw [find_setSeq, if_pos rfl, hf]
    rfl
  · have h1 : ((s.modEntry n (fun e => { e with seqNo := e.seqNo + 1 })).table.map (·.name)) = s.table.map (·.name) :=
      map_names (f := fun e => { e with seqNo := e.seqNo + 1 }) (fun _ => rfl)
    have h2 := map_names (l := (s.modEntry n (fun e => { e with seqNo := e.seqNo + 1 })).table) (n := n)
      (f := fun e => { e with refresh := some (s.now + c.refresh * Lsdb.nsPerSec, flags) }) (fun _ => rfl)
    exact (h2.trans h1) ▸ hn

theorem refresh_idle (c : FConf) (s : Fib) (n : Name)
    (h : ∀ e, s.find n = some e → ∀ due flags, e.refresh = some (due, flags) → s.now < due) : s.refresh c n = s := by
  unfold refresh
  cases hf : s.find n with
  | none => rfl
  | some e =>
    dsimp only
    cases hr : e.refresh with
    | none => rfl
    | some p =>
      obtain ⟨due, flags⟩ := p
      dsimp only
      rw [if_pos (h e hf due flags hr)]

end Fib
end Nlsr
