import Verif.Lemmas.LsdbOwn
/- Where every LSA stored after a step comes from. -/
namespace Nlsr
namespace Lsdb

/-- What an own LSA is built with. -/
def Builds (c : LConf) (s : Lsdb) : Content → Prop
  | .names m => m = PrefixMap.ofList s.npl
  | .coord r as => r = c.radius ∧ as = c.angles
  | .adj l => l = AdjacencyList.lsaList s.adjs

/-- The stored LSA is the installed one, or an earlier one updated with it. -/
structure Took (s : Lsdb) (l : Lsa) (o' : Obj) : Prop where
  origin : o'.lsa.origin = l.origin
  type : o'.lsa.type = l.type
  seq : o'.lsa.seq = l.seq
  content : o'.lsa.content = l.content ∨ ∃ o ∈ s.db, o.lsa.origin = l.origin ∧ o.lsa.type = l.type ∧ o.lsa.seq < l.seq ∧
    o'.lsa.content = (o.lsa.content.update l.content).content

theorem mem_install {c : LConf} {s : Lsdb} (h : Inv c s) (l : Lsa) {o' : Obj} (ho : o' ∈ (installLsa c s l).db) :
    o' ∈ s.db ∨ Took s l o' := by
  have hc := install_cases c s l
  generalize installLsa c s l = s' at hc ho
  cases hc with
  | rejected o hf hle => exact Or.inl ho
  | fresh hf =>
    rcases List.mem_append.1 ho with h1 | h1
    · exact Or.inl h1
    · rw [List.mem_singleton] at h1
      subst h1
      exact Or.inr ⟨rfl, rfl, rfl, Or.inl rfl⟩
  | newer o hf hlt =>
    obtain ⟨m, h1, h2⟩ := find_some hf
    rcases (mem_installUpdate h m l _ o').1 ho with rfl | h3
    · exact Or.inr ⟨h1, (Content.update_type _ _).trans h2, rfl, Or.inr ⟨o, m, h1, h2, hlt, rfl⟩⟩
    · exact Or.inl h3.1

/-- Where an LSA stored after a step comes from. -/
inductive Change (c : LConf) (s : Lsdb) (op : Op) (s' : Lsdb) (o' : Obj) : Prop
  | kept (o : Obj) (ho : o ∈ s.db) (h : o'.lsa = o.lsa)
  | refreshed (o : Obj) (ho : o ∈ s.db) (hr : o.lsa.origin = c.router) (h1 : o'.lsa.origin = o.lsa.origin)
      (h2 : o'.lsa.content = o.lsa.content) (h3 : o'.lsa.seq = inc64 o.lsa.seq)
      (hs : s'.seqs = s.seqs.set o.lsa.type (inc64 o.lsa.seq))
  | built (l : Lsa) (b : Nat) (hb : Builds c s l.content) (hr : l.origin = c.router) (h : Took s l o')
      (hn : l.seq = inc64 b) (hs : s'.seqs = s.seqs.set l.type (inc64 b))
      (hsrc : b = s.seqs.get l.type ∨ ∃ u k last, op = .sync u k ∧ syncOrigin u = some c.router ∧ u.fromEnd 1 = some last ∧
        LsaType.ofComp last = l.type ∧ b = k % 18446744073709551616)
      (hmode : (l.type = .adjacency → c.hyp ≠ .on) ∧ (l.type = .coordinate → c.hyp ≠ .off))
  | fetched (i : Nat) (l l' : Lsa) (hop : op = .fetched i (some l)) (h : Took s l' o') (h1 : l'.origin = l.origin)
      (h2 : l'.type = l.type) (h3 : l'.seq = l.seq % 18446744073709551616) (h4 : l'.content = l.content.norm)

theorem Took.congr {s s0 : Lsdb} (h0 : s0.db = s.db) {l : Lsa} {o' : Obj} (h : Took s0 l o') : Took s l o' :=
  ⟨h.origin, h.type, h.seq, by rw [← h0]; exact h.content⟩

/-- An own LSA is built out of the state `s0`, which has the LSAs of `s`. -/
theorem change_build {c : LConf} {s s0 : Lsdb} {op : Op} {s' : Lsdb} (hi : Inv c s0) (h0 : s0.db = s.db) (t : LsaType)
    (ht : t ≠ .base) (doPub : Bool) (b : Nat) (l : Lsa) (hl : l.type = t) (hr : l.origin = c.router) (hn : l.seq = inc64 b)
    (hb : Builds c s l.content) (hq : s0.seqs = s.seqs.set t b)
    (he : s' = installLsa c (announce s0 t doPub) l)
    (hsrc : b = s.seqs.get t ∨ ∃ u k last, op = .sync u k ∧ syncOrigin u = some c.router ∧ u.fromEnd 1 = some last ∧
      LsaType.ofComp last = t ∧ b = k % 18446744073709551616)
    (hmode : (t = .adjacency → c.hyp ≠ .on) ∧ (t = .coordinate → c.hyp ≠ .off)) :
    ∀ o' ∈ s'.db, Change c s op s' o' := by
  subst he
  intro o' ho
  have hfr := announce_frame s0 t doPub
  have hdb : (announce s0 t doPub).db = s.db := hfr.db.trans h0
  rcases mem_install (hi.frame hfr) l ho with h1 | h1
  · rw [hdb] at h1
    exact .kept o' h1 rfl
  · refine .built l b hb hr (h1.congr hdb) hn ?_ (by rw [hl]; exact hsrc) (by rw [hl]; exact hmode)
    rw [(installLsa_sig c (announce s0 t doPub) l).seqs, hl]
    have hg : s0.seqs.get t = b := by rw [hq]; exact Seqs.get_set_self _ _ _ ht
    have : (announce s0 t doPub).seqs = s0.seqs.set t (inc64 (s0.seqs.get t)) := by
      unfold announce persist publish emit
      dsimp only
      split <;> rfl
    rw [this, hg, hq, Seqs.set_set]

theorem change_step {c : LConf} {s : Lsdb} (h : Reachable c s) (op : Op) :
    ∀ o' ∈ (step c s op).db, Change c s op (step c s op) o' := by
  have hi := h.inv
  have frame : ∀ s', s'.db = s.db → ∀ o' ∈ s'.db, Change c s op s' o' := fun s' e o' ho => .kept o' (e ▸ ho) rfl
  have set_self : ∀ t, s.seqs = s.seqs.set t (s.seqs.get t) := by intro t; cases t <;> rfl
  cases op with
  | clock dt sys => exact frame _ rfl
  | setAdjs l => exact frame _ rfl
  | setNpl l => exact frame _ rfl
  | segment n => exact frame _ rfl
  | segmentGone n => exact frame _ rfl
  | fifoGone n => exact frame _ rfl
  | buildName =>
    exact change_build (s0 := s) hi rfl .name (by simp) true s.seqs.name
      ⟨c.router, inc64 s.seqs.name, s.expirationPoint c, .names (PrefixMap.ofList s.npl)⟩ rfl rfl rfl rfl (set_self .name) rfl
      (Or.inl rfl) ⟨nofun, nofun⟩
  | scheduleBuild =>
    refine frame _ ?_
    show (scheduleBuild c s).db = s.db
    unfold scheduleBuild
    dsimp only
    split <;> rfl
  | buildTimer =>
    show ∀ o' ∈ (buildTimer c s).db, Change c s .buildTimer (buildTimer c s) o'
    unfold buildTimer
    cases hd : s.buildDue with
    | none => exact frame _ rfl
    | some d =>
      have hon : c.hyp ≠ .on := fun e => by have := h.sched.on e; rw [hd] at this; cases this
      dsimp only
      split
      · exact frame _ rfl
      · unfold buildAdjLsa
        dsimp only
        split
        · unfold buildOrRemove
          dsimp only
          split
          · split
            · have hi0 : Inv c { s with buildFlag := false, buildDue := none } :=
                hi.frame (frame_quiet rfl rfl rfl rfl rfl)
              intro o' ho
              have := change_build (op := .buildTimer) (s := s) (s' := buildAdj c { s with buildFlag := false, buildDue := none }) hi0
                rfl .adjacency (by simp) (c.hyp ≠ .on) s.seqs.adj
                ⟨c.router, inc64 s.seqs.adj, s.expirationPoint c, .adj (AdjacencyList.lsaList s.adjs)⟩ rfl rfl rfl rfl (set_self .adjacency)
                rfl (Or.inl rfl) ⟨fun _ => hon, nofun⟩ o' ho
              cases this with
              | kept o a b => exact .kept o a b
              | refreshed o a b d e f g => exact .refreshed o a b d e f g
              | built l b a1 a2 a3 a4 a5 a6 a7 => exact .built l b a1 a2 a3 a4 a5 a6 a7
              | fetched i l l' a1 => cases a1
            · intro o' ho
              exact .kept o' ((mem_removeLsa (s := { s with buildFlag := false, buildDue := none }) o').1 ho).1 rfl
          · exact frame _ rfl
        · exact frame _ rfl
  | timer eid =>
    show ∀ o' ∈ (fire c s eid).db, Change c s (.timer eid) (fire c s eid) o'
    have hc := fire_cases hi eid
    generalize fire c s eid = s' at hc
    cases hc with
    | idle => exact frame _ rfl
    | own ev o hev he hdue ho hoid hevt hr =>
      subst he
      obtain ⟨h1, -⟩ := drop_inv hi (List.mem_append_left _ ho) hev hoid
      intro o' ho'
      rcases (mem_refresh (s := drop s ev.eid) h1 ho o').1 ho' with rfl | h2
      · exact .refreshed o ho hr rfl rfl rfl rfl
      · exact .kept o' h2.1 rfl
    | other ev o hev he hdue ho hoid hevt hr =>
      intro o' ho'
      exact .kept o' ((mem_removeLsa (s := drop s eid) o').1 ho').1 rfl
    | stale ev o hev he hdue ho hoid hr ht => exact frame _ rfl
    | hit ev o p hev he hdue ho hoid hr ht hp hpr hpt hseq =>
      subst he
      obtain ⟨h1, -⟩ := drop_inv hi (List.mem_append_right _ ho) hev hoid
      intro o' ho'
      rcases (mem_refresh (s := drop s ev.eid) h1 hp o').1 ho' with rfl | h2
      · exact .refreshed p hp hpr rfl rfl rfl rfl
      · exact .kept o' h2.1 rfl
  | sync n k =>
    show ∀ o' ∈ (sync c s n (k % 18446744073709551616)).db, Change c s (.sync n k) (sync c s n (k % 18446744073709551616)) o'
    unfold sync
    split
    · rename_i origin last ho hl
      unfold processUpdate
      split
      · rename_i hor
        subst hor
        split
        · unfold ownUpdate
          have hi0 : ∀ t, Inv c { s with seqs := s.seqs.set t (k % 18446744073709551616) } :=
            fun t => hi.frame (frame_quiet rfl rfl rfl rfl rfl)
          split
          · rename_i hty
            exact change_build (hi0 .name) rfl .name (by simp) true (k % 18446744073709551616)
              ⟨c.router, inc64 (k % 18446744073709551616), s.expirationPoint c, .names (PrefixMap.ofList s.npl)⟩ rfl rfl rfl rfl rfl rfl
              (Or.inr ⟨n, k, last, rfl, ho, hl, hty, rfl⟩) ⟨nofun, nofun⟩
          · rename_i hty
            split
            · rename_i hm
              exact change_build (hi0 .adjacency) rfl .adjacency (by simp) (c.hyp ≠ .on) (k % 18446744073709551616)
                ⟨c.router, inc64 (k % 18446744073709551616), s.expirationPoint c, .adj (AdjacencyList.lsaList s.adjs)⟩ rfl rfl rfl rfl rfl rfl
                (Or.inr ⟨n, k, last, rfl, ho, hl, hty, rfl⟩) ⟨fun _ => by rw [hm]; simp, nofun⟩
            · exact frame _ rfl
          · rename_i hty
            split
            · rename_i hm
              exact change_build (hi0 .coordinate) rfl .coordinate (by simp) (c.hyp ≠ .off) (k % 18446744073709551616)
                ⟨c.router, inc64 (k % 18446744073709551616), s.expirationPoint c, .coord c.radius c.angles⟩ rfl rfl rfl ⟨rfl, rfl⟩ rfl rfl
                (Or.inr ⟨n, k, last, rfl, ho, hl, hty, rfl⟩) ⟨nofun, fun _ => by rw [hm]; simp⟩
            · exact frame _ rfl
          · exact frame _ rfl
        · exact frame _ rfl
      · split
        · split
          · exact frame _ rfl
          · exact frame _ (expressInterest_still (s.emit _) _ _ _).db
        · exact frame _ rfl
    · exact frame _ rfl
  | fetched i p =>
    show ∀ o' ∈ (fetched c s i p).db, Change c s (.fetched i p) (fetched c s i p) o'
    unfold fetched
    split
    · exact frame _ rfl
    · rename_i f hf
      unfold fetchDone
      dsimp only
      generalize hs0 : ({ s with
        fetches := s.fetches.eraseIdx i
        storage := s.storage.filter (fun n => !Name.isPrefixOf (f.lsaName ++ [Comp.number ((f.seq + 18446744073709551615) % 18446744073709551616)]) n) } : Lsdb) = s0
      have h0 : s0.db = s.db := by rw [← hs0]
      have hi0 : Inv c s0 := by rw [← hs0]; exact hi.frame (frame_quiet rfl rfl rfl rfl rfl)
      unfold afterFetch
      split
      · exact frame _ h0
      · rename_i s1 h1
        have h2 := (noteSeq_frame h1).db.trans h0
        have hi1 : Inv c s1 := hi0.frame (noteSeq_frame h1)
        dsimp only
        split
        · exact frame _ h2
        · split
          · exact frame _ h2
          · unfold installFetched
            cases p with
            | none => exact frame _ h2
            | some l =>
              dsimp only [Option.map]
              split
              · intro o' ho'
                rcases mem_install hi1 _ ho' with h3 | h3
                · rw [h2] at h3; exact .kept o' h3 rfl
                · refine .fetched i l _ rfl (h3.congr h2) rfl ?_ rfl rfl
                  show l.content.norm.type = l.content.type
                  cases l.content <;> rfl
              · exact frame _ h2
  | fetchError i t => exact frame _ (fetchError_frame c s i t).db
  | retryTimer i => exact frame _ (retryTimer_frame s i).db
  | interest n v =>
    refine frame _ ?_
    show (if n.length ≤ maxComponents then processInterest c s n v else s).db = s.db
    split
    · exact (processInterest_frame c s n v).db
    · rfl

end Lsdb
end Nlsr
