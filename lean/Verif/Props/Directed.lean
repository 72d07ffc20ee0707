import Verif.Model.Directed
import Verif.Props.Sync
/- C112: an LSA is asked for where it was reported, and then everywhere. -/
namespace Nlsr
open Lsdb

namespace Directed

/-- The events as `Model/Lsdb` has them. -/
def plain (p : SyncProto) : Op → List Lsdb.Op
  | .report m => [.sync (Sync.onUpdate p m).1 (Sync.onUpdate p m).2.1]
  | .retryTimer i => [.retryTimer i]
  | .other (.sync _ _) => []
  | .other (.retryTimer _) => []
  | .other op => [op]

theorem express_db (S : Directed) (n : Name) (k f d : Nat) : (expressInterest S n k f d).db = Lsdb.expressInterest S.db n k d := by
  unfold expressInterest Lsdb.expressInterest
  cases S.db.noteSeq n k <;> rfl

theorem sync_db (c : LConf) (S : Directed) (n : Name) (k f : Nat) : (sync c S n k f).db = Lsdb.sync c S.db n k := by
  unfold sync Lsdb.sync
  cases syncOrigin n with
  | none => rfl
  | some o =>
    cases n.fromEnd 1 with
    | none => rfl
    | some last =>
      dsimp only
      unfold processUpdate Lsdb.processUpdate
      by_cases h1 : o = c.router
      · rw [if_pos h1, if_pos h1]
        split <;> rfl
      · rw [if_neg h1, if_neg h1]
        split
        · split
          · rfl
          · rw [express_db]
        · rfl

/-- The two models agree but for the faces. -/
theorem step_db (p : SyncProto) (c : LConf) (S : Directed) (op : Op) : (step p c S op).db = Lsdb.run c S.db (plain p op) := by
  cases op with
  | report m => exact sync_db c S _ _ _
  | retryTimer i =>
    show (retryTimer S i).db = Lsdb.retryTimer S.db i
    unfold retryTimer Lsdb.retryTimer
    cases S.db.retries[i]? with
    | none => rfl
    | some x =>
      obtain ⟨due, f⟩ := x
      dsimp only
      split
      · rfl
      · rw [express_db]
  | other op => cases op <;> rfl

theorem run_db (p : SyncProto) (c : LConf) (S : Directed) (ops : List Op) :
    (run p c S ops).db = Lsdb.run c S.db (ops.flatMap (plain p)) := by
  induction ops generalizing S with
  | nil => rfl
  | cons op ops ih =>
    show (run p c (step p c S op) ops).db = _
    rw [ih, step_db, List.flatMap_cons]
    unfold Lsdb.run
    rw [List.foldl_append]

/-- The LSA interests among what was done. -/
def interests (l : List Out) : List (Name × Nat) := l.filterMap (fun | .interest n k => some (n, k) | _ => none)

theorem interests_none {l : List Out} (h : ∀ o ∈ l, Out.isInterest o = false) : interests l = [] := by
  unfold interests
  rw [List.filterMap_eq_nil_iff]
  intro o ho
  have := h o ho
  cases o <;> first | rfl | cases this

theorem interests_append (a b : List Out) : interests (a ++ b) = interests a ++ interests b := List.filterMap_append ..

theorem interests_logs {s s' : Lsdb} (h : Logs (fun o => Out.isInterest o = false) s s') : interests s'.log = interests s.log := by
  obtain ⟨l, e, hl⟩ := h
  rw [e, interests_append, interests_none hl, List.append_nil]

theorem noteSeq_log {s s' : Lsdb} {n : Name} {k : Nat} (h : s.noteSeq n k = some s') : s'.log = s.log := by
  unfold noteSeq at h
  split at h
  · cases h; rfl
  · split at h
    · cases h; rfl
    · split at h
      · cases h
      · cases h; rfl

/-- What an interest adds. -/
theorem express_asks (S : Directed) (n : Name) (k f d : Nat) :
    ((expressInterest S n k f d).asks = S.asks ∧ interests (expressInterest S n k f d).db.log = interests S.db.log) ∨
    ((expressInterest S n k f d).asks = S.asks ++ [(n, k, f)] ∧
      interests (expressInterest S n k f d).db.log = interests S.db.log ++ [(n, k)]) := by
  unfold expressInterest
  cases h : S.db.noteSeq n k with
  | none => exact Or.inl ⟨rfl, rfl⟩
  | some s =>
    refine Or.inr ⟨rfl, ?_⟩
    show interests (s.log ++ [.interest n k]) = _
    rw [interests_append, noteSeq_log h]
    rfl

/-- What an event reports: LSA name, number and face. -/
def told (p : SyncProto) : Op → Option (Name × Nat × Nat)
  | .report m => some (match p with | .chronosync => Name.getPrefix m.node (-1) | _ => m.node, m.high % 2 ^ 64,
      match p with | .chronosync => 0 | _ => m.face)
  | _ => none

theorem afterFetch_interests (c : LConf) (s : Lsdb) (f : Fetch) (p : Option Lsa) :
    interests (afterFetch c s f p).log = interests s.log := by
  unfold afterFetch
  cases h0 : s.noteSeq f.lsaName f.seq with
  | none => rfl
  | some s1 =>
    dsimp only
    rw [← noteSeq_log h0]
    split
    · rfl
    · split
      · rfl
      · unfold installFetched
        split
        · rfl
        · split
          · exact interests_logs (installLsa_sig c _ _).nf.log
          · rfl

/-- Only reports and retries make interests. -/
theorem other_interests (c : LConf) (s : Lsdb) (op : Lsdb.Op) (h1 : ∀ n k, op ≠ .sync n k) (h2 : ∀ i, op ≠ .retryTimer i) :
    interests (Lsdb.step c s op).log = interests s.log := by
  cases op with
  | sync n k => exact absurd rfl (h1 n k)
  | retryTimer i => exact absurd rfl (h2 i)
  | clock dt sys => rfl
  | setAdjs l => rfl
  | setNpl l => rfl
  | buildName => exact interests_logs (buildName_nf c s).log
  | scheduleBuild =>
    show interests (scheduleBuild c s).log = _
    unfold scheduleBuild
    dsimp only
    split <;> rfl
  | buildTimer => exact interests_logs (buildTimer_nf c s).log
  | timer eid => exact interests_logs (fire_nf c s eid).log
  | fetched i p =>
    show interests (fetched c s i p).log = _
    unfold fetched
    split
    · rfl
    · unfold fetchDone; rw [afterFetch_interests]
  | fetchError i t =>
    show interests (fetchError c s i t).log = _
    unfold fetchError
    split
    · rfl
    · unfold fetchFailed
      split <;> rfl
  | segment n => rfl
  | segmentGone n => rfl
  | interest n v =>
    show interests (if n.length ≤ maxComponents then s.processInterest c n v else s).log = _
    split
    · exact interests_logs (processInterest_nf c s n v).log
    · rfl
  | fifoGone n => rfl

theorem sync_asks (c : LConf) (S : Directed) (n : Name) (k f : Nat) :
    ((sync c S n k f).asks = S.asks ∧ interests (sync c S n k f).db.log = interests S.db.log) ∨
    ((sync c S n k f).asks = S.asks ++ [(n, k, f)] ∧ interests (sync c S n k f).db.log = interests S.db.log ++ [(n, k)]) := by
  unfold sync
  split
  · rename_i o last _ _
    unfold processUpdate
    split
    · split
      · exact Or.inl ⟨rfl, interests_logs (ownUpdate_nf c S.db _ _).log⟩
      · exact Or.inl ⟨rfl, rfl⟩
    · split
      · split
        · exact Or.inl ⟨rfl, rfl⟩
        · have he : interests (S.db.emit (.newLsa n k o)).log = interests S.db.log := by
            show interests (S.db.log ++ [.newLsa n k o]) = _
            rw [interests_append]
            exact List.append_nil _
          rw [← he]
          exact express_asks { S with db := S.db.emit (.newLsa n k o) } n k f (S.db.now + refreshMax * nsPerSec)
      · exact Or.inl ⟨rfl, rfl⟩
  · exact Or.inl ⟨rfl, rfl⟩

/-- What one event adds to the interests sent. -/
theorem step_asks (p : SyncProto) (c : LConf) (S : Directed) (op : Op) :
    ((step p c S op).asks = S.asks ∧ interests (step p c S op).db.log = interests S.db.log) ∨
    ∃ n k f, (step p c S op).asks = S.asks ++ [(n, k, f)] ∧ interests (step p c S op).db.log = interests S.db.log ++ [(n, k)] ∧
      (told p op = some (n, k, f) ∨ ((∃ i due g, op = .retryTimer i ∧ S.db.retries[i]? = some (due, g) ∧ g.lsaName = n ∧ g.seq = k) ∧ f = 0)) := by
  cases op with
  | report m =>
    have ht : told p (.report m) = some ((Sync.onUpdate p m).1, (Sync.onUpdate p m).2.1 % 18446744073709551616, (Sync.onUpdate p m).2.2) := by
      cases p <;> rfl
    rw [ht]
    show ((sync c S (Sync.onUpdate p m).1 ((Sync.onUpdate p m).2.1 % 18446744073709551616) (Sync.onUpdate p m).2.2).asks = S.asks ∧ _) ∨ _
    rcases sync_asks c S (Sync.onUpdate p m).1 ((Sync.onUpdate p m).2.1 % 18446744073709551616) (Sync.onUpdate p m).2.2 with h | ⟨h1, h2⟩
    · exact Or.inl h
    · exact Or.inr ⟨_, _, _, h1, h2, Or.inl rfl⟩
  | retryTimer i =>
    show ((retryTimer S i).asks = S.asks ∧ interests (retryTimer S i).db.log = _) ∨ ∃ n k f, (retryTimer S i).asks = _ ∧ interests (retryTimer S i).db.log = _ ∧ _
    unfold retryTimer
    cases hr : S.db.retries[i]? with
    | none => exact Or.inl ⟨rfl, rfl⟩
    | some x =>
      obtain ⟨due, g⟩ := x
      dsimp only
      by_cases hd : S.db.now < due
      · rw [if_pos hd]; exact Or.inl ⟨rfl, rfl⟩
      · rw [if_neg hd]
        rcases express_asks { S with db := { S.db with retries := S.db.retries.eraseIdx i } } g.lsaName g.seq 0 g.deadline with ⟨h1, h2⟩ | ⟨h1, h2⟩
        · exact Or.inl ⟨h1, h2⟩
        · exact Or.inr ⟨_, _, _, h1, h2, Or.inr ⟨⟨i, due, g, rfl, hr, rfl, rfl⟩, rfl⟩⟩
  | other op =>
    left
    cases op with
    | sync n k => exact ⟨rfl, rfl⟩
    | retryTimer i => exact ⟨rfl, rfl⟩
    | _ => exact ⟨rfl, other_interests c S.db _ (by intros; nofun) (by intros; nofun)⟩

/-- C112: all LSA interests a router sends are among those followed here, in order; and those tied to a face are, in order, some of
what was reported over that face: each report leads to at most one. -/
theorem C112_sent (p : SyncProto) (c : LConf) (disk : Option Seqs) (adjs : AdjacencyList) (npl : List PrefixInfo) (sys : Int) (ops : List Op) :
    let S := run p c { db := Lsdb.init c disk adjs npl sys } ops
    S.db = Lsdb.run c (Lsdb.init c disk adjs npl sys) (ops.flatMap (plain p)) ∧
    S.asks.map (fun a => (a.1, a.2.1)) = interests S.db.log ∧
    (S.asks.filter (fun a => a.2.2 != 0)).Sublist (ops.filterMap (told p)) := by
  refine ⟨run_db p c _ ops, ?_⟩
  have key : ∀ (ops : List Op) (S : Directed) (l : List (Name × Nat × Nat)), S.asks.map (fun a => (a.1, a.2.1)) = interests S.db.log →
      (S.asks.filter (fun a => a.2.2 != 0)).Sublist l →
      (run p c S ops).asks.map (fun a => (a.1, a.2.1)) = interests (run p c S ops).db.log ∧
      ((run p c S ops).asks.filter (fun a => a.2.2 != 0)).Sublist (l ++ ops.filterMap (told p)) := by
    intro ops
    induction ops with
    | nil => intro S l h1 h2; exact ⟨h1, by rw [List.filterMap_nil, List.append_nil]; exact h2⟩
    | cons op ops ih =>
      intro S l h1 h2
      have hl : l ++ (op :: ops).filterMap (told p) = (l ++ (told p op).toList) ++ ops.filterMap (told p) := by
        rw [List.append_assoc]
        congr 1
        cases h : told p op <;> simp [h]
      rw [hl]
      rcases step_asks p c S op with ⟨e1, e2⟩ | ⟨n, k, f, e1, e2, e3⟩
      · exact ih _ _ (by rw [e1, e2]; exact h1) (by rw [e1]; exact h2.trans (List.sublist_append_left _ _))
      · refine ih _ _ (by rw [e1, e2, List.map_append, h1]; rfl) ?_
        rw [e1, List.filter_append]
        refine List.Sublist.append h2 ?_
        rcases e3 with e3 | ⟨-, rfl⟩
        · rw [e3]; exact List.filter_sublist
        · exact List.nil_sublist _
  have := key ops { db := Lsdb.init c disk adjs npl sys } [] ?_ (List.nil_sublist _)
  · simpa using this
  · show [] = interests (Lsdb.init c disk adjs npl sys).log
    have hinit : Logs (fun o => Out.isInterest o = false) (boot c disk adjs npl sys) (Lsdb.init c disk adjs npl sys) := by
      unfold Lsdb.init
      dsimp only
      split
      · exact (buildName_nf c _).log
      · exact ((buildName_nf c _).trans (buildCoord_nf c _)).log
    rw [interests_logs hinit]
    rfl

/-- C112: an LSA that is newer than what is stored, of a type that is used, and no lower than what was asked for before, is asked for
at once, over the face the report came over; with ChronoSync, which does not say, over any. -/
theorem C112_first (p : SyncProto) {c : LConf} {S : Directed} (h : Reachable c S.db) {r : RouterConf} (hr : Peer c r) (t : LsaType)
    (ht : t ≠ .base) (k f : Nat) (hk : k < 2 ^ 64) (hu : Used c t) (hn : Newer S.db r.routerPrefix t k)
    (hh : ∀ n, S.db.highestOf (r.lsaUserPrefix t) = some n → n ≤ k) :
    (step p c S (.report ⟨Sync.node p (r.lsaUserPrefix t), k, f⟩)).asks =
      S.asks ++ [(r.lsaUserPrefix t, k, match p with | .chronosync => 0 | _ => f)] := by
  have hm : told p (.report ⟨Sync.node p (r.lsaUserPrefix t), k, f⟩) = some (r.lsaUserPrefix t, k, match p with | .chronosync => 0 | _ => f) := by
    have hp : Name.getPrefix (r.lsaUserPrefix t ++ [Comp.number 0]) (-1) = r.lsaUserPrefix t := by
      refine Sync.getPrefix_snoc _ _ ?_
      have := hr.short
      simp only [RouterConf.lsaUserPrefix, RouterConf.syncUserPrefix, RouterConf.lsaPrefix, List.length_append, List.length_cons, List.length_nil]
      omega
    cases p
    · simp only [told, Sync.node, hp, Nat.mod_eq_of_lt hk]
    · simp only [told, Sync.node, Nat.mod_eq_of_lt hk]
    · simp only [told, Sync.node, Nat.mod_eq_of_lt hk]
  have hpl : plain p (.report ⟨Sync.node p (r.lsaUserPrefix t), k, f⟩) = [.sync (r.lsaUserPrefix t) k] := by
    have hp : Name.getPrefix (r.lsaUserPrefix t ++ [Comp.number 0]) (-1) = r.lsaUserPrefix t := by
      refine Sync.getPrefix_snoc _ _ ?_
      have := hr.short
      simp only [RouterConf.lsaUserPrefix, RouterConf.syncUserPrefix, RouterConf.lsaPrefix, List.length_append, List.length_cons, List.length_nil]
      omega
    cases p
    · simp only [plain, Sync.onUpdate, Sync.node, hp]
    · rfl
    · rfl
  have hlog := ((C87_asked h hr t ht k hk).1 hu hn hh).1
  rcases step_asks p c S (.report ⟨Sync.node p (r.lsaUserPrefix t), k, f⟩) with ⟨-, e2⟩ | ⟨n, k', f', e1, -, e3⟩
  · exfalso
    rw [step_db, hpl] at e2
    change interests (Lsdb.step c S.db (.sync (r.lsaUserPrefix t) k)).log = _ at e2
    rw [hlog, interests_append] at e2
    have := congrArg List.length e2
    simp [interests] at this
  · rcases e3 with e3 | ⟨⟨_, _, _, e, -⟩, -⟩
    · rw [hm] at e3
      cases e3
      exact e1
    · cases e

/-- C112: if that fails before the time to answer is over, and no higher number was reported meanwhile, the LSA is asked for again
and over any face: at once if nothing came, after the lifetime of an interest if what came was refused. -/
theorem C112_again (p : SyncProto) (c : LConf) (S : Directed) (i : Nat) (g : Fetch) (hi : S.db.fetches[i]? = some g)
    (hd : S.db.now < g.deadline) (hh : S.db.highestOf g.lsaName = some g.seq) (timeout : Bool) (dt : Nat) (sys : Int)
    (hdt : (if timeout then 0 else c.lifetime * 1000000000) ≤ dt) :
    (run p c S [.other (.fetchError i timeout), .other (.clock dt sys), .retryTimer S.db.retries.length]).asks =
      S.asks ++ [(g.lsaName, g.seq, 0)] := by
  obtain ⟨hr, -, -, hf⟩ := C32_retry c S.db i timeout g hi
  have hr := hr ⟨hd, hh⟩
  have hhi : (Lsdb.step c S.db (.fetchError i timeout)).highest = S.db.highest ∧
      (Lsdb.step c S.db (.fetchError i timeout)).now = S.db.now := by
    show (fetchError c S.db i timeout).highest = _ ∧ (fetchError c S.db i timeout).now = _
    unfold fetchError
    rw [hi]
    dsimp only
    unfold fetchFailed
    split <;> exact ⟨rfl, rfl⟩
  show (retryTimer { db := Lsdb.step c (Lsdb.step c S.db (.fetchError i timeout)) (.clock dt sys), asks := S.asks } S.db.retries.length).asks = _
  generalize hs1 : Lsdb.step c S.db (.fetchError i timeout) = s1 at hr hhi ⊢
  unfold retryTimer
  have hget : (Lsdb.step c s1 (.clock dt sys)).retries[S.db.retries.length]? =
      some (S.db.now + (if timeout then 0 else c.lifetime * 1000000000), g) := by
    show s1.retries[S.db.retries.length]? = _
    rw [hr]
    simp
  dsimp only
  rw [hget]
  dsimp only
  rw [if_neg (by
    show ¬ s1.now + dt < _
    rw [hhi.2]
    omega)]
  have hx : ∀ T : Directed, T.db.highest = S.db.highest → (expressInterest T g.lsaName g.seq 0 g.deadline).asks = T.asks ++ [(g.lsaName, g.seq, 0)] := by
    intro T e
    have hho : T.db.highestOf g.lsaName = some g.seq := by
      unfold highestOf at hh ⊢
      rw [e]
      exact hh
    unfold expressInterest noteSeq
    rw [hho]
    dsimp only
    rw [if_neg (Nat.lt_irrefl _), if_neg (Nat.lt_irrefl _)]
  exact hx _ hhi.1

/-- A router hears of a Name LSA over face 7, asks there, gets nothing, and asks everywhere; another report over face 9 is followed
there. -/
example : (run .psync (exConf .off) { db := exStart .off } [.report ⟨exPeer2.lsaUserPrefix .name, 4, 7⟩, .other (.fetchError 0 true),
      .other (.clock 0 0), .retryTimer 0, .report ⟨exPeer2.lsaUserPrefix .name, 5, 9⟩]).asks =
    [(exPeer2.lsaUserPrefix .name, 4, 7), (exPeer2.lsaUserPrefix .name, 4, 0), (exPeer2.lsaUserPrefix .name, 5, 9)] := by
  decide +kernel

end Directed
end Nlsr
