import Verif.Lemmas.RouterInv
/- The name prefix table speaks to the FIB only of names that other routers' LSAs mention. -/
namespace Nlsr
namespace Npt

/-- All names in the table, and all names the FIB was told about, are as `P` says. -/
structure Within (P : Name → Prop) (s : Npt) : Prop where
  table : ∀ e ∈ s.table, P e.name
  out : ∀ x ∈ s.out, P (cmdName x)

namespace Within
variable {P : Name → Prop} {s : Npt}

theorem congr {s' : Npt} (h : Within P s) (ht : s'.table = s.table) (ho : s'.out = s.out) : Within P s' :=
  ⟨by rw [ht]; exact h.table, by rw [ho]; exact h.out⟩

theorem emit (h : Within P s) {x : FibCmd} (hx : P (cmdName x)) : Within P (s.emit x) :=
  ⟨h.table, fun y hy => by
    rcases List.mem_append.1 hy with hy | hy
    · exact h.out y hy
    · rw [List.mem_singleton.1 hy]; exact hx⟩

theorem modEntry (h : Within P s) (eid : Nat) {f : NptEntry → NptEntry} (hf : ∀ e, (f e).name = e.name) : Within P (s.modEntry eid f) :=
  ⟨fun e he => by
    obtain ⟨x, hx, rfl⟩ := List.mem_map.1 he
    split
    · rw [hf]; exact h.table x hx
    · exact h.table x hx, h.out⟩

theorem touch (h : Within P s) (k : Name × Name) : Within P (s.touchCost k) :=
  h.congr (by unfold touchCost; split <;> rfl) (by unfold touchCost; split <;> rfl)

theorem fibUpdate (h : Within P s) {n : Name} (hn : P n) (d : Name) (l : NexthopList) (fl : Nat) : Within P (s.fibUpdate n d l fl) := by
  unfold Npt.fibUpdate
  split
  · exact h.emit hn
  · split
    · exact (h.touch _).emit hn
    · exact (h.touch _).emit hn

theorem addEntry (h : Within P s) {n : Name} (hn : P n) (d : Name) (fl : Nat) : Within P (s.addEntry n d fl) := by
  unfold Npt.addEntry
  have h1 : Within P (s.ensurePool d).1 := by
    unfold ensurePool
    split
    · exact h
    · exact ⟨h.table, h.out⟩
  generalize s.ensurePool d = x at h1 ⊢
  obtain ⟨s1, pid⟩ := x
  dsimp only at h1 ⊢
  have h2 : Within P (s1.ensureEntry n fl).1 := by
    unfold ensureEntry
    split
    · dsimp only
      split
      · exact h1.modEntry (f := fun x => { x with flags := fl }) _ (fun _ => rfl)
      · exact h1
    · refine ⟨fun e he => ?_, h1.out⟩
      rcases List.mem_append.1 he with he | he
      · exact h1.table e he
      · rw [List.mem_singleton.1 he]; exact hn
  generalize s1.ensureEntry n fl = y at h2 ⊢
  obtain ⟨s2, eid⟩ := y
  dsimp only at h2 ⊢
  have h3 : Within P (s2.addRte eid pid) := by
    unfold addRte
    split
    · exact h2
    · split
      · exact h2
      · exact Within.modEntry (s := s2.modObj pid _) (f := fun e => { e with rtes := e.rtes ++ [pid] })
          (h2.congr rfl rfl) _ (fun _ => rfl)
  have h4 : Within P ((s2.addRte eid pid).regen eid) :=
    h3.modEntry (f := fun e => { e with nhl := (s2.addRte eid pid).merge e.rtes }) _ (fun _ => rfl)
  have h5 : Within P (((s2.addRte eid pid).regen eid).tellFib eid n d) := by
    unfold tellFib
    split
    · exact h4
    · split
      · exact h4.fibUpdate hn ..
      · exact h4.emit hn
  exact h5.congr rfl rfl

theorem removeEntry (h : Within P s) {n : Name} (hn : P n) (d : Name) : Within P (s.removeEntry n d) := by
  unfold Npt.removeEntry
  split
  · exact h
  · split
    · exact h
    · rename_i o _ _ e _
      have h1 : Within P (s.removeRte e o.pid) := by
        unfold removeRte
        split
        · exact Within.modEntry (s := s.modObj o.pid _) (f := fun e => { e with rtes := e.rtes.erase o.pid })
            (h.congr rfl rfl) _ (fun _ => rfl)
        · exact h
      generalize s.removeRte e o.pid = s1 at h1 ⊢
      have h2 : Within P (s1.dropUnused o.pid) := by
        unfold dropUnused
        split
        · exact h1.congr rfl rfl
        · exact h1
      generalize s1.dropUnused o.pid = s2 at h2 ⊢
      unfold finishRemove
      split
      · exact h2
      · split
        · refine Within.emit (s := { s2 with table := s2.table.filter (fun x => !(x.eid == e.eid)) }) (x := .remove n) ⟨fun x hx => ?_, h2.out⟩ hn
          exact h2.table x (List.mem_filter.1 hx).1
        · exact Within.fibUpdate (s := s2.regen e.eid)
            (h2.modEntry (f := fun e => { e with nhl := s2.merge e.rtes }) _ (fun _ => rfl)) hn ..

theorem foldl {α : Type} {f : Npt → α → Npt} {Q : α → Prop} (hf : ∀ s a, Q a → Within P s → Within P (f s a)) (l : List α)
    (hl : ∀ a ∈ l, Q a) : ∀ s, Within P s → Within P (l.foldl f s) := by
  induction l with
  | nil => exact fun s h => h
  | cons a as ih =>
    exact fun s h => ih (fun b hb => hl b (List.mem_cons_of_mem _ hb)) _ (hf s a (hl a List.mem_cons_self) h)

theorem refreshObj (h : Within P s) (pid : Nat) : Within P (s.refreshObj pid) := by
  have hr : ∀ d (s : Npt) (r : Name × Nat), True → Within P s → Within P (s.readd d r) := by
    intro d s r _ h
    unfold readd
    split
    · exact h.congr rfl rfl
    · rename_i e he
      exact h.addEntry (h.table e (List.mem_of_find?_eq_some he)) ..
  unfold Npt.refreshObj
  split
  · exact h
  · split
    · split
      · exact h
      · rename_i o _ _ e _ _
        exact foldl (hr o.dest) o.names (fun _ _ => trivial) (s.modObj pid (fun o => { o with hops := e.hops })) (h.congr rfl rfl)
    · rename_i o _ _ _
      exact foldl (hr o.dest) o.names (fun _ _ => trivial) (s.modObj pid (fun o => { o with hops := [] })) (h.congr rfl rfl)

theorem routes (h : Within P s) (t : RTable) : Within P (s.updateWithNewRoute t) := by
  unfold updateWithNewRoute
  exact foldl (f := Npt.refreshObj) (Q := fun _ => True) (fun s a _ h => h.refreshObj a) _ (fun _ _ => trivial)
    { s with rt := t } (h.congr rfl rfl)

theorem advertise (h : Within P s) (own r : Name) {p : PrefixInfo} (hp : P p.name) : Within P (Npt.advertise own r s p) := by
  unfold Npt.advertise
  split
  · exact h
  · exact Within.addEntry (s := s.setCost (r, p.name) p.cost) (h.congr rfl rfl) hp ..

theorem withdraw (h : Within P s) (own r : Name) {n : Name} (hn : P n) : Within P (Npt.withdraw own r s n) := by
  unfold Npt.withdraw
  split
  · exact h
  · exact (h.congr (s' := s.eraseCost (r, n)) (by unfold eraseCost; split <;> rfl) (by unfold eraseCost; split <;> rfl)).removeEntry hn _

theorem lsdb (h : Within P s) {own : Name} {k : ModKind} {l : Lsa} {a r : List PrefixInfo} (ho : own ≠ l.origin → P l.origin)
    (hl : own ≠ l.origin → ∀ p ∈ lsaNames l ++ a ++ r, P p.name) : Within P (s.updateFromLsdb own k l a r) := by
  unfold updateFromLsdb
  split
  · exact h
  · rename_i hne
    have hn := hl hne
    have hm : ∀ q : List PrefixInfo, (∀ p ∈ q, p ∈ lsaNames l ++ a ++ r) → ∀ n ∈ q.map (·.name), P n := by
      intro q hq n hx
      obtain ⟨p, hp, rfl⟩ := List.mem_map.1 hx
      exact hn p (hq p hp)
    cases k with
    | installed =>
      exact foldl (f := Npt.advertise own l.origin) (Q := fun p => P p.name) (fun s p hp h => h.advertise own l.origin hp) (lsaNames l)
        (fun p hp => hn p (by simp [hp])) _ (h.addEntry (ho hne) ..)
    | updated =>
      dsimp only
      split
      · exact foldl (fun s n hp h => h.withdraw own l.origin hp) _ (hm r (fun p hp => by simp [hp])) _
          (foldl (f := Npt.advertise own l.origin) (Q := fun p => P p.name) (fun s p hp h => h.advertise own l.origin hp) a
            (fun p hp => hn p (by simp [hp])) _ h)
      · exact h
    | removed =>
      exact foldl (fun s n hp h => h.withdraw own l.origin hp) _ (hm (lsaNames l) (fun p hp => by simp [hp])) _
        (h.removeEntry (ho hne) _)

end Within
end Npt

namespace Core
open Npt

/-- Every name that another router's LSA has brought up is as `P` says: the routers' names and their prefixes. -/
def Mentions (own : Name) (P : Name → Prop) (log : List Out) : Prop :=
  ∀ k l a r, Out.signal k l a r ∈ log → own ≠ l.origin → P l.origin ∧ ∀ p ∈ lsaNames l ++ a ++ r, P p.name

theorem within_step {P : Name → Prop} {c : CConf} {s : Core} (h : Within P s.npt) (op : Op)
    (hs : Mentions c.router P (step c s op).lsdb.log) : Within P (step c s op).npt := by
  have hls : ∀ (db : List Obj) (s : Core), Within P s.npt → Within P (calcLs c db s).npt := by
    intro db s h
    unfold calcLs
    split
    · exact h
    · split
      · exact h
      · split
        · exact h
        · exact h.routes _
  have hhy : ∀ (db : List Obj) (d : Bool) (s : Core), Within P s.npt → Within P (calcHyp c db d s).npt := by
    intro db d s h
    unfold calcHyp
    split
    · exact h
    · split
      · exact h
      · exact h.routes _
  cases op with
  | lsdb op =>
    show Within P (lsdbStep c s op).npt
    have hs : Mentions c.router P (Lsdb.step c.lsdb s.lsdb op).log := hs
    unfold lsdbStep
    dsimp only
    have hs : Mentions c.router P ((Lsdb.step c.lsdb s.lsdb op).log.drop s.lsdb.log.length) :=
      fun k l a r hm => hs k l a r (List.mem_of_mem_drop hm)
    revert hs
    generalize (Lsdb.step c.lsdb s.lsdb op).log.drop s.lsdb.log.length = l
    generalize (Lsdb.step c.lsdb s.lsdb op).now = now
    have key : ∀ (l : List Out) (p : RtState × Npt), Mentions c.router P l → Within P p.2 → Within P (l.foldl (hear c now) p).2 := by
      intro l
      induction l with
      | nil => exact fun p _ h => h
      | cons o os ih =>
        intro p hs h
        refine ih _ (fun k l a r hm => hs k l a r (List.mem_cons_of_mem _ hm)) ?_
        unfold hear
        split
        · rename_i k l a r
          dsimp only
          have hx := hs k l a r List.mem_cons_self
          refine Within.lsdb ?_ (fun hne => (hx hne).1) (fun hne => (hx hne).2)
          unfold rtHear
          dsimp only
          split
          · exact h.routes _
          · exact h
        · exact h
    exact fun hs => key l _ hs h
  | scheduleCalc => exact h
  | calcTimer i db =>
    show Within P (calcTimer c s i db).npt
    unfold calcTimer
    split
    · exact h
    · split
      · exact h
      · unfold calculate
        dsimp only
        split
        · exact hls _ _ h
        · exact hhy _ _ _ (hls _ _ h)
        · exact hhy _ _ _ h
  | rehash objs =>
    refine h.congr ?_ ?_
    · show (if objs.isPerm s.npt.objs then _ else _ : Npt).table = _
      split <;> rfl
    · show (if objs.isPerm s.npt.objs then _ else _ : Npt).out = _
      split <;> rfl
  | rehashNames pid names => exact h.congr rfl rfl

end Core
end Nlsr
