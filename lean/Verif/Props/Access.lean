import Verif.Model.Access
import Verif.Props.Cmd
import Verif.Props.Trust
import Verif.Props.Lsdb
/- C103: who can change the prefixes a router advertises. -/
namespace Nlsr.Access
open Schema (looks Vouched commandPasses updateShipped)

/-- The request is the command `module/verb` for the prefix, under one of the two names NLSR listens to. -/
def Orders (e : Env) (m v : String) (n : Name) (r : Request) : Prop :=
  ∃ top p rest q, (top = e.router ++ [Comp.str "nlsr"] ∨ top = nm ["localhost", "nlsr"]) ∧
    r.name = top ++ nm [m, v] ++ p :: rest ∧ e.decode (nm [m, v]) p = some q ∧ q.name = some n

/-- The request's name has this command in it, whatever its parameters are. -/
def Names (e : Env) (m v : String) (r : Request) : Prop :=
  e.router ++ [Comp.str "nlsr"] ++ nm [m, v] <+: r.name ∨ nm ["localhost", "nlsr"] ++ nm [m, v] <+: r.name

/-- The request is signed by an operator of the site and was sent on the host itself (`/localhost`). -/
def ByOperator (site : Name) (r : Request) : Prop :=
  (∃ i t, r.key = some (i ++ Comp.str "KEY" :: t) ∧ site <+: i ∧ ∃ o ∈ i, looks "%C1.Operator" o = true) ∧
  r.name.head? = some (Comp.str "localhost")

/-- The validator does what the shipped rules say, with the site's certificate as only anchor. -/
structure Guarded (e : Env) (site : Name) : Prop where
  key : Comp.str "KEY" ∉ site
  rules : ∃ (anchor : Cert) (x y z : Comp), anchor.name = site ++ [Comp.str "KEY", x, y, z] ∧
    ∀ r, e.valid r = true → r.name.length < 2 ^ 63 ∧
      ∃ k l, r.key = some k ∧ commandPasses r.name k = true ∧ Vouched updateShipped [anchor] k l

theorem Guarded.operator {e : Env} {site : Name} (h : Guarded e site) {r : Request} (hr : e.valid r = true) : ByOperator site r := by
  obtain ⟨anchor, x, y, z, ha, hv⟩ := h.rules
  obtain ⟨hl, k, l, hk, hc, hl'⟩ := hv r hr
  obtain ⟨i, t, e1, e2, e3⟩ := Schema.C101_site h.key ha hl hc hl'
  obtain ⟨⟨v, a, b, c, d, f, en, -⟩, -⟩ := (Schema.C101_command _ k hl).1 hc
  exact ⟨⟨i, t, by rw [hk, e1], e2, e3⟩, by rw [en]; rfl⟩

/-! ### one handler -/

theorem handle_inv {c : LConf} {e : Env} {r : Request} {s : State} (h : CmdState.Inv c s.cmd) (x : Name × Handler) :
    CmdState.Inv c (handle c e r s x).cmd := by
  unfold handle
  split
  · exact h
  · split
    · exact h
    · split
      · split
        · exact h.step (.cmd _)
        · exact h
      · exact h

theorem handle_names {c : LConf} {e : Env} {r : Request} {s : State} (h : CmdState.Inv c s.cmd) (x : Name × Handler) (n : Name) :
    (n ∈ (handle c e r s x).cmd.npl.names ↔ n ∈ s.cmd.npl.names) ∨
    (authorized e x.2 r = true ∧ ∃ p q, r.name[(x.1 ++ x.2.rel).length]? = some p ∧ e.decode x.2.rel p = some q ∧ q.name = some n) := by
  unfold handle
  split
  · exact Or.inl Iff.rfl
  · rename_i p hp
    split
    · exact Or.inl Iff.rfl
    · rename_i q hq
      split
      · rename_i ha
        split
        · rename_i hw
          dsimp only
          by_cases hn : q.name = some n
          · exact Or.inr ⟨ha, p, q, hp, hq, hn⟩
          · left
            rw [(CmdState.cmd_core h _).1, names_after h, if_neg]
            show ¬ q.name.getD [] = n
            have hs : q.name.isSome = true := by
              unfold wellFormed at hw
              split at hw
              · unfold format at hw
                split at hw <;> simp only [Bool.and_eq_true] at hw
                · exact hw.1.1
                · exact hw.1.1.1
              · exact hw
            obtain ⟨m, hm⟩ := Option.isSome_iff_exists.1 hs
            rw [hm] at hn ⊢
            exact fun e => hn (congrArg some e)
        · exact Or.inl Iff.rfl
      · exact Or.inl Iff.rfl

/-- A place is one of the two prefixes with one of the four commands. -/
theorem mem_places {e : Env} {x : Name × Handler} (h : x ∈ places e) :
    (x.1 = e.router ++ [Comp.str "nlsr"] ∨ x.1 = nm ["localhost", "nlsr"]) ∧ x.2 ∈ handlers := by
  obtain ⟨t, ht, hx⟩ := List.mem_flatMap.1 h
  obtain ⟨k, hk, rfl⟩ := List.mem_map.1 hx
  refine ⟨?_, hk⟩
  unfold tops at ht
  dsimp only at ht
  split at ht
  · exact Or.inl (List.mem_singleton.1 ht)
  · simpa using ht

theorem cut {a n : Name} {p : Comp} (h : a <+: n) (hp : n[a.length]? = some p) : ∃ rest, n = a ++ p :: rest := by
  obtain ⟨t, rfl⟩ := h
  rw [List.getElem?_append_right (Nat.le_refl _), Nat.sub_self] at hp
  cases t with
  | nil => cases hp
  | cons x t =>
    obtain rfl : x = p := by simpa using hp
    exact ⟨t, rfl⟩

/-- What made a difference. -/
theorem foldl_names {c : LConf} {e : Env} {r : Request} (n : Name) : ∀ (l : List (Name × Handler)) {s : State}, CmdState.Inv c s.cmd →
    (n ∈ (l.foldl (handle c e r) s).cmd.npl.names ↔ n ∈ s.cmd.npl.names) ∨
    ∃ x ∈ l, authorized e x.2 r = true ∧ ∃ p q, r.name[(x.1 ++ x.2.rel).length]? = some p ∧ e.decode x.2.rel p = some q ∧ q.name = some n
  | [], _, _ => Or.inl Iff.rfl
  | x :: l, s, h => by
    rw [List.foldl_cons]
    rcases foldl_names n l (handle_inv (e := e) (r := r) h x) with h1 | ⟨y, hy, h1⟩
    · rcases handle_names (e := e) (r := r) h x n with h2 | h2
      · exact Or.inl (h1.trans h2)
      · exact Or.inr ⟨x, List.mem_cons_self, h2⟩
    · exact Or.inr ⟨y, List.mem_cons_of_mem _ hy, h1⟩

theorem foldl_inv {c : LConf} {e : Env} {r : Request} : ∀ (l : List (Name × Handler)) {s : State}, CmdState.Inv c s.cmd →
    CmdState.Inv c (l.foldl (handle c e r) s).cmd
  | [], _, h => h
  | x :: l, _, h => foldl_inv l (handle_inv h x)

theorem step_inv {c : LConf} {e : Env} {s : State} (h : CmdState.Inv c s.cmd) (ev : Ev) : CmdState.Inv c (step c e s ev).cmd := by
  cases ev with
  | ask r => exact foldl_inv _ h
  | lsdb op => exact h.step (.lsdb op)

/-- One request can change whether a prefix is advertised only if it is a command for that prefix, and either an accepted one of
NLSR's own or one of the RIB. -/
theorem receive_names {c : LConf} {e : Env} {s : State} (h : CmdState.Inv c s.cmd) (r : Request) (n : Name)
    (hn : ¬ (n ∈ (receive c e s r).cmd.npl.names ↔ n ∈ s.cmd.npl.names)) :
    (e.valid r = true ∧ (Orders e "prefix-update" "advertise" n r ∨ Orders e "prefix-update" "withdraw" n r)) ∨
    (Orders e "rib" "register" n r ∨ Orders e "rib" "unregister" n r) := by
  rcases foldl_names (e := e) (r := r) n _ h with h1 | ⟨x, hx, ha, p, q, hp, hq, hqn⟩
  · exact absurd h1 hn
  · obtain ⟨hx1, hx2⟩ := List.mem_filter.1 hx
    obtain ⟨ht, hh⟩ := mem_places hx1
    obtain ⟨rest, hr⟩ := cut (List.isPrefixOf_iff_prefix.1 hx2) hp
    have ho : ∀ (m v : String), x.2.rel = nm [m, v] → Orders e m v n r := fun m v em => ⟨x.1, p, rest, q, ht, em ▸ hr, em ▸ hq, hqn⟩
    have hh' : x.2 = ⟨nm ["prefix-update", "advertise"], .nlsr, .advertise⟩ ∨ x.2 = ⟨nm ["prefix-update", "withdraw"], .nlsr, .withdraw⟩ ∨
        x.2 = ⟨nm ["rib", "register"], .rib, .advertise⟩ ∨ x.2 = ⟨nm ["rib", "unregister"], .rib, .withdraw⟩ := by
      simpa [handlers] using hh
    rcases hh' with e1 | e1 | e1 | e1
    · rw [e1] at ha
      exact Or.inl ⟨ha, Or.inl (ho _ _ (by rw [e1]))⟩
    · rw [e1] at ha
      exact Or.inl ⟨ha, Or.inr (ho _ _ (by rw [e1]))⟩
    · exact Or.inr (Or.inl (ho _ _ (by rw [e1])))
    · exact Or.inr (Or.inr (ho _ _ (by rw [e1])))

/-- C103, in part: whatever arrives, from whomever and however often, a prefix that is advertised after it and was not before,
or the other way round, was the subject of a command `prefix-update` that an operator of the router's site had signed and sent
on the host itself - or of a RIB command.  Missing: that the RIB commands come from an operator or the host
(`C103_violated_anyone`). -/
theorem C103_changes_partial {c : LConf} {e : Env} {site : Name} (hg : Guarded e site) {s : State} (h : CmdState.Inv c s.cmd)
    (evs : List Ev) (n : Name) (hn : ¬ (n ∈ (run c e s evs).cmd.npl.names ↔ n ∈ s.cmd.npl.names)) :
    ∃ r, Ev.ask r ∈ evs ∧
      ((ByOperator site r ∧ (Orders e "prefix-update" "advertise" n r ∨ Orders e "prefix-update" "withdraw" n r)) ∨
       (Orders e "rib" "register" n r ∨ Orders e "rib" "unregister" n r)) := by
  induction evs generalizing s with
  | nil => exact absurd Iff.rfl hn
  | cons ev evs ih =>
    by_cases h1 : n ∈ (step c e s ev).cmd.npl.names ↔ n ∈ s.cmd.npl.names
    · obtain ⟨r, hr, h2⟩ := ih (step_inv (e := e) h ev) (fun h2 => hn (h2.trans h1))
      exact ⟨r, List.mem_cons_of_mem _ hr, h2⟩
    · cases ev with
      | ask r =>
        refine ⟨r, List.mem_cons_self, ?_⟩
        exact (receive_names h r n h1).imp_left fun h2 => ⟨hg.operator h2.1, h2.2⟩
      | lsdb op =>
        refine absurd ?_ h1
        show n ∈ (s.cmd.step c (.lsdb op)).npl.names ↔ _
        rcases CmdState.step_lsdb c s.cmd op with e1 | ⟨-, e1⟩ <;> rw [e1]

/-! ### what one request does -/

theorem foldl_refused {c : LConf} {e : Env} {r : Request} (hv : e.valid r = false) : ∀ (l : List (Name × Handler)) (s : State),
    (∀ x ∈ l, x.2.via = .nlsr) → (l.foldl (handle c e r) s).cmd = s.cmd
  | [], _, _ => rfl
  | x :: l, s, h => by
    rw [List.foldl_cons, foldl_refused hv l _ fun y hy => h y (List.mem_cons_of_mem _ hy)]
    have ha : authorized e x.2 r = false := by
      unfold authorized
      rw [h x List.mem_cons_self]
      exact hv
    unfold handle
    rw [ha]
    split
    · rfl
    · split <;> rfl

/-- C103: a request that the rules do not let pass and that is not a RIB command changes nothing at all: prefixes, LSDB, file and
numbers stay as they are. -/
theorem C103_refused {c : LConf} {e : Env} (s : State) {r : Request} (hv : e.valid r = false)
    (hr : ¬ Names e "rib" "register" r) (hu : ¬ Names e "rib" "unregister" r) : (receive c e s r).cmd = s.cmd := by
  refine foldl_refused hv _ _ fun x hx => ?_
  obtain ⟨hx1, hx2⟩ := List.mem_filter.1 hx
  obtain ⟨ht, hh⟩ := mem_places hx1
  have hp : x.1 ++ x.2.rel <+: r.name := List.isPrefixOf_iff_prefix.1 hx2
  have hh' : x.2 = ⟨nm ["prefix-update", "advertise"], .nlsr, .advertise⟩ ∨ x.2 = ⟨nm ["prefix-update", "withdraw"], .nlsr, .withdraw⟩ ∨
      x.2 = ⟨nm ["rib", "register"], .rib, .advertise⟩ ∨ x.2 = ⟨nm ["rib", "unregister"], .rib, .withdraw⟩ := by
    simpa [handlers] using hh
  rcases hh' with e1 | e1 | e1 | e1
  · rw [e1]
  · rw [e1]
  · rw [e1] at hp
    refine absurd ?_ hr
    rcases ht with e2 | e2 <;> rw [e2] at hp
    · exact Or.inl hp
    · exact Or.inr hp
  · rw [e1] at hp
    refine absurd ?_ hu
    rcases ht with e2 | e2 <;> rw [e2] at hp
    · exact Or.inl hp
    · exact Or.inr hp

/-- The only place a command is handled at, for a router whose name does not start with `/localhost`. -/
theorem one_place {e : Env} (hr : e.router.head? ≠ some (Comp.str "localhost")) {top : Name}
    (ht : top = e.router ++ [Comp.str "nlsr"] ∨ top = nm ["localhost", "nlsr"]) {h : Handler} (hh : h ∈ handlers) (rest : Name) :
    (places e).filter (fun x => Name.isPrefixOf (x.1 ++ x.2.rel) (top ++ h.rel ++ rest)) = [(top, h)] := by
  have hown : ∀ (x y u w : Name), ¬ (e.router ++ [Comp.str "nlsr"] ++ x <+: nm ["localhost", "nlsr"] ++ u ++ w) ∧
      ¬ (nm ["localhost", "nlsr"] ++ x <+: e.router ++ [Comp.str "nlsr"] ++ u ++ w) := by
    intro x y u w
    cases hc : e.router with
    | nil =>
      constructor
      · rintro ⟨t, ht⟩
        exact absurd (List.cons.inj ht).1 (by decide +kernel)
      · rintro ⟨t, ht⟩
        exact absurd (List.cons.inj ht).1 (by decide +kernel)
    | cons a b =>
      rw [hc] at hr
      constructor
      · rintro ⟨t, ht⟩
        exact hr (congrArg some (List.cons.inj ht).1)
      · rintro ⟨t, ht⟩
        exact hr (congrArg some (List.cons.inj ht).1.symm)
  have htops : tops e = [e.router ++ [Comp.str "nlsr"], nm ["localhost", "nlsr"]] := by
    unfold tops
    dsimp only
    rw [if_neg]
    intro hp
    rcases Bool.or_eq_true _ _ ▸ hp with hp | hp
    · exact (hown [] [] [] []).1 (by simpa using List.isPrefixOf_iff_prefix.1 hp)
    · exact (hown [] [] [] []).2 (by simpa using List.isPrefixOf_iff_prefix.1 hp)
  have hsame : ∀ (a x y : Name), x.length = y.length → (Name.isPrefixOf (a ++ x) (a ++ y ++ rest) = decide (x = y)) := by
    intro a x y hl
    rw [Bool.eq_iff_iff]
    unfold Name.isPrefixOf
    rw [List.isPrefixOf_iff_prefix, decide_eq_true_iff, List.append_assoc, List.prefix_append_right_inj]
    constructor
    · intro hp
      exact (List.prefix_of_prefix_length_le hp (List.prefix_append y rest) (Nat.le_of_eq hl)).eq_of_length hl
    · rintro rfl
      exact List.prefix_append _ _
  have hd : ∀ (a b x y : Name), (a = e.router ++ [Comp.str "nlsr"] ∧ b = nm ["localhost", "nlsr"] ∨
      a = nm ["localhost", "nlsr"] ∧ b = e.router ++ [Comp.str "nlsr"]) → Name.isPrefixOf (a ++ x) (b ++ y ++ rest) = false := by
    intro a b x y hab
    cases hp : Name.isPrefixOf (a ++ x) (b ++ y ++ rest) with
    | false => rfl
    | true =>
      have hp' := List.isPrefixOf_iff_prefix.1 hp
      rcases hab with ⟨rfl, rfl⟩ | ⟨rfl, rfl⟩
      · exact absurd hp' (hown x y y rest).1
      · exact absurd hp' (hown x y y rest).2
  have hlen : ∀ k ∈ handlers, k.rel.length = h.rel.length := by
    have : ∀ k ∈ handlers, k.rel.length = 2 := by decide +kernel
    intro k hk
    rw [this k hk, this h hh]
  have hfil : ∀ k ∈ handlers, handlers.filter (fun k' => decide (k'.rel = k.rel)) = [k] := by decide +kernel
  have hpart : ∀ t, (handlers.map (fun k => (t, k))).filter (fun x => Name.isPrefixOf (x.1 ++ x.2.rel) (top ++ h.rel ++ rest)) =
      if t = top then [(top, h)] else (handlers.map (fun k => (t, k))).filter (fun x => Name.isPrefixOf (x.1 ++ x.2.rel) (top ++ h.rel ++ rest)) := by
    intro t
    split
    · rename_i e1
      subst e1
      rw [List.filter_map]
      have : handlers.filter ((fun x : Name × Handler => Name.isPrefixOf (x.1 ++ x.2.rel) (t ++ h.rel ++ rest)) ∘ fun k => (t, k)) =
          handlers.filter (fun k' => decide (k'.rel = h.rel)) := by
        refine List.filter_congr fun k hk => ?_
        exact hsame t _ _ (hlen k hk)
      rw [this, hfil h hh]
      rfl
    · rfl
  have hnone : ∀ t, (t = e.router ++ [Comp.str "nlsr"] ∧ top = nm ["localhost", "nlsr"] ∨
      t = nm ["localhost", "nlsr"] ∧ top = e.router ++ [Comp.str "nlsr"]) →
      (handlers.map (fun k => (t, k))).filter (fun x => Name.isPrefixOf (x.1 ++ x.2.rel) (top ++ h.rel ++ rest)) = [] := by
    intro t h1
    rw [List.filter_eq_nil_iff]
    intro x hx
    obtain ⟨k, -, rfl⟩ := List.mem_map.1 hx
    rw [hd t top k.rel h.rel h1]
    simp
  unfold places
  rw [htops, List.flatMap_cons, List.flatMap_cons, List.flatMap_nil, List.append_nil, List.filter_append]
  rcases ht with e1 | e1
  · rw [hpart (e.router ++ [Comp.str "nlsr"]), if_pos e1.symm, hnone _ (Or.inr ⟨rfl, e1⟩)]
    rfl
  · rw [hpart (nm ["localhost", "nlsr"]), if_pos e1.symm, hnone _ (Or.inl ⟨rfl, e1⟩)]
    rfl

/-- What becomes of a command, given where it is handled. -/
theorem receive_at {c : LConf} {e : Env} (hr : e.router.head? ≠ some (Comp.str "localhost")) (s : State) {top : Name}
    (ht : top = e.router ++ [Comp.str "nlsr"] ∨ top = nm ["localhost", "nlsr"]) {h : Handler} (hh : h ∈ handlers) (p : Comp) (rest : Name)
    (key : Option Name) {q : Params} (hq : e.decode h.rel p = some q) :
    receive c e s ⟨top ++ h.rel ++ p :: rest, key⟩ =
      if authorized e h ⟨top ++ h.rel ++ p :: rest, key⟩ then
        if wellFormed h q then { s with cmd := s.cmd.step c (.cmd (cmdOf h q)) } else { s with refused := s.refused ++ [400] }
      else { s with refused := s.refused ++ [403] } := by
  unfold receive
  dsimp only
  rw [one_place hr ht hh]
  simp only [List.foldl_cons, List.foldl_nil]
  unfold handle
  dsimp only
  have : (top ++ h.rel ++ p :: rest)[(top ++ h.rel).length]? = some p := by
    rw [List.getElem?_append_right (Nat.le_refl _), Nat.sub_self]
    rfl
  rw [this]
  dsimp only
  rw [hq]

/-- C103: an operator's command is carried out: it does exactly what the command is for (C49), and nothing is refused. -/
theorem C103_obeyed {c : LConf} {e : Env} (hr : e.router.head? ≠ some (Comp.str "localhost")) (s : State)
    {v : String} {verb : CmdVerb} (hv : v = "advertise" ∧ verb = .advertise ∨ v = "withdraw" ∧ verb = .withdraw)
    (p : Comp) (rest : Name) (key : Option Name)
    (hok : e.valid ⟨nm ["localhost", "nlsr", "prefix-update", v] ++ p :: rest, key⟩ = true) {n : Name} {q : Params}
    (hq : e.decode (nm ["prefix-update", v]) p = some q) (hn : q.name = some n) (hf : q.faceId = none ∧ q.other = false ∧ (verb = .withdraw → q.cost = none)) :
    receive c e s ⟨nm ["localhost", "nlsr", "prefix-update", v] ++ p :: rest, key⟩ =
      { s with cmd := s.cmd.step c (.cmd { via := .nlsr, verb := verb, name := n, cost := q.cost, flags := q.flags }) } := by
  have hh : (⟨nm ["prefix-update", v], .nlsr, verb⟩ : Handler) ∈ handlers := by
    rcases hv with ⟨rfl, rfl⟩ | ⟨rfl, rfl⟩ <;> decide +kernel
  have h1 := receive_at (c := c) hr s (Or.inr rfl) hh p rest key hq
  have en : nm ["localhost", "nlsr"] ++ nm ["prefix-update", v] ++ p :: rest = nm ["localhost", "nlsr", "prefix-update", v] ++ p :: rest := rfl
  dsimp only at h1
  rw [en] at h1
  have ha : authorized e ⟨nm ["prefix-update", v], .nlsr, verb⟩ ⟨nm ["localhost", "nlsr", "prefix-update", v] ++ p :: rest, key⟩ = true := hok
  have hw : wellFormed ⟨nm ["prefix-update", v], .nlsr, verb⟩ q = true := by
    unfold wellFormed format
    dsimp only
    rcases hv with ⟨rfl, rfl⟩ | ⟨rfl, rfl⟩
    · simp [hn, hf.1, hf.2.1]
    · simp [hn, hf.1, hf.2.1, hf.2.2]
  rw [h1, if_pos ha, if_pos hw]
  unfold cmdOf
  rw [hn, hf.1]
  rfl

/-- C103: a command of NLSR's own that the rules do not let pass is answered with 403. -/
theorem C103_forbidden {c : LConf} {e : Env} (hr : e.router.head? ≠ some (Comp.str "localhost")) (s : State) {top : Name}
    (ht : top = e.router ++ [Comp.str "nlsr"] ∨ top = nm ["localhost", "nlsr"]) {v : String} (hv : v = "advertise" ∨ v = "withdraw")
    (p : Comp) (rest : Name) (key : Option Name) (hno : e.valid ⟨top ++ nm ["prefix-update", v] ++ p :: rest, key⟩ = false)
    {q : Params} (hq : e.decode (nm ["prefix-update", v]) p = some q) :
    receive c e s ⟨top ++ nm ["prefix-update", v] ++ p :: rest, key⟩ = { s with refused := s.refused ++ [403] } := by
  obtain ⟨verb, hh⟩ : ∃ verb, (⟨nm ["prefix-update", v], .nlsr, verb⟩ : Handler) ∈ handlers := by
    rcases hv with rfl | rfl
    · exact ⟨.advertise, by decide +kernel⟩
    · exact ⟨.withdraw, by decide +kernel⟩
  have h1 := receive_at (c := c) hr s ht hh p rest key hq
  have ha : authorized e ⟨nm ["prefix-update", v], .nlsr, verb⟩ ⟨top ++ nm ["prefix-update", v] ++ p :: rest, key⟩ = false := hno
  dsimp only at h1
  rw [h1, if_neg (by rw [ha]; simp)]

/-- C103 fails for the RIB commands: NLSR takes `rib/register` under its own router's name as well as under `/localhost`, and asks
nobody.  Whoever can send an interest to the router, unsigned and whatever the security configuration is, makes it advertise any
prefix: a new Name LSA with it goes out to the network.  The comment in src/update/prefix-update-commands.hpp:26-27 takes the
commands for secure "because they are received on the localhost prefix". -/
theorem C103_violated_anyone (c : LConf) (e : Env) (hr : e.router.head? ≠ some (Comp.str "localhost")) (disk : Option Seqs)
    (adjs : AdjacencyList) (start : List (Name × Ext Rat)) (sys : Int) (file : Option ConfFile) (ops : List CmdState.Op)
    (p : Comp) {q : Params} {n : Name} (hq : e.decode (nm ["rib", "register"]) p = some q) (hn : q.name = some n)
    (hnew : ¬ Advertised start ops n) :
    let s : State := ⟨CmdState.run c (CmdState.init c disk adjs start sys file) ops, []⟩
    let s' := receive c e s ⟨e.router ++ nm ["nlsr", "rib", "register"] ++ [p], none⟩
    n ∉ s.cmd.npl.names ∧ n ∈ s'.cmd.npl.names ∧ s'.refused = [] ∧
    ∃ outs, s'.cmd.lsdb.log = s.cmd.lsdb.log ++
      .persist { s.cmd.lsdb.seqs with name := inc64 s.cmd.lsdb.seqs.name } :: .publish .name (inc64 s.cmd.lsdb.seqs.name) :: outs := by
  intro s s'
  have hi := CmdState.run_inv (CmdState.init_inv c disk adjs start sys file) ops
  have hh : (⟨nm ["rib", "register"], .rib, .advertise⟩ : Handler) ∈ handlers := by decide +kernel
  have h1 := receive_at (c := c) hr s (Or.inl rfl) hh p [] none hq
  have en : e.router ++ [Comp.str "nlsr"] ++ nm ["rib", "register"] ++ [p] = e.router ++ nm ["nlsr", "rib", "register"] ++ [p] := by
    rw [List.append_assoc, List.append_assoc, List.append_assoc]; rfl
  dsimp only at h1
  have hw : wellFormed ⟨nm ["rib", "register"], .rib, .advertise⟩ q = true := by
    unfold wellFormed
    simp [hn]
  rw [en, if_pos (show authorized e _ _ = true from rfl), if_pos hw] at h1
  have h2 : s' = { s with cmd := s.cmd.step c (.cmd (cmdOf ⟨nm ["rib", "register"], .rib, .advertise⟩ q)) } := h1
  have hx : (cmdOf ⟨nm ["rib", "register"], .rib, .advertise⟩ q).name = n := by
    unfold cmdOf
    rw [hn]
    rfl
  refine ⟨fun h => hnew ((C49_names c disk adjs start sys file ops n).1 h), ?_, by rw [h2], ?_⟩
  · rw [h2]
    dsimp only
    rw [(CmdState.cmd_core hi _).1, names_after hi, if_pos hx]
    rfl
  · have h3 := (C49_publish c disk adjs start sys file ops (cmdOf ⟨nm ["rib", "register"], .rib, .advertise⟩ q)).1 (by
      rw [hx]
      exact ⟨fun _ => hnew, fun _ => rfl⟩)
    obtain ⟨outs, ho, -⟩ := h3
    exact ⟨outs, by rw [h2]; exact ho⟩

/-- C103 fails in the other direction too: anyone makes the router stop advertising any prefix, those of its configuration file
included. -/
theorem C103_violated_withdrawn (c : LConf) (e : Env) (hr : e.router.head? ≠ some (Comp.str "localhost")) {s : State}
    (hs : CmdState.Inv c s.cmd) (p : Comp) {q : Params} {n : Name} (hq : e.decode (nm ["rib", "unregister"]) p = some q)
    (hn : q.name = some n) :
    n ∉ (receive c e s ⟨e.router ++ nm ["nlsr", "rib", "unregister"] ++ [p], none⟩).cmd.npl.names := by
  have hh : (⟨nm ["rib", "unregister"], .rib, .withdraw⟩ : Handler) ∈ handlers := by decide +kernel
  have h1 := receive_at (c := c) hr s (Or.inl rfl) hh p [] none hq
  have en : e.router ++ [Comp.str "nlsr"] ++ nm ["rib", "unregister"] ++ [p] = e.router ++ nm ["nlsr", "rib", "unregister"] ++ [p] := by
    rw [List.append_assoc, List.append_assoc, List.append_assoc]; rfl
  dsimp only at h1
  have hw : wellFormed ⟨nm ["rib", "unregister"], .rib, .withdraw⟩ q = true := by
    unfold wellFormed
    simp [hn]
  rw [en, if_pos (show authorized e _ _ = true from rfl), if_pos hw] at h1
  have hx : (cmdOf ⟨nm ["rib", "unregister"], .rib, .withdraw⟩ q).name = n := by
    unfold cmdOf
    rw [hn]
    rfl
  rw [h1]
  dsimp only
  rw [(CmdState.cmd_core hs _).1, names_after hs, if_pos hx]
  simp [cmdOf]

/-! ### an example -/

namespace AccessWitness
open Schema.TrustWitness (site router op cs)

/-- The parameters are a name of one component, the component itself. -/
def decode (_ : Name) (p : Comp) : Option Params := some { name := some [p] }

/-- The only request that is valid. -/
def good : Request := ⟨nm ["localhost", "nlsr", "prefix-update", "advertise", "p", "t", "n", "si", "sv"], some (op ++ nm ["KEY", "1"])⟩

def env : Env := ⟨router, decode, fun r => decide (r = good)⟩

theorem guarded : Guarded env site where
  key := by decide +kernel
  rules := by
    refine ⟨cs, Comp.str "1", Comp.str "i", Comp.str "v", rfl, fun r hr => ?_⟩
    have hr' : r = good := by simpa [env] using hr
    subst hr'
    refine ⟨by decide +kernel, op ++ nm ["KEY", "1"], [Schema.TrustWitness.co, cs], rfl, by decide +kernel, ?_⟩
    exact .step (by decide +kernel) (by decide +kernel) rfl (by decide +kernel) (.anchor (by simp) (by decide +kernel))

def start : State := ⟨CmdState.init (exConf .off) none [] [(nm ["a"], .fin 5)] 0 none, []⟩
end AccessWitness
open AccessWitness

/-- The operator's command adds /p; the same one unsigned does nothing and gets 403; and an unsigned RIB command from afar adds /p
and removes the configured /a. -/
example :
    (receive (exConf .off) env start good).cmd.npl.names = [nm ["a"], nm ["p"]] ∧
    (receive (exConf .off) env start { good with key := none }).cmd.npl.names = [nm ["a"]] ∧
    (receive (exConf .off) env start { good with key := none }).refused = [403] ∧
    (receive (exConf .off) env start ⟨Schema.TrustWitness.router ++ nm ["nlsr", "rib", "register", "p"], none⟩).cmd.npl.names = [nm ["a"], nm ["p"]] ∧
    (receive (exConf .off) env start ⟨Schema.TrustWitness.router ++ nm ["nlsr", "rib", "unregister", "a"], none⟩).cmd.npl.names = [] ∧
    env.router.head? ≠ some (Comp.str "localhost") ∧ CmdState.Inv (exConf .off) start.cmd :=
  ⟨by decide +kernel, by decide +kernel, by decide +kernel, by decide +kernel, by decide +kernel, by decide +kernel, CmdState.init_inv ..⟩

end Nlsr.Access
