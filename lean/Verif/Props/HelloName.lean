import Verif.Props.HelloLedger
/- C44, C68, C69, C71: hello interests coming in, the round trip between two routers, and hello loops. -/
namespace Nlsr
open Nbr AdjacencyList

def isData : NOut → Bool
  | .data _ => true
  | _ => false

/-- Component `x` carries the router name `n`: its value is one TLV block of a type the library takes for a name, and
the block's value is the sequence of `n`'s components. -/
def Carries (c : NConf) (x : Comp) (n : Name) : Prop :=
  ∃ t v, Tlv.decBlock x.val = some (t, v, []) ∧ c.nameTlv t = true ∧ Tlv.decName v = some n

theorem carries_iff (c : NConf) (x : Comp) (n : Name) : Carries c x n ↔ nameFromValue c x.val = some n := by
  unfold Carries nameFromValue
  constructor
  · rintro ⟨t, v, h1, h2, h3⟩
    rw [h1]
    dsimp only
    rw [if_pos h2, h3]
  · intro h
    split at h
    · rename_i t v hd
      split at h
      · rename_i ht
        exact ⟨t, v, hd, ht, h⟩
      · cases h
    · cases h

/-- The encoding of a name is carried. -/
theorem carries_enc (c : NConf) (h7 : c.nameTlv 7 = true) {n : Name} (hn : Tlv.NameOk n)
    (hl : (Tlv.encComps n).length < 2 ^ 64) : Carries c ⟨8, Tlv.encName n⟩ n := by
  refine ⟨7, Tlv.encComps n, ?_, h7, Tlv.decName_enc hn⟩
  have := Tlv.decBlock_block (t := 7) (v := Tlv.encComps n) ⟨⟨by show 1 ≤ 7; decide, by show 7 < 4294967296; decide⟩, hl⟩ []
  rwa [List.append_nil] at this

theorem fromEnd_two {name : Name} {i x : Comp} (h2 : Name.fromEnd name 2 = some i) (h1 : Name.fromEnd name 1 = some x) :
    ∃ pre, name = pre ++ [i, x] := by
  unfold Name.fromEnd at h1 h2
  split at h2
  · rename_i hl
    rw [if_pos (by omega)] at h1
    refine ⟨name.take (name.length - 2), ?_⟩
    have hd : (name.drop (name.length - 2)).length = 2 := by rw [List.length_drop]; omega
    match hx : name.drop (name.length - 2), hd with
    | [a, b], _ =>
      have e0 : (name.drop (name.length - 2))[0]? = some a := by rw [hx]; rfl
      have e1 : (name.drop (name.length - 2))[1]? = some b := by rw [hx]; rfl
      rw [List.getElem?_drop, Nat.add_zero, h2] at e0
      rw [List.getElem?_drop] at e1
      have : name.length - 2 + 1 = name.length - 1 := by omega
      rw [this, h1] at e1
      rw [Option.some.inj e0, Option.some.inj e1, ← hx, List.take_append_drop]
  · cases h2

/-- Everything an incoming interest does. -/
theorem interest_spec (c : NConf) (s : Nbr) (name : Name) (ver : Comp) :
    (∃ pre x, c.router ++ [Comp.str "nlsr", Comp.str "INFO"] <+: name ∧ name = pre ++ [Comp.str "INFO", x] ∧
      ((∃ n a, Carries c x n ∧ find s.adjs n = some a ∧ (Nbr.interest c s name ver).dead = s.dead ∧
          ∃ o, (Nbr.interest c s name ver).out = s.out ++ .data (name ++ [ver]) :: o ∧ o.filter isData = []) ∨
       ((∃ n, Carries c x n ∧ find s.adjs n = none) ∧ Nbr.interest c s name ver = s) ∨
       ((∀ n, ¬ Carries c x n) ∧ Nbr.interest c s name ver = { s with dead := true }))) ∨
    ((¬ c.router ++ [Comp.str "nlsr", Comp.str "INFO"] <+: name ∨ ∀ pre x, name ≠ pre ++ [Comp.str "INFO", x]) ∧
      Nbr.interest c s name ver = s) := by
  have hu : Nbr.interest c s name ver = Nbr.interest c s name ver := rfl
  conv at hu => rhs; unfold Nbr.interest
  by_cases hp : Name.isPrefixOf (c.router ++ [nlsrComp, infoComp]) name = true
  · have hp' : c.router ++ [Comp.str "nlsr", Comp.str "INFO"] <+: name := List.isPrefixOf_iff_prefix.1 hp
    rw [hp, if_neg (by nofun)] at hu
    by_cases h2 : Name.fromEnd name 2 = some infoComp
    · rw [if_neg (not_not_intro h2)] at hu
      have hlen : 2 ≤ name.length := by
        have := hp'.length_le
        simp at this
        omega
      obtain ⟨x, h1⟩ : ∃ x, Name.fromEnd name 1 = some x := by
        unfold Name.fromEnd
        rw [if_pos (by omega)]
        exact ⟨name[name.length - 1], by rw [List.getElem?_eq_getElem]⟩
      obtain ⟨pre, hpre⟩ := fromEnd_two h2 h1
      rw [h1] at hu
      dsimp only at hu
      left
      refine ⟨pre, x, hp', hpre, ?_⟩
      cases hv : nameFromValue c x.val with
      | none =>
        rw [hv] at hu
        right; right
        refine ⟨?_, hu⟩
        intro n hc
        rw [carries_iff, hv] at hc
        cases hc
      | some n =>
        rw [hv] at hu
        dsimp only at hu
        have hc : Carries c x n := (carries_iff c x n).2 hv
        cases hf : find s.adjs n with
        | none =>
          rw [hf] at hu
          exact Or.inr (Or.inl ⟨⟨n, hc, hf⟩, hu⟩)
        | some a =>
          rw [hf] at hu
          dsimp only at hu
          left
          refine ⟨n, a, hc, hf, ?_⟩
          split at hu
          · refine ⟨by rw [hu]; rfl, [.interest (helloName c n)], ?_, rfl⟩
            rw [hu]
            show (s.out ++ [_]) ++ [_] = _
            rw [List.append_assoc]; rfl
          · exact ⟨by rw [hu]; rfl, [], by rw [hu]; rfl, rfl⟩
    · rw [if_pos h2] at hu
      right
      refine ⟨Or.inr ?_, hu⟩
      rintro pre x rfl
      exact h2 Name.fromEnd_append2
  · right
    have hp' : ¬ c.router ++ [Comp.str "nlsr", Comp.str "INFO"] <+: name := fun h => hp (List.isPrefixOf_iff_prefix.2 h)
    have : Name.isPrefixOf (c.router ++ [nlsrComp, infoComp]) name = false := by simpa using hp
    rw [this] at hu
    exact ⟨Or.inl hp', hu⟩

/-- C44, the part that holds: an interest named `/<router>/nlsr/INFO/<x>` is answered, once and under its own name, iff
the router name carried in `x` is a configured neighbour; and any interest that is answered is under
`/<router>/nlsr/INFO`, with a last component that carries a configured neighbour's name after a component INFO. -/
theorem C44_answered_partial (c : NConf) (s : Nbr) (hs : s.dead = false) (name : Name) (ver : Comp) :
    ∃ o, (Nbr.step c s (.interest name ver)).out = s.out ++ o ∧
      (∀ x, name = c.router ++ [Comp.str "nlsr", Comp.str "INFO", x] →
        ((∃ n a, Carries c x n ∧ find s.adjs n = some a) → o.filter isData = [.data (name ++ [ver])]) ∧
        ((¬ ∃ n a, Carries c x n ∧ find s.adjs n = some a) → o.filter isData = [])) ∧
      (o.filter isData ≠ [] → o.filter isData = [.data (name ++ [ver])] ∧
        c.router ++ [Comp.str "nlsr", Comp.str "INFO"] <+: name ∧
        ∃ pre x n a, name = pre ++ [Comp.str "INFO", x] ∧ Carries c x n ∧ find s.adjs n = some a) := by
  have hstep : Nbr.step c s (.interest name ver) = Nbr.interest c s name ver := by
    unfold Nbr.step
    rw [if_neg (by rw [hs]; nofun)]
    rfl
  rw [hstep]
  have nil : ∀ {s' : Nbr}, s'.out = s.out → s'.out = s.out ++ [] := by intro s' h; rw [h, List.append_nil]
  rcases interest_spec c s name ver with ⟨pre, x, hp, hname, h⟩ | ⟨h, he⟩
  · have hx : ∀ y, name = c.router ++ [Comp.str "nlsr", Comp.str "INFO", y] → y = x := by
      intro y hy
      have h1 := Name.fromEnd_append (a := c.router ++ [Comp.str "nlsr", Comp.str "INFO"]) (c := y)
      have h2 := Name.fromEnd_append (a := pre ++ [Comp.str "INFO"]) (c := x)
      rw [List.append_assoc] at h1 h2
      rw [hname] at hy
      have h2' : Name.fromEnd (pre ++ [Comp.str "INFO", x]) 1 = some x := h2
      rw [hy] at h2'
      have h1' : Name.fromEnd (c.router ++ [Comp.str "nlsr", Comp.str "INFO", y]) 1 = some y := h1
      rw [h1'] at h2'
      exact Option.some.inj h2'
    rcases h with ⟨n, a, hc, hf, _, o, ho, hod⟩ | ⟨⟨n, hc, hf⟩, he⟩ | ⟨hnc, he⟩
    · refine ⟨_, ho, ?_, ?_⟩
      · intro y hy
        obtain rfl := hx y hy
        refine ⟨fun _ => by rw [List.filter_cons_of_pos (by rfl), hod], ?_⟩
        intro h; exact absurd ⟨n, a, hc, hf⟩ h
      · intro _
        exact ⟨by rw [List.filter_cons_of_pos (by rfl), hod], hp, pre, x, n, a, hname, hc, hf⟩
    · refine ⟨[], nil (by rw [he]), ?_, fun h => absurd rfl h⟩
      intro y hy
      obtain rfl := hx y hy
      refine ⟨?_, fun _ => rfl⟩
      rintro ⟨m, a, hm, hfm⟩
      rw [carries_iff] at hc hm
      rw [hc] at hm
      obtain rfl := Option.some.inj hm
      rw [hf] at hfm; cases hfm
    · refine ⟨[], nil (by rw [he]), ?_, fun h => absurd rfl h⟩
      intro y hy
      obtain rfl := hx y hy
      exact ⟨fun ⟨n, _, hc, _⟩ => absurd hc (hnc n), fun _ => rfl⟩
  · refine ⟨[], nil (by rw [he]), ?_, fun h => absurd rfl h⟩
    intro y hy
    exfalso
    rcases h with h | h
    · refine h ⟨[y], ?_⟩
      rw [hy, List.append_assoc]; rfl
    · exact h (c.router ++ [Comp.str "nlsr"]) y (by rw [hy, List.append_assoc]; rfl)

/-- C44 is violated: an interest that is not of the form `/<router>/nlsr/INFO/<x>` is answered, when INFO comes again
later in the name. -/
theorem C44_violated_longer : ∃ (c : NConf) (s : Nbr) (name : Name) (ver : Comp), Nbr.Reachable c s ∧
    (∀ x, name ≠ c.router ++ [Comp.str "nlsr", Comp.str "INFO", x]) ∧
    NOut.data (name ++ [ver]) ∈ (Nbr.step c s (.interest name ver)).out := by
  refine ⟨HelloWitness.conf, Nbr.init HelloWitness.conf HelloWitness.adjs,
    HelloWitness.conf.router ++ [Comp.str "nlsr", Comp.str "INFO", Comp.str "junk", Comp.str "INFO", ⟨8, Tlv.encName (nm ["net", "b"])⟩],
    Comp.str "v", ⟨_, [], hello_fresh, rfl⟩, ?_, by decide +kernel⟩
  intro x h
  have := congrArg List.length h
  simp at this

/-- A neighbour's hello interest is answered; one of a stranger is not. -/
example :
    let s := Nbr.init HelloWitness.conf HelloWitness.adjs
    let n := fun (r : Name) => HelloWitness.conf.router ++ [Comp.str "nlsr", Comp.str "INFO", ⟨8, Tlv.encName r⟩]
    (Nbr.step HelloWitness.conf s (.interest (n (nm ["net", "b"])) (Comp.str "v"))).out.filter isData = [.data (n (nm ["net", "b"]) ++ [Comp.str "v"])] ∧
    (Nbr.step HelloWitness.conf s (.interest (n (nm ["net", "d"])) (Comp.str "v"))).out.filter isData = [] := by
  decide +kernel

/-! ### C68 -/

/-- C68, what exactly ends the daemon: an interest under `/<router>/nlsr/INFO` whose last component follows a component
INFO and carries no name. -/
theorem C68_malformed_partial (c : NConf) (s : Nbr) (hs : s.dead = false) (op : Nbr.Op) :
    (Nbr.step c s op).dead = true ↔
      ∃ name ver pre x, op = .interest name ver ∧ c.router ++ [Comp.str "nlsr", Comp.str "INFO"] <+: name ∧
        name = pre ++ [Comp.str "INFO", x] ∧ ∀ n, ¬ Carries c x n := by
  have hstep : Nbr.step c s op = Nbr.stepOp c s op := by
    unfold Nbr.step
    rw [if_neg (by rw [hs]; nofun)]
  rw [hstep]
  have hno : (∀ name ver, op ≠ .interest name ver) → (Nbr.stepOp c s op).dead = s.dead →
      ((Nbr.stepOp c s op).dead = true ↔
      ∃ name ver pre x, op = .interest name ver ∧ c.router ++ [Comp.str "nlsr", Comp.str "INFO"] <+: name ∧
        name = pre ++ [Comp.str "INFO", x] ∧ ∀ n, ¬ Carries c x n) := by
    intro h hd
    rw [hd, hs]
    constructor
    · intro h; cases h
    · rintro ⟨name, ver, _, _, e, _⟩; exact absurd e (h name ver)
  have hsend : ∀ (s : Nbr) n, (Nbr.sendHello c s n).dead = s.dead := by
    intro s n
    unfold Nbr.sendHello
    split
    · rfl
    · dsimp only; split <;> rfl
  have hlost : ∀ (s : Nbr) n, (Nbr.lost c s n).dead = s.dead := by
    intro s n
    unfold Nbr.lost
    dsimp only
    split
    · rfl
    · split
      · rfl
      · split <;> rfl
  cases op with
  | interest name ver =>
    show (Nbr.interest c s name ver).dead = true ↔ _
    rcases interest_spec c s name ver with ⟨pre, x, hp, hname, h⟩ | ⟨h, he⟩
    · rcases h with ⟨n, a, hc, hf, hd, _⟩ | ⟨⟨n, hc, hf⟩, he⟩ | ⟨hnc, he⟩
      · rw [hd, hs]
        constructor
        · intro h; cases h
        · rintro ⟨name', ver', pre', x', e, _, e', hn⟩
          injection e with e1 e2
          subst e1
          rw [hname] at e'
          have := (List.append_inj' e' rfl).2
          injection this with _ this
          injection this with this _
          exact absurd (this ▸ hc) (hn n)
      · rw [he, hs]
        constructor
        · intro h; cases h
        · rintro ⟨name', ver', pre', x', e, _, e', hn⟩
          injection e with e1 e2
          subst e1
          rw [hname] at e'
          have := (List.append_inj' e' rfl).2
          injection this with _ this
          injection this with this _
          exact absurd (this ▸ hc) (hn n)
      · rw [he]
        exact ⟨fun _ => ⟨name, ver, pre, x, rfl, hp, hname, hnc⟩, fun _ => rfl⟩
    · rw [he, hs]
      constructor
      · intro h; cases h
      · rintro ⟨name', ver', pre', x', e, hp', e', hn⟩
        injection e with e1 e2
        subst e1
        rcases h with h | h
        · exact absurd hp' h
        · exact absurd e' (h pre' x')
  | registered n => exact hno nofun (hsend s n)
  | helloTimer i =>
    refine hno nofun ?_
    show (Nbr.helloTimer c s i).dead = _
    unfold Nbr.helloTimer
    split
    · rfl
    · split
      · rfl
      · rw [hsend]
  | timeout i =>
    refine hno nofun ?_
    show (Nbr.timeout c s i).dead = _
    unfold Nbr.timeout
    split
    · rfl
    · split
      · rfl
      · rw [hlost]
  | nack i =>
    refine hno nofun ?_
    show (Nbr.nack c s i).dead = _
    unfold Nbr.nack
    split <;> rfl
  | nackTimer i =>
    refine hno nofun ?_
    show (Nbr.nackTimer c s i).dead = _
    unfold Nbr.nackTimer
    split
    · rfl
    · split
      · rfl
      · rw [hlost]
  | data i d =>
    refine hno nofun ?_
    show (Nbr.data s i d).dead = _
    unfold Nbr.data
    split
    · rfl
    · split <;> rfl
  | valid i =>
    refine hno nofun ?_
    show (Nbr.valid c s i).dead = _
    unfold Nbr.valid
    split
    · rfl
    · unfold Nbr.validated
      dsimp only
      split
      · split <;> rfl
      · rfl
  | invalid i => exact hno nofun rfl
  | faceDown fid =>
    refine hno nofun ?_
    show (Nbr.faceDown c s fid).dead = _
    unfold Nbr.faceDown
    dsimp only
    split
    · rfl
    · split <;> rfl
  | faceUp u fid =>
    refine hno nofun ?_
    show (Nbr.faceUp c s u fid).dead = _
    unfold Nbr.faceUp
    dsimp only
    split
    · rfl
    · split <;> rfl
  | fetchOk i faces =>
    refine hno nofun ?_
    show (Nbr.fetchOk c s i faces).dead = _
    unfold Nbr.fetchOk
    split <;> rfl
  | fetchFail i =>
    refine hno nofun ?_
    show (Nbr.fetchFail c s i).dead = _
    unfold Nbr.fetchFail
    split
    · rfl
    · dsimp only; split <;> rfl
  | fetchTimer i =>
    refine hno nofun ?_
    show (Nbr.fetchTimer s i).dead = _
    unfold Nbr.fetchTimer
    split
    · rfl
    · split <;> rfl
  | newLsa o =>
    refine hno nofun ?_
    show (Nbr.newLsa s o).dead = _
    unfold Nbr.newLsa
    split <;> rfl
  | regFace u fid => exact hno nofun rfl
  | clock dt => exact hno nofun rfl

/-- C68 is violated: whoever can send an interest can end the daemon, in any state. -/
theorem C68_violated (c : NConf) (s : Nbr) (ver : Comp) :
    (Nbr.step c s (.interest (c.router ++ [Comp.str "nlsr", Comp.str "INFO", Comp.str ""]) ver)).dead = true := by
  cases hs : s.dead with
  | true =>
    unfold Nbr.step
    rw [if_pos hs, hs]
  | false =>
    rw [C68_malformed_partial c s hs]
    refine ⟨_, _, c.router ++ [Comp.str "nlsr"], Comp.str "", rfl, ⟨[Comp.str ""], by simp⟩, by simp, ?_⟩
    rintro n ⟨t, v, h, _⟩
    have : (Comp.str "").val = [] := by decide +kernel
    rw [this] at h
    cases h

/-! ### C69 -/

/-- C69: B answers A's hello interest iff A is one of B's neighbours, in whatever states A and B are, and the answer,
once validated, brings B up at A. -/
theorem C69_round_trip {a b : NConf} {s t : Nbr} (hs : Nbr.Reachable a s) (hsd : s.dead = false)
    (htd : t.dead = false) (h7 : b.nameTlv 7 = true) (hn : Tlv.NameOk a.router)
    (hl : (Tlv.encComps a.router).length < 2 ^ 64) (hlen : b.router.length < 8797) (i due : Nat) (ver : Comp)
    (hw : s.waiting[i]? = some (helloOf a b.router, due)) :
    let d := helloOf a b.router ++ [ver]
    let t' := Nbr.step b t (.interest (helloOf a b.router) ver)
    ((find t.adjs a.router).isSome → ∃ o, t'.out = t.out ++ .data d :: o ∧
      let s' := Nbr.step a (Nbr.step a s (.data i d)) (.valid s.validating.length)
      getStatus s'.adjs b.router = .active ∧ getTimedOut s'.adjs b.router = 0) ∧
    (find t.adjs a.router = none → t' = t) := by
  dsimp only
  have hstep : Nbr.step b t (.interest (helloOf a b.router) ver) = Nbr.interest b t (helloOf a b.router) ver := by
    unfold Nbr.step
    rw [if_neg (by rw [htd]; nofun)]
    rfl
  rw [hstep]
  have hc := carries_enc b h7 hn hl
  have hform : helloOf a b.router = b.router ++ [Comp.str "nlsr"] ++ [Comp.str "INFO", ⟨8, Tlv.encName a.router⟩] := by
    unfold helloOf; rw [List.append_assoc]; rfl
  have hxe : ∀ pre x, helloOf a b.router = pre ++ [Comp.str "INFO", x] → x = ⟨8, Tlv.encName a.router⟩ := by
    intro pre x e
    rw [hform] at e
    have := (List.append_inj' e rfl).2
    injection this with _ this
    injection this with this _
    exact this.symm
  have huniq : ∀ x n, helloOf a b.router = helloOf a b.router → x = (⟨8, Tlv.encName a.router⟩ : Comp) → Carries b x n → n = a.router := by
    intro x n _ hx hcn
    subst hx
    rw [carries_iff] at hc hcn
    rw [hc] at hcn
    exact (Option.some.inj hcn).symm
  rcases interest_spec b t (helloOf a b.router) ver with ⟨pre, x, hp, hname, h⟩ | ⟨h, he⟩
  · have hx := hxe pre x hname
    rcases h with ⟨n, ad, hcn, hf, _, o, ho, _⟩ | ⟨⟨n, hcn, hf⟩, he⟩ | ⟨hnc, he⟩
    · have hna := huniq x n rfl hx hcn
      refine ⟨fun _ => ⟨o, ho, ?_⟩, fun hnone => by rw [hna, hnone] at hf; cases hf⟩
      -- A's side
      have hsi := hs.ninv
      have hm : b.router ∈ s.adjs.map (·.name) := by
        obtain ⟨m, hm, e⟩ := hsi.waiting _ (List.mem_of_getElem? hw)
        rw [helloName_inj a e]
        exact hm
      have hd1 : Nbr.step a s (.data i (helloOf a b.router ++ [ver])) =
          { s with waiting := s.waiting.eraseIdx i, validating := s.validating ++ [helloOf a b.router ++ [ver]] } := by
        unfold Nbr.step
        rw [if_neg (by rw [hsd]; nofun)]
        show Nbr.data s i _ = _
        unfold Nbr.data
        rw [hw]
        dsimp only
        rw [if_pos]
        rw [Bool.and_eq_true, decide_eq_true_eq]
        refine ⟨List.isPrefixOf_iff_prefix.2 ⟨[ver], rfl⟩, ?_⟩
        rw [List.length_append, helloOf_eq, helloName_length]
        simp only [List.length_singleton]
        omega
      have hre := hs.step (.data i (helloOf a b.router ++ [ver]))
      rw [hd1] at hre ⊢
      have hist : (Nbr.step a { s with waiting := s.waiting.eraseIdx i, validating := s.validating ++ [helloOf a b.router ++ [ver]] }
          (.valid s.validating.length)).hist = s.hist ++ [.valid (helloOf a b.router ++ [ver])] := by
        unfold Nbr.step
        rw [if_neg (by dsimp only; rw [hsd]; nofun)]
        show (Nbr.valid a _ _).hist = _
        unfold Nbr.valid
        dsimp only
        rw [List.getElem?_append_right (Nat.le_refl _), Nat.sub_self]
        exact (validated_spec a _ _).1
      have hv := C42_valid hre (.valid s.validating.length) _ hist b.router
      have hrep : IsReplyOf b.router (helloOf a b.router ++ [ver]) := by
        refine ⟨by rw [List.length_append, helloOf_eq, helloName_length]; rfl, ?_, ?_⟩
        · exact ⟨[Comp.str "nlsr", Comp.str "INFO", ⟨8, Tlv.encName a.router⟩] ++ [ver], by unfold helloOf; rw [List.append_assoc]⟩
        · unfold helloOf
          rw [List.append_assoc, List.getElem?_append_right (by omega)]
          have : b.router.length + 1 - List.length b.router = 1 := by omega
          rw [this]; rfl
      rw [if_pos hrep] at hv
      obtain ⟨ad', hfa⟩ : ∃ ad', find s.adjs b.router = some ad' := by
        cases hf' : find s.adjs b.router with
        | none => exact absurd hm ((find_none_iff _ _).1 hf')
        | some a => exact ⟨a, rfl⟩
      dsimp only at hv
      rw [hfa] at hv
      unfold getStatus getTimedOut
      rw [hv]
      exact ⟨rfl, rfl⟩
    · have hna := huniq x n rfl hx hcn
      rw [hna] at hf
      exact ⟨fun h => (by rw [hf] at h; cases h), fun _ => he⟩
    · rw [hx] at hnc
      exact absurd hc (hnc a.router)
  · exfalso
    rcases h with h | h
    · exact h ⟨[⟨8, Tlv.encName a.router⟩], by unfold helloOf; rw [List.append_assoc]; rfl⟩
    · exact h _ _ hform

/-- C69, the other direction: a hello interest of a neighbour that is INACTIVE and has a face is not only answered, the
router also asks that neighbour for a hello at once.  It asks nobody else, and does not ask a neighbour that is ACTIVE or
has no face. -/
theorem C69_hello_back {b : NConf} {t : Nbr} (htd : t.dead = false) (h7 : b.nameTlv 7 = true) {n : Name} (hn : Tlv.NameOk n)
    (hl : (Tlv.encComps n).length < 2 ^ 64) {a : Adjacent} (hf : find t.adjs n = some a) (ver : Comp) :
    let name := b.router ++ [Comp.str "nlsr", Comp.str "INFO", ⟨8, Tlv.encName n⟩]
    let t' := Nbr.step b t (.interest name ver)
    (a.status = .inactive → a.faceId ≠ 0 →
      t'.out = t.out ++ [.data (name ++ [ver]), .interest (helloOf b n)] ∧
      t'.waiting = t.waiting ++ [(helloOf b n, t.now + b.resend * nsPerSec)]) ∧
    (a.status = .active ∨ a.faceId = 0 → t'.out = t.out ++ [.data (name ++ [ver])] ∧ t'.waiting = t.waiting) := by
  dsimp only
  have hstep : Nbr.step b t (.interest (b.router ++ [Comp.str "nlsr", Comp.str "INFO", ⟨8, Tlv.encName n⟩]) ver) =
      Nbr.interest b t (b.router ++ [Comp.str "nlsr", Comp.str "INFO", ⟨8, Tlv.encName n⟩]) ver := by
    unfold Nbr.step
    rw [if_neg (by rw [htd]; nofun)]
    rfl
  rw [hstep]
  generalize hname : b.router ++ [Comp.str "nlsr", Comp.str "INFO", ⟨8, Tlv.encName n⟩] = name
  have hp : Name.isPrefixOf (b.router ++ [nlsrComp, infoComp]) name = true :=
    List.isPrefixOf_iff_prefix.2 ⟨[⟨8, Tlv.encName n⟩], by rw [← hname, List.append_assoc]; rfl⟩
  have h2 : Name.fromEnd name 2 = some infoComp := by
    rw [← hname, show b.router ++ [Comp.str "nlsr", Comp.str "INFO", (⟨8, Tlv.encName n⟩ : Comp)] =
      (b.router ++ [Comp.str "nlsr"]) ++ [Comp.str "INFO", ⟨8, Tlv.encName n⟩] by rw [List.append_assoc]; rfl]
    exact Name.fromEnd_append2
  have h1 : Name.fromEnd name 1 = some ⟨8, Tlv.encName n⟩ := by
    rw [← hname]
    unfold Name.fromEnd
    rw [if_pos (by simp), List.getElem?_append_right (by simp)]
    simp
  have hv : nameFromValue b (Tlv.encName n) = some n := (carries_iff b ⟨8, Tlv.encName n⟩ n).1 (carries_enc b h7 hn hl)
  have hu : Nbr.interest b t name ver = (let s := t.emit (.data (name ++ [ver]))
      if a.status = .inactive ∧ a.faceId ≠ 0 then s.express b (helloName b n) else s) := by
    unfold Nbr.interest
    rw [hp, if_neg (by nofun), if_neg (not_not_intro h2), h1]
    dsimp only
    rw [hv]
    dsimp only
    rw [hf]
  rw [hu]
  dsimp only
  refine ⟨?_, ?_⟩
  · intro hs hfid
    rw [if_pos ⟨hs, hfid⟩]
    refine ⟨?_, rfl⟩
    show (t.out ++ [_]) ++ [_] = _
    rw [List.append_assoc]; rfl
  · intro h
    rw [if_neg (fun hx => by
      rcases h with h | h
      · rw [h] at hx; cases hx.1
      · exact hx.2 h)]
    exact ⟨rfl, rfl⟩

/-- Routers `a` and `b`, each other's neighbours: the hypotheses hold, and `b` comes up at `a`. -/
example :
    let b : NConf := { HelloWitness.conf with router := nm ["net", "b"] }
    let t := Nbr.init b [{ name := nm ["net", "a"], uri := "udp4://a", cost := .fin 10 }]
    let s := Nbr.run HelloWitness.conf (Nbr.init HelloWitness.conf HelloWitness.adjs) [.faceUp "udp4://b" 256, .registered (nm ["net", "b"])]
    s.waiting[0]? = some (helloOf HelloWitness.conf b.router, 1000000000) ∧ (find t.adjs HelloWitness.conf.router).isSome ∧
    getStatus s.adjs b.router = .inactive ∧
    getStatus (Nbr.run HelloWitness.conf s [.data 0 (helloOf HelloWitness.conf b.router ++ [Comp.str "v"]), .valid 0]).adjs b.router = .active := by
  decide +kernel

/-! ### C71 -/

def isLoopOf (n : Name) (w : Name × Nat) : Bool := decide (w.1 = n)

/-- The number of registration successes reported for `n`. -/
def registrations (n : Name) (ops : List Nbr.Op) : Nat :=
  ops.countP (fun op => match op with | .registered m => decide (m = n) | _ => false)

theorem sendHello_timers (c : NConf) (s : Nbr) (n m : Name) :
    (Nbr.sendHello c s m).timers.countP (isLoopOf n) =
      s.timers.countP (isLoopOf n) + (if m = n ∧ (find s.adjs m).isSome then 1 else 0) := by
  unfold Nbr.sendHello
  cases hf : find s.adjs m with
  | none => simp
  | some a =>
    dsimp only
    rw [List.countP_append, List.countP_singleton]
    have e : ∀ t, isLoopOf n (m, t) = decide (m = n) := fun _ => rfl
    rw [e]
    have h1 : (if a.faceId ≠ 0 then Nbr.express c s (helloName c a.name) else s).timers = s.timers := by split <;> rfl
    rw [h1]
    simp

theorem step_timers {c : NConf} {s : Nbr} (hs : ∀ w ∈ s.timers, (find s.adjs w.1).isSome) (n : Name) (op : Nbr.Op) (hd : s.dead = false) :
    (Nbr.step c s op).timers.countP (isLoopOf n) = s.timers.countP (isLoopOf n) +
      (match op with | .registered m => if m = n ∧ (find s.adjs m).isSome then 1 else 0 | _ => 0) := by
  have hlost : ∀ (s : Nbr) n, (Nbr.lost c s n).timers = s.timers := by
    intro s n
    unfold Nbr.lost
    dsimp only
    split
    · rfl
    · split
      · rfl
      · split <;> rfl
  unfold Nbr.step
  rw [if_neg (by rw [hd]; nofun)]
  cases op with
  | registered m => exact sendHello_timers c s n m
  | helloTimer i =>
    show (Nbr.helloTimer c s i).timers.countP (isLoopOf n) = _
    unfold Nbr.helloTimer
    cases hw : s.timers[i]? with
    | none => rfl
    | some p =>
      obtain ⟨m, due⟩ := p
      dsimp only
      split
      · rfl
      · rw [sendHello_timers]
        have h1 := countP_eraseIdx (isLoopOf n) _ _ _ hw
        have h2 := hs _ (List.mem_of_getElem? hw)
        dsimp only at h2 ⊢
        have e : ∀ t, isLoopOf n (m, t) = decide (m = n) := fun _ => rfl
        rw [e] at h1
        simp only [h2, and_true]
        simp only [decide_eq_true_eq] at h1
        omega
  | interest name v =>
    show (Nbr.interest c s name v).timers.countP (isLoopOf n) = _
    have : (Nbr.interest c s name v).timers = s.timers := by
      unfold Nbr.interest
      split
      · rfl
      · split
        · rfl
        · split
          · rfl
          · split
            · rfl
            · split
              · rfl
              · dsimp only; split <;> rfl
    rw [this]; rfl
  | timeout i =>
    show (Nbr.timeout c s i).timers.countP (isLoopOf n) = _
    unfold Nbr.timeout
    split
    · rfl
    · split
      · rfl
      · rw [hlost]; rfl
  | nack i =>
    show (Nbr.nack c s i).timers.countP (isLoopOf n) = _
    unfold Nbr.nack
    split <;> rfl
  | nackTimer i =>
    show (Nbr.nackTimer c s i).timers.countP (isLoopOf n) = _
    unfold Nbr.nackTimer
    split
    · rfl
    · split
      · rfl
      · rw [hlost]; rfl
  | data i d =>
    show (Nbr.data s i d).timers.countP (isLoopOf n) = _
    unfold Nbr.data
    split
    · rfl
    · split <;> rfl
  | valid i =>
    show (Nbr.valid c s i).timers.countP (isLoopOf n) = _
    unfold Nbr.valid
    split
    · rfl
    · unfold Nbr.validated
      dsimp only
      split
      · split <;> rfl
      · rfl
  | invalid i => rfl
  | faceDown fid =>
    show (Nbr.faceDown c s fid).timers.countP (isLoopOf n) = _
    unfold Nbr.faceDown
    dsimp only
    split
    · rfl
    · split <;> rfl
  | faceUp u fid =>
    show (Nbr.faceUp c s u fid).timers.countP (isLoopOf n) = _
    unfold Nbr.faceUp
    dsimp only
    split
    · rfl
    · split <;> rfl
  | fetchOk i faces =>
    show (Nbr.fetchOk c s i faces).timers.countP (isLoopOf n) = _
    unfold Nbr.fetchOk
    split <;> rfl
  | fetchFail i =>
    show (Nbr.fetchFail c s i).timers.countP (isLoopOf n) = _
    unfold Nbr.fetchFail
    split
    · rfl
    · dsimp only; split <;> rfl
  | fetchTimer i =>
    show (Nbr.fetchTimer s i).timers.countP (isLoopOf n) = _
    unfold Nbr.fetchTimer
    split
    · rfl
    · split <;> rfl
  | newLsa o =>
    show (Nbr.newLsa s o).timers.countP (isLoopOf n) = _
    unfold Nbr.newLsa
    split <;> rfl
  | regFace u fid => rfl
  | clock dt => rfl

theorem isSome_congr {l l' : AdjacencyList} (h : l'.map (·.name) = l.map (·.name)) (n : Name) :
    (find l' n).isSome = (find l n).isSome := by
  have key : ∀ l : AdjacencyList, (find l n).isSome = decide (n ∈ l.map (·.name)) := by
    intro l
    cases hf : find l n with
    | none => exact (decide_eq_false ((find_none_iff l n).1 hf)).symm
    | some a => exact (decide_eq_true (mem_names_of_find hf)).symm
  rw [key, key, h]

/-- All loops are for neighbours, and there are as many for `n` as registrations of `n`. -/
theorem loops_run (c : NConf) (n : Name) (ops : List Nbr.Op) : ∀ s : Nbr, Nbr.Reachable c s →
    (∀ w ∈ s.timers, (find s.adjs w.1).isSome) → (find s.adjs n).isSome → (Nbr.run c s ops).dead = false →
    (Nbr.run c s ops).timers.countP (isLoopOf n) = s.timers.countP (isLoopOf n) + registrations n ops := by
  induction ops with
  | nil => intro s _ _ _ _; rfl
  | cons op ops ih =>
    intro s hr hs hn hd
    have hdead : s.dead = false := by
      cases hsd : s.dead with
      | false => rfl
      | true =>
        exfalso
        have : ∀ ops, Nbr.run c s ops = s := by
          intro ops
          induction ops with
          | nil => rfl
          | cons op ops ih =>
            show Nbr.run c (Nbr.step c s op) ops = s
            have : Nbr.step c s op = s := by unfold Nbr.step; rw [if_pos hsd]
            rw [this, ih]
        rw [this, hsd] at hd
        cases hd
    have hk := (step_keep hr.ninv op).names
    have htm : ∀ w ∈ (Nbr.step c s op).timers, (find s.adjs w.1).isSome := by
      intro w hw
      cases hx : (find s.adjs w.1).isSome with
      | true => rfl
      | false =>
        exfalso
        have h1 := step_timers (c := c) hs w.1 op hdead
        have h2 : 0 < (Nbr.step c s op).timers.countP (isLoopOf w.1) := List.countP_pos_iff.2 ⟨w, hw, by simp [isLoopOf]⟩
        have h3 : s.timers.countP (isLoopOf w.1) = 0 := by
          rw [List.countP_eq_zero]
          intro v hv hvw
          have : v.1 = w.1 := by simpa [isLoopOf] using hvw
          have := this ▸ hs v hv
          rw [hx] at this; cases this
        rw [h3] at h1
        split at h1
        · rename_i m
          by_cases hm : m = w.1
          · rw [if_neg (fun h => by rw [hm, hx] at h; cases h.2)] at h1; omega
          · rw [if_neg (fun h => hm h.1)] at h1; omega
        · omega
    have := ih (Nbr.step c s op) (hr.step op) (by intro w hw; rw [isSome_congr hk]; exact htm w hw)
      (by rw [isSome_congr hk]; exact hn) hd
    show (Nbr.run c (Nbr.step c s op) ops).timers.countP (isLoopOf n) = _
    rw [this, step_timers hs n op hdead]
    unfold registrations
    rw [List.countP_cons]
    cases op with
    | registered m =>
      dsimp only
      by_cases hm : m = n
      · subst hm; rw [hn]; simp; omega
      · simp [hm]
    | _ => rfl

/-- C71, what happens instead: a neighbour is sent periodic hello interests by as many loops as there were successful
registrations of its prefix (one for each time its face came up). -/
theorem C71_loops_partial (c : NConf) (adjs : AdjacencyList) (hf : Nbr.Fresh adjs) (ops : List Nbr.Op) (n : Name)
    (hn : n ∈ adjs.map (·.name)) (hd : (Nbr.run c (Nbr.init c adjs) ops).dead = false) :
    (Nbr.run c (Nbr.init c adjs) ops).timers.countP (isLoopOf n) = registrations n ops := by
  have := loops_run c n ops (Nbr.init c adjs) ⟨adjs, [], hf, rfl⟩ (by intro w hw; cases hw) (by
    rw [isSome_congr (init_names c adjs)]
    cases h : find adjs n with
    | none => exact absurd hn ((find_none_iff _ _).1 h)
    | some a => rfl) hd
  rw [this]
  show 0 + _ = _
  rw [Nat.zero_add]

/-- C71 is violated: after its face went down and came up again, a neighbour is sent two hello interests a second apart,
each by a timer that is due, with a hello interval of sixty. -/
theorem C71_violated : ∃ (c : NConf) (adjs : AdjacencyList) (ops : List Nbr.Op), Nbr.Fresh adjs ∧ c.interval = 60 ∧
    let s := Nbr.run c (Nbr.init c adjs) ops
    s.timers.map (·.2) = [s.now, s.now + 1000000000] ∧
    (Nbr.run c s [.helloTimer 0, .clock 1000000000, .helloTimer 0]).out =
      s.out ++ [.interest (helloOf c (nm ["net", "b"])), .interest (helloOf c (nm ["net", "b"]))] :=
  ⟨HelloWitness.conf, HelloWitness.adjs,
    [.faceUp "udp4://b" 256, .registered (nm ["net", "b"]), .data 0 HelloWitness.reply, .valid 0, .clock 1000000000,
     .faceDown 256, .faceUp "udp4://b" 257, .registered (nm ["net", "b"]), .data 0 HelloWitness.reply, .valid 0, .clock 59000000000],
    hello_fresh, by decide +kernel⟩

end Nlsr
