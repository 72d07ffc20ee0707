import Verif.Props.ConfNames
/- Sections other than `advertising` neither read nor change the list of prefixes. -/
namespace Nlsr.Conf

def setL (l : Npl) (p : Params) : Params := { p with npl := l }

/-- `f` ignores the list of prefixes. -/
def Blind (f : Params → Option Params) : Prop := ∀ p l, f (setL l p) = (f p).map (setL l)

theorem Blind.bind {f g : Params → Option Params} (hf : Blind f) (hg : Blind g) : Blind (fun p => (f p).bind g) := by
  intro p l
  dsimp only
  rw [hf p l]
  cases f p with
  | none => rfl
  | some q => exact hg q l

theorem Blind.const {α : Type} (x : Option α) {g : α → Params → Option Params} (hg : ∀ a, Blind (g a)) :
    Blind (fun p => x.bind (fun a => g a p)) := by
  intro p l
  cases x with
  | none => rfl
  | some a => exact hg a p l

theorem Blind.ite {P : Prop} [Decidable P] {f g : Params → Option Params} (hf : Blind f) (hg : Blind g) :
    Blind (fun p => if P then f p else g p) := by
  intro p l
  dsimp only
  split
  · exact hf p l
  · exact hg p l

theorem Blind.none : Blind (fun _ => Option.none) := fun _ _ => rfl
theorem Blind.some {f : Params → Params} (h : ∀ p l, f (setL l p) = setL l (f p)) : Blind (fun p => Option.some (f p)) :=
  fun p l => by dsimp only; rw [h]; rfl

theorem generalNames_blind (t : Tree) (pr : SyncProtocol) : Blind (fun p => generalNames t { p with protocol := pr }) :=
  .const _ fun _ => .const _ fun _ => .const _ fun _ => .const _ fun _ => .const _ fun _ => .const _ fun _ =>
    .some fun _ _ => rfl

theorem generalTimes_blind (t : Tree) : Blind (generalTimes t) :=
  .ite .none (.ite .none (.ite .none (.ite .none (.some fun _ _ => rfl))))

theorem general_blind (env : ConfEnv) (t : Tree) : Blind (general env t) :=
  .const _ fun _ => .bind (generalNames_blind t _) (.bind (generalTimes_blind t) (.const _ fun _ =>
    .ite (.some fun _ _ => rfl) .none))

theorem neighbor_blind (env : ConfEnv) (t : Tree) : Blind (neighbor env t) :=
  .const _ fun _ => .const _ fun _ => .const _ fun _ => .const _ fun _ =>
    .ite (.some fun _ _ => rfl) (.const _ fun _ => .some fun _ _ => rfl)

theorem neighborsLoop_blind (env : ConfEnv) : ∀ kids, Blind (neighborsLoop env kids)
  | [] => .some fun _ _ => rfl
  | x :: xs => by
    intro p l
    unfold neighborsLoop
    split
    · rw [neighbor_blind env x.2 p l]
      cases neighbor env x.2 p with
      | none => rfl
      | some q => exact neighborsLoop_blind env xs q l
    · exact neighborsLoop_blind env xs p l

theorem helloTimes_blind (t : Tree) : Blind (helloTimes t) :=
  .ite .none (.ite .none (.ite .none (.const _ fun _ => .const _ fun _ => .const _ fun _ => .some fun _ _ => rfl)))

theorem hyperbolic_blind (t : Tree) : Blind (hyperbolic t) := by
  intro p l
  unfold hyperbolic
  dsimp only
  split
  · rfl
  · split
    · split <;> rfl
    · split <;> rfl

theorem fib_blind (t : Tree) : Blind (fib t) := .ite .none (.const _ fun _ => .some fun _ _ => rfl)

theorem section_blind (env : ConfEnv) {name : Text} (hn : name ≠ "advertising".toList) (t : Tree) :
    Blind (section_ env name t) := by
  unfold section_
  refine .ite (general_blind env t) (.ite (.bind (helloTimes_blind t) (neighborsLoop_blind env t.kids))
    (.ite (hyperbolic_blind t) (.ite (fib_blind t) ?_)))
  simp only [if_neg hn]
  exact .ite (.ite (.some fun _ _ => rfl) .none) (.some fun _ _ => rfl)

theorem sections_blind (env : ConfEnv) : ∀ {kids : List (Text × Tree)}, (∀ y ∈ kids, y.1 ≠ "advertising".toList) →
    Blind (sections env kids)
  | [], _ => .some fun _ _ => rfl
  | x :: xs, h => by
    intro p l
    unfold sections
    rw [section_blind env (h x (List.mem_cons_self ..)) x.2 p l]
    cases section_ env x.1 x.2 p with
    | none => rfl
    | some q => exact sections_blind env (fun y hy => h y (List.mem_cons_of_mem _ hy)) q l

/-- Loading with another advertising section gives another list of prefixes and nothing else. -/
theorem load_advertising {env : ConfEnv} {pre post : List (Text × Tree)} {d d' : Text} {x x' : Tree} {p : Params}
    (hpre : ∀ y ∈ pre, y.1 ≠ "advertising".toList) (hpost : ∀ y ∈ post, y.1 ≠ "advertising".toList)
    (h : load env (.node d (pre ++ ("advertising".toList, x) :: post)) = some p) :
    ∃ a, a.npl = [] ∧ (∃ b, advertising x.kids a = some b ∧ p.npl = b.npl) ∧
      ∀ b', advertising x'.kids a = some b' →
        load env (.node d' (pre ++ ("advertising".toList, x') :: post)) = some { p with npl := b'.npl } := by
  unfold load at h
  simp only [Option.map_eq_some_iff] at h
  obtain ⟨q, hq, rfl⟩ := h
  obtain ⟨a, ha, b, hb, hq⟩ := sections_mid hq
  have hadv : ∀ (t : Tree) p, section_ env "advertising".toList t p = advertising t.kids p := by
    intro t p
    unfold section_
    rw [if_neg (by decide), if_neg (by decide), if_neg (by decide), if_neg (by decide), if_pos rfl]
  have hb : advertising x.kids a = some b := (hadv x a).symm.trans hb
  have hnpl : a.npl = [] := by
    have := sections_blind env hpre {} []
    rw [show setL [] {} = {} from rfl, ha] at this
    injection this with this
    rw [this]; rfl
  refine ⟨a, hnpl, ⟨b, hb, ?_⟩, ?_⟩
  · have := sections_blind env hpost b b.npl
    rw [show setL b.npl b = b from rfl, hq] at this
    injection this with this
    rw [this]; rfl
  · intro b' hb'
    have e : b' = setL b'.npl b := by
      have h1 := advertising_other hb
      have h2 := advertising_other hb'
      rw [h1, h2]
      rfl
    unfold load
    dsimp only [Tree.kids]
    rw [sections_append, ha]
    dsimp only [Option.bind]
    unfold sections
    dsimp only
    rw [hadv, hb']
    dsimp only
    rw [e, sections_blind env hpost b b'.npl, hq]
    rfl

end Nlsr.Conf
