import Verif.Model.Nfd
import Verif.Props.NetPrefix
/-
C117: packets for names that lie under several advertised prefixes, with the flags that NLSR gives to the routes.
-/
namespace Nlsr
open LS

namespace Nfd

theorem mem_upTo {n q : Name} : ∀ {k : Nat}, q ∈ upTo n k → ∃ j, j ≤ k ∧ q = n.take j
  | 0, h => ⟨0, Nat.le_refl _, by simpa [upTo] using h⟩
  | k + 1, h => by
    rcases List.mem_cons.1 h with h | h
    · exact ⟨k + 1, Nat.le_refl _, h⟩
    · obtain ⟨j, h1, h2⟩ := mem_upTo h
      exact ⟨j, by omega, h2⟩

theorem inherited_none {faces : List Nat} {rib : Routes} {f : Nat} : ∀ {l : List Name}, (∀ q ∈ l, rib q f = none) → inherited faces rib f l = none
  | [], _ => rfl
  | p :: ps, h => by
    unfold inherited
    rw [h p List.mem_cons_self]
    dsimp only
    split
    · rfl
    · exact inherited_none fun q hq => h q (List.mem_cons_of_mem _ hq)

theorem hop_none {faces : List Nat} {rib : Routes} {f : Nat} : ∀ {l : List Name}, (∀ q ∈ l, rib q f = none) → hop faces rib f l = none
  | [], _ => rfl
  | p :: ps, h => by
    unfold hop
    have hps := fun q hq => h q (List.mem_cons_of_mem _ hq)
    rw [h p List.mem_cons_self]
    dsimp only
    split
    · split
      · rfl
      · exact inherited_none hps
    · exact hop_none hps

/-- A face that no shorter prefix has either counts only at the longest prefix. -/
theorem hop_cons {faces : List Nat} {rib : Routes} {f : Nat} (hf : f ∈ faces) {p : Name} {ps : List Name}
    (h : rib p f = none → ∀ q ∈ ps, rib q f = none) : hop faces rib f (p :: ps) = (rib p f).map (·.1) := by
  unfold hop
  cases hr : rib p f with
  | some x =>
    have : faces.any (fun g => (rib p g).isSome) = true := List.any_eq_true.2 ⟨f, hf, by rw [hr]; rfl⟩
    rw [if_pos this]
    rfl
  | none =>
    dsimp only
    split
    · split
      · rfl
      · exact inherited_none (h hr)
    · exact hop_none (h hr)

/-- Where the longest prefix with routes has `m` components. -/
theorem hop_upTo {faces : List Nat} {rib : Routes} {f : Nat} (hf : f ∈ faces) {n : Name} {m : Nat}
    (h : rib (n.take m) f = none → ∀ j < m, rib (n.take j) f = none) : ∀ (k : Nat), m ≤ k →
    (∀ j, m < j → j ≤ k → ∀ g ∈ faces, rib (n.take j) g = none) → hop faces rib f (upTo n k) = (rib (n.take m) f).map (·.1) := by
  have base : hop faces rib f (upTo n m) = (rib (n.take m) f).map (·.1) := by
    cases m with
    | zero => exact hop_cons hf (fun _ q hq => by cases hq)
    | succ m =>
      refine hop_cons hf (fun hr q hq => ?_)
      obtain ⟨j, h1, rfl⟩ := mem_upTo hq
      exact h hr j (by omega)
  intro k hk
  induction k with
  | zero => intro _; rw [show m = 0 by omega] at base ⊢; exact base
  | succ k ih =>
    intro he
    by_cases hkm : k + 1 = m
    · rw [hkm]; exact base
    · unfold upTo hop
      have : faces.any (fun g => (rib (n.take (k + 1)) g).isSome) = false := by
        rw [List.any_eq_false]
        intro g hg
        rw [he (k + 1) (by omega) (Nat.le_refl _) g hg]
        simp
      rw [this]
      exact ih (by omega) fun j h1 h2 => he j h1 (by omega)

/-- What counts over a face is a route over that face, of some prefix. -/
theorem inherited_some {faces : List Nat} {rib : Routes} {f : Nat} {x : Int} : ∀ {l : List Name}, inherited faces rib f l = some x →
    ∃ q ∈ l, ∃ fl, rib q f = some (x, fl)
  | [], h => by cases h
  | p :: ps, h => by
    have later : inherited faces rib f ps = some x → ∃ q ∈ p :: ps, ∃ fl, rib q f = some (x, fl) := fun h => by
      obtain ⟨q, h1, h2⟩ := inherited_some h
      exact ⟨q, List.mem_cons_of_mem _ h1, h2⟩
    unfold inherited at h
    split at h
    · rename_i y fl hr
      split at h
      · injection h with h; subst h
        exact ⟨p, List.mem_cons_self, fl, hr⟩
      · split at h
        · cases h
        · exact later h
    · split at h
      · cases h
      · exact later h

theorem hop_some {faces : List Nat} {rib : Routes} {f : Nat} {x : Int} : ∀ {l : List Name}, hop faces rib f l = some x →
    ∃ q ∈ l, ∃ fl, rib q f = some (x, fl)
  | [], h => by cases h
  | p :: ps, h => by
    unfold hop at h
    split at h
    · split at h
      · rename_i y fl hr
        injection h with h; subst h
        exact ⟨p, List.mem_cons_self, fl, hr⟩
      · split at h
        · cases h
        · obtain ⟨q, h1, h2⟩ := inherited_some h
          exact ⟨q, List.mem_cons_of_mem _ h1, h2⟩
    · obtain ⟨q, h1, h2⟩ := hop_some h
      exact ⟨q, List.mem_cons_of_mem _ h1, h2⟩

end Nfd

namespace Net
variable {ι : Type} [DecidableEq ι]

/-! ### vocabulary -/

/-- The faces to the neighbours of router `i`. -/
def nbrFaces (N : State ι) (i : ι) : List Nat := ((N i).r.nbr.adjs.filter (fun a => decide (0 < a.faceId))).map (·.faceId)

/-- Router `i` hands a packet with name `n`, which it got from `o` (or, with `none`, from an application), to its
neighbour `j`: of the faces to neighbours that NFD has as next hops for the name, without the one the packet came
from, none is cheaper.  (This is NFD's best-route strategy, for a packet it sees for the first time.) -/
def Sends (c : ι → RConf) (N : State ι) (rib : ι → Nfd.Routes) (n : Name) (o : Option ι) (i j : ι) : Prop :=
  ∃ a ∈ (N i).r.nbr.adjs, a.name = (c j).lsdb.router ∧ 0 < a.faceId ∧ o ≠ some j ∧
    ∃ x, Nfd.cost (nbrFaces N i) (rib i) n a.faceId = some x ∧
      ∀ b ∈ (N i).r.nbr.adjs, 0 < b.faceId → (∀ j', o = some j' → b.name ≠ (c j').lsdb.router) →
        ∀ y, Nfd.cost (nbrFaces N i) (rib i) n b.faceId = some y → x ≤ y

/-- NFD has the routes that the FIBs list for the prefixes of `n`, at the costs of the routing tables (plus what the FIB
adds for the prefix).  That NFD has them is the subject of C83, that it is told the costs that of C89. -/
structure InNfd (c : ι → RConf) (N : State ι) (rib : ι → Nfd.Routes) (n : Name) : Prop where
  listed : ∀ i q, q <+: n → ∀ a ∈ (N i).r.nbr.adjs, a.uri ∈ (N i).r.fib.faces q ↔ 0 < a.faceId ∧ (rib i q a.faceId).isSome = true
  cost : ∀ i q, q <+: n → ∃ off : Int, ∀ a ∈ (N i).r.nbr.adjs, ∀ x fl, rib i q a.faceId = some (x, fl) →
    ∃ k : Int, x = k + off ∧ Reaches (c i).lsdb.router (N i).r q a.uri (k : Rat) ∧
      ∀ k', Reaches (c i).lsdb.router (N i).r q a.uri k' → (k : Rat) ≤ k'

/-- `p` is the longest prefix of `n` that is advertised anywhere. -/
structure LongestServed (c : ι → RConf) (N : State ι) (n p : Name) : Prop where
  «prefix» : p <+: n
  longest : ∀ q, q <+: n → p.length < q.length → ∀ d, ¬ Serves c N q d

/-- A packet on its way: where it came from and where it is. -/
abbrev Place (ι : Type) := Option ι × ι

section
variable {c : ι → RConf} {N : State ι} {rib : ι → Nfd.Routes} {n p : Name}

theorem faces_none (hs : Sane c) (h : Reachable c N) (hq : Settled c N) (hn : NamesExchanged c N) (hw : Wired N)
    (hu : ∀ i, (N i).r.undef = false) {q : Name} (hp : Plain c N q) (hno : ∀ d, ¬ Serves c N q d) (i : ι) :
    (N i).r.fib.faces q = [] := by
  cases hf : (N i).r.fib.faces q with
  | nil => rfl
  | cons u us =>
    obtain ⟨-, -, d, -, -, -, h1, -⟩ := C89_listed hs h hq hn hw hu hp i u (by rw [hf]; exact List.mem_cons_self)
    exact absurd h1 (hno d)

/-- Where the faces of shorter prefixes are faces of the longest one too, only its own routes count. -/
theorem cost_own (hs : Sane c) (h : Reachable c N) (hq : Settled c N) (hn : NamesExchanged c N) (hw : Wired N)
    (hu : ∀ i, (N i).r.undef = false) (hpl : ∀ q, q <+: n → Plain c N q) (ht : InNfd c N rib n) (hp : LongestServed c N n p) {i : ι}
    (hcov : ∀ q, q <+: p → ∀ u ∈ (N i).r.fib.faces q, u ∈ (N i).r.fib.faces p) {a : Adjacent} (ha : a ∈ (N i).r.nbr.adjs)
    (hf : 0 < a.faceId) : Nfd.cost (nbrFaces N i) (rib i) n a.faceId = (rib i p a.faceId).map (·.1) := by
  have hpe : n.take p.length = p := List.prefix_iff_eq_take.1 hp.prefix |>.symm
  have hlen : p.length ≤ n.length := hp.prefix.length_le
  have hmem : a.faceId ∈ nbrFaces N i := List.mem_map.2 ⟨a, List.mem_filter.2 ⟨ha, by simpa using hf⟩, rfl⟩
  unfold Nfd.cost
  conv => rhs; rw [← hpe]
  refine Nfd.hop_upTo hmem ?_ _ hlen ?_
  · intro hr j hj
    rw [hpe] at hr
    have hqn : n.take j <+: n := List.take_prefix _ _
    have hqp : n.take j <+: p := List.prefix_of_prefix_length_le hqn hp.prefix (by rw [List.length_take]; omega)
    cases hx : rib i (n.take j) a.faceId with
    | none => rfl
    | some x =>
      have := (ht.listed i _ hqn a ha).2 ⟨hf, by rw [hx]; rfl⟩
      have := ((ht.listed i p hp.prefix a ha).1 (hcov _ hqp _ this)).2
      rw [hr] at this
      cases this
  · intro j h1 h2 g hg
    obtain ⟨b, hb, rfl⟩ := List.mem_map.1 hg
    obtain ⟨hb, hb'⟩ := List.mem_filter.1 hb
    have hqn : n.take j <+: n := List.take_prefix _ _
    have he := faces_none hs h hq hn hw hu (hpl _ hqn) (hp.longest _ hqn (by rw [List.length_take]; omega)) i
    cases hx : rib i (n.take j) b.faceId with
    | none => rfl
    | some x =>
      have := (ht.listed i _ hqn b hb).2 ⟨by simpa using hb', by rw [hx]; rfl⟩
      rw [he] at this
      cases this

/-- A nearest advertiser has a face of its own in NFD, which leads nearer. -/
theorem nearest_told (hs : Sane c) (h : Reachable c N) (hq : Settled c N) (hn : NamesExchanged c N) (hw : Wired N)
    (hu : ∀ i, (N i).r.undef = false) (hpl : Plain c N p) (ht : InNfd c N rib n) (hpn : p <+: n) {i : ι} {k : Int}
    (hk : Nearest c N p i k) (hlim : k < costLimit) (hi : ¬ Serves c N p i) {off : Int}
    (ho : ∀ a ∈ (N i).r.nbr.adjs, ∀ x fl, rib i p a.faceId = some (x, fl) →
      ∃ k : Int, x = k + off ∧ Reaches (c i).lsdb.router (N i).r p a.uri (k : Rat) ∧
        ∀ k', Reaches (c i).lsdb.router (N i).r p a.uri k' → (k : Rat) ≤ k') :
    ∃ a ∈ (N i).r.nbr.adjs, ∃ j w k' fl, a.name = (c j).lsdb.router ∧ 0 < a.faceId ∧ rib i p a.faceId = some (k + off, fl) ∧
      Up c N i j w ∧ k = w + k' ∧ Nearest c N p j k' := by
  obtain ⟨v, hv, hv'⟩ := nearest_reached hs h hq hn hw hu hpl hk hlim hi
  obtain ⟨j, w, k', d, ⟨a, ha, han, rfl⟩, g2, g3, g4, g5⟩ := reaches_path hs h hq hn hw hv'
  have g5 : k = w + k' := by exact_mod_cast g5
  obtain ⟨hf, hr⟩ := (ht.listed i p hpn a ha).1 hv
  obtain ⟨⟨x, fl⟩, hx⟩ := Option.isSome_iff_exists.1 hr
  obtain ⟨k2, rfl, h1, h2⟩ := ho a ha x fl hx
  have hle : k2 ≤ k := by exact_mod_cast h2 _ hv'
  obtain ⟨j2, w2, k3, d2, -, e2, e3, e4, e5⟩ := reaches_path hs h hq hn hw h1
  have e5 : k2 = w2 + k3 := by exact_mod_cast e5
  have := hk.2 _ _ e3 ((Path.single e2).trans e4)
  have : k2 = k := by omega
  subst this
  refine ⟨a, ha, j, w, k', fl, han, hf, hx, g2, g5, ⟨d, g3, g4⟩, fun d2 k2 hd2 hk2 => ?_⟩
  have := hk.2 _ _ hd2 ((Path.single g2).trans hk2)
  omega

/-- The place a packet was before is farther away. -/
def Coming (c : ι → RConf) (N : State ι) (p : Name) (k : Int) (o : Option ι) : Prop := ∀ j, o = some j → ∃ k0, Nearest c N p j k0 ∧ k < k0

theorem sends_nearer (hs : Sane c) (h : Reachable c N) (hq : Settled c N) (hn : NamesExchanged c N) (hw : Wired N)
    (hu : ∀ i, (N i).r.undef = false) (hpl : ∀ q, q <+: n → Plain c N q) (ht : InNfd c N rib n) (hp : LongestServed c N n p) {i : ι}
    (hcov : ∀ q, q <+: p → ∀ u ∈ (N i).r.fib.faces q, u ∈ (N i).r.fib.faces p) {k : Int} (hk : Nearest c N p i k) (hlim : k < costLimit)
    (hi : ¬ Serves c N p i) {o : Option ι} (ho : Coming c N p k o) :
    (∃ j, Sends c N rib n o i j) ∧ ∀ j, Sends c N rib n o i j → ∃ w k', Up c N i j w ∧ k = w + k' ∧ Nearest c N p j k' := by
  have own := fun {a} ha hf => cost_own hs h hq hn hw hu hpl ht hp hcov (a := a) ha hf
  obtain ⟨off, hoff⟩ := ht.cost i p hp.prefix
  obtain ⟨a, ha, j, w, k', fl, h1, h2, h3, h4, h5, h6⟩ := nearest_told hs h hq hn hw hu (hpl p hp.prefix) ht hp.prefix hk hlim hi hoff
  have hpos := h4.pos hw
  have hback : ∀ j', o = some j' → j ≠ j' := by
    rintro j' hj' rfl
    obtain ⟨k0, h7, h8⟩ := ho _ hj'
    have := h7.unique h6
    omega
  have hc : Nfd.cost (nbrFaces N i) (rib i) n a.faceId = some (k + off) := by rw [own ha h2, h3]; rfl
  have least : ∀ b ∈ (N i).r.nbr.adjs, 0 < b.faceId → ∀ y, Nfd.cost (nbrFaces N i) (rib i) n b.faceId = some y →
      ∃ j' w k', b.name = (c j').lsdb.router ∧ Up c N i j' w ∧ y = w + k' + off ∧ k ≤ w + k' ∧ ∃ d, Serves c N p d ∧ Path (Up c N) j' d k' := by
    intro b hb hf y hy
    rw [own hb hf] at hy
    obtain ⟨⟨x, fl⟩, hx, rfl⟩ := Option.map_eq_some_iff.1 hy
    obtain ⟨k2, e1, e2, -⟩ := hoff b hb x fl hx
    obtain ⟨j', w2, k3, d, ⟨b', hb', hn', hu'⟩, g2, g3, g4, g5⟩ := reaches_path hs h hq hn hw e2
    have g5 : k2 = w2 + k3 := by exact_mod_cast g5
    have := Lsdb.nodup_inj (hw.uris i) hb hb' hu'.symm
    subst this
    have := hk.2 _ _ g3 ((Path.single g2).trans g4)
    exact ⟨j', w2, k3, hn', g2, by dsimp only; omega, this, d, g3, g4⟩
  refine ⟨⟨j, a, ha, h1, h2, fun e => hback _ e rfl, _, hc, fun b hb hf _ y hy => ?_⟩, ?_⟩
  · obtain ⟨j', w, k', -, -, rfl, h8, -⟩ := least b hb hf y hy
    omega
  · rintro j' ⟨b, hb, hbn, hbf, hbo, x, hx, hmin⟩
    have hle := hmin a ha h2 (fun j2 hj2 e => hback j2 hj2 (hs.distinct _ _ (h1.symm.trans e))) _ hc
    obtain ⟨j2, w2, k2, e1, e2, rfl, e4, d, e5, e6⟩ := least b hb hbf x hx
    have : j' = j2 := hs.distinct _ _ (hbn.symm.trans e1)
    subst this
    refine ⟨w2, k2, e2, by omega, ⟨d, e5, e6⟩, fun d2 k3 hd2 hk3 => ?_⟩
    have := hk.2 _ _ hd2 ((Path.single e2).trans hk3)
    omega

/-! ### C117 -/

/-- C117, as far as it holds: packets for a name are delivered to a router that advertises the longest advertised prefix
of the name, to a nearest one by links that add up to the least possible cost, if at every router on the way the faces
that the FIB lists for shorter prefixes are listed for the longest one too.  Missing for the full property: networks
where this is not so, for which it is refuted below; names of routers; and what C83 and C89 leave out. -/
theorem C117_longest_partial (hs : Sane c) (h : Reachable c N) (hq : Settled c N) (hn : NamesExchanged c N) (hw : Wired N)
    (hu : ∀ i, (N i).r.undef = false) (hpl : ∀ q, q <+: n → Plain c N q) (ht : InNfd c N rib n) (hp : LongestServed c N n p)
    (hcov : ∀ i, ¬ Serves c N p i → ∀ q, q <+: p → ∀ u ∈ (N i).r.fib.faces q, u ∈ (N i).r.fib.faces p)
    (i d : ι) (hd : Serves c N p d) (k : Int) (hk : Path (Up c N) i d k) (hlim : k < costLimit) :
    ∃ k', k' ≤ k ∧ Nearest c N p i k' ∧
      Fwd.Inevitable (V := Place ι) (fun x y w => Up c N x.2 y.2 w) (fun x y => y.1 = some x.2 ∧ Sends c N rib n x.1 x.2 y.2)
        (fun x => Serves c N p x.2) (none, i) k' := by
  have all : ∀ (m : Nat) (o : Option ι) (i : ι) (k : Int), Nearest c N p i k → k < costLimit → k.toNat ≤ m → Coming c N p k o →
      Fwd.Inevitable (V := Place ι) (fun x y w => Up c N x.2 y.2 w) (fun x y => y.1 = some x.2 ∧ Sends c N rib n x.1 x.2 y.2)
        (fun x => Serves c N p x.2) (o, i) k := by
    intro m
    induction m with
    | zero =>
      intro o i k hk hlim hm ho
      by_cases hi : Serves c N p i
      · have := hk.2 i 0 hi (Path.nil _)
        obtain ⟨⟨d, -, h2⟩, -⟩ := hk
        have := Path.nonneg (up_nonneg hw) h2
        have : k = 0 := by omega
        subst this
        exact .here hi
      · obtain ⟨⟨j, hj⟩, hall⟩ := sends_nearer hs h hq hn hw hu hpl ht hp (hcov i hi) hk hlim hi ho
        obtain ⟨w, k', h1, h2, h3⟩ := hall j hj
        have := h1.pos hw
        obtain ⟨⟨d, -, h4⟩, -⟩ := h3
        have := Path.nonneg (up_nonneg hw) h4
        omega
    | succ m ih =>
      intro o i k hk hlim hm ho
      by_cases hi : Serves c N p i
      · have := hk.2 i 0 hi (Path.nil _)
        obtain ⟨⟨d, -, h2⟩, -⟩ := hk
        have := Path.nonneg (up_nonneg hw) h2
        have : k = 0 := by omega
        subst this
        exact .here hi
      · obtain ⟨⟨j, hj⟩, hall⟩ := sends_nearer hs h hq hn hw hu hpl ht hp (hcov i hi) hk hlim hi ho
        refine .of ⟨(some i, j), rfl, hj⟩ ?_
        rintro ⟨o', j'⟩ ⟨he, hj'⟩
        dsimp only at he hj'
        subst he
        obtain ⟨w, k', h1, h2, h3⟩ := hall j' hj'
        have hpos := h1.pos hw
        refine ⟨w, k', h1, h2, ih _ _ _ h3 (by omega) ?_ ?_⟩
        · obtain ⟨⟨d, -, h4⟩, -⟩ := h3
          have := Path.nonneg (up_nonneg hw) h4
          omega
        · intro j2 hj2
          injection hj2 with hj2
          subst hj2
          exact ⟨k, hk, by omega⟩
  obtain ⟨k', h1, h2⟩ := Nearest.exists hw hd hk
  exact ⟨k', h1, h2, all _ none i k' h2 (by omega) (Nat.le_refl _) (fun j hj => by cases hj)⟩

/-- C117: no packet is sent astray: whichever face to a neighbour NFD has as a next hop for a name, it leads to a router
that advertises a prefix of the name. -/
theorem C117_not_astray (hs : Sane c) (h : Reachable c N) (hq : Settled c N) (hn : NamesExchanged c N) (hw : Wired N)
    (ht : InNfd c N rib n) (i j : ι) (o : Option ι)
    (hx : Sends c N rib n o i j) : ∃ q w d k, q <+: n ∧ Up c N i j w ∧ Serves c N q d ∧ Path (Up c N) j d k := by
  obtain ⟨a, ha, han, hf, -, x, hx, -⟩ := hx
  unfold Nfd.cost at hx
  obtain ⟨q, hq', fl, hr⟩ := Nfd.hop_some hx
  obtain ⟨m, -, rfl⟩ := Nfd.mem_upTo hq'
  have hqn : n.take m <+: n := List.take_prefix _ _
  obtain ⟨off, hoff⟩ := ht.cost i _ hqn
  obtain ⟨k2, -, e2, -⟩ := hoff a ha x fl hr
  obtain ⟨j', w2, k3, d, ⟨b', hb', hn', hu'⟩, g2, g3, g4, -⟩ := reaches_path hs h hq hn hw e2
  have := Lsdb.nodup_inj (hw.uris i) ha hb' hu'.symm
  subst this
  have : j = j' := hs.distinct _ _ (han.symm.trans hn')
  subst this
  exact ⟨_, w2, d, k3, hqn, g2, g3, g4⟩

/-- Without a limit on the faces per prefix, every face by which an advertiser can be reached is listed. -/
theorem listed_of_reaches (hs : Sane c) (h : Reachable c N) (hq : Settled c N) (hu : ∀ i, (N i).r.undef = false) (hp : Plain c N p)
    {i : ι} (hm : (c i).maxFaces = 0) {u : Uri} {k : Rat} (hr : Reaches (c i).lsdb.router (N i).r p u k) : u ∈ (N i).r.fib.faces p :=
  Classical.byContradiction fun hno => ((best hs h hq hu hp i).full u k hr hno).1 hm

/-- C117: so it is if no shorter prefix of the name is advertised. -/
theorem C117_single_partial (hs : Sane c) (h : Reachable c N) (hq : Settled c N) (hn : NamesExchanged c N) (hw : Wired N)
    (hu : ∀ i, (N i).r.undef = false) (hpl : ∀ q, q <+: n → Plain c N q) (ht : InNfd c N rib n) (hpn : p <+: n)
    (hone : ∀ q, q <+: n → ∀ d, Serves c N q d → q = p)
    (i d : ι) (hd : Serves c N p d) (k : Int) (hk : Path (Up c N) i d k) (hlim : k < costLimit) :
    ∃ k', k' ≤ k ∧ Nearest c N p i k' ∧
      Fwd.Inevitable (V := Place ι) (fun x y w => Up c N x.2 y.2 w) (fun x y => y.1 = some x.2 ∧ Sends c N rib n x.1 x.2 y.2)
        (fun x => Serves c N p x.2) (none, i) k' := by
  refine C117_longest_partial hs h hq hn hw hu hpl ht ⟨hpn, fun q hqn hl d hd => ?_⟩ (fun i _ q hqp u hu' => ?_) i d hd k hk hlim
  · rw [hone q hqn d hd] at hl; omega
  · by_cases e : q = p
    · rw [← e]; exact hu'
    · have := faces_none hs h hq hn hw hu (hpl q (hqp.trans hpn)) (fun d hd => e (hone q (hqp.trans hpn) d hd)) i
      rw [this] at hu'
      cases hu'

/-- C117: so it is without a limit on the faces per prefix, if every router that advertises a shorter prefix of the name
advertises the longest one too. -/
theorem C117_both_partial (hs : Sane c) (h : Reachable c N) (hq : Settled c N) (hn : NamesExchanged c N) (hw : Wired N)
    (hu : ∀ i, (N i).r.undef = false) (hpl : ∀ q, q <+: n → Plain c N q) (ht : InNfd c N rib n) (hp : LongestServed c N n p)
    (hm : ∀ i, (c i).maxFaces = 0) (hboth : ∀ q, q <+: n → ∀ d, Serves c N q d → Serves c N p d)
    (i d : ι) (hd : Serves c N p d) (k : Int) (hk : Path (Up c N) i d k) (hlim : k < costLimit) :
    ∃ k', k' ≤ k ∧ Nearest c N p i k' ∧
      Fwd.Inevitable (V := Place ι) (fun x y w => Up c N x.2 y.2 w) (fun x y => y.1 = some x.2 ∧ Sends c N rib n x.1 x.2 y.2)
        (fun x => Serves c N p x.2) (none, i) k' := by
  refine C117_longest_partial hs h hq hn hw hu hpl ht hp (fun i _ q hqp u hu' => ?_) i d hd k hk hlim
  have hqn := hqp.trans hp.prefix
  obtain ⟨k, r, h1, h2, e, he, rfl, h3⟩ := (best hs h hq hu (hpl q hqn) i).real u hu'
  obtain ⟨d, -, hde, -⟩ := (hq.first hs h hw i).1 e he
  rw [hde] at h1 h2
  have := hboth q hqn d ((announces_serves hs h hn i d).1 h2)
  exact listed_of_reaches hs h hq hu (hpl p hp.prefix) (hm i)
    (k := k) ⟨_, h1, (announces_serves hs h hn i d).2 this, e, he, hde, h3⟩

/-- In a settled network without a limit, the face to a neighbour is listed if an advertiser can be reached from the
neighbour without coming back. -/
theorem listed_of_path (hs : Sane c) (h : Reachable c N) (hq : Settled c N) (hn : NamesExchanged c N) (hw : Wired N)
    (hu : ∀ i, (N i).r.undef = false) (hp : Plain c N p) {i j d : ι} (hm : (c i).maxFaces = 0) {w k : Int} (hup : Up c N i j w) (hij : j ≠ i)
    (hd : Serves c N p d) (hdi : d ≠ i) (hk : Path (Avoid i (Up c N)) j d k) (hlim : w + k < costLimit) {a : Adjacent}
    (ha : a ∈ (N i).r.nbr.adjs) (han : a.name = (c j).lsdb.router) : a.uri ∈ (N i).r.fib.faces p := by
  have ht := ((h.ninv hs).trusted i).reachable.all
  obtain ⟨db, hpm, htab⟩ := hq.computed i
  unfold Core.lsTable at htab
  obtain ⟨out, hout, htab⟩ := Option.map_eq_some_iff.1 htab
  have hwf := adjAds_wellFormed ((h.ninv hs).node i).reach.inv hpm
  obtain ⟨out', e', f⟩ := C07_multipath_offers (Core.adjAds db) hwf (c i).maxFaces (by rw [hm]; decide) (c i).lsdb.router
    (fun n => ((N i).r.core.lsdb.adjs.getAdjacent n).uri)
  have e' : out = out' := Option.some.inj (hout.symm.trans e')
  subst e'
  have hpath : Path (Avoid (c i).lsdb.router (Link (Core.adjAds db))) (c j).lsdb.router (c d).lsdb.router k := by
    have : ∀ {x y : ι} {k : Int}, Path (Avoid i (Up c N)) x y k →
        Path (Avoid (c i).lsdb.router (Link (Core.adjAds db))) (c x).lsdb.router (c y).lsdb.router k := by
      intro x y k hk
      induction hk with
      | nil => exact .nil _
      | snoc _ h2 ih =>
        exact .snoc ih ⟨(hq.link hs h hw hpm _ _ _).2 h2.1, fun e => h2.2.1 (hs.distinct _ _ e), fun e => h2.2.2 (hs.distinct _ _ e)⟩
    exact this hk
  obtain ⟨k', h1, h2⟩ := Shortest.exists (fun a b w h => Link.nonneg a b w h.1) hpath
  have hmem := (f (c d).lsdb.router _).2 ⟨fun e => hdi (hs.distinct _ _ e), (c j).lsdb.router, w, k', fun e => hij (hs.distinct _ _ e),
    (hq.link hs h hw hpm _ _ _).2 hup, h2, by omega, rfl⟩
  obtain ⟨-, g2, g3⟩ := C13_one_entry_per_destination out
  obtain ⟨e, he, hde⟩ := (g2 (c d).lsdb.router).2 ⟨_, hmem, rfl⟩
  obtain ⟨x, hx, hxu⟩ := (g3 e he).2.2 _ (hde ▸ hmem)
  rw [htab] at he
  have hface : ((N i).r.core.lsdb.adjs.getAdjacent (c j).lsdb.router).uri = a.uri := by
    rw [ht.synced.lsdb]
    have : AdjacencyList.find (N i).r.nbr.adjs (c j).lsdb.router = some a := by
      unfold AdjacencyList.find
      cases hf : (N i).r.nbr.adjs.find? (fun b => b.name == (c j).lsdb.router) with
      | none =>
        have := List.find?_eq_none.1 hf a ha
        simp [han] at this
      | some b =>
        have h1 := List.mem_of_find?_eq_some hf
        have h2 := List.find?_some hf
        simp only [beq_iff_eq] at h2
        rw [Lsdb.nodup_inj ht.base.nbr.ninv.nodup h1 ha (h2.trans han.symm)]
    unfold AdjacencyList.getAdjacent
    rw [this]
  exact listed_of_reaches hs h hq hu hp hm (k := x.cost)
    ⟨_, fun e => hdi (hs.distinct _ _ e), (announces_serves hs h hn i d).2 hd, e, he, hde, x, hx, hxu.trans hface, rfl⟩

/-- A face that is listed leads to a router from which an advertiser can be reached without coming back. -/
theorem reaches_avoid (hs : Sane c) (h : Reachable c N) (hq : Settled c N) (hn : NamesExchanged c N) (hw : Wired N) {i : ι}
    (hm : (c i).maxFaces = 0) {q : Name} {u : Uri} {x : Rat} (hr : Reaches (c i).lsdb.router (N i).r q u x) :
    ∃ j w d k, (∃ a ∈ (N i).r.nbr.adjs, a.name = (c j).lsdb.router ∧ a.uri = u) ∧ Up c N i j w ∧ j ≠ i ∧ Serves c N q d ∧
      Path (Avoid i (Up c N)) j d k := by
  obtain ⟨r, -, hx, e, he, rfl, y, hy, rfl, rfl⟩ := hr
  have ht := ((h.ninv hs).trusted i).reachable.all
  obtain ⟨d, -, hde, -⟩ := (hq.first hs h hw i).1 e he
  rw [hde] at hx
  obtain ⟨db, hpm, htab⟩ := hq.computed i
  unfold Core.lsTable at htab
  obtain ⟨out, hout, htab⟩ := Option.map_eq_some_iff.1 htab
  have hwf := adjAds_wellFormed ((h.ninv hs).node i).reach.inv hpm
  obtain ⟨out', e', f⟩ := C07_multipath_offers (Core.adjAds db) hwf (c i).maxFaces (by rw [hm]; decide) (c i).lsdb.router
    (fun n => ((N i).r.core.lsdb.adjs.getAdjacent n).uri)
  have e' : out = out' := Option.some.inj (hout.symm.trans e')
  subst e'
  obtain ⟨-, -, g3⟩ := C13_one_entry_per_destination out
  have hmem := ((g3 e (htab ▸ he)).2.1 y hy).1
  obtain ⟨-, n, w, k, hne, hl, hsp, -, hye⟩ := (f _ _).1 hmem
  obtain ⟨-, j, -, rfl⟩ := Settled.link_routers hs h hpm hl
  have hup := (hq.link hs h hw hpm i j w).1 hl
  have hback : ∀ {x y : Name} {k : Int}, Path (Avoid (c i).lsdb.router (Link (Core.adjAds db))) x y k → x = (c j).lsdb.router →
      ∃ b, y = (c b).lsdb.router ∧ Path (Avoid i (Up c N)) j b k := by
    intro x y k hp
    induction hp with
    | nil => intro e; exact ⟨j, e, .nil _⟩
    | snoc _ h2 ih =>
      intro e
      obtain ⟨b, rfl, hb⟩ := ih e
      obtain ⟨-, b', -, rfl⟩ := Settled.link_routers hs h hpm h2.1
      exact ⟨b', rfl, .snoc hb ⟨(hq.link hs h hw hpm _ _ _).1 h2.1, fun e => h2.2.1 (by rw [e]), fun e => h2.2.2 (by rw [e])⟩⟩
  obtain ⟨b, hb, hpath⟩ := hback hsp.1 rfl
  have : b = d := hs.distinct _ _ (hb.symm.trans hde)
  subst this
  refine ⟨j, w, b, k, ?_, hup, fun e => hne (by rw [e]), (announces_serves hs h hn i b).1 hx, hpath⟩
  obtain ⟨x', y', ⟨u, a, ha, -, han, -⟩, -⟩ := hup
  refine ⟨a, ha, han, ?_⟩
  rw [hye, ht.synced.lsdb]
  have : AdjacencyList.find (N i).r.nbr.adjs (c j).lsdb.router = some a := by
    unfold AdjacencyList.find
    cases hf : (N i).r.nbr.adjs.find? (fun b => b.name == (c j).lsdb.router) with
    | none =>
      have := List.find?_eq_none.1 hf a ha
      simp [han] at this
    | some b =>
      have h1 := List.mem_of_find?_eq_some hf
      have h2 := List.find?_some hf
      simp only [beq_iff_eq] at h2
      rw [Lsdb.nodup_inj ht.base.nbr.ninv.nodup h1 ha (h2.trans han.symm)]
  unfold AdjacencyList.getAdjacent
  rw [this]

/-- C117: and so it is, without a limit on the faces per prefix, in a network where a neighbour of a router that reaches
an advertiser of a shorter prefix without coming back to the router reaches one of the longest prefix in this way too. -/
theorem C117_around_partial (hs : Sane c) (h : Reachable c N) (hq : Settled c N) (hn : NamesExchanged c N) (hw : Wired N)
    (hu : ∀ i, (N i).r.undef = false) (hpl : ∀ q, q <+: n → Plain c N q) (ht : InNfd c N rib n) (hp : LongestServed c N n p)
    (hm : ∀ i, (c i).maxFaces = 0)
    (hround : ∀ i, ¬ Serves c N p i → ∀ j w, Up c N i j w → ∀ q d' k', q <+: p → Serves c N q d' → Path (Avoid i (Up c N)) j d' k' →
      ∃ d k, Serves c N p d ∧ Path (Avoid i (Up c N)) j d k ∧ w + k < costLimit)
    (i d : ι) (hd : Serves c N p d) (k : Int) (hk : Path (Up c N) i d k) (hlim : k < costLimit) :
    ∃ k', k' ≤ k ∧ Nearest c N p i k' ∧
      Fwd.Inevitable (V := Place ι) (fun x y w => Up c N x.2 y.2 w) (fun x y => y.1 = some x.2 ∧ Sends c N rib n x.1 x.2 y.2)
        (fun x => Serves c N p x.2) (none, i) k' := by
  refine C117_longest_partial hs h hq hn hw hu hpl ht hp (fun i hi q hqp u hu' => ?_) i d hd k hk hlim
  obtain ⟨x, hx⟩ := (best hs h hq hu (hpl q (hqp.trans hp.prefix)) i).real u hu'
  obtain ⟨j, w, d, k, ⟨a, ha, han, rfl⟩, h2, hji, h3, h4⟩ := reaches_avoid hs h hq hn hw (hm i) hx
  obtain ⟨d', k', h5, h6, h7⟩ := hround i hi j w h2 q d k hqp h3 h4
  exact listed_of_path hs h hq hn hw hu (hpl p hp.prefix) (hm i) h2 hji h5 (fun e => hi (e ▸ h5)) h6 h7 ha han

end

/-! ### the hypotheses can be met, and the missing part

Five routers.  x advertises /a/b and is linked to u only, at cost 10.  y advertises /a.  u, v and w are linked to each
other and y is linked to v and w. -/

def exNestConf (i : Fin 5) : RConf :=
  { exRC .off 0 with lsdb := { exConf .off with names := ⟨nm ["net"], nm ["site"], nm [["x", "y", "u", "w", "v"].getD i.val ""]⟩ } }

theorem exNestSane : Sane exNestConf := ⟨by decide +kernel, by decide +kernel, by decide +kernel, by decide +kernel⟩

/-- Who is linked to router `i`, and what the link costs. -/
def exNestNear (i : Fin 5) : List (Fin 5 × Rat) :=
  [[(2, 10)], [(3, 10), (4, 2)], [(0, 10), (3, 5), (4, 3)], [(1, 10), (2, 5), (4, 3)], [(1, 2), (2, 3), (3, 3)]].getD i.val []

def exNestUri (i : Fin 5) : Uri := ["udp4://x", "udp4://y", "udp4://u", "udp4://w", "udp4://v"].getD i.val ""

def exNestAdjs (i : Fin 5) : AdjacencyList := (exNestNear i).map fun x => exLinkOf (exNestConf x.1).lsdb.router (exNestUri x.1) x.2

/-- What the routers advertise: router `i` the prefix /a/b, and y the prefix /a. -/
def exNestServe (i j : Fin 5) : List PrefixInfo :=
  (if j = i then [⟨nm ["a", "b"], .fin 0⟩] else []) ++ (if j = 1 then [⟨nm ["a"], .fin 0⟩] else [])

def exNestSite (s i : Fin 5) : Site := ⟨Router.init (exNestConf i) none (exNestAdjs i) (exNestServe s i) 0, []⟩

def exNestSites (s : Fin 5) : List Site := [exNestSite s 0, exNestSite s 1, exNestSite s 2, exNestSite s 3, exNestSite s 4]

theorem exNestSites_reachable (s : Fin 5) :
    Reachable exNestConf (ofList (exNestSites s) (exNestSite s 0)) := by
  have h := Reachable.start (c := exNestConf) (fun _ => none) exNestAdjs (exNestServe s) (fun _ => 0)
    (fun i => freshB_fresh (by revert i; decide +kernel)) (fun i => wholeB_whole (by revert i; decide +kernel))
    (fun i q hq => by cases hq) (fun i => roomB_room (by revert s i; decide +kernel))
  have e : ofList (exNestSites s) (exNestSite s 0) = fun i : Fin 5 => ⟨Router.init (exNestConf i) none (exNestAdjs i) (exNestServe s i) 0, []⟩ := by
    funext i
    rcases i with ⟨i, hi⟩
    match i, hi with
    | 0, _ => rfl
    | 1, _ => rfl
    | 2, _ => rfl
    | 3, _ => rfl
    | 4, _ => rfl
  rw [e]
  exact h

/-- Router `i` finds the faces of its neighbours, and all of them answer its hellos. -/
def exNestMeet (i : Fin 5) : List (Op (Fin 5)) :=
  ([Router.Op.nbr (.fetchOk 0 ((exNestNear i).map fun x => (exNestUri x.1, 300 + x.1.val)))] ++
    ((exNestNear i).flatMap fun _ => [Router.Op.regOk 0, .regOk 0]) ++
    (exNestNear i).flatMap fun x =>
      [Router.Op.nbr (.data 0 ((exNestConf x.1).lsdb.router ++
        [Comp.str "nlsr", Comp.str "INFO", ⟨8, Tlv.encName (exNestConf i).lsdb.router⟩, Comp.str "v1"])), .nbr (.valid 0)]).map (.act i)

/-- Router `j` learns an LSA of router `i`. -/
def exNestLearns (j i : Fin 5) (t : LsaType) (x : Content) : List (Op (Fin 5)) :=
  [.act j (.core (.lsdb (.sync ((exNestConf i).lsdb.names.lsaUserPrefix t) 1))),
   .act i (.core (.lsdb (.interest ((exNestConf i).lsdb.names.lsaInterest t 1) 9))),
   .act j (.core (.lsdb (.fetched 0 (some ⟨(exNestConf i).lsdb.router, 1, 3600 * Lsdb.nsPerSec, x⟩))))]

def exNestEach (ops : List Router.Op) : List (Op (Fin 5)) := (List.finRange 5).flatMap (fun i => ops.map (.act i))

/-- All links come up; all announce theirs, learn the LSAs of the others and compute their routes. -/
def exNestSettle (s : Fin 5) : List (Op (Fin 5)) :=
  (List.finRange 5).flatMap exNestMeet ++ exNestEach [exPause, .core (.lsdb .buildTimer)] ++
  ((List.finRange 5).flatMap fun j => (List.finRange 5).flatMap fun i => if i = j then [] else
    exNestLearns j i .adjacency (.adj (exNestAdjs i)) ++ exNestLearns j i .name (.names (exNestServe s i))) ++
  exNestEach [exPause, .core (.calcTimer 0 [])]

def exNestSettled (s : Fin 5) : List Site := (go false exNestConf (exNestSite s 0) (exNestSites s) (exNestSettle s)).getD []

theorem exNestSettled_go0 : go false exNestConf (exNestSite 0 0) (exNestSites 0) (exNestSettle 0) = some (exNestSettled 0) := by
  have h : (go false exNestConf (exNestSite 0 0) (exNestSites 0) (exNestSettle 0)).isSome = true := by decide +kernel
  obtain ⟨l, hl⟩ := Option.isSome_iff_exists.1 h
  unfold exNestSettled
  rw [hl]; rfl

theorem exNestSettled_go3 : go false exNestConf (exNestSite 3 0) (exNestSites 3) (exNestSettle 3) = some (exNestSettled 3) := by
  have h : (go false exNestConf (exNestSite 3 0) (exNestSites 3) (exNestSettle 3)).isSome = true := by decide +kernel
  obtain ⟨l, hl⟩ := Option.isSome_iff_exists.1 h
  unfold exNestSettled
  rw [hl]; rfl

def exNest (s : Fin 5) : State (Fin 5) := ofList (exNestSettled s) (exNestSite s 0)

/-- The routes NFD has when it has carried out every command. -/
def ribOf (N : State ι) (i : ι) : Nfd.Routes := fun q f => (nfdRoutes (N i).r.fib.log q f).map fun r => (r.cost, r.flags)

/-- `Sends`, computed. -/
def sendsB (c : ι → RConf) (N : State ι) (rib : ι → Nfd.Routes) (n : Name) (o : Option ι) (i j : ι) : Bool :=
  (N i).r.nbr.adjs.any fun a => a.name == (c j).lsdb.router && decide (0 < a.faceId) && decide (o ≠ some j) &&
    match Nfd.cost (nbrFaces N i) (rib i) n a.faceId with
    | none => false
    | some x => (N i).r.nbr.adjs.all fun b => !decide (0 < b.faceId) || o.any (fun j' => b.name == (c j').lsdb.router) ||
        match Nfd.cost (nbrFaces N i) (rib i) n b.faceId with
        | none => true
        | some y => decide (x ≤ y)

theorem sendsB_iff (c : ι → RConf) (N : State ι) (rib : ι → Nfd.Routes) (n : Name) (o : Option ι) (i j : ι) :
    sendsB c N rib n o i j = true ↔ Sends c N rib n o i j := by
  unfold sendsB Sends
  rw [List.any_eq_true]
  refine exists_congr fun a => and_congr_right fun _ => ?_
  simp only [Bool.and_eq_true, beq_iff_eq, decide_eq_true_eq, and_assoc]
  refine and_congr_right fun _ => and_congr_right fun _ => and_congr_right fun _ => ?_
  cases hx : Nfd.cost (nbrFaces N i) (rib i) n a.faceId with
  | none => simp
  | some x =>
    simp only [List.all_eq_true, Bool.or_eq_true, Bool.not_eq_true', decide_eq_false_iff_not, Option.some.injEq]
    constructor
    · intro h
      refine ⟨x, rfl, fun b hb hf ho y hy => ?_⟩
      rcases h b hb with (h | h) | h
      · exact absurd hf h
      · cases o with
        | none => cases h
        | some j' => simp only [Option.any_some, beq_iff_eq] at h; exact absurd h (ho j' rfl)
      · rw [hy] at h; simpa using h
    · rintro ⟨_, rfl, h⟩ b hb
      by_cases hf : 0 < b.faceId
      · cases hy : Nfd.cost (nbrFaces N i) (rib i) n b.faceId with
        | none => exact .inr rfl
        | some y =>
          cases o with
          | none => exact .inr (by simpa using h b hb hf (fun _ e => by cases e) y hy)
          | some j' =>
            by_cases hn : b.name = (c j').lsdb.router
            · exact .inl (.inr (by simp [hn]))
            · exact .inr (by simpa using h b hb hf (fun _ e => by cases e; exact hn) y hy)
      · exact .inl (.inl hf)

/-- `InNfd`, computed, where the FIB adds nothing to the costs. -/
def toldAt (c : ι → RConf) (N : State ι) (rib : ι → Nfd.Routes) (q : Name) (i : ι) : Bool :=
  (N i).r.nbr.adjs.all fun a => ((N i).r.fib.faces q).contains a.uri == (decide (0 < a.faceId) && (rib i q a.faceId).isSome) &&
    match rib i q a.faceId with
    | none => true
    | some (x, _) => (reachList (c i).lsdb.router (N i).r q).contains (a.uri, (x : Rat)) &&
        (reachList (c i).lsdb.router (N i).r q).all fun y => !(y.1 == a.uri) || decide ((x : Rat) ≤ y.2)

theorem prefix_take {n q : Name} (h : q <+: n) : ∃ k < n.length + 1, q = n.take k :=
  ⟨q.length, by have := h.length_le; omega, List.prefix_iff_eq_take.1 h⟩

theorem toldAt_told {c : ι → RConf} {N : State ι} {rib : ι → Nfd.Routes} {n : Name}
    (h : ∀ k < n.length + 1, ∀ i, toldAt c N rib (n.take k) i = true) : InNfd c N rib n := by
  have : ∀ i q, q <+: n → toldAt c N rib q i = true := by
    intro i q hq
    obtain ⟨k, hk, rfl⟩ := prefix_take hq
    exact h k hk i
  refine ⟨fun i q hq a ha => ?_, fun i q hq => ⟨0, fun a ha x fl hx => ⟨x, by omega, ?_, fun k' hk' => ?_⟩⟩⟩
  · have := List.all_eq_true.1 (this i q hq) a ha
    rw [Bool.and_eq_true, beq_iff_eq] at this
    rw [← List.contains_iff_mem, this.1, Bool.and_eq_true, decide_eq_true_eq]
  all_goals
    have := List.all_eq_true.1 (this i q hq) a ha
    rw [hx] at this
    simp only [Bool.and_eq_true, List.contains_iff_mem, List.all_eq_true, Bool.or_eq_true, Bool.not_eq_true', beq_eq_false_iff_ne,
      decide_eq_true_eq] at this
  · exact (reaches_list _ _ _ _ _).2 this.2.1
  · rcases this.2.2 _ ((reaches_list _ _ _ _ _).1 hk') with h | h
    · exact absurd rfl h
    · exact h

/-- `Serves`, computed. -/
def servesB (c : ι → RConf) (N : State ι) (q : Name) (j : ι) : Bool :=
  (N j).r.core.lsdb.db.any fun o => o.lsa.origin == (c j).lsdb.router &&
    match o.lsa.content with
    | .names m => m.any (fun x => x.name == q)
    | _ => false

theorem servesB_iff (c : ι → RConf) (N : State ι) (q : Name) (j : ι) : servesB c N q j = true ↔ Serves c N q j := by
  unfold servesB Serves Announces
  simp only [List.any_eq_true, Bool.and_eq_true, beq_iff_eq]
  constructor
  · rintro ⟨o, ho, h1, h2⟩
    cases hc : o.lsa.content with
    | names m =>
      rw [hc] at h2
      obtain ⟨x, hx, h3⟩ := List.any_eq_true.1 h2
      rw [beq_iff_eq] at h3
      subst h3
      exact ⟨x.cost, o, ho, h1, m, hc, hx⟩
    | adj _ => rw [hc] at h2; cases h2
    | coord _ _ => rw [hc] at h2; cases h2
  · rintro ⟨x, o, ho, h1, m, hc, hx⟩
    refine ⟨o, ho, h1, ?_⟩
    rw [hc]
    exact List.any_eq_true.2 ⟨_, hx, by simp⟩

/-- The hypotheses of C117, for the name /a/b/c. -/
structure ExNest (s : Fin 5) : Prop where
  reachable : Reachable exNestConf (exNest s)
  settled : Settled exNestConf (exNest s)
  names : NamesExchanged exNestConf (exNest s)
  wired : Wired (exNest s)
  undef : ∀ i, (exNest s i).r.undef = false
  plain : ∀ q, q <+: nm ["a", "b", "c"] → Plain exNestConf (exNest s) q
  told : InNfd exNestConf (exNest s) (ribOf (exNest s)) (nm ["a", "b", "c"])
  longest : LongestServed exNestConf (exNest s) (nm ["a", "b", "c"]) (nm ["a", "b"])
  serves : Serves exNestConf (exNest s) (nm ["a", "b"]) s
  shorter : Serves exNestConf (exNest s) (nm ["a"]) 1

def exNestWired (N : State (Fin 5)) (i : Fin 5) : Bool :=
  decide (((N i).r.nbr.adjs.map (·.uri)).Nodup) &&
    (N i).r.nbr.adjs.all (fun a => [2, 3, 5, 10].any (fun z : Int => a.cost == .fin (z : Rat)))

theorem exNestWired_wired {N : State (Fin 5)} (h : ∀ i, exNestWired N i = true) : Wired N := by
  have h : ∀ i, ((N i).r.nbr.adjs.map (·.uri)).Nodup ∧
      (N i).r.nbr.adjs.all (fun a => [2, 3, 5, 10].any (fun z : Int => a.cost == .fin (z : Rat))) = true := fun i => by
    have := h i
    unfold exNestWired at this
    rwa [Bool.and_eq_true, decide_eq_true_eq] at this
  refine ⟨fun i => (h i).1, fun i a ha => ?_⟩
  have := List.all_eq_true.1 (h i).2 a ha
  obtain ⟨z, hz, he⟩ := List.any_eq_true.1 this
  have hpos : ∀ z ∈ ([2, 3, 5, 10] : List Int), 0 < z := by decide
  exact ⟨z, hpos z hz, by simpa using he⟩

theorem exNest_plain {N : State (Fin 5)} (h : ∀ k < 4, (∀ i, (nm ["a", "b", "c"]).take k ≠ (exNestConf i).lsdb.router) ∧
    ∀ i, ∀ a ∈ (N i).r.nbr.adjs, a.name ≠ (nm ["a", "b", "c"]).take k) : ∀ q, q <+: nm ["a", "b", "c"] → Plain exNestConf N q := by
  intro q hq
  obtain ⟨k, hk, rfl⟩ := prefix_take hq
  exact ⟨(h k hk).1, (h k hk).2⟩

theorem exNest_longest {N : State (Fin 5)} (h : ∀ d, servesB exNestConf N (nm ["a", "b", "c"]) d = false) :
    LongestServed exNestConf N (nm ["a", "b", "c"]) (nm ["a", "b"]) := by
  refine ⟨⟨nm ["c"], rfl⟩, fun q hq hl d hd => ?_⟩
  obtain ⟨t, ht⟩ := hq
  have hlen := congrArg List.length ht
  rw [List.length_append] at hlen
  have h2 : (nm ["a", "b"]).length = 2 := rfl
  have h3 : (nm ["a", "b", "c"]).length = 3 := rfl
  have : t = [] := List.length_eq_zero_iff.1 (by omega)
  subst this
  rw [List.append_nil] at ht
  subst ht
  have := (servesB_iff _ _ _ _).2 hd
  rw [h d] at this
  cases this

/-- All that is computed of the network. -/
def ExNestFacts (s : Fin 5) : Prop :=
  (∀ i, (exNestConf i).lsdb.hyp ≠ .on ∧ (exNestConf i).lsdb.retry < 2 ^ 32 ∧ (exNest s i).r.core.lsdb.buildDue = none ∧
    ∀ j, held exNestConf (exNest s) i j = held exNestConf (exNest s) j j) ∧
  (∀ i, Core.lsTable (exNestConf i).core (exNest s i).r.core.lsdb.adjs (exNest s i).r.core.lsdb.db = some (exNest s i).r.core.rt.table) ∧
  (∀ i j, heldNames exNestConf (exNest s) i j = heldNames exNestConf (exNest s) j j) ∧ (∀ i, exNestWired (exNest s) i = true) ∧
  (∀ i, (exNest s i).r.undef = false) ∧
  (∀ k < 4, (∀ i, (nm ["a", "b", "c"]).take k ≠ (exNestConf i).lsdb.router) ∧
    ∀ i, ∀ a ∈ (exNest s i).r.nbr.adjs, a.name ≠ (nm ["a", "b", "c"]).take k) ∧
  (∀ k < 4, ∀ i, toldAt exNestConf (exNest s) (ribOf (exNest s)) ((nm ["a", "b", "c"]).take k) i = true) ∧
  (∀ d, servesB exNestConf (exNest s) (nm ["a", "b", "c"]) d = false) ∧ servesB exNestConf (exNest s) (nm ["a", "b"]) s = true ∧
  servesB exNestConf (exNest s) (nm ["a"]) 1 = true

instance (s : Fin 5) : Decidable (ExNestFacts s) := by unfold ExNestFacts; infer_instance

theorem ExNestFacts.all {s : Fin 5} (h : ExNestFacts s) (hg : Reachable exNestConf (exNest s)) : ExNest s := by
  obtain ⟨h1, h2, h3, h4, h5, h6, h7, h8, h9, h10⟩ := h
  exact ⟨hg, ⟨exchanged_of h1, fun i => ⟨_, List.Perm.refl _, h2 i⟩⟩, namesExchanged_of h3, exNestWired_wired h4, h5, exNest_plain h6,
    toldAt_told h7, exNest_longest h8, (servesB_iff _ _ _ _).1 h9, (servesB_iff _ _ _ _).1 h10⟩

/-- What becomes of packets for /a/b/c where x advertises /a/b. -/
def ExNestRound : Prop :=
  (∃ b ∈ (exNest 0 2).r.nbr.adjs, b.status = .active ∧ b.name = (exNestConf 0).lsdb.router ∧ b.uri = "udp4://x" ∧ b.cost = .fin ((10 : Int) : Rat)) ∧
  (∃ b ∈ (exNest 0 0).r.nbr.adjs, b.status = .active ∧ b.name = (exNestConf 2).lsdb.router ∧ b.uri = "udp4://u" ∧ b.cost = .fin ((10 : Int) : Rat)) ∧
  (∀ k < 4, ∀ i ∈ ([2, 4, 3] : List (Fin 5)), servesB exNestConf (exNest 0) ((nm ["a", "b", "c"]).take k) i = false) ∧
  ∀ x ∈ ([(none, 2, 4), (some 2, 4, 3), (some 4, 3, 2), (some 3, 2, 4)] : List (Option (Fin 5) × Fin 5 × Fin 5)), ∀ j,
    sendsB exNestConf (exNest 0) (ribOf (exNest 0)) (nm ["a", "b", "c"]) x.1 x.2.1 j = true ↔ j = x.2.2

instance : Decidable ExNestRound := by unfold ExNestRound; infer_instance

theorem exNest0_facts : ExNestFacts 0 ∧ ExNestRound := by decide +kernel

/-- Where w advertises /a/b. -/
def ExNestCovered : Prop :=
  (∀ k < 3, ∀ i, servesB exNestConf (exNest 3) (nm ["a", "b"]) i = false →
    ∀ u ∈ (exNest 3 i).r.fib.faces ((nm ["a", "b"]).take k), u ∈ (exNest 3 i).r.fib.faces (nm ["a", "b"])) ∧
  (exNest 3 2).r.fib.faces (nm ["a"]) ≠ [] ∧
  sendsB exNestConf (exNest 3) (ribOf (exNest 3)) (nm ["a", "b", "c"]) none 2 3 = true

instance : Decidable ExNestCovered := by unfold ExNestCovered; infer_instance

theorem exNest3_facts : ExNestFacts 3 ∧ ExNestCovered := by decide +kernel

theorem exNest0 : ExNest 0 := exNest0_facts.1.all (go_reachable rfl exNestSettled_go0 (exNestSites_reachable 0))

theorem exNest3 : ExNest 3 := exNest3_facts.1.all (go_reachable rfl exNestSettled_go3 (exNestSites_reachable 3))

/-- C117 fails.  NLSR registers the routes of advertised prefixes with the flag ROUTE_FLAG_CHILD_INHERIT
(src/route/name-prefix-table.cpp:82, 96, 175), so that NFD uses routes of shorter prefixes beside those of the longest
prefix of a name, for the faces that the longest one has no route over.  Here x advertises /a/b and y advertises /a, in a
network where all routers know all LSAs, have computed their routes and told NFD.  u is linked to x, at cost 10, and sends
packets for /a/b to v, because y is only 5 away that way; v has routes for /a/b itself and does not look at those for /a,
so it sends the packets to w (not back to u where they came from), and w, in the same way, sends them to u.  From there
they go to v again.  They never come to x, which is u's neighbour, nor to y: NFD drops them as loops. -/
theorem C117_violated_loop : ∃ (c : Fin 5 → RConf) (N : State (Fin 5)) (n p : Name), Sane c ∧ Reachable c N ∧ Settled c N ∧
    NamesExchanged c N ∧ Wired N ∧ (∀ i, (N i).r.undef = false) ∧ (∀ q, q <+: n → Plain c N q) ∧ InNfd c N (ribOf N) n ∧
    LongestServed c N n p ∧ (∀ i, (c i).maxFaces = 0) ∧
    ∃ x u v w k, Serves c N p x ∧ Up c N u x k ∧ (∀ q, q <+: n → ∀ i ∈ [u, v, w], ¬ Serves c N q i) ∧
      (∀ j, Sends c N (ribOf N) n none u j ↔ j = v) ∧ (∀ j, Sends c N (ribOf N) n (some u) v j ↔ j = w) ∧
      (∀ j, Sends c N (ribOf N) n (some v) w j ↔ j = u) ∧ (∀ j, Sends c N (ribOf N) n (some w) u j ↔ j = v) := by
  obtain ⟨h1, h2, h3, h4, h5, h6, h7, h8, h9, -⟩ := exNest0
  obtain ⟨g1, g2, g3, g4⟩ := exNest0_facts.2
  refine ⟨exNestConf, exNest 0, nm ["a", "b", "c"], nm ["a", "b"], exNestSane, h1, h2, h3, h4, h5, h6, h7, h8, by decide +kernel,
    0, 2, 4, 3, 10, h9, ⟨10, 10, ⟨"udp4://x", g1⟩, ⟨"udp4://u", g2⟩, rfl⟩, ?_, fun j => ?_, fun j => ?_, fun j => ?_, fun j => ?_⟩
  · intro q hq i hi hs
    obtain ⟨k, hk, rfl⟩ := prefix_take hq
    have h := (servesB_iff _ _ _ _).2 hs
    rw [g3 k hk i hi] at h
    cases h
  · rw [← sendsB_iff]; exact g4 (none, 2, 4) (by simp) j
  · rw [← sendsB_iff]; exact g4 (some 2, 4, 3) (by simp) j
  · rw [← sendsB_iff]; exact g4 (some 4, 3, 2) (by simp) j
  · rw [← sendsB_iff]; exact g4 (some 3, 2, 4) (by simp) j

/-- The hypotheses of C117 can be met: when w advertises /a/b and y advertises /a, all faces of /a are faces of /a/b too,
and y, of all routers, sends packets for /a/b to w. -/
example : Reachable exNestConf (exNest 3) ∧ Settled exNestConf (exNest 3) ∧ InNfd exNestConf (exNest 3) (ribOf (exNest 3)) (nm ["a", "b", "c"]) ∧
    LongestServed exNestConf (exNest 3) (nm ["a", "b", "c"]) (nm ["a", "b"]) ∧
    Serves exNestConf (exNest 3) (nm ["a", "b"]) 3 ∧ Serves exNestConf (exNest 3) (nm ["a"]) 1 ∧
    (∀ i, ¬ Serves exNestConf (exNest 3) (nm ["a", "b"]) i → ∀ q, q <+: nm ["a", "b"] →
      ∀ u ∈ (exNest 3 i).r.fib.faces q, u ∈ (exNest 3 i).r.fib.faces (nm ["a", "b"])) ∧
    (exNest 3 2).r.fib.faces (nm ["a"]) ≠ [] ∧ Sends exNestConf (exNest 3) (ribOf (exNest 3)) (nm ["a", "b", "c"]) none 2 3 := by
  obtain ⟨h1, h2, h3, h4, h5, h6, h7, h8, h9, h10⟩ := exNest3
  obtain ⟨g1, g2, g3⟩ := exNest3_facts.2
  refine ⟨h1, h2, h7, h8, h9, h10, fun i hi q hq => ?_, g2, (sendsB_iff _ _ _ _ _ _ _).1 g3⟩
  obtain ⟨k, hk, rfl⟩ := prefix_take hq
  exact g1 k hk i (Bool.eq_false_iff.2 fun e => hi ((servesB_iff _ _ _ _).1 e))

end Net
end Nlsr
