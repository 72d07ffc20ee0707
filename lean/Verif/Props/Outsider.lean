import Verif.Lemmas.Outsider
import Verif.Props.Net
import Verif.Props.LsdbAsk
/-
C104: whatever those who do not belong to the network send, what a router stores in another router's name was signed by that
router.
-/
namespace Nlsr
namespace Net
variable {ι : Type} [DecidableEq ι]

/-- C104: sync may report any names and any numbers, to any router and at any time; interests, commands and answers to hellos are
anybody's; Data may be old, repeated, or made for another purpose.  As long as no stranger has a key with a chain to the
anchor, every LSA that a router stores in another's name, the router of that name has signed under that number, in LSA data or
in a data set of its own, and what is stored says the same: the same neighbours with the same URIs and costs, the same
coordinates, the same names.
Missing: the costs of the names (C85_violated_prefix_cost), and link costs that are not whole (C46). -/
theorem C104_authentic_partial {c : ι → RConf} (hc : Named c) {p : Pki ι} (hp : p.Closed) {W : World ι} (h : Attacked p c W)
    {i : ι} {o : Obj} (ho : o ∈ (W.net i).r.core.lsdb.db) (hr : o.lsa.origin ≠ (c i).lsdb.router) :
    ∃ j l, (c j).lsdb.router = o.lsa.origin ∧ ((∃ d, .data d ∈ (W.net j).log ∧ d.lsa = l) ∨ (j, l) ∈ W.shown) ∧
      l.origin = o.lsa.origin ∧ l.seq = o.lsa.seq ∧
      match l.content, o.lsa.content with
      | .adj a, .adj a' => (a.map (fun x => (x.name, x.uri, x.cost))).Perm (a'.map (fun x => (x.name, x.uri, x.cost)))
      | .coord r as, .coord r' as' => r = r' ∧ as = as'
      | .names m, .names m' => ∀ n, (∃ k, ⟨n, k⟩ ∈ m) ↔ ∃ k, ⟨n, k⟩ ∈ m'
      | _, _ => False := by
  obtain ⟨j, l, h1, h2, h3, h4, h5⟩ := (h.winv hc hp).copied i o ho hr
  refine ⟨j, l, h1, h2, h3, h4, ?_⟩
  revert h5
  cases l.content <;> cases o.lsa.content <;> exact id

/-- C104: so no LSA is stored in a name that no router of the network has. -/
theorem C104_members {c : ι → RConf} (hc : Named c) {p : Pki ι} (hp : p.Closed) {W : World ι} (h : Attacked p c W)
    {i : ι} {o : Obj} (ho : o ∈ (W.net i).r.core.lsdb.db) : ∃ j, o.lsa.origin = (c j).lsdb.router := by
  by_cases hr : o.lsa.origin = (c i).lsdb.router
  · exact ⟨i, hr⟩
  · obtain ⟨j, l, h1, -⟩ := (h.winv hc hp).copied i o ho hr
    exact ⟨j, h1.symm⟩

/-- C104: what a router puts out itself is in its own name, with whole costs of links and with the coordinates it was set up
with, whatever was sent to it. -/
theorem C104_own {c : ι → RConf} (hc : Named c) {p : Pki ι} (hp : p.Closed) {W : World ι} (h : Attacked p c W)
    {j : ι} {d : Seg} (hd : .data d ∈ (W.net j).log) : d.lsa.origin = (c j).lsdb.router ∧
      match d.lsa.content with
      | .adj l => Whole l ∧ (l.map (·.name)).Nodup ∧ (c j).lsdb.hyp ≠ .on
      | .coord r as => r = (c j).lsdb.radius ∧ as = (c j).lsdb.angles ∧ (c j).lsdb.hyp ≠ .off
      | .names _ => True := by
  obtain ⟨h1, -, h2, h3⟩ := ((h.winv hc hp).ours j).made d.lsa (.sent d hd rfl)
  refine ⟨h1, ?_⟩
  revert h2 h3
  cases d.lsa.content with
  | adj l => exact fun h2 h3 => ⟨h3.1, Lsdb.norm_adj.1 h2, h3.2⟩
  | coord r as => exact fun _ h3 => h3
  | names m => exact fun _ _ => trivial

end Net

open Lsdb

/-- C104 says nothing about LSAs that do not come: one report by anybody, of the highest number there is, and the router never
again asks for that router's LSAs of the type under the numbers they have, nor takes those it has already asked for.  The
rules for data say nothing about sync packets. -/
theorem C104_violated_silenced {c : LConf} {s : Lsdb} (h : Lsdb.Reachable c s) {r : RouterConf} (hr : Peer c r) {t : LsaType}
    (ht : t ≠ .base) (hu : Used c t) (hn : Newer s r.routerPrefix t (2 ^ 64 - 1)) (ops : List Lsdb.Op) {k : Nat} (hk : k < 2 ^ 64 - 1) :
    let s' := run c (step c s (.sync (r.lsaUserPrefix t) (2 ^ 64 - 1))) ops
    (step c s' (.sync (r.lsaUserPrefix t) k)).fetches = s'.fetches ∧
    (∀ u n, .interest u n ∈ (step c s' (.sync (r.lsaUserPrefix t) k)).log → .interest u n ∈ s'.log) ∧
    ∀ i f p, s'.fetches[i]? = some f → f.lsaName = r.lsaUserPrefix t → f.seq = k → (step c s' (.fetched i p)).db = s'.db := by
  intro s'
  have h0 : ∃ n, (step c s (.sync (r.lsaUserPrefix t) (2 ^ 64 - 1))).highestOf (r.lsaUserPrefix t) = some n ∧ 2 ^ 64 - 1 ≤ n := by
    rw [sync_peer hr s t _ (by omega)]
    unfold processUpdate
    rw [if_neg hr.other, if_pos ((newer_iff h).2 hn), if_neg (fun e => ((notFetched_iff c t ht _).1 e).1 hu)]
    unfold expressInterest
    rcases noteSeq_spec (s.emit (.newLsa (r.lsaUserPrefix t) (2 ^ 64 - 1) r.routerPrefix)) (r.lsaUserPrefix t) (2 ^ 64 - 1) with
      ⟨s1, e, -, h2, -⟩ | ⟨e, n, h1, h2⟩
    · rw [e]; exact ⟨_, h2, Nat.le_refl _⟩
    · rw [e]; exact ⟨n, h1, Nat.le_of_lt h2⟩
  obtain ⟨n, h1, h2⟩ := h0
  obtain ⟨m, h3, h4⟩ := C32_highest_monotone c _ ops _ n h1
  have hre : Lsdb.Reachable c s' := by
    have : ∀ (ops : List Lsdb.Op) (x : Lsdb), Lsdb.Reachable c x → Lsdb.Reachable c (run c x ops) := by
      intro ops
      induction ops with
      | nil => exact fun x hx => hx
      | cons op ops ih => exact fun x hx => ih _ (hx.step op)
    exact this ops _ (h.step _)
  obtain ⟨-, -, h5⟩ := C87_asked hre hr t ht k (by omega)
  obtain ⟨h6, h7⟩ := h5 ⟨m, h3, by omega⟩
  refine ⟨h6, h7, ?_⟩
  intro i f p hf e1 e2
  exact (C32_outdated_data c s' i p f m hf (by rw [e1]; exact h3) (by omega)).1

namespace Net
open Schema

/-! ### the hypotheses can be met, and what one more key does -/

namespace OutsiderWitness
def cert (i : Name) : Cert := { name := i ++ nm ["KEY", "1", "i", "v"], locator := some (nm ["net", "KEY", "1"]) }
/-- The anchor: the key of /net. -/
def root : Cert := cert (nm ["net"])
/-- The key of the NLSR of r2. -/
def r2 : Cert := cert (nm ["net", "site", "r2", "nlsr"])
/-- The key of somebody at the site, who runs no router. -/
def bob : Cert := cert (nm ["net", "site", "bob"])

/-- The root has signed the certificates of r2 and, if `b`, of bob. -/
def pki (b : Bool) : Pki (Fin 3) where
  anchors := [root]
  owner ct := if ct = root then .authority else if ct = r2 then .router 1 else .stranger
  signer ct := if ct = root ∨ ct = r2 ∨ (b = true ∧ ct = bob) then .authority else .stranger

theorem closed : (pki false).Closed where
  anchors := by
    intro ct h
    rw [List.mem_singleton.1 h]
    show (if root = root then (Signer.authority : Signer (Fin 3)) else _) ≠ _
    rw [if_pos rfl]
    nofun
  issued := by
    intro ct h
    unfold pki at h ⊢
    dsimp only at h ⊢
    by_cases h1 : ct = root
    · rw [if_pos h1]; nofun
    · rw [if_neg h1]
      by_cases h2 : ct = r2
      · rw [if_pos h2]; nofun
      · rw [if_neg (by simp [h1, h2])] at h
        exact absurd rfl h

theorem vouched (i : Name) (hv : Cert.validName (cert i).name = true) (hp : passes shipped (cert i).name (nm ["net", "KEY", "1"]) = true) :
    Vouched shipped [root] (i ++ nm ["KEY", "1"]) [cert i, root] :=
  .step (List.isPrefixOf_iff_prefix.2 ⟨nm ["i", "v"], by simp [cert, nm]⟩) hv rfl hp
    (.anchor (by simp) (by decide +kernel))

def world0 : World (Fin 3) := ⟨fun i => ⟨Router.init (exConf3 i) none (exAdjs i) (exNpl i) 0, []⟩, []⟩

theorem start (p : Pki (Fin 3)) : Attacked p exConf3 world0 :=
  .start (fun _ => none) exAdjs exNpl (fun _ => 0) (fun i => freshB_fresh (by revert i; decide +kernel)) (fun i => wholeB_whole (by revert i; decide +kernel))

theorem named : Named exConf3 := ⟨exSane.distinct, exSane.lsa⟩

/-- What a fetch asks for, if it is the only one. -/
theorem only {l : List Fetch} {u : Name} {k m : Nat} (h : l.map (fun f => (f.lsaName, f.seq)) = [(u, k)]) {f : Fetch} (hf : l[m]? = some f) :
    f.lsaName = u ∧ f.seq = k := by
  have h1 : (f.lsaName, f.seq) ∈ l.map (fun f => (f.lsaName, f.seq)) := List.mem_map_of_mem (List.mem_of_getElem? hf)
  rw [h, List.mem_singleton] at h1
  exact ⟨congrArg Prod.fst h1, congrArg Prod.snd h1⟩

/-- A report of r2's Name LSA, genuine or not. -/
def report : Ev (Fin 3) := .net (.act 0 (.core (.lsdb (.sync ((exConf3 1).lsdb.names.lsaUserPrefix .name) 1))))
/-- r1's interest comes to r2. -/
def asked : Ev (Fin 3) := .net (.act 1 (.core (.lsdb (.interest ((exConf3 1).lsdb.names.lsaInterest .name 1) 9))))
/-- r2's answer comes back. -/
def answer : Ev (Fin 3) := .net (.act 0 (.core (.lsdb (.fetched 0 (some ⟨exR2, 1, 3600000000000, .names []⟩)))))

/-- The segments put out. -/
def segs (l : List Out) : List Seg := l.filterMap (fun | .data d => some d | _ => none)

theorem mem_segs {l : List Out} {d : Seg} : d ∈ segs l ↔ .data d ∈ l := by
  unfold segs
  rw [List.mem_filterMap]
  constructor
  · rintro ⟨o, h1, h2⟩
    cases o <;> simp at h2
    subst h2
    exact h1
  · exact fun h => ⟨_, h, rfl⟩

def world3 : World (Fin 3) := ((world0.step exConf3 report).step exConf3 asked).step exConf3 answer

/-- What a report of bob's names: the data that answers it passes as a data set of bob's. -/
def trap : Name := nm ["net", "site", "bob", "nlsr", "lsdb", "LSA", "NAME"]
/-- A Name LSA of r3 that r3 never made. -/
def fake : Lsa := ⟨exR3, 999, 3600000000000, .names [⟨nm ["bank"], .fin 0⟩]⟩
def baited : World (Fin 3) := world0.step exConf3 (.net (.act 0 (.core (.lsdb (.sync trap 5)))))
def trapped : World (Fin 3) := baited.step exConf3 (.net (.act 0 (.core (.lsdb (.fetched 0 (some fake))))))
end OutsiderWitness
open OutsiderWitness

/-- The hypotheses of C104 can be met: r1 gets r2's Name LSA, which r2's key signs. -/
example : Named exConf3 ∧ (pki false).Closed ∧ Attacked (pki false) exConf3 world3 ∧
    (∃ o ∈ (world3.net 0).r.core.lsdb.db, o.lsa.origin ≠ (exConf3 0).lsdb.router) := by
  refine ⟨named, closed, ?_, by decide +kernel⟩
  refine ((((start _).step report trivial).step asked trivial).step answer ?_)
  intro f hf
  have hl : (((world0.step exConf3 report).step exConf3 asked).net 0).r.core.lsdb.fetches.map (fun f => (f.lsaName, f.seq)) =
    [((exConf3 1).lsdb.names.lsaUserPrefix .name, 1)] := by decide +kernel
  obtain ⟨e1, e2⟩ := only hl hf
  refine ⟨⟨Lsdb.segName ((exConf3 1).lsdb.names.lsaInterest .name 1) 9 0, some (nm ["net", "site", "r2", "nlsr", "KEY", "1"]), .router 1,
    some ⟨exR2, 1, 3600000000000, .names []⟩⟩, ?_, ?_, ?_, rfl⟩
  · exact ⟨_, r2, [root], rfl, by decide +kernel, vouched (nm ["net", "site", "r2", "nlsr"]) (by decide +kernel) (by decide +kernel),
      ⟨by decide +kernel, trivial⟩, by decide +kernel⟩
  · left
    have hm : (segs (((world0.step exConf3 report).step exConf3 asked).net 1).log).map (fun s => (s.name, s.lsa.origin, s.lsa.seq, s.lsa.content)) =
        [(Lsdb.segName ((exConf3 1).lsdb.names.lsaInterest .name 1) 9 0, exR2, 1, .names [])] := by decide +kernel
    obtain ⟨s, hs, he⟩ := List.mem_map.1 (show _ ∈ List.map _ _ by rw [hm]; exact List.mem_singleton.2 rfl)
    obtain ⟨h1, h2, h3, h4⟩ : s.name = _ ∧ s.lsa.origin = _ ∧ s.lsa.seq = _ ∧ s.lsa.content = _ := by
      simpa only [Prod.mk.injEq] using he
    exact ⟨s, _, mem_segs.1 hs, h1.symm, rfl, h2.symm, h3.symm, by rw [h4]⟩
  · rw [e1, e2]
    exact ⟨_, rfl⟩

/-- C104 needs it that nobody else has a certificate: one for somebody at the site who runs no router is enough to make r1
store an LSA in r3's name that r3 never made.  Bob reports a name that looks like that of an LSA and like that of a data set of
his; his answer, signed with his own key, passes the rules as a data set, and is read as an LSA. -/
theorem C104_violated_certificate : ∃ (p : Pki (Fin 3)) (W : World (Fin 3)), Named exConf3 ∧ Attacked p exConf3 W ∧
    (∀ ct, p.owner ct = .stranger → p.signer ct ≠ .stranger → ct.name = nm ["net", "site", "bob", "KEY", "1", "i", "v"]) ∧
    (∀ j d, .data d ∉ (W.net j).log) ∧ W.shown = [] ∧
    ((W.net 0).r.core.lsdb.find exR3 .name).map (fun o => (o.lsa.seq, o.lsa.content)) = some (999, .names [⟨nm ["bank"], .fin 0⟩]) := by
  refine ⟨pki true, trapped, named, ?_, ?_, ?_, rfl, by decide +kernel⟩
  · refine ((start _).step _ (by exact trivial)).step _ ?_
    intro f hf
    have hl : (baited.net 0).r.core.lsdb.fetches.map (fun f => (f.lsaName, f.seq)) = [(trap, 5)] := by decide +kernel
    obtain ⟨e1, e2⟩ := only hl hf
    refine ⟨⟨trap ++ [Comp.number 5, ⟨54, Tlv.encNni 1⟩, ⟨50, Tlv.encNni 0⟩], some (nm ["net", "site", "bob", "KEY", "1"]), .stranger, some fake⟩,
      ?_, trivial, ?_, rfl⟩
    · exact ⟨_, bob, [root], rfl, by decide +kernel, vouched (nm ["net", "site", "bob"]) (by decide +kernel) (by decide +kernel),
        ⟨by decide +kernel, trivial⟩, by decide +kernel⟩
    · rw [e1, e2]
      exact ⟨_, rfl⟩
  · intro ct h1 h2
    unfold pki at h1 h2
    dsimp only at h1 h2
    by_cases h3 : ct = root
    · rw [if_pos h3] at h1; cases h1
    · rw [if_neg h3] at h1
      by_cases h4 : ct = OutsiderWitness.r2
      · rw [if_pos h4] at h1; cases h1
      · by_cases h5 : ct = bob
        · rw [h5]; rfl
        · rw [if_neg (by simp [h3, h4, h5])] at h2
          exact absurd rfl h2
  · have hm : ∀ j : Fin 3, segs (trapped.net j).log = [] := by decide +kernel
    intro j d hd
    rw [← mem_segs, hm j] at hd
    cases hd

end Net
end Nlsr
