import Verif.Lemmas.Trust
/- C100: whose certificates can take part in accepting a router's data.  C101: who can send prefix updates. -/
namespace Nlsr.Schema

/-- The URI of the component is as the text, except where the text has a period. -/
def looks (s : String) (c : Comp) : Bool :=
  decide ((Uri.ofComp c).length = s.toList.length) && (s.toList.zip (Uri.ofComp c)).all (fun x => x.1 == '.' || x.1 == x.2)

theorem looks_iff (s : String) (c : Comp) : looks s c = fits s.toList (Uri.ofComp c) := by
  unfold looks
  generalize s.toList = p
  generalize Uri.ofComp c = u
  induction p generalizing u with
  | nil => cases u <;> rfl
  | cons a p ih =>
    cases u with
    | nil => rfl
    | cons d u =>
      have := ih u
      simp only [fits, List.zip_cons_cons, List.all_cons, List.length_cons, Nat.add_right_cancel_iff, ← this]
      cases (a == '.' || a == d) <;> simp

/-- The part of a router's name before the component `%C1.Router` (all of it if there is none). -/
def siteName (p : Name) : Name := p.takeWhile (fun c => !looks "%C1.Router" c)

/-- The name is that of the router's NLSR, or of something above it, or of an operator of the router's site. -/
def Above (p i : Name) : Prop :=
  i <+: p ++ [Comp.str "nlsr"] ∨ ∃ o, looks "%C1.Operator" o = true ∧ siteName p ++ [o] <+: i

theorem siteName_fits (p : Name) : siteName p = siteFits p := by
  unfold siteName siteFits
  simp only [looks_iff]

theorem above_fits (p i : Name) : Above p i ↔ AboveFits p i := by
  unfold Above AboveFits
  simp only [looks_iff, siteName_fits]

/-- C100: every certificate that takes part in accepting an LSA of a router is one of the router's NLSR, of a name above
it, or of an operator of the router's own site: no other router and no other site's operator can vouch for it, however
long the chain is and whichever certificates are offered. -/
theorem C100_lsa (r : RouterConf) (h1 : Comp.str "nlsr" ∉ r.network) (h2 : Comp.str "LSA" ∉ r.network)
    (h3 : r.routerPrefix.head? ≠ some (Comp.str "localhop")) (ty : LsaType) (seq ver i : Nat) {anchors : List Cert} {k : Name} {l : List Cert}
    (hp : passes shipped (Lsdb.segName (r.lsaInterest ty seq) ver i) k = true) (h : Vouched shipped anchors k l) :
    ∀ c ∈ l, ∃ i u, c.name = i ++ Comp.str "KEY" :: u ∧ Comp.str "KEY" ∉ i ∧ Above r.routerPrefix i := by
  simp only [above_fits]
  exact vouch_lsa r h1 h2 h3 ty seq ver i hp h

/-- C100: the same for hello data of a neighbour. -/
theorem C100_hello {a : Name} (h1 : Comp.str "nlsr" ∉ a) (h2 : Comp.str "INFO" ∉ a) (h3 : a.head? ≠ some (Comp.str "localhop"))
    (x y : Comp) {anchors : List Cert} {k : Name} {l : List Cert}
    (hp : passes shipped (a ++ [Comp.str "nlsr", Comp.str "INFO", x, y]) k = true) (h : Vouched shipped anchors k l) :
    ∀ c ∈ l, ∃ i u, c.name = i ++ Comp.str "KEY" :: u ∧ Comp.str "KEY" ∉ i ∧ Above a i := by
  simp only [above_fits]
  exact vouch_hello h1 h2 h3 x y hp h

/-- C100: and for data sets. -/
theorem C100_dataset {a : Name} (h1 : Comp.str "nlsr" ∉ a) (h3 : a.head? ≠ some (Comp.str "localhop"))
    {x : Comp} (hx : x = Comp.str "lsdb" ∨ x = Comp.str "routing-table") (m : Name) {anchors : List Cert} {k : Name} {l : List Cert}
    (hp : passes shipped (a ++ Comp.str "nlsr" :: x :: m) k = true) (h : Vouched shipped anchors k l) :
    ∀ c ∈ l, ∃ i u, c.name = i ++ Comp.str "KEY" :: u ∧ Comp.str "KEY" ∉ i ∧ Above a i := by
  simp only [above_fits]
  exact vouch_dataset h1 h3 hx m hp h

/-- C100: in particular a router of the same site, or of any other, whose name is not above this router's is not among them. -/
theorem C100_not_router {p q : Name} {r : Comp} {t : Name} (hr : looks "%C1.Router" r = true) (hq : q = siteName p ++ r :: t)
    (hne : ¬ q <+: p ++ [Comp.str "nlsr"]) : ¬ Above p q := by
  rw [above_fits]
  rw [siteName_fits] at hq
  exact vouch_not_router (looks_iff _ r ▸ hr) hq hne

/-- C100: a router's own certificate, `/<site>/%C1.Router/<router>/KEY/…`, can be signed by an operator of its site only. -/
theorem C100_operator {s b : Name} {r x y z : Comp} (hs : ∀ c ∈ s, looks "%C1.Router" c = false ∧ c ≠ Comp.str "KEY" ∧ c ≠ Comp.str "nlsr")
    (hr : looks "%C1.Router" r = true) (hb : ∀ c ∈ b, c ≠ Comp.str "KEY" ∧ c ≠ Comp.str "nlsr")
    (hx : x ≠ Comp.str "nlsr") (hy : y ≠ Comp.str "nlsr") (k : Name) :
    passes shipped (s ++ r :: (b ++ [Comp.str "KEY", x, y, z])) k = true ↔
      ∃ o c t, k = s ++ o :: (c ++ Comp.str "KEY" :: t) ∧ looks "%C1.Operator" o = true ∧
        (∀ c ∈ s, looks "%C1.Operator" c = false) ∧ Comp.str "KEY" ∉ c ∧ 1 ≤ t.length ∧ t.length ≤ 3 := by
  simp only [looks_iff] at *
  exact vouch_operator hs hr hb hx hy k

/-- The names of a site, as NLSR's documentation has them: `s` the site, `b` the router after `%C1.Router`, `q` the operator
after `%C1.Operator`, `g` the root. -/
structure Hierarchy (s b q g : Name) : Prop where
  site : Comp.str "KEY" ∉ s ∧ Comp.str "nlsr" ∉ s ∧ ∀ c ∈ s, looks "%C1.Router" c = false ∧ looks "%C1.Operator" c = false
  router : Comp.str "KEY" ∉ b ∧ Comp.str "nlsr" ∉ b
  operator : Comp.str "KEY" ∉ q ∧ Comp.str "nlsr" ∉ q ∧ ∀ c ∈ q, looks "%C1.Router" c = false
  root : g <+: s

theorem Hierarchy.fits {s b q g : Name} (h : Hierarchy s b q g) : HierFits s b q g where
  site := ⟨h.site.1, h.site.2.1, fun c hc => ⟨looks_iff _ c ▸ (h.site.2.2 c hc).1, looks_iff _ c ▸ (h.site.2.2 c hc).2⟩⟩
  router := h.router
  operator := ⟨h.operator.1, h.operator.2.1, fun c hc => looks_iff _ c ▸ h.operator.2.2 c hc⟩
  root := h.root

/-- C100: the documented hierarchy is accepted.  A router's NLSR key with a certificate by the router's key, the router's by
an operator of its site, the operator's by the site and the site's by the root, which is an anchor: the key is vouched for,
whichever of key name and certificate names the key locators are. -/
theorem C100_genuine {s b q g : Name} (h : Hierarchy s b q g) (ci cr co cs cg : Cert) (ki kr ko ks kg : Name)
    (hi : CertOf ci (s ++ Nbr.routerTag :: b ++ [Comp.str "nlsr"]) (s ++ Nbr.routerTag :: b ++ Comp.str "KEY" :: kr))
    (hr : CertOf cr (s ++ Nbr.routerTag :: b) (s ++ Nbr.operatorTag :: q ++ Comp.str "KEY" :: ko))
    (ho : CertOf co (s ++ Nbr.operatorTag :: q) (s ++ Comp.str "KEY" :: ks))
    (hs : CertOf cs s (g ++ Comp.str "KEY" :: kg))
    (hg : ∃ x y z, cg.name = g ++ [Comp.str "KEY", x, y, z])
    (lr : kr ≠ [] ∧ s ++ Nbr.routerTag :: b ++ Comp.str "KEY" :: kr <+: cr.name)
    (lo : ko ≠ [] ∧ s ++ Nbr.operatorTag :: q ++ Comp.str "KEY" :: ko <+: co.name)
    (ls : ks ≠ [] ∧ s ++ Comp.str "KEY" :: ks <+: cs.name)
    (lg : kg ≠ [] ∧ g ++ Comp.str "KEY" :: kg <+: cg.name)
    (li : s ++ Nbr.routerTag :: b ++ [Comp.str "nlsr"] ++ Comp.str "KEY" :: ki <+: ci.name) {anchors : List Cert} (ha : cg ∈ anchors) :
    Vouched shipped anchors (s ++ Nbr.routerTag :: b ++ [Comp.str "nlsr"] ++ Comp.str "KEY" :: ki) [ci, cr, co, cs, cg] :=
  vouch_genuine h.fits ci cr co cs cg ki kr ko ks kg hi hr ho hs hg lr lo ls lg li ha

/-! ### C101 -/

/-- C101: the shipped rules for prefix updates let exactly these commands pass: `/localhost/nlsr/prefix-update/advertise` or
`/withdraw` with three components (parameters, time, nonce) and a signature, with a key of an operator. -/
theorem C101_command (n k : Name) (hl : n.length < 2 ^ 63) : commandPasses n k = true ↔
    (∃ v x y z u w, n = [Comp.str "localhost", Comp.str "nlsr", Comp.str "prefix-update", v, x, y, z, u, w] ∧
      (v = Comp.str "advertise" ∨ v = Comp.str "withdraw")) ∧
    (∃ s o q t, k = s ++ o :: (q ++ Comp.str "KEY" :: t) ∧ looks "%C1.Operator" o = true ∧
      (∀ c ∈ s, looks "%C1.Operator" c = false) ∧ Comp.str "KEY" ∉ s ∧ Comp.str "KEY" ∉ q ∧ 1 ≤ t.length ∧ t.length ≤ 3) := by
  simp only [looks_iff]
  exact command_command n k hl

/-- C101: whoever sends an accepted command is an operator below the owner of an anchor: with the site's certificate as the
only anchor, one of that site. -/
theorem C101_site {site : Name} {x y z : Comp} (hs : Comp.str "KEY" ∉ site) {anchor : Cert} (ha : anchor.name = site ++ [Comp.str "KEY", x, y, z])
    {n k : Name} (hl : n.length < 2 ^ 63) (hc : commandPasses n k = true) {l : List Cert} (h : Vouched updateShipped [anchor] k l) :
    ∃ i t, k = i ++ Comp.str "KEY" :: t ∧ site <+: i ∧ (∃ o ∈ i, looks "%C1.Operator" o = true) := by
  simp only [looks_iff]
  exact command_site hs ha hl hc h

/-- C101 fails for a router asked from afar: `nlsrc -R <router> advertise` sends a command that no key makes pass. -/
theorem C101_violated_remote (router params time nonce info value k : Name) (hr : router.head? ≠ some (Comp.str "localhost"))
    (hl : (router ++ nm ["nlsr", "prefix-update", "advertise"] ++ params ++ time ++ nonce ++ info ++ value).length < 2 ^ 63) :
    commandPasses (router ++ nm ["nlsr", "prefix-update", "advertise"] ++ params ++ time ++ nonce ++ info ++ value) k = false := by
  cases h : commandPasses (router ++ nm ["nlsr", "prefix-update", "advertise"] ++ params ++ time ++ nonce ++ info ++ value) k with
  | false => rfl
  | true =>
    exfalso
    obtain ⟨⟨v, x, y, z, u, w, he, -⟩, -⟩ := (C101_command _ k hl).1 h
    cases router with
    | nil =>
      have := (List.cons.inj he).1
      exact absurd this (by decide +kernel)
    | cons c t =>
      have := (List.cons.inj he).1
      rw [this] at hr
      exact hr rfl

/-! ### Examples: the names of docs/SECURITY-CONFIG.rst -/

namespace TrustWitness
def site : Name := nm ["ndn", "edu", "ucla"]
def router : Name := site ++ Nbr.routerTag :: nm ["cs", "r1"]
def op : Name := site ++ Nbr.operatorTag :: nm ["op1"]
def tail : Name := nm ["1", "i", "v"]
def cert (i k : Name) : Cert := { name := i ++ Comp.str "KEY" :: tail, locator := some (k ++ nm ["KEY", "1"]) }
def ci : Cert := cert (router ++ nm ["nlsr"]) router
def cr : Cert := cert router op
def co : Cert := cert op site
def cs : Cert := cert site (nm ["ndn"])
def cg : Cert := cert (nm ["ndn"]) (nm ["ndn"])
end TrustWitness
open TrustWitness

theorem exHierarchy : Hierarchy site (nm ["cs", "r1"]) (nm ["op1"]) (nm ["ndn"]) where
  site := by decide +kernel
  router := by decide +kernel
  operator := by decide +kernel
  root := ⟨nm ["edu", "ucla"], rfl⟩

/-- An LSA of this router passes with its NLSR's key, and the documented chain vouches for the key. -/
example : passes shipped (Lsdb.segName (RouterConf.lsaInterest ⟨nm ["ndn"], nm ["edu", "ucla"], Nbr.routerTag :: nm ["cs", "r1"]⟩ .name 5) 1 0)
      (router ++ nm ["nlsr", "KEY", "1"]) = true ∧
    Vouched shipped [cg] (router ++ nm ["nlsr", "KEY", "1"]) [ci, cr, co, cs, cg] ∧
    (RouterConf.routerPrefix ⟨nm ["ndn"], nm ["edu", "ucla"], Nbr.routerTag :: nm ["cs", "r1"]⟩).head? ≠ some (Comp.str "localhop") ∧
    siteName router = site := by
  have hc : ∀ i k, CertOf (cert i k) i (k ++ nm ["KEY", "1"]) := fun i k =>
    ⟨⟨Comp.str "1", Comp.str "i", Comp.str "v", rfl, by decide +kernel, by decide +kernel⟩, rfl⟩
  refine ⟨by decide +kernel, ?_, by decide +kernel, by decide +kernel⟩
  exact C100_genuine exHierarchy ci cr co cs cg (nm ["1"]) (nm ["1"]) (nm ["1"]) (nm ["1"]) (nm ["1"])
    (hc _ _) (hc _ _) (hc _ _) (hc _ _) ⟨_, _, _, rfl⟩ ⟨by decide +kernel, nm ["i", "v"], rfl⟩ ⟨by decide +kernel, nm ["i", "v"], rfl⟩
    ⟨by decide +kernel, nm ["i", "v"], rfl⟩ ⟨by decide +kernel, nm ["i", "v"], rfl⟩ ⟨nm ["i", "v"], rfl⟩ (by simp)

/-- Another site's operator, and another router of the site, are not above the router. -/
example : passes shipped cr.name (nm ["ndn", "edu", "uaslp"] ++ Nbr.operatorTag :: nm ["op", "KEY", "1"]) = false ∧
    passes shipped cr.name (site ++ nm ["KEY", "1"]) = false ∧
    passes shipped ci.name (site ++ Nbr.routerTag :: nm ["cs", "r2", "KEY", "1"]) = false ∧
    passes shipped cr.name (op ++ nm ["KEY", "1"]) = true := by
  decide +kernel

/-- A command of an operator passes, one of the router does not. -/
example : let n := nm ["localhost", "nlsr", "prefix-update", "advertise", "p", "t", "n", "si", "sv"]
    commandPasses n (op ++ nm ["KEY", "1"]) = true ∧ commandPasses n (router ++ nm ["KEY", "1"]) = false ∧
    Vouched updateShipped [cs] (op ++ nm ["KEY", "1"]) [co, cs] := by
  refine ⟨by decide +kernel, by decide +kernel, .step (by decide +kernel) (by decide +kernel) rfl (by decide +kernel) (.anchor (by simp) (by decide +kernel))⟩

end Nlsr.Schema
