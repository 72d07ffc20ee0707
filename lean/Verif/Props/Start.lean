import Verif.Model.Start
import Verif.Props.Trust
import Verif.Props.HelloName
import Verif.Props.LsdbInterest
import Verif.Props.CertServe
/- C102: what a router that was set up as documented signs is accepted by the others. -/
namespace Nlsr.Start
open Schema

/-- The key locator of a signature: the name of the certificate, or of its key. -/
def Locates (loc : Cert → Name) : Prop :=
  ∀ (i : Name) (x y z : Comp) (c : Cert), c.name = i ++ [Comp.str "KEY", x, y, z] → loc c = c.name ∨ loc c = i ++ [Comp.str "KEY", x]

/-- A router with these rules and anchors accepts the data: the rules let the key sign it, and certificates up to an anchor
vouch for the key. -/
def Accepted (anchors : List Cert) (d : Name) (k : Option Name) : Prop :=
  ∃ k', k = some k' ∧ passes shipped d k' = true ∧ ∃ l, Vouched shipped anchors k' l

/-- The documented setup (docs/SECURITY-CONFIG.rst) of router `s/%C1.Router/b`: its identity is in the key chain with a certificate
by an operator of its site, whose certificate is by the site, whose certificate is by the root. -/
structure Setup (loc : Cert → Name) (s b q g : Name) (ring : KeyRing) (cr co cs cg : Cert) : Prop where
  key : Locates loc
  names : Hierarchy s b q g
  identity : ring.find (s ++ Nbr.routerTag :: b) = some ⟨s ++ Nbr.routerTag :: b, cr⟩
  router : CertOf cr (s ++ Nbr.routerTag :: b) (loc co)
  operator : CertOf co (s ++ Nbr.operatorTag :: q) (loc cs)
  site : CertOf cs s (loc cg)
  root : ∃ x y z, cg.name = g ++ [Comp.str "KEY", x, y, z]

theorem Locates.tail {loc : Cert → Name} (h : Locates loc) {c : Cert} {i : Name} (hc : ∃ x y z, c.name = i ++ [Comp.str "KEY", x, y, z]) :
    ∃ t, t ≠ [] ∧ t.length ≤ 3 ∧ loc c = i ++ Comp.str "KEY" :: t ∧ i ++ Comp.str "KEY" :: t <+: c.name := by
  obtain ⟨x, y, z, e⟩ := hc
  rcases h i x y z c e with h | h
  · exact ⟨[x, y, z], by simp, by simp, by rw [h, e], by rw [e]; exact List.prefix_rfl⟩
  · exact ⟨[x], by simp, by simp, h, by rw [e]; exact ⟨[y, z], by simp⟩⟩

/-- C102: a start makes a certificate of the router's NLSR by the router's key, and puts it into the key chain in place of
the one of the start before; the other identities stay, and so does the default one, if it was not that. -/
theorem C102_start (loc : Cert → Name) (router : Name) (kid issuer ver : Comp) (ring : KeyRing) {r : Ident}
    (hr : ring.find router = some r) :
    ∃ c, (initializeKey loc router kid issuer ver ring).2 = some c ∧
      c.name = router ++ [Comp.str "nlsr", Comp.str "KEY", kid, issuer, ver] ∧ c.locator = some (loc r.cert) ∧
      (∀ i, i ∈ (initializeKey loc router kid issuer ver ring).1.ids ↔
        (i ∈ ring.ids ∧ i.name ≠ router ++ [Comp.str "nlsr"]) ∨ i = ⟨router ++ [Comp.str "nlsr"], c⟩) ∧
      (∀ d, ring.dflt = some d → d ≠ router ++ [Comp.str "nlsr"] → (initializeKey loc router kid issuer ver ring).1.dflt = some d) := by
  unfold initializeKey
  rw [hr]
  refine ⟨_, rfl, by simp [Nbr.nlsrComp, Nbr.keyComp], rfl, ?_, ?_⟩
  · intro i
    simp only [KeyRing.add, KeyRing.delete, List.mem_append, List.mem_filter, List.mem_singleton, decide_eq_true_eq]
    exact Iff.rfl
  · intro d hd hne
    have hne' : ¬ some d = some (router ++ [Nbr.nlsrComp]) := fun h => hne (Option.some.inj h)
    simp only [KeyRing.add, KeyRing.delete, hd, hne', if_false]

/-- Nothing happens without the identity. -/
theorem no_identity (loc : Cert → Name) (router : Name) (kid issuer ver : Comp) (ring : KeyRing) (hr : ring.find router = none) :
    initializeKey loc router kid issuer ver ring = (ring, none) := by
  unfold initializeKey
  rw [hr]

/-- The chain of certificates behind the key of a start. -/
theorem chain {loc : Cert → Name} {s b q g : Name} {ring : KeyRing} {cr co cs cg : Cert} (h : Setup loc s b q g ring cr co cs cg)
    {anchors : List Cert} (ha : cg ∈ anchors) {kid issuer ver : Comp} (hk : kid ≠ Comp.str "nlsr") (hi : issuer ≠ Comp.str "nlsr") :
    ∃ c t, (initializeKey loc (s ++ Nbr.routerTag :: b) kid issuer ver ring).2 = some c ∧
      loc c = s ++ Nbr.routerTag :: b ++ [Comp.str "nlsr"] ++ Comp.str "KEY" :: t ∧ 1 ≤ t.length ∧ t.length ≤ 3 ∧
      c.locator = some (loc cr) ∧
      Vouched shipped anchors (loc c) [c, cr, co, cs, cg] := by
  obtain ⟨c, hc, hn, hl, -⟩ := C102_start loc (s ++ Nbr.routerTag :: b) kid issuer ver ring h.identity
  have hn' : c.name = s ++ Nbr.routerTag :: b ++ [Comp.str "nlsr"] ++ [Comp.str "KEY", kid, issuer, ver] := by rw [hn]; simp
  obtain ⟨ki, ki0, kil, kie, kip⟩ := h.key.tail ⟨kid, issuer, ver, hn'⟩
  obtain ⟨r1, r2, r3, re, hr1, hr2⟩ := h.router.1
  obtain ⟨o1, o2, o3, oe, ho1, ho2⟩ := h.operator.1
  obtain ⟨s1, s2, s3, se, hs1, hs2⟩ := h.site.1
  obtain ⟨kr, kr0, -, kre, krp⟩ := h.key.tail ⟨r1, r2, r3, re⟩
  obtain ⟨ko, ko0, -, koe, kop⟩ := h.key.tail ⟨o1, o2, o3, oe⟩
  obtain ⟨ks, ks0, -, kse, ksp⟩ := h.key.tail ⟨s1, s2, s3, se⟩
  obtain ⟨kg, kg0, -, kge, kgp⟩ := h.key.tail h.root
  refine ⟨c, ki, hc, kie, List.length_pos_iff.2 ki0, kil, hl, ?_⟩
  rw [kie]
  refine C100_genuine h.names c cr co cs cg ki kr ko ks kg ⟨⟨kid, issuer, ver, hn', hk, hi⟩, ?_⟩ ⟨h.router.1, ?_⟩ ⟨h.operator.1, ?_⟩
    ⟨h.site.1, ?_⟩ h.root ⟨kr0, krp⟩ ⟨ko0, kop⟩ ⟨ks0, ksp⟩ ⟨kg0, kgp⟩ kip ha
  · rw [hl, kre]
  · rw [h.router.2, koe]
  · rw [h.operator.2, kse]
  · rw [h.site.2, kge]

theorem router_free {s b q g : Name} (h : Hierarchy s b q g) :
    Comp.str "KEY" ∉ s ++ Nbr.routerTag :: b ∧ Comp.str "nlsr" ∉ s ++ Nbr.routerTag :: b := by
  have h1 : ¬ Comp.str "KEY" = Nbr.routerTag := by decide +kernel
  have h2 : ¬ Comp.str "nlsr" = Nbr.routerTag := by decide +kernel
  simp only [List.mem_append, List.mem_cons, not_or]
  exact ⟨⟨h.site.1, h1, h.router.1⟩, h.site.2.1, h2, h.router.2⟩

/-- C102: hello.  B, set up as documented and started, answers the hello interest of a neighbour A; A, with the root as an
anchor, accepts the answer, and B is up at A. -/
theorem C102_hello {loc : Cert → Name} {s b q g : Name} {ring : KeyRing} {cr co cs cg : Cert} (h : Setup loc s b q g ring cr co cs cg)
    {anchors : List Cert} (ha : cg ∈ anchors) {kid issuer ver : Comp} (hk : kid ≠ Comp.str "nlsr") (hi : issuer ≠ Comp.str "nlsr")
    (hinfo : Comp.str "INFO" ∉ s ++ Nbr.routerTag :: b)
    {A B : NConf} (hB : B.router = s ++ Nbr.routerTag :: b) {x y : Nbr} (hx : Nbr.Reachable A x) (hxd : x.dead = false) (hyd : y.dead = false)
    (h7 : B.nameTlv 7 = true) (hn : Tlv.NameOk A.router) (hl : (Tlv.encComps A.router).length < 2 ^ 64) (hlen : B.router.length < 8797)
    (i due : Nat) (v : Comp) (hw : x.waiting[i]? = some (Nbr.helloOf A B.router, due)) (hAB : (AdjacencyList.find y.adjs A.router).isSome) :
    let started := initializeKey loc (s ++ Nbr.routerTag :: b) kid issuer ver ring
    let d := Nbr.helloOf A B.router ++ [v]
    (∃ o, (Nbr.step B y (.interest (Nbr.helloOf A B.router) v)).out = y.out ++ .data d :: o) ∧
    Accepted anchors d (dataLocator loc started.1 started.2) ∧
    AdjacencyList.getStatus (Nbr.step A (Nbr.step A x (.data i d)) (.valid x.validating.length)).adjs B.router = .active := by
  dsimp only
  obtain ⟨o, ho, hup, -⟩ := (C69_round_trip hx hxd hyd h7 hn hl hlen i due v hw).1 hAB
  obtain ⟨c, t, hc, hloc, ht1, ht2, -, hv⟩ := chain h ha (ver := ver) hk hi
  refine ⟨⟨o, ho⟩, ⟨loc c, by rw [hc]; rfl, ?_, _, hv⟩, hup⟩
  obtain ⟨hkey, hnl⟩ := router_free h.names
  have e : Nbr.helloOf A B.router ++ [v] = (s ++ Nbr.routerTag :: b) ++ [Comp.str "nlsr", Comp.str "INFO", ⟨8, Tlv.encName A.router⟩, v] := by
    rw [hB]; unfold Nbr.helloOf; simp
  rw [e, C99_hello hnl hinfo]
  exact ⟨hkey, t, by rw [hloc]; simp, ht1, ht2⟩

/-- C102: LSAs.  Asked for an LSA of its own that it has, the router sends a segment that a router with the root as an anchor
accepts. -/
theorem C102_lsa {loc : Cert → Name} {s b q g : Name} {ring : KeyRing} {cr co cs cg : Cert} (h : Setup loc s b q g ring cr co cs cg)
    {anchors : List Cert} (ha : cg ∈ anchors) {kid issuer ver : Comp} (hk : kid ≠ Comp.str "nlsr") (hi : issuer ≠ Comp.str "nlsr")
    (c : LConf) (hc : c.names.routerPrefix = s ++ Nbr.routerTag :: b) (hnet : Comp.str "LSA" ∉ c.names.network)
    (db : Lsdb) (t : LsaType) (seq v : Nat) (ht : t ≠ .base) (hlen : (c.names.lsaInterest t seq).length ≤ 8800)
    (hseq : seq < 2 ^ 64) (hseg : ∀ l, 0 < c.segments l) {o : Obj} (ho : db.find c.router t = some o) (hos : o.lsa.seq = seq) :
    let started := initializeKey loc (s ++ Nbr.routerTag :: b) kid issuer ver ring
    ∃ d, (Lsdb.step c db (.interest (c.names.lsaInterest t seq) v)).log = db.log ++ [.data ⟨d, o.lsa, 0⟩] ∧
      Accepted anchors d (dataLocator loc started.1 started.2) := by
  dsimp only
  refine ⟨_, (C33_own_interest c db t seq v ht hnet hlen hseq hseg).1 o ho hos, ?_⟩
  obtain ⟨ci, tl, hci, hloc, ht1, ht2, -, hv⟩ := chain h ha (ver := ver) hk hi
  refine ⟨loc ci, by rw [hci]; rfl, ?_, _, hv⟩
  obtain ⟨hkey, hnl⟩ := router_free h.names
  have hnn : Comp.str "nlsr" ∉ c.names.network := by
    intro hm
    apply hnl
    rw [← hc]
    simp [RouterConf.routerPrefix, hm]
  have e : c.names.lsaInterest t seq ++ [⟨54, Tlv.encNni v⟩, ⟨50, Tlv.encNni 0⟩] = Lsdb.segName (c.names.lsaInterest t seq) v 0 := rfl
  rw [e, C99_lsa c.names t seq v 0 hnn hnet, hc]
  exact ⟨hkey, hnl, tl, by rw [hloc]; simp, ht1, ht2⟩

/-- C102: the other routers can get the certificate: from the start on, whatever interests and segments come, the router
answers interests for the name of the new certificate and for its key with it. -/
theorem C102_served (loc : Cert → Name) (r : RouterConf) (kid issuer ver : Comp) (ring : KeyRing) {i : Ident}
    (hr : ring.find r.routerPrefix = some i) (files : List Cert) (hf : ∀ c ∈ files, GoodCert c) (hlen : r.routerPrefix.length + 5 ≤ 8800)
    (hfresh : ∀ c ∈ files, certKey c ≠ r.routerPrefix ++ [Comp.str "nlsr", Comp.str "KEY", kid])
    (fuel : Nat) (ops : List CertStore.Op) (hgood : FromCaches GoodCert ops)
    (hcache : FromCaches (fun d => certKey d ≠ r.routerPrefix ++ [Comp.str "nlsr", Comp.str "KEY", kid]) ops) (st : CertStore) :
    let started := initializeKey loc r.routerPrefix kid issuer ver ring
    CertStore.run fuel (store r files started.2) ops = some st → st.dead = false →
    ∃ c, started.2 = some c ∧
      (∃ st', CertStore.step fuel st (.interest c.name) = some st' ∧ st'.sent = st.sent ++ [c]) ∧
      (r.routerPrefix.getLast? ≠ some (Comp.str "KEY") →
        ∃ st', CertStore.step fuel st (.interest (r.routerPrefix ++ [Comp.str "nlsr", Comp.str "KEY", kid])) = some st' ∧ st'.sent = st.sent ++ [c]) := by
  dsimp only
  intro hrun hd
  obtain ⟨c, hc, hn, hl, -⟩ := C102_start loc r.routerPrefix kid issuer ver ring hr
  rw [hc] at hrun
  refine ⟨c, hc, ?_⟩
  have hst : ∀ l : List Cert, store r l (some c) = CertStore.init r (l ++ [c]) := by
    intro l
    unfold store CertStore.init
    rw [List.foldl_append]
    simp [CertStore.keyPrefixes, CertStore.listen, CertStore.insert]
  rw [hst] at hrun
  have hkey : certKey c = r.routerPrefix ++ [Comp.str "nlsr", Comp.str "KEY", kid] := by
    unfold certKey
    rw [hn]
    have : (r.routerPrefix ++ [Comp.str "nlsr", Comp.str "KEY", kid, issuer, ver]) =
        (r.routerPrefix ++ [Comp.str "nlsr", Comp.str "KEY", kid]) ++ [issuer, ver] := by simp
    rw [this, List.take_left' (by simp)]
  have hgc : GoodCert c := by
    refine ⟨r.routerPrefix ++ [Comp.str "nlsr"], kid, issuer, ver, by rw [hkey]; simp, by rw [hkey, hn]; simp, by rw [hn]; simp; omega⟩
  obtain ⟨op, hop⟩ : ∃ op, Uri.parseName "/%C1.Operator".toList = some [op] := ⟨Nbr.operatorTag, by decide +kernel⟩
  have hs := C77_served_partial r (files ++ [c]) (by
      intro d hd
      rcases List.mem_append.1 hd with h | h
      · exact hf d h
      · rw [List.mem_singleton.1 h]; exact hgc) c (by simp) (by
      intro d hd he
      rcases List.mem_append.1 hd with h | h
      · exact absurd (he.trans hkey) (hfresh d h)
      · exact List.mem_singleton.1 h) fuel ops hgood (by
      intro cache kl hm n d hd he
      exact absurd (he.trans hkey) (hcache cache kl hm n d hd)) st hrun hd op hop
  refine ⟨hs.1 ?_, fun hnk => ?_⟩
  · rw [hn]
    have := Home.daemon (r := r) (op := op) [kid, issuer, ver]
    simpa [RouterConf.routerPrefix] using this
  · have := hs.2 ?_ ?_
    · rw [hkey] at this; exact this
    · rw [hkey]
      unfold PlainKey
      by_cases h4 : (r.routerPrefix ++ [Comp.str "nlsr", Comp.str "KEY", kid]).length < 4
      · exact Or.inl h4
      · right
        rw [List.length_append, List.length_cons, List.length_cons, List.length_cons, List.length_nil] at h4 ⊢
        rw [List.getElem?_append_left (by omega)]
        rw [List.getLast?_eq_getElem?] at hnk
        have e : r.routerPrefix.length + (0 + 1 + 1 + 1) - 4 = r.routerPrefix.length - 1 := by omega
        rw [e]
        exact hnk
    · rw [hkey]
      have := Home.daemon (r := r) (op := op) [kid]
      simpa [RouterConf.routerPrefix] using this

/-- The default identity, and how it signs. -/
structure Default (ring : KeyRing) (i : Name) (c : Cert) : Prop where
  dflt : ring.dflt = some i
  found : ring.find i = some ⟨i, c⟩
  name : ∃ x y z, c.name = i ++ [Comp.str "KEY", x, y, z]
  plain : Comp.str "KEY" ∉ i

theorem Default.after {loc : Cert → Name} {router : Name} {kid issuer ver : Comp} {ring : KeyRing} {i : Name} {c : Cert}
    (h : Default ring i c) (hne : i ≠ router ++ [Comp.str "nlsr"]) : Default (initializeKey loc router kid issuer ver ring).1 i c := by
  cases hr : ring.find router with
  | none => rw [no_identity _ _ _ _ _ _ hr]; exact h
  | some r =>
    obtain ⟨d, hd, hn, -, hids, hdf⟩ := C102_start loc router kid issuer ver ring hr
    refine ⟨hdf i h.dflt hne, ?_, h.name, h.plain⟩
    unfold initializeKey
    rw [hr]
    have hf := h.found
    unfold KeyRing.find at hf ⊢
    simp only [KeyRing.add, KeyRing.delete]
    rw [List.find?_append]
    have : ∀ l : List Ident, (l.filter (fun j => decide (j.name ≠ router ++ [Nbr.nlsrComp]))).find? (fun j => decide (j.name = i)) = l.find? (fun j => decide (j.name = i)) := by
      intro l
      induction l with
      | nil => rfl
      | cons a l ih =>
        by_cases ha : a.name = i
        · have hk : (fun j : Ident => decide (j.name ≠ router ++ [Nbr.nlsrComp])) a = true := by
            show decide (a.name ≠ _) = true
            rw [ha]; exact decide_eq_true hne
          rw [List.filter_cons_of_pos (p := fun j : Ident => decide (j.name ≠ router ++ [Nbr.nlsrComp])) hk,
            List.find?_cons_of_pos (by simpa using ha), List.find?_cons_of_pos (by simpa using ha)]
        · rw [List.find?_cons_of_neg (l := l) (by simpa using ha)]
          by_cases hk : (fun j : Ident => decide (j.name ≠ router ++ [Nbr.nlsrComp])) a = true
          · rw [List.filter_cons_of_pos (p := fun j : Ident => decide (j.name ≠ router ++ [Nbr.nlsrComp])) hk,
              List.find?_cons_of_neg (by simpa using ha)]; exact ih
          · rw [List.filter_cons_of_neg (p := fun j : Ident => decide (j.name ≠ router ++ [Nbr.nlsrComp])) hk]; exact ih
    rw [this, hf]
    rfl

theorem Default.locator {loc : Cert → Name} {ring : KeyRing} {i : Name} {c : Cert} (h : Default ring i c) :
    ring.dfltLocator loc = some (loc c) := by
  unfold KeyRing.dfltLocator
  rw [h.dflt]
  show (ring.find i).map _ = _
  rw [h.found]
  rfl

/-- C102: data sets.  They are signed by the default identity of the key chain: the data sets of a router that was set up as
documented pass, and are accepted, exactly if its identity is the default one. -/
theorem C102_dataset_partial {loc : Cert → Name} {s b q g : Name} {ring : KeyRing} {cr co cs cg : Cert} (h : Setup loc s b q g ring cr co cs cg)
    {anchors : List Cert} (ha : cg ∈ anchors) {kid issuer ver : Comp} (hk : kid ≠ Comp.str "nlsr") (hi : issuer ≠ Comp.str "nlsr")
    {i : Name} {c : Cert} (hd : Default ring i c) (hne : i ≠ s ++ Nbr.routerTag :: b ++ [Comp.str "nlsr"])
    {x : Comp} (hx : x = Comp.str "lsdb" ∨ x = Comp.str "routing-table") (m : Name) :
    Accepted anchors (s ++ Nbr.routerTag :: b ++ Comp.str "nlsr" :: x :: m)
      (datasetLocator loc (initializeKey loc (s ++ Nbr.routerTag :: b) kid issuer ver ring).1) ↔ i = s ++ Nbr.routerTag :: b := by
  obtain ⟨hkey, hnl⟩ := router_free h.names
  have hl : datasetLocator loc (initializeKey loc (s ++ Nbr.routerTag :: b) kid issuer ver ring).1 = some (loc c) :=
    (hd.after hne).locator
  obtain ⟨t, t0, tl, te, -⟩ := h.key.tail hd.name
  rw [hl]
  constructor
  · rintro ⟨k', hk', hp, -⟩
    cases hk'
    obtain ⟨-, t', ht', -⟩ := (C99_dataset hnl hx m _).1 hp
    rw [te] at ht'
    have hp' : cKey ∉ i := hd.plain
    have hk'' : cKey ∉ s ++ Nbr.routerTag :: b := hkey
    exact (cut_unique (P := fun c => c = cKey) (fun c hc h => hp' (h ▸ hc)) (fun c hc h => hk'' (h ▸ hc)) rfl rfl ht').1
  · rintro rfl
    refine ⟨_, rfl, (C99_dataset hnl hx m _).2 ⟨hkey, t, te, List.length_pos_iff.2 t0, tl⟩, ?_⟩
    have hcr : c = cr := by
      have := h.identity
      rw [hd.found] at this
      exact congrArg Ident.cert (Option.some.inj this)
    subst hcr
    obtain ⟨ci, -, -, -, -, -, hcl, hv⟩ := chain h ha (ver := ver) hk hi
    cases hv with
    | step hk1 hv1 hl1 hp1 hv2 =>
      rw [hcl] at hl1
      cases hl1
      exact ⟨_, hv2⟩

/-- C102: a router whose identity is not in the key chain starts, but no other router accepts a hello answer or an LSA of it. -/
theorem C102_without {loc : Cert → Name} (hloc : Locates loc) {r : RouterConf} {ring : KeyRing} (hr : ring.find r.routerPrefix = none)
    (hn : Comp.str "nlsr" ∉ r.routerPrefix) (hinfo : Comp.str "INFO" ∉ r.routerPrefix) (hlsa : Comp.str "LSA" ∉ r.network)
    (hdf : ∀ i, ring.dflt = some i → i ≠ r.routerPrefix ++ [Comp.str "nlsr"] ∧ ∃ c, Default ring i c)
    (kid issuer ver : Comp) (anchors : List Cert) :
    let started := initializeKey loc r.routerPrefix kid issuer ver ring
    (∀ x y, ¬ Accepted anchors (r.routerPrefix ++ [Comp.str "nlsr", Comp.str "INFO", x, y]) (dataLocator loc started.1 started.2)) ∧
    (∀ t seq v i, ¬ Accepted anchors (Lsdb.segName (r.lsaInterest t seq) v i) (dataLocator loc started.1 started.2)) := by
  dsimp only
  rw [no_identity _ _ _ _ _ _ hr]
  have hno : ∀ k, dataLocator loc ring none = some k → Comp.str "KEY" ∉ r.routerPrefix →
      ¬ ∃ t, k = r.routerPrefix ++ Comp.str "nlsr" :: Comp.str "KEY" :: t ∧ 1 ≤ t.length ∧ t.length ≤ 3 := by
    rintro k hk hkr ⟨t, rfl, -⟩
    unfold dataLocator at hk
    dsimp only at hk
    cases hdd : ring.dflt with
    | none =>
      unfold KeyRing.dfltLocator at hk
      rw [hdd] at hk
      cases hk
    | some i =>
      obtain ⟨hne, c, hd⟩ := hdf i hdd
      rw [hd.locator] at hk
      obtain ⟨t', -, -, te, -⟩ := hloc.tail hd.name
      rw [Option.some.inj hk] at te
      have hp' : cKey ∉ i := hd.plain
      have hk'' : cKey ∉ r.routerPrefix ++ [Comp.str "nlsr"] := by
        intro hm
        rcases List.mem_append.1 hm with hm | hm
        · exact hkr hm
        · exact nlsr_ne_key (List.mem_singleton.1 hm).symm
      have te' : r.routerPrefix ++ [Comp.str "nlsr"] ++ cKey :: t = i ++ cKey :: t' := by
        rw [List.append_assoc]; exact te
      exact hne (cut_unique (P := fun c => c = cKey) (fun c hc h => hk'' (h ▸ hc)) (fun c hc h => hp' (h ▸ hc)) rfl rfl te').1.symm
  constructor
  · rintro x y ⟨k, hk, hp, -⟩
    obtain ⟨h1, h2⟩ := (C99_hello hn hinfo x y k).1 hp
    exact hno k hk h1 h2
  · rintro t seq v i ⟨k, hk, hp, -⟩
    have hnn : Comp.str "nlsr" ∉ r.network := fun hm => hn (by simp [RouterConf.routerPrefix, hm])
    obtain ⟨h1, -, h2⟩ := (C99_lsa r t seq v i hnn hlsa k).1 hp
    exact hno k hk h1 h2

/-! ### Examples -/

open TrustWitness

theorem exLoc : Locates (fun c => c.name) := fun _ _ _ _ _ _ => Or.inl rfl

/-- The certificates of `TrustWitness`, with certificate names as key locators. -/
def exCert (i k : Name) : Cert := { name := i ++ Comp.str "KEY" :: tail, locator := some (k ++ Comp.str "KEY" :: tail) }

theorem exSetup (ring : KeyRing) (h : ring.find router = some ⟨router, exCert router op⟩) :
    Setup (fun c => c.name) site (nm ["cs", "r1"]) (nm ["op1"]) (nm ["ndn"]) ring (exCert router op) (exCert op site) (exCert site (nm ["ndn"]))
      (exCert (nm ["ndn"]) (nm ["ndn"])) where
  key := exLoc
  names := exHierarchy
  identity := h
  router := ⟨⟨Comp.str "1", Comp.str "i", Comp.str "v", rfl, by decide +kernel, by decide +kernel⟩, rfl⟩
  operator := ⟨⟨Comp.str "1", Comp.str "i", Comp.str "v", rfl, by decide +kernel, by decide +kernel⟩, rfl⟩
  site := ⟨⟨Comp.str "1", Comp.str "i", Comp.str "v", rfl, by decide +kernel, by decide +kernel⟩, rfl⟩
  root := ⟨Comp.str "1", Comp.str "i", Comp.str "v", rfl⟩

def exRing : KeyRing := { ids := [⟨router, exCert router op⟩], dflt := some router }
def exShared : KeyRing := { ids := [⟨op, exCert op site⟩, ⟨router, exCert router op⟩], dflt := some op }

example : exRing.find router = some ⟨router, exCert router op⟩ ∧ exShared.find router = some ⟨router, exCert router op⟩ := by decide +kernel

/-- A neighbour of the router, waiting for its hello, and the router, which has it as a neighbour. -/
def exPeer : NConf := { HelloWitness.conf with router := nm ["ndn", "a"] }
def exSelf : NConf := { HelloWitness.conf with router := router }
def exPeerNow : Nbr := Nbr.run exPeer (Nbr.init exPeer [{ name := router, uri := "udp4://b", cost := .fin 10 }]) [.faceUp "udp4://b" 256, .registered router]
def exSelfNow : Nbr := Nbr.init exSelf [{ name := nm ["ndn", "a"], uri := "udp4://a", cost := .fin 10 }]

example : exPeerNow.waiting[0]? = some (Nbr.helloOf exPeer exSelf.router, 1000000000) ∧ exPeerNow.dead = false ∧ exSelfNow.dead = false ∧
    (AdjacencyList.find exSelfNow.adjs exPeer.router).isSome ∧ Nbr.Reachable exPeer exPeerNow ∧
    exSelf.router = site ++ Nbr.routerTag :: nm ["cs", "r1"] ∧ Comp.str "INFO" ∉ site ++ Nbr.routerTag :: nm ["cs", "r1"] ∧
    Tlv.NameOk exPeer.router ∧ (Tlv.encComps exPeer.router).length < 2 ^ 64 := by
  refine ⟨by decide +kernel, by decide +kernel, by decide +kernel, by decide +kernel,
    ⟨[{ name := router, uri := "udp4://b", cost := .fin 10 }], [.faceUp "udp4://b" 256, .registered router], ⟨by decide +kernel, by decide +kernel, by decide +kernel⟩, rfl⟩,
    by decide +kernel, by decide +kernel, ?_, by decide +kernel⟩
  exact (by decide +kernel : ∀ c ∈ exPeer.router, (1 ≤ c.typ ∧ c.typ < 4294967296) ∧ c.val.length < 2 ^ 64)

/-- The router's LSDB right after its start. -/
def exDbConf : LConf := { exConf .off with names := ⟨nm ["ndn"], nm ["edu", "ucla"], Nbr.routerTag :: nm ["cs", "r1"]⟩ }
def exDb : Lsdb := Lsdb.init exDbConf none [] [⟨nm ["a"], .fin 5⟩] 0

example : exDbConf.names.routerPrefix = site ++ Nbr.routerTag :: nm ["cs", "r1"] ∧ Comp.str "LSA" ∉ exDbConf.names.network ∧
    ((exDb.find exDbConf.router .name).map (·.lsa.seq)) = some 1 := by
  decide +kernel

/-- Without the identity: the key chain has only the operator's. -/
example : let ring : KeyRing := { ids := [⟨op, exCert op site⟩], dflt := some op }
    ring.find exDbConf.names.routerPrefix = none ∧ Default ring op (exCert op site) ∧ op ≠ exDbConf.names.routerPrefix ++ [Comp.str "nlsr"] :=
  ⟨by decide +kernel, ⟨rfl, by decide +kernel, ⟨_, _, _, rfl⟩, by decide +kernel⟩, by decide +kernel⟩

/-- Data sets of the router are accepted after a start. -/
example : Accepted [exCert (nm ["ndn"]) (nm ["ndn"])] (router ++ nm ["nlsr", "lsdb", "names", "v", "s"])
    (datasetLocator (fun c => c.name) (initializeKey (fun c => c.name) router (Comp.str "9") (Comp.str "NA") (Comp.str "v") exRing).1) :=
  (C102_dataset_partial (exSetup exRing (by decide +kernel)) (by simp) (by decide +kernel) (by decide +kernel)
    (c := exCert router op) ⟨rfl, by decide +kernel, ⟨_, _, _, rfl⟩, by decide +kernel⟩ (by decide +kernel) (Or.inl rfl) _).2 rfl

/-- A router set up as documented, on an account whose default identity is another one, is accepted by the other routers;
its data sets are not, so `nlsrc -R` does not show them. -/
theorem C102_violated_dataset : ∃ (ring : KeyRing) (anchors : List Cert),
    Setup (fun c => c.name) site (nm ["cs", "r1"]) (nm ["op1"]) (nm ["ndn"]) ring (exCert router op) (exCert op site) (exCert site (nm ["ndn"]))
      (exCert (nm ["ndn"]) (nm ["ndn"])) ∧ exCert (nm ["ndn"]) (nm ["ndn"]) ∈ anchors ∧
    ∀ kid issuer ver, ∀ x m, (x = Comp.str "lsdb" ∨ x = Comp.str "routing-table") → kid ≠ Comp.str "nlsr" → issuer ≠ Comp.str "nlsr" →
      ¬ Accepted anchors (router ++ Comp.str "nlsr" :: x :: m)
        (datasetLocator (fun c => c.name) (initializeKey (fun c => c.name) router kid issuer ver ring).1) := by
  refine ⟨exShared, [exCert (nm ["ndn"]) (nm ["ndn"])], exSetup exShared (by decide +kernel), by simp, ?_⟩
  intro kid issuer ver x m hx hk hi ha
  have hs := exSetup exShared (by decide +kernel)
  have := (C102_dataset_partial hs (anchors := [exCert (nm ["ndn"]) (nm ["ndn"])]) (by simp) (ver := ver) hk hi (i := op) (c := exCert op site)
    ⟨rfl, by decide +kernel, ⟨_, _, _, rfl⟩, by decide +kernel⟩ (by decide +kernel) hx m).1 ha
  exact absurd this (by decide +kernel)

/-- On an account without a default identity the daemon makes its own one the default, and its data sets are not accepted
either, from any start on. -/
theorem C102_violated_no_default : ∃ (ring : KeyRing), ring.find router = some ⟨router, exCert router op⟩ ∧ ring.dflt = none ∧
    let k1 := (initializeKey (fun c => c.name) router (Comp.str "8") (Comp.str "NA") (Comp.str "v") ring).1
    let k2 := (initializeKey (fun c => c.name) router (Comp.str "9") (Comp.str "NA") (Comp.str "v") k1).1
    k1.dflt = some (router ++ [Comp.str "nlsr"]) ∧ k2.dflt = some (router ++ [Comp.str "nlsr"]) ∧
    passes shipped (router ++ nm ["nlsr", "lsdb", "names", "v", "s"]) ((datasetLocator (fun c => c.name) k1).getD []) = false ∧
    passes shipped (router ++ nm ["nlsr", "lsdb", "names", "v", "s"]) ((datasetLocator (fun c => c.name) k2).getD []) = false :=
  ⟨{ ids := [⟨router, exCert router op⟩], dflt := none }, by decide +kernel⟩

end Nlsr.Start
