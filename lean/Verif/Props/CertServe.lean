import Verif.Props.CertStore
import Verif.Model.Uri
/- C62, C77: which interests for certificates are answered. -/
namespace Nlsr
namespace CertStore

theorem filters_insert (l : List Cert) : ∀ s : CertStore, (l.foldl insert s).filters = s.filters := by
  induction l with
  | nil => exact fun _ => rfl
  | cons c l ih => exact fun s => ih (s.insert c)

theorem filters_listen (l : List Name) : ∀ s : CertStore, (l.foldl listen s).filters = s.filters ++ l := by
  induction l with
  | nil => exact fun s => (List.append_nil _).symm
  | cons n l ih =>
    intro s
    rw [List.foldl_cons, ih]
    simp [listen]

theorem filters_init (r : RouterConf) (files : List Cert) : (init r files).filters = keyPrefixes r := by
  unfold init
  rw [filters_listen, filters_insert]
  rfl

theorem filters_step {fuel : Nat} {s s' : CertStore} {op : Op} (h : step fuel s op = some s') {n : Name} (hn : n ∈ s.filters) :
    n ∈ s'.filters := by
  unfold step at h
  split at h
  · split at h
    · cases h; exact hn
    · cases h
      unfold interest
      split
      · split <;> exact hn
      · exact hn
  · split at h
    · cases h; exact hn
    · unfold segment at h
      split at h
      · cases h; exact hn
      · split at h
        · obtain ⟨l, b, -, rfl⟩ := publish_chain _ _ _ _ _ h
          exact List.mem_append_left _ hn
        · cases h; exact hn

theorem filters_run {fuel : Nat} : ∀ (ops : List Op) {s s' : CertStore}, run fuel s ops = some s' → ∀ {n : Name}, n ∈ s.filters →
    n ∈ s'.filters := by
  intro ops
  induction ops with
  | nil => intro s s' h n hn; cases h; exact hn
  | cons op ops ih =>
    intro s s' h n hn
    unfold run at h
    split at h
    · cases h
    · rename_i s1 h1
      exact ih h (filters_step h1 hn)

theorem interest_found {s : CertStore} {n p : Name} {c : Cert} (hf : s.find n = some c) (hp : p ∈ s.filters) (hn : p <+: n) :
    (s.interest n).sent = s.sent ++ [c] := by
  unfold interest
  have h : (s.filters.any fun f => Name.isPrefixOf f n) = true := List.any_eq_true.2 ⟨p, hp, List.isPrefixOf_iff_prefix.2 hn⟩
  rw [if_pos h, hf]

end CertStore
open CertStore

/-- The names under which routers look for certificates of a router `network/site/router`, its site and the site's
operators: with the keyword `KEY`, for the daemon itself with `nlsr/KEY`, and for operators with the URI component
`%C1.Operator`. -/
inductive Home (r : RouterConf) (op : Comp) : Name → Prop
  | daemon (rest : Name) : Home r op (r.network ++ r.site ++ r.router ++ [Comp.str "nlsr", Comp.str "KEY"] ++ rest)
  | router (rest : Name) : Home r op (r.network ++ r.site ++ r.router ++ [Comp.str "KEY"] ++ rest)
  | site (rest : Name) : Home r op (r.network ++ r.site ++ [Comp.str "KEY"] ++ rest)
  | operator (rest : Name) : Home r op (r.network ++ r.site ++ [op] ++ rest)

theorem Home.filter {r : RouterConf} {op : Comp} (hop : Uri.parseName "/%C1.Operator".toList = some [op]) {n : Name} (h : Home r op n) :
    ∃ p ∈ keyPrefixes r, p <+: n := by
  have e : op = Nbr.operatorTag := by
    have h : Uri.parseName "/%C1.Operator".toList = some [Nbr.operatorTag] := by decide +kernel
    rw [h] at hop
    injection hop with h; injection h with h; exact h.symm
  subst e
  cases h with
  | daemon rest => exact ⟨_, List.mem_cons_self, List.prefix_append _ _⟩
  | router rest => exact ⟨_, List.mem_cons_of_mem _ List.mem_cons_self, List.prefix_append _ _⟩
  | site rest =>
    exact ⟨_, List.mem_cons_of_mem _ (List.mem_cons_of_mem _ (List.mem_cons_of_mem _ List.mem_cons_self)), List.prefix_append _ _⟩
  | operator rest =>
    exact ⟨_, List.mem_cons_of_mem _ (List.mem_cons_of_mem _ List.mem_cons_self), List.prefix_append _ _⟩

/-- C77, the answers: a configured certificate of the daemon, the router, the site or an operator, the only one configured
for its key, is sent in answer to every interest for its name, or for its key's name, at every moment while the daemon
runs, as long as the validator's cache never has another certificate for the key.  Missing: that
(`C77_violated_replaced`), and other certificates (`C77_violated_elsewhere`). -/
theorem C77_served_partial (r : RouterConf) (files : List Cert) (hf : ∀ c ∈ files, GoodCert c) (c : Cert)
    (hc : c ∈ files) (honly : ∀ d ∈ files, certKey d = certKey c → d = c) (fuel : Nat) (ops : List CertStore.Op)
    (hgood : FromCaches GoodCert ops) (hcache : FromCaches (fun d => certKey d = certKey c → d = c) ops) (s : CertStore)
    (hr : CertStore.run fuel (CertStore.init r files) ops = some s) (hd : s.dead = false) (op : Comp)
    (hop : Uri.parseName "/%C1.Operator".toList = some [op]) :
    (Home r op c.name → ∃ s', CertStore.step fuel s (.interest c.name) = some s' ∧ s'.sent = s.sent ++ [c]) ∧
    (PlainKey (certKey c) → Home r op (certKey c) →
      ∃ s', CertStore.step fuel s (.interest (certKey c)) = some s' ∧ s'.sent = s.sent ++ [c]) := by
  obtain ⟨h1, h2⟩ := C77_configured_stays_partial r files hf c hc honly fuel ops hgood hcache s hr
  have key : ∀ n, s.find n = some c → Home r op n → ∃ s', CertStore.step fuel s (.interest n) = some s' ∧ s'.sent = s.sent ++ [c] := by
    intro n hn hh
    obtain ⟨p, hp, hpn⟩ := hh.filter hop
    refine ⟨s.interest n, ?_, interest_found hn (filters_run ops hr (by rw [filters_init]; exact hp)) hpn⟩
    unfold CertStore.step
    dsimp only
    rw [hd]
    rfl
  exact ⟨key _ h1, fun hp => key _ (h2 hp)⟩

open CertWitness in
/-- The configured site certificate, after another router's chain with the same site certificate in it. -/
example : let op := Nbr.operatorTag
    Uri.parseName "/%C1.Operator".toList = some [op] ∧ Home r op site.name ∧ Home r op (certKey site) ∧ PlainKey (certKey site) ∧
    FromCaches GoodCert [.segment good (some (nm ["net", "site", "r2", "KEY", "5"]))] ∧
    FromCaches (fun d => certKey d = certKey site → d = site) [.segment good (some (nm ["net", "site", "r2", "KEY", "5"]))] ∧
    (CertStore.run 5 (CertStore.init r [site]) [.segment good (some (nm ["net", "site", "r2", "KEY", "5"]))]).map (·.dead) = some false := by
  have hcases : ∀ n c, good n = some c → c = router ∨ c = site := by
    intro n c h
    unfold good at h
    split at h
    · cases h; exact Or.inl rfl
    · split at h
      · cases h; exact Or.inr rfl
      · cases h
  refine ⟨by decide +kernel, ?_, ?_, by decide +kernel, ?_, ?_, by decide +kernel⟩
  · have : site.name = r.network ++ r.site ++ [Comp.str "KEY"] ++ nm ["1", "root", "v"] := by decide +kernel
    rw [this]; exact .site _
  · have : certKey site = r.network ++ r.site ++ [Comp.str "KEY"] ++ nm ["1"] := by decide +kernel
    rw [this]; exact .site _
  · intro cache kl h n c hc
    simp only [List.mem_singleton, CertStore.Op.segment.injEq] at h
    obtain ⟨rfl, -⟩ := h
    rcases hcases n c hc with rfl | rfl
    · exact certs_good.2.2
    · exact certs_good.1
  · intro cache kl h n c hc he
    simp only [List.mem_singleton, CertStore.Op.segment.injEq] at h
    obtain ⟨rfl, -⟩ := h
    rcases hcases n c hc with rfl | rfl
    · exact absurd he (by decide +kernel)
    · rfl

namespace CertWitness
/-- the network's certificate, configured -/
def network : Cert := ⟨nm ["net", "KEY", "0", "self", "v"], some (nm ["net", "KEY", "0"]), [3]⟩
end CertWitness

open CertWitness in
/-- C77 fails for configured certificates of any other entity, as the network's: the store holds it and does not listen for
interests for it, so none is answered. -/
theorem C77_violated_elsewhere : let s := CertStore.init r [site, network]
    s.find network.name = some network ∧ s.interest network.name = s ∧ s.interest (certKey network) = s := by
  decide +kernel

/-- C62: what a validated segment does.  If the store does not have the certificate its key locator names, the cache's
chain for it is published (and if that chain has no end, nothing ever happens again); if it has it, nothing changes. -/
theorem C62_segment (cache : Name → Option Cert) (s s' : CertStore) (n : Name) :
    (s.find n = none → ((∃ fuel, CertStore.segment cache fuel s (some n) = some s') ↔
      ∃ l b, Chain cache n l b ∧ s'.certs = (l.foldl CertStore.insert s).certs ∧
        s'.filters = s.filters ++ l.map (fun c => Cert.keyOf c.name) ∧ s'.sent = s.sent ∧ s'.dead = (s.dead || b))) ∧
    ((∃ c, s.find n = some c) → ∀ fuel, CertStore.segment cache fuel s (some n) = some s) := by
  constructor
  · intro h
    rw [← C62_publish cache s s' n]
    unfold CertStore.segment
    dsimp only
    rw [h]
    rfl
  · rintro ⟨c, h⟩ fuel
    unfold CertStore.segment
    dsimp only
    rw [h]
    rfl

/-- C62: what is published is served.  After a validated segment whose signer the store did not have, every certificate of
the chain in the cache is sent in answer to interests for its name, if it is the last one in the chain for its key. -/
theorem C62_published (cache : Name → Option Cert) (s s' : CertStore) (n : Name) (fuel : Nat) (hnone : s.find n = none)
    (hgood : ∀ m c, cache m = some c → GoodCert c) (h : CertStore.segment cache fuel s (some n) = some s')
    (l : List Cert) (b : Bool) (hl : Chain cache n l b) (c : Cert) (hlast : lastFor l (certKey c) = some c) :
    (s'.interest c.name).sent = s'.sent ++ [c] := by
  have hp : CertStore.publish cache fuel s n = some s' := by
    unfold CertStore.segment at h
    dsimp only at h
    rw [hnone] at h
    exact h
  have h1 : s' = s.withChain l b := by
    obtain ⟨l', b', h1, h2⟩ := publish_chain _ _ _ _ _ hp
    have e1 := chain_publish h1 s (l.length + l'.length + 1) (by omega)
    have e2 := chain_publish hl s (l.length + l'.length + 1) (by omega)
    rw [e1] at e2
    injection e2 with e2
    rw [h2, e2]
  have hmem : c ∈ l := List.mem_reverse.1 (List.mem_of_find?_eq_some hlast)
  obtain ⟨m, hm⟩ := CertStore.chain_mem hl c hmem
  have hg : GoodCert c := hgood m c hm
  have hk : s'.findKey (certKey c) = some c := by
    rw [h1]
    show (l.foldl CertStore.insert s).findKey (certKey c) = some c
    rw [findKey_inserts l (fun d hd => by obtain ⟨m, hd⟩ := CertStore.chain_mem hl d hd; exact hgood m d hd), hlast]
    rfl
  have hfind : s'.find c.name = some c := by
    unfold CertStore.find
    rw [IsCertName.valid (key := certKey c) hg]
    show s'.findCert c.name = _
    unfold CertStore.findCert
    rw [(IsCertName.key (key := certKey c) hg).1, hk]
    dsimp only
    rw [if_pos rfl]
  refine interest_found (p := certKey c) hfind ?_ ⟨c.name.drop (c.name.length - 2), List.take_append_drop _ _⟩
  rw [h1]
  refine List.mem_append_right _ (List.mem_map.2 ⟨c, hmem, (IsCertName.key (key := certKey c) hg).1⟩)

open CertWitness in
example : let s := CertStore.init r [site]
    s.find (nm ["net", "site", "r2", "KEY", "5"]) = none ∧ lastFor [router, site] (certKey router) = some router ∧
    (CertStore.segment good 5 s (some (nm ["net", "site", "r2", "KEY", "5"]))).map (fun s' => (s'.interest router.name).sent) = some [router] ∧
    (s.interest router.name).sent = [] := by
  decide +kernel

end Nlsr
