import Verif.Model.CertStore
import Verif.Lemmas.Names
/- C62: the certificate store. -/
namespace Nlsr

/-- A name as ndn-cxx requires of a certificate, in a packet of at most 8800 octets. -/
def IsCertName (n key : Name) : Prop :=
  ∃ identity id issuer version, key = identity ++ [Comp.str "KEY", id] ∧ n = key ++ [issuer, version] ∧ n.length ≤ 8800

/-- The key of a certificate: its name without the last two components. -/
def certKey (c : Cert) : Name := c.name.take (c.name.length - 2)

/-- The last certificate in the list for this key. -/
def lastFor (certs : List Cert) (key : Name) : Option Cert :=
  certs.reverse.find? (fun c => decide (certKey c = key))

/-- A key name that is not also the name of a certificate for another key, as `/KEY/x/KEY/1` would be. -/
def PlainKey (n : Name) : Prop := n.length < 4 ∨ n[n.length - 4]? ≠ some (Comp.str "KEY")

def GoodCert (c : Cert) : Prop := IsCertName c.name (certKey c)

theorem IsCertName.key {n key : Name} (h : IsCertName n key) : Cert.keyOf n = key ∧ n.take (n.length - 2) = key := by
  obtain ⟨i, x, y, z, rfl, rfl, hl⟩ := h
  have e : Name.getPrefix (i ++ [Comp.str "KEY", x] ++ [y, z]) (-((2 : Nat) : Int)) = _ :=
    Name.getPrefix_neg 2 (by omega) (by simp) (by omega)
  have t : List.take ((i ++ [Comp.str "KEY", x] ++ [y, z]).length - 2) (i ++ [Comp.str "KEY", x] ++ [y, z]) =
      i ++ [Comp.str "KEY", x] := by
    rw [List.take_left' (by simp)]
  exact ⟨e.trans t, t⟩

theorem IsCertName.valid {n key : Name} (h : IsCertName n key) : Cert.validName n = true := by
  obtain ⟨i, x, y, z, rfl, rfl, hl⟩ := h
  unfold Cert.validName
  rw [decide_eq_true_eq]
  simp [Name.fromEnd, Nbr.keyComp]

theorem PlainKey.valid {n : Name} (h : PlainKey n) : Cert.validName n = false := by
  unfold Cert.validName
  rw [decide_eq_false_iff_not]
  unfold Name.fromEnd
  split
  · rename_i h4
    rcases h with h | h
    · omega
    · exact h
  · simp

namespace CertStore

theorem find_put (m : List (Name × Cert)) (k n : Name) (c : Cert) :
    ((put m k c).find? (fun p => decide (p.1 = n))).map (·.2) =
      if k = n then some c else (m.find? (fun p => decide (p.1 = n))).map (·.2) := by
  induction m with
  | nil =>
    by_cases h : k = n
    · simp [put, h]
    · simp [put, h]
  | cons p ps ih =>
    unfold put
    by_cases hp : p.1 = k
    · rw [if_pos hp]
      by_cases h : k = n
      · simp [h]
      · rw [if_neg h]
        simp [h, hp]
    · rw [if_neg hp]
      by_cases h : p.1 = n
      · have hk : k ≠ n := by rintro rfl; exact hp h
        rw [if_neg hk]
        simp [h]
      · have e : ∀ l, List.find? (fun q : Name × Cert => decide (q.1 = n)) (p :: l) = List.find? (fun q => decide (q.1 = n)) l := by
          intro l; simp [h]
        rw [e, e, ih]

theorem findKey_insert (s : CertStore) (c : Cert) (n : Name) :
    (s.insert c).findKey n = if c.keyName = n then some c else s.findKey n := find_put _ _ _ _

theorem findKey_inserts (certs : List Cert) (hc : ∀ c ∈ certs, GoodCert c) : ∀ (s : CertStore) (n : Name),
    (certs.foldl insert s).findKey n = (lastFor certs n).or (s.findKey n) := by
  induction certs with
  | nil => intro s n; rfl
  | cons c cs ih =>
    intro s n
    rw [List.foldl_cons, ih (fun x hx => hc x (by simp [hx])), findKey_insert]
    have hk : c.keyName = certKey c := (hc c (by simp)).key.1
    unfold lastFor
    rw [List.reverse_cons, List.find?_append, hk]
    cases List.find? (fun c => decide (certKey c = n)) cs.reverse with
    | some x => rfl
    | none =>
      by_cases h : certKey c = n
      · simp [h]
      · simp [h]

end CertStore
open CertStore

/-- C62, lookup by key name: the certificate inserted last for this key, after any insertions.  Missing: key names that
look like certificate names (`C62_violated_key_name`). -/
theorem C62_find_key_partial (certs : List Cert) (hc : ∀ c ∈ certs, GoodCert c) (key : Name) (hp : PlainKey key) :
    (certs.foldl CertStore.insert {}).find key = lastFor certs key := by
  unfold CertStore.find
  rw [hp.valid]
  show findKey _ key = _
  rw [findKey_inserts certs hc]
  cases lastFor certs key <;> rfl

/-- C62, lookup by certificate name: the certificate inserted last for the key, if that is its name, and otherwise
nothing. -/
theorem C62_find_cert (certs : List Cert) (hc : ∀ c ∈ certs, GoodCert c) (n key : Name) (hn : IsCertName n key) :
    (certs.foldl CertStore.insert {}).find n = (lastFor certs key).filter (fun c => decide (c.name = n)) := by
  unfold CertStore.find
  rw [hn.valid]
  show findCert _ n = _
  unfold findCert
  rw [hn.key.1, findKey_inserts certs hc]
  cases lastFor certs key with
  | none => rfl
  | some c =>
    dsimp only [Option.or, Option.filter]
    by_cases h : c.name = n
    · rw [if_pos h, if_pos (decide_eq_true h)]
    · rw [if_neg h, if_neg (by simp [h])]

/-! ### publishing -/

/-- The certificates of a chain in the cache, from the certificate asked for as `n` to the one that is its own signer or
whose signer the cache does not have; `broken` if the last one names no signer. -/
inductive Chain (cache : Name → Option Cert) : Name → List Cert → Bool → Prop
  | stop {n} : cache n = none → Chain cache n [] false
  | root {n c} : cache n = some c → c.locator = some (Cert.keyOf c.name) → Chain cache n [c] false
  | broken {n c} : cache n = some c → c.locator = none → Chain cache n [c] true
  | next {n c k l b} : cache n = some c → c.locator = some k → k ≠ Cert.keyOf c.name → Chain cache k l b →
      Chain cache n (c :: l) b

namespace CertStore

/-- What publishing a chain does. -/
def withChain (s : CertStore) (l : List Cert) (b : Bool) : CertStore :=
  { certs := (l.foldl insert s).certs, filters := s.filters ++ l.map (fun c => Cert.keyOf c.name), sent := s.sent,
    dead := s.dead || b }

theorem foldl_insert_congr (l : List Cert) : ∀ s t : CertStore, s.certs = t.certs →
    (l.foldl insert s).certs = (l.foldl insert t).certs := by
  induction l with
  | nil => exact fun _ _ h => h
  | cons c l ih =>
    intro s t h
    exact ih _ _ (by simp [insert, h])

theorem withChain_cons (s : CertStore) (c : Cert) (l : List Cert) (b : Bool) :
    ((s.insert c).listen (Cert.keyOf c.name)).withChain l b = s.withChain (c :: l) b := by
  unfold withChain
  have := foldl_insert_congr l ((s.insert c).listen (Cert.keyOf c.name)) (s.insert c) rfl
  rw [List.foldl_cons, this]
  simp [listen, insert]

theorem publish_chain (cache : Name → Option Cert) : ∀ (fuel : Nat) (s s' : CertStore) (n : Name),
    publish cache fuel s n = some s' → ∃ l b, Chain cache n l b ∧ s' = s.withChain l b := by
  intro fuel
  induction fuel with
  | zero => intro s s' n h; simp [publish] at h
  | succ fuel ih =>
    intro s s' n h
    unfold publish at h
    cases hc : cache n with
    | none =>
      rw [hc] at h
      refine ⟨[], false, .stop hc, ?_⟩
      cases h
      simp [withChain]
    | some c =>
      rw [hc] at h
      dsimp only at h
      cases hl : c.locator with
      | none =>
        rw [hl] at h
        refine ⟨[c], true, .broken hc hl, ?_⟩
        cases h
        rw [← withChain_cons]
        simp [withChain]
      | some k =>
        rw [hl] at h
        dsimp only at h
        by_cases hk : c.keyName ≠ k
        · rw [if_pos hk] at h
          obtain ⟨l, b, h1, h2⟩ := ih _ _ _ h
          exact ⟨c :: l, b, .next hc hl (Ne.symm hk) h1, by rw [h2, withChain_cons]⟩
        · rw [if_neg hk] at h
          have hk : c.keyName = k := Decidable.not_not.1 hk
          refine ⟨[c], false, .root hc (by rw [hl, ← hk]; rfl), ?_⟩
          cases h
          rw [← withChain_cons]
          simp [withChain]

theorem chain_publish {cache : Name → Option Cert} {n : Name} {l : List Cert} {b : Bool} (h : Chain cache n l b) :
    ∀ s fuel, l.length < fuel → publish cache fuel s n = some (s.withChain l b) := by
  induction h with
  | @stop n hc =>
    intro s fuel hf
    obtain ⟨f, rfl⟩ : ∃ f, fuel = f + 1 := ⟨fuel - 1, by omega⟩
    unfold publish
    rw [hc]
    simp [withChain]
  | @root n c hc hl =>
    intro s fuel hf
    obtain ⟨f, rfl⟩ : ∃ f, fuel = f + 1 := ⟨fuel - 1, by omega⟩
    unfold publish
    rw [hc]
    dsimp only
    rw [hl]
    dsimp only
    rw [if_neg (fun h => h rfl), ← withChain_cons]
    simp [withChain]
  | @broken n c hc hl =>
    intro s fuel hf
    obtain ⟨f, rfl⟩ : ∃ f, fuel = f + 1 := ⟨fuel - 1, by omega⟩
    unfold publish
    rw [hc]
    dsimp only
    rw [hl]
    dsimp only
    rw [← withChain_cons]
    simp [withChain]
  | @next n c k l b hc hl hk _ ih =>
    intro s fuel hf
    obtain ⟨f, rfl⟩ : ∃ f, fuel = f + 1 := ⟨fuel - 1, by omega⟩
    unfold publish
    rw [hc]
    dsimp only
    rw [hl]
    dsimp only
    rw [if_pos (show c.keyName ≠ k from Ne.symm hk), ih _ f (by simp at hf; omega), withChain_cons]

end CertStore

/-- The name asked for after `m`, if publishing goes on. -/
def signerOf (cache : Name → Option Cert) (m : Name) : Option Name :=
  match cache m with
  | none => none
  | some c => match c.locator with
    | none => none
    | some k => if k = Cert.keyOf c.name then none else some k

/-- The names asked for, one after the other, starting with `n`. -/
def visited (cache : Name → Option Cert) (n : Name) : Nat → Option Name
  | 0 => some n
  | i + 1 => (visited cache n i).bind (signerOf cache)

theorem visited_shift (cache : Name → Option Cert) (n : Name) (i : Nat) :
    visited cache n (i + 1) = (signerOf cache n).bind (fun m => visited cache m i) := by
  induction i with
  | zero =>
    show signerOf cache n = _
    cases signerOf cache n <;> rfl
  | succ i ih =>
    rw [visited, ih, Option.bind_assoc]
    rfl

theorem visited_congr {cache : Name → Option Cert} {n : Name} {i j : Nat} (h : visited cache n i = visited cache n j) (k : Nat) :
    visited cache n (i + k) = visited cache n (j + k) := by
  induction k with
  | zero => exact h
  | succ k ih => rw [← Nat.add_assoc, ← Nat.add_assoc, visited, visited, ih]

theorem visited_none {cache : Name → Option Cert} {n : Name} {i : Nat} (h : visited cache n i = none) (k : Nat) :
    visited cache n (i + k) = none := by
  induction k with
  | zero => exact h
  | succ k ih => rw [← Nat.add_assoc, visited, ih]; rfl

theorem chain_visited {cache : Name → Option Cert} {n : Name} {l : List Cert} {b : Bool} (h : Chain cache n l b) :
    visited cache n (l.length + 1) = none := by
  induction h with
  | stop hc => rw [visited_shift]; unfold signerOf; rw [hc]; rfl
  | root hc hl => rw [visited_shift]; unfold signerOf; rw [hc]; dsimp only; rw [hl]; dsimp only; rw [if_pos rfl]; rfl
  | broken hc hl => rw [visited_shift]; unfold signerOf; rw [hc]; dsimp only; rw [hl]; rfl
  | @next n c k l b hc hl hk _ ih =>
    rw [List.length_cons, visited_shift]
    unfold signerOf
    rw [hc]; dsimp only; rw [hl]; dsimp only; rw [if_neg hk]
    exact ih

theorem visited_chain {cache : Name → Option Cert} : ∀ (i : Nat) {n : Name}, visited cache n i = none → ∃ l b, Chain cache n l b := by
  intro i
  induction i with
  | zero => intro n h; simp [visited] at h
  | succ i ih =>
    intro n h
    rw [visited_shift] at h
    unfold signerOf at h
    cases hc : cache n with
    | none => exact ⟨_, _, .stop hc⟩
    | some c =>
      rw [hc] at h
      dsimp only at h
      cases hl : c.locator with
      | none => exact ⟨_, _, .broken hc hl⟩
      | some k =>
        rw [hl] at h
        dsimp only at h
        by_cases hk : k = Cert.keyOf c.name
        · exact ⟨_, _, .root hc (by rw [hl, hk])⟩
        · rw [if_neg hk] at h
          obtain ⟨l, b, hch⟩ := ih h
          exact ⟨_, _, .next hc hl hk hch⟩

/-- C62: what publishing does when it ends.  It ends in `s'` iff the cache holds a finite chain for the name, and then
every certificate of the chain is inserted and listened for, in order, and nothing else changes. -/
theorem C62_publish (cache : Name → Option Cert) (s s' : CertStore) (n : Name) :
    (∃ fuel, CertStore.publish cache fuel s n = some s') ↔
    ∃ l b, Chain cache n l b ∧ s'.certs = (l.foldl CertStore.insert s).certs ∧
      s'.filters = s.filters ++ l.map (fun c => Cert.keyOf c.name) ∧ s'.sent = s.sent ∧ s'.dead = (s.dead || b) := by
  constructor
  · rintro ⟨fuel, h⟩
    obtain ⟨l, b, h1, rfl⟩ := publish_chain cache fuel s s' n h
    exact ⟨l, b, h1, rfl, rfl, rfl, rfl⟩
  · rintro ⟨l, b, h1, h2, h3, h4, h5⟩
    refine ⟨l.length + 1, ?_⟩
    rw [chain_publish h1 s _ (Nat.lt_succ_self _)]
    cases s'
    simp only at h2 h3 h4 h5
    subst h2 h3 h4 h5
    rfl

/-- C62: publishing ends iff no name is asked for twice, whatever finitely many certificates the cache holds. -/
theorem C62_publish_ends_iff (cache : Name → Option Cert) (L : List Cert) (hL : ∀ n c, cache n = some c → c ∈ L)
    (s : CertStore) (n : Name) :
    (∃ fuel s', CertStore.publish cache fuel s n = some s') ↔
    ∀ i j m, i < j → visited cache n i = some m → visited cache n j ≠ some m := by
  constructor
  · rintro ⟨fuel, s', h⟩ i j m hij hi hj
    obtain ⟨l, b, h1, -⟩ := publish_chain cache fuel s s' n h
    have hz := chain_visited h1
    have hcyc : ∀ k, ∃ x, visited cache n k = some x ∨ k < i := by
      intro k
      induction k using Nat.strongRecOn with
      | ind k ih =>
        rcases Nat.lt_or_ge k i with hk | hk
        · exact ⟨m, Or.inr hk⟩
        · rcases Nat.lt_or_ge k j with hk' | hk'
          · cases hv : visited cache n k with
            | some x => exact ⟨x, Or.inl rfl⟩
            | none =>
              have := visited_none hv (j - k)
              rw [Nat.add_sub_of_le (Nat.le_of_lt hk'), hj] at this
              exact absurd this (by simp)
          · have e := visited_congr (hi.trans hj.symm) (k - j)
            rw [Nat.add_sub_of_le hk'] at e
            rw [← e]
            obtain ⟨x, hx | hx⟩ := ih (i + (k - j)) (by omega)
            · exact ⟨x, Or.inl hx⟩
            · omega
    obtain ⟨x, hx | hx⟩ := hcyc (i + (l.length + 1))
    · have := visited_none hz i
      rw [Nat.add_comm, hx] at this
      exact absurd this (by simp)
    · omega
  · intro h
    suffices ∃ i, visited cache n i = none by
      obtain ⟨i, hi⟩ := this
      obtain ⟨l, b, hc⟩ := visited_chain i hi
      exact ⟨_, _, chain_publish hc s _ (Nat.lt_succ_self _)⟩
    refine Classical.byContradiction (fun hne => ?_)
    have hsome : ∀ i, ∃ m, visited cache n i = some m := by
      intro i
      cases hv : visited cache n i with
      | some m => exact ⟨m, rfl⟩
      | none => exact absurd ⟨i, hv⟩ hne
    let N := (L.map (·.locator)).length
    have hsub : (List.range (N + 1)).map (fun i => visited cache n (i + 1)) ⊆ L.map (·.locator) := by
      intro x hx
      obtain ⟨i, -, rfl⟩ := List.mem_map.1 hx
      obtain ⟨m, hm⟩ := hsome i
      obtain ⟨m', hm'⟩ := hsome (i + 1)
      rw [hm']
      rw [visited, hm] at hm'
      change signerOf cache m = some m' at hm'
      unfold signerOf at hm'
      cases hc : cache m with
      | none => rw [hc] at hm'; exact absurd hm' (by simp)
      | some c =>
        rw [hc] at hm'
        dsimp only at hm'
        cases hl : c.locator with
        | none => rw [hl] at hm'; exact absurd hm' (by simp)
        | some k =>
          rw [hl] at hm'
          dsimp only at hm'
          split at hm'
          · exact absurd hm' (by simp)
          · cases hm'
            exact List.mem_map.2 ⟨c, hL _ _ hc, hl⟩
    have hnd : ((List.range (N + 1)).map (fun i => visited cache n (i + 1))).Nodup := by
      refine List.pairwise_map.2 (List.Pairwise.imp ?_ List.pairwise_lt_range)
      intro i j hij heq
      obtain ⟨m, hm⟩ := hsome (i + 1)
      exact h (i + 1) (j + 1) m (by omega) hm (heq ▸ hm)
    have := List.Nodup.length_le_of_subset hnd hsub
    rw [List.length_map, List.length_range] at this
    exact absurd this (by show ¬ (N + 1 ≤ N); omega)

/-! ### what is sent -/

/-- C62: an interest is answered with at most one certificate, one that is in the store, and whose name is the interest's
name, or extends it by issuer and version. -/
theorem C62_interest (s : CertStore) (n : Name) (hs : ∀ p ∈ s.certs, GoodCert p.2 ∧ p.1 = certKey p.2) :
    (s.interest n).certs = s.certs ∧ ((s.interest n).sent = s.sent ∨
      ∃ c, (s.interest n).sent = s.sent ++ [c] ∧ (∃ k, (k, c) ∈ s.certs) ∧ (c.name = n ∨ ∃ x y, c.name = n ++ [x, y])) := by
  unfold CertStore.interest
  split
  · split
    · exact ⟨rfl, Or.inl rfl⟩
    · rename_i c hc
      refine ⟨rfl, Or.inr ⟨c, rfl, ?_⟩⟩
      have hk : ∀ m, s.findKey m = some c → (m, c) ∈ s.certs := by
        intro m hm
        unfold CertStore.findKey at hm
        obtain ⟨p, hp, rfl⟩ := Option.map_eq_some_iff.1 hm
        have := List.find?_some hp
        rw [decide_eq_true_eq] at this
        subst this
        exact List.mem_of_find?_eq_some hp
      unfold CertStore.find at hc
      split at hc
      · unfold CertStore.findCert at hc
        split at hc
        · exact absurd hc (by simp)
        · rename_i c' hc'
          split at hc
          · rename_i hn
            cases hc
            exact ⟨⟨_, hk _ hc'⟩, Or.inl hn⟩
          · exact absurd hc (by simp)
      · have hm := hk _ hc
        obtain ⟨hg, hkey⟩ := hs _ hm
        refine ⟨⟨_, hm⟩, Or.inr ?_⟩
        obtain ⟨i, x, y, z, h1, h2, h3⟩ := hg
        exact ⟨y, z, by rw [h2]; exact congrArg (· ++ [y, z]) hkey.symm⟩
  · exact ⟨rfl, Or.inl rfl⟩

/-- `P` holds of all certificates that the caches of these operations have. -/
def FromCaches (P : Cert → Prop) (ops : List CertStore.Op) : Prop :=
  ∀ cache kl, CertStore.Op.segment cache kl ∈ ops → ∀ n c, cache n = some c → P c

namespace CertStore

/-- All certificates in the store and all certificates sent satisfy `P`, and entries are under their key. -/
def All (P : Cert → Prop) (s : CertStore) : Prop :=
  (∀ p ∈ s.certs, P p.2 ∧ p.1 = Cert.keyOf p.2.name) ∧ ∀ c ∈ s.sent, P c

theorem mem_put {m : List (Name × Cert)} {k : Name} {c : Cert} {p : Name × Cert} (h : p ∈ put m k c) : p ∈ m ∨ p = (k, c) := by
  induction m with
  | nil => exact Or.inr (by simpa [put] using h)
  | cons q m ih =>
    unfold put at h
    split at h
    · rcases List.mem_cons.1 h with h | h
      · exact Or.inr h
      · exact Or.inl (List.mem_cons_of_mem _ h)
    · rcases List.mem_cons.1 h with h | h
      · exact Or.inl (h ▸ List.mem_cons_self)
      · exact (ih h).imp (List.mem_cons_of_mem _) id

theorem All.insert {P : Cert → Prop} {s : CertStore} (h : s.All P) {c : Cert} (hc : P c) : (s.insert c).All P := by
  refine ⟨fun p hp => ?_, h.2⟩
  rcases mem_put hp with hp | rfl
  · exact h.1 p hp
  · exact ⟨hc, rfl⟩

theorem All.foldl {P : Cert → Prop} (l : List Cert) (hl : ∀ c ∈ l, P c) : ∀ {s : CertStore}, s.All P → (l.foldl CertStore.insert s).All P := by
  induction l with
  | nil => exact fun h => h
  | cons c l ih => exact fun h => ih (fun x hx => hl x (by simp [hx])) (h.insert (hl c (by simp)))

theorem chain_mem {cache : Name → Option Cert} {n : Name} {l : List Cert} {b : Bool} (h : Chain cache n l b) :
    ∀ c ∈ l, ∃ m, cache m = some c := by
  induction h with
  | stop _ => simp
  | root hc _ => intro x hx; rw [List.mem_singleton.1 hx]; exact ⟨_, hc⟩
  | broken hc _ => intro x hx; rw [List.mem_singleton.1 hx]; exact ⟨_, hc⟩
  | next hc _ _ _ ih =>
    intro x hx
    rcases List.mem_cons.1 hx with rfl | hx
    · exact ⟨_, hc⟩
    · exact ih x hx

theorem All.withChain {P : Cert → Prop} {s : CertStore} (h : s.All P) {l : List Cert} (hl : ∀ c ∈ l, P c) (b : Bool) :
    (s.withChain l b).All P := ⟨(All.foldl l hl h).1, h.2⟩

theorem find_mem {s : CertStore} {n : Name} {c : Cert} (h : s.find n = some c) : ∃ k, (k, c) ∈ s.certs := by
  have hk : ∀ m, s.findKey m = some c → (m, c) ∈ s.certs := by
    intro m hm
    unfold CertStore.findKey at hm
    obtain ⟨p, hp, rfl⟩ := Option.map_eq_some_iff.1 hm
    have := List.find?_some hp
    rw [decide_eq_true_eq] at this
    subst this
    exact List.mem_of_find?_eq_some hp
  unfold find at h
  split at h
  · unfold findCert at h
    split at h
    · exact absurd h (by simp)
    · rename_i c' hc'
      split at h
      · cases h; exact ⟨_, hk _ hc'⟩
      · exact absurd h (by simp)
  · exact ⟨_, hk _ h⟩

theorem All.step {P : Cert → Prop} {s s' : CertStore} (h : s.All P) {fuel : Nat} {op : Op} (hop : FromCaches P [op])
    (hs : step fuel s op = some s') : s'.All P := by
  cases op with
  | interest n =>
    unfold CertStore.step at hs
    dsimp only at hs
    split at hs
    · cases hs; exact h
    · cases hs
      unfold interest
      split
      · split
        · exact h
        · rename_i c hc
          obtain ⟨k, hk⟩ := find_mem hc
          refine ⟨h.1, fun x hx => ?_⟩
          rcases List.mem_append.1 hx with hx | hx
          · exact h.2 x hx
          · rw [List.mem_singleton.1 hx]; exact (h.1 _ hk).1
      · exact h
  | segment cache kl =>
    unfold CertStore.step at hs
    dsimp only at hs
    split at hs
    · cases hs; exact h
    · unfold segment at hs
      split at hs
      · cases hs; exact h
      · split at hs
        · obtain ⟨l, b, h1, rfl⟩ := publish_chain _ _ _ _ _ hs
          refine h.withChain (fun c hc => ?_) b
          obtain ⟨m, hm⟩ := chain_mem h1 c hc
          exact hop cache _ List.mem_cons_self m c hm
        · cases hs; exact h

theorem All.run {P : Cert → Prop} {fuel : Nat} : ∀ (ops : List Op) {s s' : CertStore}, s.All P → FromCaches P ops →
    run fuel s ops = some s' → s'.All P := by
  intro ops
  induction ops with
  | nil => intro s s' h _ hr; cases hr; exact h
  | cons op ops ih =>
    intro s s' h hops hr
    unfold CertStore.run at hr
    split at hr
    · exact absurd hr (by simp)
    · rename_i s1 hs1
      refine ih (h.step (fun cache kl hm => ?_) hs1) (fun cache kl hm => hops cache kl (by simp [hm])) hr
      exact hops cache kl (by rw [List.mem_singleton.1 hm]; simp)

theorem listen_foldl (l : List Name) : ∀ s : CertStore, (l.foldl listen s).certs = s.certs ∧ (l.foldl listen s).sent = s.sent ∧
    (l.foldl listen s).dead = s.dead := by
  induction l with
  | nil => exact fun _ => ⟨rfl, rfl, rfl⟩
  | cons n l ih => exact fun s => ih (s.listen n)

theorem sent_foldl (l : List Cert) : ∀ s : CertStore, (l.foldl insert s).sent = s.sent := by
  induction l with
  | nil => exact fun _ => rfl
  | cons c l ih => exact fun s => ih (s.insert c)

theorem All.init {P : Cert → Prop} (r : RouterConf) (files : List Cert) (hf : ∀ c ∈ files, P c) : (init r files).All P := by
  unfold CertStore.init
  obtain ⟨h1, h2, -⟩ := listen_foldl (keyPrefixes r) (files.foldl CertStore.insert {})
  have := All.foldl (P := P) files hf (s := {}) ⟨by simp, by simp⟩
  exact ⟨by rw [h1]; exact this.1, by rw [h2]; exact this.2⟩

end CertStore

/-- C62: whatever happens, every certificate sent is a configured one or was in the validator's cache. -/
theorem C62_sent (r : RouterConf) (files : List Cert) (fuel : Nat) (ops : List CertStore.Op) (s : CertStore)
    (hr : CertStore.run fuel (CertStore.init r files) ops = some s) :
    ∀ c ∈ s.sent, c ∈ files ∨ ∃ cache kl n, CertStore.Op.segment cache kl ∈ ops ∧ cache n = some c := by
  refine (All.run (P := fun c => c ∈ files ∨ ∃ cache kl n, CertStore.Op.segment cache kl ∈ ops ∧ cache n = some c) ops
    (All.init r files (fun c hc => Or.inl hc)) ?_ hr).2
  exact fun cache kl hm n c hc => Or.inr ⟨cache, kl, n, hm, hc⟩

/-- The hypothesis of `C62_interest` in every run. -/
theorem C62_interest_run (r : RouterConf) (files : List Cert) (hf : ∀ c ∈ files, GoodCert c) (fuel : Nat)
    (ops : List CertStore.Op) (hops : FromCaches GoodCert ops) (s : CertStore)
    (hr : CertStore.run fuel (CertStore.init r files) ops = some s) (n : Name) :
    (s.interest n).sent = s.sent ∨ ∃ c, (s.interest n).sent = s.sent ++ [c] ∧
      (c ∈ files ∨ ∃ cache kl n, CertStore.Op.segment cache kl ∈ ops ∧ cache n = some c) ∧
      (c.name = n ∨ ∃ x y, c.name = n ++ [x, y]) := by
  have ha := All.run (P := fun c => GoodCert c ∧ (c ∈ files ∨ ∃ cache kl n, CertStore.Op.segment cache kl ∈ ops ∧ cache n = some c)) ops
    (All.init r files (fun c hc => ⟨hf c hc, Or.inl hc⟩)) (fun cache kl hm n c hc => ⟨hops cache kl hm n c hc, Or.inr ⟨cache, kl, n, hm, hc⟩⟩) hr
  have hs : ∀ p ∈ s.certs, GoodCert p.2 ∧ p.1 = certKey p.2 := fun p hp => ⟨(ha.1 p hp).1.1, by rw [(ha.1 p hp).2]; exact (ha.1 p hp).1.1.key.1⟩
  rcases (C62_interest s n hs).2 with h | ⟨c, h1, ⟨k, h2⟩, h3⟩
  · exact Or.inl h
  · exact Or.inr ⟨c, h1, (ha.1 _ h2).1.2, h3⟩

/-! ### C77 -/

/-- C77, as long as the validator's cache never has another certificate for the same key: a configured certificate, the
only one configured for its key, is found by key name and by certificate name after any run.  Missing: other certificates
for the key in the cache (`C77_violated_replaced`). -/
theorem C77_configured_stays_partial (r : RouterConf) (files : List Cert) (hf : ∀ c ∈ files, GoodCert c) (c : Cert)
    (hc : c ∈ files) (honly : ∀ d ∈ files, certKey d = certKey c → d = c) (fuel : Nat) (ops : List CertStore.Op)
    (hgood : FromCaches GoodCert ops) (hcache : FromCaches (fun d => certKey d = certKey c → d = c) ops) (s : CertStore)
    (hr : CertStore.run fuel (CertStore.init r files) ops = some s) :
    s.find c.name = some c ∧ (PlainKey (certKey c) → s.find (certKey c) = some c) := by
  -- an entry for the key, once there, is `c` and stays
  have key : ∀ (ops : List CertStore.Op) (s s' : CertStore), FromCaches GoodCert ops →
      FromCaches (fun d => certKey d = certKey c → d = c) ops → s.findKey (certKey c) = some c →
      CertStore.run fuel s ops = some s' → s'.findKey (certKey c) = some c := by
    intro ops
    induction ops with
    | nil => intro s s' _ _ h hr; cases hr; exact h
    | cons op ops ih =>
      intro s s' hg hch h hr
      unfold CertStore.run at hr
      split at hr
      · exact absurd hr (by simp)
      · rename_i s1 hs1
        refine ih s1 s' (fun cache kl hm => hg cache kl (by simp [hm])) (fun cache kl hm => hch cache kl (by simp [hm])) ?_ hr
        cases op with
        | interest n =>
          unfold CertStore.step at hs1
          dsimp only at hs1
          split at hs1
          · cases hs1; exact h
          · cases hs1
            unfold CertStore.interest
            split
            · split <;> exact h
            · exact h
        | segment cache kl =>
          unfold CertStore.step at hs1
          dsimp only at hs1
          split at hs1
          · cases hs1; exact h
          · unfold CertStore.segment at hs1
            split at hs1
            · cases hs1; exact h
            · split at hs1
              · obtain ⟨l, b, h1, rfl⟩ := publish_chain _ _ _ _ _ hs1
                show (l.foldl CertStore.insert s).findKey (certKey c) = some c
                have hm := CertStore.chain_mem h1
                rw [findKey_inserts l (fun d hd => by
                  obtain ⟨m, hd⟩ := hm d hd
                  exact hg cache _ List.mem_cons_self m d hd), h]
                cases hlf : lastFor l (certKey c) with
                | none => rfl
                | some d =>
                  have hd1 := List.mem_of_find?_eq_some hlf
                  have hd2 := List.find?_some hlf
                  rw [decide_eq_true_eq] at hd2
                  obtain ⟨m, hd⟩ := hm d (List.mem_reverse.1 hd1)
                  have := hch cache _ List.mem_cons_self m d hd hd2
                  rw [this]; rfl
              · cases hs1; exact h
  have hinit : (CertStore.init r files).findKey (certKey c) = some c := by
    have e : (CertStore.init r files).findKey (certKey c) = (files.foldl CertStore.insert {}).findKey (certKey c) := by
      unfold CertStore.init CertStore.findKey
      rw [(listen_foldl _ _).1]
    rw [e, findKey_inserts files hf]
    have : lastFor files (certKey c) = some c := by
      cases hlf : lastFor files (certKey c) with
      | none =>
        have := List.find?_eq_none.1 hlf c (List.mem_reverse.2 hc)
        exact absurd (decide_eq_true rfl) this
      | some d =>
        have hd1 := List.mem_of_find?_eq_some hlf
        have hd2 := List.find?_some hlf
        rw [decide_eq_true_eq] at hd2
        rw [honly d (List.mem_reverse.1 hd1) hd2]
    rw [this]; rfl
  have hfin := key ops _ s hgood hcache hinit hr
  have hcn : IsCertName c.name (certKey c) := hf c hc
  constructor
  · unfold CertStore.find
    rw [hcn.valid]
    show s.findCert c.name = _
    unfold CertStore.findCert
    rw [hcn.key.1, hfin]
    dsimp only
    rw [if_pos rfl]
  · intro hp
    unfold CertStore.find
    rw [hp.valid]
    exact hfin

/-! ### examples and counterexamples -/

namespace CertWitness
def r : RouterConf := ⟨nm ["net"], nm ["site"], nm ["r1"]⟩
/-- the site's certificate, configured -/
def site : Cert := ⟨nm ["net", "site", "KEY", "1", "root", "v"], some (nm ["net", "KEY", "0"]), [1]⟩
/-- another one for the same key, which anyone could have sent -/
def fake : Cert := ⟨nm ["net", "site", "KEY", "1", "evil", "v"], some (nm ["net", "KEY", "0"]), [6]⟩
/-- another router's certificate, signed with the site's key -/
def router : Cert := ⟨nm ["net", "site", "r2", "KEY", "5", "site", "v"], some (nm ["net", "site", "KEY", "1"]), [2]⟩
def good : Name → Option Cert := fun n =>
  if n = nm ["net", "site", "r2", "KEY", "5"] then some router else if n = nm ["net", "site", "KEY", "1"] then some site else none
def bad : Name → Option Cert := fun n =>
  if n = nm ["net", "site", "r2", "KEY", "5"] then some router else if n = nm ["net", "site", "KEY", "1"] then some fake else none
/-- two certificates, each signed with the other's key -/
def loopA : Cert := ⟨nm ["a", "KEY", "1", "b", "v"], some (nm ["b", "KEY", "1"]), []⟩
def loopB : Cert := ⟨nm ["b", "KEY", "1", "a", "v"], some (nm ["a", "KEY", "1"]), []⟩
def loop : Name → Option Cert := fun n =>
  if n = nm ["a", "KEY", "1"] then some loopA else if n = nm ["b", "KEY", "1"] then some loopB else none
/-- a self-signed certificate that names itself, and not its key, as its signer -/
def self : Cert := ⟨nm ["a", "KEY", "1", "self", "v"], some (nm ["a", "KEY", "1", "self", "v"]), []⟩
end CertWitness

open CertWitness in
theorem certs_good : GoodCert site ∧ GoodCert fake ∧ GoodCert router :=
  ⟨⟨nm ["net", "site"], Comp.str "1", Comp.str "root", Comp.str "v", by decide +kernel⟩,
   ⟨nm ["net", "site"], Comp.str "1", Comp.str "evil", Comp.str "v", by decide +kernel⟩,
   ⟨nm ["net", "site", "r2"], Comp.str "5", Comp.str "site", Comp.str "v", by decide +kernel⟩⟩

instance (n : Name) : Decidable (PlainKey n) := by unfold PlainKey; infer_instance

open CertWitness in
/-- Non-trivial lookups, a chain of two certificates, and interests for both kinds of names. -/
example : PlainKey (certKey site) ∧
    lastFor [site, router, fake] (nm ["net", "site", "KEY", "1"]) = some fake ∧
    CertStore.find ([site, router, fake].foldl CertStore.insert {}) site.name = none ∧
    ((CertStore.run 5 (CertStore.init r [site]) [.segment good (some (nm ["net", "site", "r2", "KEY", "5"])),
      .interest (nm ["net", "site", "r2", "KEY", "5"]), .interest site.name, .interest fake.name]).map (·.sent)) = some [router, site] := by
  decide +kernel

open CertWitness in
example : Chain good (nm ["net", "site", "r2", "KEY", "5"]) [router, site] false :=
  .next (k := nm ["net", "site", "KEY", "1"]) (by decide +kernel) (by decide +kernel) (by decide +kernel)
    (.next (k := nm ["net", "KEY", "0"]) (by decide +kernel) (by decide +kernel) (by decide +kernel) (.stop (by decide +kernel)))

open CertWitness in
/-- C77 fails: on the way up another router's chain, the configured certificate is replaced by whatever the validator's
cache of unverified certificates has for the key, and is not served any more. -/
theorem C77_violated_replaced :
    ((CertStore.run 5 (CertStore.init r [site]) [.segment bad (some (nm ["net", "site", "r2", "KEY", "5"]))]).map
      (fun s => (s.find site.name, s.find (certKey site)))) = some (none, some fake) := by
  decide +kernel

open CertWitness in
/-- C62 fails: for two certificates signed with each other's key, publishing does not end, however many nested calls
there are. -/
theorem C62_violated_loop (fuel : Nat) : ∀ s : CertStore, CertStore.publish loop fuel s (nm ["a", "KEY", "1"]) = none := by
  suffices h : ∀ s : CertStore, CertStore.publish loop fuel s (nm ["a", "KEY", "1"]) = none ∧
      CertStore.publish loop fuel s (nm ["b", "KEY", "1"]) = none from fun s => (h s).1
  induction fuel with
  | zero => exact fun s => ⟨rfl, rfl⟩
  | succ f ih =>
    intro s
    have h1 : loop (nm ["a", "KEY", "1"]) = some loopA := by decide +kernel
    have h2 : loop (nm ["b", "KEY", "1"]) = some loopB := by decide +kernel
    have l1 : loopA.locator = some (nm ["b", "KEY", "1"]) := rfl
    have l2 : loopB.locator = some (nm ["a", "KEY", "1"]) := rfl
    constructor
    · unfold CertStore.publish
      rw [h1]; dsimp only; rw [l1]; dsimp only
      rw [if_pos (by decide +kernel)]
      exact (ih _).2
    · unfold CertStore.publish
      rw [h2]; dsimp only; rw [l2]; dsimp only
      rw [if_pos (by decide +kernel)]
      exact (ih _).1

open CertWitness in
/-- C62 fails: nor does it end for a self-signed certificate that gives its own name, not its key's, as its signer, in a
cache that finds it by either name. -/
theorem C62_violated_self (cache : Name → Option Cert) (h1 : cache (nm ["a", "KEY", "1"]) = some self)
    (h2 : cache self.name = some self) (fuel : Nat) : ∀ s : CertStore, CertStore.publish cache fuel s (nm ["a", "KEY", "1"]) = none := by
  suffices h : ∀ (fuel : Nat) (s : CertStore), CertStore.publish cache fuel s self.name = none by
    intro s
    cases fuel with
    | zero => rfl
    | succ f =>
      unfold CertStore.publish
      rw [h1]; dsimp only
      rw [show self.locator = some self.name from rfl]; dsimp only
      rw [if_pos (by decide +kernel)]
      exact h f _
  intro f
  induction f with
  | zero => exact fun _ => rfl
  | succ f ih =>
    intro s
    unfold CertStore.publish
    rw [h2]; dsimp only
    rw [show self.locator = some self.name from rfl]; dsimp only
    rw [if_pos (by decide +kernel)]
    exact ih _

/-- C62 fails: a certificate without a key locator name stops the daemon. -/
theorem C62_violated_locator (cache : Name → Option Cert) (n : Name) (c : Cert) (h : cache n = some c) (hl : c.locator = none)
    (s : CertStore) (fuel : Nat) : ∃ s', CertStore.publish cache (fuel + 1) s n = some s' ∧ s'.dead = true := by
  unfold CertStore.publish
  rw [h]; dsimp only; rw [hl]
  exact ⟨_, rfl, rfl⟩

/-- C62 fails: a key whose name looks like a certificate's is not found, though its certificate was inserted. -/
theorem C62_violated_key_name :
    let c : Cert := ⟨nm ["KEY", "x", "KEY", "1", "root", "v"], none, []⟩
    certKey c = nm ["KEY", "x", "KEY", "1"] ∧ CertStore.find (CertStore.insert {} c) (certKey c) = none ∧
    CertStore.find (CertStore.insert {} c) c.name = some c := by
  decide +kernel

end Nlsr
