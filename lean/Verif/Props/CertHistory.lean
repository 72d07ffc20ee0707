import Verif.Props.CertStore
/- C62 over histories: what the certificate store has, and has sent, after anything that can happen to it. -/
namespace Nlsr
open CertStore

/-- What a store finds that was given these certificates one after the other (`C62_find_key_partial`, `C62_find_cert`). -/
def lookIn (l : List Cert) (n : Name) : Option Cert := (l.foldl CertStore.insert {}).find n

/-- Interests for this name come to the store: it lies under one of the router's own key prefixes or under the key of a
certificate that was fetched. -/
def Heard (r : RouterConf) (fetched : List Cert) (n : Name) : Prop :=
  (∃ p ∈ keyPrefixes r, p <+: n) ∨ ∃ c ∈ fetched, Cert.keyOf c.name <+: n

/-- The history of a store with certificates `files` that has fetched `f`: what it has fetched in the end, what it sends, and
whether an exception ends it. -/
inductive Tells (r : RouterConf) (files : List Cert) : List Cert → List CertStore.Op → List Cert → List Cert → Bool → Prop
  | nil {f} : Tells r files f [] f [] false
  /-- an interest that is answered -/
  | answer {f n c ops g out b} : Heard r f n → lookIn (files ++ f) n = some c → Tells r files f ops g out b →
      Tells r files f (.interest n :: ops) g (c :: out) b
  /-- one that is not -/
  | silent {f n ops g out b} : ¬ Heard r f n ∨ lookIn (files ++ f) n = none → Tells r files f ops g out b →
      Tells r files f (.interest n :: ops) g out b
  /-- a segment without a key locator name -/
  | bare {f cache ops g out b} : Tells r files f ops g out b → Tells r files f (.segment cache none :: ops) g out b
  /-- a segment whose signer's certificate is there -/
  | known {f cache n ops g out b} : (lookIn (files ++ f) n).isSome = true → Tells r files f ops g out b →
      Tells r files f (.segment cache (some n) :: ops) g out b
  /-- a segment whose signer's certificates are in the cache -/
  | fetch {f cache n l ops g out b} : lookIn (files ++ f) n = none → Chain cache n l false → Tells r files (f ++ l) ops g out b →
      Tells r files f (.segment cache (some n) :: ops) g out b
  /-- one whose chain ends with a certificate that names no signer: nothing happens afterwards -/
  | fails {f cache n l ops} : lookIn (files ++ f) n = none → Chain cache n l true →
      Tells r files f (.segment cache (some n) :: ops) (f ++ l) [] true

namespace CertStore

theorem run_dead (fuel : Nat) : ∀ (ops : List Op) (s : CertStore), s.dead = true → run fuel s ops = some s
  | [], s, _ => rfl
  | op :: ops, s, h => by
    have : step fuel s op = some s := by cases op <;> (unfold step; dsimp only; rw [if_pos h])
    unfold run
    rw [this]
    exact run_dead fuel ops s h

theorem find_congr {s t : CertStore} (h : s.certs = t.certs) (n : Name) : s.find n = t.find n := by
  unfold find findCert findKey
  rw [h]

/-- The store is that of `files` and `f`. -/
structure Is (r : RouterConf) (files f : List Cert) (s : CertStore) : Prop where
  certs : s.certs = ((files ++ f).foldl insert {}).certs
  heard : ∀ n, s.filters.any (fun p => Name.isPrefixOf p n) = true ↔ Heard r f n

theorem listen_filters (l : List Name) : ∀ s : CertStore, (l.foldl listen s).filters = s.filters ++ l := by
  induction l with
  | nil => exact fun s => (List.append_nil _).symm
  | cons n l ih => intro s; rw [List.foldl_cons, ih]; simp [listen]

theorem insert_filters (l : List Cert) : ∀ s : CertStore, (l.foldl insert s).filters = s.filters ∧ (l.foldl insert s).sent = s.sent ∧
    (l.foldl insert s).dead = s.dead := by
  induction l with
  | nil => exact fun s => ⟨rfl, rfl, rfl⟩
  | cons n l ih => intro s; rw [List.foldl_cons]; exact ih _

theorem Is.init (r : RouterConf) (files : List Cert) : Is r files [] (init r files) := by
  refine ⟨?_, fun n => ?_⟩
  · rw [List.append_nil]; exact (listen_foldl _ _).1
  · unfold CertStore.init
    rw [listen_filters, (insert_filters files {}).1]
    simp [Heard, Name.isPrefixOf]

theorem Is.find {r : RouterConf} {files f : List Cert} {s : CertStore} (h : Is r files f s) (n : Name) : s.find n = lookIn (files ++ f) n :=
  find_congr h.certs n

theorem Is.chain {r : RouterConf} {files f : List Cert} {s : CertStore} (h : Is r files f s) (l : List Cert) (b : Bool) :
    Is r files (f ++ l) (s.withChain l b) := by
  refine ⟨?_, fun n => ?_⟩
  · show (l.foldl insert s).certs = _
    rw [← List.append_assoc, List.foldl_append]
    exact foldl_insert_congr l _ _ h.certs
  · have := h.heard n
    unfold withChain
    dsimp only
    rw [List.any_append, Bool.or_eq_true, this, List.any_eq_true]
    unfold Heard
    constructor
    · rintro ((hx | ⟨c, hc, hp⟩) | ⟨p, hp, hx⟩)
      · exact Or.inl hx
      · exact Or.inr ⟨c, List.mem_append_left _ hc, hp⟩
      · obtain ⟨c, hc, rfl⟩ := List.mem_map.1 hp
        exact Or.inr ⟨c, List.mem_append_right _ hc, List.isPrefixOf_iff_prefix.1 hx⟩
    · rintro (hx | ⟨c, hc, hp⟩)
      · exact Or.inl (Or.inl hx)
      · rcases List.mem_append.1 hc with hc | hc
        · exact Or.inl (Or.inr ⟨c, hc, hp⟩)
        · exact Or.inr ⟨_, List.mem_map_of_mem hc, List.isPrefixOf_iff_prefix.2 hp⟩

theorem run_tells (r : RouterConf) (files : List Cert) (fuel : Nat) : ∀ (ops : List Op) (f : List Cert) (s s' : CertStore),
    Is r files f s → s.dead = false → run fuel s ops = some s' →
    ∃ g out, Tells r files f ops g out s'.dead ∧ Is r files g s' ∧ s'.sent = s.sent ++ out := by
  intro ops
  induction ops with
  | nil =>
    intro f s s' hi hd h
    injection h with h
    subst h
    exact ⟨f, [], hd ▸ .nil, hi, (List.append_nil _).symm⟩
  | cons op ops ih =>
    intro f s s' hi hd h
    unfold run at h
    cases op with
    | interest n =>
      have hst : step fuel s (.interest n) = some (s.interest n) := by
        unfold step; dsimp only; rw [if_neg (by rw [hd]; decide)]
      rw [hst] at h
      dsimp only at h
      have hf := hi.find n
      have hh := hi.heard n
      unfold interest at h
      by_cases ha : s.filters.any (fun p => Name.isPrefixOf p n) = true
      · rw [if_pos ha] at h
        cases hn : s.find n with
        | none =>
          rw [hn] at h
          obtain ⟨g, out, h1, h2, h3⟩ := ih f s s' hi hd h
          exact ⟨g, out, .silent (Or.inr (by rw [← hf, hn])) h1, h2, h3⟩
        | some c =>
          rw [hn] at h
          obtain ⟨g, out, h1, h2, h3⟩ := ih f { s with sent := s.sent ++ [c] } s' ⟨hi.certs, hi.heard⟩ hd h
          exact ⟨g, c :: out, .answer (hh.1 ha) (by rw [← hf, hn]) h1, h2, by rw [h3]; simp⟩
      · rw [if_neg ha] at h
        obtain ⟨g, out, h1, h2, h3⟩ := ih f s s' hi hd h
        exact ⟨g, out, .silent (Or.inl (fun hc => ha (hh.2 hc))) h1, h2, h3⟩
    | segment cache kl =>
      have hst : step fuel s (.segment cache kl) = s.segment cache fuel kl := by
        unfold step; dsimp only; rw [if_neg (by rw [hd]; decide)]
      rw [hst] at h
      cases kl with
      | none =>
        obtain ⟨g, out, h1, h2, h3⟩ := ih f s s' hi hd h
        exact ⟨g, out, .bare h1, h2, h3⟩
      | some n =>
        have hf := hi.find n
        unfold segment at h
        dsimp only at h
        by_cases hn : (s.find n).isNone = true
        · rw [if_pos hn] at h
          have hl : lookIn (files ++ f) n = none := by rw [← hf]; exact Option.isNone_iff_eq_none.1 hn
          cases hp : publish cache fuel s n with
          | none => rw [hp] at h; cases h
          | some s1 =>
            rw [hp] at h
            dsimp only at h
            obtain ⟨l, b, hc, rfl⟩ := publish_chain cache fuel s s1 n hp
            have hi1 := hi.chain l b
            cases b with
            | false =>
              obtain ⟨g, out, h1, h2, h3⟩ := ih (f ++ l) _ s' hi1 (by simp [withChain, hd]) h
              exact ⟨g, out, .fetch hl hc h1, h2, h3⟩
            | true =>
              have hdead : (s.withChain l true).dead = true := by simp [withChain]
              rw [run_dead fuel ops _ hdead] at h
              injection h with h
              subst h
              exact ⟨f ++ l, [], by rw [hdead]; exact .fails hl hc, hi1, (List.append_nil _).symm⟩
        · rw [if_neg hn] at h
          obtain ⟨g, out, h1, h2, h3⟩ := ih f s s' hi hd h
          refine ⟨g, out, .known ?_ h1, h2, h3⟩
          rw [← hf]
          cases hx : s.find n with
          | none => rw [hx] at hn; exact absurd rfl hn
          | some _ => rfl

end CertStore

/-- **C62** over histories: after any interests and segments, the store finds exactly what the configured certificates and the
chains fetched since give, in their order; it has sent exactly the certificates found for the interests heard, in their
order; and it has ended exactly if a chain without a signer's name was fetched, after which nothing is done. -/
theorem C62_history (r : RouterConf) (files : List Cert) (fuel : Nat) (ops : List CertStore.Op) (s : CertStore)
    (h : CertStore.run fuel (CertStore.init r files) ops = some s) :
    ∃ g, Tells r files [] ops g s.sent s.dead ∧ ∀ n, s.find n = lookIn (files ++ g) n := by
  have hd : (CertStore.init r files).dead = false := by
    unfold CertStore.init
    rw [(listen_foldl _ _).2.2, (insert_filters files {}).2.2]
  have hs : (CertStore.init r files).sent = [] := by
    unfold CertStore.init
    rw [(listen_foldl _ _).2.1, (insert_filters files {}).2.1]
  obtain ⟨g, out, h1, h2, h3⟩ := run_tells r files fuel ops [] _ s (Is.init r files) hd h
  rw [hs, List.nil_append] at h3
  exact ⟨g, h3 ▸ h1, h2.find⟩

open CertWitness in
/-- A case: a chain of two is fetched and served; one that names no signer ends the daemon, and an interest after it gets
no answer. -/
example :
    let lost : Cert := ⟨nm ["a", "KEY", "1", "x", "v"], none, []⟩
    (CertStore.run 5 (CertStore.init r []) [.interest site.name, .segment good (some (nm ["net", "site", "r2", "KEY", "5"])),
      .interest site.name, .segment (fun n => if n = nm ["a", "KEY", "1"] then some lost else none) (some (nm ["a", "KEY", "1"])),
      .interest lost.name]).map (fun s => (s.sent, s.dead)) = some ([site], true) := by
  decide +kernel

end Nlsr
