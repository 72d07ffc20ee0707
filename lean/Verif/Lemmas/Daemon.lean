import Verif.Model.Daemon
import Verif.Lemmas.RouterInv
/- Which filters of the daemon fit the same names. -/
namespace Nlsr

/-- One is a prefix of the other. -/
def Cmp (a b : Name) : Prop := a <+: b ∨ b <+: a

instance (a b : Name) : Decidable (Cmp a b) := by unfold Cmp; infer_instance

namespace Cmp

theorem symm {a b : Name} (h : Cmp a b) : Cmp b a := Or.symm h

theorem of {a b n : Name} (ha : a <+: n) (hb : b <+: n) : Cmp a b := List.prefix_or_prefix_of_prefix ha hb

theorem app {p a b : Name} (h : Cmp (p ++ a) (p ++ b)) : Cmp a b := by
  unfold Cmp at *
  rwa [List.prefix_append_right_inj, List.prefix_append_right_inj] at h

theorem head {a b : Name} (h : Cmp a b) (ha : a ≠ []) (hb : b ≠ []) : a.head? = b.head? := by
  cases a with
  | nil => exact absurd rfl ha
  | cons x a =>
    cases b with
    | nil => exact absurd rfl hb
    | cons y b =>
      rcases h with ⟨t, h⟩ | ⟨t, h⟩
      · exact congrArg some (List.cons.inj h).1
      · exact congrArg some (List.cons.inj h).1.symm

theorem tail {x y : Comp} {a b : Name} (h : Cmp (x :: a) (y :: b)) : Cmp a b := by
  obtain rfl : x = y := by simpa using h.head (by simp) (by simp)
  exact Cmp.app (p := [x]) h

/-- A name that has a component which the other has not cannot be a prefix of it. -/
theorem lacks {k f : Name} {x : Comp} (h : Cmp k f) (hk : x ∈ k) (hf : x ∉ f) : f <+: k := by
  rcases h with h | h
  · exact absurd (h.subset hk) hf
  · exact h

end Cmp

namespace Daemon

/-- Names as operators choose them. -/
structure Plain (c : DConf) : Prop where
  hop : c.r.lsdb.router.head? ≠ some (Comp.str "localhop")
  host : c.r.lsdb.router.head? ≠ some (Comp.str "localhost")
  nlsr : (c.r.lsdb.names.site ++ c.r.lsdb.names.router).head? ≠ some (Comp.str "nlsr")
  key : Comp.str "KEY" ∉ c.r.lsdb.router
  op : c.r.lsdb.names.router.head? ≠ some Nbr.operatorTag
  sync : ∃ v : Comp, v.typ = 54 ∧
    (c.r.syncPrefix = Comp.str "localhop" :: c.r.lsdb.names.network ++ [Comp.str "nlsr", Comp.str "sync", v] ∨
     c.r.syncPrefix = c.r.lsdb.names.network ++ [Comp.str "nlsr", Comp.str "sync", v])

/-- The prefix and the relative name of the parts below the router's name and `/localhost/nlsr`. -/
def below (c : DConf) : Part → Option (Name × Name)
  | .hello => some (c.r.lsdb.router ++ [Comp.str "nlsr"], [Comp.str "INFO"])
  | .command t h => some (t, h.rel)
  | .dataset t d => some (t, d.rel)
  | _ => none

theorem tops_mem {e : Access.Env} {t : Name} (h : t ∈ Access.tops e) :
    t = e.router ++ [Comp.str "nlsr"] ∨ t = nm ["localhost", "nlsr"] := by
  unfold Access.tops at h
  dsimp only at h
  split at h
  · exact Or.inl (List.mem_singleton.1 h)
  · simpa using h

/-- What the fixed filters are. -/
theorem mem_fixed {c : DConf} {f : Name} {p : Part} (h : (f, p) ∈ fixed c) :
    (p = .lsdb ∧ f = c.r.lsdb.names.lsaPrefix) ∨ (p = .sync ∧ f = c.r.syncPrefix) ∨
    (∃ t rel, below c p = some (t, rel) ∧ f = t ++ rel ∧
      (t = c.r.lsdb.router ++ [Comp.str "nlsr"] ∨ t = nm ["localhost", "nlsr"]) ∧
      (p = .hello ∨ (∃ k ∈ Access.handlers, p = .command t k) ∨ ∃ d, p = .dataset t d)) := by
  unfold fixed at h
  rcases List.mem_append.1 h with h | h
  · simp only [List.mem_cons, List.not_mem_nil, or_false, Prod.mk.injEq] at h
    rcases h with ⟨rfl, rfl⟩ | ⟨rfl, rfl⟩ | ⟨rfl, rfl⟩
    · exact Or.inl ⟨rfl, rfl⟩
    · exact Or.inr (Or.inl ⟨rfl, rfl⟩)
    · refine Or.inr (Or.inr ⟨_, _, rfl, ?_, Or.inl rfl, Or.inl rfl⟩)
      rw [List.append_assoc]
      rfl
  · obtain ⟨t, ht, h⟩ := List.mem_flatMap.1 h
    refine Or.inr (Or.inr ?_)
    rcases List.mem_append.1 h with h | h
    · obtain ⟨k, hk, e⟩ := List.mem_map.1 h
      cases e
      exact ⟨_, _, rfl, rfl, tops_mem ht, Or.inr (Or.inl ⟨k, hk, rfl⟩)⟩
    · obtain ⟨d, -, e⟩ := List.mem_map.1 h
      cases e
      exact ⟨_, _, rfl, rfl, tops_mem ht, Or.inr (Or.inr ⟨d, rfl⟩)⟩

theorem rel_ne_nil : ∀ {c : DConf} {p : Part} {t rel : Name}, below c p = some (t, rel) →
    (p = .hello ∨ (∃ k ∈ Access.handlers, p = .command t k) ∨ ∃ d, p = .dataset t d) →
    ∃ x r, rel = x :: r ∧ x ≠ Comp.str "sync" ∧ x ≠ Comp.str "KEY" ∧ Comp.str "KEY" ∉ r := by
  intro c p t rel hb h
  rcases h with rfl | ⟨k, hk, rfl⟩ | ⟨d, rfl⟩
  · cases hb; exact ⟨_, _, rfl, by decide +kernel, by decide +kernel, by decide +kernel⟩
  · cases hb
    have : ∀ k ∈ Access.handlers, ∃ x ∈ k.rel.head?, x ≠ Comp.str "sync" ∧ x ≠ Comp.str "KEY" ∧ Comp.str "KEY" ∉ k.rel.tail := by
      decide +kernel
    obtain ⟨x, hx, h1, h2, h3⟩ := this k hk
    cases hc : k.rel with
    | nil => rw [hc] at hx; cases hx
    | cons y r =>
      rw [hc] at hx h3
      cases hx
      exact ⟨_, _, rfl, h1, h2, h3⟩
  · cases hb
    cases d <;> exact ⟨_, _, rfl, by decide +kernel, by decide +kernel, by decide +kernel⟩

/-- Parts with the same prefix and comparable relative names are the same. -/
theorem rel_inj {c : DConf} {p q : Part} {t r s : Name} (hp : below c p = some (t, r)) (hq : below c q = some (t, s))
    (h1 : p = .hello ∨ (∃ k ∈ Access.handlers, p = .command t k) ∨ ∃ d, p = .dataset t d)
    (h2 : q = .hello ∨ (∃ k ∈ Access.handlers, q = .command t k) ∨ ∃ d, q = .dataset t d) (h : Cmp r s) : p = q := by
  have hk : ∀ k ∈ Access.handlers, ∀ k' ∈ Access.handlers, Cmp k.rel k'.rel → k = k' := by decide +kernel
  have hkd : ∀ k ∈ Access.handlers, ∀ d ∈ Dataset.all, ¬ Cmp k.rel d.rel := by decide +kernel
  have hdd : ∀ d ∈ Dataset.all, ∀ d' ∈ Dataset.all, Cmp d.rel d'.rel → d = d' := by decide +kernel
  have hik : ∀ k ∈ Access.handlers, ¬ Cmp [Comp.str "INFO"] k.rel := by decide +kernel
  have hid : ∀ d ∈ Dataset.all, ¬ Cmp [Comp.str "INFO"] d.rel := by decide +kernel
  have hall : ∀ d, d ∈ Dataset.all := by intro d; cases d <;> decide
  rcases h1 with rfl | ⟨k, hk1, rfl⟩ | ⟨d, rfl⟩ <;> rcases h2 with rfl | ⟨k', hk2, rfl⟩ | ⟨d', rfl⟩ <;> cases hp <;> cases hq
  · rfl
  · exact absurd h (hik _ hk2)
  · exact absurd h (hid _ (hall _))
  · exact absurd h.symm (hik _ hk1)
  · rw [hk _ hk1 _ hk2 h]
  · exact absurd h (hkd _ hk1 _ (hall _))
  · exact absurd h.symm (hid _ (hall _))
  · exact absurd h.symm (hkd _ hk2 _ (hall _))
  · rw [hdd _ (hall _) _ (hall _) h]

theorem head_append {a b : Name} {x : Comp} (hb : b ≠ []) (h : (a ++ b).head? = some x) :
    a.head? = some x ∨ (a = [] ∧ b.head? = some x) := by
  cases a with
  | nil => exact Or.inr ⟨rfl, h⟩
  | cons y a => exact Or.inl h

theorem router_eq (c : DConf) : c.r.lsdb.router = c.r.lsdb.names.network ++ (c.r.lsdb.names.site ++ c.r.lsdb.names.router) := by
  show c.r.lsdb.names.network ++ c.r.lsdb.names.site ++ c.r.lsdb.names.router = _
  rw [List.append_assoc]

theorem Plain.net_head {c : DConf} (h : Plain c) {x : Comp} (hx : c.r.lsdb.router.head? ≠ some x) :
    c.r.lsdb.names.network.head? ≠ some x := by
  intro hn
  apply hx
  rw [router_eq]
  cases hc : c.r.lsdb.names.network with
  | nil => rw [hc] at hn; cases hn
  | cons y b => rw [hc] at hn; exact hn

/-- Heads of the names below the router's name. -/
theorem Plain.own_head {c : DConf} (h : Plain c) {x : Comp} {rel : Name}
    (hh : (c.r.lsdb.router ++ [Comp.str "nlsr"] ++ rel).head? = some x) : x ≠ Comp.str "localhop" ∧ x ≠ Comp.str "localhost" := by
  rw [List.append_assoc] at hh
  rcases head_append (by simp) hh with e | ⟨-, e⟩
  · exact ⟨fun he => h.hop (he ▸ e), fun he => h.host (he ▸ e)⟩
  · cases e; exact ⟨by decide +kernel, by decide +kernel⟩

theorem Plain.net_heads {c : DConf} (h : Plain c) {x : Comp} {rel : Name}
    (hh : (c.r.lsdb.names.network ++ Comp.str "nlsr" :: rel).head? = some x) : x ≠ Comp.str "localhop" ∧ x ≠ Comp.str "localhost" := by
  rcases head_append (by simp) hh with e | ⟨-, e⟩
  · exact ⟨fun he => h.net_head h.hop (he ▸ e), fun he => h.net_head h.host (he ▸ e)⟩
  · cases e; exact ⟨by decide +kernel, by decide +kernel⟩

theorem lsa_head (c : DConf) : c.r.lsdb.names.lsaPrefix.head? = some (Comp.str "localhop") := rfl

theorem Plain.lsa_sync {c : DConf} (h : Plain c) : ¬ Cmp c.r.lsdb.names.lsaPrefix c.r.syncPrefix := by
  intro hc
  obtain ⟨v, -, hs | hs⟩ := h.sync
  · rw [hs] at hc
    have hc : Cmp ((Comp.str "localhop" :: c.r.lsdb.names.network ++ [Comp.str "nlsr"]) ++ [Comp.str "LSA"])
        ((Comp.str "localhop" :: c.r.lsdb.names.network ++ [Comp.str "nlsr"]) ++ [Comp.str "sync", v]) := by
      simpa [RouterConf.lsaPrefix] using hc
    have := hc.app.head (by simp) (by simp)
    exact absurd (Option.some.inj this) (by decide +kernel)
  · rw [hs] at hc
    have := hc.head (by simp [RouterConf.lsaPrefix]) (by simp)
    rw [lsa_head] at this
    exact (h.net_heads this.symm).1 rfl

theorem Plain.lsa_below {c : DConf} (h : Plain c) {t rel : Name}
    (ht : t = c.r.lsdb.router ++ [Comp.str "nlsr"] ∨ t = nm ["localhost", "nlsr"]) : ¬ Cmp c.r.lsdb.names.lsaPrefix (t ++ rel) := by
  intro hc
  have hh := hc.head (by simp [RouterConf.lsaPrefix]) (by rcases ht with rfl | rfl <;> simp [nm])
  rw [lsa_head] at hh
  rcases ht with rfl | rfl
  · exact (h.own_head hh.symm).1 rfl
  · exact absurd (Option.some.inj hh) (by decide +kernel)

theorem Plain.sync_below {c : DConf} (h : Plain c) {x : Comp} {s rel : Name} (hx : x ≠ Comp.str "sync")
    (ht : s = c.r.lsdb.router ++ [Comp.str "nlsr"] ∨ s = nm ["localhost", "nlsr"]) : ¬ Cmp c.r.syncPrefix (s ++ x :: rel) := by
  intro hc
  obtain ⟨v, -, hs | hs⟩ := h.sync
  · rw [hs] at hc
    have hh := hc.head (by simp) (by simp)
    rcases ht with rfl | rfl
    · exact (h.own_head hh.symm).1 rfl
    · exact absurd (Option.some.inj hh) (by decide +kernel)
  · rw [hs] at hc
    rcases ht with rfl | rfl
    · rw [router_eq, List.append_assoc, List.append_assoc] at hc
      have hc := hc.app
      cases hr : c.r.lsdb.names.site ++ c.r.lsdb.names.router with
      | nil =>
        rw [hr] at hc
        have := hc.tail.head (by simp) (by simp)
        exact hx (Option.some.inj this).symm
      | cons y b =>
        rw [hr] at hc
        have := hc.head (by simp) (by simp)
        exact h.nlsr (by rw [hr]; exact this.symm)
    · have hh := hc.head (by simp) (by simp)
      have hl : (nm ["localhost", "nlsr"] ++ x :: rel).head? = some (Comp.str "localhost") := rfl
      rw [hl] at hh
      exact (h.net_heads hh).2 rfl

/-- Fixed filters that fit the same name belong to the same part. -/
theorem Plain.fixed_one {c : DConf} (h : Plain c) {f g : Name} {p q : Part} (hf : (f, p) ∈ fixed c) (hg : (g, q) ∈ fixed c)
    (hc : Cmp f g) : p = q := by
  rcases mem_fixed hf with ⟨rfl, rfl⟩ | ⟨rfl, rfl⟩ | ⟨t, r, hb, rfl, ht, hk⟩ <;>
    rcases mem_fixed hg with ⟨rfl, rfl⟩ | ⟨rfl, rfl⟩ | ⟨t', r', hb', rfl, ht', hk'⟩
  · rfl
  · exact absurd hc h.lsa_sync
  · exact absurd hc (h.lsa_below ht')
  · exact absurd hc.symm h.lsa_sync
  · rfl
  · obtain ⟨x, u, rfl, hx, -⟩ := rel_ne_nil hb' hk'
    exact absurd hc (h.sync_below hx ht')
  · exact absurd hc.symm (h.lsa_below ht)
  · obtain ⟨x, u, rfl, hx, -⟩ := rel_ne_nil hb hk
    exact absurd hc.symm (h.sync_below hx ht)
  · have key : t = t' := by
      rcases ht with rfl | rfl <;> rcases ht' with rfl | rfl
      · rfl
      · have hh := hc.head (by simp) (by simp [nm])
        exact absurd rfl (h.own_head hh).2
      · have hh := hc.head (by simp [nm]) (by simp)
        exact absurd rfl (h.own_head hh.symm).2
      · rfl
    subst key
    exact rel_inj hb hb' hk hk' hc.app

/-- No fixed filter has `KEY` in it. -/
theorem Plain.no_key {c : DConf} (h : Plain c) {f : Name} {p : Part} (hf : (f, p) ∈ fixed c) : Comp.str "KEY" ∉ f := by
  have hr := h.key
  rw [router_eq] at hr
  have hn : Comp.str "KEY" ∉ c.r.lsdb.names.network := fun hm => hr (List.mem_append_left _ hm)
  have e1 : Comp.str "KEY" ≠ Comp.str "nlsr" := by decide +kernel
  have e2 : Comp.str "KEY" ≠ Comp.str "LSA" := by decide +kernel
  have e3 : Comp.str "KEY" ≠ Comp.str "localhop" := by decide +kernel
  have e4 : Comp.str "KEY" ≠ Comp.str "localhost" := by decide +kernel
  have e5 : Comp.str "KEY" ≠ Comp.str "sync" := by decide +kernel
  rcases mem_fixed hf with ⟨-, rfl⟩ | ⟨-, rfl⟩ | ⟨t, r, hb, rfl, ht, hk⟩
  · intro hm
    rcases List.mem_append.1 hm with hm | hm
    · rcases List.mem_append.1 hm with hm | hm
      · exact e3 (List.mem_singleton.1 hm)
      · exact hn hm
    · simp only [List.mem_cons, List.not_mem_nil, or_false] at hm
      rcases hm with hm | hm
      · exact e1 hm
      · exact e2 hm
  · obtain ⟨v, hv, hs⟩ := h.sync
    have e6 : Comp.str "KEY" ≠ v := by
      intro he
      rw [← he] at hv
      exact absurd hv (by decide +kernel)
    rcases hs with hs | hs <;> rw [hs] <;> intro hm <;> rcases List.mem_append.1 hm with hm | hm
    · rcases List.mem_cons.1 hm with hm | hm
      · exact e3 hm
      · exact hn hm
    · simp only [List.mem_cons, List.not_mem_nil, or_false] at hm
      rcases hm with hm | hm | hm
      · exact e1 hm
      · exact e5 hm
      · exact e6 hm
    · exact hn hm
    · simp only [List.mem_cons, List.not_mem_nil, or_false] at hm
      rcases hm with hm | hm | hm
      · exact e1 hm
      · exact e5 hm
      · exact e6 hm
  · obtain ⟨x, u, rfl, -, hx, hu⟩ := rel_ne_nil hb hk
    intro hm
    rcases List.mem_append.1 hm with hm | hm
    · rcases ht with rfl | rfl
      · rcases List.mem_append.1 hm with hm | hm
        · exact h.key hm
        · exact e1 (List.mem_singleton.1 hm)
      · simp only [nm, List.map_cons, List.map_nil, List.mem_cons, List.not_mem_nil, or_false] at hm
        rcases hm with hm | hm
        · exact e4 hm
        · exact e1 hm
    · rcases List.mem_cons.1 hm with hm | hm
      · exact hx hm.symm
      · exact hu hm

/-- A filter next to the router's name fits nothing that a fixed filter fits. -/
theorem Plain.beside {c : DConf} (h : Plain c) {m b : Name} {z : Comp}
    (hr : c.r.lsdb.names.site ++ c.r.lsdb.names.router = m ++ b) (hb : b.head? ≠ some z)
    (hz : z ≠ Comp.str "localhop" ∧ z ≠ Comp.str "localhost" ∧ z ≠ Comp.str "nlsr") {f : Name} {p : Part} (hf : (f, p) ∈ fixed c) :
    ¬ Cmp (c.r.lsdb.names.network ++ (m ++ [z])) f := by
  have hh : ∀ x, (c.r.lsdb.names.network ++ (m ++ [z])).head? = some x → x ≠ Comp.str "localhop" ∧ x ≠ Comp.str "localhost" := by
    intro x hx
    have he : c.r.lsdb.router = (c.r.lsdb.names.network ++ m) ++ b := by rw [router_eq, hr, List.append_assoc]
    rw [← List.append_assoc] at hx
    rcases head_append (by simp) hx with e | ⟨-, e⟩
    · have : c.r.lsdb.router.head? = some x := by
        rw [he]
        cases hc : c.r.lsdb.names.network ++ m with
        | nil => rw [hc] at e; cases e
        | cons y a => rw [hc] at e; exact e
      exact ⟨fun hx => h.hop (hx ▸ this), fun hx => h.host (hx ▸ this)⟩
    · cases e; exact ⟨hz.1, hz.2.1⟩
  intro hc
  rcases mem_fixed hf with ⟨-, rfl⟩ | ⟨-, rfl⟩ | ⟨t, r, hb', rfl, ht, hk⟩
  · exact (hh _ ((hc.head (by simp) (by simp [RouterConf.lsaPrefix])).trans (lsa_head c))).1 rfl
  · obtain ⟨v, -, hs | hs⟩ := h.sync
    · rw [hs] at hc
      exact (hh _ (hc.head (by simp) (by simp))).1 rfl
    · rw [hs] at hc
      have hm := hc.app.head (by simp) (by simp)
      rcases head_append (by simp) hm with e | ⟨-, e⟩
      · apply h.nlsr
        rw [hr]
        cases hc : m with
        | nil => rw [hc] at e; cases e
        | cons y a => rw [hc] at e; exact e
      · cases e; exact hz.2.2 rfl
  · rcases ht with rfl | rfl
    · rw [router_eq, hr, List.append_assoc, List.append_assoc, List.append_assoc] at hc
      have hm := hc.app.app.head (by simp) (by simp)
      rcases head_append (by simp) hm.symm with e | ⟨-, e⟩
      · exact hb e
      · cases e; exact hz.2.2 rfl
    · exact (hh _ (hc.head (by simp) (by simp [nm]))).2 rfl

/-- The prefixes the certificate store starts with fit nothing that a fixed filter fits. -/
theorem Plain.keys_apart {c : DConf} (h : Plain c) {k : Name} (hk : k ∈ CertStore.keyPrefixes c.r.lsdb.names) {f : Name} {p : Part}
    (hf : (f, p) ∈ fixed c) : ¬ Cmp k f := by
  have zk : Comp.str "KEY" ≠ Comp.str "localhop" ∧ Comp.str "KEY" ≠ Comp.str "localhost" ∧ Comp.str "KEY" ≠ Comp.str "nlsr" := by
    decide +kernel
  have zo : Nbr.operatorTag ≠ Comp.str "localhop" ∧ Nbr.operatorTag ≠ Comp.str "localhost" ∧ Nbr.operatorTag ≠ Comp.str "nlsr" := by
    decide +kernel
  unfold CertStore.keyPrefixes at hk
  simp only [List.mem_cons, List.not_mem_nil, or_false] at hk
  have hrk : ∀ {b : Name}, (∀ x ∈ b, x ∈ c.r.lsdb.router) → b.head? ≠ some (Comp.str "KEY") := by
    intro b hb he
    exact h.key (hb _ (List.mem_of_mem_head? he))
  rcases hk with rfl | rfl | rfl | rfl
  · intro hc
    have e : c.r.lsdb.names.routerPrefix ++ [Nbr.nlsrComp, Nbr.keyComp] = c.r.lsdb.router ++ [Comp.str "nlsr"] ++ [Comp.str "KEY"] := by
      rw [List.append_assoc]; rfl
    rw [e] at hc
    rcases mem_fixed hf with ⟨-, rfl⟩ | ⟨-, rfl⟩ | ⟨t, r, hb', rfl, ht, hk⟩
    · exact h.lsa_below (Or.inl rfl) hc.symm
    · exact h.sync_below (by decide +kernel) (Or.inl rfl) hc.symm
    · obtain ⟨x, u, rfl, -, hx, -⟩ := rel_ne_nil hb' hk
      rcases ht with rfl | rfl
      · exact hx (Option.some.inj (hc.app.head (by simp) (by simp))).symm
      · exact (h.own_head (hc.head (by simp) (by simp [nm]))).2 rfl
  · have := h.beside (m := c.r.lsdb.names.site ++ c.r.lsdb.names.router) (b := []) (z := Comp.str "KEY") (by simp) (by simp) zk hf
    have e : c.r.lsdb.names.routerPrefix ++ [Nbr.keyComp] =
        c.r.lsdb.names.network ++ (c.r.lsdb.names.site ++ c.r.lsdb.names.router ++ [Comp.str "KEY"]) := by
      simp [RouterConf.routerPrefix, Nbr.keyComp]
    rwa [e]
  · have := h.beside (m := c.r.lsdb.names.site) (b := c.r.lsdb.names.router) (z := Nbr.operatorTag) rfl h.op zo hf
    rwa [List.append_assoc]
  · have := h.beside (m := c.r.lsdb.names.site) (b := c.r.lsdb.names.router) (z := Comp.str "KEY") rfl
      (hrk (fun x hx => by rw [router_eq]; exact List.mem_append_right _ (List.mem_append_right _ hx))) zk hf
    rwa [List.append_assoc]

/-- What the certificate store listens for besides: keys that are not named like what other parts answer. -/
def KeysApart (c : DConf) (k : Name) : Prop := Comp.str "KEY" ∈ k ∧ ∀ f p, (f, p) ∈ fixed c → ¬ f <+: k

theorem Plain.one {c : DConf} (h : Plain c) {d : Daemon}
    (hd : ∀ k ∈ d.certs.filters, k ∈ CertStore.keyPrefixes c.r.lsdb.names ∨ KeysApart c k) {f g : Name} {p q : Part}
    (hf : (f, p) ∈ filters c d) (hg : (g, q) ∈ filters c d) (hc : Cmp f g) : p = q := by
  have hcert : ∀ {f g : Name} {p q : Part}, (f, p) ∈ fixed c → (g, q) ∈ d.certs.filters.map (fun f => (f, Part.certs)) → ¬ Cmp f g := by
    intro f g p q hf hg hc
    obtain ⟨k, hk, e⟩ := List.mem_map.1 hg
    cases e
    rcases hd _ hk with hk | ⟨h1, h2⟩
    · exact h.keys_apart hk hf hc.symm
    · exact h2 _ _ hf (hc.symm.lacks h1 (h.no_key hf))
  rcases List.mem_append.1 hf with hf | hf <;> rcases List.mem_append.1 hg with hg | hg
  · exact h.fixed_one hf hg hc
  · exact absurd hc (hcert hf hg)
  · exact absurd hc.symm (hcert hg hf)
  · obtain ⟨k, hk, e⟩ := List.mem_map.1 hf
    obtain ⟨k', hk', e'⟩ := List.mem_map.1 hg
    cases e; cases e'; rfl

end Daemon
end Nlsr
