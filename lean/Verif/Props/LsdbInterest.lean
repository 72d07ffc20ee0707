import Verif.Lemmas.LsdbKeep
import Verif.Props.Lsdb
import Verif.Props.Names
/- C33, C34: answering LSA interests. -/
namespace Nlsr
open Lsdb

theorem lsaPrefix_split (r : RouterConf) (xs : Name) :
    r.lsaPrefix ++ xs = ([Comp.str "localhop"] ++ r.network ++ [Comp.str "nlsr"]) ++ Comp.str "LSA" :: xs := by
  simp [RouterConf.lsaPrefix]

theorem position_lsa (r : RouterConf) (h : Comp.str "LSA" ∉ r.network) (xs : Name) :
    Name.position (r.lsaPrefix ++ xs) (Comp.str "LSA") = (2 + r.network.length : Nat) := by
  rw [lsaPrefix_split, Name.position_append]
  · simp; omega
  · have h1 : Comp.str "LSA" ≠ Comp.str "localhop" := by decide +kernel
    have h2 : Comp.str "LSA" ≠ Comp.str "nlsr" := by decide +kernel
    simpa using ⟨h1, h, h2⟩

theorem lsaPrefix_length (r : RouterConf) : r.lsaPrefix.length = r.network.length + 3 := by
  simp [RouterConf.lsaPrefix]

/-- The origin read from a name under the LSA prefix. -/
theorem interestOrigin_tail (r : RouterConf) (h : Comp.str "LSA" ∉ r.network) (xs : Name)
    (hlen : r.network.length + xs.length < 2 ^ 62) :
    interestOrigin r.network (r.lsaPrefix ++ xs) =
      r.network ++ (if xs.length = 1 then xs else xs.take (xs.length - 2)) := by
  unfold interestOrigin
  simp only [position_lsa r h xs]
  congr 1
  have hl : (r.lsaPrefix ++ xs).length = r.network.length + 3 + xs.length := by
    rw [List.length_append, lsaPrefix_length]
  have e2 : (((2 + r.network.length : Nat) : Int) + 1) = (r.network.length + 3 : Nat) := by omega
  rw [hl, e2]
  have hdrop : (r.lsaPrefix ++ xs).drop (r.network.length + 3) = xs := by
    rw [← lsaPrefix_length r, List.drop_left]
  by_cases h2 : 2 ≤ xs.length
  · have e3 : ((r.network.length + 3 + xs.length : Nat) : Int) - (2 + r.network.length : Nat) - 3 =
        (xs.length - 2 : Nat) := by omega
    rw [e3, Name.subName_nat _ _ (by omega), hdrop, if_neg (by omega)]
  · by_cases h1 : xs.length = 1
    · have e3 : ((r.network.length + 3 + xs.length : Nat) : Int) - (2 + r.network.length : Nat) - 3 = -1 := by omega
      rw [e3, Name.subName_all, hdrop, if_pos h1]
    · have h0 : xs.length = 0 := by omega
      rw [if_neg h1]
      have : xs = [] := List.length_eq_zero_iff.1 h0
      subst this
      simp only [List.length_nil, List.take_nil]
      have e3 : ((r.network.length + 3 + 0 : Nat) : Int) - (2 + r.network.length : Nat) - 3 = -2 := by omega
      rw [e3]
      unfold Name.subName
      have hn : ¬ (((r.network.length + 3 : Nat) : Int) < 0) := by omega
      have hc : ((-2 : Int) % 18446744073709551616).toNat = 18446744073709551614 := by decide
      simp only [hn, if_false, hc, Int.toNat_natCast]
      apply List.drop_of_length_le
      have hm : (r.network.length + 3 + 18446744073709551614) % 18446744073709551616 = r.network.length + 1 := by omega
      simp only [hm, Nat.reduceEqDiff, if_false, List.length_take]
      omega

/-- The router's own update name of a type, followed by one component and possibly more. -/
theorem fromEnd_1 (a : Name) (x : Comp) : Name.fromEnd (a ++ [x]) 1 = some x := Name.fromEnd_append

theorem fromEnd_2 (a : Name) (x y : Comp) : Name.fromEnd (a ++ [x, y]) 2 = some x := Name.fromEnd_append2

/-- A list with at least two elements ends in two elements. -/
theorem split2 {α : Type} (l : List α) (h : 2 ≤ l.length) :
    ∃ x y, l = l.take (l.length - 2) ++ [x, y] := by
  have h1 : (l.drop (l.length - 2)).length = 2 := by rw [List.length_drop]; omega
  match hd : l.drop (l.length - 2), h1 with
  | [x, y], _ => exact ⟨x, y, by rw [← hd, List.take_append_drop]⟩

theorem ofComp_some {x : Comp} {t : LsaType} (h : LsaType.ofComp x = t) (ht : t ≠ .base) : x = Comp.str t.text := by
  unfold LsaType.ofComp at h
  split at h
  · subst h; assumption
  · split at h
    · subst h; assumption
    · split at h
      · subst h; assumption
      · exact absurd h.symm ht

/-- A name under the LSA prefix that is recognised as asking for an own LSA of a known type is the
router's update name of that type followed by one component. -/
theorem own_interest {c : LConf} {iname : Name} {t : LsaType} {tc last : Comp}
    (hnet : Comp.str "LSA" ∉ c.names.network) (hlen : iname.length < 2 ^ 62)
    (hp : c.names.lsaPrefix <+: iname) (ho : interestOrigin c.names.network iname = c.router)
    (h1 : iname.fromEnd 1 = some last) (h2 : iname.fromEnd 2 = some tc) (ht : LsaType.ofComp tc = t)
    (htb : t ≠ .base) : iname = c.names.lsaUserPrefix t ++ [last] := by
  obtain ⟨xs, rfl⟩ := hp
  rw [List.length_append, lsaPrefix_length] at hlen
  rw [interestOrigin_tail c.names hnet xs (by omega)] at ho
  have htc := ofComp_some ht htb
  have hroute : c.router = c.names.network ++ (c.names.site ++ c.names.router) := by
    simp [LConf.router, RouterConf.routerPrefix]
  rw [hroute, List.append_cancel_left_eq] at ho
  have hne : ∀ s : String, s = "nlsr" ∨ s = "LSA" → Comp.str s ≠ Comp.str t.text := by
    rintro s (rfl | rfl) <;> cases t <;> decide +kernel
  by_cases h3 : 2 ≤ xs.length
  · obtain ⟨x, y, hxy⟩ := split2 xs h3
    rw [if_neg (by omega)] at ho
    rw [hxy, ho] at h1 h2 ⊢
    have e : c.names.lsaPrefix ++ (c.names.site ++ c.names.router ++ [x, y]) =
        (c.names.lsaPrefix ++ (c.names.site ++ c.names.router)) ++ [x, y] := by simp
    have e' : c.names.lsaPrefix ++ (c.names.site ++ c.names.router ++ [x, y]) =
        (c.names.lsaPrefix ++ (c.names.site ++ c.names.router) ++ [x]) ++ [y] := by simp
    rw [e, fromEnd_2] at h2
    rw [e', fromEnd_1] at h1
    cases h1; cases h2
    rw [htc]
    simp [RouterConf.lsaUserPrefix, RouterConf.syncUserPrefix]
  · exfalso
    by_cases h4 : xs.length = 1
    · match xs, h4 with
      | [x], _ =>
        have : c.names.lsaPrefix ++ [x] = ([Comp.str "localhop"] ++ c.names.network ++ [Comp.str "nlsr"]) ++
            [Comp.str "LSA", x] := by simp [RouterConf.lsaPrefix]
        rw [this, fromEnd_2] at h2
        cases h2
        exact hne "LSA" (Or.inr rfl) htc
    · have h0 : xs = [] := List.length_eq_zero_iff.1 (by omega)
      subst h0
      have : c.names.lsaPrefix ++ [] = ([Comp.str "localhop"] ++ c.names.network) ++
          [Comp.str "nlsr", Comp.str "LSA"] := by simp [RouterConf.lsaPrefix]
      rw [this, fromEnd_2] at h2
      cases h2
      exact hne "nlsr" (Or.inl rfl) htc

/-- Conversely such a name is recognised. -/
theorem own_interest_parts {c : LConf} (t : LsaType) (last : Comp) (hnet : Comp.str "LSA" ∉ c.names.network)
    (hlen : (c.names.lsaUserPrefix t ++ [last]).length < 2 ^ 62) :
    c.names.lsaPrefix <+: c.names.lsaUserPrefix t ++ [last] ∧
    interestOrigin c.names.network (c.names.lsaUserPrefix t ++ [last]) = c.router ∧
    0 ≤ Name.position (c.names.lsaUserPrefix t ++ [last]) (Comp.str "LSA") ∧
    (c.names.lsaUserPrefix t ++ [last]).fromEnd 1 = some last ∧
    (c.names.lsaUserPrefix t ++ [last]).fromEnd 2 = some (Comp.str t.text) := by
  have e : c.names.lsaUserPrefix t ++ [last] =
      c.names.lsaPrefix ++ (c.names.site ++ c.names.router ++ [Comp.str t.text, last]) := by
    simp [RouterConf.lsaUserPrefix, RouterConf.syncUserPrefix]
  have hl : c.names.network.length + (c.names.site ++ c.names.router ++ [Comp.str t.text, last]).length < 2 ^ 62 := by
    rw [e, List.length_append, lsaPrefix_length] at hlen; omega
  refine ⟨e ▸ List.prefix_append _ _, ?_, ?_, fromEnd_1 _ _, ?_⟩
  · rw [e, interestOrigin_tail c.names hnet _ hl, if_neg (by simp; omega)]
    have : (c.names.site ++ c.names.router ++ [Comp.str t.text, last]).length - 2 =
        (c.names.site ++ c.names.router).length := by simp; omega
    rw [this, List.take_left]
    simp [LConf.router, RouterConf.routerPrefix]
  · rw [e, position_lsa c.names hnet]; omega
  · have e' : c.names.lsaUserPrefix t ++ [last] = c.names.syncUserPrefix ++ [Comp.str t.text, last] := by
      simp [RouterConf.lsaUserPrefix]
    rw [e', fromEnd_2]

/-! ### C33 -/

theorem not_version_text (t : LsaType) : (Comp.str t.text).isVersion = false := by
  cases t <;> decide +kernel

/-- An interest for an LSA of the router itself is answered from the LSDB. -/
theorem own_interest_step (c : LConf) (s : Lsdb) (t : LsaType) (seq ver : Nat) (ht : t ≠ .base)
    (hnet : Comp.str "LSA" ∉ c.names.network) (hlen : (c.names.lsaInterest t seq).length ≤ 8800)
    (hseq : seq < 2 ^ 64) :
    step c s (.interest (c.names.lsaInterest t seq) ver) = replyOwn c s (c.names.lsaInterest t seq) t seq ver := by
  obtain ⟨h1, h2, h3, h4, h5⟩ := own_interest_parts (c := c) t (Comp.number seq) hnet
    (Nat.lt_of_le_of_lt hlen (by decide))
  show (if (c.names.lsaInterest t seq).length ≤ maxComponents then _ else _) = _
  rw [if_pos (show _ ≤ maxComponents from hlen)]
  unfold processInterest
  have hp : Name.isPrefixOf c.names.lsaPrefix (c.names.lsaInterest t seq) = true :=
    List.isPrefixOf_iff_prefix.2 h1
  rw [if_pos hp]
  have h5' : (c.names.lsaInterest t seq).fromEnd 2 = some (Comp.str t.text) := h5
  rw [h5']
  dsimp only
  rw [not_version_text t]
  simp only [Bool.false_eq_true, if_false]
  unfold processStripped
  rw [if_pos ⟨h2, h3⟩]
  have h4' : (c.names.lsaInterest t seq).fromEnd 1 = some (Comp.number seq) := h4
  rw [h4', h5']
  dsimp only
  rw [Comp.toNumber_number hseq]
  dsimp only
  rw [LsaType.ofComp_text]
  cases t <;> first | rfl | exact absurd rfl ht

/-- An interest for an LSA of this router, as peers express it (update name and number), is answered iff
that LSA is stored with exactly that number; the answer is the first segment of its current encoding
under a fresh version of the interest name. -/
theorem C33_own_interest (c : LConf) (s : Lsdb) (t : LsaType) (seq ver : Nat) (ht : t ≠ .base)
    (hnet : Comp.str "LSA" ∉ c.names.network) (hlen : (c.names.lsaInterest t seq).length ≤ 8800)
    (hseq : seq < 2 ^ 64) (hseg : ∀ l, 0 < c.segments l) :
    (∀ o, s.find c.router t = some o → o.lsa.seq = seq →
      (step c s (.interest (c.names.lsaInterest t seq) ver)).log =
        s.log ++ [.data ⟨c.names.lsaInterest t seq ++ [⟨54, Tlv.encNni ver⟩, ⟨50, Tlv.encNni 0⟩], o.lsa, 0⟩]) ∧
    ((∀ o, s.find c.router t = some o → o.lsa.seq ≠ seq) →
      (step c s (.interest (c.names.lsaInterest t seq) ver)).log = s.log) := by
  obtain ⟨h1, h2, h3, h4, h5⟩ := own_interest_parts (c := c) t (Comp.number seq) hnet
    (Nat.lt_of_le_of_lt hlen (by decide))
  have hstep := own_interest_step c s t seq ver ht hnet hlen hseq
  have hw : segWanted (c.names.lsaInterest t seq) = 0 := by
    unfold segWanted
    have h4' : (c.names.lsaInterest t seq).fromEnd 1 = some (Comp.number seq) := h4
    rw [h4']
    have : (Comp.number seq).isSegment = false := by simp [Comp.isSegment, Comp.number]
    simp [this]
  rw [hstep]
  constructor
  · intro o ho hs
    unfold replyOwn
    rw [ho]
    dsimp only
    rw [if_pos hs, hw]
    have : (List.map (fun i => (⟨segName (c.names.lsaInterest t seq) ver i, o.lsa, i⟩ : Seg))
        (List.range (c.segments o.lsa)))[0]? = some ⟨segName (c.names.lsaInterest t seq) ver 0, o.lsa, 0⟩ := by
      rw [List.getElem?_map, List.getElem?_range (hseg _)]
      rfl
    rw [this]
    rfl
  · intro h
    unfold replyOwn
    cases ho : s.find c.router t with
    | none => rfl
    | some o =>
      dsimp only
      rw [if_neg (h o ho)]

/-- What a segment under the LSA prefix carries: an LSA of this router whose type and number are those
in its name. -/
def Exact (c : LConf) (d : Seg) : Prop :=
  ∃ last, c.names.lsaUserPrefix d.lsa.type ++ [last] <+: d.name ∧ last.toNumber = some d.lsa.seq ∧
    d.lsa.origin = c.router

/-- Effect of an interest: the segments made and sent. -/
theorem processStripped_cases (c : LConf) (s : Lsdb) (name iname : Name) (ver : Nat)
    (hnet : Comp.str "LSA" ∉ c.names.network) (hlen : iname.length < 2 ^ 62) (hp : c.names.lsaPrefix <+: iname)
    (hpre : iname <+: name) :
    ((processStripped c s name iname ver).fifo = s.fifo ∧
      ((processStripped c s name iname ver).log = s.log ∨
       (∃ last, iname.fromEnd 1 = some last ∧ last.toNumber = none ∧
         interestOrigin c.names.network iname = c.router ∧
         (processStripped c s name iname ver).log = s.log ++ [.fault]) ∨
       ∃ n ∈ s.storage, name <+: n ∧ (processStripped c s name iname ver).log = s.log ++ [.storedData n])) ∨
    (∃ o, o ∈ s.db ∧ o.lsa.origin = c.router ∧ (∀ i, Exact c ⟨segName name ver i, o.lsa, i⟩) ∧
      (processStripped c s name iname ver).fifo = fifoInsert s.fifo
        ((List.range (c.segments o.lsa)).map (fun i => (⟨segName name ver i, o.lsa, i⟩ : Seg))) ∧
      ((processStripped c s name iname ver).log = s.log ∨
       ∃ i, (i = segWanted name ∧ i < c.segments o.lsa) ∧ (processStripped c s name iname ver).log = s.log ++ [.data ⟨segName name ver i, o.lsa, i⟩])) := by
  unfold processStripped
  have hplen : 2 ≤ iname.length := by
    obtain ⟨xs, rfl⟩ := hp
    rw [List.length_append, lsaPrefix_length]; omega
  obtain ⟨x, y, hxy⟩ := split2 iname hplen
  have h1 : iname.fromEnd 1 = some y := by
    rw [hxy, show List.take (iname.length - 2) iname ++ [x, y] = (List.take (iname.length - 2) iname ++ [x]) ++ [y] by simp]
    exact fromEnd_1 _ _
  have h2 : iname.fromEnd 2 = some x := by rw [hxy]; exact fromEnd_2 _ _ _
  by_cases ho : interestOrigin c.names.network iname = c.router ∧ 0 ≤ Name.position iname (Comp.str "LSA")
  · rw [if_pos ho, h1, h2]
    dsimp only
    cases hn : y.toNumber with
    | none => exact Or.inl ⟨rfl, Or.inr (Or.inl ⟨y, rfl, hn, ho.1, rfl⟩)⟩
    | some seq =>
      dsimp only
      have key : ∀ t, LsaType.ofComp x = t → t ≠ .base →
          (((replyOwn c s name t seq ver).fifo = s.fifo ∧ ((replyOwn c s name t seq ver).log = s.log ∨
              (∃ last, some y = some last ∧ last.toNumber = none ∧
                interestOrigin c.names.network iname = c.router ∧
                (replyOwn c s name t seq ver).log = s.log ++ [.fault]) ∨
              ∃ n ∈ s.storage, name <+: n ∧ (replyOwn c s name t seq ver).log = s.log ++ [.storedData n])) ∨
          (∃ o, o ∈ s.db ∧ o.lsa.origin = c.router ∧ (∀ i, Exact c ⟨segName name ver i, o.lsa, i⟩) ∧
            (replyOwn c s name t seq ver).fifo = fifoInsert s.fifo
              ((List.range (c.segments o.lsa)).map (fun i => (⟨segName name ver i, o.lsa, i⟩ : Seg))) ∧
            ((replyOwn c s name t seq ver).log = s.log ∨
             ∃ i, (i = segWanted name ∧ i < c.segments o.lsa) ∧ (replyOwn c s name t seq ver).log = s.log ++ [.data ⟨segName name ver i, o.lsa, i⟩]))) := by
        intro t ht htb
        have hname := own_interest hnet hlen hp ho.1 h1 h2 ht htb
        unfold replyOwn
        cases hf : s.find c.router t with
        | none => exact Or.inl ⟨rfl, Or.inl rfl⟩
        | some o =>
          obtain ⟨m1, m2, m3⟩ := find_some hf
          dsimp only
          by_cases hs : o.lsa.seq = seq
          · rw [if_pos hs]
            have hex : ∀ i, Exact c ⟨segName name ver i, o.lsa, i⟩ := by
              intro i
              refine ⟨y, ?_, by rw [hs]; exact hn, m2⟩
              show c.names.lsaUserPrefix o.lsa.type ++ [y] <+: _
              rw [m3, ← hname]
              exact hpre.trans (List.prefix_append _ _)
            refine Or.inr ⟨o, m1, m2, hex, ?_, ?_⟩
            · split <;> rfl
            · cases hg : (List.map (fun i => (⟨segName name ver i, o.lsa, i⟩ : Seg))
                (List.range (c.segments o.lsa)))[segWanted name]? with
              | none => exact Or.inl rfl
              | some d =>
                refine Or.inr ?_
                rw [List.getElem?_map] at hg
                obtain ⟨i, hi, rfl⟩ := Option.map_eq_some_iff.1 hg
                obtain ⟨hi1, hi2⟩ := List.getElem?_eq_some_iff.1 hi
                rw [List.length_range] at hi1
                rw [List.getElem_range] at hi2
                exact ⟨i, ⟨hi2.symm, hi2 ▸ hi1⟩, rfl⟩
          · rw [if_neg hs]; exact Or.inl ⟨rfl, Or.inl rfl⟩
      cases ht : LsaType.ofComp x with
      | base => exact Or.inl ⟨rfl, Or.inl rfl⟩
      | name => exact key .name ht (by simp)
      | adjacency => exact key .adjacency ht (by simp)
      | coordinate => exact key .coordinate ht (by simp)
  · rw [if_neg ho]
    cases hst : least id name s.storage with
    | none => exact Or.inl ⟨rfl, Or.inl rfl⟩
    | some n => exact Or.inl ⟨rfl, Or.inr (Or.inr ⟨n, (least_some hst).1, (least_some hst).2.1, rfl⟩)⟩

/-- The name without version and segment still is under the LSA prefix. -/
theorem strip_prefix {c : LConf} {name : Name} (hp : c.names.lsaPrefix <+: name) (hlen : name.length < 2 ^ 62)
    {v : Comp} (hv : name.fromEnd 2 = some v) (hver : v.isVersion = true) :
    c.names.lsaPrefix <+: Name.getPrefix name (-2) ∧ Name.getPrefix name (-2) <+: name ∧
      ∃ x, name = Name.getPrefix name (-2) ++ [v, x] := by
  obtain ⟨xs, rfl⟩ := hp
  have hl := lsaPrefix_length c.names
  have hxs : 2 ≤ xs.length := by
    refine Nat.le_of_not_lt fun hc => ?_
    have hx : xs.length = 0 ∨ xs.length = 1 := by omega
    rcases hx with hx | hx
    · have : xs = [] := List.length_eq_zero_iff.1 hx
      subst this
      have e : c.names.lsaPrefix ++ [] = ([Comp.str "localhop"] ++ c.names.network) ++ [Comp.str "nlsr", Comp.str "LSA"] := by
        simp [RouterConf.lsaPrefix]
      rw [e, fromEnd_2] at hv
      cases hv
      exact absurd hver (by decide +kernel)
    · obtain ⟨y, rfl⟩ := List.length_eq_one_iff.1 hx
      have e : c.names.lsaPrefix ++ [y] = ([Comp.str "localhop"] ++ c.names.network ++ [Comp.str "nlsr"]) ++ [Comp.str "LSA", y] := by
        simp [RouterConf.lsaPrefix]
      rw [e, fromEnd_2] at hv
      cases hv
      exact absurd hver (by decide +kernel)
  obtain ⟨a, b, hab⟩ := split2 xs hxs
  have hn : c.names.lsaPrefix ++ xs = (c.names.lsaPrefix ++ xs.take (xs.length - 2)) ++ [a, b] := by
    rw [List.append_assoc, ← hab]
  have hg : Name.getPrefix (c.names.lsaPrefix ++ xs) (-2) = c.names.lsaPrefix ++ xs.take (xs.length - 2) := by
    unfold Name.getPrefix
    rw [if_pos (by decide)]
    have e : (((c.names.lsaPrefix ++ xs).length : Int) + -2) =
        ((c.names.lsaPrefix ++ xs.take (xs.length - 2)).length : Nat) := by
      simp only [List.length_append, List.length_take]; omega
    have e0 : (0 : Int) = ((0 : Nat) : Int) := rfl
    rw [e, e0, Name.subName_nat _ _ (by simp only [List.length_append, List.length_take] at *; omega)]
    rw [List.drop_zero, hn, List.take_left]
  have hva : v = a := by
    have h2 := hv
    rw [hn, fromEnd_2] at h2
    exact (Option.some.inj h2).symm
  rw [hg]
  exact ⟨List.prefix_append _ _, ⟨[a, b], hn.symm⟩, b, by rw [hva]; exact hn⟩

/-- An interest that reaches the LSA prefix, after the FIFO lookup. -/
theorem step_interest_cases (c : LConf) (s : Lsdb) (name : Name) (ver : Nat) :
    (step c s (.interest name ver)).fifo = s.fifo ∧ (step c s (.interest name ver)).log = s.log ∨
    (∃ d ∈ s.fifo, name <+: d.name ∧ (∃ v, name.fromEnd 2 = some v ∧ v.isVersion = true) ∧
      (step c s (.interest name ver)).fifo = s.fifo ∧ (step c s (.interest name ver)).log = s.log ++ [.data d]) ∨
    ∃ iname, name.length ≤ 8800 ∧ c.names.lsaPrefix <+: iname ∧ iname <+: name ∧
      ((iname = name ∧ ∀ v, name.fromEnd 2 = some v → v.isVersion = false) ∨
       (∃ v x, v.isVersion = true ∧ name = iname ++ [v, x] ∧ ∀ d ∈ s.fifo, ¬ name <+: d.name)) ∧
      step c s (.interest name ver) = processStripped c s name iname ver := by
  show ((if name.length ≤ maxComponents then processInterest c s name ver else s).fifo = s.fifo ∧
      (if name.length ≤ maxComponents then processInterest c s name ver else s).log = s.log) ∨
    (∃ d ∈ s.fifo, name <+: d.name ∧ (∃ v, name.fromEnd 2 = some v ∧ v.isVersion = true) ∧
      (if name.length ≤ maxComponents then processInterest c s name ver else s).fifo = s.fifo ∧
      (if name.length ≤ maxComponents then processInterest c s name ver else s).log = s.log ++ [.data d]) ∨
    ∃ iname, name.length ≤ 8800 ∧ c.names.lsaPrefix <+: iname ∧ iname <+: name ∧
      ((iname = name ∧ ∀ v, name.fromEnd 2 = some v → v.isVersion = false) ∨
       (∃ v x, v.isVersion = true ∧ name = iname ++ [v, x] ∧ ∀ d ∈ s.fifo, ¬ name <+: d.name)) ∧
      (if name.length ≤ maxComponents then processInterest c s name ver else s) = processStripped c s name iname ver
  by_cases hl : name.length ≤ maxComponents
  · simp only [if_pos hl]
    have hl' : name.length ≤ 8800 := hl
    unfold processInterest
    by_cases hp : Name.isPrefixOf c.names.lsaPrefix name = true
    · rw [if_pos hp]
      have hp' := List.isPrefixOf_iff_prefix.1 hp
      cases h2 : name.fromEnd 2 with
      | none => exact Or.inl ⟨rfl, rfl⟩
      | some v =>
        dsimp only
        by_cases hv : v.isVersion = true
        · rw [if_pos hv]
          cases hf : least (·.name) name s.fifo with
          | some d => exact Or.inr (Or.inl ⟨d, (least_some hf).1, (least_some hf).2.1, ⟨v, rfl, hv⟩, rfl, rfl⟩)
          | none =>
            obtain ⟨a1, a2, x, a3⟩ := strip_prefix hp' (Nat.lt_of_le_of_lt hl' (by decide)) h2 hv
            refine Or.inr (Or.inr ⟨_, hl', a1, a2, Or.inr ⟨v, x, hv, a3, ?_⟩, rfl⟩)
            exact least_none hf
        · rw [if_neg hv]
          refine Or.inr (Or.inr ⟨name, hl', hp', List.prefix_rfl, Or.inl ⟨rfl, ?_⟩, rfl⟩)
          intro w hw
          cases hw
          simpa using hv
    · rw [if_neg hp]; exact Or.inl ⟨rfl, rfl⟩
  · simp only [if_neg hl]; exact Or.inl ⟨trivial, trivial⟩

/-- The segments kept for re-use are exact. -/
theorem fifo_exact {c : LConf} (hnet : Comp.str "LSA" ∉ c.names.network) {s : Lsdb} (h : Reachable c s) :
    ∀ d ∈ s.fifo, Exact c d := by
  refine Reachable.induct_step (P := fun s => ∀ d ∈ s.fifo, Exact c d) ?_ ?_ h
  · intro disk adjs npl sys d hd
    rw [(init_keep c disk adjs npl sys).fifo] at hd
    cases hd
  · intro s op _ ih
    by_cases hs : Op.special op = false
    · rw [(step_keep c s op hs).fifo]; exact ih
    · cases op with
      | setAdjs l => exact ih
      | setNpl l => exact ih
      | scheduleBuild =>
        have : (step c s .scheduleBuild).fifo = s.fifo := by
          show (scheduleBuild c s).fifo = _
          unfold scheduleBuild
          dsimp only
          split <;> rfl
        rw [this]; exact ih
      | buildTimer =>
        have : (step c s .buildTimer).fifo = s.fifo := by
          show (buildTimer c s).fifo = _
          unfold buildTimer
          split
          · rfl
          · split
            · rfl
            · exact (buildAdjLsa_spec c s).2.2.1
        rw [this]; exact ih
      | interest n v =>
        rcases step_interest_cases c s n v with ⟨h1, -⟩ | ⟨d, hd, -, -, h1, -⟩ | ⟨iname, hl, h1, h2, -, h4⟩
        · rw [h1]; exact ih
        · rw [h1]; exact ih
        · rw [h4]
          have hil : iname.length < 2 ^ 62 := Nat.lt_of_le_of_lt (Nat.le_trans h2.length_le hl) (by decide)
          rcases processStripped_cases c s n iname v hnet hil h1 h2 with ⟨h5, -⟩ | ⟨o, -, -, h6, h7, -⟩
          · rw [h5]; exact ih
          · rw [h7]
            intro d hd
            unfold fifoInsert at hd
            rcases List.mem_append.1 (List.mem_of_mem_drop hd) with hd | hd
            · exact ih d hd
            · obtain ⟨i, -, rfl⟩ := List.mem_map.1 hd
              exact h6 i
      | fifoGone n =>
        intro d hd
        exact ih d (List.mem_filter.1 hd).1
      | _ => exact absurd rfl hs

/-- Whatever the interest, own LSA data sent in reply is a segment of an LSA of this router whose type and
number are the ones in the data's name, and the interest's name is a prefix of the data's name: a reply
never carries another version than the one asked for. -/
theorem C33_exact_version {c : LConf} (hnet : Comp.str "LSA" ∉ c.names.network) {s : Lsdb} (h : Reachable c s)
    (name : Name) (ver : Nat) (d : Seg) (outs : List Out)
    (ho : (step c s (.interest name ver)).log = s.log ++ outs) (hd : .data d ∈ outs) :
    outs = [.data d] ∧ d.lsa.origin = c.router ∧ name <+: d.name ∧
    ∃ last, c.names.lsaUserPrefix d.lsa.type ++ [last] <+: d.name ∧ last.toNumber = some d.lsa.seq := by
  have key : ∀ d', (step c s (.interest name ver)).log = s.log ++ [.data d'] → outs = [.data d'] ∧ d = d' := by
    intro d' e
    rw [e] at ho
    have e2 := List.append_cancel_left ho
    rw [← e2] at hd
    simp at hd
    exact ⟨e2.symm, hd⟩
  have nokey : ∀ o : Option Out, (∀ d, o ≠ some (.data d)) → (step c s (.interest name ver)).log = s.log ++ o.toList → False := by
    intro o hne e
    rw [e] at ho
    have e2 := List.append_cancel_left ho
    rw [← e2] at hd
    cases o with
    | none => simp at hd
    | some o => simp at hd; exact hne d (by rw [← hd])
  rcases step_interest_cases c s name ver with ⟨-, h1⟩ | ⟨d', hd', hp, -, -, h1⟩ | ⟨iname, hl, h1, h2, -, h4⟩
  · exact (nokey none (by simp) (by simpa using h1)).elim
  · obtain ⟨e1, rfl⟩ := key d' h1
    obtain ⟨last, e2, e3, e4⟩ := fifo_exact hnet h d hd'
    exact ⟨e1, e4, hp, last, e2, e3⟩
  · have hil : iname.length < 2 ^ 62 := Nat.lt_of_le_of_lt (Nat.le_trans h2.length_le hl) (by decide)
    rcases processStripped_cases c s name iname ver hnet hil h1 h2 with
      ⟨-, h5 | ⟨-, -, -, -, h5⟩ | ⟨n, -, -, h5⟩⟩ | ⟨o, -, -, h6, -, h7 | ⟨i, -, h7⟩⟩
    · exact (nokey none (by simp) (by rw [h4]; simpa using h5)).elim
    · exact (nokey (some .fault) (by simp) (by rw [h4]; simpa using h5)).elim
    · exact (nokey (some (.storedData n)) (by simp) (by rw [h4]; simpa using h5)).elim
    · exact (nokey none (by simp) (by rw [h4]; simpa using h7)).elim
    · obtain ⟨e1, rfl⟩ := key _ (by rw [h4]; exact h7)
      obtain ⟨last, e2, e3, e4⟩ := h6 i
      exact ⟨e1, e4, List.prefix_append _ _, last, e2, e3⟩

/-- A stored segment of another router's LSA is only sent for an interest whose name is a prefix of the
segment's name. -/
theorem C33_stored_prefix (c : LConf) (hnet : Comp.str "LSA" ∉ c.names.network) (s : Lsdb) (name : Name) (ver : Nat)
    (n : Name) (ho : (step c s (.interest name ver)).log = s.log ++ [.storedData n]) :
    n ∈ s.storage ∧ name <+: n := by
  rcases step_interest_cases c s name ver with ⟨-, h1⟩ | ⟨d', hd', hp, -, -, h1⟩ | ⟨iname, hl, h1, h2, -, h4⟩
  · rw [h1] at ho; simp at ho
  · rw [h1] at ho; simp at ho
  · have hil : iname.length < 2 ^ 62 := Nat.lt_of_le_of_lt (Nat.le_trans h2.length_le hl) (by decide)
    rw [h4] at ho
    rcases processStripped_cases c s name iname ver hnet hil h1 h2 with
      ⟨-, h5 | ⟨-, -, -, -, h5⟩ | ⟨n', h5, h6, h7⟩⟩ | ⟨o, -, -, h6, -, h7 | ⟨i, -, h7⟩⟩
    · rw [h5] at ho; simp at ho
    · rw [h5] at ho; simp at ho
    · rw [h7] at ho; simp at ho; subst ho; exact ⟨h5, h6⟩
    · rw [h7] at ho; simp at ho
    · rw [h7] at ho; simp at ho

/-- C33 fails for segments: an interest for a later segment that is no longer kept gets Data under a name
that extends the interest's name by a second version and segment, which does not satisfy an interest for
that exact name. -/
theorem C33_violated_segment :
    let s := exStart .off
    let n := (exConf .off).names.lsaInterest .name 1 ++ [⟨54, Tlv.encNni 7⟩, ⟨50, Tlv.encNni 0⟩]
    ∃ d, (step (exConf .off) s (.interest n 9)).log = s.log ++ [.data d] ∧ d.name ≠ n ∧
      d.name.length = n.length + 2 := by
  refine ⟨⟨(exConf .off).names.lsaInterest .name 1 ++ [⟨54, Tlv.encNni 7⟩, ⟨50, Tlv.encNni 0⟩,
    ⟨54, Tlv.encNni 9⟩, ⟨50, Tlv.encNni 0⟩],
    ⟨exR1, 1, 3600000000000, .names (PrefixMap.ofList [⟨nm ["a"], .fin 5⟩])⟩, 0⟩, ?_, ?_, ?_⟩
  all_goals decide +kernel

/-! ### C34 -/

/-- An exception leaves the event loop exactly for interests whose name, without version and segment, is
under the LSA prefix and is recognised as this router's, and whose last component is not a number. -/
theorem C34_fault_exact_partial (c : LConf) (hnet : Comp.str "LSA" ∉ c.names.network) (s : Lsdb) (name : Name) (ver : Nat)
    (hgood : ∀ iname last, (iname = name ∨ ∃ v x, name = iname ++ [v, x]) →
      c.names.lsaPrefix <+: iname → interestOrigin c.names.network iname = c.router →
      iname.fromEnd 1 = some last → last.toNumber ≠ none) :
    ∃ outs, (step c s (.interest name ver)).log = s.log ++ outs ∧ .fault ∉ outs := by
  rcases step_interest_cases c s name ver with ⟨-, h1⟩ | ⟨d', hd', hp, -, -, h1⟩ | ⟨iname, hl, h1, h2, h3, h4⟩
  · exact ⟨[], by simpa using h1, by simp⟩
  · exact ⟨_, h1, by simp⟩
  · have hil : iname.length < 2 ^ 62 := Nat.lt_of_le_of_lt (Nat.le_trans h2.length_le hl) (by decide)
    rw [h4]
    rcases processStripped_cases c s name iname ver hnet hil h1 h2 with
      ⟨-, h5 | ⟨last, e1, e2, e3, h5⟩ | ⟨n', -, -, h7⟩⟩ | ⟨o, -, -, h6, -, h7 | ⟨i, -, h7⟩⟩
    · exact ⟨[], by simpa using h5, by simp⟩
    · refine absurd e2 (hgood iname last ?_ h1 e3 e1)
      rcases h3 with ⟨h3, -⟩ | ⟨v, x, -, h3, -⟩
      · exact Or.inl h3
      · exact Or.inr ⟨v, x, h3⟩
    · exact ⟨_, h7, by simp⟩
    · exact ⟨[], by simpa using h7, by simp⟩
    · exact ⟨_, h7, by simp⟩

/-- C34 fails: every interest for one of this router's LSAs whose last component is not a
non-negative-integer encoding stops the daemon, in every state. -/
theorem C34_violated (c : LConf) (s : Lsdb) (t : LsaType) (last : Comp) (ver : Nat) (hlast : last.toNumber = none)
    (hnet : Comp.str "LSA" ∉ c.names.network) (hlen : (c.names.lsaUserPrefix t ++ [last]).length ≤ 8800) :
    (step c s (.interest (c.names.lsaUserPrefix t ++ [last]) ver)).log = s.log ++ [.fault] := by
  obtain ⟨h1, h2, h3, h4, h5⟩ := own_interest_parts (c := c) t last hnet (Nat.lt_of_le_of_lt hlen (by decide))
  show (if (c.names.lsaUserPrefix t ++ [last]).length ≤ maxComponents then
    processInterest c s (c.names.lsaUserPrefix t ++ [last]) ver else s).log = _
  rw [if_pos (show _ ≤ maxComponents from hlen)]
  unfold processInterest
  have hp : Name.isPrefixOf c.names.lsaPrefix (c.names.lsaUserPrefix t ++ [last]) = true :=
    List.isPrefixOf_iff_prefix.2 h1
  rw [if_pos hp, h5]
  dsimp only
  rw [not_version_text t]
  simp only [Bool.false_eq_true, if_false]
  unfold processStripped
  rw [if_pos ⟨h2, h3⟩, h4, h5]
  dsimp only
  rw [hlast]
  rfl

/-! ### examples -/

example : (Comp.str "xyz").toNumber = none := by decide +kernel

/-- C33: a number that is not the stored one is not answered, the stored one is. -/
example : let c := exConf .off
    (step c (exStart .off) (.interest (c.names.lsaInterest .name 2) 9)).log = (exStart .off).log ∧
    (step c (exStart .off) (.interest (c.names.lsaInterest .name 1) 9)).log ≠ (exStart .off).log ∧
    Comp.str "LSA" ∉ c.names.network := by
  decide +kernel

end Nlsr
