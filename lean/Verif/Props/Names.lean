import Verif.Lemmas.Names
/- C57, C58: the origin derived from update and interest names. -/
namespace Nlsr

private theorem nlsr_ne_localhop : Comp.str "nlsr" ≠ Comp.str "localhop" := by decide +kernel
private theorem lsa_ne_localhop : Comp.str "LSA" ≠ Comp.str "localhop" := by decide +kernel
private theorem lsa_ne_nlsr : Comp.str "LSA" ≠ Comp.str "nlsr" := by decide +kernel

/-- The configured names are short enough to be addressed by 64-bit indices. -/
def Fits (c : RouterConf) : Prop := c.network.length + c.site.length + c.router.length < 2 ^ 63

private theorem upd_split (c : RouterConf) (t : LsaType) :
    c.lsaUserPrefix t = ([Comp.str "localhop"] ++ c.network) ++ Comp.str "nlsr" ::
      (Comp.str "LSA" :: (c.site ++ c.router ++ [Comp.str t.text])) := by
  simp [RouterConf.lsaUserPrefix, RouterConf.syncUserPrefix, RouterConf.lsaPrefix]

/-- **C57, partial.** If the network name contains neither an `nlsr` nor an `LSA` component, the
origin derived from the update name a router publishes is its router prefix.  Without the condition
it is false: `C57_violated`. -/
theorem C57_sync_origin_partial (c : RouterConf) (t : LsaType) (hf : Fits c)
    (h1 : Comp.str "nlsr" ∉ c.network) (h2 : Comp.str "LSA" ∉ c.network) :
    syncOrigin (c.lsaUserPrefix t) = some c.routerPrefix := by
  unfold Fits at hf
  have p1 : Name.position (c.lsaUserPrefix t) (Comp.str "nlsr") = (1 + c.network.length : Nat) := by
    rw [upd_split, Name.position_append]
    · simp; omega
    · simpa using ⟨nlsr_ne_localhop, h1⟩
  have p2 : Name.position (c.lsaUserPrefix t) (Comp.str "LSA") = (2 + c.network.length : Nat) := by
    have e : c.lsaUserPrefix t = ([Comp.str "localhop"] ++ c.network ++ [Comp.str "nlsr"]) ++
        Comp.str "LSA" :: (c.site ++ c.router ++ [Comp.str t.text]) := by rw [upd_split]; simp
    rw [e, Name.position_append]
    · simp; omega
    · simpa using ⟨lsa_ne_localhop, h2, lsa_ne_nlsr⟩
  unfold syncOrigin
  simp only [p1, p2]
  rw [if_neg (by omega)]
  have e1 : (((1 + c.network.length : Nat) : Int) - 1) = (c.network.length : Nat) := by omega
  have e2 : (((2 + c.network.length : Nat) : Int) + 1) = (3 + c.network.length : Nat) := by omega
  rw [e1, e2, Name.subName_all]
  have := Name.subName_nat (n := c.lsaUserPrefix t) 1 c.network.length (by omega)
  have this' : Name.subName (c.lsaUserPrefix t) 1 (c.network.length : Int) = c.network := by
    refine this.trans ?_
    rw [upd_split]; simp
  rw [this']
  have hd : (c.lsaUserPrefix t).drop (3 + c.network.length) = c.site ++ c.router ++ [Comp.str t.text] := by
    rw [upd_split]
    rw [List.drop_append]
    simp only [List.length_append, List.length_singleton]
    rw [List.drop_of_length_le (by simp; omega)]
    have : 3 + c.network.length - (1 + c.network.length) = 2 := by omega
    rw [this]
    simp
  rw [hd]
  have := Name.getPrefix_neg (n := c.site ++ c.router ++ [Comp.str t.text]) 1 (by omega)
    (by simp; omega) (by simp; omega)
  rw [show (-1 : Int) = -((1 : Nat) : Int) from rfl, this]
  simp only [RouterConf.routerPrefix, List.length_append, List.length_singleton, Nat.add_sub_cancel]
  rw [← List.length_append, List.take_left]
  simp

/-- **C57 is false for some names.** A network name containing `nlsr`, or one containing `LSA`,
makes the derived origin differ from the router prefix. -/
theorem C57_violated :
    syncOrigin (RouterConf.lsaUserPrefix ⟨nm ["nlsr", "net"], nm ["site"], nm ["r1"]⟩ .name)
      ≠ some (RouterConf.routerPrefix ⟨nm ["nlsr", "net"], nm ["site"], nm ["r1"]⟩) ∧
    syncOrigin (RouterConf.lsaUserPrefix ⟨nm ["LSA"], nm ["site"], nm ["r1"]⟩ .name)
      ≠ some (RouterConf.routerPrefix ⟨nm ["LSA"], nm ["site"], nm ["r1"]⟩) := by
  decide +kernel

example : ∃ c : RouterConf, Fits c ∧ Comp.str "nlsr" ∉ c.network ∧ Comp.str "LSA" ∉ c.network ∧
    syncOrigin (c.lsaUserPrefix .adjacency) = some (nm ["ndn", "memphis", "LSA", "r1"]) := by
  refine ⟨⟨nm ["ndn"], nm ["memphis"], nm ["LSA", "r1"]⟩, ?_⟩
  unfold Fits; decide +kernel

/-- **C57, distinct routers.** Under the condition, routers with different prefixes are never
confused, whatever the LSA types. -/
theorem C57_distinct_partial (c c' : RouterConf) (t t' : LsaType) (hf : Fits c) (hf' : Fits c')
    (h1 : Comp.str "nlsr" ∉ c.network) (h2 : Comp.str "LSA" ∉ c.network)
    (h1' : Comp.str "nlsr" ∉ c'.network) (h2' : Comp.str "LSA" ∉ c'.network)
    (h : c.lsaUserPrefix t = c'.lsaUserPrefix t') : c.routerPrefix = c'.routerPrefix := by
  have a := C57_sync_origin_partial c t hf h1 h2
  rw [h, C57_sync_origin_partial c' t' hf' h1' h2'] at a
  exact (Option.some.inj a).symm

/-- **C58, partial.** If the network name has no `LSA` component, the origin, type and number read
from the interest a peer of the same network expresses are those of the LSA asked for.  Without the
condition it is false: `C58_violated`. -/
theorem C58_interest_names_partial (c : RouterConf) (t : LsaType) (seq : Nat) (hf : Fits c)
    (hs : seq < 2 ^ 64) (h2 : Comp.str "LSA" ∉ c.network) :
    interestOrigin c.network (c.lsaInterest t seq) = c.routerPrefix ∧
    (Name.fromEnd (c.lsaInterest t seq) 2).map LsaType.ofComp = some t ∧
    (Name.fromEnd (c.lsaInterest t seq) 1).bind Comp.toNumber = some seq := by
  unfold Fits at hf
  have e : c.lsaInterest t seq = ([Comp.str "localhop"] ++ c.network ++ [Comp.str "nlsr"]) ++
      Comp.str "LSA" :: (c.site ++ c.router ++ [Comp.str t.text, Comp.number seq]) := by
    simp [RouterConf.lsaInterest, upd_split]
  have p2 : Name.position (c.lsaInterest t seq) (Comp.str "LSA") = (2 + c.network.length : Nat) := by
    rw [e, Name.position_append]
    · simp; omega
    · simpa using ⟨lsa_ne_localhop, h2, lsa_ne_nlsr⟩
  have hlen : (c.lsaInterest t seq).length = 5 + c.network.length + (c.site.length + c.router.length) := by
    rw [e]; simp; omega
  refine ⟨?_, ?_, ?_⟩
  · unfold interestOrigin
    simp only [p2, hlen]
    have e2 : (((2 + c.network.length : Nat) : Int) + 1) = (3 + c.network.length : Nat) := by omega
    have e3 : ((5 + c.network.length + (c.site.length + c.router.length) : Nat) : Int) -
        (2 + c.network.length : Nat) - 3 = (c.site.length + c.router.length : Nat) := by omega
    rw [e2, e3, Name.subName_nat _ _ (by omega), e]
    rw [List.drop_append]
    simp only [List.length_append, List.length_singleton]
    rw [List.drop_of_length_le (by simp; omega)]
    have : 3 + c.network.length - (1 + c.network.length + 1) = 1 := by omega
    rw [this]
    simp only [List.drop_succ_cons, List.drop_zero, List.nil_append]
    rw [← List.length_append, List.take_left]
    simp [RouterConf.routerPrefix]
  · have : c.lsaInterest t seq = c.syncUserPrefix ++ [Comp.str t.text, Comp.number seq] := by
      simp [RouterConf.lsaInterest, RouterConf.lsaUserPrefix]
    rw [this, Name.fromEnd_append2]
    simp [LsaType.ofComp_text]
  · unfold RouterConf.lsaInterest
    rw [Name.fromEnd_append]
    simp [Comp.toNumber_number hs]

/-- **C58 is false for a network name with an `LSA` component.** -/
theorem C58_violated :
    interestOrigin (nm ["LSA"]) (RouterConf.lsaInterest ⟨nm ["LSA"], nm ["site"], nm ["r1"]⟩ .name 5)
      ≠ RouterConf.routerPrefix ⟨nm ["LSA"], nm ["site"], nm ["r1"]⟩ := by
  decide +kernel

example : interestOrigin (nm ["ndn"]) (RouterConf.lsaInterest ⟨nm ["ndn"], nm ["site"], nm ["r1"]⟩ .coordinate 70000)
    = nm ["ndn", "site", "r1"] := by decide +kernel

/-- **C58, no confusion.** Within such networks one interest name stands for one router, type and
number. -/
theorem C58_injective_partial (c c' : RouterConf) (t t' : LsaType) (seq seq' : Nat) (hf : Fits c) (hf' : Fits c')
    (hs : seq < 2 ^ 64) (hs' : seq' < 2 ^ 64) (h2 : Comp.str "LSA" ∉ c.network)
    (h2' : Comp.str "LSA" ∉ c'.network) (hn : c.network = c'.network)
    (h : c.lsaInterest t seq = c'.lsaInterest t' seq') :
    c.routerPrefix = c'.routerPrefix ∧ t = t' ∧ seq = seq' := by
  obtain ⟨a1, a2, a3⟩ := C58_interest_names_partial c t seq hf hs h2
  obtain ⟨b1, b2, b3⟩ := C58_interest_names_partial c' t' seq' hf' hs' h2'
  rw [h] at a1 a2 a3
  rw [hn] at a1
  exact ⟨a1.symm.trans b1, Option.some.inj (a2.symm.trans b2), Option.some.inj (a3.symm.trans b3)⟩

end Nlsr
