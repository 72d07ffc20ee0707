import Verif.Model.Names
import Verif.Lemmas.Tlv
/- Lemmas about name slicing. -/
namespace Nlsr

theorem Name.position_append {a b : Name} {c : Comp} (h : c ∉ a) :
    Name.position (a ++ c :: b) c = a.length := by
  have h2 : (a ++ c :: b).findIdx? (fun x => c == x) = some a.length := by
    rw [List.findIdx?_append]
    have : a.findIdx? (fun x => c == x) = none := by
      rw [List.findIdx?_eq_none_iff]
      intro x hx
      have hne : c ≠ x := fun e => h (e ▸ hx)
      simpa using hne
    rw [this]
    simp [List.findIdx?_cons]
  simp only [Name.position, h2]

theorem Name.position_neg {n : Name} {c : Comp} (h : c ∉ n) : Name.position n c = -1 := by
  have : n.findIdx? (fun x => c == x) = none := by
    rw [List.findIdx?_eq_none_iff]
    intro x hx
    have hne : c ≠ x := fun e => h (e ▸ hx)
    simpa using hne
  simp [Name.position, this]

theorem Name.subName_all {n : Name} (i : Nat) : Name.subName n (i : Int) (-1) = n.drop i := by
  unfold Name.subName
  have h1 : ¬ ((i : Int) < 0) := by omega
  simp only [h1, if_false]
  have : ((-1 : Int) % 18446744073709551616).toNat = 18446744073709551615 := by decide
  simp only [this, if_true]
  simp

/-- Ordinary counts (no wrap). -/
theorem Name.subName_nat {n : Name} (i c : Nat) (h : i + c < 18446744073709551615) :
    Name.subName n (i : Int) (c : Int) = (n.drop i).take c := by
  unfold Name.subName
  have h1 : ¬ ((i : Int) < 0) := by omega
  simp only [h1, if_false]
  have h2 : ((c : Int) % 18446744073709551616).toNat = c := by omega
  have h3 : c ≠ 18446744073709551615 := by omega
  have h4 : (i + c) % 18446744073709551616 = i + c := Nat.mod_eq_of_lt (by omega)
  simp only [h2, h3, if_false, h4, Int.toNat_natCast]
  rw [List.drop_take]
  by_cases hl : i + c ≤ n.length
  · rw [Nat.min_eq_right hl, Nat.add_sub_cancel_left]
  · rw [Nat.min_eq_left (by omega)]
    rw [List.take_of_length_le (by simp), List.take_of_length_le (by simp; omega)]

theorem Name.getPrefix_neg {n : Name} (k : Nat) (hk : 1 ≤ k) (h : k ≤ n.length)
    (hn : n.length < 18446744073709551615) :
    Name.getPrefix n (-(k : Int)) = n.take (n.length - k) := by
  unfold Name.getPrefix
  have : (-(k : Int)) < 0 := by omega
  simp only [this, if_true]
  have e : ((n.length : Int) + -(k : Int)) = ((n.length - k : Nat) : Int) := by omega
  rw [e]
  have := Name.subName_nat (n := n) 0 (n.length - k) (by omega)
  simpa using this

theorem Name.fromEnd_append {a : Name} {c : Comp} : Name.fromEnd (a ++ [c]) 1 = some c := by
  simp [Name.fromEnd]

theorem Name.fromEnd_append2 {a : Name} {c d : Comp} : Name.fromEnd (a ++ [c, d]) 2 = some c := by
  simp [Name.fromEnd]

theorem Comp.toNumber_number {n : Nat} (h : n < 2 ^ 64) : (Comp.number n).toNumber = some n :=
  Tlv.decNni_encNni n h

theorem LsaType.ofComp_text (t : LsaType) : LsaType.ofComp (Comp.str t.text) = t := by
  cases t <;> decide +kernel

end Nlsr
