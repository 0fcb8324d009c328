import Verif.Basic

/-! Decimal numerals are different for different numbers. -/

namespace SB

theorem digitChar_inj {a b : Nat} (ha : a < 10) (hb : b < 10) (h : a.digitChar = b.digitChar) : a = b := by
  have h1 := Nat.toNat_digitChar_sub_48_of_lt_ten ha
  rw [h, Nat.toNat_digitChar_sub_48_of_lt_ten hb] at h1
  exact h1.symm

theorem toDigits_inj : ∀ a b : Nat, Nat.toDigits 10 a = Nat.toDigits 10 b → a = b := by
  intro a
  induction a using Nat.strong_induction_on with
  | _ a ih =>
    intro b h
    by_cases ha : a < 10 <;> by_cases hb : b < 10
    · rw [Nat.toDigits_of_lt_base ha, Nat.toDigits_of_lt_base hb] at h
      exact digitChar_inj ha hb (by simpa using h)
    · rw [Nat.toDigits_of_lt_base ha, Nat.toDigits_of_base_le (by decide) (by omega)] at h
      have := congrArg List.length h
      have hp := Nat.length_toDigits_pos (b := 10) (n := b / 10)
      simp at this
    · rw [Nat.toDigits_of_lt_base hb, Nat.toDigits_of_base_le (by decide) (by omega)] at h
      have := congrArg List.length h
      have hp := Nat.length_toDigits_pos (b := 10) (n := a / 10)
      simp at this
    · rw [Nat.toDigits_of_base_le (by decide) (by omega), Nat.toDigits_of_base_le (n := b) (by decide) (by omega)] at h
      have h2 := List.append_inj' h rfl
      have hq := ih (a / 10) (by omega) (b / 10) h2.1
      have hr := digitChar_inj (Nat.mod_lt a (by decide)) (Nat.mod_lt b (by decide)) (by simpa using h2.2)
      omega

theorem toString_inj {a b : Nat} (h : (toString a).toList = (toString b).toList) : a = b := by
  have e : ∀ n : Nat, (toString n).toList = Nat.toDigits 10 n := fun n => Nat.toList_repr
  rw [e, e] at h
  exact toDigits_inj a b h

end SB
