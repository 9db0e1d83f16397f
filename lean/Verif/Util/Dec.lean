/-! # Decimal notation is injective -/
namespace Verif

theorem digitChar_inj {a b : Nat} (ha : a < 10) (hb : b < 10) (h : a.digitChar = b.digitChar) : a = b := by
  have h1 := Nat.toNat_digitChar_of_lt_ten ha
  have h2 := Nat.toNat_digitChar_of_lt_ten hb
  rw [h] at h1; omega

theorem toDigits_inj {a b : Nat} (h : Nat.toDigits 10 a = Nat.toDigits 10 b) : a = b := by
  induction a using Nat.strongRecOn generalizing b with
  | ind a ih =>
    by_cases ha : a < 10
    · by_cases hb : b < 10
      · rw [Nat.toDigits_of_lt_base ha, Nat.toDigits_of_lt_base hb] at h
        exact digitChar_inj ha hb (by simpa using h)
      · rw [Nat.toDigits_of_lt_base ha, Nat.toDigits_of_base_le (by omega) (by omega)] at h
        have := congrArg List.length h
        have := Nat.length_toDigits_pos (b := 10) (n := b / 10)
        simp at *
    · by_cases hb : b < 10
      · rw [Nat.toDigits_of_lt_base hb, Nat.toDigits_of_base_le (by omega) (by omega)] at h
        have := congrArg List.length h
        have := Nat.length_toDigits_pos (b := 10) (n := a / 10)
        simp at *
      · rw [Nat.toDigits_of_base_le (n := a) (by omega) (by omega),
          Nat.toDigits_of_base_le (n := b) (by omega) (by omega)] at h
        obtain ⟨h1, h2⟩ := List.append_inj' h rfl
        have e1 := ih (a / 10) (by omega) h1
        have e2 := digitChar_inj (Nat.mod_lt _ (by omega)) (Nat.mod_lt _ (by omega)) (by simpa using h2)
        omega

theorem natRepr_inj {a b : Nat} (h : Nat.repr a = Nat.repr b) : a = b :=
  toDigits_inj (by rw [← Nat.toList_repr, ← Nat.toList_repr, h])

theorem toString_inj {a b : Nat} (h : toString a = toString b) : a = b := natRepr_inj h
end Verif
