import Mathlib.Tactic.Linarith

/-! ASCII case mapping lemmas. -/

namespace Interphon

theorem toUpper_toLower (c : Char) : c.toLower.toUpper = c.toUpper := by
  apply Char.ext
  simp only [Char.toLower, Char.toUpper]
  have hA : 'A'.val = 65 := rfl
  have hZ : 'Z'.val = 90 := rfl
  have ha : 'a'.val = 97 := rfl
  have hz : 'z'.val = 122 := rfl
  simp only [hA, hZ, ha, hz]
  by_cases h1 : c.val ≥ 65 ∧ c.val ≤ 90
  · have h2 : ¬ (97 ≤ c.val ∧ c.val ≤ 122) := by
      simp only [ge_iff_le, UInt32.le_iff_toNat_le] at *
      simp at *; omega
    have h3 : 97 ≤ c.val + (97 - 65) ∧ c.val + (97 - 65) ≤ 122 := by
      simp only [ge_iff_le, UInt32.le_iff_toNat_le] at *
      simp at *; omega
    rw [dif_neg h2, dif_pos (by rw [dif_pos h1]; exact h3)]
    simp only [dif_pos h1]
    simp [UInt32.add_assoc]
  · simp only [dif_neg h1]

theorem toLower_toUpper (c : Char) : c.toUpper.toLower = c.toLower := by
  apply Char.ext
  simp only [Char.toLower, Char.toUpper]
  have hA : 'A'.val = 65 := rfl
  have hZ : 'Z'.val = 90 := rfl
  have ha : 'a'.val = 97 := rfl
  have hz : 'z'.val = 122 := rfl
  simp only [hA, hZ, ha, hz]
  by_cases h1 : 97 ≤ c.val ∧ c.val ≤ 122
  · have h2 : ¬ (c.val ≥ 65 ∧ c.val ≤ 90) := by
      simp only [ge_iff_le, UInt32.le_iff_toNat_le] at *
      simp at *; omega
    have h3 : c.val + (65 - 97) ≥ 65 ∧ c.val + (65 - 97) ≤ 90 := by
      simp only [ge_iff_le, UInt32.le_iff_toNat_le] at *
      simp at *; omega
    rw [dif_neg h2, dif_pos (by rw [dif_pos h1]; exact h3)]
    simp only [dif_pos h1]
    simp [UInt32.add_assoc]
  · simp only [dif_neg h1]

theorem toLower_toLower (c : Char) : c.toLower.toLower = c.toLower := by
  rw [← toLower_toUpper c.toLower, toUpper_toLower, toLower_toUpper]

end Interphon
