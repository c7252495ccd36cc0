import Verif.Model.Tetra
import Mathlib.Analysis.SpecialFunctions.Integrals.Basic
import Mathlib.Tactic.LinearCombination
import Mathlib.Tactic.FinCases

/-! # Properties C40–C42, C45: the linear tetrahedron method, one simplex -/

namespace Interphon.Props
open Py Interphon Interphon.Tetra MeasureTheory Set

noncomputable section

/-- The density (factor `g`) a branch contributes. -/
def density {m : ℕ} : Branch m → ℝ
  | .inside g _ => g
  | _ => 0

/-! ### C40 -/

/-- **C40 (1-D).** -/
theorem C40_weights_1d (f : ℝ) (w : Fin 2 → ℝ) (g : ℝ) (I : Fin 2 → ℝ) (h : branch1 f w = .inside g I) : ∑ i, I i = 1 := by
  unfold branch1 at h
  split_ifs at h with h1
  injection h with hg hI
  have : w 1 - w 0 ≠ 0 := by linarith [h1.1, h1.2]
  have : w 0 - w 1 ≠ 0 := by intro h; apply this; linarith
  rw [← hI, Fin.sum_univ_two]
  simp only [Matrix.cons_val_zero, Matrix.cons_val_one]
  field_simp
  ring

private theorem mono3 {w : Fin 3 → ℝ} (hw : Monotone w) : w 0 ≤ w 1 ∧ w 1 ≤ w 2 := ⟨hw (by decide), hw (by decide)⟩
private theorem mono4 {w : Fin 4 → ℝ} (hw : Monotone w) : w 0 ≤ w 1 ∧ w 1 ≤ w 2 ∧ w 2 ≤ w 3 := ⟨hw (by decide), hw (by decide), hw (by decide)⟩

/-- **C40 (2-D).** -/
theorem C40_weights_2d (f : ℝ) (w : Fin 3 → ℝ) (hw : Monotone w) (g : ℝ) (I : Fin 3 → ℝ) (h : branch2 f w = .inside g I) :
    ∑ i, I i = 1 := by
  obtain ⟨m1, m2⟩ := mono3 hw
  unfold branch2 at h
  split_ifs at h with h1 h2
  all_goals
    injection h with hg hI
    rw [← hI, Fin.sum_univ_three]
    simp only [Matrix.cons_val_zero, Matrix.cons_val_one, Matrix.cons_val]
  · have a1 : w 1 - w 0 ≠ 0 := by linarith [h1.1, h1.2]
    have a2 : w 2 - w 0 ≠ 0 := by linarith [h1.1, h1.2]
    rw [show w 0 - w 1 = -(w 1 - w 0) by ring, show w 0 - w 2 = -(w 2 - w 0) by ring]
    field_simp
    ring
  · have a1 : w 2 - w 1 ≠ 0 := by linarith [h2.1, h2.2]
    have a2 : w 2 - w 0 ≠ 0 := by linarith [h2.1, h2.2]
    rw [show w 1 - w 2 = -(w 2 - w 1) by ring, show w 0 - w 2 = -(w 2 - w 0) by ring]
    field_simp
    ring

/-- **C40 (3-D).** -/
theorem C40_weights_3d (f : ℝ) (w : Fin 4 → ℝ) (hw : Monotone w) (g : ℝ) (I : Fin 4 → ℝ) (h : branch3 f w = .inside g I) :
    ∑ i, I i = 1 := by
  obtain ⟨m1, m2, m3⟩ := mono4 hw
  unfold branch3 at h
  split_ifs at h with h1 h2 hg0 h3
  all_goals
    injection h with hg hI
    rw [← hI, Fin.sum_univ_four]
    simp only [Matrix.cons_val_zero, Matrix.cons_val_one, Matrix.cons_val]
  · have a1 : w 1 - w 0 ≠ 0 := by linarith [h1.1, h1.2]
    have a2 : w 2 - w 0 ≠ 0 := by linarith [h1.1, h1.2]
    have a3 : w 3 - w 0 ≠ 0 := by linarith [h1.1, h1.2]
    rw [show w 0 - w 1 = -(w 1 - w 0) by ring, show w 0 - w 2 = -(w 2 - w 0) by ring, show w 0 - w 3 = -(w 3 - w 0) by ring]
    field_simp
    ring
  · have a1 : w 2 - w 1 ≠ 0 := by linarith [h2.1, h2.2]
    have a2 : w 2 - w 0 ≠ 0 := by linarith [h2.1, h2.2]
    have a3 : w 3 - w 0 ≠ 0 := by linarith [h2.1, h2.2]
    have a4 : w 3 - w 1 ≠ 0 := by linarith [h2.1, h2.2]
    have hG : gMid f w * (w 3 - w 0) = 3 * ((f - w 1) * (f - w 3) / ((w 2 - w 1) * (w 1 - w 3)) + (f - w 0) * (f - w 2) / ((w 2 - w 0) * (w 1 - w 2))) := by
      unfold gMid; field_simp
    generalize gMid f w = G at *
    have hGn : G * (w 3 - w 0) ≠ 0 := mul_ne_zero hg0 a3
    have b1 : w 1 - w 2 ≠ 0 := by intro h; apply a1; linarith
    have b2 : w 0 - w 2 ≠ 0 := by intro h; apply a2; linarith
    have b3 : w 0 - w 3 ≠ 0 := by intro h; apply a3; linarith
    have b4 : w 1 - w 3 ≠ 0 := by intro h; apply a4; linarith
    have t02 : (f - w 2) / (w 0 - w 2) * (f - w 0) / (w 2 - w 0) * (f - w 2) / (w 1 - w 2) +
        (f - w 0) / (w 2 - w 0) * (f - w 0) / (w 2 - w 0) * (f - w 2) / (w 1 - w 2) =
        (f - w 0) * (f - w 2) / ((w 2 - w 0) * (w 1 - w 2)) := by
      rw [show w 0 - w 2 = -(w 2 - w 0) by ring]
      field_simp
      ring
    have t13 : (f - w 3) / (w 1 - w 3) * (f - w 3) / (w 1 - w 3) * (f - w 1) / (w 2 - w 1) +
        (f - w 1) / (w 3 - w 1) * (f - w 3) / (w 1 - w 3) * (f - w 1) / (w 2 - w 1) =
        (f - w 1) * (f - w 3) / ((w 2 - w 1) * (w 1 - w 3)) := by
      rw [show w 1 - w 3 = -(w 3 - w 1) by ring]
      field_simp
      ring
    have s03 : 1 / 3 * (f - w 3) / (w 0 - w 3) + 1 / 3 * (f - w 0) / (w 3 - w 0) = 1 / 3 := by
      rw [show w 0 - w 3 = -(w 3 - w 0) by ring]; field_simp; ring
    have s12 : 1 / 3 * (f - w 2) / (w 1 - w 2) + 1 / 3 * (f - w 1) / (w 2 - w 1) = 1 / 3 := by
      rw [show w 1 - w 2 = -(w 2 - w 1) by ring]; field_simp; ring
    simp only [div_div _ G]
    have fin : ∀ p q r s x y z u : ℝ, p + x / (G * (w 3 - w 0)) + (q + y / (G * (w 3 - w 0))) + (r + z / (G * (w 3 - w 0))) +
        (s + u / (G * (w 3 - w 0))) = (p + s) + (q + r) + ((x + z) + (y + u)) / (G * (w 3 - w 0)) := by
      intros; ring
    rw [fin, t02, t13, s03, s12, hG]
    rw [hG] at hGn
    have hGn' := right_ne_zero_of_mul hGn
    rw [add_comm ((f - w 0) * (f - w 2) / _)]
    generalize (f - w 1) * (f - w 3) / ((w 2 - w 1) * (w 1 - w 3)) + (f - w 0) * (f - w 2) / ((w 2 - w 0) * (w 1 - w 2)) = X at *
    field_simp
    ring
  · have a1 : w 3 - w 2 ≠ 0 := by linarith [h3.1, h3.2]
    have a2 : w 3 - w 0 ≠ 0 := by linarith [h3.1, h3.2]
    have a3 : w 3 - w 1 ≠ 0 := by linarith [h3.1, h3.2]
    rw [show w 0 - w 3 = -(w 3 - w 0) by ring, show w 1 - w 3 = -(w 3 - w 1) by ring, show w 2 - w 3 = -(w 3 - w 2) by ring]
    field_simp
    ring


example : branch3 2 ![0, 1, 3, 4] ≠ .skip := by
  unfold branch3
  simp [gMid]
  norm_num
  intro h
  cases h

/-! ### C41 -/

private theorem ratio_pos {a b : ℝ} (ha : 0 ≤ a) (hb : 0 ≤ b) : 0 ≤ a / b := div_nonneg ha hb
private theorem ratio_neg {a b : ℝ} (ha : a ≤ 0) (hb : b ≤ 0) : 0 ≤ a / b := div_nonneg_of_nonpos ha hb

/-- **C41 (1-D)**: density and weights are non-negative. -/
theorem C41_nonneg_1d (f : ℝ) (w : Fin 2 → ℝ) (g : ℝ) (I : Fin 2 → ℝ) (h : branch1 f w = .inside g I) :
    0 ≤ g ∧ ∀ i, 0 ≤ I i := by
  unfold branch1 at h
  split_ifs at h with h1
  injection h with hg hI
  obtain ⟨h1, h2⟩ := h1
  subst hg hI
  refine ⟨ratio_pos (by norm_num) (by linarith), ?_⟩
  intro i
  fin_cases i
  · exact ratio_neg (by linarith) (by linarith)
  · exact ratio_pos (by linarith) (by linarith)

/-- **C41 (2-D)**. -/
theorem C41_nonneg_2d (f : ℝ) (w : Fin 3 → ℝ) (hw : Monotone w) (g : ℝ) (I : Fin 3 → ℝ) (h : branch2 f w = .inside g I) :
    0 ≤ g ∧ ∀ i, 0 ≤ I i := by
  obtain ⟨m1, m2⟩ := mono3 hw
  unfold branch2 at h
  split_ifs at h with h1 h1
  all_goals
    injection h with hg hI
    obtain ⟨h1, h2⟩ := h1
    subst hg hI
  · refine ⟨ratio_pos (ratio_pos (by linarith) (by linarith)) (by linarith), ?_⟩
    intro i
    fin_cases i
    · exact mul_nonneg (by norm_num) (add_nonneg (ratio_neg (by linarith) (by linarith)) (ratio_neg (by linarith) (by linarith)))
    · exact ratio_pos (by linarith) (by linarith)
    · exact ratio_pos (by linarith) (by linarith)
  · refine ⟨ratio_pos (ratio_pos (by linarith) (by linarith)) (by linarith), ?_⟩
    intro i
    fin_cases i
    · exact ratio_neg (by linarith) (by linarith)
    · exact ratio_neg (by linarith) (by linarith)
    · exact mul_nonneg (by norm_num) (add_nonneg (ratio_pos (by linarith) (by linarith)) (ratio_pos (by linarith) (by linarith)))

private theorem gMid_nonneg (f : ℝ) (w : Fin 4 → ℝ) (hw : Monotone w) (h1 : w 1 ≤ f) (h2 : f < w 2) : 0 ≤ gMid f w := by
  obtain ⟨m1, m2, m3⟩ := mono4 hw
  unfold gMid
  refine mul_nonneg (ratio_pos (by norm_num) (by linarith)) (add_nonneg ?_ ?_)
  · exact ratio_neg (mul_nonpos_of_nonneg_of_nonpos (by linarith) (by linarith)) (mul_nonpos_of_nonneg_of_nonpos (by linarith) (by linarith))
  · exact ratio_neg (mul_nonpos_of_nonneg_of_nonpos (by linarith) (by linarith)) (mul_nonpos_of_nonneg_of_nonpos (by linarith) (by linarith))

/-- **C41 (3-D)**, wherever the branch is well defined. -/
theorem C41_nonneg_3d (f : ℝ) (w : Fin 4 → ℝ) (hw : Monotone w) (g : ℝ) (I : Fin 4 → ℝ) (h : branch3 f w = .inside g I) :
    0 ≤ g ∧ ∀ i, 0 ≤ I i := by
  obtain ⟨m1, m2, m3⟩ := mono4 hw
  unfold branch3 at h
  split_ifs at h with h1 h1 hg0 h1
  all_goals
    injection h with hg hI
    obtain ⟨h1, h2⟩ := h1
  · subst hg hI
    refine ⟨ratio_pos (ratio_pos (ratio_pos (by positivity) (by linarith)) (by linarith)) (by linarith), ?_⟩
    intro i
    fin_cases i
    · exact mul_nonneg (by norm_num) (add_nonneg (add_nonneg (ratio_neg (by linarith) (by linarith)) (ratio_neg (by linarith) (by linarith))) (ratio_neg (by linarith) (by linarith)))
    · exact ratio_pos (by linarith) (by linarith)
    · exact ratio_pos (by linarith) (by linarith)
    · exact ratio_pos (by linarith) (by linarith)
  · have hG := gMid_nonneg f w hw h1 h2
    have hd : 0 ≤ w 3 - w 0 := by linarith
    have r02 : 0 ≤ (f - w 2) / (w 0 - w 2) := ratio_neg (by linarith) (by linarith)
    have r20 : 0 ≤ (f - w 0) / (w 2 - w 0) := ratio_pos (by linarith) (by linarith)
    have r12 : 0 ≤ (f - w 2) / (w 1 - w 2) := ratio_neg (by linarith) (by linarith)
    have r21 : 0 ≤ (f - w 1) / (w 2 - w 1) := ratio_pos (by linarith) (by linarith)
    have r13 : 0 ≤ (f - w 3) / (w 1 - w 3) := ratio_neg (by linarith) (by linarith)
    have r31 : 0 ≤ (f - w 1) / (w 3 - w 1) := ratio_pos (by linarith) (by linarith)
    have r03 : 0 ≤ (f - w 3) / (w 0 - w 3) := ratio_neg (by linarith) (by linarith)
    have r30 : 0 ≤ (f - w 0) / (w 3 - w 0) := ratio_pos (by linarith) (by linarith)
    have key : ∀ p q a b c d e u v : ℝ, 0 ≤ p / q → 0 ≤ a → 0 ≤ b / c → 0 ≤ d / e → 0 ≤ u → 0 ≤ v →
        0 ≤ 1 / 3 * p / q + a * b / c * d / e / u / v := by
      intro p q a b c d e u v hp ha hb hdd hu hv
      have e : 1 / 3 * p / q + a * b / c * d / e / u / v = 1 / 3 * (p / q) + a * (b / c) * (d / e) / u / v := by ring
      rw [e]
      exact add_nonneg (mul_nonneg (by norm_num) hp) (ratio_pos (ratio_pos (mul_nonneg (mul_nonneg ha hb) hdd) hu) hv)
    subst hg hI
    refine ⟨hG, ?_⟩
    intro i
    fin_cases i
    · exact key _ _ _ _ _ _ _ _ _ r03 r02 r20 r12 hG hd
    · exact key _ _ _ _ _ _ _ _ _ r12 r13 r13 r21 hG hd
    · exact key _ _ _ _ _ _ _ _ _ r21 r20 r20 r12 hG hd
    · exact key _ _ _ _ _ _ _ _ _ r30 r31 r13 r21 hG hd
  · subst hg hI
    refine ⟨ratio_pos (ratio_pos (ratio_pos (by positivity) (by linarith)) (by linarith)) (by linarith), ?_⟩
    intro i
    fin_cases i
    · exact ratio_neg (by linarith) (by linarith)
    · exact ratio_neg (by linarith) (by linarith)
    · exact ratio_neg (by linarith) (by linarith)
    · exact mul_nonneg (by norm_num) (add_nonneg (add_nonneg (ratio_pos (by linarith) (by linarith)) (ratio_pos (by linarith) (by linarith))) (ratio_pos (by linarith) (by linarith)))

/-- What the rest of the code needs to know about the body of one simplex. -/
structure GoodBranch {k : ℕ} (br : ℝ → (Fin (k + 1) → ℝ) → Branch (k + 1)) : Prop where
  sum_one : ∀ f w g I, Monotone w → br f w = .inside g I → ∑ i, I i = 1
  nonneg : ∀ f w g I, Monotone w → br f w = .inside g I → 0 ≤ g ∧ ∀ i, 0 ≤ I i
  outside : ∀ f w, Monotone w → (f < w 0 ∨ w (Fin.last k) ≤ f) → br f w = .skip
  nan_vertex : ∀ f w, Monotone w → br f w = .nan → ∃ i, f = w i
  mass : ∀ w, Monotone w → w 0 < w (Fin.last k) →
    Integrable (fun f => density (br f w)) ∧ ∫ f, density (br f w) = 1

/-! ### C42 -/

private theorem quad_piece (a b α β γ : ℝ) (h : a ≤ b) :
    Integrable ((Ico a b).indicator fun x => α * x ^ 2 + β * x + γ) ∧
    ∫ x, (Ico a b).indicator (fun x => α * x ^ 2 + β * x + γ) x = α * (b ^ 3 - a ^ 3) / 3 + β * (b ^ 2 - a ^ 2) / 2 + γ * (b - a) := by
  have hc : Continuous fun x : ℝ => α * x ^ 2 + β * x + γ := by fun_prop
  constructor
  · rw [integrable_indicator_iff measurableSet_Ico]
    exact (hc.continuousOn.integrableOn_Icc (a := a) (b := b)).mono_set Ico_subset_Icc_self
  · rw [integral_indicator measurableSet_Ico, integral_Ico_eq_integral_Ioc, ← intervalIntegral.integral_of_le h]
    have hd : ∀ x ∈ uIcc a b, HasDerivAt (fun x : ℝ => α * x ^ 3 / 3 + β * x ^ 2 / 2 + γ * x) (α * x ^ 2 + β * x + γ) x := by
      intro x _
      have h1 := (((hasDerivAt_pow 3 x).const_mul α).div_const 3).add (((hasDerivAt_pow 2 x).const_mul β).div_const 2) |>.add ((hasDerivAt_id x).const_mul γ)
      exact h1.congr_deriv (by push_cast; ring)
    rw [intervalIntegral.integral_eq_sub_of_hasDerivAt hd (hc.intervalIntegrable _ _)]
    ring

/-- **C42 (1-D)**: a segment whose end frequencies differ carries unit weight. -/
theorem C42_unit_weight_1d (w : Fin 2 → ℝ) (hw : w 0 < w 1) :
    Integrable (fun f => density (branch1 f w)) ∧ ∫ f, density (branch1 f w) = 1 := by
  have e : (fun f => density (branch1 f w)) = (Ico (w 0) (w 1)).indicator fun x => 0 * x ^ 2 + 0 * x + 1 / (w 1 - w 0) := by
    funext f
    unfold branch1
    by_cases h : w 0 ≤ f ∧ f < w 1
    · rw [if_pos h, indicator_of_mem (show f ∈ Ico (w 0) (w 1) from h)]
      simp only [density]; ring
    · rw [if_neg h, indicator_of_notMem (show f ∉ Ico (w 0) (w 1) from h)]; rfl
  rw [e]
  obtain ⟨h1, h2⟩ := quad_piece (w 0) (w 1) 0 0 (1 / (w 1 - w 0)) hw.le
  refine ⟨h1, ?_⟩
  rw [h2]
  have : w 1 - w 0 ≠ 0 := by linarith
  field_simp
  try ring

/-- **C42 (2-D)**: also when two vertex frequencies coincide. -/
theorem C42_unit_weight_2d (w : Fin 3 → ℝ) (hm : Monotone w) (hw : w 0 < w 2) :
    Integrable (fun f => density (branch2 f w)) ∧ ∫ f, density (branch2 f w) = 1 := by
  obtain ⟨m1, m2⟩ := mono3 hm
  have e : (fun f => density (branch2 f w)) =
      (Ico (w 0) (w 1)).indicator (fun x => 0 * x ^ 2 + 2 / (w 1 - w 0) / (w 2 - w 0) * x + -(2 * w 0 / (w 1 - w 0) / (w 2 - w 0))) +
      (Ico (w 1) (w 2)).indicator (fun x => 0 * x ^ 2 + -(2 / (w 2 - w 1) / (w 2 - w 0)) * x + 2 * w 2 / (w 2 - w 1) / (w 2 - w 0)) := by
    funext f
    unfold branch2
    rw [Pi.add_apply]
    by_cases h : w 0 ≤ f ∧ f < w 1
    · rw [if_pos h, indicator_of_mem (show f ∈ Ico (w 0) (w 1) from h), indicator_of_notMem (show f ∉ Ico (w 1) (w 2) from fun hh => by have := hh.1; linarith [h.2])]
      simp only [density]; ring
    · rw [if_neg h, indicator_of_notMem (show f ∉ Ico (w 0) (w 1) from h)]
      by_cases h' : w 1 ≤ f ∧ f < w 2
      · rw [if_pos h', indicator_of_mem (show f ∈ Ico (w 1) (w 2) from h')]
        simp only [density]; ring
      · rw [if_neg h', indicator_of_notMem (show f ∉ Ico (w 1) (w 2) from h')]
        simp [density]
  rw [e]
  obtain ⟨i1, j1⟩ := quad_piece (w 0) (w 1) 0 (2 / (w 1 - w 0) / (w 2 - w 0)) (-(2 * w 0 / (w 1 - w 0) / (w 2 - w 0))) m1
  obtain ⟨i2, j2⟩ := quad_piece (w 1) (w 2) 0 (-(2 / (w 2 - w 1) / (w 2 - w 0))) (2 * w 2 / (w 2 - w 1) / (w 2 - w 0)) m2
  refine ⟨i1.add i2, ?_⟩
  rw [integral_add' i1 i2, j1, j2]
  have h20 : w 2 - w 0 ≠ 0 := by linarith
  have p1 : 0 * (w 1 ^ 3 - w 0 ^ 3) / 3 + 2 / (w 1 - w 0) / (w 2 - w 0) * (w 1 ^ 2 - w 0 ^ 2) / 2 + -(2 * w 0 / (w 1 - w 0) / (w 2 - w 0)) * (w 1 - w 0) =
      (w 1 - w 0) / (w 2 - w 0) := by
    rcases m1.eq_or_lt with h | h
    · simp [h]
    · have : w 1 - w 0 ≠ 0 := by linarith
      field_simp; ring
  have p2 : 0 * (w 2 ^ 3 - w 1 ^ 3) / 3 + -(2 / (w 2 - w 1) / (w 2 - w 0)) * (w 2 ^ 2 - w 1 ^ 2) / 2 + 2 * w 2 / (w 2 - w 1) / (w 2 - w 0) * (w 2 - w 1) =
      (w 2 - w 1) / (w 2 - w 0) := by
    rcases m2.eq_or_lt with h | h
    · simp [h]
    · have : w 2 - w 1 ≠ 0 := by linarith
      field_simp; ring
  rw [p1, p2]
  field_simp
  ring

/-- **C42 (3-D)**: also when two or three vertex frequencies coincide. -/
theorem C42_unit_weight_3d (w : Fin 4 → ℝ) (hm : Monotone w) (hw : w 0 < w 3) :
    Integrable (fun f => density (branch3 f w)) ∧ ∫ f, density (branch3 f w) = 1 := by
  obtain ⟨m1, m2, m3⟩ := mono4 hm
  set c1 := 3 / (w 1 - w 0) / (w 2 - w 0) / (w 3 - w 0) with hc1
  set c3 := 3 / (w 3 - w 0) / (w 3 - w 1) / (w 3 - w 2) with hc3
  set A := 3 / (w 3 - w 0) / ((w 2 - w 1) * (w 1 - w 3)) with hA
  set B := 3 / (w 3 - w 0) / ((w 2 - w 0) * (w 1 - w 2)) with hB
  have e : (fun f => density (branch3 f w)) =
      (Ico (w 0) (w 1)).indicator (fun x => c1 * x ^ 2 + -(2 * c1 * w 0) * x + c1 * w 0 ^ 2) +
      (Ico (w 1) (w 2)).indicator (fun x => (A + B) * x ^ 2 + -(A * (w 1 + w 3) + B * (w 0 + w 2)) * x + (A * (w 1 * w 3) + B * (w 0 * w 2))) +
      (Ico (w 2) (w 3)).indicator (fun x => c3 * x ^ 2 + -(2 * c3 * w 3) * x + c3 * w 3 ^ 2) := by
    funext f
    unfold branch3
    rw [Pi.add_apply, Pi.add_apply]
    by_cases h : w 0 ≤ f ∧ f < w 1
    · rw [if_pos h, indicator_of_mem (show f ∈ Ico (w 0) (w 1) from h), indicator_of_notMem (show f ∉ Ico (w 1) (w 2) from fun hh => by have := hh.1; linarith [h.2]),
        indicator_of_notMem (show f ∉ Ico (w 2) (w 3) from fun hh => by have := hh.1; linarith [h.2])]
      simp only [density, hc1]; ring
    · rw [if_neg h, indicator_of_notMem (show f ∉ Ico (w 0) (w 1) from h)]
      by_cases h' : w 1 ≤ f ∧ f < w 2
      · rw [if_pos h', indicator_of_mem (show f ∈ Ico (w 1) (w 2) from h'), indicator_of_notMem (show f ∉ Ico (w 2) (w 3) from fun hh => by have := hh.1; linarith [h'.2])]
        have hg : gMid f w = (A + B) * f ^ 2 + -(A * (w 1 + w 3) + B * (w 0 + w 2)) * f + (A * (w 1 * w 3) + B * (w 0 * w 2)) := by
          simp only [gMid, hA, hB]; ring
        split_ifs with h0
        · rw [← hg, h0]; simp [density]
        · simp only [density]; rw [hg]; ring
      · rw [if_neg h', indicator_of_notMem (show f ∉ Ico (w 1) (w 2) from h')]
        by_cases h'' : w 2 ≤ f ∧ f < w 3
        · rw [if_pos h'', indicator_of_mem (show f ∈ Ico (w 2) (w 3) from h'')]
          simp only [density, hc3]; ring
        · rw [if_neg h'', indicator_of_notMem (show f ∉ Ico (w 2) (w 3) from h'')]
          simp [density]
  rw [e]
  obtain ⟨i1, j1⟩ := quad_piece (w 0) (w 1) c1 (-(2 * c1 * w 0)) (c1 * w 0 ^ 2) m1
  obtain ⟨i2, j2⟩ := quad_piece (w 1) (w 2) (A + B) (-(A * (w 1 + w 3) + B * (w 0 + w 2))) (A * (w 1 * w 3) + B * (w 0 * w 2)) m2
  obtain ⟨i3, j3⟩ := quad_piece (w 2) (w 3) c3 (-(2 * c3 * w 3)) (c3 * w 3 ^ 2) m3
  refine ⟨(i1.add i2).add i3, ?_⟩
  rw [integral_add' (i1.add i2) i3, integral_add' i1 i2, j1, j2, j3]
  have h30 : w 3 - w 0 ≠ 0 := by linarith
  have p1 : c1 * (w 1 ^ 3 - w 0 ^ 3) / 3 + -(2 * c1 * w 0) * (w 1 ^ 2 - w 0 ^ 2) / 2 + c1 * w 0 ^ 2 * (w 1 - w 0) =
      (w 1 - w 0) ^ 2 / (w 2 - w 0) / (w 3 - w 0) := by
    rcases m1.eq_or_lt with h | h
    · simp [h]
    · have : w 1 - w 0 ≠ 0 := by linarith
      have : w 2 - w 0 ≠ 0 := by linarith
      rw [hc1]; field_simp; ring
  have p3 : c3 * (w 3 ^ 3 - w 2 ^ 3) / 3 + -(2 * c3 * w 3) * (w 3 ^ 2 - w 2 ^ 2) / 2 + c3 * w 3 ^ 2 * (w 3 - w 2) =
      (w 3 - w 2) ^ 2 / (w 3 - w 1) / (w 3 - w 0) := by
    rcases m3.eq_or_lt with h | h
    · simp [h]
    · have : w 3 - w 2 ≠ 0 := by linarith
      have : w 3 - w 1 ≠ 0 := by linarith
      rw [hc3]; field_simp; ring
  rw [p1, p3]
  rcases m2.eq_or_lt with h | h
  · rw [← h]
    rcases m1.eq_or_lt with h01 | h01
    · rw [← h01]
      have : w 3 - w 0 ≠ 0 := h30
      field_simp; ring
    · rcases m3.eq_or_lt with h23 | h23
      · rw [← h23, ← h]
        have : w 1 - w 0 ≠ 0 := by linarith
        field_simp; ring
      · have : w 1 - w 0 ≠ 0 := by linarith
        have : w 3 - w 1 ≠ 0 := by linarith
        field_simp; ring
  · have n1 : w 2 - w 1 ≠ 0 := by linarith
    have n2 : w 2 - w 0 ≠ 0 := by linarith
    have n3 : w 3 - w 1 ≠ 0 := by linarith
    rw [hA, hB, show w 1 - w 3 = -(w 3 - w 1) by ring, show w 1 - w 2 = -(w 2 - w 1) by ring]
    field_simp
    ring

/-- All three bodies are good. -/
theorem branch1_good : GoodBranch branch1 where
  sum_one := fun f w g I _ h => C40_weights_1d f w g I h
  nonneg := fun f w g I _ h => C41_nonneg_1d f w g I h
  outside := by
    intro f w hm h
    unfold branch1
    rw [if_neg]
    rintro ⟨h1, h2⟩
    rcases h with h | h
    · linarith
    · have : w (Fin.last 1) = w 1 := rfl
      rw [this] at h; linarith
  nan_vertex := by intro f w _ h; unfold branch1 at h; split_ifs at h
  mass := fun w _ hw => C42_unit_weight_1d w hw

theorem branch2_good : GoodBranch branch2 where
  sum_one := fun f w g I hm h => C40_weights_2d f w hm g I h
  nonneg := fun f w g I hm h => C41_nonneg_2d f w hm g I h
  outside := by
    intro f w hm h
    obtain ⟨m1, m2⟩ := mono3 hm
    have : w (Fin.last 2) = w 2 := rfl
    rw [this] at h
    unfold branch2
    rw [if_neg, if_neg]
    · rintro ⟨h1, h2⟩; rcases h with h | h <;> linarith
    · rintro ⟨h1, h2⟩; rcases h with h | h <;> linarith
  nan_vertex := by intro f w _ h; unfold branch2 at h; split_ifs at h
  mass := fun w hm hw => C42_unit_weight_2d w hm hw

/-- The NaN case of the 3-D middle branch: exactly when the frequency hits two coinciding lowest vertices. -/
theorem nan_iff (f : ℝ) (w : Fin 4 → ℝ) (hm : Monotone w) : branch3 f w = .nan ↔ f = w 0 ∧ w 0 = w 1 ∧ w 1 < w 2 := by
  obtain ⟨m1, m2, m3⟩ := mono4 hm
  unfold branch3
  constructor
  · intro h
    split_ifs at h with h1 h2 h3
    obtain ⟨h2, h2'⟩ := h2
    have t1 : 0 ≤ (f - w 1) * (f - w 3) / ((w 2 - w 1) * (w 1 - w 3)) :=
      ratio_neg (mul_nonpos_of_nonneg_of_nonpos (by linarith) (by linarith)) (mul_nonpos_of_nonneg_of_nonpos (by linarith) (by linarith))
    have t2 : 0 ≤ (f - w 0) * (f - w 2) / ((w 2 - w 0) * (w 1 - w 2)) :=
      ratio_neg (mul_nonpos_of_nonneg_of_nonpos (by linarith) (by linarith)) (mul_nonpos_of_nonneg_of_nonpos (by linarith) (by linarith))
    unfold gMid at h3
    have h30 : 3 / (w 3 - w 0) ≠ 0 := div_ne_zero (by norm_num) (by linarith)
    have hs := (mul_eq_zero.mp h3).resolve_left h30
    have z2 : (f - w 0) * (f - w 2) / ((w 2 - w 0) * (w 1 - w 2)) = 0 := by linarith
    have nz : (w 2 - w 0) * (w 1 - w 2) ≠ 0 := mul_ne_zero (by linarith) (by linarith)
    have := (div_eq_zero_iff.mp z2).resolve_right nz
    rcases mul_eq_zero.mp this with h | h
    · exact ⟨by linarith, by linarith, by linarith⟩
    · linarith
  · rintro ⟨rfl, h01, h12⟩
    rw [if_neg (by rintro ⟨-, h⟩; linarith), if_pos ⟨by linarith, by linarith⟩, if_pos]
    simp [gMid, h01]

theorem branch3_good : GoodBranch branch3 where
  sum_one := fun f w g I hm h => C40_weights_3d f w hm g I h
  nonneg := fun f w g I hm h => C41_nonneg_3d f w hm g I h
  outside := by
    intro f w hm h
    obtain ⟨m1, m2, m3⟩ := mono4 hm
    have : w (Fin.last 3) = w 3 := rfl
    rw [this] at h
    unfold branch3
    rw [if_neg, if_neg, if_neg]
    · rintro ⟨h1, h2⟩; rcases h with h | h <;> linarith
    · rintro ⟨h1, h2⟩; rcases h with h | h <;> linarith
    · rintro ⟨h1, h2⟩; rcases h with h | h <;> linarith
  nan_vertex := fun f w hm h => ⟨0, ((nan_iff f w hm).mp h).1⟩
  mass := fun w hm hw => C42_unit_weight_3d w hm hw
end

end Interphon.Props
