import Verif.Model.Symmetry
import Mathlib.LinearAlgebra.Matrix.Determinant.Basic
import Mathlib.LinearAlgebra.Matrix.Notation
import Mathlib.Tactic.FinCases
import Mathlib.Tactic.LinearCombination
import Mathlib.Tactic.Linarith
import Mathlib.Tactic.IntervalCases

/-!
# The candidate operations: C66, C67, C68, C72
-/

namespace Interphon.Props
open Py Interphon Interphon.Symmetry

/-! ### C66 -/

/-- The entries -1, 0, 1. -/
def Small (n : ℤ) : Prop := n = -1 ∨ n = 0 ∨ n = 1

private theorem cand_small : ∀ W ∈ candidates, (W.a = -1 ∨ W.a = 0 ∨ W.a = 1) ∧ (W.b = -1 ∨ W.b = 0 ∨ W.b = 1) ∧
    (W.c = -1 ∨ W.c = 0 ∨ W.c = 1) ∧ (W.d = -1 ∨ W.d = 0 ∨ W.d = 1) ∧ (W.det = 1 ∨ W.det = -1) := by decide

private theorem small_cand : ∀ a ∈ [-1, 0, 1], ∀ b ∈ [-1, 0, 1], ∀ c ∈ [-1, 0, 1], ∀ d ∈ [-1, 0, 1],
    ((⟨a, b, c, d⟩ : Op).det = 1 ∨ (⟨a, b, c, d⟩ : Op).det = -1) → (⟨a, b, c, d⟩ : Op) ∈ candidates := by decide

theorem op_mat_det (W : Op) : W.mat.det = W.det := by simp [Op.mat, Op.det, Matrix.det_fin_two]

/-- **C66.**  The candidates are exactly the integer 2×2 matrices with entries in {-1, 0, 1} and determinant ±1. -/
theorem C66_candidates (M : Matrix (Fin 2) (Fin 2) ℤ) :
    (∃ W ∈ candidates, W.mat = M) ↔ (∀ i j, Small (M i j)) ∧ (M.det = 1 ∨ M.det = -1) := by
  constructor
  · rintro ⟨W, hW, rfl⟩
    obtain ⟨h1, h2, h3, h4, h5⟩ := cand_small W hW
    refine ⟨fun i j => ?_, by rw [op_mat_det]; exact h5⟩
    fin_cases i <;> fin_cases j <;> assumption
  · rintro ⟨h, hd⟩
    have hm : ∀ n, Small n → n ∈ [-1, 0, 1] := by
      intro n hn; simp only [List.mem_cons, List.not_mem_nil, or_false]; exact hn
    have e : (⟨M 0 0, M 0 1, M 1 0, M 1 1⟩ : Op).mat = M := by
      ext i j; fin_cases i <;> fin_cases j <;> rfl
    refine ⟨⟨M 0 0, M 0 1, M 1 0, M 1 1⟩, small_cand _ (hm _ (h 0 0)) _ (hm _ (h 0 1)) _ (hm _ (h 1 0)) _ (hm _ (h 1 1)) ?_, e⟩
    rw [← op_mat_det, e]; exact hd

/-- **C66** (no repetition): the matrices of the candidates are pairwise different. -/
theorem C66_nodup : (candidates.map Op.mat).Nodup := by
  have h : candidates.Nodup := by decide
  refine h.map fun W V e => ?_
  have h00 := congrFun (congrFun e 0) 0
  have h01 := congrFun (congrFun e 0) 1
  have h10 := congrFun (congrFun e 1) 0
  have h11 := congrFun (congrFun e 1) 1
  cases W; cases V
  simp only [Op.mat, Matrix.of_apply, Matrix.cons_val', Matrix.cons_val_zero, Matrix.cons_val_one, Matrix.cons_val_fin_one] at h00 h01 h10 h11
  subst h00 h01 h10 h11; rfl

/-- **C66** (closure): the inverse and the transpose of a candidate are candidates. -/
theorem C66_closed (M : Matrix (Fin 2) (Fin 2) ℤ) (h : ∃ W ∈ candidates, W.mat = M) :
    (∃ W ∈ candidates, W.mat = M.transpose) ∧ ∃ V ∈ candidates, V.mat * M = 1 ∧ M * V.mat = 1 := by
  constructor
  · rw [C66_candidates] at h ⊢
    exact ⟨fun i j => h.1 j i, by rw [Matrix.det_transpose]; exact h.2⟩
  · obtain ⟨W, hW, rfl⟩ := h
    have key : ∀ W ∈ candidates, ∃ V ∈ candidates, V.a * W.a + V.b * W.c = 1 ∧ V.a * W.b + V.b * W.d = 0 ∧ V.c * W.a + V.d * W.c = 0 ∧
        V.c * W.b + V.d * W.d = 1 ∧ W.a * V.a + W.b * V.c = 1 ∧ W.a * V.b + W.b * V.d = 0 ∧ W.c * V.a + W.d * V.c = 0 ∧
        W.c * V.b + W.d * V.d = 1 := by decide
    obtain ⟨V, hV, h1, h2, h3, h4, h5, h6, h7, h8⟩ := key W hW
    refine ⟨V, hV, ?_, ?_⟩
    · ext i j; fin_cases i <;> fin_cases j <;> simp [Op.mat, Matrix.mul_apply, Fin.sum_univ_two, h1, h2, h3, h4]
    · ext i j; fin_cases i <;> fin_cases j <;> simp [Op.mat, Matrix.mul_apply, Fin.sum_univ_two, h5, h6, h7, h8]

/-! ### Metric-preserving integer matrices -/

section
variable {K : Type*} [Field K] [LinearOrder K] [IsStrictOrderedRing K]

/-- The integer matrix `M` preserves the symmetric form `[[g, h], [h, k]]`: `Mᵀ G M = G`. -/
def Preserves (g h k : K) (M : Matrix (Fin 2) (Fin 2) ℤ) : Prop :=
  (M.map (fun n : ℤ => (n : K))).transpose * !![g, h; h, k] * M.map (fun n : ℤ => (n : K)) = !![g, h; h, k]

/-- Positive definite. -/
def PosDef (g h k : K) : Prop := 0 < g ∧ 0 < g * k - h * h

omit [LinearOrder K] [IsStrictOrderedRing K] in
theorem preserves_iff (g h k : K) (M : Matrix (Fin 2) (Fin 2) ℤ) : Preserves g h k M ↔
    (g * M 0 0 * M 0 0 + 2 * h * M 0 0 * M 1 0 + k * M 1 0 * M 1 0 = g ∧
     g * M 0 0 * M 0 1 + h * (M 0 0 * M 1 1 + M 1 0 * M 0 1) + k * M 1 0 * M 1 1 = h ∧
     g * M 0 1 * M 0 1 + 2 * h * M 0 1 * M 1 1 + k * M 1 1 * M 1 1 = k) := by
  unfold Preserves
  constructor
  · intro e
    have e00 := congrFun (congrFun e 0) 0
    have e01 := congrFun (congrFun e 0) 1
    have e11 := congrFun (congrFun e 1) 1
    simp [Matrix.mul_apply, Fin.sum_univ_two] at e00 e01 e11
    refine ⟨?_, ?_, ?_⟩
    · linear_combination e00
    · linear_combination e01
    · linear_combination e11
  · rintro ⟨h1, h2, h3⟩
    ext i j
    fin_cases i <;> fin_cases j <;> simp [Matrix.mul_apply, Fin.sum_univ_two]
    · linear_combination h1
    · linear_combination h2
    · linear_combination h2
    · linear_combination h3

theorem preserves_det {g h k : K} (hp : PosDef g h k) {M : Matrix (Fin 2) (Fin 2) ℤ} (hM : Preserves g h k M) : M.det = 1 ∨ M.det = -1 := by
  have hd := congrArg Matrix.det hM
  rw [Matrix.det_mul, Matrix.det_mul, Matrix.det_transpose] at hd
  have e : (M.map (fun n : ℤ => (n : K))).det = ((M.det : ℤ) : K) := by
    simp [Matrix.det_fin_two]
  have hG : (!![g, h; h, k] : Matrix (Fin 2) (Fin 2) K).det = g * k - h * h := by simp [Matrix.det_fin_two]
  rw [e, hG] at hd
  have h2 : ((M.det : ℤ) : K) * ((M.det : ℤ) : K) = 1 := by
    have := hp.2.ne'
    field_simp at hd
    have hz : (((M.det : ℤ) : K) * ((M.det : ℤ) : K) - 1) * (g * k - h * h) = 0 := by linear_combination hd
    rcases mul_eq_zero.1 hz with hz | hz
    · linear_combination hz
    · exact absurd hz this
  have h3 : M.det * M.det = 1 := by exact_mod_cast h2
  have h4 : (M.det - 1) * (M.det + 1) = 0 := by linear_combination h3
  rcases mul_eq_zero.1 h4 with h | h
  · left; omega
  · right; omega

/-- **C67.**  For a Lagrange-reduced cell (`|2h| ≤ g ≤ k`, `g > 0`) every integer matrix that preserves the metric is a candidate. -/
theorem C67_reduced_complete (g h k : K) (hg : 0 < g) (hgk : g ≤ k) (hh : |2 * h| ≤ g) (M : Matrix (Fin 2) (Fin 2) ℤ)
    (hM : Preserves g h k M) : ∃ W ∈ candidates, W.mat = M := by
  obtain ⟨hh1, hh2⟩ := abs_le.1 hh
  have hk : 0 < k := lt_of_lt_of_le hg hgk
  have hpd : PosDef g h k := ⟨hg, by nlinarith⟩
  have hdet := preserves_det hpd hM
  obtain ⟨e1, -, e3⟩ := (preserves_iff g h k M).1 hM
  rw [C66_candidates]
  refine ⟨?_, hdet⟩
  have hcross : ∀ x y : ℤ, -(g * (|(x : K)| * |(y : K)|)) ≤ 2 * h * x * y := by
    intro x y
    have h1 : |2 * h * x * y| ≤ g * (|(x : K)| * |(y : K)|) := by
      rw [abs_mul, abs_mul, mul_assoc]
      exact mul_le_mul_of_nonneg_right hh (by positivity)
    exact (abs_le.1 h1).1
  have hsq : ∀ x : ℤ, |(x : K)| * |(x : K)| = x * x := fun x => abs_mul_abs_self _
  -- the first column
  have col1 : M 0 0 ^ 2 - |M 0 0| * |M 1 0| + M 1 0 ^ 2 ≤ 1 := by
    have hc := hcross (M 0 0) (M 1 0)
    have h2 : g * (((M 0 0 ^ 2 - |M 0 0| * |M 1 0| + M 1 0 ^ 2 : ℤ) : K)) ≤ g * 1 := by
      push_cast
      have : g * ((M 1 0 : K) * M 1 0) ≤ k * ((M 1 0 : K) * M 1 0) := mul_le_mul_of_nonneg_right hgk (mul_self_nonneg _)
      nlinarith
    have h3 := le_of_mul_le_mul_left h2 hg
    exact_mod_cast h3
  have small_of : ∀ x y : ℤ, x ^ 2 - |x| * |y| + y ^ 2 ≤ 1 → Small x := by
    intro x y hxy
    have hx : |x| ≤ 1 := by
      by_contra hc
      have h2 : 2 ≤ |x| := by omega
      have h3 := sq_abs x
      have h4 := sq_abs y
      nlinarith [sq_nonneg (|x| - 2 * |y|)]
    obtain ⟨a, b⟩ := abs_le.1 hx
    unfold Small; omega
  have s00 : Small (M 0 0) := small_of _ _ col1
  have s10 : Small (M 1 0) := small_of _ (M 0 0) (by rw [mul_comm |M 1 0|]; linarith)
  -- the second column
  have s11 : Small (M 1 1) := by
    have hs : |M 1 1| ≤ 1 := by
      by_contra hc
      have h2 : (2 : ℤ) ≤ |M 1 1| := by omega
      have h2K : (2 : K) ≤ |(M 1 1 : K)| := by exact_mod_cast h2
      have hc' := hcross (M 0 1) (M 1 1)
      have hq := hsq (M 0 1)
      have hs' := hsq (M 1 1)
      set Q := |(M 0 1 : K)|
      set S := |(M 1 1 : K)|
      have h5 : k * (S * S - 1) ≤ g * (Q * S - Q * Q) := by nlinarith
      have h6 : Q * S - Q * Q ≤ S * S / 4 := by nlinarith [sq_nonneg (2 * Q - S)]
      have h7 : g * (Q * S - Q * Q) ≤ g * (S * S / 4) := mul_le_mul_of_nonneg_left h6 hg.le
      have h8 : g * (S * S / 4) ≤ k * (S * S / 4) := mul_le_mul_of_nonneg_right hgk (by positivity)
      have h9 : k * (S * S - 1) ≤ k * (S * S / 4) := by linarith
      have h10 := le_of_mul_le_mul_left h9 hk
      nlinarith
    obtain ⟨a, b⟩ := abs_le.1 hs
    unfold Small; omega
  have s01 : Small (M 0 1) := by
    have hd2 : M 0 0 * M 1 1 - M 0 1 * M 1 0 = 1 ∨ M 0 0 * M 1 1 - M 0 1 * M 1 0 = -1 := by
      rw [Matrix.det_fin_two] at hdet; exact hdet
    by_cases hz : M 1 1 = 0
    · rw [hz, mul_zero, zero_sub] at hd2
      rcases s10 with h10 | h10 | h10 <;> rw [h10] at hd2 <;> unfold Small <;> omega
    · have hone : (M 1 1 : K) * M 1 1 = 1 := by
        rcases s11 with h11 | h11 | h11
        · rw [h11]; norm_num
        · exact absurd h11 hz
        · rw [h11]; norm_num
      have hq : (M 0 1 : K) * (g * M 0 1 + 2 * h * M 1 1) = 0 := by linear_combination e3 - k * hone
      rcases mul_eq_zero.1 hq with hq | hq
      · right; left; exact_mod_cast hq
      · have h1 : |(M 0 1 : K)| ≤ 1 := by
          have hs1 : |(M 1 1 : K)| = 1 := by
            have := hsq (M 1 1)
            rw [hone] at this
            nlinarith [abs_nonneg (M 1 1 : K)]
          have h2 : g * |(M 0 1 : K)| ≤ g * 1 := by
            have : g * |(M 0 1 : K)| = |2 * h * M 1 1| := by
              have e : g * |(M 0 1 : K)| = |g * (M 0 1 : K)| := by rw [abs_mul, abs_of_pos hg]
              rw [e, show g * (M 0 1 : K) = -(2 * h * M 1 1) by linear_combination hq, abs_neg]
            rw [this, abs_mul, hs1]; linarith
          exact le_of_mul_le_mul_left h2 hg
        have h2 : |M 0 1| ≤ 1 := by exact_mod_cast h1
        obtain ⟨a, b⟩ := abs_le.1 h2
        unfold Small; omega
  intro i j
  fin_cases i <;> fin_cases j <;> assumption

/-- Reducedness matters: the square lattice in the basis `(1, 0)`, `(2, 1)` has a rotation by 90° that is no candidate. -/
theorem C67_unreduced_incomplete : Preserves (1 : ℚ) 2 5 !![-2, -5; 1, 2] ∧ ¬∃ W ∈ candidates, W.mat = !![-2, -5; 1, 2] := by
  refine ⟨?_, ?_⟩
  · rw [preserves_iff]; norm_num
  · rw [C66_candidates]
    rintro ⟨h, -⟩
    have := h 0 0
    simp [Small] at this

/-! ### C68 -/


/-- What a metric-preserving proper integer matrix satisfies. -/
private theorem proper_facts {g h k : K} (hp : PosDef g h k) {M : Matrix (Fin 2) (Fin 2) ℤ} (hM : Preserves g h k M) (hd : M.det = 1) :
    g * (M 0 0 - M 1 1) + 2 * h * M 1 0 = 0 ∧ g * M 0 1 + k * M 1 0 = 0 := by
  obtain ⟨e1, e2, e3⟩ := (preserves_iff g h k M).1 hM
  have hd' : (M 0 0 : K) * M 1 1 - M 0 1 * M 1 0 = 1 := by
    have := hd; rw [Matrix.det_fin_two] at this; exact_mod_cast this
  constructor
  · linear_combination (M 1 1 : K) * e1 - (M 1 0 : K) * e2 - (g * M 0 0 + h * M 1 0) * hd'
  · linear_combination (-(M 1 0 : K)) * e3 + (M 1 1 : K) * e2 - (g * M 0 1 + h * M 1 1) * hd'

/-- **C68** (classification).  An integer matrix that preserves a positive-definite metric is a mirror (determinant -1, trace 0), the
identity, or a rotation of order 2, 3, 4 or 6 — read off from the trace. -/
theorem C68_crystallographic {g h k : K} (hp : PosDef g h k) {M : Matrix (Fin 2) (Fin 2) ℤ} (hM : Preserves g h k M) :
    (M.det = -1 ∧ M.trace = 0 ∧ M ^ 2 = 1) ∨
    (M.det = 1 ∧ ((M.trace = 2 ∧ M = 1) ∨ (M.trace = -2 ∧ M = -1) ∨ (M.trace = -1 ∧ M ^ 3 = 1) ∨ (M.trace = 0 ∧ M ^ 2 = -1) ∨
      (M.trace = 1 ∧ M ^ 3 = -1))) := by
  have hCH : ∀ t d : ℤ, M.trace = t → M.det = d → M ^ 2 = t • M - d • (1 : Matrix (Fin 2) (Fin 2) ℤ) := by
    rintro t d rfl rfl
    rw [Matrix.trace_fin_two, Matrix.det_fin_two, pow_two]
    ext i j
    fin_cases i <;> fin_cases j <;>
      simp only [Matrix.sub_apply, Matrix.smul_apply, smul_eq_mul, Matrix.mul_apply, Fin.sum_univ_two, Matrix.one_apply, Fin.zero_eta,
        Fin.mk_one, Fin.isValue, if_true, zero_ne_one, one_ne_zero, if_false] <;> ring
  have hg := hp.1
  rcases preserves_det hp hM with hd | hd
  · right
    obtain ⟨f1, f2⟩ := proper_facts hp hM hd
    have hd' : M 0 0 * M 1 1 - M 0 1 * M 1 0 = 1 := by rw [← Matrix.det_fin_two]; exact hd
    have key : g * g * (((M 0 0 + M 1 1) ^ 2 - 4 : ℤ) : K) = -(4 * (M 1 0 : K) ^ 2 * (g * k - h * h)) := by
      have hd'' : (M 0 0 : K) * M 1 1 - M 0 1 * M 1 0 = 1 := by exact_mod_cast hd'
      push_cast
      linear_combination (g * (M 0 0 - M 1 1) - 2 * h * M 1 0) * f1 + 4 * g * M 1 0 * f2 + 4 * g * g * hd''
    have hle : (M 0 0 + M 1 1) ^ 2 - 4 ≤ 0 := by
      have h1 : g * g * (((M 0 0 + M 1 1) ^ 2 - 4 : ℤ) : K) ≤ 0 := by
        rw [key]; have := hp.2; have : 0 ≤ 4 * (M 1 0 : K) ^ 2 * (g * k - h * h) := by positivity
        linarith
      have h2 : (((M 0 0 + M 1 1) ^ 2 - 4 : ℤ) : K) ≤ 0 := by
        by_contra hc; push Not at hc
        have : 0 < g * g * (((M 0 0 + M 1 1) ^ 2 - 4 : ℤ) : K) := mul_pos (mul_pos hg hg) hc
        linarith
      exact_mod_cast h2
    have hdiag : ((M 0 0 + M 1 1) ^ 2 = 4) → M 1 0 = 0 ∧ M 0 1 = 0 ∧ M 0 0 = M 1 1 := by
      intro h4
      rw [h4] at key
      have h10 : M 1 0 = 0 := by
        have : (M 1 0 : K) ^ 2 * (g * k - h * h) = 0 := by
          simp at key; rcases key with h | h
          · rw [h]; simp
          · rw [h]; simp
        rcases mul_eq_zero.1 this with h | h
        · exact_mod_cast pow_eq_zero_iff (two_ne_zero) |>.1 h
        · exact absurd h hp.2.ne'
      rw [h10] at f1 f2
      refine ⟨h10, ?_, ?_⟩
      · have : g * (M 0 1 : K) = 0 := by simpa using f2
        exact_mod_cast (mul_eq_zero.1 this).resolve_left hg.ne'
      · have : g * ((M 0 0 : K) - M 1 1) = 0 := by simpa using f1
        have := (mul_eq_zero.1 this).resolve_left hg.ne'
        exact_mod_cast sub_eq_zero.1 this
    refine ⟨hd, ?_⟩
    have hb : -2 ≤ M 0 0 + M 1 1 ∧ M 0 0 + M 1 1 ≤ 2 := by constructor <;> nlinarith
    have htr := Matrix.trace_fin_two M
    obtain ⟨b1, b2⟩ := hb
    rw [← htr] at b1 b2 hdiag
    obtain ⟨t, ht⟩ : ∃ t, M.trace = t := ⟨_, rfl⟩
    rw [ht] at b1 b2 hdiag ⊢
    have h3 : ∀ s : ℤ, M ^ 2 = s • M - 1 → M ^ 3 = (s * s - 1) • M - s • 1 := by
      intro s hs
      rw [pow_succ, hs, sub_mul, smul_mul_assoc, ← pow_two, hs, one_mul, smul_sub, smul_smul]
      module
    have hsq := hCH t 1 ht hd
    rw [one_smul] at hsq
    interval_cases t
    · obtain ⟨c1, c2, c3⟩ := hdiag (by norm_num)
      right; left
      refine ⟨rfl, ?_⟩
      ext i j; fin_cases i <;> fin_cases j <;> simp [c1, c2] <;> omega
    · right; right; left
      refine ⟨rfl, ?_⟩
      rw [h3 _ hsq]; simp
    · right; right; right; left
      exact ⟨rfl, by rw [hsq]; simp⟩
    · right; right; right; right
      refine ⟨rfl, ?_⟩
      rw [h3 _ hsq]; simp
    · obtain ⟨c1, c2, c3⟩ := hdiag (by norm_num)
      left
      refine ⟨rfl, ?_⟩
      ext i j; fin_cases i <;> fin_cases j <;> simp [c1, c2] <;> omega
  · left
    obtain ⟨e1, e2, e3⟩ := (preserves_iff g h k M).1 hM
    have hd' : (M 0 0 : K) * M 1 1 - M 0 1 * M 1 0 = -1 := by
      have := hd; rw [Matrix.det_fin_two] at this; exact_mod_cast this
    have f : g * ((M 0 0 : K) + M 1 1) = 0 := by
      linear_combination (-(M 1 1 : K)) * e1 + (M 1 0 : K) * e2 + (g * M 0 0 + h * M 1 0) * hd'
    have ht : M.trace = 0 := by
      rw [Matrix.trace_fin_two]; exact_mod_cast (mul_eq_zero.1 f).resolve_left hg.ne'
    refine ⟨hd, ht, ?_⟩
    rw [hCH 0 (-1) ht hd]; simp

/-- **C68** (order).  Such a matrix has finite order dividing 4 or 6, so a loop over its powers returns to the identity. -/
theorem C68_order {g h k : K} (hp : PosDef g h k) {M : Matrix (Fin 2) (Fin 2) ℤ} (hM : Preserves g h k M) : M ^ 4 = 1 ∨ M ^ 6 = 1 := by
  have six : M ^ 6 = (M ^ 3) ^ 2 := by rw [← pow_mul]
  have four : M ^ 4 = (M ^ 2) ^ 2 := by rw [← pow_mul]
  rcases C68_crystallographic hp hM with ⟨-, -, h⟩ | ⟨-, ⟨-, h⟩ | ⟨-, h⟩ | ⟨-, h⟩ | ⟨-, h⟩ | ⟨-, h⟩⟩
  · left; rw [four, h]; simp
  · left; rw [h, one_pow]
  · left; rw [h]; decide
  · right; rw [six, h]; simp
  · left; rw [four, h]; simp
  · right; rw [six, h]; simp

/-- **C68** (look-up).  A candidate that preserves a positive-definite metric is found in the look-up table. -/
theorem C68_lookUp {g h k : K} (hp : PosDef g h k) (W : Op) (hW : Preserves g h k W.mat) : (lookUp W).isSome := by
  have ht : W.mat.trace = W.trace := by simp [Op.mat, Op.trace, Matrix.trace_fin_two]
  have key := C68_crystallographic hp hW
  rw [ht, op_mat_det] at key
  rcases key with ⟨h1, h2, -⟩ | ⟨h1, ⟨h2, -⟩ | ⟨h2, -⟩ | ⟨h2, -⟩ | ⟨h2, -⟩ | ⟨h2, -⟩⟩ <;> rw [lookUp, h1, h2] <;> decide

/-- The hexagonal metric is preserved by a rotation of order 6. -/
example : PosDef (2 : ℚ) (-1) 2 ∧ Preserves (2 : ℚ) (-1) 2 !![1, -1; 1, 0] ∧ (!![1, -1; 1, 0] : Matrix (Fin 2) (Fin 2) ℤ).trace = 1 := by
  refine ⟨by norm_num [PosDef], ?_, by decide⟩
  rw [preserves_iff]; norm_num

/-- Lagrange reduced, edges of at least 0.01 length units. -/
def Reduced (G : K × K × K) : Prop := 1 / 10 ^ 4 ≤ G.1 ∧ G.1 ≤ G.2.2 ∧ 2 * |G.2.1| ≤ G.1

/-- `np.allclose` on numbers. -/
private theorem close_le {a b : K} {tol : K} [FloorRing K] (h : close tol a b = true) : |a - b| ≤ tol + 1 / 10 ^ 5 * |b| := by
  simpa [close] using h

private theorem abs_bd {x y : K} (h : |x| ≤ y) : x ≤ y ∧ -y ≤ x := ⟨(abs_le.1 h).2, (abs_le.1 h).1⟩

/-- **C68** (with the tolerance of the code).  For a Lagrange-reduced cell the operations that pass the metric test of the code, within its
tolerance, are all found in the look-up table and have finite order (shears, which the look-up table would count as the identity, are
never accepted). -/
theorem C68_accepted [FloorRing K] (G : K × K × K) (hG : Reduced G) (W : Op) (hW : W ∈ candidates) (hk : keepsMetric G W = true) :
    (lookUp W).isSome ∧ (W.mat ^ 4 = 1 ∨ W.mat ^ 6 = 1) := by
  obtain ⟨g, h, k⟩ := G
  obtain ⟨r1, r2, r3⟩ := hG
  simp only at r1 r2 r3
  simp only [keepsMetric, Bool.and_eq_true] at hk
  obtain ⟨⟨k1, k2⟩, k3⟩ := hk
  replace k1 := close_le k1
  replace k2 := close_le k2
  replace k3 := close_le k3
  simp only [rotateMetric] at k1 k2 k3
  have r3' : |h| ≤ g / 2 := by linarith
  obtain ⟨r4, r5⟩ := abs_bd r3'
  by_cases hl : (lookUp W).isSome ∧ (W.mat ^ 4 = 1 ∨ W.mat ^ 6 = 1)
  · exact hl
  · exfalso
    have cases16 : ∀ W ∈ candidates, ¬((lookUp W).isSome ∧ (W.mat ^ 4 = 1 ∨ W.mat ^ 6 = 1)) →
        W ∈ ([⟨0, 1, 1, 1⟩, ⟨0, 1, 1, -1⟩, ⟨0, -1, -1, 1⟩, ⟨0, -1, -1, -1⟩, ⟨1, 0, 1, 1⟩, ⟨1, 0, -1, 1⟩, ⟨-1, 0, 1, -1⟩,
          ⟨-1, 0, -1, -1⟩, ⟨1, 1, 0, 1⟩, ⟨1, -1, 0, 1⟩, ⟨-1, 1, 0, -1⟩, ⟨-1, -1, 0, -1⟩, ⟨1, 1, 1, 0⟩, ⟨1, -1, -1, 0⟩, ⟨-1, 1, 1, 0⟩,
          ⟨-1, -1, -1, 0⟩] : List Op) := by decide +kernel
    have hm := cases16 W hW hl
    simp only [List.mem_cons, List.not_mem_nil, or_false] at hm
    have fin : ∀ B R, 1 / 10 ^ 4 ≤ B → |h - R| ≤ 1 / 10 ^ 6 + 1 / 10 ^ 5 * |R| → -(3 / 2 * B) ≤ R → R ≤ 3 / 2 * B →
        (h - R = B ∨ h - R = -B) → False := by
      intro B R hB hR a b hc
      have hR' : |R| ≤ 3 / 2 * B := abs_le.2 ⟨a, b⟩
      have h2 : |h - R| = B := by
        have hB0 : (0 : K) ≤ B := le_trans (by positivity) hB
        rcases hc with e | e
        · rw [e, abs_of_nonneg hB0]
        · rw [e, abs_neg, abs_of_nonneg hB0]
      rw [h2] at hR
      norm_num at hR hB
      linarith
    have hk4 : 1 / 10 ^ 4 ≤ k := r1.trans r2
    clear cases16 hl hW k1 k3
    rcases hm with rfl | rfl | rfl | rfl | rfl | rfl | rfl | rfl | rfl | rfl | rfl | rfl | rfl | rfl | rfl | rfl <;>
      simp only [Int.cast_zero, Int.cast_one, Int.cast_neg, zero_mul, one_mul, mul_zero, mul_one, zero_add, add_zero, neg_mul, mul_neg,
        neg_neg] at k2 <;>
      first
      | (refine fin g _ r1 k2 ?_ ?_ ?_ <;> first | linarith | (left; linarith) | (right; linarith); done)
      | (refine fin k _ hk4 k2 ?_ ?_ ?_ <;> first | linarith | (left; linarith) | (right; linarith); done)

/-- **C68**, the classification of the code: for a Lagrange-reduced periodic plane the search never meets an unknown operation
(`assert False`). -/
theorem C68_search_no_assert [FloorRing K] (s : Input K) (hr : ∀ i j, axes s.period = [i, j] →
    Reduced (s.lattice i i ^ 2 + s.lattice i j ^ 2, s.lattice i i * s.lattice j i + s.lattice i j * s.lattice j j, s.lattice j i ^ 2 + s.lattice j j ^ 2)) :
    searchPointGroup s ≠ .error .assertionError := by
  replace hr : ∀ i j, axes s.period = [i, j] → Reduced (metric s.lattice i j) := fun i j h => by
    have := hr i j h; simp only [sq] at this; exact this
  unfold searchPointGroup
  split
  · rename_i i j hax
    split
    · simp
    · have hall : ∀ n, ((recorded s i j n).map Prod.fst).all (fun W => (lookUp W).isSome) = true := by
        intro n
        rw [List.all_eq_true]
        intro W hW
        obtain ⟨r, hr', rfl⟩ := List.mem_map.1 hW
        obtain ⟨hm, -⟩ := List.mem_filter.1 hr'
        obtain ⟨V, hV, rfl⟩ := List.mem_map.1 hm
        obtain ⟨hc, hk⟩ := List.mem_filter.1 hV
        exact (C68_accepted _ (hr i j hax) V hc hk).1
      simp only [lookUpTable, hall, if_true]
      split
      · rename_i e he; intro h; simp at h; rw [h] at he; unfold groupName at he; split at he <;> simp at he
      · simp
  · simp

/-- The hexagonal lattice with edges 3 is Lagrange reduced. -/
example : Reduced (metric (K := ℚ) (fun i j => if i = 0 ∧ j = 0 then 3 else if i = 1 ∧ j = 0 then -3 / 2 else if i = 1 ∧ j = 1 then 26 / 10 else
    if i = 2 ∧ j = 2 then 20 else 0) 0 1) := by
  unfold Reduced metric; norm_num [Fin.ext_iff]

end

/-! ### C72 -/

/-- Product of two operations. -/
private def omul (V W : Op) : Op := ⟨V.a * W.a + V.b * W.c, V.a * W.b + V.b * W.d, V.c * W.a + V.d * W.c, V.c * W.b + V.d * W.d⟩

private theorem omul_mat (V W : Op) : (omul V W).mat = V.mat * W.mat := by
  ext i j; fin_cases i <;> fin_cases j <;> simp [omul, Op.mat, Matrix.mul_apply, Fin.sum_univ_two]

private theorem mat_inj {V W : Op} (e : V.mat = W.mat) : V = W := by
  have h00 := congrFun (congrFun e 0) 0
  have h01 := congrFun (congrFun e 0) 1
  have h10 := congrFun (congrFun e 1) 0
  have h11 := congrFun (congrFun e 1) 1
  cases W; cases V
  simp only [Op.mat, Matrix.of_apply, Matrix.cons_val', Matrix.cons_val_zero, Matrix.cons_val_one, Matrix.cons_val_fin_one] at h00 h01 h10 h11
  subst h00 h01 h10 h11; rfl

/-- The ten 2-D crystallographic point groups in the notation of the program: `n` rotations, with or without mirrors. -/
def pointGroupName (rotations : ℕ) (mirrors : Bool) : Option Str :=
  match rotations, mirrors with
  | 1, false => some "1".toList
  | 2, false => some "2".toList
  | 3, false => some "3".toList
  | 4, false => some "4".toList
  | 6, false => some "6".toList
  | 1, true => some "m".toList
  | 2, true => some "2mm".toList
  | 3, true => some "3m".toList
  | 4, true => some "4mm".toList
  | 6, true => some "6mm".toList
  | _, _ => none

/-- A set of operations of one crystal: distinct candidates, not empty, closed under composition. -/
structure IsGroup (ops : List Op) : Prop where
  nodup : ops.Nodup
  cand : ∀ W ∈ ops, W ∈ candidates
  nonempty : ops ≠ []
  closed : ∀ V ∈ ops, ∀ W ∈ ops, ∃ U ∈ ops, U.mat = V.mat * W.mat

private theorem closed' {ops : List Op} (h : IsGroup ops) {V W : Op} (hV : V ∈ ops) (hW : W ∈ ops) : omul V W ∈ ops := by
  obtain ⟨U, hU, e⟩ := h.closed V hV W hW
  rw [← omul_mat] at e
  rwa [← mat_inj e]

private def one' : Op := ⟨1, 0, 0, 1⟩
private def neg' : Op := ⟨-1, 0, 0, -1⟩

/-- The candidates whose square is a candidate: the 24 operations of finite order. -/
private def crys : List Op := candidates.filter (fun W => omul W W ∈ candidates)

private theorem k_known : ∀ W ∈ crys, (lookUp W).isSome = true := by decide

private theorem k_one : ∀ W ∈ crys,
    one' = W ∨ one' = omul W W ∨ one' = omul (omul W W) W ∨ one' = omul (omul W W) (omul W W) ∨
      one' = omul (omul (omul W W) W) (omul (omul W W) W) := by decide

private theorem mem_crys {ops : List Op} (h : IsGroup ops) {W : Op} (hW : W ∈ ops) : W ∈ crys :=
  List.mem_filter.2 ⟨h.cand W hW, by simpa using h.cand _ (closed' h hW hW)⟩

private theorem one_mem {ops : List Op} (h : IsGroup ops) : one' ∈ ops := by
  obtain ⟨W, hW⟩ := List.exists_mem_of_ne_nil _ h.nonempty
  have h2 := closed' h hW hW
  have h3 := closed' h h2 hW
  rcases k_one W (mem_crys h hW) with e | e | e | e | e <;> rw [e]
  · exact hW
  · exact h2
  · exact h3
  · exact closed' h h2 h2
  · exact closed' h h3 h3

/-- Counting by a list of the possible members. -/
private theorem count_eq {ops : List Op} (hn : ops.Nodup) (p : Op → Bool) (l : List Op) (hl : l.Nodup) (hm : ∀ W, W ∈ l ↔ W ∈ ops ∧ p W = true) :
    ops.countP p = l.length := by
  rw [List.countP_eq_length_filter]
  exact (List.perm_of_nodup_nodup_toFinset_eq (hn.filter _) hl (by ext W; simp [hm])).length_eq

private theorem k_r1 : lookUp one' = some 1 ∧ ∀ W ∈ crys, lookUp W = some 1 → W = one' := by decide
private theorem k_r2 : lookUp neg' = some 2 ∧ ∀ W ∈ crys, lookUp W = some 2 → W = neg' := by decide
private theorem k_r4 : ∀ V ∈ crys, lookUp V = some 4 → omul V V = neg' ∧ lookUp (omul V neg') = some 4 ∧ V ≠ omul V neg' ∧
    ∀ W ∈ crys, lookUp W = some 4 → W = V ∨ W = omul V neg' := by decide
private theorem k_r3 : ∀ V ∈ crys, lookUp V = some 3 → lookUp (omul V V) = some 3 ∧ V ≠ omul V V ∧
    ∀ W ∈ crys, lookUp W = some 3 → W = V ∨ W = omul V V ∨ omul V W ∉ crys ∨ omul (omul V V) W ∉ crys := by decide +kernel
private theorem k_r34 : ∀ V ∈ crys, lookUp V = some 3 → ∀ W ∈ crys, lookUp W = some 4 → omul V W ∉ crys := by decide +kernel
private theorem k_r6 : ∀ V ∈ crys, lookUp V = some 5 → omul (omul V V) V = neg' ∧ lookUp (omul V neg') = some 3 ∧
    omul (omul V neg') neg' = V := by decide
private theorem k_r36 : ∀ V ∈ crys, lookUp V = some 3 → lookUp (omul V neg') = some 5 ∧ omul (omul V neg') neg' = V := by decide
private theorem k_m : ∀ M ∈ crys, lookUp M = some 0 → omul M M = one' := by decide
private theorem k_mr : ∀ M ∈ crys, lookUp M = some 0 → ∀ V ∈ crys, omul M (omul M V) = V ∧
    (omul M V ∈ crys → (lookUp (omul M V) = some 0 ↔ lookUp V ≠ some 0)) := by decide +kernel

private abbrev cnt (ops : List Op) (k : Fin 6) : ℕ := ops.countP (fun W => decide (lookUp W = some k))

private theorem cnt_zero {ops : List Op} {k : Fin 6} (h : ∀ V ∈ ops, lookUp V ≠ some k) : cnt ops k = 0 := by
  unfold cnt; rw [List.countP_eq_zero]; intro V hV; simpa using h V hV

private theorem cnt_one {ops : List Op} (h : IsGroup ops) : cnt ops 1 = 1 :=
  count_eq h.nodup _ [one'] (by simp) (fun W => by
    simp only [List.mem_singleton, decide_eq_true_eq]
    exact ⟨fun e => e ▸ ⟨one_mem h, k_r1.1⟩, fun ⟨a, b⟩ => k_r1.2 W (mem_crys h a) b⟩)

private theorem cnt_two {ops : List Op} (h : IsGroup ops) : cnt ops 2 = if neg' ∈ ops then 1 else 0 := by
  split
  · rename_i hn
    exact count_eq h.nodup _ [neg'] (by simp) (fun W => by
      simp only [List.mem_singleton, decide_eq_true_eq]
      exact ⟨fun e => e ▸ ⟨hn, k_r2.1⟩, fun ⟨a, b⟩ => k_r2.2 W (mem_crys h a) b⟩)
  · rename_i hn
    exact cnt_zero fun V hV e => hn (k_r2.2 V (mem_crys h hV) e ▸ hV)

private theorem cnt_three {ops : List Op} (h : IsGroup ops) {V : Op} (hV : V ∈ ops) (e : lookUp V = some 3) :
    cnt ops 3 = 2 ∧ ∀ W, (W ∈ ops ∧ lookUp W = some 3) ↔ W = V ∨ W = omul V V := by
  obtain ⟨k1, k2, k3⟩ := k_r3 V (mem_crys h hV) e
  have hiff : ∀ W, (W ∈ ops ∧ lookUp W = some 3) ↔ W = V ∨ W = omul V V := by
    intro W
    constructor
    · rintro ⟨hW, hl⟩
      rcases k3 W (mem_crys h hW) hl with r | r | r | r
      · exact Or.inl r
      · exact Or.inr r
      · exact absurd (mem_crys h (closed' h hV hW)) r
      · exact absurd (mem_crys h (closed' h (closed' h hV hV) hW)) r
    · rintro (rfl | rfl)
      · exact ⟨hV, e⟩
      · exact ⟨closed' h hV hV, k1⟩
  refine ⟨?_, hiff⟩
  have := count_eq h.nodup (fun W => decide (lookUp W = some 3)) [V, omul V V] (by simp [k2]) (fun W => by
    simp only [List.mem_cons, List.not_mem_nil, or_false, decide_eq_true_eq]; exact (hiff W).symm)
  exact this

private theorem cnt_four {ops : List Op} (h : IsGroup ops) {V : Op} (hV : V ∈ ops) (e : lookUp V = some 4) :
    cnt ops 4 = 2 ∧ neg' ∈ ops ∧ cnt ops 3 = 0 := by
  obtain ⟨k1, k2, k3, k4⟩ := k_r4 V (mem_crys h hV) e
  have hn : neg' ∈ ops := k1 ▸ closed' h hV hV
  refine ⟨?_, hn, cnt_zero fun W hW el => ?_⟩
  · exact count_eq h.nodup (fun W => decide (lookUp W = some 4)) [V, omul V neg'] (by simp [k3]) (fun W => by
      simp only [List.mem_cons, List.not_mem_nil, or_false, decide_eq_true_eq]
      refine ⟨?_, fun ⟨a, b⟩ => k4 W (mem_crys h a) b⟩
      rintro (rfl | rfl)
      · exact ⟨hV, e⟩
      · exact ⟨closed' h hV hn, k2⟩)
  · exact k_r34 W (mem_crys h hW) el V (mem_crys h hV) e (mem_crys h (closed' h hW hV))

private theorem cnt_five {ops : List Op} (h : IsGroup ops) : cnt ops 5 = if neg' ∈ ops then cnt ops 3 else 0 := by
  split
  · rename_i hn
    by_cases h3 : ∃ V ∈ ops, lookUp V = some 3
    · obtain ⟨V, hV, e⟩ := h3
      obtain ⟨c3, hiff⟩ := cnt_three h hV e
      have hVV := (hiff (omul V V)).2 (Or.inr rfl)
      obtain ⟨a1, a2⟩ := k_r36 V (mem_crys h hV) e
      obtain ⟨b1, b2⟩ := k_r36 _ (mem_crys h hVV.1) hVV.2
      have hne := (k_r3 V (mem_crys h hV) e).2.1
      rw [c3]
      refine count_eq h.nodup (fun W => decide (lookUp W = some 5)) [omul V neg', omul (omul V V) neg'] ?_ (fun W => ?_)
      · simp only [List.nodup_cons, List.mem_singleton, List.not_mem_nil, not_false_eq_true, List.nodup_nil, and_true]
        intro hc; exact hne (a2.symm.trans ((congrArg (fun U => omul U neg') hc).trans b2))
      · simp only [List.mem_cons, List.not_mem_nil, or_false, decide_eq_true_eq]
        constructor
        · rintro (rfl | rfl)
          · exact ⟨closed' h hV hn, a1⟩
          · exact ⟨closed' h hVV.1 hn, b1⟩
        · rintro ⟨hW, hl⟩
          obtain ⟨-, c1, c2⟩ := k_r6 W (mem_crys h hW) hl
          rcases (hiff (omul W neg')).1 ⟨closed' h hW hn, c1⟩ with r | r
          · left; rw [← r, c2]
          · right; rw [← r, c2]
    · rw [cnt_zero (k := 3) (fun V hV e => h3 ⟨V, hV, e⟩)]
      exact cnt_zero fun V hV e => h3 ⟨_, closed' h hV hn, (k_r6 V (mem_crys h hV) e).2.1⟩
  · rename_i hn
    refine cnt_zero fun V hV e => hn ?_
    rw [← (k_r6 V (mem_crys h hV) e).1]
    exact closed' h (closed' h hV hV) hV

private theorem cnt_mirror {ops : List Op} (h : IsGroup ops) {M : Op} (hM : M ∈ ops) (e : lookUp M = some 0) :
    cnt ops 0 = ops.countP (fun W => decide (lookUp W ≠ some 0)) := by
  unfold cnt
  rw [List.countP_eq_length_filter, List.countP_eq_length_filter]
  have inv : ∀ V ∈ ops, omul M (omul M V) = V := fun V hV => (k_mr M (mem_crys h hM) e V (mem_crys h hV)).1
  have sw : ∀ V ∈ ops, (lookUp (omul M V) = some 0 ↔ lookUp V ≠ some 0) := fun V hV =>
    (k_mr M (mem_crys h hM) e V (mem_crys h hV)).2 (mem_crys h (closed' h hM hV))
  have hp : ((ops.filter (fun W => decide (lookUp W ≠ some 0))).map (omul M)).Perm (ops.filter (fun W => decide (lookUp W = some 0))) := by
    refine List.perm_of_nodup_nodup_toFinset_eq ?_ (h.nodup.filter _) ?_
    · refine (List.nodup_map_iff_inj_on (h.nodup.filter _)).2 fun V hV W hW eq => ?_
      rw [← inv V (List.mem_filter.1 hV).1, eq, inv W (List.mem_filter.1 hW).1]
    · ext W
      simp only [List.mem_toFinset, List.mem_map, List.mem_filter, decide_eq_true_eq]
      constructor
      · rintro ⟨V, ⟨hV, hl⟩, rfl⟩
        exact ⟨closed' h hM hV, (sw V hV).2 hl⟩
      · rintro ⟨hW, hl⟩
        refine ⟨omul M W, ⟨closed' h hM hW, fun hc => ?_⟩, inv W hW⟩
        exact ((sw W hW).1 hc) hl
  rw [← hp.length_eq, List.length_map]

private theorem k_det : ∀ W ∈ crys, (W.det = 1 ↔ lookUp W ≠ some 0) ∧ (W.det = -1 ↔ lookUp W = some 0) := by decide
private theorem k_sum : ∀ W ∈ crys, (if lookUp W ≠ some 0 then 1 else 0) = (if lookUp W = some 1 then 1 else 0) + (if lookUp W = some 2 then 1 else 0) +
    (if lookUp W = some 3 then 1 else 0) + (if lookUp W = some 4 then 1 else 0) + (if lookUp W = some 5 then 1 else 0) := by decide

private theorem rot_sum {ops : List Op} (h : ∀ W ∈ ops, W ∈ crys) :
    ops.countP (fun W => decide (lookUp W ≠ some 0)) = cnt ops 1 + cnt ops 2 + cnt ops 3 + cnt ops 4 + cnt ops 5 := by
  induction ops with
  | nil => rfl
  | cons W rest ih =>
    have := k_sum W (h W (by simp))
    have ih := ih (fun V hV => h V (by simp [hV]))
    unfold cnt at *
    simp only [List.countP_cons, decide_eq_true_eq]
    omega

/-- **C72.**  If the recorded operations are a group (as the symmetries of a crystal are), they are classified and named, and the name is
that of the 2-D crystallographic point group with this number of rotations (determinant 1), with or without mirrors (determinant -1). -/
theorem C72_group_named (ops : List Op) (h : IsGroup ops) : ∃ name t, lookUpTable ops = .ok t ∧ groupName t = .ok name ∧
    pointGroupName (ops.countP (fun W => decide (W.mat.det = 1))) (ops.any (fun W => decide (W.mat.det = -1))) = some name := by
  have hall : ops.all (fun W => (lookUp W).isSome) = true := List.all_eq_true.2 fun W hW => k_known W (mem_crys h hW)
  have hrot : ops.countP (fun W => decide (W.mat.det = 1)) = ops.countP (fun W => decide (lookUp W ≠ some 0)) := by
    refine List.countP_congr fun W hW => ?_
    rw [decide_eq_true_eq, decide_eq_true_eq, op_mat_det]; exact (k_det W (mem_crys h hW)).1
  have hmir : ops.any (fun W => decide (W.mat.det = -1)) = decide (∃ M ∈ ops, lookUp M = some 0) := by
    rw [Bool.eq_iff_iff, List.any_eq_true, decide_eq_true_eq]
    refine exists_congr fun W => and_congr_right fun hW => ?_
    rw [decide_eq_true_eq, op_mat_det]; exact (k_det W (mem_crys h hW)).2
  have hsum := rot_sum (fun W hW => mem_crys h hW)
  have h1 := cnt_one h
  have h2 := cnt_two h
  have h5 := cnt_five h
  have htab : lookUpTable ops = .ok [cnt ops 0, cnt ops 1, cnt ops 2, cnt ops 3, cnt ops 4, cnt ops 5] := by
    unfold lookUpTable; rw [if_pos hall]; rfl
  rw [hrot, hmir]
  -- the five rotation groups
  have five : (cnt ops 2, cnt ops 3, cnt ops 4, cnt ops 5) ∈ [(0, 0, 0, 0), (1, 0, 0, 0), (1, 0, 2, 0), (0, 2, 0, 0), (1, 2, 0, 2)] := by
    by_cases h4 : ∃ V ∈ ops, lookUp V = some 4
    · obtain ⟨V, hV, e⟩ := h4
      obtain ⟨c4, hn, c3⟩ := cnt_four h hV e
      rw [if_pos hn] at h2 h5
      rw [h2, h5, c3, c4]; decide
    · rw [cnt_zero (k := 4) (fun V hV e => h4 ⟨V, hV, e⟩)]
      by_cases h3 : ∃ V ∈ ops, lookUp V = some 3
      · obtain ⟨V, hV, e⟩ := h3
        rw [h2, h5, (cnt_three h hV e).1]
        split <;> decide
      · have c3 := cnt_zero (k := 3) (fun V hV e => h3 ⟨V, hV, e⟩)
        rw [h2, h5, c3]
        split <;> decide
  by_cases hm : ∃ M ∈ ops, lookUp M = some 0
  · obtain ⟨M, hM, e⟩ := hm
    have hc := cnt_mirror h hM e
    rw [hsum] at hc
    have hd : decide (∃ M ∈ ops, lookUp M = some 0) = true := decide_eq_true ⟨M, hM, e⟩
    rw [hd, hsum, htab, hc, h1]
    simp only [List.mem_cons, Prod.mk.injEq, List.not_mem_nil, or_false] at five
    rcases five with ⟨a, b, c, d⟩ | ⟨a, b, c, d⟩ | ⟨a, b, c, d⟩ | ⟨a, b, c, d⟩ | ⟨a, b, c, d⟩ <;> rw [a, b, c, d] <;>
      exact ⟨_, _, rfl, rfl, rfl⟩
  · have hc := cnt_zero (k := 0) (fun V hV e => hm ⟨V, hV, e⟩)
    have hd : decide (∃ M ∈ ops, lookUp M = some 0) = false := decide_eq_false hm
    rw [hd, hsum, htab, hc, h1]
    simp only [List.mem_cons, Prod.mk.injEq, List.not_mem_nil, or_false] at five
    rcases five with ⟨a, b, c, d⟩ | ⟨a, b, c, d⟩ | ⟨a, b, c, d⟩ | ⟨a, b, c, d⟩ | ⟨a, b, c, d⟩ <;> rw [a, b, c, d] <;>
      exact ⟨_, _, rfl, rfl, rfl⟩

/-- **C72** (name and numbers determine each other): the same name is reported for two tables only if they are equal. -/
theorem C72_name_determined {t t' : List ℕ} {name : Str} (h : groupName t = .ok name) (h' : groupName t' = .ok name) : t = t' := by
  unfold groupName at h h'
  split at h <;> (try cases h) <;> split at h' <;> first | rfl | (exfalso; revert h'; simp; done) | cases h'

section
variable {K : Type*} [Field K] [LinearOrder K] [FloorRing K]

/-- **C72** (whole search).  If the recorded operations of a cell periodic along two axes form a group, `search_point_group` succeeds and
reports the name of that point group; `Cannot_Search_Point_Group` is raised only for sets of operations that are no group. -/
theorem C72_search (s : Input K) (i j n : Fin 3) (hax : axes s.period = [i, j]) (hn : ((List.finRange 3).filter (fun k => s.period k = 0)).head? = some n)
    (hat : s.types ≠ []) (hg : IsGroup ((recorded s i j n).map Prod.fst)) :
    ∃ name, searchPointGroup s = .ok (recorded s i j n, name) ∧
      pointGroupName (((recorded s i j n).map Prod.fst).countP (fun W => decide (W.mat.det = 1)))
        (((recorded s i j n).map Prod.fst).any (fun W => decide (W.mat.det = -1))) = some name := by
  obtain ⟨name, t, h1, h2, h3⟩ := C72_group_named _ hg
  refine ⟨name, ?_, h3⟩
  have hn' : ((List.finRange 3).filter (fun k => s.period k = 0)).headD 0 = n := by
    rw [List.headD_eq_head?_getD, hn]; rfl
  unfold searchPointGroup
  rw [hax]
  simp only [hn', h1, h2, if_neg hat]

/-- **C72** (raises): the exception means that no table matches, and then the recorded operations are no group. -/
theorem C72_raises (s : Input K) (h : searchPointGroup s = .error .cannotSearchPointGroup) :
    ∃ i j n, axes s.period = [i, j] ∧ ¬IsGroup ((recorded s i j n).map Prod.fst) := by
  unfold searchPointGroup at h
  split at h
  · rename_i i j hax
    split at h
    · simp at h
    · refine ⟨i, j, ((List.finRange 3).filter (fun k => s.period k = 0)).headD 0, hax, fun hg => ?_⟩
      obtain ⟨name, t, h1, h2, -⟩ := C72_group_named _ hg
      simp only [h1, h2] at h
      simp at h
  · simp at h

end

/-- `3m` on the hexagonal lattice is a group, and it is named. -/
example : IsGroup [⟨1, 0, 0, 1⟩, ⟨0, -1, 1, -1⟩, ⟨-1, 1, -1, 0⟩, ⟨0, 1, 1, 0⟩, ⟨-1, 0, -1, 1⟩, ⟨1, -1, 0, -1⟩] ∧
    groupName [3, 1, 0, 2, 0, 0] = .ok "3m".toList :=
  ⟨⟨by decide, by decide, by decide, by decide +kernel⟩, rfl⟩

end Interphon.Props
