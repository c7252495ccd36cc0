import Verif.Props.History
import Verif.Props.ProgramDos
import Verif.Props.Faithful
import Mathlib.Analysis.Matrix.Spectrum
import Mathlib.LinearAlgebra.Matrix.ToLinearEquiv

/-!
# Errors in the forces: C128
-/

namespace Interphon.Props
open Py Interphon Interphon.SuperCell Interphon.ForceConstant Interphon.PreProcess Interphon.Phonon Interphon.PostProcess
noncomputable section

/-! ### Eigenvalues of nearby matrices -/

theorem root_iff {m : ℕ} (M : Matrix (Fin m) (Fin m) ℂ) (μ : ℂ) : μ ∈ M.charpoly.roots ↔ ∃ v : Fin m → ℂ, v ≠ 0 ∧ M.mulVec v = μ • v := by
  rw [Polynomial.mem_roots M.charpoly_monic.ne_zero, Polynomial.IsRoot.def, Matrix.eval_charpoly, ← Matrix.exists_mulVec_eq_zero_iff]
  refine exists_congr fun v => and_congr_right fun _ => ?_
  rw [Matrix.sub_mulVec, sub_eq_zero, eq_comm]
  have : (Matrix.scalar (Fin m) μ).mulVec v = μ • v := by
    rw [Matrix.scalar_apply, ← Matrix.smul_one_eq_diagonal, Matrix.smul_mulVec, Matrix.one_mulVec]
  rw [this]

/-- Every eigenvalue of a matrix near a Hermitian one is near an eigenvalue of that (Bauer and Fike). -/
theorem near_eigenvalue {m : ℕ} {A M : Matrix (Fin m) (Fin m) ℂ} (hA : A.IsHermitian) {b : ℝ} (hb0 : 0 ≤ b)
    (hb : ∑ r, ∑ c, ‖M r c - A r c‖ ^ 2 ≤ b ^ 2) {μ : ℂ} (hμ : μ ∈ M.charpoly.roots) : ∃ l ∈ A.charpoly.roots, ‖μ - l‖ ≤ b := by
  obtain ⟨v, hv, hMv⟩ := (root_iff M μ).1 hμ
  by_contra hcon
  push Not at hcon
  have hroot : ∀ i, ((hA.eigenvalues i : ℝ) : ℂ) ∈ A.charpoly.roots := by
    intro i
    refine (root_iff A _).2 ⟨(hA.eigenvectorBasis i).ofLp, ?_, ?_⟩
    · intro h0
      have := hA.eigenvectorBasis.orthonormal.ne_zero i
      exact this (by ext j; exact congrFun h0 j)
    · rw [hA.mulVec_eigenvectorBasis]
      rfl
  set x : EuclideanSpace ℂ (Fin m) := WithLp.toLp 2 v with hx
  set w : EuclideanSpace ℂ (Fin m) := WithLp.toLp 2 ((M - A).mulVec v) with hw
  have hx0 : x ≠ 0 := by
    intro h0
    apply hv
    funext j
    exact congrArg (fun y : EuclideanSpace ℂ (Fin m) => y j) h0
  have hinner : ∀ i, inner ℂ (hA.eigenvectorBasis i) w = (μ - (hA.eigenvalues i : ℂ)) * inner ℂ (hA.eigenvectorBasis i) x := by
    intro i
    have hi : ∀ y : EuclideanSpace ℂ (Fin m), inner ℂ (hA.eigenvectorBasis i) y = star (hA.eigenvectorBasis i).ofLp ⬝ᵥ y.ofLp := by
      intro y
      rw [EuclideanSpace.inner_eq_star_dotProduct, dotProduct_comm]
    rw [hi, hi]
    show star (hA.eigenvectorBasis i).ofLp ⬝ᵥ ((M - A).mulVec v) = _ * (star (hA.eigenvectorBasis i).ofLp ⬝ᵥ v)
    rw [Matrix.sub_mulVec, hMv, dotProduct_sub, dotProduct_smul, Matrix.dotProduct_mulVec, sub_mul, smul_eq_mul]
    congr 1
    have : Matrix.vecMul (star (hA.eigenvectorBasis i).ofLp) A = star (A.mulVec (hA.eigenvectorBasis i).ofLp) := by
      rw [Matrix.star_mulVec, hA.eq]
    rw [this, hA.mulVec_eigenvectorBasis]
    rw [star_smul, smul_dotProduct]
    simp
  have h1 : ∑ i, ‖inner ℂ (hA.eigenvectorBasis i) w‖ ^ 2 = ‖w‖ ^ 2 := hA.eigenvectorBasis.sum_sq_norm_inner_right w
  have h2 : ∑ i, ‖inner ℂ (hA.eigenvectorBasis i) x‖ ^ 2 = ‖x‖ ^ 2 := hA.eigenvectorBasis.sum_sq_norm_inner_right x
  have hlow : b ^ 2 * ‖x‖ ^ 2 < ‖w‖ ^ 2 := by
    rw [← h1, ← h2, Finset.mul_sum]
    obtain ⟨i0, hi0⟩ : ∃ i, inner ℂ (hA.eigenvectorBasis i) x ≠ 0 := by
      by_contra hall
      push Not at hall
      rw [Finset.sum_eq_zero fun i _ => by rw [hall i]; simp] at h2
      exact hx0 (norm_eq_zero.1 (pow_eq_zero_iff (two_ne_zero) |>.1 h2.symm))
    have hterm : ∀ i, ‖inner ℂ (hA.eigenvectorBasis i) w‖ ^ 2 = ‖μ - (hA.eigenvalues i : ℂ)‖ ^ 2 * ‖inner ℂ (hA.eigenvectorBasis i) x‖ ^ 2 := by
      intro i
      rw [hinner, norm_mul, mul_pow]
    have hgt : ∀ i, b ^ 2 < ‖μ - (hA.eigenvalues i : ℂ)‖ ^ 2 := by
      intro i
      have := hcon _ (hroot i)
      gcongr
    refine Finset.sum_lt_sum (fun i _ => ?_) ⟨i0, Finset.mem_univ _, ?_⟩
    · rw [hterm]
      exact mul_le_mul_of_nonneg_right (hgt i).le (by positivity)
    · rw [hterm]
      exact mul_lt_mul_of_pos_right (hgt i0) (by positivity)
  have hup : ‖w‖ ^ 2 ≤ b ^ 2 * ‖x‖ ^ 2 := by
    rw [EuclideanSpace.norm_sq_eq, EuclideanSpace.norm_sq_eq]
    have hrow : ∀ r, ‖((M - A).mulVec v) r‖ ^ 2 ≤ (∑ c, ‖M r c - A r c‖ ^ 2) * ∑ c, ‖v c‖ ^ 2 := by
      intro r
      have e1 : ‖((M - A).mulVec v) r‖ ≤ ∑ c, ‖M r c - A r c‖ * ‖v c‖ := by
        refine (norm_sum_le Finset.univ fun c => (M - A) r c * v c).trans ?_
        exact Finset.sum_le_sum fun c _ => by rw [norm_mul]; rfl
      refine (pow_le_pow_left₀ (norm_nonneg _) e1 2).trans ?_
      exact Finset.sum_mul_sq_le_sq_mul_sq _ _ _
    refine (Finset.sum_le_sum fun r _ => hrow r).trans ?_
    rw [← Finset.sum_mul]
    exact mul_le_mul_of_nonneg_right hb (Finset.sum_nonneg fun c _ => by positivity)
  linarith

/-- The frequency of an eigenvalue changes at most like the square root of the change. -/
theorem freqOf_near (a b : ℂ) : |freqOf a - freqOf b| ≤ Real.sqrt ‖a - b‖ / (Real.pi * 10 ^ 12) := by
  have hsq : ∀ z : ℂ, csqrt z ^ 2 = z := by
    intro z
    unfold csqrt
    rw [← Complex.cpow_nat_mul]
    norm_num
  have hre : ∀ z : ℂ, 0 ≤ (csqrt z).re := by
    intro z
    unfold csqrt
    by_cases hz : z = 0
    · subst hz
      simp
    · rw [Complex.cpow_def_of_ne_zero hz, Complex.exp_re]
      apply mul_nonneg (Real.exp_pos _).le
      have h1 : (Complex.log z * (1 / 2)).im = z.arg / 2 := by
        rw [show Complex.log z * (1 / 2) = Complex.log z / ((2 : ℝ) : ℂ) by push_cast; ring, Complex.div_ofReal_im, Complex.log_im]
      rw [h1]
      have h2 := Complex.neg_pi_lt_arg z
      have h3 := Complex.arg_le_pi z
      exact Real.cos_nonneg_of_mem_Icc ⟨by linarith, by linarith⟩
  set s := csqrt a with hs
  set t := csqrt b with ht
  have hprod : ‖s - t‖ * ‖s + t‖ = ‖a - b‖ := by
    rw [← norm_mul, show (s - t) * (s + t) = a - b by rw [← hsq a, ← hsq b, ← hs, ← ht]; ring]
  have hre1 : |s.re - t.re| ≤ ‖s - t‖ := by
    rw [← Complex.sub_re]; exact Complex.abs_re_le_norm _
  have hre2 : |s.re - t.re| ≤ ‖s + t‖ := by
    have h1 := hre a
    have h2 := hre b
    have h3 : |(s + t).re| ≤ ‖s + t‖ := Complex.abs_re_le_norm _
    rw [Complex.add_re, abs_of_nonneg (add_nonneg h1 h2)] at h3
    refine le_trans ?_ h3
    rw [abs_le]
    constructor <;> linarith
  have him1 : |(|s.im| - |t.im|)| ≤ ‖s - t‖ := by
    refine (abs_abs_sub_abs_le _ _).trans ?_
    rw [← Complex.sub_im]; exact Complex.abs_im_le_norm _
  have him2 : |(|s.im| - |t.im|)| ≤ ‖s + t‖ := by
    have := abs_abs_sub_abs_le s.im (-t.im)
    rw [abs_neg, sub_neg_eq_add] at this
    refine this.trans ?_
    rw [← Complex.add_im]; exact Complex.abs_im_le_norm _
  have hmin : ∀ y : ℝ, 0 ≤ y → y ≤ ‖s - t‖ → y ≤ ‖s + t‖ → y ≤ Real.sqrt ‖a - b‖ := by
    intro y h0 h1 h2
    apply Real.le_sqrt_of_sq_le
    rw [← hprod, sq]
    exact mul_le_mul h1 h2 h0 (norm_nonneg _)
  have hR := hmin _ (abs_nonneg _) hre1 hre2
  have hI := hmin _ (abs_nonneg _) him1 him2
  have hpi := Real.pi_pos
  have key : freqOf a - freqOf b = ((s.re - t.re) - (|s.im| - |t.im|)) / (2 * Real.pi * 10 ^ 12) := by
    unfold freqOf
    rw [← hs, ← ht]
    field_simp
    ring
  rw [key, abs_div, abs_of_pos (show (0 : ℝ) < 2 * Real.pi * 10 ^ 12 by positivity), div_le_div_iff₀ (by positivity) (by positivity)]
  have : |s.re - t.re - (|s.im| - |t.im|)| ≤ 2 * Real.sqrt ‖a - b‖ := by
    refine (abs_sub _ _).trans ?_
    linarith
  nlinarith [this, hpi, Real.sqrt_nonneg ‖a - b‖]

/-! ### The list of frequencies is a continuous function of the matrix -/

/-- A list of frequencies, in order, with an eigenvalue behind each of them. -/
theorem enumerate {m : ℕ} {M : Matrix (Fin m) (Fin m) ℂ} {row : List ℝ} (h : IsSpectrum M row) :
    ∃ w : Fin m → ℂ, M.charpoly.roots = Finset.univ.val.map w ∧ Monotone (freqOf ∘ w) ∧ row = List.ofFn (freqOf ∘ w) := by
  have hcard : M.charpoly.roots.card = m := by
    have := Polynomial.splits_iff_card_roots.1 (IsAlgClosed.splits M.charpoly)
    rwa [Matrix.charpoly_natDegree_eq_dim, Fintype.card_fin] at this
  obtain ⟨l, hl⟩ := Quot.exists_rep M.charpoly.roots
  have hl' : (l : Multiset ℂ) = M.charpoly.roots := hl
  have hlen : l.length = m := by rw [← hcard, ← hl', Multiset.coe_card]
  subst hlen
  have hw0 : (Finset.univ.val.map l.get : Multiset ℂ) = l := by
    have := (List.ofFn_get l)
    conv_rhs => rw [← this]
    rw [← Fin.univ_val_map]
  refine ⟨l.get ∘ Tuple.sort (freqOf ∘ l.get), ?_, ?_, ?_⟩
  · rw [← hl', ← Multiset.map_map, ← hw0]
    congr 1
    have := congrArg Finset.val (Finset.map_univ_equiv (Tuple.sort (freqOf ∘ l.get)))
    simpa using this.symm
  · exact Tuple.monotone_sort (freqOf ∘ l.get)
  · have hmono := Tuple.monotone_sort (freqOf ∘ l.get)
    have hp : row.Perm (List.ofFn (freqOf ∘ (l.get ∘ Tuple.sort (freqOf ∘ l.get)))) := by
      rw [← Multiset.coe_eq_coe, h.2, ← hl', ← Fin.univ_val_map, ← Multiset.map_map, ← Multiset.map_map]
      congr 1
      rw [← hw0]
      congr 1
      have := congrArg Finset.val (Finset.map_univ_equiv (Tuple.sort (freqOf ∘ l.get)))
      simpa using this.symm
    refine hp.eq_of_pairwise (fun a b _ _ h1 h2 => le_antisymm h1 h2) h.1 ?_
    rw [List.pairwise_ofFn]
    intro i j hij
    exact hmono hij.le

theorem freqOf_continuous : Continuous freqOf := by
  rw [continuous_iff_continuousAt]
  intro a
  rw [ContinuousAt, tendsto_iff_dist_tendsto_zero]
  have h : Filter.Tendsto (fun b : ℂ => Real.sqrt ‖b - a‖ / (Real.pi * 10 ^ 12)) (nhds a) (nhds 0) := by
    have : Continuous fun b : ℂ => Real.sqrt ‖b - a‖ / (Real.pi * 10 ^ 12) := by fun_prop
    have h2 := this.tendsto a
    simpa using h2
  exact squeeze_zero (fun _ => dist_nonneg) (fun b => by rw [Real.dist_eq]; exact freqOf_near b a) h

theorem charpoly_prod {m : ℕ} {M : Matrix (Fin m) (Fin m) ℂ} {w : Fin m → ℂ} (h : M.charpoly.roots = Finset.univ.val.map w) (z : ℂ) :
    (Matrix.scalar (Fin m) z - M).det = ∏ i, (z - w i) := by
  rw [← Matrix.eval_charpoly, (IsAlgClosed.splits M.charpoly).eq_prod_roots_of_monic M.charpoly_monic, h, Multiset.map_map, Polynomial.eval_multiset_prod,
    Multiset.map_map]
  simp [Finset.prod]

/-- The frequencies, in order and with multiplicity, follow the matrix. -/
theorem spectrum_continuous {m : ℕ} (A : Matrix (Fin m) (Fin m) ℂ) {row0 : List ℝ} (h0 : IsSpectrum A row0) {ε : ℝ} (hε : 0 < ε) :
    ∃ δ > 0, ∀ (M : Matrix (Fin m) (Fin m) ℂ) (row : List ℝ), (∀ r c, ‖M r c - A r c‖ ≤ δ) → IsSpectrum M row →
      List.Forall₂ (fun ν ν0 => |ν - ν0| < ε) row row0 := by
  by_contra hcon
  push Not at hcon
  have hex : ∀ j : ℕ, ∃ (M : Matrix (Fin m) (Fin m) ℂ) (w : Fin m → ℂ), (∀ r c, ‖M r c - A r c‖ ≤ 1 / ((j : ℝ) + 1)) ∧
      M.charpoly.roots = Finset.univ.val.map w ∧ Monotone (freqOf ∘ w) ∧ ¬ List.Forall₂ (fun ν ν0 => |ν - ν0| < ε) (List.ofFn (freqOf ∘ w)) row0 := by
    intro j
    obtain ⟨M, row, hM, hrow, hne⟩ := hcon (1 / ((j : ℝ) + 1)) (by positivity)
    obtain ⟨w, hw1, hw2, hw3⟩ := enumerate hrow
    exact ⟨M, w, hM, hw1, hw2, hw3 ▸ hne⟩
  choose M w hM hroots hmono hbad using hex
  have hlim : ∀ r c, Filter.Tendsto (fun j => M j r c) Filter.atTop (nhds (A r c)) := by
    intro r c
    rw [tendsto_iff_norm_sub_tendsto_zero]
    exact squeeze_zero (fun _ => norm_nonneg _) (fun j => hM j r c) tendsto_one_div_add_atTop_nhds_zero_nat
  -- the eigenvalues stay in a bounded set
  set B : ℝ := ∑ r, ∑ c, (‖A r c‖ + 1) ^ 2 with hB
  have hB0 : 0 ≤ B := Finset.sum_nonneg fun r _ => Finset.sum_nonneg fun c _ => by positivity
  have hbound : ∀ j, w j ∈ Metric.closedBall (0 : Fin m → ℂ) (Real.sqrt B) := by
    intro j
    rw [mem_closedBall_zero_iff, pi_norm_le_iff_of_nonneg (Real.sqrt_nonneg _)]
    intro i
    have hmem : w j i ∈ (M j).charpoly.roots := by
      rw [hroots j]; exact Multiset.mem_map_of_mem _ (Finset.mem_univ i)
    obtain ⟨l, hl, hn⟩ := near_eigenvalue (Matrix.isHermitian_zero (n := Fin m) (α := ℂ)) (b := Real.sqrt B) (Real.sqrt_nonneg _) (by
      rw [Real.sq_sqrt hB0, hB]
      refine Finset.sum_le_sum fun r _ => Finset.sum_le_sum fun c _ => ?_
      rw [Matrix.zero_apply, sub_zero]
      refine pow_le_pow_left₀ (norm_nonneg _) ?_ 2
      have h1 := hM j r c
      have h2 : ‖M j r c‖ ≤ ‖M j r c - A r c‖ + ‖A r c‖ := by
        have := norm_add_le (M j r c - A r c) (A r c)
        rwa [sub_add_cancel] at this
      have h3 : 1 / ((j : ℝ) + 1) ≤ 1 := by
        rw [div_le_one (by positivity)]
        linarith [Nat.cast_nonneg (α := ℝ) j]
      linarith) hmem
    have hl0 : l = 0 := by
      obtain ⟨v, hv, he⟩ := (root_iff _ _).1 hl
      rw [Matrix.zero_mulVec] at he
      by_contra hl0
      exact hv ((smul_eq_zero.1 he.symm).resolve_left hl0)
    rwa [hl0, sub_zero] at hn
  obtain ⟨w0, -, φ, hφ, hw0⟩ := (isCompact_closedBall (0 : Fin m → ℂ) (Real.sqrt B)).tendsto_subseq hbound
  have hwi : ∀ i, Filter.Tendsto (fun j => w (φ j) i) Filter.atTop (nhds (w0 i)) := fun i => (tendsto_pi_nhds.1 hw0) i
  have hdet : ∀ z : ℂ, (Matrix.scalar (Fin m) z - A).det = ∏ i, (z - w0 i) := by
    intro z
    have h1 : Filter.Tendsto (fun j => (Matrix.scalar (Fin m) z - M (φ j)).det) Filter.atTop (nhds (Matrix.scalar (Fin m) z - A).det) := by
      have hc : Continuous fun X : Matrix (Fin m) (Fin m) ℂ => (Matrix.scalar (Fin m) z - X).det := Continuous.matrix_det (by fun_prop)
      refine (hc.tendsto A).comp ?_
      refine tendsto_pi_nhds.2 fun r => tendsto_pi_nhds.2 fun c => ?_
      exact (hlim r c).comp hφ.tendsto_atTop
    have h2 : Filter.Tendsto (fun j => (Matrix.scalar (Fin m) z - M (φ j)).det) Filter.atTop (nhds (∏ i, (z - w0 i))) := by
      have : (fun j => (Matrix.scalar (Fin m) z - M (φ j)).det) = fun j => ∏ i, (z - w (φ j) i) := by
        funext j
        exact charpoly_prod (hroots (φ j)) z
      rw [this]
      exact tendsto_finset_prod _ fun i _ => tendsto_const_nhds.sub (hwi i)
    exact tendsto_nhds_unique h1 h2
  have hA : A.charpoly = ∏ i, (Polynomial.X - Polynomial.C (w0 i)) := by
    refine Polynomial.funext fun z => ?_
    rw [Matrix.eval_charpoly, hdet z, Polynomial.eval_prod]
    simp
  have hAroots : A.charpoly.roots = Finset.univ.val.map w0 := by
    rw [hA]
    have h := Polynomial.roots_multiset_prod_X_sub_C (Finset.univ.val.map w0)
    rw [Multiset.map_map] at h
    exact h
  have hwf : ∀ i, Filter.Tendsto (fun j => freqOf (w (φ j) i)) Filter.atTop (nhds (freqOf (w0 i))) := fun i =>
    (freqOf_continuous.tendsto _).comp (hwi i)
  have hmono0 : Monotone (freqOf ∘ w0) := by
    intro a b hab
    exact le_of_tendsto_of_tendsto' (hwf a) (hwf b) fun j => hmono (φ j) hab
  have hrow0 : row0 = List.ofFn (freqOf ∘ w0) := by
    have hp : row0.Perm (List.ofFn (freqOf ∘ w0)) := by
      rw [← Multiset.coe_eq_coe, h0.2, hAroots, ← Fin.univ_val_map, Multiset.map_map]
    refine hp.eq_of_pairwise (fun a b _ _ h1 h2 => le_antisymm h1 h2) h0.1 ?_
    rw [List.pairwise_ofFn]
    intro i j hij
    exact hmono0 hij.le
  have hev : ∀ᶠ j in Filter.atTop, ∀ i, |freqOf (w (φ j) i) - freqOf (w0 i)| < ε := by
    rw [Filter.eventually_all]
    intro i
    have := (Metric.tendsto_nhds.1 (hwf i)) ε hε
    simpa [Real.dist_eq] using this
  obtain ⟨j, hj⟩ := hev.exists
  apply hbad (φ j)
  rw [hrow0, List.forall₂_iff_get]
  refine ⟨by simp, ?_⟩
  intro i h1 h2
  simpa using hj ⟨i, by simpa using h1⟩

/-! ### The dynamical matrix -/

/-- The dynamical matrix follows the force constants. -/
theorem dyn_near (D : PhononData) (sel : List ℕ) (h : GoodSelection D sel) (fc' : FC ℝ) {ε : ℝ} (hε : ∀ r c, |fc' r c - D.fc r c| ≤ ε) (k : V3 ℝ) {r c : ℕ}
    (hr : r < 3 * sel.length) (hc : c < 3 * sel.length) :
    ‖dynMatrix { D with fc := fc' } k r c - dynMatrix D k r c‖ ≤ D.E * ε / Real.sqrt (D.mass r * D.mass c) := by
  have er : r = 3 * (r / 3) + (comp r : ℕ) := by simp only [comp]; omega
  have ec : c = 3 * (c / 3) + (comp c : ℕ) := by simp only [comp]; omega
  have h' : GoodSelection { D with fc := fc' } sel := ⟨h.unit, h.super, h.pos⟩
  have e1 := dynRaw_entry D sel h (qVec D k) (r / 3) (c / 3) (comp r) (comp c) (by omega) (by omega)
  have e2 := dynRaw_entry { D with fc := fc' } sel h' (qVec D k) (r / 3) (c / 3) (comp r) (comp c) (by omega) (by omega)
  rw [← er, ← ec] at e1 e2
  have hdiff : dynMatrix { D with fc := fc' } k r c - dynMatrix D k r c =
      (dynRaw { D with fc := fc' } (qVec D k) r c - dynRaw D (qVec D k) r c) / (Real.sqrt (D.mass r * D.mass c) : ℝ) := by
    unfold dynMatrix
    rw [sub_div]
    rfl
  rw [hdiff, norm_div, Complex.norm_real, Real.norm_of_nonneg (Real.sqrt_nonneg _)]
  refine div_le_div_of_nonneg_right ?_ (Real.sqrt_nonneg _)
  rw [e1, e2]
  show ‖(∑ k' ∈ Finset.range D.E, _) - _‖ ≤ _
  rw [← Finset.sum_sub_distrib]
  refine (norm_sum_le _ _).trans ?_
  have hterm : ∀ i ∈ Finset.range D.E, ‖((fc' (3 * (sel.getD (r / 3) 0 * D.E + i) + comp r) c : ℝ) : ℂ) *
      Complex.exp (Complex.I * (dot3 (qVec D k) (posVector D (sel.getD (r / 3) 0 * D.E + i) (sel.getD (c / 3) 0)) : ℝ)) -
      ((D.fc (3 * (sel.getD (r / 3) 0 * D.E + i) + comp r) c : ℝ) : ℂ) *
      Complex.exp (Complex.I * (dot3 (qVec D k) (posVector D (sel.getD (r / 3) 0 * D.E + i) (sel.getD (c / 3) 0)) : ℝ))‖ ≤ ε := by
    intro i _
    rw [← sub_mul, norm_mul, mul_comm Complex.I, Complex.norm_exp_ofReal_mul_I, mul_one, ← Complex.ofReal_sub, Complex.norm_real]
    exact hε _ _
  have hfin := Finset.sum_le_sum hterm
  rw [Finset.sum_const, Finset.card_range, nsmul_eq_mul] at hfin
  exact hfin

/-- Two lists of frequencies of matrices, the second Hermitian, that differ little in every (mass-weighted) entry: every frequency of the first is near one of the second. -/
theorem near_spectrum {m : ℕ} {A M : Matrix (Fin m) (Fin m) ℂ} (hA : A.IsHermitian) {ε : ℝ} (hε : 0 ≤ ε) {mass : ℕ → ℝ} (hm : ∀ r : Fin m, 0 < mass r)
    (h : ∀ r c, ‖M r c - A r c‖ ≤ ε / Real.sqrt (mass r * mass c)) {row row0 : List ℝ} (hrow : IsSpectrum M row) (hrow0 : IsSpectrum A row0) :
    ∀ ν ∈ row, ∃ ν0 ∈ row0, |ν - ν0| ≤ Real.sqrt (ε * ∑ r : Fin m, 1 / mass r) / (Real.pi * 10 ^ 12) := by
  intro ν hν
  have hν' : ν ∈ M.charpoly.roots.map freqOf := by rw [← hrow.2]; exact hν
  obtain ⟨μ, hμ, rfl⟩ := Multiset.mem_map.1 hν'
  have hsum : 0 ≤ ∑ r : Fin m, 1 / mass r := Finset.sum_nonneg fun r _ => (one_div_pos.2 (hm r)).le
  obtain ⟨l, hl, hml⟩ := near_eigenvalue hA (b := ε * ∑ r : Fin m, 1 / mass r) (mul_nonneg hε hsum) (by
    have h1 : ∀ r c, ‖M r c - A r c‖ ^ 2 ≤ ε ^ 2 * ((1 / mass r) * (1 / mass c)) := by
      intro r c
      refine (pow_le_pow_left₀ (norm_nonneg _) (h r c) 2).trans (le_of_eq ?_)
      rw [div_pow, Real.sq_sqrt (mul_pos (hm r) (hm c)).le]
      field_simp
    refine (Finset.sum_le_sum fun r _ => Finset.sum_le_sum fun c _ => h1 r c).trans (le_of_eq ?_)
    rw [mul_pow, sq (∑ r : Fin m, 1 / mass r), Finset.sum_mul_sum, Finset.mul_sum]
    refine Finset.sum_congr rfl fun r _ => ?_
    rw [Finset.mul_sum]) hμ
  refine ⟨freqOf l, ?_, ?_⟩
  · have : freqOf l ∈ (row0 : Multiset ℝ) := by rw [hrow0.2]; exact Multiset.mem_map_of_mem _ hl
    exact this
  · refine (freqOf_near μ l).trans ?_
    have := Real.pi_pos
    gcongr

/-! ### Force constants without symmetry -/

/-- Two arrays of numbers whose entries differ by at most `η`. -/
def RowsWithin (η : ℝ) (M M' : Rows ℝ) : Prop := ∀ a c, |M a c - M' a c| ≤ η

/-- Two lists of force files. -/
def FilesWithin (η : ℝ) (files files' : List (Rows ℝ)) : Prop :=
  files.length = files'.length ∧ ∀ (k : ℕ) (f g : Rows ℝ), files[k]? = some f → files'[k]? = some g → RowsWithin η f g

theorem ang_pos : (0 : ℝ) < ang := by unfold ang; positivity

theorem plainLoop_near {d η : ℝ} (ncols : ℕ) : ∀ (files files' : List (Rows ℝ)), FilesWithin η files files' → ∀ (ind : ℕ) (fwd fwd' : Rows ℝ), RowsWithin η fwd fwd' →
    ∀ (fc fc' out : FC ℝ), (∀ r c, |fc r c - fc' r c| ≤ η / (|d| * ang)) → plainLoop d ncols ind fwd files fc = .ok out →
    ∃ out', plainLoop d ncols ind fwd' files' fc' = .ok out' ∧ ∀ r c, |out r c - out' r c| ≤ η / (|d| * ang) := by
  intro files
  induction files with
  | nil =>
    intro files' h ind fwd fwd' hf fc fc' out hc ho
    obtain ⟨hl, -⟩ := h
    obtain rfl : files' = [] := by simpa using hl.symm
    rw [plainLoop] at ho ⊢
    cases ho
    exact ⟨fc', rfl, hc⟩
  | cons f rest ih =>
    intro files' h ind fwd fwd' hf fc fc' out hc ho
    obtain ⟨hl, hk⟩ := h
    obtain ⟨g, rest', rfl⟩ : ∃ g rest', files' = g :: rest' := by
      cases files' with
      | nil => simp at hl
      | cons g rest' => exact ⟨g, rest', rfl⟩
    have hfg : RowsWithin η f g := hk 0 f g rfl rfl
    have hrest : FilesWithin η rest rest' := ⟨by simpa using hl, fun k f g h1 h2 => hk (k + 1) f g (by simpa using h1) (by simpa using h2)⟩
    rw [plainLoop] at ho ⊢
    by_cases h2 : ind % 2 = 0
    · rw [if_pos h2] at ho ⊢
      exact ih rest' hrest _ _ _ hfg _ _ _ hc ho
    · rw [if_neg h2] at ho ⊢
      by_cases h3 : ind / 2 < ncols
      · rw [if_pos h3] at ho ⊢
        refine ih rest' hrest _ _ _ hf _ _ _ ?_ ho
        intro r c
        unfold setCol
        split_ifs
        · unfold reshape
          have e : -(fwd (r / 3) (comp r) - f (r / 3) (comp r)) / (2 * d * ang) - -(fwd' (r / 3) (comp r) - g (r / 3) (comp r)) / (2 * d * ang) =
              ((f (r / 3) (comp r) - g (r / 3) (comp r)) - (fwd (r / 3) (comp r) - fwd' (r / 3) (comp r))) / (2 * d * ang) := by ring
          show |-(fwd (r / 3) (comp r) - f (r / 3) (comp r)) / (2 * d * ang) - -(fwd' (r / 3) (comp r) - g (r / 3) (comp r)) / (2 * d * ang)| ≤ _
          rw [e, abs_div, abs_mul, abs_mul, abs_of_pos ang_pos, abs_of_pos (show (0:ℝ) < 2 by norm_num), mul_assoc 2, ← div_div]
          refine div_le_div_of_nonneg_right ?_ (by have := ang_pos; positivity)
          have h4 := hfg (r / 3) (comp r)
          have h5 := hf (r / 3) (comp r)
          have := abs_sub (f (r / 3) (comp r) - g (r / 3) (comp r)) (fwd (r / 3) (comp r) - fwd' (r / 3) (comp r))
          linarith
        · exact hc r c
      · rw [if_neg h3] at ho
        cases ho

/-- Force constants follow the forces: the error is at most the error of the forces divided by the displacement. -/
theorem setPlain_near {d η : ℝ} (hη : 0 ≤ η) (nsel : ℕ) (junk : FC ℝ) {files files' : List (Rows ℝ)} (h : FilesWithin η files files') {fc : FC ℝ}
    (hf : setPlain d nsel junk files = .ok fc) : ∃ fc', setPlain d nsel junk files' = .ok fc' ∧ ∀ r c, |fc r c - fc' r c| ≤ η / (|d| * ang) :=
  plainLoop_near _ files files' h 0 _ _ (fun a c => by simpa using hη) junk junk fc (fun r c => by
    rw [sub_self, abs_zero]
    exact div_nonneg hη (mul_nonneg (abs_nonneg _) ang_pos.le)) hf

/-! ### Force constants with symmetry -/

/-- Two arrays of force constants whose entries differ by at most `e`. -/
def FcWithin (e : ℝ) (fc fc' : FC ℝ) : Prop := ∀ r c, |fc r c - fc' r c| ≤ e

theorem scatter_within {e : ℝ} {rot rot' : Rows ℝ} (hr : RowsWithin e rot rot') : ∀ (l : List (ℕ × ℕ)) (M M' : Rows ℝ), RowsWithin e M M' →
    RowsWithin e (scatter M rot l) (scatter M' rot' l)
  | [], _, _, h => h
  | (img, orig) :: rest, M, M', h => by
    rw [scatter, scatter]
    refine scatter_within hr rest _ _ ?_
    intro a c
    by_cases ha : a = img
    · subst ha
      rw [Function.update_self, Function.update_self]
      exact hr orig c
    · rw [Function.update_of_ne ha, Function.update_of_ne ha]
      exact h a c

theorem mulVec_within {η : ℝ} {raw raw' : Rows ℝ} (h : RowsWithin η raw raw') (W : M3 ℝ) {C : ℝ} (hC : ∀ i, ∑ j, |W i j| ≤ C) (hη : 0 ≤ η) :
    RowsWithin (C * η) (fun r => W.mulVec (raw r)) (fun r => W.mulVec (raw' r)) := by
  intro a c
  have e : W.mulVec (raw a) c - W.mulVec (raw' a) c = ∑ j, W c j * (raw a j - raw' a j) := by
    simp only [Matrix.mulVec, dotProduct, ← Finset.sum_sub_distrib, mul_sub]
  show |W.mulVec (raw a) c - W.mulVec (raw' a) c| ≤ _
  rw [e]
  refine (Finset.abs_sum_le_sum_abs _ _).trans ?_
  refine (Finset.sum_le_sum fun j _ => (abs_mul (W c j) _).le.trans (mul_le_mul_of_nonneg_left (h a j) (abs_nonneg _))).trans ?_
  rw [← Finset.sum_mul]
  exact mul_le_mul_of_nonneg_right (hC c) hη

theorem rotLoop_within (at_ : ℕ → ℕ) {η C : ℝ} (hη : 0 ≤ η) {raw raw' : Rows ℝ} (h : RowsWithin η raw raw') :
    ∀ (ops : List (List ℕ × M3 ℝ)), (∀ o ∈ ops, ∀ i, ∑ j, |o.2 i j| ≤ C) → ∀ (k : ℕ) (acc acc' : Rows ℝ), RowsWithin (C * η) acc acc' →
      ∀ cols cols' : ℕ → Rows ℝ, (∀ i, RowsWithin (C * η) (cols i) (cols' i)) → ∀ i, RowsWithin (C * η) (rotLoop at_ raw k acc ops cols i) (rotLoop at_ raw' k acc' ops cols' i)
  | [], _, _, _, _, _, _, _, hc => hc
  | (perm, W) :: rest, hC, k, acc, acc', ha, cols, cols', hc => by
    rw [rotLoop, rotLoop]
    have hacc := scatter_within (mulVec_within h W (hC (perm, W) List.mem_cons_self) hη) (rowPairs at_ perm) _ _ ha
    refine rotLoop_within at_ hη h rest (fun o ho => hC o (List.mem_cons_of_mem _ ho)) _ _ _ hacc _ _ ?_
    intro i
    by_cases hi : i = k
    · subst hi
      rw [Function.update_self, Function.update_self]
      exact hacc
    · rw [Function.update_of_ne hi, Function.update_of_ne hi]
      exact hc i

theorem getE_within {η : ℝ} {files files' : List (Rows ℝ)} (h : FilesWithin η files files') {k : ℕ} {f : Rows ℝ} (hk : getE files k = .ok f) :
    ∃ g, getE files' k = .ok g ∧ RowsWithin η f g := by
  have h1 := getE_iff.1 hk
  have hlt : k < files'.length := by rw [← h.1]; exact (List.getElem?_eq_some_iff.1 h1).1
  have h2 : files'[k]? = some files'[k] := List.getElem?_eq_getElem hlt
  exact ⟨_, getE_iff.2 h2, h.2 k f _ h1 h2⟩

theorem addLoop_within {η e : ℝ} (he : η ≤ e) {files files' : List (Rows ℝ)} (h : FilesWithin η files files') : ∀ (m start col : ℕ) (cols cols' out : ℕ → Rows ℝ),
    (∀ i, RowsWithin e (cols i) (cols' i)) → addLoop files start col m cols = .ok out →
    ∃ out', addLoop files' start col m cols' = .ok out' ∧ ∀ i, RowsWithin e (out i) (out' i)
  | 0, _, _, cols, cols', out, hc, ho => by
    rw [addLoop] at ho ⊢
    cases ho
    exact ⟨cols', rfl, hc⟩
  | m + 1, start, col, cols, cols', out, hc, ho => by
    rw [addLoop] at ho ⊢
    cases hf : getE files start with
    | error err => rw [hf] at ho; cases ho
    | ok f =>
      rw [hf] at ho
      obtain ⟨g, hg, hfg⟩ := getE_within h hf
      rw [hg]
      refine addLoop_within he h m _ _ _ _ _ ?_ ho
      intro i
      by_cases hi : i = col
      · subst hi
        rw [Function.update_self, Function.update_self]
        exact fun a c => (hfg a c).trans he
      · rw [Function.update_of_ne hi, Function.update_of_ne hi]
        exact hc i

theorem ops_bound (ops : List (List ℕ × M3 ℝ)) : ∃ C : ℝ, 1 ≤ C ∧ ∀ o ∈ ops, ∀ i, ∑ j, |o.2 i j| ≤ C := by
  induction ops with
  | nil => exact ⟨1, le_rfl, by simp⟩
  | cons o ops ih =>
    obtain ⟨C, h1, hC⟩ := ih
    refine ⟨C + ∑ i, ∑ j, |o.2 i j|, ?_, ?_⟩
    · have : 0 ≤ ∑ i, ∑ j, |o.2 i j| := Finset.sum_nonneg fun i _ => Finset.sum_nonneg fun j _ => abs_nonneg _
      linarith
    · intro o' ho i
      rcases List.mem_cons.1 ho with rfl | ho
      · have := Finset.single_le_sum (f := fun i => ∑ j, |o'.2 i j|) (fun i _ => Finset.sum_nonneg fun j _ => abs_nonneg _) (Finset.mem_univ i)
        linarith
      · have : 0 ≤ ∑ i, ∑ j, |o.2 i j| := Finset.sum_nonneg fun i _ => Finset.sum_nonneg fun j _ => abs_nonneg _
        linarith [hC o' ho i]

theorem reqStep_within (d : ℝ) (at_ : ℕ → ℕ) (junk : ℕ → Rows ℝ) (q : ReqAtom ℝ) : ∃ K : ℝ, 0 ≤ K ∧ ∀ (η : ℝ), 0 ≤ η → ∀ files files' : List (Rows ℝ),
    FilesWithin η files files' → ∀ (k0 k1 : ℕ) (fc fc' out : FC ℝ) (e : ℝ), FcWithin e fc fc' → reqStep d at_ junk files k0 q fc = .ok (k1, out) →
    ∃ out', reqStep d at_ junk files' k0 q fc' = .ok (k1, out') ∧ FcWithin (max e (K * η)) out out' := by
  obtain ⟨C, hC1, hC⟩ := ops_bound q.ops
  set T := ofColumns (q.single ++ q.additional) with hT
  set τ : ℝ := ∑ k : Fin 3, ∑ c : Fin 3, |T⁻¹ k c| with hτ
  have hτ0 : 0 ≤ τ := Finset.sum_nonneg fun i _ => Finset.sum_nonneg fun j _ => abs_nonneg _
  have hda : 0 ≤ |d| * (ang : ℝ) := mul_nonneg (abs_nonneg _) ang_pos.le
  refine ⟨C * τ / (|d| * ang), div_nonneg (mul_nonneg (by linarith) hτ0) hda, ?_⟩
  intro η hη files files' hw k0 k1 fc fc' out e hfc ho
  have hηC : η ≤ C * η := by nlinarith
  unfold reqStep at ho ⊢
  simp only at ho ⊢
  by_cases h1 : (q.single ++ q.additional).length ≠ 3 ∨ (ofColumns (q.single ++ q.additional)).det = 0
  · rw [if_pos h1] at ho; cases ho
  rw [if_neg h1] at ho ⊢
  cases hf : getE files k0 with
  | error err => rw [hf] at ho; cases hb : getE files (k0 + 1) <;> rw [hb] at ho <;> cases ho
  | ok f =>
  cases hb : getE files (k0 + 1) with
  | error err => rw [hf, hb] at ho; cases ho
  | ok b =>
  rw [hf, hb] at ho
  obtain ⟨f', hf', hff⟩ := getE_within hw hf
  obtain ⟨b', hb', hbb⟩ := getE_within hw hb
  rw [hf', hb']
  simp only at ho ⊢
  by_cases h2 : 3 < q.ops.length + q.additional.length
  · rw [if_pos h2] at ho; cases ho
  rw [if_neg h2] at ho ⊢
  have hself : ∀ i, RowsWithin (C * η) (junk i) (junk i) := fun i a c => by
    rw [sub_self, abs_zero]; nlinarith
  have hF := rotLoop_within at_ hη hff q.ops hC 0 f f' (fun a c => (hff a c).trans hηC) junk junk hself
  have hB := rotLoop_within at_ hη hbb q.ops hC 0 b b' (fun a c => (hbb a c).trans hηC) junk junk hself
  cases hF1 : addLoop files (k0 + 2) q.ops.length q.additional.length (rotLoop at_ f 0 f q.ops junk) with
  | error err => rw [hF1] at ho; cases hB1 : addLoop files (k0 + 3) q.ops.length q.additional.length (rotLoop at_ b 0 b q.ops junk) <;> rw [hB1] at ho <;> cases ho
  | ok F =>
  cases hB1 : addLoop files (k0 + 3) q.ops.length q.additional.length (rotLoop at_ b 0 b q.ops junk) with
  | error err => rw [hF1, hB1] at ho; cases ho
  | ok B =>
  rw [hF1, hB1] at ho
  obtain ⟨F', hF2, hFF⟩ := addLoop_within hηC hw _ _ _ _ _ _ hF hF1
  obtain ⟨B', hB2, hBB⟩ := addLoop_within hηC hw _ _ _ _ _ _ hB hB1
  rw [hF2, hB2]
  cases ho
  refine ⟨_, rfl, ?_⟩
  intro r c
  show |(if _ then _ else _) - (if _ then _ else _)| ≤ _
  by_cases hc : 3 * q.idx ≤ c ∧ c < 3 * (q.idx + 1)
  · rw [if_pos hc, if_pos hc]
    refine le_trans ?_ (le_max_right _ _)
    have e1 : -(∑ k : Fin 3, (reshape (F k) r - reshape (B k) r) * T⁻¹ k (comp c)) / (2 * d * ang) -
        -(∑ k : Fin 3, (reshape (F' k) r - reshape (B' k) r) * T⁻¹ k (comp c)) / (2 * d * ang) =
        (∑ k : Fin 3, ((reshape (B k) r - reshape (B' k) r) - (reshape (F k) r - reshape (F' k) r)) * T⁻¹ k (comp c)) / (2 * d * ang) := by
      rw [← sub_div]
      congr 1
      rw [neg_sub_neg, ← Finset.sum_sub_distrib]
      exact Finset.sum_congr rfl fun k _ => by ring
    show |-(∑ k : Fin 3, (reshape (F k) r - reshape (B k) r) * T⁻¹ k (comp c)) / (2 * d * ang) -
        -(∑ k : Fin 3, (reshape (F' k) r - reshape (B' k) r) * T⁻¹ k (comp c)) / (2 * d * ang)| ≤ _
    rw [e1, abs_div, abs_mul, abs_mul, abs_of_pos ang_pos, abs_of_pos (show (0 : ℝ) < 2 by norm_num), div_mul_eq_mul_div, mul_assoc 2, ← div_div]
    refine div_le_div_of_nonneg_right ?_ hda
    rw [div_le_iff₀ (by norm_num)]
    refine (Finset.abs_sum_le_sum_abs _ _).trans ?_
    have hterm : ∀ k ∈ (Finset.univ : Finset (Fin 3)), |((reshape (B k) r - reshape (B' k) r) - (reshape (F k) r - reshape (F' k) r)) * T⁻¹ k (comp c)| ≤
        2 * (C * η) * ∑ c : Fin 3, |T⁻¹ k c| := by
      intro k _
      rw [abs_mul]
      have hs := Finset.single_le_sum (f := fun c : Fin 3 => |T⁻¹ k c|) (fun c _ => abs_nonneg _) (Finset.mem_univ (comp c))
      have hd : |(reshape (B k) r - reshape (B' k) r) - (reshape (F k) r - reshape (F' k) r)| ≤ 2 * (C * η) := by
        have h1 : |reshape (B k) r - reshape (B' k) r| ≤ C * η := hBB k (r / 3) (comp r)
        have h2 : |reshape (F k) r - reshape (F' k) r| ≤ C * η := hFF k (r / 3) (comp r)
        refine (abs_sub _ _).trans ?_
        linarith
      exact mul_le_mul hd hs (abs_nonneg _) (by nlinarith)
    refine (Finset.sum_le_sum hterm).trans (le_of_eq ?_)
    rw [← Finset.mul_sum]
    ring
  · rw [if_neg hc, if_neg hc]
    exact (hfc r c).trans (le_max_left _ _)

theorem reqLoop_within (d : ℝ) (at_ : ℕ → ℕ) (junk : ℕ → Rows ℝ) : ∀ req : List (ReqAtom ℝ), ∃ K : ℝ, 0 ≤ K ∧ ∀ (η : ℝ), 0 ≤ η → ∀ files files' : List (Rows ℝ),
    FilesWithin η files files' → ∀ (k0 : ℕ) (fc fc' out : FC ℝ) (e : ℝ), FcWithin e fc fc' → reqLoop d at_ junk files k0 req fc = .ok out →
    ∃ out', reqLoop d at_ junk files' k0 req fc' = .ok out' ∧ FcWithin (max e (K * η)) out out'
  | [] => ⟨0, le_rfl, fun η _ files files' _ k0 fc fc' out e hfc ho => by
      rw [reqLoop] at ho ⊢
      cases ho
      exact ⟨fc', rfl, fun r c => (hfc r c).trans (le_max_left _ _)⟩⟩
  | q :: rest => by
    obtain ⟨K1, hK1, h1⟩ := reqStep_within d at_ junk q
    obtain ⟨K2, hK2, h2⟩ := reqLoop_within d at_ junk rest
    refine ⟨max K1 K2, le_max_of_le_left hK1, ?_⟩
    intro η hη files files' hw k0 fc fc' out e hfc ho
    rw [reqLoop] at ho ⊢
    cases hs : reqStep d at_ junk files k0 q fc with
    | error err => rw [hs] at ho; cases ho
    | ok r =>
      obtain ⟨k1, fc1⟩ := r
      rw [hs] at ho
      obtain ⟨fc1', hs', hn⟩ := h1 η hη files files' hw k0 k1 fc fc' fc1 e hfc hs
      rw [hs']
      obtain ⟨out', ho', hn'⟩ := h2 η hη files files' hw k1 fc1 fc1' out _ hn ho
      refine ⟨out', ho', fun r c => (hn' r c).trans ?_⟩
      refine max_le (max_le (le_max_left _ _) ?_) ?_
      · exact le_max_of_le_right (mul_le_mul_of_nonneg_right (le_max_left _ _) hη)
      · exact le_max_of_le_right (mul_le_mul_of_nonneg_right (le_max_right _ _) hη)

theorem mul_within (A B : M3 ℝ) : ∃ K : ℝ, 1 ≤ K ∧ ∀ (X Y : M3 ℝ) (e : ℝ), (∀ i j, |X i j - Y i j| ≤ e) → ∀ i j, |(A * X * B) i j - (A * Y * B) i j| ≤ K * e := by
  refine ⟨1 + ∑ i, ∑ k, ∑ l, ∑ j, |A i k| * |B l j|, ?_, ?_⟩
  · have : 0 ≤ ∑ i, ∑ k, ∑ l, ∑ j, |A i k| * |B l j| := by positivity
    linarith
  intro X Y e h i j
  have he : 0 ≤ e := (abs_nonneg _).trans (h i j)
  have e1 : (A * X * B) i j - (A * Y * B) i j = ∑ l, ∑ k, A i k * (X k l - Y k l) * B l j := by
    simp only [Matrix.mul_apply, Finset.sum_mul]
    rw [← Finset.sum_sub_distrib]
    refine Finset.sum_congr rfl fun l _ => ?_
    rw [← Finset.sum_sub_distrib]
    exact Finset.sum_congr rfl fun k _ => by ring
  rw [e1, Finset.sum_comm]
  have h2 : |∑ k, ∑ l, A i k * (X k l - Y k l) * B l j| ≤ ∑ k, ∑ l, |A i k| * |B l j| * e := by
    refine (Finset.abs_sum_le_sum_abs _ _).trans (Finset.sum_le_sum fun k _ => ?_)
    refine (Finset.abs_sum_le_sum_abs _ _).trans (Finset.sum_le_sum fun l _ => ?_)
    rw [abs_mul, abs_mul]
    have := mul_le_mul_of_nonneg_left (h k l) (mul_nonneg (abs_nonneg (A i k)) (abs_nonneg (B l j)))
    linarith
  refine h2.trans ?_
  have h3 : ∑ k, ∑ l, |A i k| * |B l j| * e ≤ (∑ i, ∑ k, ∑ l, ∑ j, |A i k| * |B l j|) * e := by
    have h4 : ∑ k, ∑ l, |A i k| * |B l j| * e = (∑ k, ∑ l, |A i k| * |B l j|) * e := by
      rw [Finset.sum_mul]
      exact Finset.sum_congr rfl fun k _ => by rw [Finset.sum_mul]
    rw [h4]
    refine mul_le_mul_of_nonneg_right ?_ he
    refine le_trans ?_ (Finset.single_le_sum (f := fun i => ∑ k, ∑ l, ∑ j, |A i k| * |B l j|) (fun i _ => by positivity) (Finset.mem_univ i))
    refine Finset.sum_le_sum fun k _ => Finset.sum_le_sum fun l _ => ?_
    exact Finset.single_le_sum (f := fun j => |A i k| * |B l j|) (fun j _ => by positivity) (Finset.mem_univ j)
  nlinarith

theorem derRows_within (at_ : ℕ → ℕ) (q : Derived ℝ) : ∀ rows : List ℕ, ∃ K : ℝ, 1 ≤ K ∧ ∀ (si : ℕ) (fc fc' : FC ℝ) (e : ℝ), FcWithin e fc fc' →
    FcWithin (K * e) (derRows at_ q si rows fc) (derRows at_ q si rows fc')
  | [] => ⟨1, le_rfl, fun si fc fc' e h => by rw [derRows, derRows, one_mul]; exact h⟩
  | same :: rest => by
    obtain ⟨K1, hK1, h1⟩ := mul_within q.W⁻¹ q.W
    obtain ⟨K2, hK2, h2⟩ := derRows_within at_ q rest
    refine ⟨K2 * K1, by nlinarith, ?_⟩
    intro si fc fc' e h
    have he : 0 ≤ e := (abs_nonneg _).trans (h 0 0)
    rw [derRows, derRows, mul_assoc]
    refine h2 _ _ _ _ ?_
    intro r c
    unfold setBlock
    split_ifs
    · exact h1 _ _ e (fun i j => h _ _) _ _
    · refine (h r c).trans ?_
      nlinarith

theorem derLoop_within (at_ : ℕ → ℕ) : ∀ der : List (Derived ℝ), ∃ K : ℝ, 1 ≤ K ∧ ∀ (fc fc' out : FC ℝ) (e : ℝ), FcWithin e fc fc' →
    derLoop at_ der fc = .ok out → ∃ out', derLoop at_ der fc' = .ok out' ∧ FcWithin (K * e) out out'
  | [] => ⟨1, le_rfl, fun fc fc' out e h ho => by
      rw [derLoop] at ho ⊢
      cases ho
      exact ⟨fc', rfl, by rw [one_mul]; exact h⟩⟩
  | q :: rest => by
    obtain ⟨K1, hK1, h1⟩ := derRows_within at_ q q.rows
    obtain ⟨K2, hK2, h2⟩ := derLoop_within at_ rest
    refine ⟨K2 * K1, by nlinarith, ?_⟩
    intro fc fc' out e h ho
    rw [derLoop] at ho ⊢
    by_cases hq : q.rows ≠ [] ∧ q.W.det = 0
    · rw [if_pos hq] at ho; cases ho
    · rw [if_neg hq] at ho ⊢
      rw [mul_assoc]
      exact h2 _ _ _ _ (h1 0 _ _ e h) ho

/-- With symmetry: the force constants are off by at most a constant times the error of the forces; the constant depends only on the symmetry and the displacement. -/
theorem setSym_near (d : ℝ) (at_ : ℕ → ℕ) (junkCols : ℕ → Rows ℝ) (req : List (ReqAtom ℝ)) (der : List (Derived ℝ)) : ∃ K : ℝ, 0 ≤ K ∧ ∀ (η : ℝ), 0 ≤ η →
    ∀ (junk : FC ℝ) (files files' : List (Rows ℝ)), FilesWithin η files files' → ∀ fc, setSym d at_ junkCols junk req der files = .ok fc →
    ∃ fc', setSym d at_ junkCols junk req der files' = .ok fc' ∧ FcWithin (K * η) fc fc' := by
  obtain ⟨K1, hK1, h1⟩ := reqLoop_within d at_ junkCols req
  obtain ⟨K2, hK2, h2⟩ := derLoop_within at_ der
  refine ⟨K2 * K1, mul_nonneg (by linarith) hK1, ?_⟩
  intro η hη junk files files' hw fc hf
  unfold setSym at hf ⊢
  cases hr : reqLoop d at_ junkCols files 0 req junk with
  | error err => rw [hr] at hf; cases hf
  | ok fc1 =>
    rw [hr] at hf
    obtain ⟨fc1', hr', hn⟩ := h1 η hη files files' hw 0 junk junk fc1 0 (fun r c => by rw [sub_self, abs_zero]) hr
    rw [hr']
    obtain ⟨fc', hf', hn'⟩ := h2 fc1 fc1' fc _ hn hf
    refine ⟨fc', hf', ?_⟩
    rw [max_eq_right (mul_nonneg hK1 hη), ← mul_assoc] at hn'
    exact hn'

/-- `set_force_constant`, with or without symmetry. -/
theorem forceConstant_near (jc : ℕ → Rows ℝ) (sym : Bool) (o : Object) : ∃ K : ℝ, 0 ≤ K ∧ ∀ (η : ℝ), 0 ≤ η → ∀ (files files' : List (Rows ℝ)),
    FilesWithin η files files' → ∀ fc, forceConstant jc sym files o = .ok fc → ∃ fc', forceConstant jc sym files' o = .ok fc' ∧ FcWithin (K * η) fc fc' := by
  unfold forceConstant
  by_cases h2 : sym = true ∧ PreProcess.numPbc o.p = 2
  · cases hp : SymPlan.symPlan o.unit o.super o.p with
    | none => exact ⟨0, le_rfl, fun η _ files files' _ fc hf => by rw [if_pos h2] at hf; cases hf⟩
    | some r =>
      cases r with
      | error err => exact ⟨0, le_rfl, fun η _ files files' _ fc hf => by rw [if_pos h2] at hf; cases hf⟩
      | ok plan =>
        obtain ⟨K, hK, h⟩ := setSym_near o.d (fun i => (o.super.atomTrue.getD []).getD i 0) jc plan.1 plan.2
        refine ⟨K, hK, ?_⟩
        intro η hη files files' hw fc hf
        rw [if_pos h2] at hf ⊢
        exact h η hη o.fc files files' hw fc hf
  · refine ⟨1 / (|o.d| * ang), by have := ang_pos; positivity, ?_⟩
    intro η hη files files' hw fc hf
    rw [if_neg h2] at hf ⊢
    obtain ⟨fc', hf', hn⟩ := setPlain_near hη _ _ hw hf
    refine ⟨fc', hf', fun r c => (hn r c).trans (le_of_eq (by ring))⟩

/-! ### The calls of the post-process -/

theorem uniform_delta {α : Type*} (l : List α) (P : α → ℝ → Prop) (h : ∀ a ∈ l, ∃ δ > 0, ∀ δ' ≤ δ, P a δ') : ∃ δ > 0, ∀ a ∈ l, P a δ := by
  have key : ∃ δ > 0, ∀ a ∈ l, ∀ δ' ≤ δ, P a δ' := by
    induction l with
    | nil => exact ⟨1, one_pos, by simp⟩
    | cons b l ih =>
      obtain ⟨δ1, h1, k1⟩ := ih fun a ha => h a (List.mem_cons_of_mem _ ha)
      obtain ⟨δ2, h2, k2⟩ := h b List.mem_cons_self
      refine ⟨min δ1 δ2, lt_min h1 h2, ?_⟩
      intro a ha δ' hδ
      rcases List.mem_cons.1 ha with rfl | ha
      · exact k2 _ (hδ.trans (min_le_right _ _))
      · exact k1 a ha _ (hδ.trans (min_le_left _ _))
  obtain ⟨δ, h0, hk⟩ := key
  exact ⟨δ, h0, fun a ha => hk a ha δ le_rfl⟩

/-- The results of `set_reciprocal_lattice`, `set_force_constant`, `set_k_points` and `eval_phonon` on a new object. -/
def phononsOf (S : Solver) (u s' : Cell ℝ) (n p : Fin 3 → ℤ) (d : ℝ) (mass : ℕ → ℝ) (junkR : M3 ℝ) (junkF left : FC ℝ) (jc : ℕ → Rows ℝ) (sym : Bool)
    (lines : List Str) (forces : List (Rows ℝ)) : Object × Option PyErr :=
  step S (PostProcess.run S (PostProcess.new u s' n p d mass junkR junkF) [.reciprocal, .force left jc sym forces, .kPoints (some lines)]) .eval

/-- **C128, the force constants.**  Whatever the forces: if every entry of the force files is off by at most `η`, every force constant is off by at most
`η` divided by the displacement (in metres). -/
theorem C128_force_constants {d η : ℝ} (hη : 0 ≤ η) (nsel : ℕ) (junk : FC ℝ) {files files' : List (Rows ℝ)} (h : FilesWithin η files files') {fc : FC ℝ}
    (hf : setPlain d nsel junk files = .ok fc) :
    ∃ fc', setPlain d nsel junk files' = .ok fc' ∧ ∀ r c, |fc r c - fc' r c| ≤ η / (|d| * (1 / 10 ^ 10)) :=
  setPlain_near hη nsel junk h hf

theorem files_symm {η : ℝ} {files files' : List (Rows ℝ)} (h : FilesWithin η files files') : FilesWithin η files' files :=
  ⟨h.1.symm, fun k f g h1 h2 a c => by rw [abs_sub_comm]; exact h.2 k g f h2 h1 a c⟩

/-- **C128, continuity.**  For every cell, super cell, selection, displacement and list of forces from which the force constants can be computed - harmonic or not - and every accepted
k-point file, with or without symmetry: the frequencies are continuous functions of the forces.  For every `ε` there is an `η` such that forces that are off by at most `η` give, at every
listed wave vector, the same number of frequencies, and each of them, in the order in which they are stored, differs by less than `ε`. -/
theorem C128_continuous {junk : ℕ → List (V3 ℝ)} {u s s' : Cell ℝ} {n p : Fin 3 → ℤ} (h : GoodCall junk u n p)
    (hdet : u.lattice.det ≠ 0) (sel : List ℕ) (hsel : u.atomTrue = some sel)
    (hxyz : u.xyzTrue = some (sel.flatMap fun a => [a, a, a]))
    (hs : setSuperCell junk u n p = .ok s) (hs' : setSuperIndTrue s u n p = .ok s')
    (d : ℝ) (mass : ℕ → ℝ) {S : Solver} (hS : IsSolver S)
    (junkR : M3 ℝ) (junkF left : FC ℝ) (jc : ℕ → Rows ℝ) (sym : Bool) (lines : List Str) (ks : List (V3 ℚ)) (auto : List ℤ)
    (hk : KPoints.setKPoints lines (fun c => decide (p c ≠ 0)) = .ok (ks, auto)) (hne : ks ≠ [])
    (forces0 : List (Rows ℝ)) (fc0 : FC ℝ) (hfc0 : forceConstant jc sym forces0 (PostProcess.new u s' n p d mass (reciprocal u.lattice) junkF) = .ok fc0) {ε : ℝ} (hε : 0 < ε) :
    ∃ η > 0, ∀ forces, FilesWithin η forces forces0 →
      (phononsOf S u s' n p d mass junkR junkF left jc sym lines forces).2 = none ∧
      (phononsOf S u s' n p d mass junkR junkF left jc sym lines forces0).2 = none ∧
      List.Forall₂ (List.Forall₂ fun ν ν0 => |ν - ν0| < ε) (phononsOf S u s' n p d mass junkR junkF left jc sym lines forces).1.wq
        (phononsOf S u s' n p d mass junkR junkF left jc sym lines forces0).1.wq := by
  obtain ⟨-, r1, r2, r3, r4⟩ := run_spectrum_of (s' := s') (n := n) sel hsel hxyz d mass hS junkR junkF left jc lines ks auto hk hne forces0 fc0 sym hfc0
  obtain ⟨hgs, -⟩ := phonon_data_reachable h hdet sel hsel hxyz hs hs' fc0 mass
  set D := ofCells u s' n p fc0 mass with hD
  -- the matrices
  have hδ : ∃ δ > 0, ∀ k ∈ ks, ∀ (row0 : List ℝ), IsSpectrum (Matrix.of fun (r c : Fin (3 * sel.length)) => dynMatrix D (toReal k) r c) row0 →
      ∀ (M : Matrix (Fin (3 * sel.length)) (Fin (3 * sel.length)) ℂ) (row : List ℝ), (∀ r c, ‖M r c - dynMatrix D (toReal k) r c‖ ≤ δ) →
      IsSpectrum M row → List.Forall₂ (fun ν ν0 => |ν - ν0| < ε) row row0 := by
    refine uniform_delta ks _ ?_
    intro k hkm
    obtain ⟨i, hi⟩ := List.mem_iff_getElem?.1 hkm
    obtain ⟨row0, -, hrow0⟩ := r4 i k hi
    obtain ⟨δ, hδ0, hδ⟩ := spectrum_continuous _ hrow0 hε
    refine ⟨δ, hδ0, ?_⟩
    intro δ' hδ' row1 hrow1 M row hM hrow
    obtain rfl : row1 = row0 := by
      have hp : row1.Perm row0 := by rw [← Multiset.coe_eq_coe, hrow1.2, hrow0.2]
      exact hp.eq_of_pairwise (fun a b _ _ h1 h2 => le_antisymm h1 h2) hrow1.1 hrow0.1
    exact hδ M row (fun r c => (hM r c).trans hδ') hrow
  obtain ⟨δ, hδ0, hδ⟩ := hδ
  set C : ℝ := ∑ r : Fin (3 * sel.length), ∑ c : Fin (3 * sel.length), D.E / Real.sqrt (mass r * mass c) with hC
  have hterm0 : ∀ r c : Fin (3 * sel.length), (0 : ℝ) ≤ D.E / Real.sqrt (mass r * mass c) := fun r c => by positivity
  have hC0 : 0 ≤ C := Finset.sum_nonneg fun r _ => Finset.sum_nonneg fun c _ => hterm0 r c
  have hterm : ∀ r c : Fin (3 * sel.length), (D.E : ℝ) / Real.sqrt (mass r * mass c) ≤ C := by
    intro r c
    have h1 := Finset.single_le_sum (f := fun c : Fin (3 * sel.length) => (D.E : ℝ) / Real.sqrt (mass r * mass c)) (fun c _ => hterm0 r c) (Finset.mem_univ c)
    have h2 := Finset.single_le_sum (f := fun r : Fin (3 * sel.length) => ∑ c : Fin (3 * sel.length), (D.E : ℝ) / Real.sqrt (mass r * mass c))
      (fun r _ => Finset.sum_nonneg fun c _ => hterm0 r c) (Finset.mem_univ r)
    exact h1.trans h2
  obtain ⟨K, hK, hKn⟩ := forceConstant_near jc sym (PostProcess.new u s' n p d mass (reciprocal u.lattice) junkF)
  refine ⟨δ / ((C + 1) * (K + 1)), by positivity, ?_⟩
  intro forces hw
  have hη0 : 0 ≤ δ / ((C + 1) * (K + 1)) := by positivity
  obtain ⟨fc, hfc, hnear⟩ := hKn _ hη0 _ _ (files_symm hw) _ hfc0
  obtain ⟨-, q1, q2, q3, q4⟩ := run_spectrum_of (s' := s') (n := n) sel hsel hxyz d mass hS junkR junkF left jc lines ks auto hk hne forces fc sym hfc
  refine ⟨q1, r1, ?_⟩
  have hq3 : (phononsOf S u s' n p d mass junkR junkF left jc sym lines forces).1.wq.length = ks.length := q3
  have hr3 : (phononsOf S u s' n p d mass junkR junkF left jc sym lines forces0).1.wq.length = ks.length := r3
  rw [List.forall₂_iff_get]
  refine ⟨by rw [hq3, hr3], ?_⟩
  intro i h1 h2
  have hi : i < ks.length := by rw [← hr3]; exact h2
  have hik : ks[i]? = some ks[i] := List.getElem?_eq_getElem hi
  obtain ⟨row, e1, hrow⟩ := q4 i _ hik
  obtain ⟨row0, e0, hrow0⟩ := r4 i _ hik
  have e1' : (phononsOf S u s' n p d mass junkR junkF left jc sym lines forces).1.wq.get ⟨i, h1⟩ = row := by
    obtain ⟨_, e⟩ := List.getElem?_eq_some_iff.1 e1
    exact e
  have e0' : (phononsOf S u s' n p d mass junkR junkF left jc sym lines forces0).1.wq.get ⟨i, h2⟩ = row0 := by
    obtain ⟨_, e⟩ := List.getElem?_eq_some_iff.1 e0
    exact e
  rw [e1', e0']
  refine hδ ks[i] (List.getElem_mem _) row0 hrow0 _ row ?_ hrow
  intro r c
  have hd1 := dyn_near D sel hgs fc (ε := δ / (C + 1)) (fun r c => by
    rw [abs_sub_comm]
    refine (hnear r c).trans ?_
    rw [mul_div_assoc', div_le_div_iff₀ (by positivity) (by positivity)]
    nlinarith [mul_nonneg hK (mul_nonneg hδ0.le hC0), mul_nonneg hδ0.le hC0, mul_nonneg hK hδ0.le]) (toReal ks[i]) r.2 c.2
  refine hd1.trans ?_
  show (D.E : ℝ) * (δ / (C + 1)) / Real.sqrt (mass r * mass c) ≤ δ
  have : (D.E : ℝ) * (δ / (C + 1)) / Real.sqrt (mass r * mass c) = (D.E : ℝ) / Real.sqrt (mass r * mass c) * (δ / (C + 1)) := by ring
  rw [this]
  refine (mul_le_mul_of_nonneg_right (hterm r c) (by positivity)).trans ?_
  rw [mul_div_assoc', div_le_iff₀ (by positivity)]
  nlinarith

/-- **C128, the bound.**  Forces that are those of an infinite harmonic crystal (made periodic with the super cell) up to an error of at most `η` in every
component: no call raises, every force constant is the one of the crystal up to `η / |d|`, and at every listed wave vector that fits into the super cell every
stored frequency is within `√(E·η/|d|·Σ 1/m) / π` (in THz) of a frequency of the crystal (`E` the number of unit cells in the super cell, the sum over
the degrees of freedom). -/
theorem C128_errors {junk : ℕ → List (V3 ℝ)} {u s s' : Cell ℝ} {n p : Fin 3 → ℤ} (h : GoodCall junk u n p)
    (hdet : u.lattice.det ≠ 0) (sel : List ℕ) (hsel : u.atomTrue = some sel) (hlt : ∀ t ∈ sel, t < u.cart.length)
    (hxyz : u.xyzTrue = some (sel.flatMap fun a => [a, a, a]))
    (hs : setSuperCell junk u n p = .ok s) (hs' : setSuperIndTrue s u n p = .ok s')
    (Φ : Springs) (hΦ : ∀ a x b y l, l ∈ (Φ a x b y).support → ∀ i, p i = 0 → l i = 0) (hsymm : SymmetricSprings Φ)
    (d : ℝ) (hd : d ≠ 0) (F0 : Rows ℝ) (search : Run (List (ℕ × List (V3 ℝ)))) (mass : ℕ → ℝ) (hm : ∀ r, 0 < mass r) {S : Solver} (hS : IsSolver S)
    (junkR : M3 ℝ) (junkF left : FC ℝ) (jc : ℕ → Rows ℝ) (lines : List Str) (ks : List (V3 ℚ)) (auto : List ℤ)
    (hk : KPoints.setKPoints lines (fun c => decide (p c ≠ 0)) = .ok (ks, auto)) (hne : ks ≠ []) {η : ℝ} (hη : 0 ≤ η) :
    ∃ s'' files, writeDisplaceCell s' sel (n 0 * n 1 * n 2).toNat d p false search = .ok (s'', files) ∧
      ∀ forces, FilesWithin η forces (files.map fun f => harmonicForces (superSprings n (n 0 * n 1 * n 2).toNat Φ) F0 s' f.2) →
        let o := phononsOf S u s' n p d mass junkR junkF left jc false lines forces
        o.2 = none ∧ o.1.kPoints = ks ∧ o.1.wq.length = ks.length ∧
        (∀ (r a t : ℕ) (x y : Fin 3), sel[a]? = some t →
          |o.1.fc (3 * r + x) (3 * a + y) - superSprings n (n 0 * n 1 * n 2).toNat Φ r x ((n 0 * n 1 * n 2).toNat * t) y| ≤ η / (|d| * (1 / 10 ^ 10))) ∧
        ∀ (i : ℕ) (k : V3 ℚ), ks[i]? = some k → Fits n p (toReal k) → ∃ row q row0, o.1.wq[i]? = some row ∧ row.length = 3 * sel.length ∧
          (∀ c, dot3 q (u.lattice c) = 2 * Real.pi * (k c : ℝ)) ∧ IsSpectrum (trueDyn u sel mass Φ q (3 * sel.length)) row0 ∧
          ∀ ν ∈ row, ∃ ν0 ∈ row0, |ν - ν0| ≤
            Real.sqrt ((n 0 * n 1 * n 2).toNat * (η / (|d| * (1 / 10 ^ 10))) * ∑ r : Fin (3 * sel.length), 1 / mass r) / (Real.pi * 10 ^ 12) := by
  obtain ⟨s'', files, fc0, hw, hfc0, hmat⟩ := C97_exact_dynamical_matrix h hdet sel hsel hlt hxyz hs hs' Φ hΦ d hd F0 junkF search mass
  refine ⟨s'', files, hw, ?_⟩
  intro forces hwith
  obtain ⟨fc, hfc, hnear⟩ := setPlain_near hη sel.length junkF (files_symm hwith) hfc0
  intro o
  obtain ⟨q0, q1, q2, q3, q4⟩ := run_spectrum (s' := s') (n := n) sel hsel hxyz d mass hS junkR junkF left jc lines ks auto hk hne forces fc hfc
  have hDE : (ofCells u s' n p fc0 mass).E = (n 0 * n 1 * n 2).toNat := by
    simp only [ofCells]; rw [SuperCell.enlarge_eq n p h.cons]
  obtain ⟨hgs, -⟩ := phonon_data_reachable h hdet sel hsel hxyz hs hs' fc0 mass
  refine ⟨q1, q2, q3, ?_, ?_⟩
  · intro r a t x y hat
    have hofc : o.1.fc = fc := by
      have h1 : o.1.fc = (frequencies S (PostProcess.run S (PostProcess.new u s' n p d mass junkR junkF) [.reciprocal, .force left jc false forces, .kPoints (some lines)])).fc :=
        by
          show (eval S _).1.fc = _
          rw [eval_state]
      have h2 := congrArg PhononData.fc q0
      rw [h1]
      unfold frequencies
      split <;> exact h2
    have hE0 : 0 < (n 0 * n 1 * n 2).toNat := by
      have h0 := h.pos 0
      have h1 := h.pos 1
      have h2 := h.pos 2
      have hpos : 0 < n 0 * n 1 * n 2 := by positivity
      omega
    have hcart : ∀ t ∈ sel, (n 0 * n 1 * n 2).toNat * t < s'.cart.length := by
      obtain ⟨s0, hs0, hlen, -⟩ := C06_supercell_positions h
      rw [hs] at hs0; cases hs0
      unfold setSuperIndTrue at hs'
      simp only [hsel] at hs'
      cases hs'
      intro t ht
      show _ < s.cart.length
      rw [hlen]
      exact Nat.mul_lt_mul_of_pos_left (hlt t ht) hE0
    obtain ⟨fc1, hfc1, hent⟩ := C19_harmonic_exact s' sel (n 0 * n 1 * n 2).toNat d hd p search hcart (superSprings n (n 0 * n 1 * n 2).toNat Φ) F0 junkF s'' files hw
    rw [hfc0] at hfc1
    cases hfc1
    rw [hofc, ← hent r a t x y hat, abs_sub_comm]
    exact hnear _ _
  · intro i k hi hfit
    obtain ⟨row, e1, hrow⟩ := q4 i k hi
    have hA := hmat (toReal k) hfit _ le_rfl
    set q := qVec (ofCells u s' n p fc0 mass) (toReal k) with hq
    have hrow0 : ∃ row0, IsSpectrum (trueDyn u sel mass Φ q (3 * sel.length)) row0 :=
      ⟨((trueDyn u sel mass Φ q (3 * sel.length)).charpoly.roots.map freqOf).sort (· ≤ ·), Multiset.pairwise_sort _ _, Multiset.sort_eq _ _⟩
    obtain ⟨row0, hrow0⟩ := hrow0
    refine ⟨row, q, row0, e1, ?_, ?_, hrow0, ?_⟩
    · obtain ⟨w, -, -, rfl⟩ := enumerate hrow
      simp
    · intro c
      exact q_exists u.lattice hdet _ rfl (toReal k) c
    · have hε : 0 ≤ ((n 0 * n 1 * n 2).toNat : ℝ) * (η / (|d| * (1 / 10 ^ 10))) := by
        have := ang_pos
        unfold ang at this
        positivity
      refine near_spectrum (trueDyn_hermitian u sel mass hsymm q _) hε (fun r => hm r) ?_ hrow hrow0
      intro r c
      rw [← hA]
      have := dyn_near (ofCells u s' n p fc0 mass) sel hgs fc (ε := η / (|d| * ang)) (fun r c => by rw [abs_sub_comm]; exact hnear r c) (toReal k) r.2 c.2
      have hDE' : ((ofCells u s' n p fc0 mass).E : ℝ) = ((n 0 * n 1 * n 2).toNat : ℝ) := by rw [hDE]
      rw [← hDE']
      exact this

end
end Interphon.Props
