import Verif.Lemmas.Simplex
import Mathlib.MeasureTheory.Measure.CharacteristicFunction.TaylorExpansion
import Mathlib.Data.Fintype.Prod

/-! # The distribution of interpolated values on a simplex, from its Fourier transform -/

noncomputable section

namespace Interphon.Spec
open MeasureTheory Set Complex

/-- If `u` has the Fourier transform of the interpolated values weighted by corner `k`, it is their density. -/
theorem density_of_transform {n : ℕ} (w : Fin (n + 1) → ℝ) (k : Fin (n + 1)) {u : ℝ → ℝ} (hu0 : ∀ f, 0 ≤ u f) (hui : Integrable u)
    (h : ∀ t : ℝ, t ≠ 0 → pull t w k = ∫ f, (u f : ℂ) * cexp (t * I * f)) {A : Set ℝ} (hA : MeasurableSet A) :
    ∫ x in unitSimplex n ∩ interp w ⁻¹' A, bary x k = ∫ f in A, u f := by
  have hci := continuous_interp w
  have hcb : Continuous fun x : Fin n → ℝ => bary x k := (continuous_apply k).comp (continuous_bary n)
  have hib : IntegrableOn (fun x : Fin n → ℝ => bary x k) (unitSimplex n) := integrableOn_unitSimplex hcb
  have hnb : 0 ≤ᵐ[volume.restrict (unitSimplex n)] fun x => bary x k := by
    refine (ae_restrict_iff' (measurableSet_unitSimplex n)).2 (Filter.Eventually.of_forall fun x hx => bary_nonneg hx k)
  set μ₀ := (volume.restrict (unitSimplex n)).withDensity (fun x => ENNReal.ofReal (bary x k)) with hμ₀
  set μ := μ₀.map (interp w) with hμ
  set ν := (volume : Measure ℝ).withDensity (fun f => ENNReal.ofReal (u f)) with hν
  haveI : IsFiniteMeasure μ₀ := isFiniteMeasure_withDensity_ofReal hib.2
  haveI : IsFiniteMeasure μ := Measure.isFiniteMeasure_map _ _
  haveI : IsFiniteMeasure ν := isFiniteMeasure_withDensity_ofReal hui.2
  have hcf : ∀ t : ℝ, t ≠ 0 → charFun μ t = charFun ν t := by
    intro t ht
    rw [charFun_apply_real, charFun_apply_real, hμ, integral_map hci.aemeasurable (by fun_prop), hμ₀, hν,
      integral_withDensity_eq_integral_toReal_smul₀ (by fun_prop) (by simp),
      integral_withDensity_eq_integral_toReal_smul₀ (hui.1.aemeasurable.ennreal_ofReal) (by simp)]
    have e1 : ∫ x in unitSimplex n, (ENNReal.ofReal (bary x k)).toReal • cexp (t * interp w x * I) = pull t w k := by
      unfold pull
      refine setIntegral_congr_fun (measurableSet_unitSimplex n) fun x hx => ?_
      rw [ENNReal.toReal_ofReal (bary_nonneg hx k), real_smul]
      congr 2; ring
    have e2 : ∫ f, (ENNReal.ofReal (u f)).toReal • cexp (t * f * I) = ∫ f, (u f : ℂ) * cexp (t * I * f) := by
      congr 1
      funext f
      rw [ENNReal.toReal_ofReal (hu0 f), real_smul]
      congr 2; ring
    rw [e1, e2, h t ht]
  have hall : charFun μ = charFun ν := by
    refine Continuous.ext_on (dense_compl_singleton (0 : ℝ)) continuous_charFun continuous_charFun ?_
    intro t ht
    exact hcf t ht
  have heq : μ A = ν A := by rw [Measure.ext_of_charFun hall]
  have hpre : MeasurableSet (interp w ⁻¹' A) := hci.measurable hA
  rw [hμ, Measure.map_apply hci.measurable hA, hμ₀, withDensity_apply _ hpre, hν, withDensity_apply _ hA,
    Measure.restrict_restrict hpre, Set.inter_comm] at heq
  have hib' : IntegrableOn (fun x : Fin n → ℝ => bary x k) (unitSimplex n ∩ interp w ⁻¹' A) := hib.mono_set inter_subset_left
  have hnb' : 0 ≤ᵐ[volume.restrict (unitSimplex n ∩ interp w ⁻¹' A)] fun x => bary x k :=
    ae_restrict_of_ae_restrict_of_subset inter_subset_left hnb
  rw [← ofReal_integral_eq_lintegral_ofReal hib' hnb',
    ← ofReal_integral_eq_lintegral_ofReal hui.integrableOn (Filter.Eventually.of_forall hu0)] at heq
  exact (ENNReal.ofReal_eq_ofReal_iff (integral_nonneg_of_ae hnb') (integral_nonneg hu0)).1 heq

/-! ### Closed forms -/

section
variable {t : ℝ}

theorem wave_pair_flat (x : ℝ) : wave t ![x, x] = cexp (t * I * x) := by
  rw [wave_flat t _ x (by simp [Fin.forall_fin_succ])]; simp

theorem wave_point (x : ℝ) : wave t ![x] = cexp (t * I * x) := by
  rw [wave_flat t _ x (by simp)]; simp

theorem wave_pair (ht : t ≠ 0) {x y : ℝ} (h : x ≠ y) : wave t ![x, y] = (cexp (t * I * y) - cexp (t * I * x)) / (t * I * (y - x)) := by
  have := wave_succ ht ![x, y] 0 (by simpa using h.symm)
  rw [this, wave_flat t (drop _ _ _) y, wave_flat t (drop _ _ _) x]
  · simp
  all_goals simp [drop]

theorem wave_triple_flat (x : ℝ) : wave t ![x, x, x] = cexp (t * I * x) / 2 := by
  rw [wave_flat t _ x (by simp [Fin.forall_fin_succ])]; simp

theorem wave_triple (ht : t ≠ 0) {x y z : ℝ} (h : x ≠ z) : wave t ![x, y, z] = (wave t ![y, z] - wave t ![x, y]) / (t * I * (z - x)) := by
  have := wave_succ ht ![x, y, z] 1 (by simpa using h.symm)
  have e1 : drop ![x, y, z] 1 z = ![y, z] ∘ Equiv.swap 0 1 := by funext j; fin_cases j <;> simp [drop]
  have e2 : drop ![x, y, z] 1 x = ![x, y] := by funext j; fin_cases j <;> simp [drop]
  simp only [show (1 : Fin 2).succ = 2 from rfl, show ![x, y, z] 2 = z from rfl, show ![x, y, z] 0 = x from rfl, e1, e2, wave_perm] at this
  exact this

theorem wave_quad (ht : t ≠ 0) {x y z u : ℝ} (h : x ≠ u) : wave t ![x, y, z, u] = (wave t ![y, z, u] - wave t ![x, y, z]) / (t * I * (u - x)) := by
  have := wave_succ ht ![x, y, z, u] 2 (by simpa using h.symm)
  have e1 : drop ![x, y, z, u] 2 u = ![y, z, u] ∘ finRotate 3 ∘ finRotate 3 := by funext j; fin_cases j <;> rfl
  have e2 : drop ![x, y, z, u] 2 x = ![x, y, z] := by funext j; fin_cases j <;> rfl
  simp only [show (2 : Fin 3).succ = 3 from rfl, show ![x, y, z, u] 3 = u from rfl, show ![x, y, z, u] 0 = x from rfl, e1, e2, ← Function.comp_assoc, wave_perm] at this
  exact this

theorem pull_point (x : ℝ) : pull t ![x] 0 = cexp (t * I * x) := by
  rw [pull_flat t _ x (by simp)]; simp

theorem pull_pair_flat (x : ℝ) : pull t ![x, x] 0 = cexp (t * I * x) / 2 := by
  rw [pull_flat t _ x (by simp [Fin.forall_fin_succ])]; simp

/-- Eliminating corner 1. -/
theorem pull_zero (ht : t ≠ 0) {n : ℕ} (w : Fin (n + 2) → ℝ) (h : w 0 ≠ w 1) :
    pull t w 0 = (pull t (Fin.cons (w 0) fun j => w j.succ.succ) 0 - wave t w) / (t * I * (w 0 - w 1)) := by
  have hp := pull_perm t w (Equiv.swap 0 1) 1
  rw [Equiv.swap_apply_right] at hp
  have hs := pull_succ ht (w ∘ Equiv.swap 0 1) 0 (by simpa using h)
  rw [show (0 : Fin (n + 1)).succ = 1 from rfl, hp, wave_perm] at hs
  simp only [Function.comp, Equiv.swap_apply_left, Equiv.swap_apply_right] at hs
  rw [hs]
  congr 3

theorem pull_pair (ht : t ≠ 0) {x y : ℝ} (h : x ≠ y) : pull t ![x, y] 0 = (cexp (t * I * x) - wave t ![x, y]) / (t * I * (x - y)) := by
  rw [pull_zero ht ![x, y] (by simpa using h)]
  have e : (Fin.cons (![x, y] 0) fun j => ![x, y] (Fin.succ (Fin.succ j)) : Fin 1 → ℝ) = ![x] := by funext j; fin_cases j; rfl
  rw [e, pull_point]; rfl

theorem pull_triple_flat (x : ℝ) : pull t ![x, x, x] 0 = cexp (t * I * x) / 6 := by
  rw [pull_flat t _ x (by simp [Fin.forall_fin_succ])]; simp [Nat.factorial]

theorem pull_triple (ht : t ≠ 0) {x y z : ℝ} (h : x ≠ y) : pull t ![x, y, z] 0 = (pull t ![x, z] 0 - wave t ![x, y, z]) / (t * I * (x - y)) := by
  rw [pull_zero ht ![x, y, z] (by simpa using h)]
  have e : (Fin.cons (![x, y, z] 0) fun j => ![x, y, z] (Fin.succ (Fin.succ j)) : Fin 2 → ℝ) = ![x, z] := by funext j; fin_cases j <;> rfl
  rw [e]; rfl

theorem pull_quad (ht : t ≠ 0) {x y z u : ℝ} (h : x ≠ y) :
    pull t ![x, y, z, u] 0 = (pull t ![x, z, u] 0 - wave t ![x, y, z, u]) / (t * I * (x - y)) := by
  rw [pull_zero ht ![x, y, z, u] (by simpa using h)]
  have e : (Fin.cons (![x, y, z, u] 0) fun j => ![x, y, z, u] (Fin.succ (Fin.succ j)) : Fin 3 → ℝ) = ![x, z, u] := by funext j; fin_cases j <;> rfl
  rw [e]; rfl

theorem wave_swap2 (x y : ℝ) : wave t ![y, x] = wave t ![x, y] := by
  rw [← wave_perm t ![x, y] (Equiv.swap 0 1)]; congr 1; funext j; fin_cases j <;> simp

theorem wave_213 (x y z : ℝ) : wave t ![y, x, z] = wave t ![x, y, z] := by
  rw [← wave_perm t ![x, y, z] (Equiv.swap 0 1)]; congr 1; funext j; fin_cases j <;> rfl

theorem wave_312 (x y z : ℝ) : wave t ![z, x, y] = wave t ![x, y, z] := by
  rw [← wave_perm t ![x, y, z] (finRotate 3 * finRotate 3)]; congr 1; funext j; fin_cases j <;> rfl

theorem wave_132 (x y z : ℝ) : wave t ![x, z, y] = wave t ![x, y, z] := by
  rw [← wave_perm t ![x, y, z] (Equiv.swap 1 2)]; congr 1; funext j; fin_cases j <;> rfl

theorem pull_132 (x y z : ℝ) : pull t ![x, z, y] 0 = pull t ![x, y, z] 0 := by
  have h := pull_perm t ![x, y, z] (Equiv.swap 1 2) 0
  rw [show (Equiv.swap (1 : Fin 3) 2) 0 = 0 from rfl] at h
  rw [← h]; congr 1; funext j; fin_cases j <;> rfl

/-- Any corner may be put first, the others in any order. -/
theorem pull_at {n : ℕ} (w v : Fin (n + 1) → ℝ) (σ : Equiv.Perm (Fin (n + 1))) (h : v = w ∘ σ) : pull t w (σ 0) = pull t v 0 := by
  rw [h, pull_perm]

theorem wave_at {n : ℕ} (w v : Fin (n + 1) → ℝ) (σ : Equiv.Perm (Fin (n + 1))) (h : v = w ∘ σ) : wave t v = wave t w := by
  rw [h, wave_perm]

end

/-! ### Piecewise cubic functions -/

/-- `c (x - r₁)(s₂ x - r₂)(s₃ x - r₃)` on `[lo, hi)`. -/
structure Piece where
  (lo hi c r₁ s₂ r₂ s₃ r₃ : ℝ)

/-- Its value. -/
def Piece.at (P : Piece) (x : ℝ) : ℝ := (Ico P.lo P.hi).indicator (fun x => P.c * ((x - P.r₁) * (P.s₂ * x - P.r₂) * (P.s₃ * x - P.r₃))) x

/-- A primitive of the polynomial times `exp (T x)`, without the exponential. -/
def Piece.prim (P : Piece) (T : ℂ) (x : ℝ) : ℂ :=
  P.c * (((x - P.r₁) * (P.s₂ * x - P.r₂) * (P.s₃ * x - P.r₃)) / T
    - ((P.s₂ * x - P.r₂) * (P.s₃ * x - P.r₃) + (x - P.r₁) * P.s₂ * (P.s₃ * x - P.r₃) + (x - P.r₁) * (P.s₂ * x - P.r₂) * P.s₃) / T ^ 2
    + (2 * (P.s₂ * (P.s₃ * x - P.r₃) + (P.s₂ * x - P.r₂) * P.s₃ + (x - P.r₁) * P.s₂ * P.s₃)) / T ^ 3 - 6 * P.s₂ * P.s₃ / T ^ 4)

theorem Piece.integrable (P : Piece) : Integrable P.at := by
  have hc : Continuous fun x : ℝ => P.c * ((x - P.r₁) * (P.s₂ * x - P.r₂) * (P.s₃ * x - P.r₃)) := by fun_prop
  show Integrable ((Ico P.lo P.hi).indicator _)
  rw [integrable_indicator_iff measurableSet_Ico]
  exact (hc.continuousOn.integrableOn_Icc (a := P.lo) (b := P.hi)).mono_set Ico_subset_Icc_self

theorem Piece.integrable_wave (P : Piece) (t : ℝ) : Integrable fun x => (P.at x : ℂ) * cexp (t * I * x) := by
  refine (P.integrable.ofReal (𝕜 := ℂ)).mul_bdd (c := 1) (by fun_prop) (Filter.Eventually.of_forall fun x => ?_)
  rw [show (t * I * x : ℂ) = ((t * x : ℝ) : ℂ) * I by push_cast; ring, norm_exp_ofReal_mul_I]

theorem Piece.transform (P : Piece) (h : P.lo ≤ P.hi) {t : ℝ} (ht : t ≠ 0) :
    ∫ x, (P.at x : ℂ) * cexp (t * I * x) = P.prim (t * I) P.hi * cexp (t * I * P.hi) - P.prim (t * I) P.lo * cexp (t * I * P.lo) := by
  have hT : (t * I : ℂ) ≠ 0 := mul_ne_zero (by exact_mod_cast ht) I_ne_zero
  have e : (fun x : ℝ => (P.at x : ℂ) * cexp (t * I * x)) =
      (Ico P.lo P.hi).indicator fun x : ℝ => ((P.c * ((x - P.r₁) * (P.s₂ * x - P.r₂) * (P.s₃ * x - P.r₃)) : ℝ) : ℂ) * cexp (t * I * x) := by
    funext x
    by_cases hx : x ∈ Ico P.lo P.hi
    · rw [indicator_of_mem hx, Piece.at, indicator_of_mem hx]
    · rw [indicator_of_notMem hx, Piece.at, indicator_of_notMem hx]; simp
  rw [e, integral_indicator measurableSet_Ico, integral_Ico_eq_integral_Ioc, ← intervalIntegral.integral_of_le h]
  generalize (t * I : ℂ) = T at hT
  have hd : ∀ x ∈ uIcc P.lo P.hi, HasDerivAt (fun x : ℝ => P.prim T x * cexp (T * x))
      (((P.c * ((x - P.r₁) * (P.s₂ * x - P.r₂) * (P.s₃ * x - P.r₃)) : ℝ) : ℂ) * cexp (T * x)) x := by
    intro x _
    have h2 : HasDerivAt (fun s : ℝ => ((s : ℝ) : ℂ)) 1 x := Complex.ofRealCLM.hasDerivAt (x := x)
    have f1 := h2.sub_const (P.r₁ : ℂ)
    have f2 := (h2.const_mul (P.s₂ : ℂ)).sub_const (P.r₂ : ℂ)
    have f3 := (h2.const_mul (P.s₃ : ℂ)).sub_const (P.r₃ : ℂ)
    have g0 := (f1.mul f2).mul f3
    have g1 := ((f2.mul f3).add ((f1.mul_const (P.s₂ : ℂ)).mul f3)).add ((f1.mul f2).mul_const (P.s₃ : ℂ))
    have g2 := ((((f3.const_mul (P.s₂ : ℂ)).add (f2.mul_const (P.s₃ : ℂ))).add ((f1.mul_const (P.s₂ : ℂ)).mul_const (P.s₃ : ℂ))).const_mul (2 : ℂ))
    have hp := (((((g0.div_const T).sub (g1.div_const (T ^ 2))).add (g2.div_const (T ^ 3))).sub_const (6 * P.s₂ * P.s₃ / T ^ 4 : ℂ)).const_mul (P.c : ℂ)).mul
      ((h2.const_mul T).cexp)
    refine hp.congr_deriv ?_
    simp only [Pi.add_apply, Pi.mul_apply, Pi.sub_apply]
    push_cast
    field_simp
    ring
  rw [intervalIntegral.integral_eq_sub_of_hasDerivAt hd]
  exact (by fun_prop : Continuous _).intervalIntegrable _ _

/-- A sum of pieces. -/
def pieces (l : List Piece) (x : ℝ) : ℝ := (l.map fun P => P.at x).sum

theorem pieces_integrable (l : List Piece) : Integrable (pieces l) := by
  induction l with
  | nil => exact integrable_zero _ _ _
  | cons P l ih => exact P.integrable.add ih

theorem pieces_transform (l : List Piece) (h : ∀ P ∈ l, P.lo ≤ P.hi) {t : ℝ} (ht : t ≠ 0) :
    Integrable (fun x => (pieces l x : ℂ) * cexp (t * I * x)) ∧ ∫ x, (pieces l x : ℂ) * cexp (t * I * x) =
      (l.map fun P => P.prim (t * I) P.hi * cexp (t * I * P.hi) - P.prim (t * I) P.lo * cexp (t * I * P.lo)).sum := by
  induction l with
  | nil => simp [pieces]
  | cons P l ih =>
    obtain ⟨i1, i2⟩ := ih fun Q hQ => h Q (by simp [hQ])
    have e : (fun x : ℝ => (pieces (P :: l) x : ℂ) * cexp (t * I * x)) = fun x => (P.at x : ℂ) * cexp (t * I * x) + (pieces l x : ℂ) * cexp (t * I * x) := by
      funext x
      simp only [pieces, List.map_cons, List.sum_cons]
      push_cast; ring
    rw [e]
    refine ⟨(P.integrable_wave t).add i1, ?_⟩
    rw [integral_add (P.integrable_wave t) i1, i2, P.transform (h P (by simp)) ht]
    simp

/-- The transform of a sum of pieces. -/
def bump (t : ℝ) (l : List Piece) : ℂ := (l.map fun P => P.prim (t * I) P.hi * cexp (t * I * P.hi) - P.prim (t * I) P.lo * cexp (t * I * P.lo)).sum

theorem bump_append (t : ℝ) (l l' : List Piece) : bump t (l ++ l') = bump t l + bump t l' := by simp [bump]

theorem bump_empty (t : ℝ) (l : List Piece) (h : ∀ P ∈ l, P.lo = P.hi) : bump t l = 0 := by
  induction l with
  | nil => rfl
  | cons P l ih =>
    rw [show P :: l = [P] ++ l from rfl, bump_append, ih fun Q hQ => h Q (by simp [hQ])]
    simp [bump, h P (by simp)]

/-- A permutation from the list of its values. -/
def perm {n : ℕ} (f : Fin n → Fin n) (h : Function.Bijective f) : Equiv.Perm (Fin n) := Equiv.ofBijective f h

/-! ### Right-continuity -/

theorem Piece.right_continuous (P : Piece) (x : ℝ) : ContinuousWithinAt P.at (Ici x) x := by
  have hc : Continuous fun x : ℝ => P.c * ((x - P.r₁) * (P.s₂ * x - P.r₂) * (P.s₃ * x - P.r₃)) := by fun_prop
  by_cases h1 : x < P.lo
  · refine (continuousWithinAt_const (b := (0 : ℝ))).congr_of_eventuallyEq (g := P.at) ?_ (indicator_of_notMem (fun h => absurd h.1 (not_le.2 h1)) _)
    refine Filter.Eventually.filter_mono nhdsWithin_le_nhds ?_
    filter_upwards [Iio_mem_nhds h1] with y hy
    exact indicator_of_notMem (fun h => absurd h.1 (not_le.2 hy)) _
  · by_cases h2 : x < P.hi
    · refine hc.continuousWithinAt.congr_of_eventuallyEq (g := P.at) ?_ (indicator_of_mem (show x ∈ Ico P.lo P.hi from ⟨not_lt.1 h1, h2⟩) _)
      have hm : Iio P.hi ∈ nhdsWithin x (Ici x) := mem_nhdsWithin_of_mem_nhds (Iio_mem_nhds h2)
      filter_upwards [hm, self_mem_nhdsWithin] with y hy hy'
      exact indicator_of_mem (show y ∈ Ico P.lo P.hi from ⟨(not_lt.1 h1).trans hy', hy⟩) _
    · refine (continuousWithinAt_const (b := (0 : ℝ))).congr_of_eventuallyEq (g := P.at) ?_ (indicator_of_notMem (fun h => h2 h.2) _)
      filter_upwards [self_mem_nhdsWithin] with y hy
      exact indicator_of_notMem (fun h => h2 (lt_of_le_of_lt hy h.2)) _

theorem pieces_right_continuous (l : List Piece) (x : ℝ) : ContinuousWithinAt (pieces l) (Ici x) x := by
  induction l with
  | nil => exact continuousWithinAt_const
  | cons P l ih => exact (P.right_continuous x).add ih

/-- A density is determined at every point. -/
theorem DensityOf.unique {g h : ℝ → ℝ} {N : Set ℝ → ℝ} (hg : DensityOf g N) (hh : DensityOf h N) : g = h := by
  have hae : g =ᵐ[volume] h := by
    refine hg.integrable.ae_eq_of_forall_setIntegral_eq _ _ hh.integrable fun A hA _ => ?_
    rw [hg.integral A hA, hh.integral A hA]
  funext x
  -- points where they agree accumulate from the right
  have hfreq : ∃ᶠ y in nhdsWithin x (Ioi x), g y = h y := by
    intro hcon
    have hm := mem_nhdsGT_iff_exists_Ioo_subset.1 hcon
    obtain ⟨u, hu, hsub⟩ := hm
    have hz : volume (Ioo x u) = 0 := by
      refine measure_mono_null (fun y hy => ?_) (ae_iff.1 hae)
      exact hsub hy
    rw [Real.volume_Ioo] at hz
    have : u - x ≤ 0 := ENNReal.ofReal_eq_zero.1 hz
    linarith [show x < u from hu]
  have hle : nhdsWithin x (Ioi x) ≤ nhdsWithin x (Ici x) := nhdsWithin_mono _ Ioi_subset_Ici_self
  have t1 : Filter.Tendsto (fun y => g y - h y) (nhdsWithin x (Ioi x)) (nhds (g x - h x)) :=
    (((hg.continuous x).sub (hh.continuous x)).mono_left hle)
  by_contra hne
  have hev := t1.eventually_ne (show g x - h x ≠ 0 from sub_ne_zero.2 hne)
  obtain ⟨y, hy1, hy2⟩ := (hfreq.and_eventually hev).exists
  exact hy2 (by rw [hy1, sub_self])

end Interphon.Spec
