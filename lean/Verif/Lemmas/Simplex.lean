import Verif.Spec.Simplex
import Mathlib.MeasureTheory.Measure.CharacteristicFunction.Basic
import Mathlib.Analysis.SpecialFunctions.Integrals.Basic
import Mathlib.MeasureTheory.Integral.Prod
import Mathlib.Topology.Algebra.Monoid
import Mathlib.GroupTheory.Perm.Sign

/-! # Integration over the simplex -/

noncomputable section

namespace Interphon.Spec
open MeasureTheory Set Complex

theorem isCompact_unitSimplex (n : ℕ) : IsCompact (unitSimplex n) := by
  have hc : IsClosed (unitSimplex n) := by
    have e : unitSimplex n = (⋂ i, {x | 0 ≤ x i}) ∩ {x | ∑ i, x i ≤ 1} := by
      ext x; simp [unitSimplex]
    rw [e]
    refine (isClosed_iInter fun i => isClosed_le continuous_const (continuous_apply i)).inter ?_
    exact isClosed_le (by fun_prop) continuous_const
  refine (isCompact_Icc (a := (0 : Fin n → ℝ)) (b := 1)).of_isClosed_subset hc ?_
  intro x hx
  refine ⟨hx.1, fun i => ?_⟩
  exact (Finset.single_le_sum (f := x) (fun j _ => hx.1 j) (Finset.mem_univ i)).trans hx.2

theorem measurableSet_unitSimplex (n : ℕ) : MeasurableSet (unitSimplex n) := (isCompact_unitSimplex n).isClosed.measurableSet

theorem integrableOn_unitSimplex {n : ℕ} {E : Type*} [NormedAddCommGroup E] {φ : (Fin n → ℝ) → E} (h : Continuous φ) :
    IntegrableOn φ (unitSimplex n) := h.continuousOn.integrableOn_compact (isCompact_unitSimplex n)

theorem insert_mem_iff {n : ℕ} (i : Fin (n + 1)) (s : ℝ) (y : Fin n → ℝ) :
    i.insertNth s y ∈ unitSimplex (n + 1) ↔ y ∈ unitSimplex n ∧ s ∈ Icc 0 (1 - ∑ j, y j) := by
  constructor
  · rintro ⟨h1, h2⟩
    rw [Fin.sum_univ_succAbove _ i] at h2
    simp only [Fin.insertNth_apply_same, Fin.insertNth_apply_succAbove] at h2
    have hs : 0 ≤ s := by simpa using h1 i
    refine ⟨⟨fun j => by simpa using h1 (i.succAbove j), by linarith⟩, hs, by linarith⟩
  · rintro ⟨⟨h1, _⟩, h3, h4⟩
    refine ⟨fun j => ?_, ?_⟩
    · rcases Fin.eq_self_or_eq_succAbove i j with rfl | ⟨k, rfl⟩
      · simpa using h3
      · simpa using h1 k
    · rw [Fin.sum_univ_succAbove _ i]
      simp only [Fin.insertNth_apply_same, Fin.insertNth_apply_succAbove]
      linarith

/-- Integrating out one coordinate. -/
theorem integral_unitSimplex_succ {n : ℕ} (i : Fin (n + 1)) {φ : (Fin (n + 1) → ℝ) → ℂ} (hφ : Continuous φ) :
    ∫ x in unitSimplex (n + 1), φ x = ∫ y in unitSimplex n, ∫ s in (0 : ℝ)..(1 - ∑ j, y j), φ (i.insertNth s y) := by
  have hp := (volume_preserving_piFinSuccAbove (fun _ : Fin (n + 1) => ℝ) i).symm
  rw [← integral_indicator (measurableSet_unitSimplex _), ← hp.integral_comp']
  have hint : Integrable ((unitSimplex (n + 1)).indicator φ) :=
    (integrable_indicator_iff (measurableSet_unitSimplex _)).2 (integrableOn_unitSimplex hφ)
  have hint2 := (hp.integrable_comp_emb (MeasurableEquiv.measurableEmbedding _)).2 hint
  rw [Measure.volume_eq_prod, integral_prod_symm _ (by rw [Measure.volume_eq_prod] at hint2; exact hint2),
    ← integral_indicator (measurableSet_unitSimplex _)]
  congr 1
  funext y
  by_cases hy : y ∈ unitSimplex n
  · rw [indicator_of_mem hy, intervalIntegral.integral_of_le (by linarith [hy.2]), ← integral_Icc_eq_integral_Ioc,
      ← integral_indicator measurableSet_Icc]
    congr 1
    funext s
    have e : (MeasurableEquiv.piFinSuccAbove (fun _ : Fin (n + 1) => ℝ) i).symm (s, y) = i.insertNth s y := rfl
    rw [e]
    by_cases hs : s ∈ Icc 0 (1 - ∑ j, y j)
    · rw [indicator_of_mem hs, indicator_of_mem ((insert_mem_iff i s y).2 ⟨hy, hs⟩)]
    · rw [indicator_of_notMem hs, indicator_of_notMem (fun h => hs ((insert_mem_iff i s y).1 h).2)]
  · rw [indicator_of_notMem hy]
    rw [← integral_zero ℝ ℂ (μ := volume)]
    congr 1
    funext s
    exact indicator_of_notMem (fun h => hy ((insert_mem_iff i s y).1 h).1) _

theorem continuous_bary (n : ℕ) : Continuous (bary (n := n)) := by
  refine continuous_pi fun i => ?_
  refine Fin.cases ?_ (fun j => ?_) i
  · simp only [bary, Fin.cons_zero]; fun_prop
  · simp only [bary, Fin.cons_succ]; fun_prop

theorem continuous_interp {n : ℕ} (w : Fin (n + 1) → ℝ) : Continuous (interp w) := by
  have := continuous_bary n
  unfold interp
  exact continuous_finset_sum _ fun i _ => ((continuous_apply i).comp this).mul continuous_const

theorem bary_sum {n : ℕ} (x : Fin n → ℝ) : ∑ i, bary x i = 1 := by
  rw [Fin.sum_univ_succ]; simp [bary]

theorem bary_nonneg {n : ℕ} {x : Fin n → ℝ} (hx : x ∈ unitSimplex n) (i : Fin (n + 1)) : 0 ≤ bary x i := by
  refine Fin.cases ?_ (fun j => ?_) i
  · simp only [bary, Fin.cons_zero]; linarith [hx.2]
  · simpa [bary] using hx.1 j

/-- The corner values without corner `i`+1, with corner 0 holding `a`. -/
def drop {n : ℕ} (w : Fin (n + 2) → ℝ) (i : Fin (n + 1)) (a : ℝ) : Fin (n + 1) → ℝ := Fin.cons a fun j => w (i.succAbove j).succ

theorem interp_eq {n : ℕ} (w : Fin (n + 1) → ℝ) (x : Fin n → ℝ) : interp w x = (1 - ∑ j, x j) * w 0 + ∑ j, x j * w j.succ := by
  rw [interp, Fin.sum_univ_succ]
  simp only [bary, Fin.cons_zero, Fin.cons_succ]

theorem interp_insert {n : ℕ} (w : Fin (n + 2) → ℝ) (i : Fin (n + 1)) (s : ℝ) (y : Fin n → ℝ) :
    interp w (i.insertNth s y) = interp (drop w i (w 0)) y + s * (w i.succ - w 0) := by
  rw [interp_eq, interp_eq, Fin.sum_univ_succAbove _ i, Fin.sum_univ_succAbove _ i]
  simp only [drop, Fin.cons_zero, Fin.cons_succ, Fin.insertNth_apply_same, Fin.insertNth_apply_succAbove]
  ring

theorem interp_drop {n : ℕ} (w : Fin (n + 2) → ℝ) (i : Fin (n + 1)) (a b : ℝ) (y : Fin n → ℝ) :
    interp (drop w i b) y = interp (drop w i a) y + (1 - ∑ j, y j) * (b - a) := by
  rw [interp_eq, interp_eq]
  simp only [drop, Fin.cons_zero, Fin.cons_succ]
  ring

/-- The Fourier integral of the interpolated values. -/
def wave {n : ℕ} (t : ℝ) (w : Fin (n + 1) → ℝ) : ℂ := ∫ x in unitSimplex n, cexp (t * I * interp w x)

theorem wave_succ {n : ℕ} {t : ℝ} (ht : t ≠ 0) (w : Fin (n + 2) → ℝ) (i : Fin (n + 1)) (h : w i.succ ≠ w 0) :
    wave t w = (wave t (drop w i (w i.succ)) - wave t (drop w i (w 0))) / (t * I * (w i.succ - w 0)) := by
  have hd : (t * I * ((w i.succ : ℂ) - w 0)) ≠ 0 := by
    refine mul_ne_zero (mul_ne_zero (by exact_mod_cast ht) I_ne_zero) ?_
    rw [sub_ne_zero]; exact_mod_cast h
  have hc : ∀ v : Fin (n + 1) → ℝ, Continuous fun x => cexp (t * I * interp v x) := fun v => by
    have := continuous_interp v; fun_prop
  unfold wave
  rw [integral_unitSimplex_succ i (by have := continuous_interp w; fun_prop)]
  rw [← integral_sub (integrableOn_unitSimplex (hc _)) (integrableOn_unitSimplex (hc _)), ← integral_div]
  congr 1
  funext y
  have hder : ∀ s ∈ uIcc (0 : ℝ) (1 - ∑ j, y j),
      HasDerivAt (fun s : ℝ => cexp (t * I * interp w (i.insertNth s y)) / (t * I * ((w i.succ : ℂ) - w 0))) (cexp (t * I * interp w (i.insertNth s y))) s := by
    intro s _
    simp only [interp_insert]
    have h1 : HasDerivAt (fun s : ℝ => (t * I * ((interp (drop w i (w 0)) y + s * (w i.succ - w 0) : ℝ) : ℂ))) (t * I * ((w i.succ : ℂ) - w 0)) s := by
      have h2 : HasDerivAt (fun s : ℝ => ((s : ℝ) : ℂ)) 1 s := Complex.ofRealCLM.hasDerivAt (x := s)
      have h3 := ((h2.mul_const ((w i.succ : ℂ) - w 0)).const_add (interp (drop w i (w 0)) y : ℂ)).const_mul (t * I : ℂ)
      refine h3.congr_deriv (by ring) |>.congr_of_eventuallyEq (Filter.Eventually.of_forall fun s => ?_)
      push_cast; ring
    refine (h1.cexp.div_const _).congr_deriv ?_
    rw [mul_div_assoc, div_self hd, mul_one]
  rw [intervalIntegral.integral_eq_sub_of_hasDerivAt hder]
  · simp only [interp_insert]
    rw [interp_drop w i (w 0) (w i.succ) y, ← sub_div]
    push_cast
    simp
  · simp only [interp_insert]
    exact (by fun_prop : Continuous _).intervalIntegrable _ _

/-! ### The volume of the simplex -/

private theorem power_integral (n k : ℕ) : ∫ x in unitSimplex n, ((1 - ∑ j, x j : ℝ) : ℂ) ^ k = (k.factorial : ℂ) / ((n + k).factorial : ℂ) := by
  induction n generalizing k with
  | zero =>
    have e : unitSimplex 0 = univ := by ext x; simp [unitSimplex]
    rw [e, Measure.restrict_univ]
    have hk : (k.factorial : ℂ) ≠ 0 := by exact_mod_cast k.factorial_ne_zero
    rw [zero_add, div_self hk]
    simp [integral_unique, volume_pi, Measure.real]
  | succ n ih =>
    rw [integral_unitSimplex_succ 0 (by fun_prop)]
    have : ∀ y : Fin n → ℝ, ∫ s in (0 : ℝ)..(1 - ∑ j, y j), ((1 - ∑ j, ((0 : Fin (n + 1)).insertNth s y : Fin (n + 1) → ℝ) j : ℝ) : ℂ) ^ k =
        ((1 - ∑ j, y j : ℝ) : ℂ) ^ (k + 1) / (k + 1) := by
      intro y
      simp only [Fin.sum_univ_succAbove _ (0 : Fin (n + 1)), Fin.insertNth_apply_same, Fin.insertNth_apply_succAbove]
      set L := ∑ j, y j
      have e : ∀ s : ℝ, ((1 - (s + L) : ℝ) : ℂ) ^ k = (((1 - L - s) ^ k : ℝ) : ℂ) := fun s => by push_cast; ring
      simp only [e]
      rw [intervalIntegral.integral_ofReal, intervalIntegral.integral_comp_sub_left (fun s => s ^ k) (1 - L), integral_pow]
      push_cast
      simp
    simp only [this]
    rw [integral_div, ih]
    rw [show n + 1 + k = n + (k + 1) by ring, Nat.factorial_succ k]
    have : (((k : ℂ)) + 1) ≠ 0 := by exact_mod_cast Nat.succ_ne_zero k
    push_cast
    field_simp

theorem volume_real_unitSimplex (n : ℕ) : volume.real (unitSimplex n) = 1 / n.factorial := by
  have h := power_integral n 0
  simp only [pow_zero, Nat.factorial_zero, Nat.add_zero, Nat.cast_one] at h
  rw [setIntegral_const] at h
  have : ((volume.real (unitSimplex n) : ℝ) : ℂ) = ((1 / n.factorial : ℝ) : ℂ) := by
    rw [real_smul, mul_one] at h
    rw [h]; simp
  exact_mod_cast this

theorem wave_flat {n : ℕ} (t : ℝ) (w : Fin (n + 1) → ℝ) (a : ℝ) (h : ∀ i, w i = a) : wave t w = cexp (t * I * a) / n.factorial := by
  have e : ∀ x : Fin n → ℝ, interp w x = a := fun x => by
    simp only [interp, h, ← Finset.sum_mul, bary_sum, one_mul]
  simp only [wave, e]
  rw [setIntegral_const, volume_real_unitSimplex, real_smul]
  push_cast
  ring

/-! ### The order of the corners does not matter -/

theorem wave_swap_zero {n : ℕ} (t : ℝ) (w : Fin (n + 1) → ℝ) (k : Fin (n + 1)) : wave t (w ∘ Equiv.swap 0 k) = wave t w := by
  by_cases ht : t = 0
  · subst ht; simp [wave]
  refine Fin.cases ?_ (fun i => ?_) k
  · simp
  cases n with
  | zero => exact i.elim0
  | succ n =>
    by_cases h : w i.succ = w 0
    · congr 1
      funext j
      simp only [Function.comp]
      by_cases h0 : j = 0
      · subst h0; rw [Equiv.swap_apply_left]; exact h
      · by_cases hi : j = i.succ
        · subst hi; rw [Equiv.swap_apply_right]; exact h.symm
        · rw [Equiv.swap_apply_of_ne_of_ne h0 hi]
    · have hne : (w ∘ Equiv.swap 0 i.succ) i.succ ≠ (w ∘ Equiv.swap 0 i.succ) 0 := by
        simpa using fun hh => h hh.symm
      rw [wave_succ ht _ i hne, wave_succ ht _ i h]
      have hd : ∀ a, drop (w ∘ Equiv.swap 0 i.succ) i a = drop w i a := by
        intro a
        unfold drop
        congr 1
        funext j
        simp only [Function.comp]
        rw [Equiv.swap_apply_of_ne_of_ne (Fin.succ_ne_zero _)]
        intro hh
        exact Fin.succAbove_ne i j (Fin.succ_injective _ hh)
      simp only [hd, Function.comp, Equiv.swap_apply_left, Equiv.swap_apply_right]
      rw [← neg_sub (wave t (drop w i (w i.succ))), ← neg_sub ((w i.succ : ℂ)), mul_neg, neg_div_neg_eq]

theorem wave_perm {n : ℕ} (t : ℝ) (w : Fin (n + 1) → ℝ) (σ : Equiv.Perm (Fin (n + 1))) : wave t (w ∘ σ) = wave t w := by
  have hs : ∀ (i j : Fin (n + 1)) (w : Fin (n + 1) → ℝ), wave t (w ∘ Equiv.swap i j) = wave t w := by
    intro i j w
    by_cases hj : j = 0
    · subst hj; rw [Equiv.swap_comm]; exact wave_swap_zero t w i
    by_cases hi : i = 0
    · subst hi; exact wave_swap_zero t w j
    by_cases hij : i = j
    · subst hij; simp
    have e : Equiv.swap i j = Equiv.swap 0 i * Equiv.swap 0 j * Equiv.swap 0 i := by
      rw [Equiv.swap_comm 0 j, Equiv.swap_mul_swap_mul_swap hj (Ne.symm hij)]
    rw [e, show w ∘ ⇑(Equiv.swap 0 i * Equiv.swap 0 j * Equiv.swap 0 i) = ((w ∘ Equiv.swap 0 i) ∘ Equiv.swap 0 j) ∘ Equiv.swap 0 i from rfl]
    rw [wave_swap_zero, wave_swap_zero, wave_swap_zero]
  induction σ using Equiv.Perm.swap_induction_on generalizing w with
  | one => rfl
  | swap_mul f x y _ ih => 
    rw [show w ∘ ⇑(Equiv.swap x y * f) = (w ∘ Equiv.swap x y) ∘ f from rfl, ih, hs]

/-- The barycentric coordinates of a random point, in any order, are distributed the same. -/
theorem bary_perm {n : ℕ} (σ : Equiv.Perm (Fin (n + 1))) :
    (volume.restrict (unitSimplex n)).map (fun x => bary x ∘ σ) = (volume.restrict (unitSimplex n)).map bary := by
  have hc := continuous_bary n
  have hc' : Continuous fun x : Fin n → ℝ => bary x ∘ σ := continuous_pi fun i => (continuous_apply (σ i)).comp hc
  haveI : IsFiniteMeasure (volume.restrict (unitSimplex n)) := ⟨by simpa using (isCompact_unitSimplex n).measure_lt_top⟩
  haveI : IsFiniteMeasure ((volume.restrict (unitSimplex n)).map bary) := Measure.isFiniteMeasure_map _ _
  haveI : IsFiniteMeasure ((volume.restrict (unitSimplex n)).map fun x => bary x ∘ σ) := Measure.isFiniteMeasure_map _ _
  refine Measure.ext_of_charFunDual (funext fun L => ?_)
  rw [charFunDual_apply, charFunDual_apply, integral_map hc'.aemeasurable (by fun_prop), integral_map hc.aemeasurable (by fun_prop)]
  have hL : ∀ v : Fin (n + 1) → ℝ, L v = ∑ i, v i * L (Pi.single i 1) := by
    intro v
    conv_lhs => rw [← Finset.univ_sum_single v, map_sum]
    refine Finset.sum_congr rfl fun i _ => ?_
    rw [← smul_eq_mul, ← map_smul, ← Pi.single_smul, smul_eq_mul, mul_one]
  have h1 : ∀ x : Fin n → ℝ, L (bary x) = interp (fun i => L (Pi.single i 1)) x := fun x => hL _
  have h2 : ∀ x : Fin n → ℝ, L (bary x ∘ σ) = interp ((fun i => L (Pi.single i 1)) ∘ σ.symm) x := by
    intro x
    rw [hL, interp]
    rw [← Equiv.sum_comp σ (fun i => bary x i * _)]
    simp
  simp only [h1, h2]
  have := wave_perm 1 (fun i => L (Pi.single i 1)) σ.symm
  simp only [wave, ofReal_one, one_mul] at this
  simpa only [mul_comm] using this

/-! ### Weighted by one barycentric coordinate -/

/-- The Fourier integral weighted by the barycentric coordinate of corner `k`. -/
def pull {n : ℕ} (t : ℝ) (w : Fin (n + 1) → ℝ) (k : Fin (n + 1)) : ℂ :=
  ∫ x in unitSimplex n, (bary x k : ℂ) * cexp (t * I * interp w x)

theorem continuous_pull_integrand {n : ℕ} (t : ℝ) (w : Fin (n + 1) → ℝ) (k : Fin (n + 1)) :
    Continuous fun x : Fin n → ℝ => (bary x k : ℂ) * cexp (t * I * interp w x) := by
  have h1 := continuous_interp w
  have h2 : Continuous fun x : Fin n → ℝ => bary x k := (continuous_apply k).comp (continuous_bary n)
  fun_prop

theorem pull_perm {n : ℕ} (t : ℝ) (w : Fin (n + 1) → ℝ) (σ : Equiv.Perm (Fin (n + 1))) (k : Fin (n + 1)) :
    pull t (w ∘ σ) k = pull t w (σ k) := by
  have hc := continuous_bary n
  have hc' : Continuous fun x : Fin n → ℝ => bary x ∘ σ := continuous_pi fun i => (continuous_apply (σ i)).comp hc
  have hG : ∀ j : Fin (n + 1), Continuous fun v : Fin (n + 1) → ℝ => (v j : ℂ) * cexp (t * I * ((∑ i, v i * w (σ i) : ℝ) : ℂ)) := by
    intro j; fun_prop
  have h := congrArg (fun μ : Measure (Fin (n + 1) → ℝ) => ∫ v, (v k : ℂ) * cexp (t * I * ((∑ i, v i * w (σ i) : ℝ) : ℂ)) ∂μ) (bary_perm (n := n) σ)
  rw [integral_map hc'.aemeasurable (hG k).aestronglyMeasurable, integral_map hc.aemeasurable (hG k).aestronglyMeasurable] at h
  unfold pull interp
  refine h.symm.trans ?_
  congr 1
  funext x
  simp only [Function.comp]
  rw [Equiv.sum_comp σ (fun i => bary x i * w i)]

theorem pull_succ {n : ℕ} {t : ℝ} (ht : t ≠ 0) (w : Fin (n + 2) → ℝ) (i : Fin (n + 1)) (h : w i.succ ≠ w 0) :
    pull t w i.succ = (pull t (drop w i (w i.succ)) 0 - wave t w) / (t * I * (w i.succ - w 0)) := by
  have hd : (t * I * ((w i.succ : ℂ) - w 0)) ≠ 0 := by
    refine mul_ne_zero (mul_ne_zero (by exact_mod_cast ht) I_ne_zero) ?_
    rw [sub_ne_zero]; exact_mod_cast h
  have hcw : Continuous fun x : Fin (n + 1) → ℝ => cexp (t * I * interp w x) := by have := continuous_interp w; fun_prop
  have hi1 : ∀ y : Fin n → ℝ, Continuous fun s : ℝ => interp w (i.insertNth s y) := fun y => by simp only [interp_insert]; fun_prop
  have hr : (pull t (drop w i (w i.succ)) 0 - wave t w) = ∫ y in unitSimplex n,
      ((bary y 0 : ℂ) * cexp (t * I * interp (drop w i (w i.succ)) y) - ∫ s in (0 : ℝ)..(1 - ∑ j, y j), cexp (t * I * interp w (i.insertNth s y))) := by
    unfold wave pull
    rw [integral_unitSimplex_succ i hcw, ← integral_sub (integrableOn_unitSimplex (continuous_pull_integrand _ _ _))]
    refine (integrableOn_unitSimplex ?_)
    have h1 := continuous_interp (drop w i (w 0))
    have h2 := intervalIntegral.continuous_parametric_intervalIntegral_of_continuous (μ := volume) (a₀ := 0)
      (f := fun (y : Fin n → ℝ) (s : ℝ) => cexp (t * I * ((interp (drop w i (w 0)) y + s * (w i.succ - w 0) : ℝ) : ℂ)))
      (by unfold Function.uncurry; fun_prop) (s := fun y => 1 - ∑ j, y j) (by fun_prop)
    simp only [interp_insert]
    exact h2
  rw [hr, pull, integral_unitSimplex_succ i (continuous_pull_integrand _ _ _), ← integral_div]
  congr 1
  funext y
  have hb : ∀ s : ℝ, bary (i.insertNth s y : Fin (n + 1) → ℝ) i.succ = s := fun s => by simp [bary]
  simp only [hb]
  set D : ℂ := t * I * ((w i.succ : ℂ) - w 0) with hD
  have hder : ∀ s ∈ uIcc (0 : ℝ) (1 - ∑ j, y j),
      HasDerivAt (fun s : ℝ => (s : ℂ) * cexp (t * I * interp w (i.insertNth s y))) 
        (cexp (t * I * interp w (i.insertNth s y)) + D * ((s : ℂ) * cexp (t * I * interp w (i.insertNth s y)))) s := by
    intro s _
    simp only [interp_insert]
    have h2 : HasDerivAt (fun s : ℝ => ((s : ℝ) : ℂ)) 1 s := Complex.ofRealCLM.hasDerivAt (x := s)
    have h1 : HasDerivAt (fun s : ℝ => (t * I * ((interp (drop w i (w 0)) y + s * (w i.succ - w 0) : ℝ) : ℂ))) D s := by
      have h3 := ((h2.mul_const ((w i.succ : ℂ) - w 0)).const_add (interp (drop w i (w 0)) y : ℂ)).const_mul (t * I : ℂ)
      refine h3.congr_deriv (by rw [hD]; ring) |>.congr_of_eventuallyEq (Filter.Eventually.of_forall fun s => ?_)
      push_cast; ring
    refine (h2.mul h1.cexp).congr_deriv ?_
    ring
  have hc1 : Continuous fun s : ℝ => cexp (t * I * interp w (i.insertNth s y)) := by have := hi1 y; fun_prop
  have hc2 : Continuous fun s : ℝ => (s : ℂ) * cexp (t * I * interp w (i.insertNth s y)) := by fun_prop
  have hc3 : Continuous fun s : ℝ => D * ((s : ℂ) * cexp (t * I * interp w (i.insertNth s y))) := by fun_prop
  have key := intervalIntegral.integral_eq_sub_of_hasDerivAt hder ((hc1.add hc3).intervalIntegrable _ _)
  rw [intervalIntegral.integral_add (hc1.intervalIntegrable _ _) (hc3.intervalIntegrable _ _),
    intervalIntegral.integral_const_mul] at key
  rw [eq_div_iff hd, mul_comm, eq_sub_iff_add_eq', key]
  simp only [interp_insert]
  rw [interp_drop w i (w 0) (w i.succ) y]
  simp [bary]

theorem pull_flat {n : ℕ} (t : ℝ) (w : Fin (n + 1) → ℝ) (a : ℝ) (h : ∀ i, w i = a) (k : Fin (n + 1)) :
    pull t w k = cexp (t * I * a) / (n + 1).factorial := by
  have e : ∀ x : Fin n → ℝ, interp w x = a := fun x => by
    simp only [interp, h, ← Finset.sum_mul, bary_sum, one_mul]
  have hp : pull t w k = pull t w 0 := by
    have := pull_perm t w (Equiv.swap 0 k) 0
    rw [Equiv.swap_apply_left] at this
    rw [← this]
    congr 1
    funext j
    simp [h]
  rw [hp]
  simp only [pull, e]
  rw [integral_mul_const]
  have := power_integral n 1
  simp only [pow_one, Nat.factorial_one] at this
  simp only [bary, Fin.cons_zero]
  rw [this]
  push_cast
  ring

end Interphon.Spec
