import Verif.Props.DynMatrix
import Mathlib.LinearAlgebra.Matrix.DotProduct
import Mathlib.Analysis.Complex.Order

/-! # Properties C30, C31: frequencies and mode vectors -/

namespace Interphon.Props
open Py Interphon Interphon.Phonon Complex
open scoped ComplexOrder

noncomputable section

/-- Specification: the signed square root in THz. -/
def signedFreq (l : ℝ) : ℝ := if 0 ≤ l then Real.sqrt l / (2 * Real.pi * 10 ^ 12) else -(Real.sqrt (-l) / (2 * Real.pi * 10 ^ 12))

private theorem csqrt_nonneg (l : ℝ) (h : 0 ≤ l) : csqrt l = (Real.sqrt l : ℂ) := by
  unfold csqrt
  rw [Real.sqrt_eq_rpow, Complex.ofReal_cpow h]
  norm_num

private theorem csqrt_neg (l : ℝ) (h : l < 0) : csqrt l = I * (Real.sqrt (-l) : ℂ) := by
  unfold csqrt
  rw [Complex.ofReal_cpow_of_nonpos h.le]
  have : (-(l : ℂ)) ^ (1 / 2 : ℂ) = (Real.sqrt (-l) : ℂ) := by
    have := csqrt_nonneg (-l) (by linarith)
    unfold csqrt at this
    rw [← this]
    push_cast
    rfl
  rw [this, show (Real.pi : ℂ) * I * (1 / 2) = (Real.pi : ℂ) / 2 * I by ring, Complex.exp_pi_div_two_mul_I]
  ring

/-- **C30 (value).**  For a real eigenvalue the reported number is `√λ/(2π·10¹²)` if `λ ≥ 0` and
`-√(-λ)/(2π·10¹²)` if `λ < 0`. -/
theorem C30_value (l : ℝ) : freqOf l = signedFreq l := by
  unfold freqOf signedFreq
  split_ifs with h
  · rw [csqrt_nonneg l h]; simp [div_div]
  · rw [csqrt_neg l (not_le.mp h)]
    simp only [mul_re, I_re, ofReal_re, zero_mul, I_im, ofReal_im, mul_zero, sub_zero, mul_im, one_mul, zero_add, zero_sub]
    rw [abs_of_nonneg (Real.sqrt_nonneg _), neg_div, neg_div, div_div]

/-- **C30 (order).**  The reported number is strictly increasing in the eigenvalue; in particular it has its sign
and different eigenvalues give different numbers. -/
theorem C30_order_preserving : StrictMono fun l : ℝ => freqOf l := by
  intro a b hab
  show freqOf a < freqOf b
  rw [C30_value, C30_value]
  have hp : 0 < 2 * Real.pi * 10 ^ 12 := by positivity
  unfold signedFreq
  split_ifs with ha hb hb
  · exact div_lt_div_of_pos_right (Real.sqrt_lt_sqrt ha hab) hp
  · linarith
  · have h1 : 0 < Real.sqrt (-a) / (2 * Real.pi * 10 ^ 12) := div_pos (Real.sqrt_pos.mpr (by linarith)) hp
    have h2 : 0 ≤ Real.sqrt b / (2 * Real.pi * 10 ^ 12) := by positivity
    linarith
  · have := div_lt_div_of_pos_right (Real.sqrt_lt_sqrt (show (0 : ℝ) ≤ -b by linarith) (show -b < -a by linarith)) hp
    linarith

theorem C30_sign (l : ℝ) : (freqOf l < 0 ↔ l < 0) ∧ (freqOf l = 0 ↔ l = 0) := by
  have h0 : freqOf ((0 : ℝ) : ℂ) = 0 := by rw [C30_value]; simp [signedFreq]
  have hm := C30_order_preserving
  constructor
  · conv_lhs => rw [← h0]
    exact hm.lt_iff_lt
  · conv_lhs => rw [← h0]
    exact hm.injective.eq_iff

/-- Eigenvalues of a Hermitian matrix delivered by `eig` are real. -/
theorem eig_real {n : ℕ} {A : Matrix (Fin n) (Fin n) ℂ} (hA : A.IsHermitian) {w : Fin n → ℂ} {V : Matrix (Fin n) (Fin n) ℂ}
    (h : IsEig A w V) (m : Fin n) : (w m).im = 0 := by
  set v : Fin n → ℂ := fun r => V r m with hv
  have h1 : dotProduct (star v) (A.mulVec v) = w m * dotProduct (star v) v := by
    rw [h.vec m, dotProduct_smul, smul_eq_mul]
  have h2 : star (dotProduct (star v) (A.mulVec v)) = dotProduct (star v) (A.mulVec v) := by
    rw [← Matrix.star_dotProduct, Matrix.star_mulVec, hA.eq, ← Matrix.dotProduct_mulVec]
  have h3 : dotProduct (star v) v ≠ 0 := by
    intro h0
    exact h.nonzero m (dotProduct_star_self_eq_zero.mp h0)
  have h4 : star (dotProduct (star v) v) = dotProduct (star v) v := by
    rw [← Matrix.star_dotProduct]
  rw [h1, star_mul', h4] at h2
  have h5 := mul_right_cancel₀ h3 h2
  exact Complex.conj_eq_iff_im.mp h5

/-- **C30 (completeness).**  For every outcome of the eigenvalue routine on a Hermitian matrix and every argsort
used, the stored list is ascending and consists of the signed square roots of the eigenvalues, each with its
multiplicity in the characteristic polynomial, the eigenvalues themselves in ascending order. -/
theorem C30_sorted_complete {n : ℕ} (A : Matrix (Fin n) (Fin n) ℂ) (hA : A.IsHermitian) (w : Fin n → ℂ)
    (V : Matrix (Fin n) (Fin n) ℂ) (h : IsEig A w V) (σ τ : Equiv.Perm (Fin n)) (hσ : IsArgsort (fun m => freqOf (w m)) σ) :
    Monotone (store w V σ τ).1 ∧
    ∃ l : Fin n → ℝ, Monotone l ∧ A.charpoly = ∏ m, (Polynomial.X - Polynomial.C (l m : ℂ)) ∧
      ∀ m, (store w V σ τ).1 m = signedFreq (l m) := by
  have hw : ∀ m, w m = ((w m).re : ℂ) := fun m => Complex.ext rfl (by rw [eig_real hA h m]; rfl)
  have e : ∀ m, (store w V σ τ).1 m = freqOf (((w (σ m)).re : ℝ) : ℂ) := by
    intro m
    show freqOf (w (σ m)) = _
    rw [← hw]
  refine ⟨hσ, fun m => (w (σ m)).re, ?_, ?_, fun m => by rw [e, C30_value]⟩
  · intro a b hab
    have := hσ hab
    simp only [Function.comp] at this
    rw [hw (σ a), hw (σ b)] at this
    exact C30_order_preserving.le_iff_le.mp this
  · rw [h.charpoly, ← Equiv.prod_comp σ]
    exact Finset.prod_congr rfl fun m _ => by rw [hw (σ m)]

/-- A non-trivial case: eigenvalues 1 and 3 of a complex Hermitian matrix. -/
def exHerm : Matrix (Fin 2) (Fin 2) ℂ := !![2, I; -I, 2]
def exHermVec : Matrix (Fin 2) (Fin 2) ℂ := !![1, 1; I, -I]

theorem exHerm_eig : IsEig exHerm ![1, 3] exHermVec where
  vec := by
    intro m
    funext r
    fin_cases m <;> fin_cases r <;> simp [exHerm, exHermVec, Matrix.mulVec, dotProduct, Fin.sum_univ_two] <;> ring_nf <;> simp <;> ring
  nonzero := by
    intro m h
    have := congrFun h 0
    fin_cases m <;> simp [exHermVec] at this
  charpoly := by
    rw [Matrix.charpoly, Matrix.det_fin_two]
    simp [exHerm, Matrix.charmatrix, Fin.prod_univ_two, Matrix.scalar]
    have h1 : (Polynomial.C I : Polynomial ℂ) * Polynomial.C I = -1 := by rw [← Polynomial.C_mul, Complex.I_mul_I]; simp
    have h2 : (Polynomial.C 3 : Polynomial ℂ) = 3 := rfl
    have h3 : (Polynomial.C 2 : Polynomial ℂ) = 2 := rfl
    rw [h2, h3]
    linear_combination h1

theorem exHerm_hermitian : exHerm.IsHermitian := by
  ext i j
  fin_cases i <;> fin_cases j <;> simp [exHerm]

/-! ### C31 -/

/-- Full C31: the vector the analyses read as mode `m` — row `m` of the stored array
(`analysis/mode.py:93`, `analysis/band.py:43`, `analysis/dos.py:100`) — is an eigenvector whose eigenvalue gives
the `m`-th stored frequency. -/
def C31_full : Prop := ∀ (n : ℕ) (A : Matrix (Fin n) (Fin n) ℂ) (w : Fin n → ℂ) (V : Matrix (Fin n) (Fin n) ℂ), A.IsHermitian →
  IsEig A w V → ∀ σ τ : Equiv.Perm (Fin n), IsArgsort (fun m => freqOf (w m)) σ → IsArgsort (store w V σ τ).1 τ →
    ∀ m, ∃ l : ℝ, signedFreq l = (store w V σ τ).1 m ∧ A.mulVec ((store w V σ τ).2 m) = (l : ℂ) • (store w V σ τ).2 m

/-- **C31, proved part.**  If the eigenvalue routine happens to return the frequencies already in strictly
ascending order, both reorderings do nothing, and *column* `m` of the stored array is an eigenvector of the `m`-th
stored frequency.  Missing: the analyses read rows (`C31_refuted_rows`), and when the routine returns the
eigenvalues in another order the pairing is lost (`C31_refuted_order`). -/
theorem C31_sorted_columns_partial {n : ℕ} (A : Matrix (Fin n) (Fin n) ℂ) (hA : A.IsHermitian) (w : Fin n → ℂ)
    (V : Matrix (Fin n) (Fin n) ℂ) (h : IsEig A w V) (σ τ : Equiv.Perm (Fin n))
    (hσ : IsArgsort (fun m => freqOf (w m)) σ) (hτ : IsArgsort (store w V σ τ).1 τ)
    (hs : StrictMono fun m => freqOf (w m)) :
    σ = 1 ∧ τ = 1 ∧ ∀ m, ∃ l : ℝ, signedFreq l = (store w V σ τ).1 m ∧
      A.mulVec (fun r => (store w V σ τ).2 r m) = (l : ℂ) • fun r => (store w V σ τ).2 r m := by
  have mono_id : ∀ π : Equiv.Perm (Fin n), Monotone π → π = 1 := by
    intro π hπ
    have hsm : StrictMono π := hπ.strictMono_of_injective π.injective
    ext m
    have := congrFun (hsm.range_inj (g := id) strictMono_id |>.mp (by rw [π.surjective.range_eq]; simp)) m
    simp [this]
  have h1 : σ = 1 := mono_id σ fun a b hab => hs.le_iff_le.mp (hσ hab)
  subst h1
  have h2 : τ = 1 := mono_id τ fun a b hab => hs.le_iff_le.mp (hτ hab)
  subst h2
  refine ⟨rfl, rfl, fun m => ⟨(w m).re, ?_, ?_⟩⟩
  · rw [← C30_value]
    show _ = freqOf (w m)
    congr 1
    exact Complex.ext rfl (by rw [eig_real hA h m]; rfl)
  · have : ((w m).re : ℂ) = w m := Complex.ext rfl (by rw [eig_real hA h m]; rfl)
    rw [this]
    exact h.vec m

private theorem freq_lt (a b : ℝ) (h : a < b) : freqOf a < freqOf b := C30_order_preserving h

private theorem mono_two {f : Fin 2 → ℝ} (h : f 0 ≤ f 1) : Monotone f := by
  intro i j hij
  fin_cases i <;> fin_cases j <;> simp at hij ⊢
  exact h

/-- **C31 is false (1)**: the eigenvalues come back in descending order; after the call, mode 0 is reported with
the lower frequency but its vector belongs to the higher one. -/
theorem C31_refuted_order : ¬ C31_full := by
  intro H
  have heig : IsEig (!![2, 0; 0, 1] : Matrix (Fin 2) (Fin 2) ℂ) ![2, 1] 1 := by
    refine ⟨?_, ?_, ?_⟩
    · intro m; funext r
      fin_cases m <;> fin_cases r <;> simp [Matrix.mulVec, dotProduct, Fin.sum_univ_two]
    · intro m h
      have := congrFun h m
      simp at this
    · rw [Matrix.charpoly, Matrix.det_fin_two]
      simp [Matrix.charmatrix, Fin.prod_univ_two, Matrix.scalar]
  have herm : (!![2, 0; 0, 1] : Matrix (Fin 2) (Fin 2) ℂ).IsHermitian := by
    ext i j; fin_cases i <;> fin_cases j <;> simp
  have f12 : freqOf (1 : ℂ) < freqOf (2 : ℂ) := by have := freq_lt 1 2 (by norm_num); exact_mod_cast this
  obtain ⟨l, h1, h2⟩ := H 2 _ _ _ herm heig (Equiv.swap 0 1) 1 (mono_two (by simpa using f12.le)) (mono_two (by simpa [store] using f12.le)) 0
  have e0 := congrFun h2 0
  simp [store, Matrix.mulVec, dotProduct, Fin.sum_univ_two, Matrix.one_apply] at e0
  have hl : l = 2 := by exact_mod_cast e0.symm
  rw [hl, ← C30_value] at h1
  simp [store] at h1
  exact absurd h1 f12.ne'

/-- **C31 is false (2)**: even when the eigenvalues come back in ascending order, row 0 of the stored array is
not an eigenvector at all. -/
theorem C31_refuted_rows : ¬ C31_full := by
  intro H
  have f13 : freqOf (1 : ℂ) < freqOf (3 : ℂ) := by have := freq_lt 1 3 (by norm_num); exact_mod_cast this
  obtain ⟨l, h1, h2⟩ := H 2 _ _ _ exHerm_hermitian exHerm_eig 1 1 (mono_two (by simpa using f13.le)) (mono_two (by simpa [store] using f13.le)) 0
  have e0 := congrFun h2 0
  simp [store, Matrix.mulVec, dotProduct, Fin.sum_univ_two, exHerm, exHermVec] at e0
  have := congrArg Complex.im e0
  simp at this

end

end Interphon.Props
