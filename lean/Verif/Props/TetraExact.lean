import Verif.Props.TetraMesh
import Verif.Lemmas.SimplexAll

/-! # Property C133: the tetrahedron method is the exact density of the linear interpolation -/

namespace Interphon.Props
open Py Interphon Interphon.Tetra Interphon.Spec MeasureTheory Set

noncomputable section

/-- What a branch contributes per unit of the quantity at corner `k`: density times corner weight. -/
def cornerDensity {m : ℕ} (b : Branch m) (k : Fin m) : ℝ :=
  match b with
  | .inside g I => g * I k
  | _ => 0

private theorem indicator_Ico_pos {a b x : ℝ} (h : a ≤ x ∧ x < b) (g : ℝ → ℝ) : (Ico a b).indicator g x = g x := indicator_of_mem (show x ∈ Ico a b from h) _
private theorem indicator_Ico_neg {a b x : ℝ} (h : ¬(a ≤ x ∧ x < b)) (g : ℝ → ℝ) : (Ico a b).indicator g x = 0 := indicator_of_notMem (show x ∉ Ico a b from h) _

/-- From the closed form of the Fourier transform to the statement about values. -/
private theorem exact_core {n : ℕ} {br : ℝ → (Fin (n + 1) → ℝ) → Branch (n + 1)} (hb : GoodBranch br) (w : Fin (n + 1) → ℝ) (hm : Monotone w)
    (k : Fin (n + 1)) (l : List Piece) (hl : ∀ P ∈ l, P.lo ≤ P.hi) (hw : ∀ f, cornerDensity (br f w) k = pieces l f)
    (ht : ∀ t : ℝ, t ≠ 0 → ((n.factorial : ℝ) : ℂ) * pull t w k = bump t l) {A : Set ℝ} (hA : MeasurableSet A) :
    Integrable (fun f => cornerDensity (br f w) k) ∧ (∀ f₀, ContinuousWithinAt (fun f => cornerDensity (br f w) k) (Ici f₀) f₀) ∧
    ∫ x in unitSimplex n ∩ interp w ⁻¹' A, bary x k = 1 / n.factorial * ∫ f in A, cornerDensity (br f w) k := by
  refine ⟨(pieces_integrable l).congr (Filter.Eventually.of_forall fun f => (hw f).symm),
    fun f₀ => (pieces_right_continuous l f₀).congr (fun f _ => hw f) (hw f₀), ?_⟩
  have hn : ((n.factorial : ℝ)) ≠ 0 := by exact_mod_cast n.factorial_ne_zero
  have hpos : ∀ f, 0 ≤ cornerDensity (br f w) k := by
    intro f
    cases hc : br f w with
    | inside g I => obtain ⟨h1, h2⟩ := hb.nonneg f w g I hm hc; exact mul_nonneg h1 (h2 k)
    | skip => exact le_refl _
    | nan => exact le_refl _
  have := density_of_transform w k (u := fun f => 1 / n.factorial * pieces l f) (fun f => by rw [← hw]; exact mul_nonneg (by positivity) (hpos f))
    ((pieces_integrable l).const_mul _) (fun t h0 => ?_) hA
  · rw [this, integral_const_mul]
    simp only [hw]
  · have h2 := (pieces_transform l hl h0).2
    rw [show (l.map fun P => P.prim (t * Complex.I) P.hi * Complex.exp (t * Complex.I * P.hi) - P.prim (t * Complex.I) P.lo * Complex.exp (t * Complex.I * P.lo)).sum = bump t l from rfl,
      ← ht t h0] at h2
    have e : (fun f : ℝ => (((1 / n.factorial * pieces l f : ℝ)) : ℂ) * Complex.exp (t * Complex.I * f)) =
        fun f => (((1 / n.factorial : ℝ)) : ℂ) * ((pieces l f : ℂ) * Complex.exp (t * Complex.I * f)) := by
      funext f; push_cast; ring
    rw [e, integral_const_mul, h2, ← mul_assoc, ← Complex.ofReal_mul, one_div_mul_cancel hn, Complex.ofReal_one, one_mul]

private theorem mid_core {g N D : ℝ} (h : g ≠ 0) : g * (N / g / D) = N / D := by
  rw [div_div, mul_div_assoc', mul_div_mul_left _ _ h]

private theorem corner1 (w : Fin 2 → ℝ) (hm : Monotone w) (hlt : w 0 < w 1) (k : Fin 2) {A : Set ℝ} (hA : MeasurableSet A) :
    Integrable (fun f => cornerDensity (branch1 f w) k) ∧ (∀ f₀, ContinuousWithinAt (fun f => cornerDensity (branch1 f w) k) (Ici f₀) f₀) ∧
    ∫ x in unitSimplex 1 ∩ interp w ⁻¹' A, bary x k = 1 / (1 : ℕ).factorial * ∫ f in A, cornerDensity (branch1 f w) k := by
  have hw : w = ![w 0, w 1] := by funext i; fin_cases i <;> rfl
  have h01 := hlt.le
  have key : ∀ l : List Piece, (∀ P ∈ l, P.lo ≤ P.hi) → (∀ f, cornerDensity (branch1 f w) k = pieces l f) →
      (∀ t : ℝ, t ≠ 0 → (1 : ℂ) * pull t w k = bump t l) → _ := fun l h1 h2 h3 =>
    exact_core branch1_good w hm k l h1 h2 (fun t ht => by simpa using h3 t ht) hA
  fin_cases k
  · refine key (cuts1_0 (w 0) (w 1)) (by simp [cuts1_0, h01]) (fun f => ?_) (fun t ht => by conv_lhs => rw [hw]; exact all1_0 ht h01 hlt)
    simp only [branch1, pieces, cuts1_0, List.map_cons, List.map_nil, List.sum_cons, List.sum_nil, Piece.at]
    by_cases h : w 0 ≤ f ∧ f < w 1
    · rw [if_pos h, indicator_Ico_pos h]; simp [cornerDensity]; try ring
    · rw [if_neg h, indicator_Ico_neg h]; simp [cornerDensity]
  · refine key (cuts1_1 (w 0) (w 1)) (by simp [cuts1_1, h01]) (fun f => ?_) (fun t ht => by conv_lhs => rw [hw]; exact all1_1 ht h01 hlt)
    simp only [branch1, pieces, cuts1_1, List.map_cons, List.map_nil, List.sum_cons, List.sum_nil, Piece.at]
    by_cases h : w 0 ≤ f ∧ f < w 1
    · rw [if_pos h, indicator_Ico_pos h]; simp [cornerDensity]; try ring
    · rw [if_neg h, indicator_Ico_neg h]; simp [cornerDensity]

private theorem corner2 (w : Fin 3 → ℝ) (hm : Monotone w) (hlt : w 0 < w 2) (k : Fin 3) {A : Set ℝ} (hA : MeasurableSet A) :
    Integrable (fun f => cornerDensity (branch2 f w) k) ∧ (∀ f₀, ContinuousWithinAt (fun f => cornerDensity (branch2 f w) k) (Ici f₀) f₀) ∧
    ∫ x in unitSimplex 2 ∩ interp w ⁻¹' A, bary x k = 1 / (2 : ℕ).factorial * ∫ f in A, cornerDensity (branch2 f w) k := by
  have hw : w = ![w 0, w 1, w 2] := by funext i; fin_cases i <;> rfl
  have h01 : w 0 ≤ w 1 := hm (by decide)
  have h12 : w 1 ≤ w 2 := hm (by decide)
  have key : ∀ l : List Piece, (∀ P ∈ l, P.lo ≤ P.hi) → (∀ f, cornerDensity (branch2 f w) k = pieces l f) →
      (∀ t : ℝ, t ≠ 0 → (2 : ℂ) * pull t w k = bump t l) → _ := fun l h1 h2 h3 =>
    exact_core branch2_good w hm k l h1 h2 (fun t ht => by simpa [Nat.factorial] using h3 t ht) hA
  fin_cases k
  · refine key (cuts2_0 (w 0) (w 1) (w 2)) (by simp [cuts2_0, h01, h12]) (fun f => ?_)
      (fun t ht => by conv_lhs => rw [hw]; exact all2_0 ht h01 h12 hlt)
    simp only [branch2, pieces, cuts2_0, List.map_cons, List.map_nil, List.sum_cons, List.sum_nil, Piece.at, List.map_append, List.sum_append]
    by_cases h : w 0 ≤ f ∧ f < w 1
    · have h' : ¬(w 1 ≤ f ∧ f < w 2) := fun hh => by linarith [hh.1, h.2]
      simp only [if_pos h, indicator_Ico_pos h, indicator_Ico_neg h']
      simp [cornerDensity]; try ring
    · by_cases h' : w 1 ≤ f ∧ f < w 2
      · simp only [if_neg h, if_pos h', indicator_Ico_neg h, indicator_Ico_pos h']
        simp [cornerDensity]; try ring
      · simp only [if_neg h, if_neg h', indicator_Ico_neg h, indicator_Ico_neg h']
        simp [cornerDensity]
  · refine key (cuts2_1 (w 0) (w 1) (w 2)) (by simp [cuts2_1, h01, h12]) (fun f => ?_)
      (fun t ht => by conv_lhs => rw [hw]; exact all2_1 ht h01 h12 hlt)
    simp only [branch2, pieces, cuts2_1, List.map_cons, List.map_nil, List.sum_cons, List.sum_nil, Piece.at, List.map_append, List.sum_append]
    by_cases h : w 0 ≤ f ∧ f < w 1
    · have h' : ¬(w 1 ≤ f ∧ f < w 2) := fun hh => by linarith [hh.1, h.2]
      simp only [if_pos h, indicator_Ico_pos h, indicator_Ico_neg h']
      simp [cornerDensity]; try ring
    · by_cases h' : w 1 ≤ f ∧ f < w 2
      · simp only [if_neg h, if_pos h', indicator_Ico_neg h, indicator_Ico_pos h']
        simp [cornerDensity]; try ring
      · simp only [if_neg h, if_neg h', indicator_Ico_neg h, indicator_Ico_neg h']
        simp [cornerDensity]
  · refine key (cuts2_2 (w 0) (w 1) (w 2)) (by simp [cuts2_2, h01, h12]) (fun f => ?_)
      (fun t ht => by conv_lhs => rw [hw]; exact all2_2 ht h01 h12 hlt)
    simp only [branch2, pieces, cuts2_2, List.map_cons, List.map_nil, List.sum_cons, List.sum_nil, Piece.at, List.map_append, List.sum_append]
    by_cases h : w 0 ≤ f ∧ f < w 1
    · have h' : ¬(w 1 ≤ f ∧ f < w 2) := fun hh => by linarith [hh.1, h.2]
      simp only [if_pos h, indicator_Ico_pos h, indicator_Ico_neg h']
      simp [cornerDensity]; try ring
    · by_cases h' : w 1 ≤ f ∧ f < w 2
      · simp only [if_neg h, if_pos h', indicator_Ico_neg h, indicator_Ico_pos h']
        simp [cornerDensity]; try ring
      · simp only [if_neg h, if_neg h', indicator_Ico_neg h, indicator_Ico_neg h']
        simp [cornerDensity]

private theorem corner3 (w : Fin 4 → ℝ) (hm : Monotone w) (hlt : w 0 < w 3) (k : Fin 4) {A : Set ℝ} (hA : MeasurableSet A) :
    Integrable (fun f => cornerDensity (branch3 f w) k) ∧ (∀ f₀, ContinuousWithinAt (fun f => cornerDensity (branch3 f w) k) (Ici f₀) f₀) ∧
    ∫ x in unitSimplex 3 ∩ interp w ⁻¹' A, bary x k = 1 / (3 : ℕ).factorial * ∫ f in A, cornerDensity (branch3 f w) k := by
  have hw : w = ![w 0, w 1, w 2, w 3] := by funext i; fin_cases i <;> rfl
  have h01 : w 0 ≤ w 1 := hm (by decide)
  have h12 : w 1 ≤ w 2 := hm (by decide)
  have h23 : w 2 ≤ w 3 := hm (by decide)
  have key : ∀ l : List Piece, (∀ P ∈ l, P.lo ≤ P.hi) → (∀ f, cornerDensity (branch3 f w) k = pieces l f) →
      (∀ t : ℝ, t ≠ 0 → (6 : ℂ) * pull t w k = bump t l) → _ := fun l h1 h2 h3 =>
    exact_core branch3_good w hm k l h1 h2 (fun t ht => by simpa [Nat.factorial] using h3 t ht) hA
  have hnan : ∀ f, w 1 ≤ f ∧ f < w 2 → ¬(w 0 ≤ f ∧ f < w 1) → gMid f w = 0 → f = w 0 ∧ w 0 = w 1 ∧ w 1 < w 2 := fun f h' h h0 =>
    (nan_iff f w hm).1 (by unfold branch3; rw [if_neg h, if_pos h', if_pos h0])
  fin_cases k
  · refine key (cuts3_0 (w 0) (w 1) (w 2) (w 3)) (by simp [cuts3_0, h01, h12, h23]) (fun f => ?_)
      (fun t ht => by conv_lhs => rw [hw]; exact all3_0 ht h01 h12 h23 hlt)
    simp only [branch3, pieces, cuts3_0, List.map_cons, List.map_nil, List.sum_cons, List.sum_nil, Piece.at, List.map_append, List.sum_append]
    by_cases h : w 0 ≤ f ∧ f < w 1
    · have h' : ¬(w 1 ≤ f ∧ f < w 2) := fun hh => by linarith [hh.1, h.2]
      have h'' : ¬(w 2 ≤ f ∧ f < w 3) := fun hh => by linarith [hh.1, h.2]
      simp only [if_pos h, indicator_Ico_pos h, indicator_Ico_neg h', indicator_Ico_neg h'']
      simp [cornerDensity]; try ring
    · by_cases h' : w 1 ≤ f ∧ f < w 2
      · have h'' : ¬(w 2 ≤ f ∧ f < w 3) := fun hh => by linarith [hh.1, h'.2]
        simp only [if_neg h, if_pos h', indicator_Ico_neg h, indicator_Ico_pos h', indicator_Ico_neg h'']
        by_cases h0 : gMid f w = 0
        · rw [if_pos h0]
          obtain ⟨e1, e2, _⟩ := hnan f h' h h0
          simp [cornerDensity, ← e2, e1]
        · rw [if_neg h0]
          simp only [cornerDensity]
          have hg : gMid f w = 3 / (w 3 - w 0) * ((f - w 1) * (f - w 3) / ((w 2 - w 1) * (w 1 - w 3)) + (f - w 0) * (f - w 2) / ((w 2 - w 0) * (w 1 - w 2))) := rfl
          simp [mul_add]
          rw [mid_core h0]
          rw [hg]
          ring
      · by_cases h'' : w 2 ≤ f ∧ f < w 3
        · simp only [if_neg h, if_neg h', if_pos h'', indicator_Ico_neg h, indicator_Ico_neg h', indicator_Ico_pos h'']
          simp [cornerDensity]; try ring
        · simp only [if_neg h, if_neg h', if_neg h'', indicator_Ico_neg h, indicator_Ico_neg h', indicator_Ico_neg h'']
          simp [cornerDensity]
  · refine key (cuts3_1 (w 0) (w 1) (w 2) (w 3)) (by simp [cuts3_1, h01, h12, h23]) (fun f => ?_)
      (fun t ht => by conv_lhs => rw [hw]; exact all3_1 ht h01 h12 h23 hlt)
    simp only [branch3, pieces, cuts3_1, List.map_cons, List.map_nil, List.sum_cons, List.sum_nil, Piece.at, List.map_append, List.sum_append]
    by_cases h : w 0 ≤ f ∧ f < w 1
    · have h' : ¬(w 1 ≤ f ∧ f < w 2) := fun hh => by linarith [hh.1, h.2]
      have h'' : ¬(w 2 ≤ f ∧ f < w 3) := fun hh => by linarith [hh.1, h.2]
      simp only [if_pos h, indicator_Ico_pos h, indicator_Ico_neg h', indicator_Ico_neg h'']
      simp [cornerDensity]; try ring
    · by_cases h' : w 1 ≤ f ∧ f < w 2
      · have h'' : ¬(w 2 ≤ f ∧ f < w 3) := fun hh => by linarith [hh.1, h'.2]
        simp only [if_neg h, if_pos h', indicator_Ico_neg h, indicator_Ico_pos h', indicator_Ico_neg h'']
        by_cases h0 : gMid f w = 0
        · rw [if_pos h0]
          obtain ⟨e1, e2, _⟩ := hnan f h' h h0
          simp [cornerDensity, ← e2, e1]
        · rw [if_neg h0]
          simp only [cornerDensity]
          have hg : gMid f w = 3 / (w 3 - w 0) * ((f - w 1) * (f - w 3) / ((w 2 - w 1) * (w 1 - w 3)) + (f - w 0) * (f - w 2) / ((w 2 - w 0) * (w 1 - w 2))) := rfl
          simp [mul_add]
          rw [mid_core h0]
          rw [hg]
          ring
      · by_cases h'' : w 2 ≤ f ∧ f < w 3
        · simp only [if_neg h, if_neg h', if_pos h'', indicator_Ico_neg h, indicator_Ico_neg h', indicator_Ico_pos h'']
          simp [cornerDensity]; try ring
        · simp only [if_neg h, if_neg h', if_neg h'', indicator_Ico_neg h, indicator_Ico_neg h', indicator_Ico_neg h'']
          simp [cornerDensity]
  · refine key (cuts3_2 (w 0) (w 1) (w 2) (w 3)) (by simp [cuts3_2, h01, h12, h23]) (fun f => ?_)
      (fun t ht => by conv_lhs => rw [hw]; exact all3_2 ht h01 h12 h23 hlt)
    simp only [branch3, pieces, cuts3_2, List.map_cons, List.map_nil, List.sum_cons, List.sum_nil, Piece.at, List.map_append, List.sum_append]
    by_cases h : w 0 ≤ f ∧ f < w 1
    · have h' : ¬(w 1 ≤ f ∧ f < w 2) := fun hh => by linarith [hh.1, h.2]
      have h'' : ¬(w 2 ≤ f ∧ f < w 3) := fun hh => by linarith [hh.1, h.2]
      simp only [if_pos h, indicator_Ico_pos h, indicator_Ico_neg h', indicator_Ico_neg h'']
      simp [cornerDensity]; try ring
    · by_cases h' : w 1 ≤ f ∧ f < w 2
      · have h'' : ¬(w 2 ≤ f ∧ f < w 3) := fun hh => by linarith [hh.1, h'.2]
        simp only [if_neg h, if_pos h', indicator_Ico_neg h, indicator_Ico_pos h', indicator_Ico_neg h'']
        by_cases h0 : gMid f w = 0
        · rw [if_pos h0]
          obtain ⟨e1, e2, _⟩ := hnan f h' h h0
          simp [cornerDensity, ← e2, e1]
        · rw [if_neg h0]
          simp only [cornerDensity]
          have hg : gMid f w = 3 / (w 3 - w 0) * ((f - w 1) * (f - w 3) / ((w 2 - w 1) * (w 1 - w 3)) + (f - w 0) * (f - w 2) / ((w 2 - w 0) * (w 1 - w 2))) := rfl
          simp [mul_add]
          rw [mid_core h0]
          rw [hg]
          ring
      · by_cases h'' : w 2 ≤ f ∧ f < w 3
        · simp only [if_neg h, if_neg h', if_pos h'', indicator_Ico_neg h, indicator_Ico_neg h', indicator_Ico_pos h'']
          simp [cornerDensity]; try ring
        · simp only [if_neg h, if_neg h', if_neg h'', indicator_Ico_neg h, indicator_Ico_neg h', indicator_Ico_neg h'']
          simp [cornerDensity]
  · refine key (cuts3_3 (w 0) (w 1) (w 2) (w 3)) (by simp [cuts3_3, h01, h12, h23]) (fun f => ?_)
      (fun t ht => by conv_lhs => rw [hw]; exact all3_3 ht h01 h12 h23 hlt)
    simp only [branch3, pieces, cuts3_3, List.map_cons, List.map_nil, List.sum_cons, List.sum_nil, Piece.at, List.map_append, List.sum_append]
    by_cases h : w 0 ≤ f ∧ f < w 1
    · have h' : ¬(w 1 ≤ f ∧ f < w 2) := fun hh => by linarith [hh.1, h.2]
      have h'' : ¬(w 2 ≤ f ∧ f < w 3) := fun hh => by linarith [hh.1, h.2]
      simp only [if_pos h, indicator_Ico_pos h, indicator_Ico_neg h', indicator_Ico_neg h'']
      simp [cornerDensity]; try ring
    · by_cases h' : w 1 ≤ f ∧ f < w 2
      · have h'' : ¬(w 2 ≤ f ∧ f < w 3) := fun hh => by linarith [hh.1, h'.2]
        simp only [if_neg h, if_pos h', indicator_Ico_neg h, indicator_Ico_pos h', indicator_Ico_neg h'']
        by_cases h0 : gMid f w = 0
        · rw [if_pos h0]
          obtain ⟨e1, e2, _⟩ := hnan f h' h h0
          simp [cornerDensity, ← e2, e1]
        · rw [if_neg h0]
          simp only [cornerDensity]
          have hg : gMid f w = 3 / (w 3 - w 0) * ((f - w 1) * (f - w 3) / ((w 2 - w 1) * (w 1 - w 3)) + (f - w 0) * (f - w 2) / ((w 2 - w 0) * (w 1 - w 2))) := rfl
          simp [mul_add]
          rw [mid_core h0]
          rw [hg]
          ring
      · by_cases h'' : w 2 ≤ f ∧ f < w 3
        · simp only [if_neg h, if_neg h', if_pos h'', indicator_Ico_neg h, indicator_Ico_neg h', indicator_Ico_pos h'']
          simp [cornerDensity]; try ring
        · simp only [if_neg h, if_neg h', if_neg h'', indicator_Ico_neg h, indicator_Ico_neg h', indicator_Ico_neg h'']
          simp [cornerDensity]

/-- The cascades compute, for sorted corner values, the density of each barycentric coordinate. -/
structure ExactBranch {n : ℕ} (br : ℝ → (Fin (n + 1) → ℝ) → Branch (n + 1)) : Prop where
  good : GoodBranch br
  integrable : ∀ w, Monotone w → w 0 < w (Fin.last n) → ∀ k, Integrable fun f => cornerDensity (br f w) k
  right : ∀ w, Monotone w → w 0 < w (Fin.last n) → ∀ k f₀, ContinuousWithinAt (fun f => cornerDensity (br f w) k) (Ici f₀) f₀
  corner : ∀ w, Monotone w → w 0 < w (Fin.last n) → ∀ k, ∀ A : Set ℝ, MeasurableSet A →
    ∫ x in unitSimplex n ∩ interp w ⁻¹' A, bary x k = 1 / n.factorial * ∫ f in A, cornerDensity (br f w) k

theorem branch1_exact : ExactBranch branch1 :=
  ⟨branch1_good, fun w hm hw k => (corner1 w hm hw k MeasurableSet.univ).1,
    fun w hm hw k => (corner1 w hm hw k MeasurableSet.univ).2.1, fun w hm hw k A hA => (corner1 w hm hw k hA).2.2⟩
theorem branch2_exact : ExactBranch branch2 :=
  ⟨branch2_good, fun w hm hw k => (corner2 w hm hw k MeasurableSet.univ).1,
    fun w hm hw k => (corner2 w hm hw k MeasurableSet.univ).2.1, fun w hm hw k A hA => (corner2 w hm hw k hA).2.2⟩
theorem branch3_exact : ExactBranch branch3 :=
  ⟨branch3_good, fun w hm hw k => (corner3 w hm hw k MeasurableSet.univ).1,
    fun w hm hw k => (corner3 w hm hw k MeasurableSet.univ).2.1, fun w hm hw k A hA => (corner3 w hm hw k hA).2.2⟩

/-- Relabelling the corners. -/
private theorem corner_perm {n : ℕ} (w : Fin (n + 1) → ℝ) (σ : Equiv.Perm (Fin (n + 1))) (k : Fin (n + 1)) {A : Set ℝ} (hA : MeasurableSet A) :
    ∫ x in unitSimplex n ∩ interp w ⁻¹' A, bary x (σ k) = ∫ x in unitSimplex n ∩ interp (w ∘ σ) ⁻¹' A, bary x k := by
  have hc := continuous_bary n
  have hc' : Continuous fun x : Fin n → ℝ => bary x ∘ σ := continuous_pi fun i => (continuous_apply (σ i)).comp hc
  have hlin : Measurable fun v : Fin (n + 1) → ℝ => ∑ i, v i * w (σ i) := by fun_prop
  have hset : MeasurableSet {v : Fin (n + 1) → ℝ | ∑ i, v i * w (σ i) ∈ A} := hlin hA
  have hG : Measurable ({v : Fin (n + 1) → ℝ | ∑ i, v i * w (σ i) ∈ A}.indicator fun v => v k) := (measurable_pi_apply k).indicator hset
  have h := congrArg (fun μ : Measure (Fin (n + 1) → ℝ) => ∫ v, {v : Fin (n + 1) → ℝ | ∑ i, v i * w (σ i) ∈ A}.indicator (fun v => v k) v ∂μ) (bary_perm (n := n) σ)
  rw [integral_map hc'.aemeasurable hG.aestronglyMeasurable, integral_map hc.aemeasurable hG.aestronglyMeasurable] at h
  have m1 : MeasurableSet (interp w ⁻¹' A) := (continuous_interp w).measurable hA
  have m2 : MeasurableSet (interp (w ∘ σ) ⁻¹' A) := (continuous_interp (w ∘ σ)).measurable hA
  rw [inter_comm, ← Measure.restrict_restrict m1, ← integral_indicator m1, inter_comm, ← Measure.restrict_restrict m2, ← integral_indicator m2]
  refine Eq.trans ?_ (h.trans ?_)
  · congr 1
    funext x
    have e : ∑ i, (bary x ∘ σ) i * w (σ i) = interp w x := Equiv.sum_comp σ (fun i => bary x i * w i)
    by_cases hx : interp w x ∈ A
    · rw [indicator_of_mem (show x ∈ interp w ⁻¹' A from hx), indicator_of_mem (show _ ∈ {v : Fin (n + 1) → ℝ | ∑ i, v i * w (σ i) ∈ A} by rw [mem_setOf_eq, e]; exact hx)]; rfl
    · rw [indicator_of_notMem (show x ∉ interp w ⁻¹' A from hx), indicator_of_notMem (show _ ∉ {v : Fin (n + 1) → ℝ | ∑ i, v i * w (σ i) ∈ A} by rw [mem_setOf_eq, e]; exact hx)]
  · rfl

private theorem value_sum {m : ℕ} (vol : ℝ) (F : Fin m → ℝ) (b : Branch m) : value vol F b = vol * ∑ k, cornerDensity b k * F k := by
  cases b with
  | inside g I =>
    simp only [value, cornerDensity, mul_assoc, Finset.mul_sum]
  | skip => simp [value, cornerDensity]
  | nan => simp [value, cornerDensity]

private theorem sorted_lt {n : ℕ} {w : Fin (n + 1) → ℝ} {σ : Equiv.Perm (Fin (n + 1))} (hs : Monotone (w ∘ σ)) (hw : ∃ i j, w i ≠ w j) :
    (w ∘ σ) 0 < (w ∘ σ) (Fin.last n) := by
  refine lt_of_le_of_ne (hs (Fin.zero_le _)) fun h => ?_
  obtain ⟨i, j, hij⟩ := hw
  have hall : ∀ i, w i = (w ∘ σ) 0 := by
    intro i
    have h1 : (w ∘ σ) 0 ≤ (w ∘ σ) (σ.symm i) := hs (Fin.zero_le _)
    have h2 : (w ∘ σ) (σ.symm i) ≤ (w ∘ σ) (Fin.last n) := hs (Fin.le_last _)
    have e : (w ∘ σ) (σ.symm i) = w i := by simp
    rw [e] at h1 h2
    exact le_antisymm (h ▸ h2) h1
  exact hij ((hall i).trans (hall j).symm)

private theorem simplex_core {n : ℕ} {br : ℝ → (Fin (n + 1) → ℝ) → Branch (n + 1)} (hb : ExactBranch br) (w F : Fin (n + 1) → ℝ) (hw : ∃ i j, w i ≠ w j)
    (σ : Equiv.Perm (Fin (n + 1))) (hs : Monotone (w ∘ σ)) : DensityOf (fun f => value 1 (F ∘ σ) (br f (w ∘ σ))) (mean w F) := by
  have hlt := sorted_lt hs hw
  have hi := hb.integrable _ hs hlt
  have hv : ∀ f, value 1 (F ∘ σ) (br f (w ∘ σ)) = ∑ k, cornerDensity (br f (w ∘ σ)) k * F (σ k) := fun f => by rw [value_sum, one_mul]; rfl
  have hcont : ∀ f₀, ContinuousWithinAt (fun f => ∑ k, cornerDensity (br f (w ∘ σ)) k * F (σ k)) (Ici f₀) f₀ := fun f₀ =>
    tendsto_finset_sum _ fun k _ => (hb.right _ hs hlt k f₀).mul continuousWithinAt_const
  simp only [hv]
  refine ⟨hcont, integrable_finset_sum _ fun k _ => (hi k).mul_const _, fun A hA => ?_⟩
  unfold mean
  symm
  rw [integral_finset_sum _ fun k _ => ((hi k).mul_const _).integrableOn]
  unfold interp
  rw [integral_finset_sum]
  · rw [← Equiv.sum_comp σ, Finset.sum_div]
    refine Finset.sum_congr rfl fun k _ => ?_
    rw [integral_mul_const, integral_mul_const]
    have := corner_perm w σ k hA
    unfold interp at this
    rw [this]
    have h2 := hb.corner _ hs hlt k A hA
    unfold interp at h2
    rw [h2, volume_real_unitSimplex]
    have : ((n.factorial : ℝ)) ≠ 0 := by exact_mod_cast n.factorial_ne_zero
    field_simp
  · intro i _
    refine (integrableOn_unitSimplex ?_).mono_set inter_subset_left
    exact ((continuous_apply i).comp (continuous_bary n)).mul continuous_const

/-- **C133** (segment).  Let the corner frequencies `w` and a quantity `F` (squared amplitudes) be interpolated linearly over
a segment whose corner frequencies differ.  The number the code adds (per unit weight of the segment), with the corners sorted
by frequency, is the right-continuous density of `A ↦ ` the integral of `F` over the part of the segment with frequencies in `A`. -/
theorem C133_segment (w F : Fin 2 → ℝ) (hw : ∃ i j, w i ≠ w j) (σ : Equiv.Perm (Fin 2)) (hs : Monotone (w ∘ σ)) :
    DensityOf (fun f => value 1 (F ∘ σ) (branch1 f (w ∘ σ))) (mean w F) :=
  simplex_core branch1_exact w F hw σ hs

/-- **C133** (triangle). -/
theorem C133_triangle (w F : Fin 3 → ℝ) (hw : ∃ i j, w i ≠ w j) (σ : Equiv.Perm (Fin 3)) (hs : Monotone (w ∘ σ)) :
    DensityOf (fun f => value 1 (F ∘ σ) (branch2 f (w ∘ σ))) (mean w F) :=
  simplex_core branch2_exact w F hw σ hs

/-- **C133** (tetrahedron). -/
theorem C133_tetrahedron (w F : Fin 4 → ℝ) (hw : ∃ i j, w i ≠ w j) (σ : Equiv.Perm (Fin 4)) (hs : Monotone (w ∘ σ)) :
    DensityOf (fun f => value 1 (F ∘ σ) (branch3 f (w ∘ σ))) (mean w F) :=
  simplex_core branch3_exact w F hw σ hs

/-! ### The whole mesh -/

private theorem share_eq {n : ℕ} (w F : Fin (n + 1) → ℝ) (hF : ∀ i, F i = 1) (A : Set ℝ) : mean w F A = share w A := by
  have e : ∀ x : Fin n → ℝ, interp F x = 1 := fun x => by simp only [interp, hF, mul_one, bary_sum]
  unfold mean share
  simp only [e]
  rw [setIntegral_const, smul_eq_mul, mul_one]

private theorem mean_sum {n : ℕ} {ι : Type} (w : Fin (n + 1) → ℝ) (S : Finset ι) (F : ι → Fin (n + 1) → ℝ) (A : Set ℝ) :
    ∑ d ∈ S, mean w (F d) A = mean w (fun i => ∑ d ∈ S, F d i) A := by
  unfold mean
  rw [← Finset.sum_div, ← integral_finset_sum]
  · congr 2
    funext x
    simp only [interp, Finset.mul_sum]
    rw [Finset.sum_comm]
  · intro d _
    exact (integrableOn_unitSimplex (continuous_interp (F d))).mono_set inter_subset_left

/-- The corner values of the simplex `s`. -/
def cornersOf {m : ℕ} (s : Fin m → ℕ) (w : ℕ → ℝ) : Fin m → ℝ := fun i => w (s i)

/-- The corner values differ. -/
def NotFlat {m : ℕ} (w : Fin m → ℝ) : Prop := ∃ i j, w i ≠ w j

/-- Which corner's squared amplitude the code puts on corner `i`: sorting the amplitudes by the positions that sort the
*already sorted* frequencies instead of those that sort the frequencies (property C45). -/
def mixedUp {m : ℕ} (arg : Argsort m) (w : Fin m → ℝ) : Equiv.Perm (Fin m) := (arg w).symm.trans (arg (w ∘ arg w))

open Classical in
/-- The weight of the window `A` in one simplex: the mean of the interpolated amplitudes, nothing if the simplex is flat. -/
def window {m : ℕ} (w F : Fin (m + 1) → ℝ) (A : Set ℝ) : ℝ := if NotFlat w then mean w F A else 0

open Classical in
/-- The same for the amplitudes 1: the share of the simplex. -/
def portion {m : ℕ} (w : Fin (m + 1) → ℝ) (A : Set ℝ) : ℝ := if NotFlat w then share w A else 0

private theorem density_list {α : Type} (l : List α) (g : α → ℝ → ℝ) (N : α → Set ℝ → ℝ) (h : ∀ x ∈ l, DensityOf (g x) (N x)) :
    DensityOf (fun f => (l.map fun x => g x f).sum) (fun A => (l.map fun x => N x A).sum) := by
  induction l with
  | nil => exact ⟨fun _ => continuousWithinAt_const, by simp, by simp⟩
  | cons a l ih =>
    have i := ih fun x hx => h x (by simp [hx])
    have ha := h a (by simp)
    simp only [List.map_cons, List.sum_cons]
    refine ⟨fun f => (ha.continuous f).add (i.continuous f), ha.integrable.add i.integrable, fun A hA => ?_⟩
    rw [integral_add ha.integrable.integrableOn i.integrable.integrableOn, ha.integral A hA, i.integral A hA]

private theorem density_mul {g : ℝ → ℝ} {N : Set ℝ → ℝ} (h : DensityOf g N) (c : ℝ) : DensityOf (fun f => c * g f) (fun A => c * N A) :=
  ⟨fun f => continuousWithinAt_const.mul (h.continuous f), h.integrable.const_mul c, fun A hA => by rw [integral_const_mul, h.integral A hA]⟩

private theorem simplex_value {n : ℕ} {br : ℝ → (Fin (n + 1) → ℝ) → Branch (n + 1)} (hb : ExactBranch br) {arg : Argsort (n + 1)} (ha : Sorts arg)
    (vol : ℝ) (w F : ℕ → ℝ) (s : Fin (n + 1) → ℕ) :
    DensityOf (fun f => value vol (usedAmp arg w F s) (br f (sortedFreq arg w s)))
      (fun A => vol * window (cornersOf s w) (cornersOf s F ∘ mixedUp arg (cornersOf s w)) A) := by
  unfold window
  by_cases h : NotFlat (cornersOf s w)
  · simp only [if_pos h]
    have h1 := simplex_core hb (cornersOf s w) (cornersOf s F ∘ mixedUp arg (cornersOf s w)) h (arg (cornersOf s w)) (ha _)
    have e : ∀ f, value vol (usedAmp arg w F s) (br f (sortedFreq arg w s)) =
        vol * value 1 ((cornersOf s F ∘ mixedUp arg (cornersOf s w)) ∘ arg (cornersOf s w)) (br f (cornersOf s w ∘ arg (cornersOf s w))) := by
      intro f
      rw [value_sum, value_sum, one_mul]
      congr 1
      refine Finset.sum_congr rfl fun k _ => ?_
      congr 1
      simp only [usedAmp, Function.comp, mixedUp, Equiv.trans_apply, Equiv.symm_apply_apply, cornersOf]
      rfl
    simp only [e]
    exact density_mul h1 vol
  · simp only [if_neg h]
    have hc : ∀ i, sortedFreq arg w s i = w (s 0) := by
      intro i
      by_contra hne
      exact h ⟨arg (fun i => w (s i)) i, 0, hne⟩
    have hz : ∀ f, value vol (usedAmp arg w F s) (br f (sortedFreq arg w s)) = 0 := by
      intro f
      rw [hb.good.outside f (sortedFreq arg w s) (ha _)]
      · rfl
      · rcases lt_or_ge f (w (s 0)) with h | h
        · left; rw [hc]; exact h
        · right; rw [hc]; exact h
    simp only [hz, mul_zero]
    exact ⟨fun _ => continuousWithinAt_const, by simp, by simp⟩

/-- **C133** (mesh, projected).  On any list of simplices and for any spectrum: the projected density of states of degree of freedom
`d` is, wherever it is a number (which it is almost everywhere), the density of (weight per simplex) × the sum, over bands and
simplices that are not flat, of the mean over the part of the simplex with frequencies in the window of the linearly
interpolated squared amplitudes - except that the amplitudes sit on the wrong corners (`mixedUp`). -/
theorem C133_mesh_projected {n : ℕ} {br : ℝ → (Fin (n + 1) → ℝ) → Branch (n + 1)} (hb : ExactBranch br) {arg : Argsort (n + 1)} (ha : Sorts arg)
    (vol : ℝ) (nb : ℕ) (simplices : List (Fin (n + 1) → ℕ)) (w : ℕ → ℕ → ℝ) (F : ℕ → ℕ → ℕ → ℝ) (d : ℕ) :
    (∀ᵐ f : ℝ, column arg br vol f nb simplices w F d (some 0) ≠ none) ∧
    ∃ g, (∀ f, column arg br vol f nb simplices w F d (some 0) ≠ none → column arg br vol f nb simplices w F d (some 0) = some (g f)) ∧
      DensityOf g fun A => vol * ((List.range nb).map fun b => (simplices.map fun s =>
        window (cornersOf s fun k => w k b) (cornersOf s (fun k => F k b d) ∘ mixedUp arg (cornersOf s fun k => w k b)) A).sum).sum := by
  have hfin : {f | ∃ b < nb, ∃ s ∈ simplices, br f (sortedFreq arg (fun k => w k b) s) = .nan}.Finite := by
    have hbig : (⋃ b ∈ (Finset.range nb : Set ℕ), ⋃ s ∈ {s | s ∈ simplices}, Set.range fun i => w (s i) b).Finite :=
      (Finset.finite_toSet _).biUnion fun b _ => (List.finite_toSet simplices).biUnion fun s _ => Set.finite_range _
    refine hbig.subset ?_
    rintro f ⟨b, hb', s, hs, hn⟩
    obtain ⟨i, hi⟩ := hb.good.nan_vertex _ _ (ha _) hn
    simp only [Set.mem_iUnion]
    exact ⟨b, by simpa using hb', s, hs, ⟨_, hi.symm⟩⟩
  have h0 : ∀ᵐ f : ℝ, f ∉ {f | ∃ b < nb, ∃ s ∈ simplices, br f (sortedFreq arg (fun k => w k b) s) = .nan} := measure_eq_zero_iff_ae_notMem.1 (hfin.measure_zero _)
  refine ⟨?_, fun f => ((List.range nb).map fun b => (simplices.map fun s =>
        value vol (usedAmp arg (fun k => w k b) (fun k => F k b d) s) (br f (sortedFreq arg (fun k => w k b) s))).sum).sum, fun f hf => ?_, ?_⟩
  · filter_upwards [h0] with f hf hc
    exact hf ((column_none_iff ..).1 hc)
  · have hn : ∀ b < nb, ∀ s ∈ simplices, br f (sortedFreq arg (fun k => w k b) s) ≠ .nan := fun b hb' s hs hc =>
      hf ((column_none_iff ..).2 ⟨b, hb', s, hs, hc⟩)
    rw [column_some arg br vol f nb simplices w F d 0 hn, zero_add]
  · simp only [← List.sum_map_mul_left]
    exact density_list (List.range nb) _ _ fun b _ => density_list simplices _ _ fun s _ => simplex_value hb ha vol (fun k => w k b) (fun k => F k b d) s

private theorem finset_list {α : Type} (S : Finset ℕ) (l : List α) (g : ℕ → α → ℝ) : ∑ d ∈ S, (l.map fun x => g d x).sum = (l.map fun x => ∑ d ∈ S, g d x).sum := by
  induction l with
  | nil => simp
  | cons a l ih => simp only [List.map_cons, List.sum_cons, Finset.sum_add_distrib, ih]

/-- **C133** (mesh, total).  With normalised modes the *total* density of states is, wherever its entries are numbers, the density of
the linearly interpolated spectrum: (weight per simplex) × the fractions of the simplices, per band, whose interpolated frequency
falls into the window.  Simplices with all corner frequencies equal are left out. -/
theorem C133_mesh_total {n : ℕ} {br : ℝ → (Fin (n + 1) → ℝ) → Branch (n + 1)} (hb : ExactBranch br) {arg : Argsort (n + 1)} (ha : Sorts arg)
    (vol : ℝ) (nb nd : ℕ) (simplices : List (Fin (n + 1) → ℕ)) (w : ℕ → ℕ → ℝ) (F : ℕ → ℕ → ℕ → ℝ)
    (hF : ∀ s ∈ simplices, ∀ i, ∀ b < nb, ∑ d ∈ Finset.range nd, F (s i) b d = 1) :
    ∃ g, (∀ f, (∀ d < nd, column arg br vol f nb simplices w F d (some 0) ≠ none) → total arg br vol nb nd simplices w F f = g f) ∧
      DensityOf g fun A => vol * ((List.range nb).map fun b => (simplices.map fun s => portion (cornersOf s fun k => w k b) A).sum).sum := by
  have hp := fun d => (C133_mesh_projected hb ha vol nb simplices w F d).2
  choose g hg hN using hp
  refine ⟨fun f => ∑ d ∈ Finset.range nd, g d f, fun f hf => ?_, ?_, ?_, ?_⟩
  · unfold total
    refine Finset.sum_congr rfl fun d hd => ?_
    rw [hg d f (hf d (Finset.mem_range.1 hd)), Option.getD_some]
  · exact fun f => tendsto_finset_sum _ fun d _ => (hN d).continuous f
  · exact integrable_finset_sum _ fun d _ => (hN d).integrable
  · intro A hA
    rw [integral_finset_sum _ fun d _ => (hN d).integrable.integrableOn]
    rw [Finset.sum_congr rfl fun d _ => (hN d).integral A hA, ← Finset.mul_sum, finset_list]
    congr 2
    refine List.map_congr_left fun b hb' => ?_
    rw [finset_list]
    congr 1
    refine List.map_congr_left fun s hs => ?_
    unfold window portion
    by_cases h : NotFlat (cornersOf s fun k => w k b)
    · simp only [if_pos h]
      rw [mean_sum]
      refine share_eq _ _ (fun i => ?_) A
      exact hF s hs _ b (List.mem_range.1 hb')
    · simp only [if_neg h, Finset.sum_const_zero]

/-- **C133** (projected, ascending corners).  Where the corner frequencies strictly ascend in the order the code lists the corners,
the amplitudes are on the right corners. -/
theorem C133_ascending {n : ℕ} {arg : Argsort (n + 1)} (ha : Sorts arg) (w : Fin (n + 1) → ℝ) (hw : StrictMono w) : mixedUp arg w = 1 := by
  have h1 : arg w = 1 := ha.id hw
  unfold mixedUp
  rw [h1, show w ∘ ⇑(1 : Equiv.Perm (Fin (n + 1))) = w from rfl, h1]
  rfl

/-! ### The hypotheses are met -/

/-- A tetrahedron with unsorted corner frequencies, two of them equal, and different amplitudes: the weight the code puts below
frequency 2 is the integral of the interpolated amplitude over that part of the tetrahedron. -/
example : ∃ σ : Equiv.Perm (Fin 4), Monotone (![3, 1, 1, 2] ∘ σ : Fin 4 → ℝ) ∧
    mean ![3, 1, 1, 2] ![1 / 2, 1 / 4, 0, 1] (Iio 2) = ∫ f in Iio 2, value 1 (![1 / 2, 1 / 4, 0, 1] ∘ σ) (branch3 f (![3, 1, 1, 2] ∘ σ)) := by
  obtain ⟨arg, ha⟩ := sorts_exists 4
  exact ⟨arg ![3, 1, 1, 2], ha _, (C133_tetrahedron ![3, 1, 1, 2] ![1 / 2, 1 / 4, 0, 1] ⟨0, 1, by norm_num⟩ _ (ha _)).integral _ measurableSet_Iio |>.symm⟩

/-- In one dimension by hand: half of the segment from 0 to 2 has interpolated frequencies below 1. -/
example : share ![0, 2] (Iio 1) = 1 / 2 := by
  have h := (C133_segment ![0, 2] (fun _ => 1) ⟨0, 1, by norm_num⟩ 1 (by intro i j h; fin_cases i <;> fin_cases j <;> simp_all)).integral (Iio 1) measurableSet_Iio
  rw [share_eq _ _ (fun _ => rfl)] at h
  rw [← h]
  have e : ∀ f : ℝ, value 1 ((fun _ => 1) ∘ (1 : Equiv.Perm (Fin 2))) (branch1 f ((![0, 2] : Fin 2 → ℝ) ∘ (1 : Equiv.Perm (Fin 2)))) = (Ico (0 : ℝ) 2).indicator (fun _ => 1 / 2) f := by
    intro f
    simp only [branch1]
    by_cases hf : (0 : ℝ) ≤ f ∧ f < 2
    · rw [indicator_Ico_pos hf]
      simp [hf, value]
      ring
    · rw [indicator_Ico_neg hf]
      simp [hf, value]
  simp only [e]
  rw [integral_indicator measurableSet_Ico, Measure.restrict_restrict measurableSet_Ico, setIntegral_const]
  have : Ico (0 : ℝ) 2 ∩ Iio 1 = Ico 0 1 := by rw [Ico_inter_Iio]; norm_num
  rw [this]
  simp

/-- A 2×2×2 mesh, one band, one degree of freedom. -/
example (w : ℕ → ℕ → ℝ) : ∃ (arg : Argsort 4) (g : ℝ → ℝ), (∀ f, (∀ d < 1, column arg branch3 (1 / 48) f 1 (tetrahedra 2 2 2) w (fun _ _ _ => 1) d (some 0) ≠ none) →
      total arg branch3 (1 / 48) 1 1 (tetrahedra 2 2 2) w (fun _ _ _ => 1) f = g f) ∧
    DensityOf g fun A => 1 / 48 * ((List.range 1).map fun b => ((tetrahedra 2 2 2).map fun s => portion (cornersOf s fun k => w k b) A).sum).sum := by
  obtain ⟨arg, ha⟩ := sorts_exists 4
  exact ⟨arg, C133_mesh_total branch3_exact ha (1 / 48) 1 1 (tetrahedra 2 2 2) w (fun _ _ _ => 1) (by simp)⟩

end
end Interphon.Props
