import Mathlib.MeasureTheory.Integral.Bochner.Set
import Mathlib.MeasureTheory.Constructions.Pi
import Mathlib.MeasureTheory.Constructions.BorelSpace.Real
import Mathlib.MeasureTheory.Measure.Lebesgue.Basic

/-! # Specification: linear interpolation on a simplex

Independent of the code.  A simplex with `n + 1` corners (a segment, a triangle, a tetrahedron for `n = 1, 2, 3`) is
described by affine coordinates `x` in which its corners are the origin and the unit vectors. -/

noncomputable section

namespace Interphon.Spec
open MeasureTheory

/-- The points of the simplex, in affine coordinates. -/
def unitSimplex (n : ℕ) : Set (Fin n → ℝ) := {x | (∀ i, 0 ≤ x i) ∧ ∑ i, x i ≤ 1}

/-- The barycentric coordinates of a point: how much each of the `n + 1` corners contributes. -/
def bary {n : ℕ} (x : Fin n → ℝ) : Fin (n + 1) → ℝ := Fin.cons (1 - ∑ i, x i) x

/-- The linear interpolation of the corner values `w`. -/
def interp {n : ℕ} (w : Fin (n + 1) → ℝ) (x : Fin n → ℝ) : ℝ := ∑ i, bary x i * w i

/-- The fraction of the simplex in which the interpolated value lies in `A`. -/
def share {n : ℕ} (w : Fin (n + 1) → ℝ) (A : Set ℝ) : ℝ := volume.real (unitSimplex n ∩ interp w ⁻¹' A) / volume.real (unitSimplex n)

/-- The integral of the interpolated quantity `F` over that part, relative to the size of the simplex. -/
def mean {n : ℕ} (w F : Fin (n + 1) → ℝ) (A : Set ℝ) : ℝ := (∫ x in unitSimplex n ∩ interp w ⁻¹' A, interp F x) / volume.real (unitSimplex n)

/-- `g` is the density whose integral over every set of frequencies is `N`; right-continuous, so that it is determined at every
point (`DensityOf.unique`), not only up to null sets. -/
structure DensityOf (g : ℝ → ℝ) (N : Set ℝ → ℝ) : Prop where
  continuous : ∀ f, ContinuousWithinAt g (Set.Ici f) f
  integrable : Integrable g
  integral : ∀ A : Set ℝ, MeasurableSet A → ∫ f in A, g f = N A

end Interphon.Spec
