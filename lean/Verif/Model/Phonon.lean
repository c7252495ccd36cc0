import Verif.Model.Cell
import Verif.Model.Args
import Mathlib.Analysis.SpecialFunctions.Pow.Real
import Mathlib.Analysis.SpecialFunctions.Trigonometric.Basic
import Mathlib.LinearAlgebra.Matrix.Charpoly.Basic

/-!
# Model of `set_reciprocal_lattice` and `eval_phonon`, `InterPhon/core/post_process.py:78-87,391-470`

Numbers are exact reals/complex numbers.  Arrays are functions of their indices.
-/

noncomputable section

namespace Interphon.Phonon
open Py Interphon Complex

/-- `np.cross(a, b)`. (Source: `core/post_process.py:83,86`.) -/
def cross3 (a b : V3 ℝ) : V3 ℝ := ![a 1 * b 2 - a 2 * b 1, a 2 * b 0 - a 0 * b 2, a 0 * b 1 - a 1 * b 0]

/-- `np.dot(a, b)` on 3-vectors. (Source: `core/post_process.py:82,424`.) -/
def dot3 (a b : V3 ℝ) : ℝ := a 0 * b 0 + a 1 * b 1 + a 2 * b 2

/-- `set_reciprocal_lattice`, `core/post_process.py:78-87`. -/
def reciprocal (L : M3 ℝ) : M3 ℝ :=
  let volume := dot3 (L 0) (cross3 (L 1) (L 2))
  fun i j => 2 * Real.pi * cross3 (L (i + 1)) (L (i + 2)) j / volume

/-- Data `eval_phonon` reads: positions, super lattice, reciprocal lattice, periodic directions `_ind_pbc`,
`_enlarge`, `xyz_true` of both cells, `force_constant`, `mass_true` (one entry per degree of freedom). (Source: `core/post_process.py:405-460`.) -/
structure PhononData where
  unitCart : ℕ → V3 ℝ
  superCart : ℕ → V3 ℝ
  superLat : M3 ℝ
  recip : M3 ℝ
  pbc : List (Fin 3)
  E : ℕ
  unitXyz : List ℕ
  superXyz : List ℕ
  fc : ℕ → ℕ → ℝ
  mass : ℕ → ℝ

/-- The data `eval_phonon` reads off the unit cell `u`, the super cell `s` and the arguments (enlargement `n`,
periodicity `p`), `core/post_process.py:405-418`; the force constants and masses are those stored before. -/
def ofCells (u s : Cell ℝ) (n p : Fin 3 → ℤ) (fc : ℕ → ℕ → ℝ) (mass : ℕ → ℝ) : PhononData where
  unitCart := fun i => u.cart.getD i 0
  superCart := fun i => s.cart.getD i 0
  superLat := s.lattice
  recip := reciprocal u.lattice
  pbc := (List.finRange 3).filter fun i => p i ≠ 0
  E := (Args.enlarge [n 0, n 1, n 2] [p 0, p 1, p 2]).toNat
  unitXyz := u.xyzTrue.getD []
  superXyz := s.xyzTrue.getD []
  fc := fc
  mass := mass

/-- The coefficients of the loops `for first in (-1, 0, 1)`, `core/post_process.py:424`. -/
def steps : List ℤ := [-1, 0, 1]

/-- Vectors `first*S[pbc0] + second*S[pbc1] + …` in loop order, `core/post_process.py:420-445`. -/
def offsets (S : M3 ℝ) : List (Fin 3) → List (V3 ℝ)
  | [] => []
  | [a] => steps.map fun (i : ℤ) => fun j => (i : ℝ) * S a j
  | [a, b] => steps.flatMap fun (i : ℤ) => steps.map fun (k : ℤ) => fun j => (i : ℝ) * S a j + (k : ℝ) * S b j
  | [a, b, c] => steps.flatMap fun (i : ℤ) => steps.flatMap fun (k : ℤ) => steps.map fun (l : ℤ) => fun j =>
      (i : ℝ) * S a j + (k : ℝ) * S b j + (l : ℝ) * S c j
  | _ => []

open Classical in
/-- One comparison: `if pos·pos > tmp·tmp: pos = tmp`, with `tmp = pos + offset` of the *current* `pos`, `core/post_process.py:425-427`. -/
def imageStep (pos off : V3 ℝ) : V3 ℝ :=
  if dot3 (pos + off) (pos + off) < dot3 pos pos then pos + off else pos

/-- The separation vector `pos_vector`, `core/post_process.py:418-445`. -/
def posVector (D : PhononData) (satom atom : ℕ) : V3 ℝ :=
  (offsets D.superLat D.pbc).foldl imageStep (D.superCart satom - D.unitCart atom)

/-- `q = np.dot(k_point, reciprocal_matrix)`, `core/post_process.py:413`. -/
def qVec (D : PhononData) (k : V3 ℝ) : V3 ℝ := fun j => k 0 * D.recip 0 j + k 1 * D.recip 1 j + k 2 * D.recip 2 j

/-- The term added at `(s1, s2)`, `core/post_process.py:447-450`. -/
def term (D : PhononData) (q : V3 ℝ) (s1 s2 : ℕ) : ℂ :=
  (D.fc (D.superXyz.getD s1 0 * 3 + s1 % 3) s2 : ℂ) *
    exp (I * (dot3 q (posVector D (D.superXyz.getD s1 0) (D.unitXyz.getD s2 0)) : ℝ))

/-- `M[r, c] = M[r, c] + z`, `core/post_process.py:447-448`. -/
def addAt (M : ℕ → ℕ → ℂ) (r c : ℕ) (z : ℂ) : ℕ → ℕ → ℂ := fun r' c' => if r' = r ∧ c' = c then M r' c' + z else M r' c'

/-- The double loop of `core/post_process.py:414-450`, accumulating into a zero matrix. -/
def dynRaw (D : PhononData) (q : V3 ℝ) : ℕ → ℕ → ℂ :=
  (List.range D.superXyz.length).foldl (fun M s1 =>
    (List.range D.unitXyz.length).foldl (fun M s2 =>
      addAt M ((s1 / (D.E * 3)) * 3 + s1 % 3) s2 (term D q s1 s2)) M) (fun _ _ => 0)

/-- The dynamical matrix at `k_point`, `core/post_process.py:452-454`. -/
def dynMatrix (D : PhononData) (k : V3 ℝ) (r c : ℕ) : ℂ :=
  dynRaw D (qVec D k) r c / (Real.sqrt (D.mass r * D.mass c) : ℝ)

/-- numpy's complex square root (principal branch). (Source: `core/post_process.py:457`.) -/
def csqrt (z : ℂ) : ℂ := z ^ (1 / 2 : ℂ)

/-- `core/post_process.py:457`: `(sqrt(λ).real - |sqrt(λ).imag|) / (2π) / 10**12`. -/
def freqOf (l : ℂ) : ℝ := ((csqrt l).re - |(csqrt l).im|) / (2 * Real.pi) / 10 ^ 12

/-- `np.argsort(w)`: a permutation that lists the indices in ascending order of `w`; the order among equal
values is not specified (numpy's default sort is not stable), so any such permutation is allowed. (Source: `core/post_process.py:458-459`.) -/
def IsArgsort {n : ℕ} (w : Fin n → ℝ) (σ : Equiv.Perm (Fin n)) : Prop := Monotone (w ∘ σ)

/-- Outcome of `np.linalg.eig(A)`: eigenvalues `w`, matrix `V` whose *columns* are eigenvectors, in any order.
(Source: `core/post_process.py:455`.) -/
structure IsEig {n : ℕ} (A : Matrix (Fin n) (Fin n) ℂ) (w : Fin n → ℂ) (V : Matrix (Fin n) (Fin n) ℂ) : Prop where
  vec : ∀ m, A.mulVec (fun r => V r m) = w m • fun r => V r m
  nonzero : ∀ m, (fun r => V r m) ≠ 0
  charpoly : A.charpoly = ∏ m, (Polynomial.X - Polynomial.C (w m))

/-- `core/post_process.py:455-459`: from an outcome of `eig` to the stored `w_q` and `v_q`.  `σ` is the first argsort (line 458),
`τ` the second (line 459), which is applied to the *already sorted* `w_q`. -/
def store {n : ℕ} (w : Fin n → ℂ) (V : Matrix (Fin n) (Fin n) ℂ) (σ τ : Equiv.Perm (Fin n)) :
    (Fin n → ℝ) × Matrix (Fin n) (Fin n) ℂ :=
  (fun m => freqOf (w (σ m)), fun m c => V (τ m) c)

end Interphon.Phonon
