import Verif.Model.Phonon
import Verif.Model.ForceConstant

/-!
# The numerical core in the arithmetic of a machine

`Model/ForceConstant.lean` and `Model/Phonon.lean` compute with exact numbers.  This file models the same lines of
`InterPhon/core/post_process.py` operation by operation in an arbitrary machine arithmetic `A`: every `+`, `-`, `*`, `/`, `np.sqrt`, `np.dot`,
`np.exp` is the corresponding operation of `A`, in the order in which Python and numpy evaluate the expressions.  What is assumed about `A` is stated in
`Spec/Machine.lean`.
-/

noncomputable section

namespace Interphon.Machine
open Py Interphon Interphon.Phonon Interphon.ForceConstant

/-- The operations of the machine that the numerical core uses, and the two stored constants `np.pi` and `10 ** (-10)`.
`dot` is `np.dot` on vectors of three numbers (a library call: the order of its additions is not specified), `csqrt` is `np.sqrt` on a complex number.
(Source: `core/post_process.py:82-87,186,413,424,447-457`.) -/
structure Arith where
  add : ℝ → ℝ → ℝ
  sub : ℝ → ℝ → ℝ
  mul : ℝ → ℝ → ℝ
  div : ℝ → ℝ → ℝ
  sqrt : ℝ → ℝ
  cos : ℝ → ℝ
  sin : ℝ → ℝ
  dot : V3 ℝ → V3 ℝ → ℝ
  csqrt : ℂ → ℂ
  pi : ℝ
  ang : ℝ

/-- `np.cross(a, b)`: two products and their difference in every component. (Source: `core/post_process.py:83,86`.) -/
def cross (A : Arith) (a b : V3 ℝ) : V3 ℝ :=
  ![A.sub (A.mul (a 1) (b 2)) (A.mul (a 2) (b 1)), A.sub (A.mul (a 2) (b 0)) (A.mul (a 0) (b 2)), A.sub (A.mul (a 0) (b 1)) (A.mul (a 1) (b 0))]

/-- `set_reciprocal_lattice`: `2 * np.pi * np.cross(…) / _volume`, `core/post_process.py:78-87`. -/
def reciprocal (A : Arith) (L : M3 ℝ) : M3 ℝ :=
  let volume := A.dot (L 0) (cross A (L 1) (L 2))
  fun i j => A.div (A.mul (A.mul 2 A.pi) (cross A (L (i + 1)) (L (i + 2)) j)) volume

/-- `- (_forward_matrix - _backward_matrix) / (2 * displacement * 10 ** (-10))`, one entry, `core/post_process.py:186`. -/
def difference (A : Arith) (d f b : ℝ) : ℝ := A.div (-A.sub f b) (A.mul (A.mul 2 d) A.ang)

/-- Loop of the branch without symmetry, `core/post_process.py:178-187`; the same loop as `ForceConstant.plainLoop`, with machine arithmetic. -/
def plainLoop (A : Arith) (d : ℝ) (ncols : ℕ) : ℕ → Rows ℝ → List (Rows ℝ) → FC ℝ → Run (FC ℝ)
  | _, _, [], fc => .ok fc
  | ind, fwd, f :: rest, fc =>
    if ind % 2 = 0 then plainLoop A d ncols (ind + 1) f rest fc
    else if ind / 2 < ncols then
      plainLoop A d ncols (ind + 1) fwd rest (setCol fc (ind / 2) (reshape fun a x => difference A d (fwd a x) (f a x)))
    else .error .indexError

/-- `set_force_constant(sym_flag=False)`, `core/post_process.py:178-187`; `nsel` selected atoms, `junk` the uninitialised array (`core/post_process.py:54-55`). -/
def setPlain (A : Arith) (d : ℝ) (nsel : ℕ) (junk : FC ℝ) (files : List (Rows ℝ)) : Run (FC ℝ) :=
  plainLoop A d (3 * nsel) 0 (fun _ _ => 0) files junk

/-- The summands `first * S[pbc0]`, `second * S[pbc1]`, … of every `_tmp_pos`, in loop order: coefficient and lattice direction,
`core/post_process.py:420-445`. -/
def imageTerms : List (Fin 3) → List (List (ℤ × Fin 3))
  | [] => []
  | [a] => steps.map fun i => [(i, a)]
  | [a, b] => steps.flatMap fun i => steps.map fun k => [(i, a), (k, b)]
  | [a, b, c] => steps.flatMap fun i => steps.flatMap fun k => steps.map fun l => [(i, a), (k, b), (l, c)]
  | _ => []

/-- `pos_vector + first * S[pbc0] + second * S[pbc1] + …`, added from left to right, `core/post_process.py:425,432-433,440-442`. -/
def shifted (A : Arith) (S : M3 ℝ) (pos : V3 ℝ) (terms : List (ℤ × Fin 3)) : V3 ℝ :=
  terms.foldl (fun p t j => A.add (p j) (A.mul (t.1 : ℝ) (S t.2 j))) pos

open Classical in
/-- One comparison `if np.dot(pos_vector, pos_vector) > np.dot(_tmp_pos, _tmp_pos)`, with the *computed* squares, `core/post_process.py:426-427`. -/
def imageStep (A : Arith) (S : M3 ℝ) (pos : V3 ℝ) (terms : List (ℤ × Fin 3)) : V3 ℝ :=
  if A.dot (shifted A S pos terms) (shifted A S pos terms) < A.dot pos pos then shifted A S pos terms else pos

/-- The separation vector `pos_vector`, `core/post_process.py:418-445`. -/
def posVector (A : Arith) (D : PhononData) (satom atom : ℕ) : V3 ℝ :=
  (imageTerms D.pbc).foldl (imageStep A D.superLat) (fun j => A.sub (D.superCart satom j) (D.unitCart atom j))

/-- `q = np.dot(k_point, reciprocal_matrix)`, `core/post_process.py:413`. -/
def qVec (A : Arith) (D : PhononData) (k : V3 ℝ) : V3 ℝ := fun j => A.dot k fun i => D.recip i j

/-- The term added at `(s1, s2)`: `complex(fc, 0) * np.exp(1j * complex(np.dot(q, pos_vector), 0))`, `core/post_process.py:449-450`.  The factor `1j`
and the zero parts are exact in complex arithmetic, so two real products remain. -/
def term (A : Arith) (D : PhononData) (q : V3 ℝ) (s1 s2 : ℕ) : ℂ :=
  let θ := A.dot q (posVector A D (D.superXyz.getD s1 0) (D.unitXyz.getD s2 0))
  let f := D.fc (D.superXyz.getD s1 0 * 3 + s1 % 3) s2
  ⟨A.mul f (A.cos θ), A.mul f (A.sin θ)⟩

/-- Sum of complex numbers, part by part, `core/post_process.py:448-449`. -/
def cadd (A : Arith) (z w : ℂ) : ℂ := ⟨A.add z.re w.re, A.add z.im w.im⟩

/-- `M[r, c] = M[r, c] + z`, `core/post_process.py:447-448`. -/
def addAt (A : Arith) (M : ℕ → ℕ → ℂ) (r c : ℕ) (z : ℂ) : ℕ → ℕ → ℂ := fun r' c' => if r' = r ∧ c' = c then cadd A (M r' c') z else M r' c'

/-- The double loop of `core/post_process.py:414-450`, accumulating into a zero matrix. -/
def dynRaw (A : Arith) (D : PhononData) (q : V3 ℝ) : ℕ → ℕ → ℂ :=
  (List.range D.superXyz.length).foldl (fun M s1 =>
    (List.range D.unitXyz.length).foldl (fun M s2 =>
      addAt A M ((s1 / (D.E * 3)) * 3 + s1 % 3) s2 (term A D q s1 s2)) M) (fun _ _ => 0)

/-- `_mass_true`: the square root of the product of two masses, `core/post_process.py:452-453`. -/
def massRoot (A : Arith) (D : PhononData) (r c : ℕ) : ℝ := A.sqrt (A.mul (D.mass r) (D.mass c))

/-- The dynamical matrix at `k_point`, `core/post_process.py:454`.  numpy divides a complex number by a real one by multiplying both parts with the
reciprocal (Smith's division with a zero imaginary part in the divisor). -/
def dynMatrix (A : Arith) (D : PhononData) (k : V3 ℝ) (r c : ℕ) : ℂ :=
  let z := dynRaw A D (qVec A D k) r c
  let s := A.div 1 (massRoot A D r c)
  ⟨A.mul z.re s, A.mul z.im s⟩

/-- `core/post_process.py:457`: `(np.sqrt(w).real - np.abs(np.sqrt(w).imag)) / (2 * np.pi) / 10 ** 12`. -/
def freqOf (A : Arith) (w : ℂ) : ℝ := A.div (A.div (A.sub (A.csqrt w).re |(A.csqrt w).im|) (A.mul 2 A.pi)) (10 ^ 12)

end Interphon.Machine
