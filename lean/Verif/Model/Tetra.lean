import Verif.Model.Cell
import Mathlib.Analysis.SpecialFunctions.Pow.Real

/-!
# Model of `InterPhon/util/linear_tetrahedron_method.py`

Numbers are exact reals.  `w` maps a mesh-point index and a band index to a frequency; `F` maps a mesh point, a band
and a degree of freedom to `abs(v_q[k, band, dof])**2`.  The arrays are taken to have one row per mesh point (reads
outside them are not modelled).  `argsort` is any function returning a permutation that sorts its argument
(numpy does not specify the order of equal entries).  The three bodies (one per dimension; the two triangles and
the six tetrahedra have textually identical bodies after the vertex selection) are `branch1`, `branch2`, `branch3`.
-/

noncomputable section

namespace Interphon.Tetra
open Py Interphon

/-- What one `if/elif/else` cascade does for one simplex: nothing, a density with vertex weights, or a NaN
(0/0) that is added to the array. (Source: `util/linear_tetrahedron_method.py:66-110`.) -/
inductive Branch (m : ℕ)
  | skip
  | inside (g : ℝ) (I : Fin m → ℝ)
  | nan

open Classical in
/-- `linear_tetrahedron_method.py:66-76` for sorted `w`. -/
def branch1 (f : ℝ) (w : Fin 2 → ℝ) : Branch 2 :=
  if w 0 ≤ f ∧ f < w 1 then
    .inside (1 / (w 1 - w 0)) ![(f - w 1) / (w 0 - w 1), (f - w 0) / (w 1 - w 0)]
  else .skip

open Classical in
/-- `linear_tetrahedron_method.py:157-178` (identical at 198-219) for sorted `w`. -/
def branch2 (f : ℝ) (w : Fin 3 → ℝ) : Branch 3 :=
  if w 0 ≤ f ∧ f < w 1 then
    .inside (2 * (f - w 0) / (w 1 - w 0) / (w 2 - w 0))
      ![1 / 2 * ((f - w 1) / (w 0 - w 1) + (f - w 2) / (w 0 - w 2)),
        1 / 2 * (f - w 0) / (w 1 - w 0),
        1 / 2 * (f - w 0) / (w 2 - w 0)]
  else if w 1 ≤ f ∧ f < w 2 then
    .inside (2 * (w 2 - f) / (w 2 - w 1) / (w 2 - w 0))
      ![1 / 2 * (f - w 2) / (w 0 - w 2),
        1 / 2 * (f - w 2) / (w 1 - w 2),
        1 / 2 * ((f - w 0) / (w 2 - w 0) + (f - w 1) / (w 2 - w 1))]
  else .skip

/-- The density of the middle branch, `linear_tetrahedron_method.py:344-346`. -/
def gMid (f : ℝ) (w : Fin 4 → ℝ) : ℝ :=
  3 / (w 3 - w 0) * ((f - w 1) * (f - w 3) / ((w 2 - w 1) * (w 1 - w 3)) + (f - w 0) * (f - w 2) / ((w 2 - w 0) * (w 1 - w 2)))

open Classical in
/-- `linear_tetrahedron_method.py:330-382` (identical in the other five bodies) for sorted `w`.  In the middle
branch all weights divide by the density; where it is 0 the numerators are 0 too and numpy yields NaN. -/
def branch3 (f : ℝ) (w : Fin 4 → ℝ) : Branch 4 :=
  if w 0 ≤ f ∧ f < w 1 then
    .inside (3 * (f - w 0) ^ 2 / (w 1 - w 0) / (w 2 - w 0) / (w 3 - w 0))
      ![1 / 3 * ((f - w 1) / (w 0 - w 1) + (f - w 2) / (w 0 - w 2) + (f - w 3) / (w 0 - w 3)),
        1 / 3 * (f - w 0) / (w 1 - w 0),
        1 / 3 * (f - w 0) / (w 2 - w 0),
        1 / 3 * (f - w 0) / (w 3 - w 0)]
  else if w 1 ≤ f ∧ f < w 2 then
    if gMid f w = 0 then .nan else
    .inside (gMid f w)
      ![1 / 3 * (f - w 3) / (w 0 - w 3) + (f - w 2) / (w 0 - w 2) * (f - w 0) / (w 2 - w 0) * (f - w 2) / (w 1 - w 2) / gMid f w / (w 3 - w 0),
        1 / 3 * (f - w 2) / (w 1 - w 2) + (f - w 3) / (w 1 - w 3) * (f - w 3) / (w 1 - w 3) * (f - w 1) / (w 2 - w 1) / gMid f w / (w 3 - w 0),
        1 / 3 * (f - w 1) / (w 2 - w 1) + (f - w 0) / (w 2 - w 0) * (f - w 0) / (w 2 - w 0) * (f - w 2) / (w 1 - w 2) / gMid f w / (w 3 - w 0),
        1 / 3 * (f - w 0) / (w 3 - w 0) + (f - w 1) / (w 3 - w 1) * (f - w 3) / (w 1 - w 3) * (f - w 1) / (w 2 - w 1) / gMid f w / (w 3 - w 0)]
  else if w 2 ≤ f ∧ f < w 3 then
    .inside (3 * (w 3 - f) ^ 2 / (w 3 - w 0) / (w 3 - w 1) / (w 3 - w 2))
      ![1 / 3 * (f - w 3) / (w 0 - w 3),
        1 / 3 * (f - w 3) / (w 1 - w 3),
        1 / 3 * (f - w 3) / (w 2 - w 3),
        1 / 3 * ((f - w 0) / (w 3 - w 0) + (f - w 1) / (w 3 - w 1) + (f - w 2) / (w 3 - w 2))]
  else .skip

/-- `np.argsort` on `m` numbers: some function of the array returning a permutation. (Source: `util/linear_tetrahedron_method.py:63,154,318`.) -/
abbrev Argsort (m : ℕ) := (Fin m → ℝ) → Equiv.Perm (Fin m)

/-- `_pdos[dof, ind_x] += vol * g * (I0*F0 + …)` for one degree of freedom; `none` is NaN. (Source: `util/linear_tetrahedron_method.py:70-110`.) -/
def addTo {m : ℕ} (acc : Option ℝ) (vol : ℝ) (F : Fin m → ℝ) : Branch m → Option ℝ
  | .skip => acc
  | .inside g I => acc.map fun a => a + vol * g * ∑ i, I i * F i
  | .nan => none

/-- One simplex with vertices `v` for one band and one degree of freedom: sort the frequencies
(`linear_tetrahedron_method.py:63,154,315-321`), reorder the squared amplitudes by the argsort of the
*already sorted* frequencies (64, 155, 322-328), add. -/
def simplexStep {m : ℕ} (arg : Argsort m) (br : ℝ → (Fin m → ℝ) → Branch m) (vol f : ℝ) (w : ℕ → ℝ) (F : ℕ → ℝ)
    (acc : Option ℝ) (v : Fin m → ℕ) : Option ℝ :=
  let ws := fun i => w (v i)
  let ws' := ws ∘ arg ws
  let Fs := (fun i => F (v i)) ∘ arg ws'
  addTo acc vol Fs (br f ws')

/-- The loops over bands, mesh points and simplices for one frequency `f` and one degree of freedom `d`
(`linear_tetrahedron_method.py:51-76,133-219,281-862`); `simplices` lists the vertex tuples in loop order. -/
def column {m : ℕ} (arg : Argsort m) (br : ℝ → (Fin m → ℝ) → Branch m) (vol f : ℝ) (nb : ℕ) (simplices : List (Fin m → ℕ))
    (w : ℕ → ℕ → ℝ) (F : ℕ → ℕ → ℕ → ℝ) (d : ℕ) (init : Option ℝ) : Option ℝ :=
  (List.range nb).foldl (fun acc b =>
    simplices.foldl (simplexStep arg br vol f (fun k => w k b) (fun k => F k b d)) acc) init

/-- Vertices of the segments, `linear_tetrahedron_method.py:55-61`. -/
def segments (n : ℕ) : List (Fin 2 → ℕ) := (List.range n).map fun i => ![i, (i + 1) % n]

/-- Index of mesh point `(x+dx, y+dy)` with wrap-around. (Source: `util/linear_tetrahedron_method.py:141-152`.) -/
def idx2 (n1 n2 x y : ℕ) (d : Fin 2 → ℕ) : ℕ := (x + d 0) % n1 * n2 + (y + d 1) % n2

/-- The two triangles of a mesh cell as corner offsets, `linear_tetrahedron_method.py:141-152,182-193`. -/
def corners2 : List (Fin 3 → Fin 2 → ℕ) := [![![0, 0], ![0, 1], ![1, 1]], ![![0, 0], ![1, 0], ![1, 1]]]

/-- Vertices of the triangles, in loop order. (Source: `util/linear_tetrahedron_method.py:133-193`.) -/
def triangles (n1 n2 : ℕ) : List (Fin 3 → ℕ) :=
  (List.range n1).flatMap fun x => (List.range n2).flatMap fun y => corners2.map fun c => fun i => idx2 n1 n2 x y (c i)

/-- Index of mesh point `(x+dx, y+dy, z+dz)` with wrap-around. (Source: `util/linear_tetrahedron_method.py:290-313`.) -/
def idx3 (n1 n2 n3 x y z : ℕ) (d : Fin 3 → ℕ) : ℕ := (x + d 0) % n1 * n2 * n3 + (y + d 1) % n2 * n3 + (z + d 2) % n3

/-- The six tetrahedra of a mesh cell as corner offsets, `linear_tetrahedron_method.py:290-313`, `386-409`,
`482-505`, `578-601`, `674-697`, `770-793`. -/
def corners3 : List (Fin 4 → Fin 3 → ℕ) := [
  ![![0, 0, 0], ![0, 0, 1], ![1, 0, 1], ![1, 1, 1]],
  ![![0, 0, 0], ![0, 0, 1], ![0, 1, 1], ![1, 1, 1]],
  ![![0, 0, 0], ![0, 1, 0], ![0, 1, 1], ![1, 1, 1]],
  ![![0, 0, 0], ![1, 0, 0], ![1, 0, 1], ![1, 1, 1]],
  ![![0, 0, 0], ![1, 0, 0], ![1, 1, 0], ![1, 1, 1]],
  ![![0, 0, 0], ![0, 1, 0], ![1, 1, 0], ![1, 1, 1]]]

/-- Vertices of the tetrahedra, in loop order. (Source: `util/linear_tetrahedron_method.py:281-313`.) -/
def tetrahedra (n1 n2 n3 : ℕ) : List (Fin 4 → ℕ) :=
  (List.range n1).flatMap fun x => (List.range n2).flatMap fun y => (List.range n3).flatMap fun z =>
    corners3.map fun c => fun i => idx3 n1 n2 n3 x y z (c i)

/-- `np.cross(a, b)`. (Source: `util/linear_tetrahedron_method.py:131,279`.) -/
def cross (a b : V3 ℝ) : V3 ℝ := ![a 1 * b 2 - a 2 * b 1, a 2 * b 0 - a 0 * b 2, a 0 * b 1 - a 1 * b 0]
/-- `np.dot(a, b)`. (Source: `util/linear_tetrahedron_method.py:131,279`.) -/
def dot (a b : V3 ℝ) : ℝ := a 0 * b 0 + a 1 * b 1 + a 2 * b 2

/-- `length_ith / length_bz`, `linear_tetrahedron_method.py:48-49`. -/
def volume1 (k : List (V3 ℝ)) (n1 : ℕ) : Run ℝ := do
  let k1 ← getE k (1 % n1)
  let k0 ← getE k 0
  return Real.sqrt (dot (k1 - k0) (k1 - k0))

/-- `area_ith / area_bz`, `linear_tetrahedron_method.py:123-131`; `a`, `b` are the periodic directions. -/
def volume2 (k : List (V3 ℝ)) (n2 : ℕ) (a b : Fin 3) : Run ℝ := do
  let k1 ← getE k (1 % n2)
  let k2 ← getE k n2
  let k0 ← getE k 0
  let tmp : V3 ℝ := fun i => if i = a ∨ i = b then 0 else 1
  return 1 / 2 * |dot tmp (cross (k1 - k0) (k2 - k0))|

/-- `volume_ith / volume_bz`, `linear_tetrahedron_method.py:274-279`. -/
def volume3 (k : List (V3 ℝ)) (n2 n3 : ℕ) : Run ℝ := do
  let k1 ← getE k (1 % n2)
  let k2 ← getE k n2
  let k3 ← getE k (n2 * n3)
  let k0 ← getE k 0
  return 1 / 6 * |dot (k1 - k0) (cross (k2 - k0) (k3 - k0))|

end Interphon.Tetra
