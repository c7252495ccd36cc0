import Verif.Py
import Mathlib.Data.Matrix.Basic
import Mathlib.LinearAlgebra.Matrix.NonsingularInverse
import Mathlib.Algebra.Order.Field.Rat

/-!
# Clean cells

`Cell K` is the content of a `UnitCell`/`SuperCell` object (`core/unit_cell.py:85-93`) once every field
has passed its setter: arrays have their validated shapes.  Numbers are exact elements of a field `K`.
(The validation itself, on raw arrays of arbitrary shape, is modelled in `Verif/Model/UnitCell.lean`.)
-/

namespace Interphon
open Py

/-- A row of three numbers. (Source: one row of `atom_cart` or `lattice_matrix`, `core/unit_cell.py:85-90`.) -/
abbrev V3 (K : Type*) := Fin 3 → K
/-- A 3×3 matrix, row `i` = lattice vector `i`. (Source: `lattice_matrix`, `core/unit_cell.py:85`.) -/
abbrev M3 (K : Type*) := Matrix (Fin 3) (Fin 3) K

/-- Value of the `coordinate` attribute, `core/unit_cell.py:138-148`. -/
inductive Coord | direct | cartesian
  deriving DecidableEq, Repr

/-- Attributes of a unit/super cell, `core/unit_cell.py:85-93` (the mass array is kept separately). -/
structure Cell (K : Type*) where
  lattice : M3 K
  atomType : List Str
  numAtom : List ℤ
  selective : Bool
  coordinate : Coord
  cart : List (V3 K)
  atomTrue : Option (List ℕ) := none
  xyzTrue : Option (List ℕ) := none

end Interphon
