import Verif.Model.Cell
import Verif.Model.AtomicWeight
import Mathlib.Data.List.Sort
import Mathlib.Algebra.Order.Field.Rat

/-!
# Model of `InterPhon/core/unit_cell.py`: validation of raw attributes

Arrays are lists of rows; `shape == (n, 3)` is "n rows of length 3, n > 0": a list without rows becomes an array of shape `(0,)`
(an array of shape `(0, 3)` made by the caller is not modelled).  Non-numeric/ragged arrays and the aliasing of a caller's list are not modelled.
-/

namespace Interphon.UnitCell
open Py Interphon

/-- Attributes of a `UnitCell`, `core/unit_cell.py:85-93`; `none` is Python's `None`. -/
structure RawCell where
  lattice : Option (List (List ℚ)) := none
  atomType : Option (List Str) := none
  numAtom : Option (List ℤ) := none
  selective : Bool := false
  coordinate : Option Coord := none
  cart : Option (List (List ℚ)) := none
  atomTrue : Option (List ℤ) := none
  xyzTrue : Option (List ℤ) := none
  mass : Option (List ℚ) := none
  deriving DecidableEq

/-- `a.shape == (n, 3)`. (Source: `core/unit_cell.py:103,158,171`.) -/
def hasShape (a : List (List ℚ)) (n : ℕ) : Bool := a.length = n && !a.isEmpty && a.all (fun r => r.length = 3)

/-- New object state and the exception raised, if any: the setters of `core/unit_cell.py:99-229`. -/
abbrev Outcome := RawCell × Option PyErr

/-- `lattice_matrix` setter, `core/unit_cell.py:99-106`. -/
def setLattice (s : RawCell) (a : List (List ℚ)) : Outcome :=
  if hasShape a 3 then ({ s with lattice := some a }, none) else (s, some .valueError)

/-- `atom_type` setter, `core/unit_cell.py:112-119`. -/
def setAtomType (s : RawCell) (l : List Str) : Outcome :=
  match s.cart with
  | none => ({ s with atomType := some l }, none)
  | some c => if l.length = c.length then ({ s with atomType := some l }, none) else (s, some .valueError)

/-- `num_atom` setter, `core/unit_cell.py:125-132`. -/
def setNumAtom (s : RawCell) (l : List ℤ) : Outcome :=
  match s.cart with
  | none => ({ s with numAtom := some l }, none)
  | some c => if l.sum = c.length then ({ s with numAtom := some l }, none) else (s, some .valueError)

/-- `selective` is a plain attribute, `core/unit_cell.py:88`. -/
def setSelective (s : RawCell) (b : Bool) : Outcome := ({ s with selective := b }, none)

/-- `coordinate` setter, `core/unit_cell.py:138-148`. -/
def setCoordinate (s : RawCell) : Str → Outcome
  | [] => (s, some .indexError)
  | c :: _ =>
    if c = 'D' ∨ c = 'd' then ({ s with coordinate := some .direct }, none)
    else if c = 'C' ∨ c = 'c' ∨ c = 'K' ∨ c = 'k' then ({ s with coordinate := some .cartesian }, none)
    else (s, some .valueError)

/-- `atom_cart` setter, `core/unit_cell.py:154-161`. -/
def setCart (s : RawCell) (a : List (List ℚ)) : Outcome :=
  match s.atomType with
  | none => ({ s with cart := some a }, none)
  | some t => if hasShape a t.length then ({ s with cart := some a }, none) else (s, some .valueError)

/-- Row times matrix: `np.dot(row, M)` for `M` of shape (3,3). (Source: `core/unit_cell.py:170-172`.) -/
def dotRow (r : List ℚ) (M : List (List ℚ)) : List ℚ :=
  (List.range 3).map fun j => ((r.zip M).map fun p => p.1 * p.2.getD j 0).sum

/-- `np.dot(a, lattice)`: `TypeError` if the lattice is `None`, `ValueError` if shapes are not aligned. (Source: `core/unit_cell.py:170-172`.) -/
def dotLattice (a : List (List ℚ)) : Option (List (List ℚ)) → Run (List (List ℚ))
  | none => .error .typeError
  | some M => if a.all (fun r => r.length = M.length) then .ok (a.map (dotRow · M)) else .error .valueError

/-- `atom_direct` setter, `core/unit_cell.py:167-174`. -/
def setDirect (s : RawCell) (a : List (List ℚ)) : Outcome :=
  match s.atomType with
  | none => match dotLattice a s.lattice with
    | .ok c => ({ s with cart := some c }, none)
    | .error e => (s, some e)
  | some t =>
    if hasShape a t.length then match dotLattice a s.lattice with
      | .ok c => ({ s with cart := some c }, none)
      | .error e => (s, some e)
    else (s, some .valueError)

/-- Python `sorted` on integers. (Source: `core/unit_cell.py:185,189,206,210`.) -/
def sorted (l : List ℤ) : List ℤ := l.insertionSort (· ≤ ·)

/-- `atom_true` setter, `core/unit_cell.py:180-191` (values already integers). -/
def setAtomTrue (s : RawCell) (l : List ℤ) : Outcome :=
  match s.atomType with
  | none => ({ s with atomTrue := some (sorted l) }, none)
  | some t =>
    if l.all (fun i => 0 ≤ i ∧ i < t.length) then ({ s with atomTrue := some (sorted l) }, none)
    else (s, some .valueError)

/-- `xyz_true` setter, `core/unit_cell.py:201-212`. -/
def setXyzTrue (s : RawCell) (l : List ℤ) : Outcome :=
  match s.atomTrue with
  | none => ({ s with xyzTrue := some (sorted l) }, none)
  | some t =>
    if l.all (fun i => i ∈ t) then ({ s with xyzTrue := some (sorted l) }, none)
    else (s, some .valueError)

/-- `mass_true` setter, `core/unit_cell.py:218-229`. -/
def setMass (s : RawCell) (l : List ℚ) : Outcome :=
  match s.atomTrue with
  | none => ({ s with mass := some l }, none)
  | some t => if l.length = 3 * t.length then ({ s with mass := some l }, none) else (s, some .valueError)

/-- `initialization`, `core/unit_cell.py:231-243`. -/
def initialization (s : RawCell) : RawCell :=
  { s with lattice := none, atomType := none, numAtom := none, selective := false, coordinate := none,
           cart := none, atomTrue := none, xyzTrue := none, mass := none }

/-- The eight values returned by the `read_input_lines` functions, in order. (Source: `core/unit_cell.py:257-284`.) -/
structure Parsed where
  lattice : List (List ℚ)
  atomType : List Str
  numAtom : List ℤ
  selective : Bool
  coordinate : Str
  cart : List (List ℚ)
  atomTrue : List ℤ
  xyzTrue : List ℤ
  deriving DecidableEq

/-- Runs assignments until the first exception. (Source: `core/unit_cell.py:257-284`.) -/
def seqOut : Outcome → List (RawCell → Outcome) → Outcome
  | o, [] => o
  | (s, some e), _ => (s, some e)
  | (s, none), f :: fs => seqOut (f s) fs

/-- The tuple assignment of `core/unit_cell.py:257-264` (identical at 267-274 and 277-284). -/
def assignParsed (s : RawCell) (p : Parsed) : Outcome :=
  seqOut (s, none) [(setLattice · p.lattice), (setAtomType · p.atomType), (setNumAtom · p.numAtom),
    (setSelective · p.selective), (setCoordinate · p.coordinate), (setCart · p.cart),
    (setAtomTrue · p.atomTrue), (setXyzTrue · p.xyzTrue)]

/-- `read_unit_cell`, `core/unit_cell.py:245-284`.  `vasp`/`espresso`/`aims` are the parser results on the
given file. -/
def readUnitCell (s : RawCell) (code : Str) (vasp espresso aims : Unit → Run Parsed) : Outcome :=
  let s0 := initialization s
  let go (r : Run Parsed) : Outcome := match r with
    | .error e => (s0, some e)
    | .ok p => assignParsed s0 p
  if code = "vasp".toList then go (vasp ())
  else if code = "espresso".toList then go (espresso ())
  else if code = "aims".toList then go (aims ())
  else (s0, none)

/-- `[get_atomic_weight(v) for v in self.atom_type]`, `core/unit_cell.py:319`.
`np.asfarray` of Python's `None` is `nan`; the model reports it as `typeError` (NaN is not modelled). -/
def weights : List Str → Run (List ℚ)
  | [] => .ok []
  | t :: ts => match AtomicWeight.getAtomicWeight t with
    | .error e => .error e
    | .ok none => .error .typeError
    | .ok (some w) => match weights ts with
      | .error e => .error e
      | .ok ws => .ok (w :: ws)

/-- Index with the numpy convention for negative indices. (Source: `core/unit_cell.py:320`.) -/
def pyGet (l : List ℚ) (i : ℤ) : Run ℚ :=
  if 0 ≤ i then getE l i.toNat else if -(l.length : ℤ) ≤ i then getE l (l.length + i).toNat else .error .indexError

/-- Fancy indexing `a[idx]`. (Source: `core/unit_cell.py:320`.) -/
def fancy (l : List ℚ) : List ℤ → Run (List ℚ)
  | [] => .ok []
  | i :: is => match pyGet l i with
    | .error e => .error e
    | .ok x => match fancy l is with
      | .error e => .error e
      | .ok xs => .ok (x :: xs)

/-- `set_mass_true`, `core/unit_cell.py:314-320`: weights in g/mol divided by Avogadro's number (6.022e23)
and 1000, picked by `xyz_true`.  (`xyz_true is None` would be a numpy view; reported as `typeError`.) -/
def setMassTrue (s : RawCell) : Outcome :=
  match s.atomType with
  | none => (s, some .typeError)
  | some t => match weights t with
    | .error e => (s, some e)
    | .ok ws => match s.xyzTrue with
      | none => (s, some .typeError)
      | some x => match fancy (ws.map fun w => w / (6022 * 10 ^ 20) / 1000) x with
        | .error e => (s, some e)
        | .ok m => setMass s m

section clean
variable {K : Type*} [Field K]

/-- `atom_direct` getter, `core/unit_cell.py:164-165`, on a cell with non-singular lattice:
`np.dot(atom_cart, inv(lattice))`. -/
noncomputable def atomDirect (L : M3 K) (cart : List (V3 K)) : List (V3 K) := cart.map fun v => Matrix.vecMul v L⁻¹

/-- `atom_direct` setter, `core/unit_cell.py:167-172`: `np.dot(direct, lattice)`. -/
def cartOfDirect (L : M3 K) (direct : List (V3 K)) : List (V3 K) := direct.map fun v => Matrix.vecMul v L

end clean

end Interphon.UnitCell
