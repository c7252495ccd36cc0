import Verif.Model.SuperCell
import Verif.Model.UnitCell

/-!
# Model of `InterPhon/core/pre_process.py`
-/

namespace Interphon.PreProcess
open Py Interphon Interphon.Args

section
variable {K : Type*} [Field K]

/-- A written file: the number in its name and the cell that was written. (Source: `core/pre_process.py:173-200`.) -/
abbrev Files (K : Type*) := List (ℕ × Cell K)

/-- Object state during the loops: the (shared) super cell and the files written so far. (Source: `core/pre_process.py:127-129`.) -/
abbrev DispState (K : Type*) := Cell K × Files K

/-- `atom_cart[row, 0:3] = v` on the super cell, `core/pre_process.py:170,177,190,196`. `IndexError` if there is no such row. -/
def setRow (c : Cell K) (row : ℕ) (v : V3 K) : Run (Cell K) :=
  if row < c.cart.length then .ok { c with cart := c.cart.set row v } else .error .indexError

/-- Body of the displacement loops, `core/pre_process.py:190-200` and `:169-181`: writes file `num` with the
row displaced forward, then file `num+1` with it displaced backward.  `cur` is `_current_position`, `d` the
amplitude, `disp` the direction. -/
def writePair (d : K) (cur : List (V3 K)) (row num : ℕ) (disp : V3 K) (st : DispState K) : Run (DispState K) :=
  match getE cur row with
  | .error e => .error e
  | .ok v =>
    match setRow st.1 row (fun c => v c + d * disp c) with
    | .error e => .error e
    | .ok c1 =>
      match setRow c1 row (fun c => v c - d * disp c) with
      | .error e => .error e
      | .ok c2 => .ok (c2, st.2 ++ [(num, c1)] ++ [(num + 1, c2)])

/-- Inner loop of the branch without symmetry, `core/pre_process.py:188-200`: `j` counts directions. -/
def dirLoop (d : K) (cur : List (V3 K)) (row i : ℕ) : ℕ → List (V3 K) → DispState K → Run (DispState K)
  | _, [], st => .ok st
  | j, disp :: rest, st =>
    match writePair d cur row (6 * i + 2 * j + 1) disp st with
    | .error e => .error e
    | .ok st' => dirLoop d cur row i (j + 1) rest st'

/-- `np.eye(3)`. (Source: `core/pre_process.py:188`.) -/
def eye3 : List (V3 K) := [![1, 0, 0], ![0, 1, 0], ![0, 0, 1]]

/-- Outer loop of the branch without symmetry, `core/pre_process.py:186-200`. -/
def atomLoop (d : K) (cur : List (V3 K)) (E : ℕ) : ℕ → List ℕ → DispState K → Run (DispState K)
  | _, [], st => .ok st
  | i, t :: rest, st =>
    match dirLoop d cur (E * t) i 0 eye3 ({ st.1 with cart := cur }, st.2) with
    | .error e => .error e
    | .ok st' => atomLoop d cur E (i + 1) rest st'

/-- Inner loop of the symmetry branch, `core/pre_process.py:168-183`: `k` is the running counter. -/
def symDirLoop (d : K) (cur : List (V3 K)) (row : ℕ) : ℕ → List (V3 K) → DispState K → Run (ℕ × DispState K)
  | k, [], st => .ok (k, st)
  | k, disp :: rest, st =>
    match writePair d cur row (2 * k + 1) disp st with
    | .error e => .error e
    | .ok st' => symDirLoop d cur row (k + 1) rest st'

/-- Outer loop of the symmetry branch, `core/pre_process.py:159-183`; the plan lists, for each required
atom, its row `_enlarge * unit_cell.atom_true[ind_T]` and its list `_displace` of directions. -/
def symAtomLoop (d : K) (cur : List (V3 K)) : ℕ → List (ℕ × List (V3 K)) → DispState K → Run (DispState K)
  | _, [], st => .ok st
  | k, (row, dirs) :: rest, st =>
    match symDirLoop d cur row k dirs ({ st.1 with cart := cur }, st.2) with
    | .error e => .error e
    | .ok (k', st') => symAtomLoop d cur k' rest st'

/-- Number of periodic directions, `periodicity.nonzero()[0].shape[0]`, `core/pre_process.py:136`. -/
def numPbc (p : Fin 3 → ℤ) : ℕ := ([p 0, p 1, p 2].filter (· ≠ 0)).length

/-- `write_displace_cell`, `core/pre_process.py:114-200`.
`E` is `_enlarge` (lines 131-134).  `search` is the outcome of the symmetry search (`core/pre_process.py:146-157`):
the displacement plan, or the exception it raised.  A `Cannot_Search_Point_Group` is caught at line 148, but
line 149 reads the attribute `value`, which the exception class does not have
(`error/error.py:137-155`): an `AttributeError` leaves the method. Result: the super cell object after the
call and the files. -/
def writeDisplaceCell (s : Cell K) (sel : List ℕ) (E : ℕ) (d : K) (p : Fin 3 → ℤ) (symFlag : Bool)
    (search : Run (List (ℕ × List (V3 K)))) : Run (DispState K) :=
  let st : DispState K := ({ s with selective := false }, [])
  let cur := s.cart
  if symFlag && numPbc p == 2 then
    match search with
    | .error .cannotSearchPointGroup => .error .attributeError
    | .error e => .error e
    | .ok plan => symAtomLoop d cur 0 plan st
  else atomLoop d cur E 0 sel st

/-- File-name suffix `'-{0:0>4}'.format(n)`, `core/pre_process.py:173,180,193,199`. -/
def suffix (n : ℕ) : Str := '-' :: padLeft '0' 4 (natStr n)

/-- Full file name `out_file + suffix`. (Source: `core/pre_process.py:173,180,193,199`.) -/
def fileName (out : Str) (n : ℕ) : Str := out ++ suffix n

end

/-! ### Object identity (default constructor arguments) -/

/-- The `UnitCell`/`SuperCell`/`PreArgument` objects alive in a program, by identity. (Source: `core/pre_process.py:24-33`.) -/
structure Heap where
  args : ℕ → PreArg
  cells : ℕ → UnitCell.RawCell
  nextArg : ℕ
  nextCell : ℕ

/-- References held by a `PreProcess` instance, `core/pre_process.py:30-32`. -/
structure Proc where
  userArg : ℕ
  unitCell : ℕ
  superCell : ℕ
  deriving DecidableEq

/-- At class-definition time Python evaluates the default values once (`core/pre_process.py:24-26`):
argument object 0, cells 0 and 1. -/
def bootHeap : Heap := { args := fun _ => {}, cells := fun _ => {}, nextArg := 1, nextCell := 2 }

/-- `PreProcess()` : the instance refers to the shared default objects. (Source: `core/pre_process.py:24-26`.) -/
def newDefault (h : Heap) : Heap × Proc := (h, ⟨0, 0, 1⟩)

/-- `PreProcess(PreArgument(), UnitCell(), SuperCell())` : fresh objects. (Source: `core/pre_process.py:24-33`.) -/
def newExplicit (h : Heap) : Heap × Proc :=
  ({ args := Function.update h.args h.nextArg {}
     cells := Function.update (Function.update h.cells h.nextCell {}) (h.nextCell + 1) {}
     nextArg := h.nextArg + 1
     nextCell := h.nextCell + 2 }, ⟨h.nextArg, h.nextCell, h.nextCell + 1⟩)

/-- `p.set_user_arg(d)`, `core/pre_process.py:71-79` (the check does not modify the object). -/
def setUserArg (h : Heap) (p : Proc) (d : List (Str × PyVal)) : Heap :=
  { h with args := Function.update h.args p.userArg (setUserArgument (h.args p.userArg) d).1 }

/-- `p.set_unit_cell(file)`, `core/pre_process.py:81-91`, with the parsed file content. -/
def setUnitCell (h : Heap) (p : Proc) (c : UnitCell.Parsed) : Heap :=
  let new := (UnitCell.assignParsed (UnitCell.initialization (h.cells p.unitCell)) c).1
  { h with cells := Function.update h.cells p.unitCell new }

end Interphon.PreProcess
