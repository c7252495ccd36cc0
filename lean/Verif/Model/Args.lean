import Verif.Py
import Mathlib.Data.Matrix.Basic

/-!
# Model of `InterPhon/core/pre_check.py` and `InterPhon/core/post_check.py`
-/

namespace Interphon.Args
open Py

/-- Scalar Python values that can occur as user arguments.  Floats carry their exact value.
(Source: the arguments of `core/pre_check.py:45-98` and `core/unit_cell.py:7-48`.) -/
inductive PyAtom
  | int (i : ℤ) | bool (b : Bool) | float (q : ℚ) | str (s : Str) | none
  deriving DecidableEq

/-- Python values handed to the setters: scalars, and lists / tuples / 1-D arrays of scalars.
(Source: the arguments of `core/pre_check.py:45-98` and `core/unit_cell.py:7-48`.) -/
inductive PyVal
  | atom (a : PyAtom) | list (l : List PyAtom)
  deriving DecidableEq

/-- Python `int(val)` on a scalar.  `int(float)` truncates towards zero.
(Source: `core/pre_check.py:10,12`, `core/unit_cell.py:40,42`, `analysis/mode.py:12,14`.) -/
def intOf : PyAtom → Run ℤ
  | .int i => .ok i
  | .bool b => .ok (if b then 1 else 0)
  | .float q => .ok (if q < 0 then -⌊-q⌋ else ⌊q⌋)
  | .str s => match parseInt s with
    | some i => .ok i
    | none => .error .valueError
  | .none => .error .typeError

/-- `[int(val) for val in l]`. (Source: `core/pre_check.py:10,12`, `core/unit_cell.py:40,42`.) -/
def intsOf : List PyAtom → Run (List ℤ)
  | [] => .ok []
  | a :: as => match intOf a with
    | .error e => .error e
    | .ok i => match intsOf as with
      | .error e => .error e
      | .ok is => .ok (i :: is)

/-- `to_int_numpy`, `core/pre_check.py:5-15`.  `bool` is an `int` in Python; iterating over a float or
`None` is a `TypeError`, which the `except ValueError` does not catch. -/
def toIntNumpy : PyVal → Run (List ℤ)
  | .atom (.int i) => .ok [i]
  | .atom (.bool b) => .ok [if b then 1 else 0]
  | .atom (.str s) => intsOf ((split (strip s)).map .str)
  | .atom (.float _) => .error .typeError
  | .atom .none => .error .typeError
  | .list l => intsOf l

/-- Python `float(v)`. (Source: `core/pre_check.py:48`.) -/
def floatOf : PyVal → Run ℚ
  | .atom (.int i) => .ok i
  | .atom (.bool b) => .ok (if b then 1 else 0)
  | .atom (.float q) => .ok q
  | .atom (.str s) => match parseFloat s with
    | some q => .ok q
    | none => .error .valueError
  | .atom .none => .error .typeError
  | .list _ => .error .typeError

/-- The state of a `PreArgument`/`PostArgument` object, `core/pre_check.py:32-40`.
`none` is Python's `None`; arrays are lists of integers of any length (the constructor stores whatever
it is given). -/
structure PreArg where
  displacement : Option ℚ := none
  enlargement : Option (List ℤ) := none
  periodicity : Option (List ℤ) := none
  deriving DecidableEq

/-- Outcome of a method call: new object state and the exception raised, if any. (Source: the setters of `core/pre_check.py:45-113`.) -/
abbrev Outcome := PreArg × Option PyErr

/-- `displacement` setter, `core/pre_check.py:46-56`.  Line 51 builds a `ValueError` without raising it:
a negative value is dropped silently.  (The caution printed on line 53 is not modelled.) -/
def setDisplacement (s : PreArg) (v : PyVal) : Outcome :=
  match floatOf v with
  | .error e => (s, some e)
  | .ok d =>
    if d < 0 then (s, none)
    else if 1 / 10 < d then ({ s with displacement := some d }, none)
    else ({ s with displacement := some d }, none)

/-- `enlargement` setter, `core/pre_check.py:62-69`. -/
def setEnlargement (s : PreArg) (v : PyVal) : Outcome :=
  match toIntNumpy v with
  | .error e => (s, some e)
  | .ok l =>
    if l.length ≠ 3 then (s, some .insufficientEnlarge)
    else ({ s with enlargement := some l }, none)

/-- `True if value[0] not in ('0', 'F', 'f') else False`, `core/pre_check.py:79`
(tokens of `split()` are never empty; the empty case would be an `IndexError`). -/
def pbcToken : Str → ℤ
  | [] => 0
  | c :: _ => if c = '0' ∨ c = 'F' ∨ c = 'f' then 0 else 1

/-- `self.enlargement[ind]` when `enlargement` may be `None` (`TypeError`) or short (`IndexError`).
(Source: `core/pre_check.py:87,127`, `core/post_check.py:43`.) -/
def enlAt (s : PreArg) (i : ℕ) : Run ℤ :=
  match s.enlargement with
  | none => .error .typeError
  | some e => getE e i

/-- The loop of `core/pre_check.py:85-88` and `:125-128`: position `i`, remaining periodicity values. -/
def pbcLoop (s : PreArg) : ℕ → List ℤ → Option PyErr
  | _, [] => none
  | i, v :: vs =>
    if v = 0 then
      match enlAt s i with
      | .error e => some e
      | .ok n => if n ≠ 1 then some .mismatchEnlargePbc else pbcLoop s (i + 1) vs
    else pbcLoop s (i + 1) vs

/-- `periodicity` setter, `core/pre_check.py:75-89`.  Only strings have `.strip()`. -/
def setPeriodicity (s : PreArg) (v : PyVal) : Outcome :=
  match v with
  | .atom (.str t) =>
    let p := (split (strip t)).map pbcToken
    if p.length ≠ 3 then (s, some .insufficientPBC)
    else match pbcLoop s 0 p with
      | some e => (s, some e)
      | none => ({ s with periodicity := some p }, none)
  | _ => (s, some .attributeError)

/-- `initialization`, `core/pre_check.py:91-97`. -/
def initialization (_ : PreArg) : PreArg := {}

/-- One iteration of the loop of `set_user_argument`, `core/pre_check.py:107-113`. -/
def setOne (s : PreArg) (key : Str) (v : PyVal) : Outcome :=
  if isInfix "displacement".toList key then setDisplacement s v
  else if isInfix "enlargement".toList key then setEnlargement s v
  else if isInfix "periodicity".toList key then setPeriodicity s v
  else (s, none)

/-- The loop itself: stops at the first exception, keeping what was stored so far. (Source: `core/pre_check.py:107-113`.) -/
def setAll : PreArg → List (Str × PyVal) → Outcome
  | s, [] => (s, none)
  | s, (k, v) :: rest =>
    match setOne s k v with
    | (s', some e) => (s', some e)
    | (s', none) => setAll s' rest

/-- `set_user_argument`, `core/pre_check.py:99-113`.  A dictionary is its list of items in insertion
order (Python forbids repeated keys; the model does not need that). -/
def setUserArgument (s : PreArg) (d : List (Str × PyVal)) : Outcome :=
  setAll (initialization s) d

/-- `check_user_argument`, `core/pre_check.py:115-128`. -/
def checkUserArgument (s : PreArg) : Option PyErr :=
  match s.enlargement with
  | none => some .typeError
  | some e =>
    if e.length ≠ 3 then some .insufficientEnlarge
    else match s.periodicity with
      | none => some .typeError
      | some p => if p.length ≠ 3 then some .insufficientPBC else pbcLoop s 0 p

/-- `_enlarge`: product of the enlargement factors over periodic directions,
`core/super_cell.py:68-71` and `core/post_check.py` (same loop). -/
def enlargeLoop (e : List ℤ) : ℕ → List ℤ → ℤ → ℤ
  | _, [], acc => acc
  | i, v :: vs, acc => enlargeLoop e (i + 1) vs (if v ≠ 0 then acc * e.getD i 0 else acc)

/-- `_enlarge` of an argument object. (Source: `core/super_cell.py:68-71`.) -/
def enlarge (e p : List ℤ) : ℤ := enlargeLoop e 0 p 1

section post
variable {K : Type*} [Field K] [LinearOrder K]

/-- `np.allclose` on one lattice row (three components), default tolerances. (Source: `core/post_check.py:42-45`.) -/
def rowClose (a b : Fin 3 → K) : Prop := ∀ j, isClose rtolDefault atolDefault (a j) (b j)

instance (a b : Fin 3 → K) : Decidable (rowClose a b) := by unfold rowClose; infer_instance

/-- `check_match_argument`, `core/post_check.py:33-48`: the loop over the three lattice rows
(`fuel` rows remaining, next row `i`).  The rest of the method only computes a local variable. -/
def matchLoop (s : PreArg) (unitL superL : Matrix (Fin 3) (Fin 3) K) : List (Fin 3) → Option PyErr
  | [] => none
  | i :: is =>
    match enlAt s i with
    | .error e => some e
    | .ok n =>
      if rowClose (fun j => unitL i j * (n : K)) (superL i) then matchLoop s unitL superL is
      else some .mismatchEnlargePost

/-- `check_match_argument`, `core/post_check.py:33-48`.  After the row loop, `enumerate(self.periodicity)`
raises `TypeError` on `None`, and `self.enlargement[ind]` is read at each periodic direction. -/
def checkMatchArgument (s : PreArg) (unitL superL : Matrix (Fin 3) (Fin 3) K) : Option PyErr :=
  match matchLoop s unitL superL [0, 1, 2] with
  | some e => some e
  | none => match s.periodicity with
    | none => some .typeError
    | some p => if ∃ i, i < p.length ∧ p.getD i 0 ≠ 0 ∧ (s.enlargement.getD []).length ≤ i
        then some .indexError else none

end post

end Interphon.Args
