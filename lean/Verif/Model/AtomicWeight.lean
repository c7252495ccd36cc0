import Verif.Model.AtomicWeightTable

/-! # Model of `InterPhon/util/atomic_weight.py` -/

namespace Interphon.AtomicWeight
open Py

/-- Python `str.capitalize`: first character upper case, the rest lower case (ASCII letters only; other
characters are unchanged here, non-ASCII case mapping is not modelled). (Source: `util/atomic_weight.py:13`.) -/
def capitalize : Str → Str
  | [] => []
  | c :: cs => c.toUpper :: cs.map Char.toLower

/-- The table with its entries as character lists. (Source: the dictionary of `util/atomic_weight.py:24-268`.) -/
def table : List (List Str) := periodicTable.map (·.map String.toList)

/-- Row of the first table entry (row-major) equal to `e`:
`mask = np.isin(periodic_table, _element)`; `mask.nonzero()[0][0]`, `util/atomic_weight.py:14-16`. -/
def findRow (e : Str) : Option ℕ := table.findIdx? (fun row => decide (e ∈ row))

/-- `get_atomic_weight`, `util/atomic_weight.py:4-21`.  `.ok none` is Python's `None`
(`Atomic_Weight[0]`). -/
def getAtomicWeight (element : Str) : Run (Option ℚ) :=
  match findRow (capitalize element) with
  | some k => match atomicWeights[k]? with
    | some w => .ok w
    | none => .error .indexError
  | none => .error .nameError

end Interphon.AtomicWeight
