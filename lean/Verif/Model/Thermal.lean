import Verif.Py
import Mathlib.Analysis.SpecialFunctions.Log.Basic
import Mathlib.Analysis.SpecialFunctions.Trigonometric.DerivHyp

/-!
# Model of `InterPhon/analysis/thermal_properties.py` (`ThermalProperty.__init__`, `set`, the data of `write`)

Exact reals; a value that numpy computes as NaN or ±inf is `none` (`log` of a non-positive number, division by zero).
Overflow of `cosh`/`sinh` is not modelled.  Of `plot` the data handed to matplotlib are modelled.
-/

noncomputable section

namespace Interphon.Thermal
open Py

/-- thermal_properties.py:34. -/
def kb : ℝ := 1.38 * 10 ^ (-23 : ℤ) / (1.602 * 10 ^ (-19 : ℤ))
/-- thermal_properties.py:35. -/
def h : ℝ := 6.626 * 10 ^ (-34 : ℤ) / (1.602 * 10 ^ (-19 : ℤ))

open Classical in
/-- `np.log`: not finite for a non-positive argument. (Source: `analysis/thermal_properties.py:49,56`.) -/
def log? (x : ℝ) : Option ℝ := if 0 < x then some (Real.log x) else none

open Classical in
/-- Division: not finite if the divisor is 0. (Source: `analysis/thermal_properties.py:49-57`.) -/
def div? (x y : ℝ) : Option ℝ := if y = 0 then none else some (x / y)

/-- Free energy of one mode (thermal_properties.py:48-50 and 82-84), frequency in THz, before dividing by the counts. -/
def modeF (nu T : ℝ) : Option ℝ := do
  let f := nu * 10 ^ 12
  let l ← log? (1 - Real.exp (-h * f / (kb * T)))
  return 1 / 2 * h * f + kb * T * l

/-- Entropy of one mode (thermal_properties.py:54-57 and 91-94), before dividing by the counts. -/
def modeS (nu T : ℝ) : Option ℝ := do
  let f := nu * 10 ^ 12
  let a ← div? (1 / (2 * T) * h * f * Real.cosh (h * f / (2 * kb * T))) (Real.sinh (h * f / (2 * kb * T)))
  let l ← log? (2 * Real.sinh (h * f / (2 * kb * T)))
  return a - kb * l

/-- Zero-point energy of one mode (thermal_properties.py:87-88), before dividing by the counts. -/
def modeZ (nu : ℝ) : ℝ := 1 / 2 * h * (nu * 10 ^ 12)

/-- `acc += v / len(k_points) / (w_q.shape[1] / 3)`. (Source: `analysis/thermal_properties.py:47-57`.) -/
def addMode (nk nm : ℕ) (acc v : Option ℝ) : Option ℝ := acc.bind fun a => v.map fun x => a + x / nk / ((nm : ℝ) / 3)

open Classical in
/-- The double loop over `w_q` for one array entry: negative frequencies are skipped (thermal_properties.py:40-43). -/
def accumulate (nk nm : ℕ) (wq : List (List ℝ)) (val : ℝ → Option ℝ) (init : Option ℝ) : Option ℝ :=
  wq.foldl (fun acc row => row.foldl (fun acc nu => if nu < 0 then acc else addMode nk nm acc (val nu)) acc) init

/-- A `ThermalProperty` object (the attributes `set` writes; thermal_properties.py:25-28). -/
structure State where
  temp : List ℝ
  freeEnergy : List (Option ℝ)
  entropy : List (Option ℝ)

/-- `ThermalProperty.__init__`, thermal_properties.py:19-28. -/
def init (temp : List ℝ) : State :=
  { temp := temp, freeEnergy := List.replicate temp.length (some 0), entropy := List.replicate temp.length (some 0) }

open Classical in
/-- `np.isin(self.temp, 0).nonzero()[0]`, thermal_properties.py:38. -/
def zeroIndices (temp : List ℝ) : List ℕ := temp.zipIdx.filterMap fun (t, i) => if t = 0 then some i else none

/-- `np.insert(a, i, v)` for one value. (Source: `analysis/thermal_properties.py:98-99`.) -/
def insertAt {α : Type} (l : List α) (i : ℕ) (v : α) : List α := l.take i ++ v :: l.drop i

/-- `np.delete(a, i)` for one index. (Source: `analysis/thermal_properties.py:70`.) -/
def deleteAt {α : Type} (l : List α) (i : ℕ) : List α := l.take i ++ l.drop (i + 1)

/-- `ThermalProperty.set`, thermal_properties.py:30-102 (the printed warning is omitted).  `nk = len(k_points)`,
`nm = w_q.shape[1]`.  With no zero temperature the arrays are accumulated in place; with exactly one zero they
are rebuilt; otherwise nothing happens. -/
def set (nk nm : ℕ) (wq : List (List ℝ)) (s : State) : State :=
  match zeroIndices s.temp with
  | [] =>
    { s with
      freeEnergy := (s.freeEnergy.zip s.temp).map fun (old, T) => accumulate nk nm wq (fun nu => modeF nu T) old
      entropy := (s.entropy.zip s.temp).map fun (old, T) => accumulate nk nm wq (fun nu => modeS nu T) old }
  | [z] =>
    let tmp := deleteAt s.temp z
    { s with
      freeEnergy := insertAt (tmp.map fun T => accumulate nk nm wq (fun nu => modeF nu T) (some 0)) z
        (accumulate nk nm wq (fun nu => some (modeZ nu)) (some 0))
      entropy := insertAt (tmp.map fun T => accumulate nk nm wq (fun nu => modeS nu T) (some 0)) z (some 0) }
  | _ => s

/-- Data rows of `thermal_properties.dat`, thermal_properties.py:118-120 (numbers before formatting). -/
def rows (s : State) : List (ℝ × Option ℝ × Option ℝ) :=
  s.temp.zip (s.freeEnergy.zip (s.entropy.map fun o => o.map (· * 1000)))

/-- What `ThermalProperty.plot` hands to matplotlib: the two curves and the limits of the temperature axis.
(Source: `analysis/thermal_properties.py:155-166`.) -/
structure Picture where
  free : List (ℝ × Option ℝ)
  entropy : List (ℝ × Option ℝ)
  limits : ℝ × ℝ

/-- `ThermalProperty.plot`, thermal_properties.py:147-166 (fonts, tick labels and the legend are left out); `min` of an empty array raises
`ValueError`, curves of unequal lengths are rejected by matplotlib (`ValueError`). -/
def plot (s : State) : Run Picture :=
  match s.temp.min?, s.temp.max? with
  | some lo, some hi =>
    if s.freeEnergy.length = s.temp.length ∧ s.entropy.length = s.temp.length then
      .ok { free := s.temp.zip s.freeEnergy, entropy := s.temp.zip (s.entropy.map fun o => o.map (· * 1000)), limits := (lo, hi) }
    else .error .valueError
  | _, _ => .error .valueError

end Interphon.Thermal
