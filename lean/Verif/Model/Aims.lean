import Verif.Model.Inout

/-!
# Model of `InterPhon/inout/aims.py`
-/

namespace Interphon.Aims
open Py Interphon Interphon.Inout Interphon.UnitCell

/-- The text that marks a fixed atom, inout/aims.py:41. -/
def constraint : Str := "constrain_relaxation .true.".toList

/-- `'constrain_relaxation .true.' in _lines[_ind_line + 1]`, inout/aims.py:41-49: a missing next line counts as "not fixed". -/
def nextFixed : List Str → Bool
  | [] => false
  | n :: _ => isInfix constraint n

/-- The loop of inout/aims.py:35-49: type, coordinate tokens and fixed flag of every atom line.  The line after the atom line is
looked at if there is one. -/
def atoms : List Str → Run (List (Str × List Str × Bool))
  | [] => .ok []
  | l :: ls =>
    if "atom".toList ∈ split l then
      match getE (split l) 4 with
      | .error e => .error e
      | .ok t =>
        let fixed := isInfix constraint l || nextFixed ls
        match atoms ls with
        | .error e => .error e
        | .ok r => .ok ((t, ((split l).take 4).drop 1, fixed) :: r)
    else atoms ls

/-- `[i for i, fixed in enumerate(…) if not fixed]`, inout/aims.py:34-49. -/
def freeIndices (fixed : List Bool) : List ℤ := (fixed.zipIdx.filter fun x => !x.1).map fun x => (x.2 : ℤ)

/-- `read_input_lines`, inout/aims.py:22-109. -/
def readInput (lines : List Str) : Run Parsed :=
  match asRows ((lines.filter fun l => "lattice_vector".toList ∈ split l).map fun l => ((split l).take 4).drop 1) with
  | .error e => .error e
  | .ok lattice => match atoms lines with
    | .error e => .error e
    | .ok a => match asRows (a.map fun x => x.2.1) with
      | .error e => .error e
      | .ok cart =>
        let sel := freeIndices (a.map fun x => x.2.2)
        .ok ⟨lattice, a.map fun x => x.1, runs (a.map fun x => x.1), a.any fun x => x.2.2, "cartesian".toList, cart, sel, xyzOf sel⟩

/-- The lines written for one atom, inout/aims.py:131-144. -/
def posLines (c : Cell ℚ) (i : ℕ) (t : Str) (v : V3 ℚ) : List Str :=
  let l := "atom ".toList ++ row v ++ (' ' :: (t ++ ['\n']))
  if c.selective ∧ i ∉ c.atomTrue.getD [] then [l, "    constrain_relaxation .true.\n".toList] else [l]

/-- The text written by inout/aims.py:112-147, as physical lines (the code concatenates them). -/
def inputLines (c : Cell ℚ) : List Str :=
  (List.finRange 3).map (fun i => "lattice_vector ".toList ++ row (c.lattice i) ++ ['\n'])
  ++ ((c.atomType.zip c.cart).mapIdx fun i x => posLines c i x.1 x.2).flatten

/-- `write_input_lines`, inout/aims.py:112-147: `selective` without a selection raises. -/
def writeInput (c : Cell ℚ) : Run (List Str) :=
  if c.selective ∧ c.atomTrue = none ∧ c.cart ≠ [] then .error .typeError else .ok (inputLines c)

/-- `(1.602 * 10**(-19)) / 10**(-10)`, inout/aims.py:170. -/
def unitFactor : ℚ := (1602 / 1000 / 10 ^ 19) / (1 / 10 ^ 10)

/-- `read_output_lines`, inout/aims.py:150-187. -/
def readOutput (n : ℕ) (lines : List Str) : Run (List (List ℚ)) := forces "Total atomic forces".toList 1 2 5 unitFactor n lines

end Interphon.Aims
