import Verif.Model.Inout
import Verif.Model.AtomicWeight

/-!
# Model of `InterPhon/inout/espresso.py`
-/

namespace Interphon.Espresso
open Py Interphon Interphon.Inout Interphon.UnitCell

/-- What the first loop collects, inout/espresso.py:23-25. -/
structure Scan where
  nat : Option ℤ := none
  lat : Option ℕ := none
  pos : Option ℕ := none

/-- The loop of inout/espresso.py:27-33; `ind` is the line number. -/
def scan : List Str → ℕ → Scan → Run Scan
  | [], _, s => .ok s
  | l :: ls, ind, s =>
    if isInfix "nat".toList l then
      match getE (split l) 2 with
      | .error e => .error e
      | .ok t => match intE t with
        | .error e => .error e
        | .ok n => scan ls (ind + 1) { s with nat := some n }
    else if isInfix "CELL_PARAMETERS".toList l then scan ls (ind + 1) { s with lat := some ind }
    else if isInfix "ATOMIC_POSITIONS".toList l then scan ls (ind + 1) { s with pos := some ind }
    else scan ls (ind + 1) s

/-- The loops of inout/espresso.py:45-55: skip the empty lines after line `ind`. -/
def skipBlank (lines : List Str) (ind : ℕ) : ℕ := ind + ((lines.drop (ind + 1)).takeWhile (· = ['\n'])).length

/-- One position line, inout/espresso.py:64-69: type, coordinate tokens, fixed? -/
def atomLine (l : Str) : Run (Str × List Str × Bool) :=
  match getE (split l) 0 with
  | .error e => .error e
  | .ok t => .ok (t, ((split l).take 4).drop 1, decide ("0".toList ∈ split l))

/-- `[i for i, fixed in enumerate(…) if not fixed]`, inout/espresso.py:63-69. -/
def freeIndices (fixed : List Bool) : List ℤ := (fixed.zipIdx.filter fun x => !x.1).map fun x => (x.2 : ℤ)

/-- `read_input_lines`, inout/espresso.py:23-129. -/
def readInput (lines : List Str) : Run Parsed :=
  match scan lines 0 {} with
  | .error e => .error e
  | .ok ⟨some n, some lat, some pos⟩ =>
    match asRows (((lines.drop (skipBlank lines lat + 1)).take 3).map fun l => (split l).take 3) with
    | .error e => .error e
    | .ok lattice =>
      match mapE atomLine (slice lines (skipBlank lines pos + 1) ((skipBlank lines pos + 1 : ℕ) + n)) with
      | .error e => .error e
      | .ok atoms => match asRows (atoms.map fun a => a.2.1) with
        | .error e => .error e
        | .ok cart =>
          let sel := freeIndices (atoms.map fun a => a.2.2)
          .ok ⟨lattice, atoms.map fun a => a.1, runs (atoms.map fun a => a.1), atoms.any fun a => a.2.2, "cartesian".toList, cart,
            sel, xyzOf sel⟩
  | .ok _ => .error .assertionError

/-- One position line of the writer, inout/espresso.py:173-184. -/
def posLine (c : Cell ℚ) (i : ℕ) (t : Str) (v : V3 ℚ) : Str :=
  if c.selective ∧ i ∉ c.atomTrue.getD [] then t ++ (' ' :: (row v ++ "   0 0 0\n".toList)) else t ++ (' ' :: (row v ++ ['\n']))

/-- One `ATOMIC_SPECIES` line, inout/espresso.py:162; `w` is the text of the atomic weight (`"{0:<}".format(weight)`, the shortest
decimal representation of the float, is not modelled: any text is allowed). -/
def speciesLine (w : Str → Str) (t : Str) : Str := t ++ (' ' :: (w t ++ (' ' :: (t ++ "_dummy.URF\n".toList))))

/-- The text written by inout/espresso.py:132-187, as physical lines (the code appends several of them at once).  `species` lists the
distinct types in the arbitrary iteration order of a Python set. -/
def inputLines (c : Cell ℚ) (species : List Str) (w : Str → Str) : List Str :=
  ["&CONTROL\n".toList, "/\n".toList, "&SYSTEM\n".toList,
    "    ".toList ++ padRight ' ' 20 "ntyp".toList ++ " = ".toList ++ natStr species.length ++ ['\n'],
    "    ".toList ++ padRight ' ' 20 "nat".toList ++ " = ".toList ++ natStr c.atomType.length ++ ['\n'],
    "    ".toList ++ padRight ' ' 20 "ibrav".toList ++ " = 0\n".toList,
    "/\n".toList, "&ELECTRONS\n".toList, "/\n".toList, "&IONS\n".toList, "/\n".toList, "&CELL\n".toList, "/\n".toList, "\n".toList,
    "ATOMIC_SPECIES\n".toList]
  ++ species.map (speciesLine w)
  ++ ["\n".toList, "K_POINTS gamma\n".toList, "\n".toList, "CELL_PARAMETERS angstrom\n".toList]
  ++ (List.finRange 3).map (fun i => ' ' :: (row (c.lattice i) ++ ['\n']))
  ++ ["\n".toList, "ATOMIC_POSITIONS angstrom\n".toList]
  ++ (c.atomType.zip c.cart).mapIdx (fun i x => posLine c i x.1 x.2)

/-- `write_input_lines`, inout/espresso.py:132-187: raises if a type has no weight entry (`KeyError`), if its weight is `None` (formatting
`None` is a `TypeError`), or if `selective` is set without a selection. -/
def writeInput (c : Cell ℚ) (species : List Str) (w : Str → Str) : Run (List Str) :=
  match mapE AtomicWeight.getAtomicWeight species with
  | .error e => .error e
  | .ok ws =>
    if none ∈ ws then .error .typeError
    else if c.selective ∧ c.atomTrue = none ∧ c.cart ≠ [] then .error .typeError
    else .ok (inputLines c species w)

/-- `(13.605662 * 1.602 * 10**(-19)) / (0.529177 * 10**(-10))`, inout/espresso.py:210. -/
def unitFactor : ℚ := (13605662 / 10 ^ 6 * (1602 / 1000) / 10 ^ 19) / (529177 / 10 ^ 6 / 10 ^ 10)

/-- `read_output_lines`, inout/espresso.py:190-227. -/
def readOutput (n : ℕ) (lines : List Str) : Run (List (List ℚ)) := forces "Forces acting on atoms".toList 2 6 9 unitFactor n lines

end Interphon.Espresso
