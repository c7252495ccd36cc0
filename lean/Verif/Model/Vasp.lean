import Verif.Model.Inout

/-!
# Model of `InterPhon/inout/vasp.py`
-/

namespace Interphon.Vasp
open Py Interphon Interphon.Inout Interphon.UnitCell

/-- The loop of inout/vasp.py:32-34: type number `ind` repeated `num` times. -/
def typesLoop (names : List Str) : List ℤ → ℕ → Run (List Str)
  | [], _ => .ok []
  | n :: rest, ind =>
    match mapE (fun _ => getE names ind) (rangeInt n) with
    | .error e => .error e
    | .ok t => match typesLoop names rest (ind + 1) with
      | .error e => .error e
      | .ok ts => .ok (t ++ ts)

/-- inout/vasp.py:41-48 (56-63): coordinates from the position lines, by the first letter of the coordinate line.  Another letter
leaves `__atom_cart` unbound, which raises at the `return`. -/
def coords (c : Char) (pos : List Str) (lattice : List (List ℚ)) : Run (Str × List (List ℚ)) :=
  if c = 'D' ∨ c = 'd' then
    match asRows (pos.map fun l => (split l).take 3) with
    | .error e => .error e
    | .ok a => match dotRows a lattice with
      | .error e => .error e
      | .ok m => .ok ("direct".toList, m)
  else if c = 'C' ∨ c = 'c' ∨ c = 'K' ∨ c = 'k' then
    match asRows (pos.map fun l => (split l).take 3) with
    | .error e => .error e
    | .ok a => .ok ("cartesian".toList, a)
  else .error .unboundLocal

/-- `_lines[i].split()[0][0]`. (Source: `inout/vasp.py:37,41,56`.) -/
def letter (lines : List Str) (i : ℕ) : Run Char :=
  match getE lines i with
  | .error e => .error e
  | .ok l => match getE (split l) 0 with
    | .error e => .error e
    | .ok t => getE t 0

/-- The indices of the elements satisfying `p`: `[i for i, v in enumerate(l) if p v]`. (Source: `inout/vasp.py:50`.) -/
def indices {α : Type} (p : α → Bool) (l : List α) : List ℤ :=
  (l.zipIdx.filter fun x => p x.1).map fun x => (x.2 : ℤ)

/-- `read_input_lines`, inout/vasp.py:23-107. -/
def readInput (lines : List Str) : Run Parsed := do
  let l1 ← getE lines 1
  let t1 ← getE (split l1) 0
  let ratio ← floatE t1
  let lat ← asRows ((slice lines 2 5).map fun l => (split l).take 3)
  let lattice := lat.map fun r => r.map (· * ratio)
  let l6 ← getE lines 6
  let numAtom ← mapE intE (split l6)
  let total := numAtom.sum
  let l5 ← getE lines 5
  let types ← typesLoop (split l5) numAtom 0
  let c7 ← letter lines 7
  if c7 = 'S' ∨ c7 = 's' then
    let pos := slice lines 9 (9 + total)
    let c8 ← letter lines 8
    let (coordinate, cart) ← coords c8 pos lattice
    let sel := indices (fun l => "T".toList ∈ split l) pos
    .ok ⟨lattice, types, numAtom, true, coordinate, cart, sel, xyzOf sel⟩
  else
    let pos := slice lines 8 (8 + total)
    let (coordinate, cart) ← coords c7 pos lattice
    let sel := indices (fun _ => true) pos
    .ok ⟨lattice, types, numAtom, false, coordinate, cart, sel, xyzOf sel⟩

/-- The types at the starts of the groups, inout/vasp.py:128-132.  Simplification: negative counts (which would index from the end)
are an `IndexError`. -/
def groupTypes (types : List Str) : List ℤ → ℕ → Run (List Str)
  | [], ind => match getE types ind with
    | .error e => .error e
    | .ok t => .ok [t]
  | n :: rest, ind =>
    match getE types ind with
    | .error e => .error e
    | .ok t => if n < 0 then .error .indexError else match groupTypes types rest (ind + n.toNat) with
      | .error e => .error e
      | .ok ts => .ok (t :: ts)

/-- `sep.join(l)`. (Source: `inout/vasp.py:133-136`.) -/
def join (sep : Str) (l : List Str) : Str := (l.intersperse sep).flatten

/-- One position line, inout/vasp.py:145-156. -/
def posLine (c : Cell ℚ) (i : ℕ) (v : V3 ℚ) : Str :=
  if c.selective then
    if i ∈ c.atomTrue.getD [] then ' ' :: (row v ++ "   T   T   T\n".toList) else ' ' :: (row v ++ "   F   F   F\n".toList)
  else ' ' :: (row v ++ ['\n'])

/-- The lines assembled by inout/vasp.py:122-156, `g` being the group names. -/
def inputLines (c : Cell ℚ) (comment : Str) (g : List Str) : List Str :=
  [comment ++ ['\n'], "1.00000000000000\n".toList]
    ++ (List.finRange 3).map (fun i => ' ' :: (row (c.lattice i) ++ ['\n']))
    ++ [join "    ".toList g ++ ['\n'], join "    ".toList (c.numAtom.map intStr) ++ ['\n']]
    ++ (if c.selective then ["Selective dynamics\n".toList] else [])
    ++ ["Cartesian\n".toList]
    ++ c.cart.mapIdx (posLine c)

/-- `write_input_lines`, inout/vasp.py:110-158.  With `selective` set and no selection, `i in None` raises. -/
def writeInput (c : Cell ℚ) (comment : Str) : Run (List Str) :=
  match groupTypes c.atomType c.numAtom.dropLast 0 with
  | .error e => .error e
  | .ok g =>
    if c.selective ∧ c.atomTrue = none ∧ c.cart ≠ [] then .error .typeError
    else .ok (inputLines c comment g)

/-- `(1.602 * 10**(-19)) / 10**(-10)`, inout/vasp.py:182. -/
def unitFactor : ℚ := (1602 / 1000 / 10 ^ 19) / (1 / 10 ^ 10)

/-- `read_output_lines`, inout/vasp.py:161-217; `name` is the last component of the path (`os.path.split`).  With another file name
`_force_matrix` is unbound at the `return`. -/
def readOutput (name : Str) (n : ℕ) (lines : List Str) : Run (List (List ℚ)) :=
  if name = "vasprun.xml".toList then forces "forces".toList 1 1 4 unitFactor n lines
  else if name = "OUTCAR".toList then forces "TOTAL-FORCE".toList 2 3 6 unitFactor n lines
  else .error .unboundLocal

end Interphon.Vasp
