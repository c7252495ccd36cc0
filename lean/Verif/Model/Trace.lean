import Verif.Model.Main

/-!
# The pre-process as a sequence of file writes

`Main.preMain` says what a complete run of the pre-process leaves behind.  Here the same program is written down with its effects in the order in which they happen, so that
one can ask what is on the disk if it is stopped (by an exception, by Ctrl-C, by the batch system) at any moment.  `Props/Interrupt.lean` proves that both agree for complete runs.
-/

noncomputable section

namespace Interphon.Main
open Py Interphon Interphon.Args Interphon.Inout Interphon.UnitCell Interphon.SuperCell Interphon.PreProcess Interphon.Cli

/-- An effect: a structure file or the record `pre_process.yaml` is written, core/unit_cell.py:301-302, 306-307, 311-312; interphon.py:692-693. -/
inductive Write
  | text (path content : Str)
  | record (r : PreRecord)

/-- A program with effects: what it writes, in order, and its value or the exception it ends with. (Source: `interphon.py:641-695`.) -/
structure Traced (α : Type) where
  writes : List Write
  result : Run α

/-- One statement after the other; after an exception nothing more is done. (Source: `interphon.py:641-695`.) -/
instance : Monad Traced where
  pure a := ⟨[], .ok a⟩
  bind m f := match m.result with
    | .error e => ⟨m.writes, .error e⟩
    | .ok a => ⟨m.writes ++ (f a).writes, (f a).result⟩

/-- A statement without effect on the disk. (Source: `core/pre_process.py:127-145`.) -/
def quiet {α : Type} (r : Run α) : Traced α := ⟨[], r⟩

/-- `cell.write_unit_cell(path, comment, code_name=code)`, core/unit_cell.py:286-312: the lines are made before the file is opened. -/
def traceTo (code : Str) (x : FileArgs) (path : Str) (c : Cell ℚ) : Traced Unit :=
  if code = "vasp".toList then match Vasp.writeInput c x.comment with
    | .error e => ⟨[], .error e⟩
    | .ok ls => ⟨[.text path ls.flatten], .ok ()⟩
  else if code = "espresso".toList then match Espresso.writeInput c x.species x.weight with
    | .error e => ⟨[], .error e⟩
    | .ok ls => ⟨[.text path ls.flatten], .ok ()⟩
  else if code = "aims".toList then match Aims.writeInput c with
    | .error e => ⟨[], .error e⟩
    | .ok ls => ⟨[.text path ls.flatten], .ok ()⟩
  else ⟨[], .ok ()⟩

/-- Forward and backward displacement, each written at once, core/pre_process.py:169-181 and 190-200. -/
def tracePair (code : Str) (x : ℕ → FileArgs) (out : Str) (d : ℚ) (cur : List (V3 ℚ)) (row num : ℕ) (disp : V3 ℚ) (c : Cell ℚ) : Traced (Cell ℚ) := do
  let v ← quiet (getE cur row)
  let c1 ← quiet (setRow c row (fun i => v i + d * disp i))
  traceTo code (x num) (fileName out num) c1
  let c2 ← quiet (setRow c1 row (fun i => v i - d * disp i))
  traceTo code (x (num + 1)) (fileName out (num + 1)) c2
  return c2

/-- Inner loop without symmetry, core/pre_process.py:188-200. -/
def traceDir (code : Str) (x : ℕ → FileArgs) (out : Str) (d : ℚ) (cur : List (V3 ℚ)) (row i : ℕ) : ℕ → List (V3 ℚ) → Cell ℚ → Traced (Cell ℚ)
  | _, [], c => return c
  | j, disp :: rest, c => do
    let c' ← tracePair code x out d cur row (6 * i + 2 * j + 1) disp c
    traceDir code x out d cur row i (j + 1) rest c'

/-- Outer loop without symmetry, core/pre_process.py:186-200. -/
def traceAtoms (code : Str) (x : ℕ → FileArgs) (out : Str) (d : ℚ) (cur : List (V3 ℚ)) (E : ℕ) : ℕ → List ℕ → Cell ℚ → Traced (Cell ℚ)
  | _, [], c => return c
  | i, t :: rest, c => do
    let c' ← traceDir code x out d cur (E * t) i 0 eye3 { c with cart := cur }
    traceAtoms code x out d cur E (i + 1) rest c'

/-- Inner loop with symmetry, core/pre_process.py:168-183. -/
def traceSymDir (code : Str) (x : ℕ → FileArgs) (out : Str) (d : ℚ) (cur : List (V3 ℚ)) (row : ℕ) : ℕ → List (V3 ℚ) → Cell ℚ → Traced (ℕ × Cell ℚ)
  | k, [], c => return (k, c)
  | k, disp :: rest, c => do
    let c' ← tracePair code x out d cur row (2 * k + 1) disp c
    traceSymDir code x out d cur row (k + 1) rest c'

/-- Outer loop with symmetry, core/pre_process.py:159-183. -/
def traceSymAtoms (code : Str) (x : ℕ → FileArgs) (out : Str) (d : ℚ) (cur : List (V3 ℚ)) : ℕ → List (ℕ × List (V3 ℚ)) → Cell ℚ → Traced (Cell ℚ)
  | _, [], c => return c
  | k, (row, dirs) :: rest, c => do
    let r ← traceSymDir code x out d cur row k dirs { c with cart := cur }
    traceSymAtoms code x out d cur r.1 rest r.2

/-- `write_displace_cell`, core/pre_process.py:114-200; the symmetry search comes before the first file. -/
def traceDisplace (code : Str) (x : ℕ → FileArgs) (out : Str) (s : Cell ℚ) (sel : List ℕ) (E : ℕ) (d : ℚ) (p : Fin 3 → ℤ) (symFlag : Bool)
    (search : Run (List (ℕ × List (V3 ℚ)))) : Traced (Cell ℚ) :=
  if symFlag && numPbc p == 2 then
    match search with
    | .error .cannotSearchPointGroup => ⟨[], .error .attributeError⟩
    | .error e => ⟨[], .error e⟩
    | .ok plan => traceSymAtoms code x out d s.cart 0 plan { s with selective := false }
  else traceAtoms code x out d s.cart E 0 sel { s with selective := false }

/-- The pre-process with its effects, interphon.py:400-431 and 640-695.  The arguments are joined to words and the selection is listed (lines 653-663) before the first file is
written; the record is the last file (lines 692-693). -/
def preTrace (cwd : Str) (o : PreOpts) (x : ℕ → FileArgs) (junk : ℕ → List (V3 ℚ)) (search : Run (List (ℕ × List (V3 ℚ)))) (group : Run Str) (fs : Fs) : Traced Unit := do
  let a := setUserArgument {} o.dict
  quiet (raising a.2)
  quiet (raising (checkUserArgument a.1))
  let _ ← quiet (preRecord cwd o a.1 none)
  let r := readFile fs o.dft (preFiles cwd o).1
  quiet (raising r.2)
  let u ← quiet (ofRaw r.1)
  let sel ← quiet (some? u.atomTrue)
  let s0 ← quiet (setSuperCellArg junk u a.1)
  let s ← quiet (setSuperIndTrue s0 u (vec a.1.enlargement) (vec a.1.periodicity))
  traceTo o.dft (x 0) (preFiles cwd o).2 s
  let d ← quiet (some? a.1.displacement)
  let pg ← quiet (prePointGroup o.sym (vec a.1.periodicity) group)
  let _ ← traceDisplace o.dft x (preFiles cwd o).1 s sel (enlarge (a.1.enlargement.getD []) (a.1.periodicity.getD [])).toNat d (vec a.1.periodicity) o.sym search
  let rec' ← quiet (preRecord cwd o a.1 pg)
  ⟨[.record rec'], .ok ()⟩

/-- What is found in `pre_process.yaml`: nothing, the beginning of a record, a complete record. (Source: `interphon.py:692-693`.) -/
inductive RecordFile
  | missing
  | damaged
  | complete (r : PreRecord)

/-- The working directory. (Source: the files opened by `interphon.py:667-693`.) -/
structure Disk where
  files : Fs
  record : RecordFile

/-- A finished write, core/unit_cell.py:301-302, 306-307, 311-312; interphon.py:692-693. -/
def perform (d : Disk) : Write → Disk
  | .text path t => { d with files := put d.files path t }
  | .record r => { d with record := .complete r }

end Interphon.Main
