import Verif.Model.Args
import Verif.Model.PreProcess

/-!
# Model of the command line, `InterPhon/interphon.py` (`scripts/interphon.py` is the same file)
-/

namespace Interphon.Cli
open Py Interphon Interphon.Args Interphon.PreProcess

/-! ### Option file, `interphon.py:307-398` -/

/-- What is done with the text of a value: kept, checked against a list, `int(…)`, `float(…)`. (Source: `interphon.py:320-398`.) -/
inductive Kind
  | text | choice (l : List Str) | int | float
deriving DecidableEq

/-- One branch of the `elif` chain: the accepted keys and the treatment of the value. (Source: `interphon.py:320-398`.) -/
structure OptSpec where
  names : List Str
  kind : Kind

/-- The `elif` chain, `interphon.py:320-398`, in source order. -/
def optTable : List OptSpec := [
  ⟨["dft".toList, "dft_code".toList], .choice ["vasp".toList, "espresso".toList, "aims".toList]⟩,
  ⟨["displacement".toList, "disp".toList], .text⟩,
  ⟨["enlargement".toList, "enlarge".toList], .text⟩,
  ⟨["periodicity".toList, "pbc".toList], .text⟩,
  ⟨["unitcell".toList, "c".toList], .text⟩,
  ⟨["supercell".toList, "sc".toList], .text⟩,
  ⟨["kpoint_dos".toList, "kdos".toList], .text⟩,
  ⟨["sigma".toList, "sig".toList], .float⟩,
  ⟨["number_dos".toList, "ndos".toList], .int⟩,
  ⟨["projection_atom_dos".toList, "atom_dos".toList], .text⟩,
  ⟨["projection_legend_dos".toList, "legend_dos".toList], .text⟩,
  ⟨["energy_limit".toList, "elimit".toList], .text⟩,
  ⟨["tdos_color_dos".toList, "color_dos".toList], .text⟩,
  ⟨["projection_option_dos".toList, "option_dos".toList], .choice ["plain".toList, "line".toList, "stack".toList]⟩,
  ⟨["image_orientation_dos".toList, "orientation_dos".toList], .choice ["horizontal".toList, "vertical".toList]⟩,
  ⟨["legend_location_dos".toList, "legend_loc_dos".toList], .choice ["best".toList, "upper right".toList, "upper left".toList,
    "lower left".toList, "lower right".toList, "right".toList, "center left".toList, "center right".toList, "lower center".toList,
    "upper center".toList, "center".toList]⟩,
  ⟨["temperature_minimum".toList, "tmin".toList], .int⟩,
  ⟨["temperature_maximum".toList, "tmax".toList], .int⟩,
  ⟨["temperature_step".toList, "tstep".toList], .int⟩,
  ⟨["kpoint_band".toList, "kband".toList], .text⟩,
  ⟨["kpoint_label_band".toList, "k_label_band".toList], .text⟩,
  ⟨["projection_atom_band".toList, "atom_band".toList], .text⟩,
  ⟨["total_color_band".toList, "color_band".toList], .text⟩,
  ⟨["projection_option_band".toList, "option_band".toList], .choice ["plain".toList, "projection".toList]⟩,
  ⟨["colorbar_label_band".toList, "bar_label_band".toList], .text⟩,
  ⟨["colorbar_location_band".toList, "bar_loc_band".toList], .choice ["right".toList, "bottom".toList]⟩,
  ⟨["index_mode".toList, "ind_mode".toList], .text⟩,
  ⟨["k_point_mode".toList, "kpt_mode".toList], .text⟩,
  ⟨["displacement_amplitude_mode".toList, "disp_amp_mode".toList], .text⟩]

/-- The options that the file can change: number in `optTable` ↦ value (initially those of the command line). (Source: `interphon.py:117-306`.) -/
abbrev Opts := ℕ → PyAtom

/-- `line.strip().split('#')[0]`, then `key` and `value`, `interphon.py:312-317`; `none` for a line that is skipped.
`'…'.split('=')[1]` is an `IndexError` without `=`.  (`str.lower` restricted to ASCII.) -/
def parseLine (line : Str) : Run (Option (Str × Str)) :=
  let l := (splitOn '#' (strip line)).headD []
  if l = [] then .ok none
  else match splitOn '=' (strip l) with
    | k :: v :: _ => .ok (some ((strip k).map Char.toLower, strip v))
    | _ => .error .indexError

/-- `arg_dict[key] = value`: an existing key keeps its place. (Source: `interphon.py:317`.) -/
def dictSet : List (Str × Str) → Str → Str → List (Str × Str)
  | [], k, v => [(k, v)]
  | (k', v') :: d, k, v => if k' = k then (k', v) :: d else (k', v') :: dictSet d k v

/-- The loop over the lines, `interphon.py:311-317`. -/
def readDict : List Str → List (Str × Str) → Run (List (Str × Str))
  | [], d => .ok d
  | line :: rest, d => match parseLine line with
    | .error e => .error e
    | .ok none => readDict rest d
    | .ok (some (k, v)) => readDict rest (dictSet d k v)

/-- The value stored by a branch of the chain. (Source: `interphon.py:320-398`.) -/
def convert : Kind → Str → Run PyAtom
  | .text, v => .ok (.str v)
  | .choice l, v => if v ∈ l then .ok (.str v) else .error .exception
  | .int, v => match parseInt v with
    | some i => .ok (.int i)
    | none => .error .valueError
  | .float, v => match parseFloat v with
    | some q => .ok (.float q)
    | none => .error .valueError

/-- One pass of the chain, `interphon.py:320-398`: the first branch that knows the key; unknown keys fall through. -/
def applyOption (o : Opts) (k v : Str) : Run Opts :=
  match optTable.findIdx? (fun s => decide (k ∈ s.names)) with
  | none => .ok o
  | some i => match convert ((optTable[i]?.map OptSpec.kind).getD .text) v with
    | .error e => .error e
    | .ok a => .ok (Function.update o i a)

/-- The loop over `arg_dict.items()`, `interphon.py:319`. -/
def applyAll : Opts → List (Str × Str) → Run Opts
  | o, [] => .ok o
  | o, (k, v) :: d => match applyOption o k v with
    | .error e => .error e
    | .ok o' => applyAll o' d

/-- The whole option file, `interphon.py:307-398`. -/
def readOptions (o : Opts) (lines : List Str) : Run Opts :=
  match readDict lines [] with
  | .error e => .error e
  | .ok d => applyAll o d

/-! ### Arguments of pre- and post-process, `interphon.py:400-484`, `:640-692` -/

/-- `os.path.abspath(p)` in the directory `cwd` (without normalisation of `.`, `..` and repeated slashes). (Source: `interphon.py:418,483-484`.) -/
def absPath (cwd p : Str) : Str := if p.head? = some '/' then p else cwd ++ '/' :: p

/-- `os.path.basename(p)`: the part after the last slash. (Source: `interphon.py:428,526,674,684`.) -/
def baseName (p : Str) : Str := (p.reverse.takeWhile (· ≠ '/')).reverse

/-- `os.path.dirname(p)`: the part before the last slash (the root directory is not modelled). (Source: `interphon.py:69,80,97,108,419`.) -/
def dirName (p : Str) : Str := ((p.reverse.dropWhile (· ≠ '/')).drop 1).reverse

/-- Command-line values used by the pre-process. (Source: `interphon.py:133-160`.) -/
structure PreOpts where
  dft : Str := "vasp".toList
  displacement : Str := "0.02".toList
  enlargement : Str := "2 2 1".toList
  periodicity : Str := "1 1 0".toList
  unitcell : Str := "POSCAR".toList
  sym : Bool := true

/-- `user_args` of the pre-process, `interphon.py:413-416`. -/
def PreOpts.dict (o : PreOpts) : List (Str × PyVal) :=
  [("dft_code".toList, .atom (.str o.dft)), ("displacement".toList, .atom (.str o.displacement)),
   ("enlargement".toList, .atom (.str o.enlargement)), ("periodicity".toList, .atom (.str o.periodicity))]

/-- What `pre_process.yaml` holds for the post-process, `interphon.py:653-655` and `:684-690`.  (YAML itself is not modelled: a record is
read back as it was written.) -/
structure PreRecord where
  unitCellFile : Str
  supercellFile : Str
  dft : Str
  pointGroup : Option Str
  displacement : Option ℚ
  enlargement : Str
  periodicity : Str

/-- `' '.join([str(_) for _ in l])`. (Source: `interphon.py:654-655`.) -/
def joinInts : List ℤ → Str
  | [] => []
  | [i] => intStr i
  | i :: is => intStr i ++ ' ' :: joinInts is

/-- The record, `interphon.py:653-655` and `:684-690`; iterating over `None` is a `TypeError`. -/
def preRecord (cwd : Str) (o : PreOpts) (a : PreArg) (pointGroup : Option Str) : Run PreRecord :=
  match a.enlargement, a.periodicity with
  | some e, some p => .ok ⟨baseName (absPath cwd o.unitcell), "SUPERCELL".toList, o.dft, pointGroup, a.displacement, joinInts e, joinInts p⟩
  | _, _ => .error .typeError

/-- Where the pre-process reads the unit cell and writes the super cell, `interphon.py:418-419`, `:667-672`. -/
def preFiles (cwd : Str) (o : PreOpts) : Str × Str :=
  (absPath cwd o.unitcell, dirName (absPath cwd o.unitcell) ++ '/' :: "SUPERCELL".toList)

/-- `pre.sym.point_group` after `write_displace_cell`, core/pre_process.py:137-151 and util/symmetry.py:80: set by a successful search only; `search`
is the outcome of `search_point_group`. -/
def prePointGroup (symFlag : Bool) (p : Fin 3 → ℤ) (search : Run Str) : Run (Option Str) :=
  if symFlag && numPbc p == 2 then
    match search with
    | .error .cannotSearchPointGroup => .error .attributeError
    | .error e => .error e
    | .ok name => .ok (some name)
  else .ok none

/-- Command-line values used by the post-process (click's defaults). (Source: `interphon.py:128-165`.) -/
structure PostOpts where
  dft : Str := "vasp".toList
  displacement : Str := "0.02".toList
  enlargement : Str := "2 2 1".toList
  periodicity : Str := "1 1 0".toList
  unitcell : Str := "POSCAR".toList
  supercell : Option Str := none
  sym : Bool := true

/-- What the post-process goes on with: `user_args`, the two cell files and the symmetry flag. (Source: `interphon.py:443-484`.) -/
structure PostArgs where
  dft : Str
  displacement : PyVal
  enlargement : PyVal
  periodicity : PyVal
  unitCellFile : Str
  superCellFile : Str
  sym : Bool

/-- `interphon.py:443-483`. -/
def postResolve (cwd : Str) (o : PostOpts) (r : PreRecord) : PostArgs :=
  let unitcell := if o.unitcell = "POSCAR".toList then r.unitCellFile else o.unitcell
  let supercell := match o.supercell with
    | none => r.supercellFile
    | some f => f
  { dft := if o.dft = "vasp".toList then r.dft else o.dft
    displacement := if o.displacement = "0.02".toList then .atom (match r.displacement with
      | none => .none
      | some q => .float q) else .atom (.str o.displacement)
    enlargement := if o.enlargement = "2 2 1".toList then .atom (.str r.enlargement) else .atom (.str o.enlargement)
    periodicity := if o.periodicity = "1 1 0".toList then .atom (.str r.periodicity) else .atom (.str o.periodicity)
    unitCellFile := absPath cwd unitcell
    superCellFile := absPath cwd supercell
    sym := if o.sym then (if r.pointGroup = none then false else true) else (if r.pointGroup ≠ none then true else false) }

/-- `user_args` of the post-process, `interphon.py:472-475`. -/
def PostArgs.dict (a : PostArgs) : List (Str × PyVal) :=
  [("dft_code".toList, .atom (.str a.dft)), ("displacement".toList, a.displacement), ("enlargement".toList, a.enlargement),
   ("periodicity".toList, a.periodicity)]

/-! ### Which analyses run, `interphon.py:477-501`, `:587`, `:702-858` -/

/-- The analyses. (Source: `interphon.py:702-858`.) -/
inductive Analysis
  | dos | thermal | band | mode
  deriving DecidableEq

/-- The control flow of the post-process, `interphon.py:477-501`, `:587` and `:702-858`: flags `-dos`, `-thermal`, `-band`, `-mode`, the two k-point files, and the outcome of the common steps
(`PostProcess`, `set_user_arg`, `check_file_order`, `set_force_constant`).  `dos_args['legend_loc']` is a `KeyError` without DOS (line 587);
`os.path.basename(None)` is a `TypeError` (lines 734, 804). (Errors inside the analyses are not part of this function.) -/
def analyses (dos thermal band mode : Bool) (kdos kband : Option Str) (common : Run Unit) : Run (List Analysis) :=
  if kdos = none ∧ kband = none then .error .exception
  else
    let dosFlag := dos || kdos.isSome
    let bandFlag := band || kband.isSome
    if thermal && !dosFlag then .error .keyError
    else match (if dosFlag then (match common with
          | .error e => .error e
          | .ok () => if kdos = none then .error .typeError else .ok (Analysis.dos :: if thermal then [Analysis.thermal] else []))
        else .ok [] : Run (List Analysis)) with
      | .error e => .error e
      | .ok l => match (if bandFlag then (match common with
            | .error e => .error e
            | .ok () => if kband = none then .error .typeError else .ok (Analysis.band :: if mode then [Analysis.mode] else []))
          else .ok [] : Run (List Analysis)) with
        | .error e => .error e
        | .ok l' => .ok (l ++ l')

/-! ### DOS arguments, `interphon.py:529-580` -/

/-- `[int(value) for value in s.strip().split()]`. (Source: `interphon.py:549,576,611,620,630`.) -/
def intList (s : Str) : Run (List ℤ) := intsOf ((split (strip s)).map .str)

/-- `atom_dos`, `interphon.py:546-550`. -/
def atomGroups (s : Str) : Run (List (List ℤ)) := (splitOn ',' (strip s)).mapM intList

/-- `dos_args['option']`, `['atom']` and `['legend']`, `interphon.py:538-570`. -/
structure DosArgs where
  option : Str
  atoms : Option (List (List ℤ))
  legend : Option (List Str)
  elimit : Option (List ℤ)
  deriving DecidableEq

/-- `interphon.py:538-580`.  `len(None)` is a `TypeError`, but with `atom_dos` missing the option has become `plain`. -/
def dosArgs (option : Str) (atom legend elimit : Option Str) : Run DosArgs :=
  let opt := if atom = none ∧ option ≠ "plain".toList then "plain".toList else option
  match (match atom with
      | none => .ok none
      | some s => (atomGroups s).map some : Run (Option (List (List ℤ)))) with
  | .error e => .error e
  | .ok groups =>
    match (match legend with
        | none => .ok none
        | some s =>
          let l := (splitOn ',' (strip s)).map strip
          if opt = "plain".toList then .ok none
          else match groups with
            | none => .error .typeError
            | some g => if l.length = g.length then .ok (some l) else .error .exception : Run (Option (List Str))) with
    | .error e => .error e
    | .ok leg =>
      match (match elimit with
          | none => .ok none
          | some s => match intList s with
            | .error e => .error e
            | .ok l => if l.length = 2 then .ok (some l) else .error .exception : Run (Option (List ℤ))) with
      | .error e => .error e
      | .ok el => .ok ⟨opt, groups, leg, el⟩

/-! ### Force files, `interphon.py:503-515` -/

/-- `files['force_file']`, `interphon.py:503-515`.  Several arguments are used in the order given; a single one is a pattern: `glob.glob` (any order, here
the parameter `glob`) followed by `sort` (code point order).  Without argument `force_files` is the empty tuple, and `force_files[0]` an `IndexError`. -/
def forceFiles (glob : Str → List Str) (args : List Str) : Run (List Str) :=
  if 1 < args.length then .ok args
  else match getE args 0 with
    | .error e => .error e
    | .ok a =>
      let l := (glob a).mergeSort (fun x y => decide (¬ y < x))
      if l = [] then .error .exception else .ok l

/-! ### Thermal, band and mode arguments, `interphon.py:582-638` -/

/-- `range(start, stop, step)`, `interphon.py:586`; a zero step is a `ValueError`. -/
def pyRange (start stop step : ℤ) : Run (List ℤ) :=
  if step = 0 then .error .valueError
  else if 0 < step then .ok ((List.range ((stop - start + step - 1) / step).toNat).map fun (k : ℕ) => start + step * (k : ℤ))
  else .ok ((List.range ((start - stop + (-step) - 1) / (-step)).toNat).map fun (k : ℕ) => start + step * (k : ℤ))

/-- The filled `band_args`, `interphon.py:591-623` (colours and bar options are passed on unchanged). -/
structure BandArgs where
  option : Str
  atoms : Option (List ℤ)
  kLabels : List Str
  elimit : Option (List ℤ)
  deriving DecidableEq

/-- `band_args['k_label']`, `interphon.py:596-599`. -/
def bandLabels : Option Str → List Str
  | none => []
  | some s => split (strip s)

/-- `band_args['atom']`, `interphon.py:601-611`. -/
def bandAtoms : Option Str → Run (Option (List ℤ))
  | none => .ok none
  | some s => (intList s).map some

/-- `band_args['elimit']`, `interphon.py:613-623`.  `dosElimit` is `dos_args.get('elimit')`: the window accepted for the DOS, `none` if no DOS is asked for. -/
def bandWindow (dosElimit : Option (List ℤ)) : Option Str → Run (Option (List ℤ))
  | none => .ok none
  | some s => match dosElimit with
    | some l => .ok (some l)
    | none => match intList s with
      | .error e => .error e
      | .ok l => if l.length = 2 then .ok (some l) else .error .exception

/-- `interphon.py:591-623`. -/
def bandArgs (option : Str) (atom kLabel elimit : Option Str) (dosElimit : Option (List ℤ)) : Run BandArgs :=
  match bandAtoms atom with
  | .error e => .error e
  | .ok atoms => match bandWindow dosElimit elimit with
    | .error e => .error e
    | .ok el => .ok ⟨if atom = none ∧ option ≠ "plain".toList then "plain".toList else option, atoms, bandLabels kLabel, el⟩

/-- The filled `mode_args`, `interphon.py:626-638`. -/
structure ModeArgs where
  index : List ℤ
  kPoint : List ℚ
  writeDisp : Bool
  amplitude : PyAtom
  deriving DecidableEq

/-- `[float(kpt) for kpt in kpt_mode.strip().split()]`. (Source: `interphon.py:631`.) -/
def floatList (s : Str) : Run (List ℚ) := (split (strip s)).mapM fun t => match parseFloat t with
  | some q => .ok q
  | none => .error .valueError

/-- `interphon.py:627-637`. -/
def modeArgs (ind kpt : Str) (writeDisp : Bool) (amplitude : PyAtom) : Run ModeArgs :=
  match intList ind with
  | .error e => .error e
  | .ok idx => match floatList kpt with
    | .error e => .error e
    | .ok k => if k.length = 3 then .ok ⟨idx, k, writeDisp, amplitude⟩ else .error .exception

/-- `amplitude * _phase_factor`, analysis/mode.py:198: a number multiplies the array, a string is rejected by numpy (`UFuncTypeError`, a `TypeError`). -/
def amplitudeFactor : PyAtom → Run ℚ
  | .float q => .ok q
  | .int i => .ok (i : ℚ)
  | .bool b => .ok (if b then 1 else 0)
  | _ => .error .typeError

/-! ### The record of the unit cell, `interphon.py:16-30`, `:657-662` -/

/-- `'{0:>20.16f}, {1:>20.16f}, {2:20.16f}'.format(v[0], v[1], v[2]).strip()`, `interphon.py:18,27`. -/
def position16 (v : V3 ℚ) : Str :=
  strip (padLeft ' ' 20 (fmtFixed 16 (v 0)) ++ ", ".toList ++ padLeft ' ' 20 (fmtFixed 16 (v 1)) ++ ", ".toList ++ padLeft ' ' 20 (fmtFixed 16 (v 2)))

/-- One entry of the list `atoms`. (Source: `interphon.py:22-30`.) -/
structure AtomEntry where
  index : ℕ
  type : Str
  position : Str
  selection : Bool
  deriving DecidableEq

/-- `iter_lattice_yaml`, `interphon.py:16-19`. -/
def iterLattice (L : M3 ℚ) : List (Str × Str) := (List.finRange 3).map fun (i : Fin 3) => ('a' :: natStr ((i : ℕ) + 1), position16 (L i))

/-- `iter_atom_yaml`, `interphon.py:22-30`; `ind in None` is a `TypeError`. -/
def iterAtoms (c : Cell ℚ) : Run (List AtomEntry) :=
  c.atomType.zipIdx.mapM fun t => match getE c.cart t.2 with
    | .error e => .error e
    | .ok v => match c.atomTrue with
      | none => .error .typeError
      | some l => .ok ⟨t.2, t.1, position16 v, decide (t.2 ∈ l)⟩

/-- `{'num_atom': …}` and `{'selected_atom_index': ', '.join(…)}`, `interphon.py:660-661`. -/
def joinComma : List ℕ → Str
  | [] => []
  | [i] => natStr i
  | i :: is => natStr i ++ ", ".toList ++ joinComma is

/-! ### `check_file_order`, `interphon.py:32-113` -/

section
variable {K : Type*} [Field K] [LinearOrder K]

/-- `np.allclose(a, b)` for two position arrays (default tolerances, `|a - b| ≤ 1e-08 + 1e-05 |b|`).  Arrays of different lengths raise
`ValueError` (broadcasting of a one-row array is not modelled). (Source: `interphon.py:71,82,100,111`.) -/
def allClose (a b : List (V3 K)) : Run Bool :=
  if a.length ≠ b.length then .error .valueError
  else .ok (decide (∀ i < a.length, ∀ c, isClose rtolDefault atolDefault (a.getD i 0 c) (b.getD i 0 c)))

/-- One comparison, `interphon.py:65-71` etc.: the structure read from the directory of force file number `k`. -/
def checkOne (expected : List (V3 K)) (structs : List (List (V3 K))) (k : ℕ) : Run Unit :=
  match getE structs k with
  | .error e => .error e
  | .ok c => match allClose expected c with
    | .error e => .error e
    | .ok b => if b then .ok () else .error .assertionError

/-- `_dis_super_position[row, 0:3] = …`, `interphon.py:65,76,94,105`. -/
def setPos (pos : List (V3 K)) (row : ℕ) (v : V3 K) : Run (List (V3 K)) :=
  if row < pos.length then .ok (pos.set row v) else .error .indexError

/-- The body of the loops: forward, compare with file `num`, backward, compare with file `num + 1`. (Source: `interphon.py:63-86,92-113`.) -/
def checkPair (d : K) (cur : List (V3 K)) (structs : List (List (V3 K))) (row num : ℕ) (disp : V3 K) (pos : List (V3 K)) : Run (List (V3 K)) :=
  match getE cur row with
  | .error e => .error e
  | .ok v => match setPos pos row (fun c => v c + d * disp c) with
    | .error e => .error e
    | .ok p1 => match checkOne p1 structs num with
      | .error e => .error e
      | .ok () => match setPos p1 row (fun c => v c - d * disp c) with
        | .error e => .error e
        | .ok p2 => match checkOne p2 structs (num + 1) with
          | .error e => .error e
          | .ok () => .ok p2

/-- Inner loop without symmetry, `interphon.py:92-113`. -/
def checkDirs (d : K) (cur : List (V3 K)) (structs : List (List (V3 K))) (row i : ℕ) : ℕ → List (V3 K) → List (V3 K) → Run (List (V3 K))
  | _, [], pos => .ok pos
  | j, disp :: rest, pos => match checkPair d cur structs row (6 * i + 2 * j) disp pos with
    | .error e => .error e
    | .ok pos' => checkDirs d cur structs row i (j + 1) rest pos'

/-- Outer loop without symmetry, `interphon.py:89-113`. -/
def checkAtoms (d : K) (cur : List (V3 K)) (structs : List (List (V3 K))) (E : ℕ) : ℕ → List ℕ → Run Unit
  | _, [] => .ok ()
  | i, t :: rest => match checkDirs d cur structs (E * t) i 0 eye3 cur with
    | .error e => .error e
    | .ok _ => checkAtoms d cur structs E (i + 1) rest

/-- Inner loop with symmetry, `interphon.py:58-86`. -/
def checkSymDirs (d : K) (cur : List (V3 K)) (structs : List (List (V3 K))) (row : ℕ) : ℕ → List (V3 K) → List (V3 K) → Run ℕ
  | k, [], _ => .ok k
  | k, disp :: rest, pos => match checkPair d cur structs row (2 * k) disp pos with
    | .error e => .error e
    | .ok pos' => checkSymDirs d cur structs row (k + 1) rest pos'

/-- Outer loop with symmetry, `interphon.py:49-86`. -/
def checkSymAtoms (d : K) (cur : List (V3 K)) (structs : List (List (V3 K))) : ℕ → List (ℕ × List (V3 K)) → Run Unit
  | _, [] => .ok ()
  | k, (row, dirs) :: rest => match checkSymDirs d cur structs row k dirs cur with
    | .error e => .error e
    | .ok k' => checkSymAtoms d cur structs k' rest

/-- `check_file_order`, `interphon.py:32-113`.  `structs` are the positions read by `read_unit_cell` from the directories of the force files, in
the order of the force files; `search` is the outcome of the symmetry search (no exception is caught here). -/
def checkFileOrder (s : Cell K) (sel : List ℕ) (E : ℕ) (d : K) (symFlag : Bool) (search : Run (List (ℕ × List (V3 K))))
    (structs : List (List (V3 K))) : Run Unit :=
  if symFlag then
    match search with
    | .error e => .error e
    | .ok plan => checkSymAtoms d s.cart structs 0 plan
  else checkAtoms d s.cart structs E 0 sel

end

end Interphon.Cli
