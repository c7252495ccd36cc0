import Verif.Model.Main

/-!
# The record of the post-process, `post_process.yaml` (`InterPhon/interphon.py:442-638` and `:857-904`)

YAML itself is not modelled: the record is the tree of values handed to `yaml.dump`.
-/

namespace Interphon.Cli
open Py Interphon Interphon.Args

/-- The values found in `dos_args`, `thermal_args`, `band_args` and `mode_args`. (Source: `interphon.py:477-638`.) -/
inductive ArgValue
  | none | bool (b : Bool) | int (i : ℤ) | float (q : ℚ) | str (s : Str) | ints (l : List ℤ) | floats (l : List ℚ) | groups (l : List (List ℤ))
  | words (l : List Str) | range (start stop step : ℤ)
  deriving DecidableEq

/-- `str(range(start, stop, step))`; a step of one is not shown. (Source: `interphon.py:587,875`.) -/
def rangeText (a b c : ℤ) : Str :=
  "range(".toList ++ intStr a ++ ", ".toList ++ intStr b ++ (if c = 1 then [] else ", ".toList ++ intStr c) ++ ")".toList

/-- What is recorded of a value: booleans, numbers and lists as they are, everything else as `str(value)`. (Source: `interphon.py:865-895`.) -/
def recordValue : ArgValue → ArgValue
  | .none => .str "None".toList
  | .range a b c => .str (rangeText a b c)
  | v => v

/-- A dictionary of arguments, in the order of insertion, as it is recorded. (Source: `interphon.py:864-895`.) -/
def recordArgs (l : List (Str × ArgValue)) : List (Str × ArgValue) := l.map fun p => (p.1, recordValue p.2)

/-- `None` or a value. (Source: `interphon.py:540-638`.) -/
def optional {α : Type} (f : α → ArgValue) : Option α → ArgValue
  | Option.none => .none
  | Option.some a => f a

/-- The options of the four analyses, on the command line or in the option file. (Source: `interphon.py:166-303`.) -/
structure AnalysisOpts where
  dos : Bool := false
  thermal : Bool := false
  band : Bool := false
  mode : Bool := false
  kdos : Option Str := none
  kband : Option Str := none
  sigma : ℚ := 1 / 10
  num : ℤ := 200
  colorDos : Str := "tab:orange".toList
  optionDos : Str := "plain".toList
  orientation : Str := "horizontal".toList
  legendLoc : Str := "best".toList
  atomDos : Option Str := none
  legend : Option Str := none
  elimit : Option Str := none
  tmin : ℤ := 0
  tmax : ℤ := 1000
  tstep : ℤ := 10
  colorBand : Str := "tab:orange".toList
  optionBand : Str := "plain".toList
  barLoc : Str := "right".toList
  barLabel : Option Str := none
  kLabel : Option Str := none
  atomBand : Option Str := none
  index : Str := "0".toList
  kMode : Str := "0.0 0.0 0.0".toList
  writeDisp : Bool := false
  amplitude : PyAtom := .float 1

/-- `dos_args['flag']`: the flag, or a k-point file for the density of states. (Source: `interphon.py:477,494-500`.) -/
def AnalysisOpts.dosFlag (o : AnalysisOpts) : Bool := o.dos || o.kdos.isSome

/-- `band_args['flag']`: the flag, or a k-point file for the bands. (Source: `interphon.py:479,491-500`.) -/
def AnalysisOpts.bandFlag (o : AnalysisOpts) : Bool := o.band || o.kband.isSome

/-- The filled `dos_args` and `dos_args.get('elimit')`, interphon.py:477 and 529-580. -/
def dosDict (o : AnalysisOpts) : Run (List (Str × ArgValue) × Option (List ℤ)) :=
  if o.dosFlag then
    match dosArgs o.optionDos o.atomDos o.legend o.elimit with
    | .error e => .error e
    | .ok a => .ok ([("flag".toList, .bool true), ("sigma".toList, .float o.sigma), ("num_dos".toList, .int o.num), ("color".toList, .str o.colorDos),
        ("option".toList, .str a.option), ("orientation".toList, .str o.orientation), ("legend_loc".toList, .str o.legendLoc),
        ("atom".toList, optional .groups a.atoms), ("legend".toList, optional .words a.legend), ("elimit".toList, optional .ints a.elimit)], a.elimit)
  else .ok ([("flag".toList, .bool false)], none)

/-- The filled `thermal_args`, interphon.py:478 and 584-589; a zero step is a `ValueError`, `dos_args['legend_loc']` a `KeyError` without DOS. -/
def thermalDict (o : AnalysisOpts) : Run (List (Str × ArgValue)) :=
  if o.thermal then
    match pyRange o.tmin o.tmax o.tstep with
    | .error e => .error e
    | .ok _ => if o.dosFlag then .ok [("flag".toList, .bool true), ("temp".toList, .range o.tmin o.tmax o.tstep), ("legend_loc".toList, .str o.legendLoc)]
      else .error .keyError
  else .ok [("flag".toList, .bool false)]

/-- The value of an option that is text or a number. (Source: `interphon.py:637`.) -/
def atomValue : PyAtom → ArgValue
  | .int i => .int i
  | .bool b => .bool b
  | .float q => .float q
  | .str s => .str s
  | .none => .none

/-- The filled `band_args`, interphon.py:479 and 591-624; `w` is `dos_args.get('elimit')`. -/
def bandDict (o : AnalysisOpts) (w : Option (List ℤ)) : Run (List (Str × ArgValue)) :=
  if o.bandFlag then
    match bandArgs o.optionBand o.atomBand o.kLabel o.elimit w with
    | .error e => .error e
    | .ok b => .ok [("flag".toList, .bool true), ("color".toList, .str o.colorBand), ("option".toList, .str b.option), ("bar_loc".toList, .str o.barLoc),
        ("bar_label".toList, optional .str o.barLabel), ("k_label".toList, .words b.kLabels), ("atom".toList, optional .ints b.atoms),
        ("elimit".toList, optional .ints b.elimit)]
  else .ok [("flag".toList, .bool false)]

/-- The filled `mode_args`, interphon.py:480 and 626-638. -/
def modeDict (o : AnalysisOpts) : Run (List (Str × ArgValue)) :=
  if o.mode then
    match modeArgs o.index o.kMode o.writeDisp o.amplitude with
    | .error e => .error e
    | .ok m => .ok [("flag".toList, .bool true), ("index".toList, .ints m.index), ("k_point".toList, .floats m.kPoint), ("write_disp".toList, .bool m.writeDisp),
        ("displacement_amplitude".toList, atomValue m.amplitude)]
  else .ok [("flag".toList, .bool false)]

/-- A recorded file: a name, or the list of the force files. (Source: `interphon.py:857-862`.) -/
inductive FileEntry
  | name (s : Str) | list (l : List Str)
  deriving DecidableEq

/-- The dictionary `files`, interphon.py:482-515. -/
def postFiles (cwd : Str) (a : PostArgs) (o : AnalysisOpts) (force : List Str) : List (Str × FileEntry) :=
  [("unit_cell_file".toList, .name a.unitCellFile), ("super_cell_file".toList, .name a.superCellFile)]
    ++ (match o.kdos with | none => [] | some k => [("k_point_file_dos".toList, .name (absPath cwd k))])
    ++ (match o.kband with | none => [] | some k => [("k_point_file_band".toList, .name (absPath cwd k))])
    ++ [("force_file".toList, .list force)]

/-- The content of `post_process.yaml`. (Source: `interphon.py:896-902`.) -/
structure PostRecord where
  files : List (Str × FileEntry)
  dft : Str
  displacement : Option ℚ
  enlargement : Str
  periodicity : Str
  dos : List (Str × ArgValue)
  thermal : List (Str × ArgValue)
  band : List (Str × ArgValue)
  mode : List (Str × ArgValue)
  deriving DecidableEq

/-- A path is recorded without its directories. (Source: `interphon.py:857-862`.) -/
def recordFile : FileEntry → FileEntry
  | .name s => .name (baseName s)
  | .list l => .list l

/-- The checks of lines 486-515 and the four dictionaries, then the record, interphon.py:486-638 and 857-902.  `u` are the user arguments stored in the process (lines 709-711,
780-782), `a` the resolved arguments. -/
def postRecord (cwd : Str) (a : PostArgs) (u : PreArg) (o : AnalysisOpts) (glob : Str → List Str) (forceArgs : List Str) : Run PostRecord := do
  if o.kdos = none ∧ o.kband = none then .error .exception
  let force ← forceFiles glob forceArgs
  let d ← dosDict o
  let t ← thermalDict o
  let b ← bandDict o d.2
  let m ← modeDict o
  match u.enlargement, u.periodicity with
  | some e, some p =>
    .ok ⟨(postFiles cwd a o force).map fun x => (x.1, recordFile x.2), a.dft, u.displacement, joinInts e, joinInts p, recordArgs d.1, recordArgs t, recordArgs b, recordArgs m⟩
  | _, _ => .error .typeError

end Interphon.Cli
