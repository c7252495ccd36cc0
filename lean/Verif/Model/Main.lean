import Verif.Model.Cli
import Verif.Model.PostProcess
import Verif.Model.Band
import Verif.Model.Mode
import Verif.Model.Dos
import Verif.Model.Thermal
import Verif.Model.Vasp
import Verif.Model.Espresso
import Verif.Model.Aims

/-!
# The command-line program as a whole, `InterPhon/interphon.py:400-857`

The pre-process and the post-process (DOS, thermal properties, band, modes) as programs that read and write files.  A file system is a function
from absolute paths to texts; opening a file for writing always succeeds.  Options are taken after `click` and the option file have been evaluated
(Model/Cli.lean).  The record `pre_process.yaml` is a typed value (YAML itself is not modelled).  Pictures, messages and the record
`post_process.yaml` are left out (see Model/PostTrace.lean).
-/

noncomputable section

namespace Interphon.Main
open Py Interphon Interphon.Args Interphon.Inout Interphon.UnitCell Interphon.SuperCell Interphon.PreProcess Interphon.Cli Interphon.PostProcess
  Interphon.ForceConstant

/-- Texts by absolute path. (Source: the files opened by `core/unit_cell.py:245-312`.) -/
abbrev Fs := Str → Option Str

/-- `with open(path, 'w') as f: f.write(text)`, core/unit_cell.py:301-302, 306-307, 311-312. -/
def put (fs : Fs) (path text : Str) : Fs := fun q => if q = path then some text else fs q

/-- `open(path)` for reading, inout/vasp.py:16, espresso.py:16, aims.py:15. -/
def load (fs : Fs) (path : Str) : Run Str := match fs path with
  | none => .error .fileNotFound
  | some t => .ok t

/-- An exception leaves the program. (Source: `interphon.py:650-680`.) -/
def raising : Option PyErr → Run Unit
  | none => .ok ()
  | some e => .error e

/-- `cell.read_unit_cell(path, code_name=code)` on a new object, core/unit_cell.py:245-284. -/
def readFile (fs : Fs) (code path : Str) : UnitCell.Outcome :=
  readUnitCell {} code
    (fun _ => match load fs path with
      | .error e => .error e
      | .ok t => Vasp.readInput (readlines t))
    (fun _ => match load fs path with
      | .error e => .error e
      | .ok t => Espresso.readInput (readlines t))
    (fun _ => match load fs path with
      | .error e => .error e
      | .ok t => Aims.readInput (readlines t))

/-- The attributes of a cell object as validated arrays, core/unit_cell.py:85-93.  Working with an attribute that is still `None` (after a file in
an unknown format, for instance) raises; the model reports `TypeError`. -/
def ofRaw (r : RawCell) : Run (Cell ℚ) :=
  match r.lattice, r.atomType, r.numAtom, r.coordinate, r.cart with
  | some L, some t, some m, some c, some X => .ok {
      lattice := fun i j => (L.getD i []).getD j 0
      atomType := t
      numAtom := m
      selective := r.selective
      coordinate := c
      cart := X.map fun v => ![v.getD 0 0, v.getD 1 0, v.getD 2 0]
      atomTrue := r.atomTrue.map fun l => l.map Int.toNat
      xyzTrue := r.xyzTrue.map fun l => l.map Int.toNat }
  | _, _, _, _, _ => .error .typeError

/-- What a written file contains besides the structure: the comment line (vasp); the order in which the set of species is listed and the texts of the
atomic weights (espresso), inout/vasp.py:116-158, espresso.py:140-187. -/
structure FileArgs where
  comment : Str
  species : List Str
  weight : Str → Str

/-- `cell.write_unit_cell(path, comment, code_name=code)`, core/unit_cell.py:286-312: nothing is written for an unknown code. -/
def writeTo (fs : Fs) (code : Str) (x : FileArgs) (path : Str) (c : Cell ℚ) : Run Fs :=
  if code = "vasp".toList then match Vasp.writeInput c x.comment with
    | .error e => .error e
    | .ok ls => .ok (put fs path ls.flatten)
  else if code = "espresso".toList then match Espresso.writeInput c x.species x.weight with
    | .error e => .error e
    | .ok ls => .ok (put fs path ls.flatten)
  else if code = "aims".toList then match Aims.writeInput c with
    | .error e => .error e
    | .ok ls => .ok (put fs path ls.flatten)
  else .ok fs

/-- The displaced files, core/pre_process.py:173-200, written one after the other (in the source they are written inside the loops that create them). -/
def writeAll (code : Str) (x : ℕ → FileArgs) (out : Str) : Fs → List (ℕ × Cell ℚ) → Run Fs
  | fs, [] => .ok fs
  | fs, f :: rest => match writeTo fs code (x f.1) (fileName out f.1) f.2 with
    | .error e => .error e
    | .ok fs' => writeAll code x out fs' rest

/-- Element `i` of an accepted argument, `user_arg.enlargement[i]`. (Source: `core/super_cell.py:61-71`.) -/
def vec (l : Option (List ℤ)) : Fin 3 → ℤ := fun i => (l.getD []).getD i 0

/-- `None * displace` and `len(None)` raise `TypeError`. (Source: `core/pre_process.py:186,192`.) -/
def some? {α : Type} : Option α → Run α
  | none => .error .typeError
  | some a => .ok a

/-- The pre-process, interphon.py:400-431 and 640-692.  `x k` belongs to displaced file number `k` (`x 0` to the super-cell file), `junk` is the
content of `np.empty`, `search` and `group` are the outcomes of the symmetry search (used only if it is asked for). -/
def preMain (cwd : Str) (o : PreOpts) (x : ℕ → FileArgs) (junk : ℕ → List (V3 ℚ)) (search : Run (List (ℕ × List (V3 ℚ)))) (group : Run Str) (fs : Fs) :
    Run (Fs × PreRecord) := do
  let a := setUserArgument {} o.dict
  raising a.2
  raising (checkUserArgument a.1)
  let r := readFile fs o.dft (preFiles cwd o).1
  raising r.2
  let u ← ofRaw r.1
  let s0 ← setSuperCellArg junk u a.1
  let s ← setSuperIndTrue s0 u (vec a.1.enlargement) (vec a.1.periodicity)
  let fs1 ← writeTo fs o.dft (x 0) (preFiles cwd o).2 s
  let sel ← some? u.atomTrue
  let d ← some? a.1.displacement
  let pg ← prePointGroup o.sym (vec a.1.periodicity) group
  let w ← writeDisplaceCell s sel (enlarge (a.1.enlargement.getD []) (a.1.periodicity.getD [])).toNat d (vec a.1.periodicity) o.sym search
  let fs2 ← writeAll o.dft x (preFiles cwd o).1 fs1 w.2
  let rec' ← preRecord cwd o a.1 pg
  return (fs2, rec')

/-- A structure over the reals. (Source: no counterpart: `core/post_process.py:81-87` works with the numbers read.) -/
def toR (c : Cell ℚ) : Cell ℝ where
  lattice := fun i j => (c.lattice i j : ℝ)
  atomType := c.atomType
  numAtom := c.numAtom
  selective := c.selective
  coordinate := c.coordinate
  cart := c.cart.map toReal
  atomTrue := c.atomTrue
  xyzTrue := c.xyzTrue

/-- `_dis_super_cell.read_unit_cell(os.path.dirname(force_file) + '/' + unit_cell_file)`, interphon.py:69 etc. -/
def readStructure (fs : Fs) (code unitName force : Str) : Run (List (V3 ℚ)) := do
  let r := readFile fs code (dirName force ++ '/' :: unitName)
  raising r.2
  let c ← ofRaw r.1
  return c.cart

/-- The same call for every element of a list, the first exception is raised. (Source: `core/post_process.py:125-131`, `interphon.py:69-80`.) -/
def each {α β : Type} (f : α → Run β) : List α → Run (List β)
  | [] => .ok []
  | a :: l => match f a with
    | .error e => .error e
    | .ok b => match each f l with
      | .error e => .error e
      | .ok bs => .ok (b :: bs)

/-- `read_output_lines(force_file, n)` of the chosen code, core/post_process.py:133-136, 180-184, 212-215, 259-263, 291-294, 338-342: forces in newton.  With an unknown code
no branch of `set_force_constant` runs; the model reports `TypeError`. -/
def readForces (fs : Fs) (code : Str) (n : ℕ) (path : Str) : Run (List (List ℚ)) := do
  let t ← load fs path
  if code = "vasp".toList then Vasp.readOutput (baseName path) n (readlines t)
    else if code = "espresso".toList then Espresso.readOutput n (readlines t)
    else if code = "aims".toList then Aims.readOutput n (readlines t)
    else .error .typeError

/-- A two-dimensional array stretched to `n` rows of three numbers by the rules of numpy: an axis of length 1 is repeated, core/post_process.py:186, 265, 344. -/
def stretch (n : ℕ) (x : List (List ℚ)) : Rows ℝ := fun a c =>
  let row := if x.length = 1 then x.getD 0 [] else x.getD a []
  if a < n then (((if row.length = 1 then row.getD 0 0 else row.getD c 0) : ℚ) : ℝ) else 0

/-- Shapes for which `(_forward_matrix - _backward_matrix).reshape([3 * n])` works, core/post_process.py:186-187, 265-266, 344-345: the difference, of at most `n` rows
of at most three numbers, has to have `3 * n` elements.  The shapes broadcast, so one of the two arrays may have a single row or a single column. -/
def fits (n : ℕ) (x y : List (List ℚ)) : Bool :=
  (x.length == n || x.length == 1) && (y.length == n || y.length == 1) && (x.length == n || y.length == n) &&
    ((x.headD []).length == 3 || (x.headD []).length == 1) && ((y.headD []).length == 3 || (y.headD []).length == 1) &&
    ((x.headD []).length == 3 || (y.headD []).length == 3)

/-- The force arrays two by two without symmetry, core/post_process.py:178-187, 257-266, 336-345; a last array without partner is not used. -/
def pairForces (n : ℕ) : List (List (List ℚ)) → Run (List (Rows ℝ))
  | [] => .ok []
  | [x] => .ok [stretch n x]
  | x :: y :: rest => if fits n x y = true then match pairForces n rest with
      | .error e => .error e
      | .ok r => .ok (stretch n x :: stretch n y :: r)
    else .error .valueError

/-- With symmetry each array is reshaped on its own, core/post_process.py:151-152, 156-157, 230-236, 309-315.  Simplification: a wrong shape is reported as `ValueError`
(the source may raise `IndexError` some lines above). -/
def oneForces (n : ℕ) (x : List (List ℚ)) : Run (Rows ℝ) :=
  if x.length = n ∧ (x.headD []).length = 3 then .ok (stretch n x) else .error .valueError

/-- All force files, core/post_process.py:125-187.  Simplification: all are read before the first use. -/
def allForces (fs : Fs) (code : Str) (sym : Bool) (n : ℕ) (force : List Str) : Run (List (Rows ℝ)) := do
  let l ← each (readForces fs code n) force
  if sym = true then each (oneForces n) l else pairForces n l

/-- A call on the post-process object whose exception is not caught. (Source: `interphon.py:715-740`.) -/
def call (S : Solver) (o : Object) (c : Call) : Run Object :=
  match (step S o c).2 with
  | none => .ok (step S o c).1
  | some e => .error e

/-- What the post-process cannot know: the content of fresh arrays. (Source: `core/post_process.py:53-65`.) -/
structure Junk where
  recip : M3 ℝ
  fc : FC ℝ
  left : FC ℝ
  cols : ℕ → Rows ℝ
  band : ℕ → ℕ → ℕ → ℝ

/-- A `PostProcess` object of the program, core/post_process.py:44-65: its arguments, its cells as read from the files, and the attributes of
`PostProcess.Object`. -/
structure Process where
  args : PreArg
  unit : Cell ℚ
  super : Cell ℚ
  obj : Object

/-- `PostProcess(in_file_unit_cell, in_file_super_cell, code_name)`, core/post_process.py:39-65; interphon.py:705-707 and 773-775.  No argument is set yet. -/
def newProcess (j : Junk) (a : PostArgs) (fs : Fs) : Run Process := do
  let ru := readFile fs a.dft a.unitCellFile
  raising ru.2
  let rm := setMassTrue ru.1
  raising rm.2
  let rs := readFile fs a.dft a.superCellFile
  raising rs.2
  let u ← ofRaw rm.1
  let s0 ← ofRaw rs.1
  let m ← some? rm.1.mass
  return ⟨{}, u, s0, PostProcess.new (toR u) (toR s0) 0 0 0 (fun i => ((m.getD i 0 : ℚ) : ℝ)) j.recip j.fc⟩

/-- `set_user_arg`, `set_reciprocal_lattice`, `check_file_order` and `set_force_constant`, interphon.py:710-731 (DOS) and 778-800 (band),
core/post_process.py:67-76.  Simplification: all structures are read before the first comparison and all force files before the first use; `search` is
the outcome of the symmetry search of `check_file_order`. -/
def configure (S : Solver) (j : Junk) (a : PostArgs) (force : List Str) (search : Run (List (ℕ × List (V3 ℚ)))) (fs : Fs) (P : Process) : Run Process := do
  let ua := setUserArgument P.args a.dict
  raising ua.2
  raising (checkUserArgument ua.1)
  raising (checkMatchArgument ua.1 P.unit.lattice P.super.lattice)
  let s ← setSuperIndTrue P.super P.unit (vec ua.1.enlargement) (vec ua.1.periodicity)
  let d ← some? ua.1.displacement
  let sel ← some? P.unit.atomTrue
  let o ← call S { P.obj with super := toR s, n := vec ua.1.enlargement, p := vec ua.1.periodicity, d := (d : ℝ) } .reciprocal
  let structs ← each (readStructure fs a.dft (baseName a.unitCellFile)) force
  let _ ← checkFileOrder s sel (enlarge (ua.1.enlargement.getD []) (ua.1.periodicity.getD [])).toNat d a.sym search structs
  let forces ← allForces fs a.dft (a.sym && numPbc (vec ua.1.periodicity) == 2) s.atomType.length force
  let o' ← call S o (.force j.left j.cols a.sym forces)
  return ⟨ua.1, P.unit, s, o'⟩

/-- A new object up to its force constants, interphon.py:705-731 (DOS) and 773-800 (band without DOS). -/
def postSetup (S : Solver) (j : Junk) (a : PostArgs) (force : List Str) (search : Run (List (ℕ × List (V3 ℚ)))) (fs : Fs) : Run Process := do
  let P ← newProcess j a fs
  configure S j a force search fs P

/-- `set_k_points` and `eval_phonon`, interphon.py:734-742 and 804-812. -/
def phonons (S : Solver) (fs : Fs) (kfile : Str) (o : Object) : Run Object := do
  let t ← load fs kfile
  let o1 ← call S o (.kPoints (some (readlines t)))
  call S o1 .eval

/-- The band analysis: `Band(…)`, `Band.set`, interphon.py:804-818.  Returned: the object and the numbers of `band.dat`
(band.py:52-63): per wave vector the length along the path and the frequencies. -/
def bandOf (S : Solver) (j : Junk) (fs : Fs) (kfile : Str) (o : Object) : Run (Object × List (ℝ × List ℝ)) := do
  let o2 ← phonons S fs kfile o
  let ks := o2.kPoints.map toReal
  let b ← Band.set ks o2.wq.length (dof o2) (dof o2) (fun k f m => ((o2.vq.getD k []).getD f []).getD m 0) (Band.init ks j.band)
  return (o2, b.len.zip o2.wq)

/-- The post-process with `-band` only, interphon.py:433-527 and 766-818. -/
def bandMain (S : Solver) (j : Junk) (cwd : Str) (o : PostOpts) (r : PreRecord) (glob : Str → List Str) (forceArgs : List Str)
    (kband : Str) (search : Run (List (ℕ × List (V3 ℚ)))) (fs : Fs) : Run (Object × List (ℝ × List ℝ)) := do
  let force ← forceFiles glob forceArgs
  let P ← postSetup S j (postResolve cwd o r) force search fs
  bandOf S j fs (absPath cwd kband) P.obj

/-- What `DOS` reads from the object, analysis/dos.py:20-102. -/
def dosProc (o : Object) : Dos.Proc where
  nk := o.wq.length
  nb := dof o
  nd := dof o
  w := fun k b => (o.wq.getD k []).getD b 0
  F := fun k b d => ‖((o.vq.getD k []).getD b []).getD d 0‖ ^ 2
  kPoints := o.kPoints.map toReal
  auto := fun c => (o.auto.getD c 0).toNat
  periodicity := fun c => decide (o.p c ≠ 0)

/-- The outcomes of `np.argsort` for the corners of a simplex. (Source: `util/linear_tetrahedron_method.py:63,154,195,318`.) -/
structure Argsorts where
  two : Tetra.Argsort 2
  three : Tetra.Argsort 3
  four : Tetra.Argsort 4

/-- The DOS analysis: `set_k_points`, `eval_phonon`, `DOS(process, sigma, num_dos)`, `DOS.set`, interphon.py:734-750.  Without a mesh (`auto_k_points` is empty) the
tetrahedron method raises `IndexError`, linear_tetrahedron_method.py:47,120,270.  (`plot` is left out; the text of the data files is modelled in Model/Output.lean.) -/
def dosOf (S : Solver) (A : Argsorts) (fs : Fs) (kfile : Str) (sigma : ℝ) (num : ℕ) (o : Object) : Run (Object × Dos.State) := do
  let o2 ← phonons S fs kfile o
  let s0 ← Dos.init (dosProc o2) num
  raising (open Classical in if sigma = 0 ∧ PreProcess.numPbc o2.p ≠ 0 ∧ o2.auto.length ≠ 3 then some .indexError else none)
  let s ← Dos.set A.two A.three A.four (dosProc o2) sigma s0
  return (o2, s)

/-- `ThermalProperty(process, temp)`, `ThermalProperty.set`, interphon.py:758-762. -/
def thermalOf (temp : List ℤ) (o : Object) : Thermal.State :=
  Thermal.set o.kPoints.length (dof o) o.wq (Thermal.init (temp.map fun z : ℤ => (z : ℝ)))

/-- The DOS part of the post-process, interphon.py:702-764: the object afterwards, the numbers of the DOS files and, if asked for, of `thermal_properties.dat`. -/
def dosPart (S : Solver) (A : Argsorts) (j : Junk) (a : PostArgs) (force : List Str) (search : Run (List (ℕ × List (V3 ℚ)))) (kfile : Str) (sigma : ℝ) (num : ℕ)
    (temp : Option (List ℤ)) (fs : Fs) : Run (Process × Dos.State × Option Thermal.State) := do
  let P ← postSetup S j a force search fs
  let r ← dosOf S A fs kfile sigma num P.obj
  return (⟨P.args, P.unit, P.super, r.1⟩, r.2, temp.map fun t => thermalOf t r.1)

/-- The post-process with `-dos` (and `-thermal`) only, interphon.py:433-527 and 702-764. -/
def dosMain (S : Solver) (A : Argsorts) (j : Junk) (cwd : Str) (o : PostOpts) (r : PreRecord) (glob : Str → List Str) (forceArgs : List Str) (kdos : Str) (sigma : ℝ) (num : ℕ)
    (temp : Option (List ℤ)) (search : Run (List (ℕ × List (V3 ℚ)))) (fs : Fs) : Run (Dos.State × Option Thermal.State) := do
  let force ← forceFiles glob forceArgs
  let x ← dosPart S A j (postResolve cwd o r) force search (absPath cwd kdos) sigma num temp fs
  return x.2

/-- The post-process with `-dos` (and `-thermal`) and `-band`, interphon.py:433-527 and 702-818: the band part goes on with a deep copy of the object of the DOS part, which
still holds the force constants, wave vectors and frequencies of the DOS (lines 769-771), and sets everything again.  `j'` is the content of the arrays allocated then. -/
def bothMain (S : Solver) (A : Argsorts) (j j' : Junk) (cwd : Str) (o : PostOpts) (r : PreRecord) (glob : Str → List Str) (forceArgs : List Str) (kdos kband : Str) (sigma : ℝ)
    (num : ℕ) (temp : Option (List ℤ)) (search : Run (List (ℕ × List (V3 ℚ)))) (fs : Fs) :
    Run ((Dos.State × Option Thermal.State) × List (ℝ × List ℝ)) := do
  let force ← forceFiles glob forceArgs
  let x ← dosPart S A j (postResolve cwd o r) force search (absPath cwd kdos) sigma num temp fs
  let P ← configure S j' (postResolve cwd o r) force search fs x.1
  let b ← bandOf S j' fs (absPath cwd kband) P.obj
  return (x.2, b.2)

/-! ### The mode analysis -/

/-- `super_cell.set_mass_true()` on the super cell built for a mode, analysis/mode.py:183, core/unit_cell.py:314-320. -/
def superMass (s : Cell ℝ) : Run (List ℝ) := do
  let r := setMassTrue { atomType := some s.atomType, atomTrue := s.atomTrue.map (·.map Int.ofNat), xyzTrue := s.xyzTrue.map (·.map Int.ofNat) }
  raising r.2
  let m ← some? r.1.mass
  return m.map fun q : ℚ => (q : ℝ)

/-- `Mode.write_mode_displace`, analysis/mode.py:166-215, on the object `o`: the super cell commensurate with the k point `k`, its selection and masses, and per mode index the displaced
structure.  `L` is `limit_denominator(100)`, `junk` the content of fresh arrays. -/
def displaceOf (L : ℚ → ℚ) (junk : ℕ → List (V3 ℝ)) (o : Object) (m : Mode.Obj) (k : V3 ℚ) (amplitude : ℝ) : Run (List (ℤ × Cell ℝ)) := do
  let n := Mode.commensurate L k o.p
  let s0 ← setSuperCell junk o.unit n o.p
  let s ← setSuperIndTrue s0 o.unit n o.p
  let mass ← superMass s
  let d := m.displace (Mode.qOf m.k o.recip) amplitude (enlarge [n 0, n 1, n 2] [o.p 0, o.p 1, o.p 2]).toNat mass s.cart (s.atomTrue.getD [])
  raising d.2
  return d.1.map fun x => (x.1, { s with cart := x.2 })

/-- What a new `Mode` object holds: the content of fresh arrays. (Source: `analysis/mode.py:36-41`.) -/
structure ModeJunk where
  k : V3 ℝ
  mode : List (ℕ → ℂ)

/-- The mode analysis, interphon.py:842-857: `Mode(process)`, `set(index, k_point)`, `write` and, with an amplitude, `write_mode_displace`.  Returned: the images of each
file `XDATCAR_phonon_mode_…` and the structures `MPOSCAR-…`.  (`plot`, which hands the same images to ASE, is left out; see `Mode.Obj.plot`.) -/
def modeOf (mj : ModeJunk) (L : ℚ → ℚ) (junk : ℕ → List (V3 ℝ)) (inds : Args.PyVal) (k : V3 ℚ) (amplitude : Option ℝ) (o : Object) : Run (List Mode.Movie × List (ℤ × Cell ℝ)) := do
  let r := (Mode.Obj.new mj.k mj.mode).set (o.kPoints.map toReal) (o.vq.map fun rows => rows.map fun row d => row.getD d 0) inds (toReal k)
  raising r.2
  let w := r.1.write o.unit.cart (o.unit.atomTrue.getD []) ((List.range (dof o)).map o.mass)
  raising w.2
  let d ← (match amplitude with
    | none => .ok []
    | some a => displaceOf L junk o r.1 k a : Run (List (ℤ × Cell ℝ)))
  return (w.1, d)

/-- The post-process with `-band` and `-mode`, interphon.py:433-527, 766-818 and 842-857: the rows of `band.dat`, the animations and the displaced structures. -/
def modeMain (S : Solver) (j : Junk) (mj : ModeJunk) (L : ℚ → ℚ) (junk : ℕ → List (V3 ℝ)) (cwd : Str) (o : PostOpts) (r : PreRecord) (glob : Str → List Str) (forceArgs : List Str)
    (kband : Str) (inds : Args.PyVal) (k : V3 ℚ) (amplitude : Option ℝ) (search : Run (List (ℕ × List (V3 ℚ)))) (fs : Fs) :
    Run (List (ℝ × List ℝ) × List Mode.Movie × List (ℤ × Cell ℝ)) := do
  let b ← bandMain S j cwd o r glob forceArgs kband search fs
  let m ← modeOf mj L junk inds k amplitude b.1
  return (b.2, m)

end Interphon.Main
