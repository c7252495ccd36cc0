import Verif.Model.PostTrace

/-!
# The mode analysis as a sequence of file writes

`Main.modeMain` computes the images and structures of the mode analysis.  Here the same program writes them.  Unknowns: the text that Python makes of the k point (`shown`, an array of three
numbers), the text of ASE's trajectory files, and whether `plot` ends normally (ASE may be missing).
-/

noncomputable section

namespace Interphon.Main
open Py Interphon Interphon.Args Interphon.Inout Interphon.UnitCell Interphon.SuperCell Interphon.PreProcess Interphon.Cli Interphon.PostProcess

/-- A structure with the doubles the program holds; `fl` gives the double for a real number. (Source: the arrays used in `inout/vasp.py:116-158`.) -/
def roundCell (fl : ℝ → ℚ) (c : Cell ℝ) : Cell ℚ where
  lattice := fun i j => fl (c.lattice i j)
  atomType := c.atomType
  numAtom := c.numAtom
  selective := c.selective
  coordinate := c.coordinate
  cart := c.cart.map fun v i => fl (v i)
  atomTrue := c.atomTrue
  xyzTrue := c.xyzTrue

/-- The name of an animation file, analysis/mode.py:104. -/
def moviePath (dir : Str) (shown : V3 ℝ → Str) (m : Mode.Movie) : Str := dir ++ '/' :: ("XDATCAR_phonon_mode_".toList ++ intStr m.ind ++ '_' :: shown m.k)

/-- One animation file, analysis/mode.py:89-105: the lines are made before the file is opened. -/
def movieTrace (fl : ℝ → ℚ) (dir : Str) (shown : V3 ℝ → Str) (u : Cell ℝ) (m : Mode.Movie) : Traced Unit :=
  match Output.modeFile (roundCell fl u) (m.frames.map fun f => f.map fun v i => fl (v i)) with
  | .error e => ⟨[], .error e⟩
  | .ok ls => ⟨[.text (moviePath dir shown m) ls.flatten], .ok ()⟩

/-- One statement for every element of a list, analysis/mode.py:88 and 189. -/
def forEach {α : Type} (f : α → Traced Unit) : List α → Traced Unit
  | [] => return ()
  | a :: l => do
    f a
    forEach f l

/-- The name of a displaced structure: `out_folder` is the working directory, because interphon.py:856 does not pass one. (Source: `analysis/mode.py:205,210,215`.) -/
def displacedPath (cwd : Str) (z : ℤ) : Str := cwd ++ '/' :: ("MPOSCAR-".toList ++ intStr z)

/-- The comment of a displaced structure, analysis/mode.py:201. -/
def displacedComment (shown : V3 ℝ → Str) (z : ℤ) (k : V3 ℝ) : Str :=
  "Commensurate supercell with displacements along normal mode ".toList ++ intStr z ++ " at k-point ".toList ++ shown k

/-- `Mode.write_mode_displace` with its files, analysis/mode.py:147-215 (see `displaceOf`); all atoms are written with their flags (line 184). -/
def displaceTrace (fl : ℝ → ℚ) (code : Str) (x : FileArgs) (shown : V3 ℝ → Str) (cwd : Str) (L : ℚ → ℚ) (junk : ℕ → List (V3 ℝ)) (o : Object) (m : Mode.Obj) (k : V3 ℚ) (amplitude : ℝ) :
    Traced Unit := do
  let n := Mode.commensurate L k o.p
  let s0 ← quiet (setSuperCell junk o.unit n o.p)
  let s ← quiet (setSuperIndTrue s0 o.unit n o.p)
  let mass ← quiet (superMass s)
  let d := m.displace (Mode.qOf m.k o.recip) amplitude (enlarge [n 0, n 1, n 2] [o.p 0, o.p 1, o.p 2]).toNat mass s.cart (s.atomTrue.getD [])
  forEach (fun st : ℤ × List (V3 ℝ) => traceTo code { x with comment := displacedComment shown st.1 m.k } (displacedPath cwd st.1) (roundCell fl { s with cart := st.2, selective := true })) d.1
  quiet (raising d.2)

/-- `Mode.plot`, analysis/mode.py:107-145: trajectory files with unknown content, and possibly an exception. -/
structure Show where
  files : List (ℤ × Str)
  error : Option PyErr

/-- The effects of `Mode.plot`, analysis/mode.py:130-145. -/
def showTrace (dir : Str) (s : Show) : Traced Unit :=
  ⟨s.files.map fun f => .text (dir ++ '/' :: ("Trajectory_".toList ++ intStr f.1 ++ ".traj".toList)) f.2, raising s.error⟩

/-- The mode analysis with its effects, interphon.py:845-857. -/
def modeTrace (fl : ℝ → ℚ) (mj : ModeJunk) (L : ℚ → ℚ) (junk : ℕ → List (V3 ℝ)) (shown : V3 ℝ → Str) (sh : Show) (dir cwd code : Str) (x : FileArgs) (inds : Args.PyVal) (k : V3 ℚ)
    (amplitude : Option ℝ) (o : Object) : Traced Unit := do
  let r := (Mode.Obj.new mj.k mj.mode).set (o.kPoints.map toReal) (o.vq.map fun rows => rows.map fun row d => row.getD d 0) inds (toReal k)
  quiet (raising r.2)
  let w := r.1.write o.unit.cart (o.unit.atomTrue.getD []) ((List.range (dof o)).map o.mass)
  forEach (movieTrace fl dir shown o.unit) w.1
  quiet (raising w.2)
  showTrace dir sh
  match amplitude with
  | none => return ()
  | some a => displaceTrace fl code x shown cwd L junk o r.1 k a

/-- The post-process with `-band` and `-mode` and its effects, interphon.py:433-527, 766-827, 845-857 and 857-904 (without the density of states). -/
def modePostTrace (S : Solver) (j : Junk) (fl : ℝ → ℚ) (pic : Run (Option Str)) (yaml : Str) (mj : ModeJunk) (L : ℚ → ℚ) (junk : ℕ → List (V3 ℝ)) (shown : V3 ℝ → Str) (sh : Show) (x : FileArgs)
    (cwd : Str) (o : PostOpts) (r : PreRecord) (glob : Str → List Str) (forceArgs : List Str) (kband : Str) (inds : Args.PyVal) (k : V3 ℚ) (amplitude : Option ℝ)
    (search : Run (List (ℕ × List (V3 ℚ)))) (fs : Fs) : Traced Unit := do
  let force ← quiet (forceFiles glob forceArgs)
  let P ← quiet (postSetup S j (postResolve cwd o r) force search fs)
  let o2 ← phononsTrace S fl cwd fs (absPath cwd kband) P.obj
  let len ← quiet (bandAfter j o2)
  (⟨bandWrites fl (dirName (postResolve cwd o r).unitCellFile) len o2.wq, .ok ()⟩ : Traced Unit)
  picture (cwd ++ "/band.png".toList) pic
  modeTrace fl mj L junk shown sh (dirName (postResolve cwd o r).unitCellFile) cwd (postResolve cwd o r).dft x inds k amplitude o2
  ⟨[.text (cwd ++ "/post_process.yaml".toList) yaml], .ok ()⟩

end Interphon.Main
