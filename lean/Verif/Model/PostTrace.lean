import Verif.Model.Trace
import Verif.Model.Output

/-!
# The post-process as a sequence of file writes

`Main.dosMain`, `Main.bandMain` and `Main.bothMain` compute the numbers of the result files.  Here the same program writes them, with the texts of Model/Output.lean and in the order in
which the files appear, so that one can ask what is on the disk if it is stopped at any moment.  The mode analysis is left out.  The drawing of a picture is an unknown: it raises an
exception, shows a window, or writes a file with unknown content.  The content of `post_process.yaml` is an unknown text.
-/

noncomputable section

namespace Interphon.Main
open Py Interphon Interphon.Args Interphon.Inout Interphon.UnitCell Interphon.SuperCell Interphon.PreProcess Interphon.Cli Interphon.PostProcess

/-- A number that goes into a text: `fl` gives the double the program holds for a real number; `nan` stays `nan`. (Source: `analysis/dos.py:126,148`, `analysis/band.py:59-61`.) -/
def number (fl : ℝ → ℚ) : Option ℝ → Output.Num
  | none => .nan
  | some x => .fin (fl x)

/-- The files after some writes. (Source: the files opened by `analysis/dos.py:111,128`, `analysis/thermal_properties.py:111`, `analysis/band.py:52`.) -/
def filesAfter (fs : Fs) (ws : List Write) : Fs := (ws.foldl perform ⟨fs, .missing⟩).files

/-- The text of `total_dos.dat`, analysis/dos.py:111-126. -/
def totalText (fl : ℝ → ℚ) (sigma : ℚ) (s : Dos.State) : Str :=
  (Output.totalDos sigma (s.freq.map fun x => .fin (fl x)) ((s.tdos.getD []).map (number fl))).flatten

/-- The text of `projected_dos.dat`, analysis/dos.py:128-150, with the rows of the first `n` frequencies. -/
def projectedText (fl : ℝ → ℚ) (sigma : ℚ) (xyz : List ℕ) (s : Dos.State) (n : ℕ) : Str :=
  (Output.projectedDos sigma xyz ((s.freq.take n).map fun x => .fin (fl x)) fun ind i => number fl ((s.pdos.getD ind []).getD i none)).flatten

/-- `DOS.write`, analysis/dos.py:104-150.  If there are more frequencies than columns (a non-periodic system with `sigma = 0`, where `DOS.set` replaces the frequencies), `self._pdos[ind, x_ind]`
raises `IndexError` after the rows before. -/
def dosWrite (fl : ℝ → ℚ) (dir : Str) (sigma : ℚ) (xyz : List ℕ) (s : Dos.State) : Traced Unit :=
  if xyz ≠ [] ∧ (s.pdos.getD 0 []).length < s.freq.length then
    ⟨[.text (dir ++ "/total_dos.dat".toList) (totalText fl sigma s), .text (dir ++ "/projected_dos.dat".toList) (projectedText fl sigma xyz s (s.pdos.getD 0 []).length)], .error .indexError⟩
  else
    ⟨[.text (dir ++ "/total_dos.dat".toList) (totalText fl sigma s), .text (dir ++ "/projected_dos.dat".toList) (projectedText fl sigma xyz s s.freq.length)], .ok ()⟩

/-- `ThermalProperty.write`, analysis/thermal_properties.py:104-120. -/
def thermalWrites (fl : ℝ → ℚ) (dir : Str) (s : Thermal.State) : List Write :=
  [.text (dir ++ "/thermal_properties.dat".toList) (Output.thermal (s.temp.map fun x => .fin (fl x)) (s.freeEnergy.map (number fl))
    (s.entropy.map fun y => number fl (y.map fun z => z * 1000))).flatten]

/-- `Band.write`, analysis/band.py:45-63. -/
def bandWrites (fl : ℝ → ℚ) (dir : Str) (len : List ℝ) (wq : List (List ℝ)) : List Write :=
  [.text (dir ++ "/band.dat".toList) (Output.band (len.map fun x => .fin (fl x)) (wq.map fun l => l.map fun x => .fin (fl x))).flatten]

/-- A picture: the outcome of drawing it is unknown. (Source: `analysis/dos.py:245`, `analysis/thermal_properties.py:175`, `analysis/band.py:152,546`.) -/
def picture (path : Str) : Run (Option Str) → Traced Unit
  | .error e => ⟨[], .error e⟩
  | .ok none => ⟨[], .ok ()⟩
  | .ok (some t) => ⟨[.text path t], .ok ()⟩

/-- The outcomes of the four `plot` calls, interphon.py:749-755, 763, 819-825 and 832-843. -/
structure Pictures where
  dos : Run (Option Str)
  thermal : Run (Option Str)
  band : Run (Option Str)
  both : Run (Option Str)

/-- `set_k_points` and `eval_phonon`, interphon.py:734-742 and 804-812, with the file for non-periodic systems, core/post_process.py:462-470.
(With an empty list of wave vectors the heading of that file is written before the `IndexError`; this is left out.) -/
def phononsTrace (S : Solver) (fl : ℝ → ℚ) (cwd : Str) (fs : Fs) (kfile : Str) (o : Object) : Traced Object := do
  let o2 ← quiet (phonons S fs kfile o)
  if numPbc o2.p = 0 then
    ⟨[.text (cwd ++ "/freqency_at_gamma_point.dat".toList) (Output.gammaFile ((o2.wq.getD 0 []).map fun x => .fin (fl x))).flatten], .ok o2⟩
  else return o2

/-- `DOS(…)` and `DOS.set`, interphon.py:746-747 (see `dosOf`). -/
def dosAfter (A : Argsorts) (sigma : ℝ) (num : ℕ) (o2 : Object) : Run Dos.State := do
  let s0 ← Dos.init (dosProc o2) num
  raising (open Classical in if sigma = 0 ∧ PreProcess.numPbc o2.p ≠ 0 ∧ o2.auto.length ≠ 3 then some .indexError else none)
  Dos.set A.two A.three A.four (dosProc o2) sigma s0

/-- `Band(…)` and `Band.set`, interphon.py:816-817 (see `bandOf`); the lengths along the path. -/
def bandAfter (j : Junk) (o2 : Object) : Run (List ℝ) := do
  let ks := o2.kPoints.map toReal
  let b ← Band.set ks o2.wq.length (dof o2) (dof o2) (fun k f m => ((o2.vq.getD k []).getD f []).getD m 0) (Band.init ks j.band)
  return b.len

/-- What is asked for with `-dos` and `-thermal`: k-point file, smearing, number of rows, temperatures. (Source: `interphon.py:533-536, 587-590`.) -/
structure DosRequest where
  kfile : Str
  sigma : ℚ
  num : ℕ
  temp : Option (List ℤ)

/-- The DOS part of the post-process with its effects, interphon.py:702-764. -/
def dosTrace (S : Solver) (A : Argsorts) (j : Junk) (fl : ℝ → ℚ) (pic : Pictures) (cwd : Str) (a : PostArgs) (force : List Str) (search : Run (List (ℕ × List (V3 ℚ)))) (q : DosRequest)
    (fs : Fs) : Traced Process := do
  let P ← quiet (postSetup S j a force search fs)
  let o2 ← phononsTrace S fl cwd fs (absPath cwd q.kfile) P.obj
  let s ← quiet (dosAfter A q.sigma q.num o2)
  dosWrite fl (dirName a.unitCellFile) q.sigma (o2.unit.xyzTrue.getD []) s
  picture (cwd ++ "/dos.png".toList) pic.dos
  (match q.temp with
    | none => pure ()
    | some t => do
      (⟨thermalWrites fl (dirName a.unitCellFile) (thermalOf t o2), .ok ()⟩ : Traced Unit)
      picture (cwd ++ "/thermal_properties.png".toList) pic.thermal : Traced Unit)
  return ⟨P.args, P.unit, P.super, o2⟩

/-- The band part of the post-process with its effects, interphon.py:766-843; `P0` is the process of the DOS part, if there was one. -/
def bandTrace (S : Solver) (j : Junk) (fl : ℝ → ℚ) (pic : Pictures) (cwd : Str) (a : PostArgs) (force : List Str) (search : Run (List (ℕ × List (V3 ℚ)))) (kband : Str)
    (P0 : Option Process) (fs : Fs) : Traced Unit := do
  let P ← quiet (match P0 with
    | none => postSetup S j a force search fs
    | some P1 => configure S j a force search fs P1)
  let o2 ← phononsTrace S fl cwd fs (absPath cwd kband) P.obj
  let len ← quiet (bandAfter j o2)
  (⟨bandWrites fl (dirName a.unitCellFile) len o2.wq, .ok ()⟩ : Traced Unit)
  picture (cwd ++ "/band.png".toList) pic.band
  if P0.isSome then picture (cwd ++ "/band_dos.png".toList) pic.both

/-- The post-process with its effects, interphon.py:433-527 and 700-903, without the mode analysis.  The band part reads its files after the DOS part has written its own.  `yaml` is the
content of `post_process.yaml`; without any analysis its list of arguments is unbound (line 888). -/
def postTrace (S : Solver) (A : Argsorts) (j j' : Junk) (fl : ℝ → ℚ) (pic : Pictures) (yaml : Str) (cwd : Str) (o : PostOpts) (r : PreRecord) (glob : Str → List Str) (forceArgs : List Str)
    (dos : Option DosRequest) (band : Option Str) (search : Run (List (ℕ × List (V3 ℚ)))) (fs : Fs) : Traced Unit := do
  let force ← quiet (forceFiles glob forceArgs)
  let d : Traced (Option Process) := match dos with
    | none => pure none
    | some q => do
      let P ← dosTrace S A j fl pic cwd (postResolve cwd o r) force search q fs
      return some P
  let P0 ← d
  (match band with
    | none => pure ()
    | some kband => bandTrace S j' fl pic cwd (postResolve cwd o r) force search kband P0 (filesAfter fs d.writes) : Traced Unit)
  if dos.isNone && band.isNone then ⟨[], .error .unboundLocal⟩
  else ⟨[.text (cwd ++ "/post_process.yaml".toList) yaml], .ok ()⟩

end Interphon.Main
