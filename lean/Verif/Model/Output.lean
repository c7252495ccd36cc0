import Verif.Model.Vasp

/-!
# Text of the data files

`Dos.write` (analysis/dos.py:104-150), `Band.write` (analysis/band.py:45-63), `ThermalProperties.write`
(analysis/thermal_properties.py:104-120), the file of `eval_phonon` for non-periodic systems (core/post_process.py:462-470) and the
frames of `Mode.write` (analysis/mode.py:83-105).  Numbers are doubles: a rational or `nan`, `inf`, `-inf` (a negative zero is not modelled).
Opening and closing of files, folders and file names are not modelled.
-/

namespace Interphon.Output
open Py Interphon

/-- A double as `%f` sees it. (Source: the numbers written by `analysis/dos.py:126`, `analysis/band.py:59-61`.) -/
inductive Num where
  | fin (q : ℚ)
  | nan
  | inf (neg : Bool)
  deriving DecidableEq

/-- The characters of `'%.{d}f' % x`. (Source: `analysis/dos.py:126`, `analysis/band.py:59-61`, `analysis/thermal_properties.py:119`.) -/
def digits (d : ℕ) : Num → Str
  | .fin q => fmtFixed d q
  | .nan => "nan".toList
  | .inf false => "inf".toList
  | .inf true => "-inf".toList

/-- `' %{w}.9f ' % x`: dos.py:126 and band.py:59,61 with `w = 16`, thermal_properties.py:119 with `w = 20`. -/
def col (w : ℕ) (x : Num) : Str := ' ' :: (padLeft ' ' w (digits 9 x) ++ [' '])

/-- The comment line, dos.py:112-118 and 131-137; `what` is `Total` or `Projected`. -/
def dosComment (what : Str) (sigma : ℚ) : Str :=
  if sigma = 0 then what ++ " phonon DOS by Linear Tetrahedron Method\n".toList
  else what ++ " phonon DOS by Gaussian Smearing with Sigma = ".toList ++ fmtFixed 6 sigma ++ ['\n']

/-- `total_dos.dat`, dos.py:111-127. -/
def totalDos (sigma : ℚ) (freq tdos : List Num) : List Str :=
  [dosComment "Total".toList sigma, "    Frequency (THz)    Total_Density_of_State\n".toList] ++
    (freq.zip tdos).map fun p => col 16 p.1 ++ col 16 p.2 ++ ['\n']

/-- `'   pdos-atom-{0:0>3}  '.format(a)`, dos.py:139. -/
def label (a : ℕ) : Str := "   pdos-atom-".toList ++ padLeft '0' 3 (natStr a) ++ "  ".toList

/-- `projected_dos.dat`, dos.py:129-150; `xyz` is `xyz_true` and `pdos ind i` is `self._pdos[ind, i]`. -/
def projectedDos (sigma : ℚ) (xyz : List ℕ) (freq : List Num) (pdos : ℕ → ℕ → Num) : List Str :=
  [dosComment "Projected".toList sigma, "    Frequency (THz)".toList ++ (xyz.map label).flatten ++ ['\n']] ++
    freq.mapIdx fun i x => col 16 x ++ ((List.range xyz.length).map fun ind => col 16 (pdos ind i)).flatten ++ ['\n']

/-- `band.dat`, band.py:52-63. -/
def band (len : List Num) (w : List (List Num)) : List Str :=
  ["Phonon Band\n".toList, "    K_Points_Path    Frequency (THz)\n".toList] ++
    (len.zip w).map fun p => col 16 p.1 ++ (p.2.map (col 16)).flatten ++ ['\n']

/-- `thermal_properties.dat`, thermal_properties.py:111-120; `entropy1000` holds the entropies times 1000. -/
def thermal (temp free entropy1000 : List Num) : List Str :=
  ["Thermal Properties / atom\n".toList, "    Temperature (K)    Free_energy (eV/atom)    Entropy (meV/K/atom)\n".toList] ++
    (temp.zip (free.zip entropy1000)).map fun p => col 20 p.1 ++ col 20 p.2.1 ++ col 20 p.2.2 ++ ['\n']

/-- `freqency_at_gamma_point.dat`, post_process.py:463-470. -/
def gammaFile (freqs : List Num) : List Str :=
  ["Discrete frequency of non-periodic system\n".toList, "    Frequency (THz)\n".toList] ++ freqs.map fun x => col 16 x ++ ['\n']

/-- `"Cartesian configuration= %4d" % ind + '\n'`, mode.py:98 and 101. -/
def configLine (ind : ℕ) : Str := "Cartesian configuration= ".toList ++ padLeft ' ' 4 (natStr ind) ++ ['\n']

/-- `line[7] = x`: `IndexError` on a shorter list. (Source: `analysis/mode.py:98,101`.) -/
def setLine (l : List Str) (i : ℕ) (x : Str) : Run (List Str) := if i < l.length then .ok (l.set i x) else .error .indexError

/-- The loop over the images of one mode, mode.py:90-103: `lines` is replaced by the first image and extended by the lines from the
eighth on of every other image; `frames` are the positions of the images (`Mode.framesOf`). -/
def modeLoop (c : Cell ℚ) : ℕ → List (List (V3 ℚ)) → Option (List Str) → Run (Option (List Str))
  | _, [], lines => .ok lines
  | ind, f :: fs, lines =>
    match Vasp.writeInput { c with selective := false, cart := f } "unknown system".toList with
    | .error e => .error e
    | .ok l => match setLine l 7 (configLine ind) with
      | .error e => .error e
      | .ok l' =>
        if ind = 1 then modeLoop c (ind + 1) fs (some l')
        else match lines with
          | none => .error .unboundLocal
          | some ls => modeLoop c (ind + 1) fs (some (ls ++ l'.drop 7))

/-- The lines of one `XDATCAR_phonon_mode` file, mode.py:89-105; without an image the variable `lines` may be unbound at the `join`
(or still hold the text of the previous mode, which has no image either). -/
def modeFile (c : Cell ℚ) (frames : List (List (V3 ℚ))) : Run (List Str) :=
  match modeLoop c 1 frames none with
  | .error e => .error e
  | .ok none => .error .unboundLocal
  | .ok (some ls) => .ok ls

end Interphon.Output
