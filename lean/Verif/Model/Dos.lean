import Verif.Model.Tetra

/-!
# Model of `InterPhon/analysis/dos.py` (`DOS.__init__`, `DOS.set`, the data of `DOS.write`)

Numbers are exact reals.  `np.arange` is modelled with exact arithmetic (with rounding its length can be off by one).
`plot` is not modelled.
-/

noncomputable section

namespace Interphon.Dos
open Py Interphon Interphon.Tetra

/-- The part of a `PostProcess` object that `DOS` reads: `w_q` (rows: k points), `abs(v_q[k,band,dof])**2`, the k points,
the mesh divisions, the periodicity, `len(unit_cell.xyz_true)` and the number of bands (`v_q.shape[1]`).
(Source: the attributes read by `analysis/dos.py:20-102`.) -/
structure Proc where
  nk : ℕ
  nb : ℕ
  nd : ℕ
  w : ℕ → ℕ → ℝ
  F : ℕ → ℕ → ℕ → ℝ
  kPoints : List (V3 ℝ)
  auto : Fin 3 → ℕ
  periodicity : Fin 3 → Bool

/-- State of a `DOS` object.  `pdos` has one row per degree of freedom; a NaN entry is `none`.
`tdos = none` is the uninitialised array of `np.empty` (dos.py:36). -/
structure State where
  freq : List ℝ
  pdos : List (List (Option ℝ))
  tdos : Option (List (Option ℝ))

/-- All entries of `w_q`. (Source: `analysis/dos.py:30-31`.) -/
def Proc.allFreq (p : Proc) : List ℝ := (List.range p.nk).flatMap fun k => (List.range p.nb).map (p.w k)

/-- `np.arange(a, b, s)` with exact arithmetic: `ceil((b-a)/s)` points `a + i*s`. (Source: `analysis/dos.py:33-34`.) -/
def arange (a b s : ℝ) : List ℝ := (List.range ⌈(b - a) / s⌉₊).map fun i : ℕ => a + i * s

/-- `DOS.__init__`, dos.py:20-36.  `np.min` of an empty array raises ValueError. -/
def init (p : Proc) (numDos : ℕ) : Run State :=
  match p.allFreq.min?, p.allFreq.max? with
  | some lo, some hi =>
    let freq := arange (lo - 2) (hi + 2) ((hi - lo + 4) / numDos)
    .ok { freq := freq, pdos := List.replicate p.nd (List.replicate freq.length (some 0)), tdos := none }
  | _, _ => .error .valueError

/-- Sum of numbers, NaN if one of them is NaN. (Source: `analysis/dos.py:102`.) -/
def nanSum (l : List (Option ℝ)) : Option ℝ := l.foldl (fun a b => a.bind fun x => b.map fun y => x + y) (some 0)

/-- `self._pdos.sum(axis=0)`: entry `i` is the sum over the rows. (Source: `analysis/dos.py:102`.) -/
def sumRows (n : ℕ) (pdos : List (List (Option ℝ))) : List (Option ℝ) :=
  (List.range n).map fun i => nanSum (pdos.map fun row => (row[i]?).getD none)

/-- Replace each entry (row `d`, column `i` with frequency `f`) by `upd f d old`: the loops of
`linear_tetrahedron_method.py:51-80` and `dos.py:93-100` act on each entry separately. -/
def mapEntries (upd : ℝ → ℕ → Option ℝ → Option ℝ) (freq : List ℝ) (pdos : List (List (Option ℝ))) : List (List (Option ℝ)) :=
  pdos.zipIdx.map fun (row, d) => (row.zip freq).map fun (old, f) => upd f d old

/-- Indices of the periodic directions, `periodicity.nonzero()[0]` (dos.py:57). -/
def indPbc (p : Fin 3 → Bool) : List (Fin 3) := [0, 1, 2].filter fun i => p i

/-- One Gaussian, dos.py:96-97. -/
def gauss (sigma f w : ℝ) : ℝ := 1 / (sigma * Real.sqrt (2 * Real.pi)) * Real.exp (-(f - w) ^ 2 / (2 * sigma ^ 2))

/-- dos.py:93-100 for one entry: add one Gaussian per k point and band. -/
def gaussEntry (p : Proc) (sigma f : ℝ) (d : ℕ) (old : Option ℝ) : Option ℝ :=
  (List.range p.nk).foldl (fun acc k => (List.range p.nb).foldl
    (fun acc b => acc.map fun x => x + gauss sigma f (p.w k b) / p.kPoints.length * p.F k b d) acc) old

/-- The simplices and per-simplex update for the tetrahedron method, or the exception raised while computing the weight
(dos.py:59-90, `linear_tetrahedron_method.py:45-49,118-131,267-279`). -/
def tetraUpdate (arg2 : Argsort 2) (arg3 : Argsort 3) (arg4 : Argsort 4) (p : Proc) : List (Fin 3) → Run (ℝ → ℕ → Option ℝ → Option ℝ)
  | [a] => do
    let vol ← volume1 p.kPoints (p.auto a)
    return fun f d old => column arg2 branch1 vol f p.nb (segments (p.auto a)) p.w p.F d old
  | [a, b] => do
    let vol ← volume2 p.kPoints (p.auto b) a b
    return fun f d old => column arg3 branch2 vol f p.nb (triangles (p.auto a) (p.auto b)) p.w p.F d old
  | [a, b, c] => do
    let vol ← volume3 p.kPoints (p.auto b) (p.auto c)
    return fun f d old => column arg4 branch3 vol f p.nb (tetrahedra (p.auto a) (p.auto b) (p.auto c)) p.w p.F d old
  | _ => return fun _ _ old => old

open Classical in
/-- `DOS.set`, dos.py:50-102.  The state after an exception is not modelled (the weight is computed before any write). -/
def set (arg2 : Argsort 2) (arg3 : Argsort 3) (arg4 : Argsort 4) (p : Proc) (sigma : ℝ) (s : State) : Run State :=
  if sigma = 0 then
    match indPbc p.periodicity with
    | [] => .ok { s with freq := (List.range p.nb).map (p.w 0), tdos := some (List.replicate p.nb (some 1)) }
    | l => do
      let upd ← tetraUpdate arg2 arg3 arg4 p l
      let pdos := mapEntries upd s.freq s.pdos
      return { s with pdos := pdos, tdos := some (sumRows s.freq.length pdos) }
  else
    let pdos := mapEntries (gaussEntry p sigma) s.freq s.pdos
    .ok { s with pdos := pdos, tdos := some (sumRows s.freq.length pdos) }

/-- Data rows of `total_dos.dat`, dos.py:125-127 (numbers before formatting; `zip` stops at the shorter array). -/
def totalRows (s : State) : List (ℝ × Option ℝ) := s.freq.zip (s.tdos.getD [])

/-- The rows of `projected_dos.dat`, dos.py:142-146, restricted to the frequency and the column of degree of freedom `d`. -/
def columnRows (s : State) (d : ℕ) : List (ℝ × Option ℝ) := s.freq.zip (s.pdos.getD d [])

end Interphon.Dos
