import Verif.Model.Phonon
import Verif.Model.SuperCell
import Verif.Model.Args

/-!
# Model of `InterPhon/analysis/mode.py` (`Mode.set`, the structures of `Mode.write` and `Mode.write_mode_displace`,
the `Mode` object and the images of `Mode.plot`)

Exact reals.  The text written is the business of `inout/vasp.py` (see `Verif/Model/Vasp.lean`).  Of `plot` the positions handed to ASE are
modelled, not ASE itself.
-/

noncomputable section

namespace Interphon.Mode
open Py Interphon Interphon.Phonon

/-- `np.allclose(a, b)` on two `(3,)` arrays with the default tolerances. (Source: `analysis/mode.py:67`.) -/
def allclose3 (a b : V3 ℝ) : Prop := ∀ i, isClose rtolDefault atolDefault (a i) (b i)

open Classical in
/-- `Mode.set`, mode.py:64-73: scans all k points and keeps the last index that matches. -/
def chooseK (kPoints : List (V3 ℝ)) (req : V3 ℝ) : Run ℕ :=
  match kPoints.zipIdx.foldl (fun acc (kpt, ind) => if allclose3 req kpt then some ind else acc) none with
  | some i => .ok i
  | none => .error .notSpecifiedKpath

/-- `mass_true.max()` over the selected degrees of freedom. (Source: `analysis/mode.py:88,189`.) -/
def massMax (mass : List ℝ) : ℝ := mass.foldl max 0

/-- `mode[...].reshape((-1,3)).real / sqrt(mass / max)` for selected atom `j`, component `c` (mode.py:87-93); the transposes
only change the layout.  `mode` is the real part of the row of `v_q`, one entry per degree of freedom; the masses are positive. -/
def scaled (mass : List ℝ) (mode : ℕ → ℝ) (j : ℕ) : V3 ℝ := fun c =>
  mode (3 * j + c) / Real.sqrt (mass.getD (3 * j + c) 0 / massMax mass)

/-- `atom_cart[sel, :] = rows` : row `j` goes to atom `sel[j]`. (Source: `analysis/mode.py:91,198`.) -/
def assignRows (cart : List (V3 ℝ)) (sel : List ℕ) (row : ℕ → V3 ℝ) : List (V3 ℝ) :=
  sel.zipIdx.foldl (fun a (atom, j) => a.set atom (row j)) cart

/-- `np.linspace(0, 2π, n, endpoint=False)`, mode.py:90. -/
def angles (n : ℕ) : List ℝ := (List.range n).map fun i : ℕ => 2 * Real.pi * i / n

/-- One frame, mode.py:91-93: overwrite the selected rows of the (copied) unit cell. `cur` holds the rows saved at line 86. -/
def frameStep (cur : ℕ → V3 ℝ) (sel : List ℕ) (mass : List ℝ) (mode : ℕ → ℝ) (cart : List (V3 ℝ)) (x : ℝ) : List (V3 ℝ) :=
  assignRows cart sel fun j => cur j + Real.sin x • scaled mass mode j

/-- The frames of one mode: the same cell object is modified again and again (mode.py:90-103).  Returns the frames and
the final content of the cell. -/
def framesOf (cur : ℕ → V3 ℝ) (sel : List ℕ) (mass : List ℝ) (mode : ℕ → ℝ) (cart : List (V3 ℝ)) : List ℝ → List (List (V3 ℝ)) × List (V3 ℝ)
  | [] => ([], cart)
  | x :: xs =>
    let c := frameStep cur sel mass mode cart x
    let (fs, fin) := framesOf cur sel mass mode c xs
    (c :: fs, fin)

/-- `Mode.write`, mode.py:83-105, for a list of modes (real parts): the frames written to each file. -/
def write (cart : List (V3 ℝ)) (sel : List ℕ) (mass : List ℝ) (n : ℕ) (modes : List (ℕ → ℝ)) : List (List (List (V3 ℝ))) :=
  let cur := fun j => cart.getD (sel.getD j 0) 0
  let rec go (c : List (V3 ℝ)) : List (ℕ → ℝ) → List (List (List (V3 ℝ)))
    | [] => []
    | m :: ms =>
      let (fs, fin) := framesOf cur sel mass m c (angles n)
      fs :: go fin ms
  go cart modes

/-- Contract of `fractions.Fraction.limit_denominator(100)` (Python documentation): a closest fraction with denominator at most 100.
(Source: `analysis/mode.py:174`.) -/
structure LimitDen (L : ℚ → ℚ) : Prop where
  den : ∀ x, (L x).den ≤ 100
  closest : ∀ x y : ℚ, y.den ≤ 100 → |L x - x| ≤ |y - x|

/-- The enlargement chosen by `write_mode_displace`, mode.py:171-174. -/
def commensurate (L : ℚ → ℚ) (k : Fin 3 → ℚ) (p : Fin 3 → ℤ) : Fin 3 → ℤ := fun i => if p i ≠ 0 then ((L (k i)).den : ℤ) else 1

/-- `q = np.dot(k_point, reciprocal_matrix)`, mode.py:166. -/
def qOf (k : V3 ℝ) (recip : M3 ℝ) : V3 ℝ := fun j => k 0 * recip 0 j + k 1 * recip 1 j + k 2 * recip 2 j

/-- Displacement of selected super-cell atom number `j` at position `r`, mode.py:188-199: `E` copies per unit-cell atom share
the mode components of selected unit-cell atom `j / E`. -/
def modeDisp (q : V3 ℝ) (amplitude : ℝ) (E : ℕ) (mass : List ℝ) (mode : ℕ → ℝ) (j : ℕ) (r : V3 ℝ) : V3 ℝ := fun c =>
  amplitude * Real.cos (dot3 q r) * mode (3 * (j / E) + c) / Real.sqrt (mass.getD (3 * j + c) 0 / massMax mass)

/-- The displaced super cell, mode.py:166-215. -/
def writeModeDisplace (q : V3 ℝ) (amplitude : ℝ) (E : ℕ) (mass : List ℝ) (cart : List (V3 ℝ)) (sel : List ℕ) (mode : ℕ → ℝ) : List (V3 ℝ) :=
  assignRows cart sel fun j =>
    let r := cart.getD (sel.getD j 0) 0
    r + modeDisp q amplitude E mass mode j r

/-- A `Mode` object, mode.py:32-41: `mode_inds`, `k_point`, `num_images` and `mode` (rows of `v_q` at one k point: one row per mode, one
entry per degree of freedom). -/
structure Obj where
  inds : List ℤ
  k : V3 ℝ
  images : ℕ
  mode : List (ℕ → ℂ)

/-- `Mode.__init__`, mode.py:32-41: thirty images; the arrays are uninitialised (`k0`, `mode0`). -/
def Obj.new (k0 : V3 ℝ) (mode0 : List (ℕ → ℂ)) : Obj := ⟨[], k0, 30, mode0⟩

/-- `Mode.set`, mode.py:43-73, with the setter of `mode_inds` and its `to_int_numpy` (mode.py:7-17, the same text as core/pre_check.py:5-15): the
indices and the k point are stored before the k point is looked up.  `vq` holds the rows of `v_q` per k point.  Returns the object and the
exception, if any. -/
def Obj.set (o : Obj) (kPoints : List (V3 ℝ)) (vq : List (List (ℕ → ℂ))) (inds : Args.PyVal) (k : V3 ℝ) : Obj × Option PyErr :=
  match Args.toIntNumpy inds with
  | .error e => (o, some e)
  | .ok l =>
    match chooseK kPoints k with
    | .error e => ({ o with inds := l, k := k }, some e)
    | .ok i => ({ o with inds := l, k := k, mode := vq.getD i [] }, none)

/-- `a[i]` on the first axis of an array: negative indices count from the end. (Source: `analysis/mode.py:93,193`.) -/
def pyRow {α : Type*} (l : List α) (i : ℤ) : Run α :=
  match (if 0 ≤ i then l[i.toNat]? else if -(l.length : ℤ) ≤ i then l[(l.length + i).toNat]? else none) with
  | some a => .ok a
  | none => .error .indexError

/-- One file of images: the numbers in its name (mode index and k point, mode.py:104) and the positions of the images. -/
structure Movie where
  ind : ℤ
  k : V3 ℝ
  frames : List (List (V3 ℝ))

/-- The loop over the mode indices, mode.py:88-105: `c` is the copied cell (overwritten by every image).  The row of `mode` is looked up in
every image, so with at least one image a bad index raises before its file is opened.  Returns the files written and the exception, if any. -/
def Obj.writeLoop (o : Obj) (cur : ℕ → V3 ℝ) (sel : List ℕ) (mass : List ℝ) : List (V3 ℝ) → List ℤ → List Movie × Option PyErr
  | _, [] => ([], none)
  | c, i :: is =>
    match pyRow o.mode i with
    | .error e => ([], some e)
    | .ok m =>
      let (fs, fin) := framesOf cur sel mass (fun d => (m d).re) c (angles o.images)
      let (r, e) := o.writeLoop cur sel mass fin is
      (⟨i, o.k, fs⟩ :: r, e)

/-- `Mode.write`, mode.py:83-105: the files `XDATCAR_phonon_mode_[index]_[k point]`. -/
def Obj.write (o : Obj) (cart : List (V3 ℝ)) (sel : List ℕ) (mass : List ℝ) : List Movie × Option PyErr :=
  o.writeLoop (fun j => cart.getD (sel.getD j 0) 0) sel mass cart o.inds

/-- The loop of `Mode.plot`, mode.py:129-142: as in `write`, on the positions `atom.positions` that ASE read from the structure file.  The
trajectory file is opened before the row is looked up. Returns the trajectories (an empty one for a bad index) and the exception. -/
def Obj.plotLoop (o : Obj) (cur : ℕ → V3 ℝ) (sel : List ℕ) (mass : List ℝ) : List (V3 ℝ) → List ℤ → List Movie × Option PyErr
  | _, [] => ([], none)
  | c, i :: is =>
    match pyRow o.mode i with
    | .error e => ([⟨i, o.k, []⟩], some e)
    | .ok m =>
      let (fs, fin) := framesOf cur sel mass (fun d => (m d).re) c (angles o.images)
      let (r, e) := o.plotLoop cur sel mass fin is
      (⟨i, o.k, fs⟩ :: r, e)

/-- `Mode.plot`, mode.py:123-145: `positions` are those ASE read (ASE, and the viewer, are not modelled). -/
def Obj.plot (o : Obj) (positions : List (V3 ℝ)) (sel : List ℕ) (mass : List ℝ) : List Movie × Option PyErr :=
  o.plotLoop (fun j => positions.getD (sel.getD j 0) 0) sel mass positions o.inds

/-- The loop of `write_mode_displace`, mode.py:189-215, over the mode indices: the same super cell is overwritten for every index; `cur` holds the rows saved at line 186.
Returned: per index the positions written to `MPOSCAR-[index]`, and the exception, if any. -/
def Obj.displaceLoop (o : Obj) (q : V3 ℝ) (amplitude : ℝ) (E : ℕ) (mass : List ℝ) (cur : ℕ → V3 ℝ) (sel : List ℕ) : List (V3 ℝ) → List ℤ → List (ℤ × List (V3 ℝ)) × Option PyErr
  | _, [] => ([], none)
  | c, i :: is =>
    match pyRow o.mode i with
    | .error e => ([], some e)
    | .ok m =>
      let c' := assignRows c sel fun j => cur j + modeDisp q amplitude E mass (fun d => (m d).re) j (cur j)
      let (r, e) := o.displaceLoop q amplitude E mass cur sel c' is
      ((i, c') :: r, e)

/-- The structures of `write_mode_displace`, mode.py:186-215, on the super cell with positions `cart`. -/
def Obj.displace (o : Obj) (q : V3 ℝ) (amplitude : ℝ) (E : ℕ) (mass : List ℝ) (cart : List (V3 ℝ)) (sel : List ℕ) : List (ℤ × List (V3 ℝ)) × Option PyErr :=
  o.displaceLoop q amplitude E mass (fun j => cart.getD (sel.getD j 0) 0) sel cart o.inds

end Interphon.Mode
