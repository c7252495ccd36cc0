import Verif.Model.KPoints
import Verif.Model.Phonon
import Verif.Model.SymPlan
import Verif.Model.PreProcess

/-!
# Model of the `PostProcess` object as a state machine, `InterPhon/core/post_process.py:37-77, 89-108, 346-470`

A call returns the object afterwards *and* the exception it raised, if any: an exception leaves the assignments
already made in place, and the caller may catch it and go on.
-/

noncomputable section

namespace Interphon.PostProcess
open Py Interphon Interphon.Phonon Interphon.ForceConstant

/-- The attributes of a `PostProcess` object that the calls below read or write, `core/post_process.py:44-62`:
the cells, enlargement and periodicity, displacement, masses, `reciprocal_matrix`, `force_constant`, `k_points`,
`auto_k_points`, `w_q`, `v_q` (one entry per wave vector), and the rows of the file `freqency_at_gamma_point.dat`. -/
structure Object where
  unit : Cell ℝ
  super : Cell ℝ
  n : Fin 3 → ℤ
  p : Fin 3 → ℤ
  d : ℝ
  mass : ℕ → ℝ
  recip : M3 ℝ
  fc : FC ℝ
  kPoints : List (V3 ℚ)
  auto : List ℤ
  wq : List (List ℝ)
  vq : List (List (List ℂ))
  gammaFile : Option (List ℝ)

/-- `PostProcess.__init__` and `set_user_arg`, `core/post_process.py:40-76`, given the cells and arguments they leave: the arrays
`reciprocal_matrix` and `force_constant` are `np.empty`, i.e. arbitrary (`junkR`, `junkF`); no wave vectors, no frequencies. -/
def new (u s : Cell ℝ) (n p : Fin 3 → ℤ) (d : ℝ) (mass : ℕ → ℝ) (junkR : M3 ℝ) (junkF : FC ℝ) : Object :=
  ⟨u, s, n, p, d, mass, junkR, junkF, [], [], [], [], none⟩

/-- An eigenvalue solver followed by the two sorts of `core/post_process.py:455-459`: the stored frequencies and mode rows of a matrix. -/
abbrev Solver := (m : ℕ) → Matrix (Fin m) (Fin m) ℂ → (Fin m → ℝ) × Matrix (Fin m) (Fin m) ℂ

/-- Number of degrees of freedom, `len(self.unit_cell.xyz_true)`. (Source: `core/post_process.py:59-65`.) -/
def dof (o : Object) : ℕ := (o.unit.xyzTrue.getD []).length

/-- What `eval_phonon` reads, `core/post_process.py:405-418`. -/
def data (o : Object) : PhononData := { ofCells o.unit o.super o.n o.p o.fc o.mass with recip := o.recip }

/-- A wave vector with rational coefficients as reals. (Source: `core/post_process.py:413`.) -/
def toReal (k : V3 ℚ) : V3 ℝ := fun c => (k c : ℝ)

/-- The outcome of one pass of the loop over wave vectors, `core/post_process.py:412-460`. -/
def atK (S : Solver) (o : Object) (k : V3 ℚ) : (Fin (dof o) → ℝ) × Matrix (Fin (dof o)) (Fin (dof o)) ℂ :=
  S (dof o) (Matrix.of fun (r c : Fin (dof o)) => dynMatrix (data o) (toReal k) r c)

/-- `set_reciprocal_lattice`, `core/post_process.py:78-87`. -/
def setReciprocal (o : Object) : Object × Option PyErr := ({ o with recip := reciprocal o.unit.lattice }, none)

/-- `set_k_points`, `core/post_process.py:346-389`.  `file` is the content of the file, `none` if it cannot be opened (the exception is
raised before the attributes are reset, line 364-368); any later exception leaves both attributes empty (lines 370-371). -/
def setK (file : Option (List Str)) (o : Object) : Object × Option PyErr :=
  match file with
  | none => (o, some .fileNotFound)
  | some lines =>
    match KPoints.setKPoints lines (fun c => decide (o.p c ≠ 0)) with
    | .error e => ({ o with kPoints := [], auto := [] }, some e)
    | .ok r => ({ o with kPoints := r.1, auto := r.2 }, none)

/-- The array computed by `set_force_constant`, `core/post_process.py:102-187`: the symmetry flag is dropped unless two directions are
periodic (lines 103-108).  Simplification: a search that does not return counts as a plain exception. -/
def forceConstant (junkCols : ℕ → Rows ℝ) (sym : Bool) (files : List (Rows ℝ)) (o : Object) : Run (FC ℝ) :=
  if sym = true ∧ PreProcess.numPbc o.p = 2 then
    match SymPlan.symPlan o.unit o.super o.p with
    | none => .error .exception
    | some (.error e) => .error e
    | some (.ok plan) => setSym o.d (fun i => (o.super.atomTrue.getD []).getD i 0) junkCols o.fc plan.1 plan.2 files
  else setPlain o.d ((o.unit.atomTrue.getD []).length) o.fc files

/-- `set_force_constant`, `core/post_process.py:89-187`.  After an exception the array is partly overwritten; its content `left` is then
left open. -/
def setForce (left : FC ℝ) (junkCols : ℕ → Rows ℝ) (sym : Bool) (files : List (Rows ℝ)) (o : Object) : Object × Option PyErr :=
  match forceConstant junkCols sym files o with
  | .error e => ({ o with fc := left }, some e)
  | .ok fc => ({ o with fc := fc }, none)

/-- `eval_phonon`, `core/post_process.py:391-460`: `w_q` and `v_q` are replaced only if there are wave vectors. -/
def frequencies (S : Solver) (o : Object) : Object :=
  if o.kPoints.length ≠ 0 then
    { o with
      wq := o.kPoints.map fun k => List.ofFn (atK S o k).1
      vq := o.kPoints.map fun k => List.ofFn fun m => List.ofFn ((atK S o k).2 m) }
  else o

/-- `eval_phonon`, `core/post_process.py:391-470`.  For a system without periodic direction the frequencies at the first wave vector are
written to a file; it is opened (line 463) before `self.w_q[0]` may raise `IndexError` (line 468). -/
def eval (S : Solver) (o : Object) : Object × Option PyErr :=
  let o' := frequencies S o
  if PreProcess.numPbc o.p = 0 then
    match o'.wq with
    | [] => ({ o' with gammaFile := some [] }, some .indexError)
    | row :: _ => ({ o' with gammaFile := some row }, none)
  else (o', none)

/-- The calls a user can make after the arguments are set. (Source: the methods of `core/post_process.py:78-470`.) -/
inductive Call
  | reciprocal
  | force (left : FC ℝ) (junkCols : ℕ → Rows ℝ) (sym : Bool) (files : List (Rows ℝ))
  | kPoints (file : Option (List Str))
  | eval

/-- One call. (Source: the methods of `core/post_process.py:78-470`.) -/
def step (S : Solver) (o : Object) : Call → Object × Option PyErr
  | .reciprocal => setReciprocal o
  | .force left jc sym files => setForce left jc sym files o
  | .kPoints file => setK file o
  | .eval => eval S o

/-- A history of calls; exceptions are caught by the caller. (Source: the methods of `core/post_process.py:78-470`.) -/
def run (S : Solver) (o : Object) (h : List Call) : Object := h.foldl (fun o c => (step S o c).1) o

end Interphon.PostProcess
