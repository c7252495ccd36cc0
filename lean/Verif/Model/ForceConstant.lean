import Verif.Model.Cell

/-!
# Model of `PostProcess.set_force_constant`, `InterPhon/core/post_process.py:89-345`

The three code branches (`vasp` 109-187, `espresso` 189-266, `aims` 268-345) are textually identical except
for the parser called; the model takes the parsed forces.  An `N×3` numpy array is a function
`ℕ → V3 K` of the row index, the force-constant matrix a function of row and column; writes outside the
shape raise `IndexError`, `np.empty` content is an arbitrary function.  Numbers are exact.
-/

noncomputable section

namespace Interphon.ForceConstant
open Py Interphon

variable {K : Type*} [Field K] [DecidableEq K]

/-- Forces on all super-cell atoms, as returned by `read_output_lines` (row = atom). (Source: `core/post_process.py:127-131`.) -/
abbrev Rows (K : Type*) := ℕ → V3 K

/-- The `force_constant` array: row, column. (Source: `core/post_process.py:54-55`.) -/
abbrev FC (K : Type*) := ℕ → ℕ → K

/-- `10 ** (-10)`, metres per Ångström. (Source: `core/post_process.py:160,186`.) -/
def ang : K := 1 / 10 ^ 10

/-- Component `r % 3` as an index. (Source: `core/post_process.py:187`.) -/
def comp (r : ℕ) : Fin 3 := ⟨r % 3, Nat.mod_lt _ (by norm_num)⟩

/-- `M.reshape([3N])[r]` for an `N×3` array, row-major. (Source: `core/post_process.py:151,187`.) -/
def reshape (M : Rows K) (r : ℕ) : K := M (r / 3) (comp r)

/-- `fc[:, c] = col`. (Source: `core/post_process.py:187`.) -/
def setCol (fc : FC K) (c : ℕ) (col : ℕ → K) : FC K := fun r c' => if c' = c then col r else fc r c'

/-- Loop of the branch without symmetry, `core/post_process.py:178-187`.  `ind` is `_ind_file`, `fwd` the
variable `_forward_matrix`, `ncols` the number of columns of the array. -/
def plainLoop (d : K) (ncols : ℕ) : ℕ → Rows K → List (Rows K) → FC K → Run (FC K)
  | _, _, [], fc => .ok fc
  | ind, fwd, f :: rest, fc =>
    if ind % 2 = 0 then plainLoop d ncols (ind + 1) f rest fc
    else if ind / 2 < ncols then
      plainLoop d ncols (ind + 1) fwd rest
        (setCol fc (ind / 2) (reshape fun a x => -(fwd a x - f a x) / (2 * d * ang)))
    else .error .indexError

/-- `set_force_constant(sym_flag=False)`; `nsel` selected atoms, `junk` the uninitialised array
(`core/post_process.py:54-55`). -/
def setPlain (d : K) (nsel : ℕ) (junk : FC K) (files : List (Rows K)) : Run (FC K) :=
  plainLoop d (3 * nsel) 0 (fun _ _ => 0) files junk

/-! ### Symmetry branch -/

/-- What the symmetry search recorded for one required atom, joined: its index in the selection,
`independent_by_single_displacement_cart[i]`, the pairs
(`same_supercell_index_select[W_index][require]`, `W_cart`), and `independent_additional_displacement_cart[i]`.
(Source: `core/post_process.py:119-146`.) -/
structure ReqAtom (K : Type*) where
  idx : ℕ
  single : List (V3 K)
  ops : List (List ℕ × M3 K)
  additional : List (V3 K)

/-- What was recorded for one derived atom: its index, `W_in_cart`, the row map
`same_supercell_index_select[pg][not_require]` and `same_index_select[pg][0][not_require]`. (Source: `core/post_process.py:166-176`.) -/
structure Derived (K : Type*) where
  idx : ℕ
  W : M3 K
  rows : List ℕ
  image : ℕ

/-- `__M[image] = rot[original]` with index arrays: assignments in order (a later duplicate wins). (Source: `core/post_process.py:148-149`.) -/
def scatter (M rot : Rows K) : List (ℕ × ℕ) → Rows K
  | [] => M
  | (img, orig) :: rest => scatter (Function.update M img (rot orig)) rot rest

/-- `_image_sindex`, `_original_sindex`, `core/post_process.py:145-146`: row `atom_true[i]` goes to row
`atom_true[perm[i]]`. `at_` is `super_cell.atom_true`. -/
def rowPairs (at_ : ℕ → ℕ) (perm : List ℕ) : List (ℕ × ℕ) :=
  (List.range perm.length).map fun i => (at_ (perm.getD i 0), at_ i)

/-- The loop over `zip(W_index, W_cart)` at `j // 2 == 0`, `core/post_process.py:139-152`, for one of the
two (forward/backward) matrices: `raw` is `_forward_matrix`, `acc` is `__forward_matrix` (which keeps rows
from earlier iterations), `col` the next column `k`. -/
def rotLoop (at_ : ℕ → ℕ) (raw : Rows K) : ℕ → Rows K → List (List ℕ × M3 K) → (ℕ → Rows K) → (ℕ → Rows K)
  | _, _, [], cols => cols
  | k, acc, (perm, W) :: rest, cols =>
    let acc' := scatter acc (fun r => W.mulVec (raw r)) (rowPairs at_ perm)
    rotLoop at_ raw (k + 1) acc' rest (Function.update cols k acc')

/-- `np.transpose(np.array(_independent_displace))`, `core/post_process.py:127`: vectors as columns. -/
def ofColumns (vs : List (V3 K)) : M3 K := fun r c => (vs.getD c 0) r

/-- The additional displacements, `core/post_process.py:153-156`: column `j//2 + kk` receives the raw matrix;
`kk + 1` is the number of rotated columns. -/
def addLoop (files : List (Rows K)) (start : ℕ) : ℕ → ℕ → (ℕ → Rows K) → Run (ℕ → Rows K)
  | _, 0, cols => .ok cols
  | col, m + 1, cols =>
    match getE files start with
    | .error e => .error e
    | .ok f => addLoop files (start + 2) (col + 1) m (Function.update cols col f)

/-- Body of the loop over required atoms, `core/post_process.py:120-161`, for the atom whose first file has
index `k0`; returns the index of the next file and the array. -/
def reqStep (d : K) (at_ : ℕ → ℕ) (junk : ℕ → Rows K) (files : List (Rows K)) (k0 : ℕ) (q : ReqAtom K) (fc : FC K) :
    Run (ℕ × FC K) :=
  let vs := q.single ++ q.additional
  let T := ofColumns vs
  if vs.length ≠ 3 ∨ T.det = 0 then .error .linAlgError
  else match getE files k0, getE files (k0 + 1) with
    | .ok f, .ok b =>
      if 3 < q.ops.length + q.additional.length then .error .indexError
      else match addLoop files (k0 + 2) q.ops.length q.additional.length (rotLoop at_ f 0 f q.ops junk),
                 addLoop files (k0 + 3) q.ops.length q.additional.length (rotLoop at_ b 0 b q.ops junk) with
        | .ok F, .ok B =>
          .ok (k0 + 2 * (q.additional.length + 1), fun r c =>
            if 3 * q.idx ≤ c ∧ c < 3 * (q.idx + 1) then
              -(∑ k : Fin 3, (reshape (F k) r - reshape (B k) r) * T⁻¹ k (comp c)) / (2 * d * ang)
            else fc r c)
        | _, _ => .error .indexError
    | _, _ => .error .indexError

/-- The loop over required atoms. (Source: `core/post_process.py:119-161`.) -/
def reqLoop (d : K) (at_ : ℕ → ℕ) (junk : ℕ → Rows K) (files : List (Rows K)) : ℕ → List (ReqAtom K) → FC K → Run (FC K)
  | _, [], fc => .ok fc
  | k0, q :: rest, fc =>
    match reqStep d at_ junk files k0 q fc with
    | .error e => .error e
    | .ok (k1, fc') => reqLoop d at_ junk files k1 rest fc'

/-- The 3×3 block of rows of super-cell atom `s` and columns of selected atom `a`. (Source: `core/post_process.py:174-175`.) -/
def block (fc : FC K) (s a : ℕ) : M3 K := fun x y => fc (3 * s + x) (3 * a + y)

/-- `fc[3s:3(s+1), 3a:3(a+1)] = B`, `core/post_process.py:171-172`. -/
def setBlock (fc : FC K) (s a : ℕ) (B : M3 K) : FC K := fun r c =>
  if r / 3 = s ∧ c / 3 = a then B (comp r) (comp c) else fc r c

/-- Inner loop over super-cell atoms for a derived atom, `core/post_process.py:169-176`. -/
def derRows (at_ : ℕ → ℕ) (q : Derived K) : ℕ → List ℕ → FC K → FC K
  | _, [], fc => fc
  | si, same :: rest, fc =>
    derRows at_ q (si + 1) rest
      (setBlock fc (at_ si) q.idx (q.W⁻¹ * block fc (at_ same) q.image * q.W))

/-- Loop over derived atoms, `core/post_process.py:163-176`; `np.linalg.inv` raises on a singular matrix. -/
def derLoop (at_ : ℕ → ℕ) : List (Derived K) → FC K → Run (FC K)
  | [], fc => .ok fc
  | q :: rest, fc => if q.rows ≠ [] ∧ q.W.det = 0 then .error .linAlgError
    else derLoop at_ rest (derRows at_ q 0 q.rows fc)

/-- `set_force_constant(sym_flag=True)` on a two-dimensionally periodic system, with the recorded symmetry.
(Source: `core/post_process.py:110-176`.) -/
def setSym (d : K) (at_ : ℕ → ℕ) (junkCols : ℕ → Rows K) (junk : FC K) (req : List (ReqAtom K)) (der : List (Derived K))
    (files : List (Rows K)) : Run (FC K) :=
  match reqLoop d at_ junkCols files 0 req junk with
  | .error e => .error e
  | .ok fc => derLoop at_ der fc

end Interphon.ForceConstant
