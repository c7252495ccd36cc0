import Verif.Model.Symmetry
import Mathlib.Analysis.Real.Sqrt
import Mathlib.LinearAlgebra.Matrix.NonsingularInverse

/-!
# Model of `InterPhon/util/symmetry.py`, part 2: displacement directions

Real numbers (square roots).  `np.linalg.inv` of the basis is Mathlib's `⁻¹` (the lattice is regular; a singular one raises in the code).
-/

namespace Interphon.SymDisp
open Py Interphon Interphon.Symmetry
noncomputable section

/-- `np.linalg.norm(_original_basis, axis=0)`, util/symmetry.py:379: lengths of the lattice vectors. -/
def edge (L : M3 ℝ) (c : Fin 3) : ℝ := Real.sqrt (∑ k, L c k ^ 2)

/-- `to_cart_coord`, util/symmetry.py:378-379 and core/post_process.py:163-164: the transposed lattice with normalised columns. -/
def toCart (L : M3 ℝ) : M3 ℝ := fun r c => L c r / edge L c

/-- `to_cart_coord @ W @ to_direct_coord`, util/symmetry.py:395 and core/post_process.py:167. -/
def cartOp (L : M3 ℝ) (W : M3 ℝ) : M3 ℝ := toCart L * W * (toCart L)⁻¹

/-- `_random_direction_cart`, util/symmetry.py:382. -/
def dir0 : V3 ℝ := ![1 / Real.sqrt 2, 0, 1 / Real.sqrt 2]

/-- The candidates for further directions, util/symmetry.py:436-437. -/
def extra : List (V3 ℝ) := [![0, 1 / Real.sqrt 2, 1 / Real.sqrt 2], ![1 / Real.sqrt 2, 1 / Real.sqrt 2, 0]]

/-- The number tested for independence, util/symmetry.py:410-413 and 446-449. -/
def csDiff (u v : V3 ℝ) : ℝ := (u ⬝ᵥ u) * (v ⬝ᵥ v) - (u ⬝ᵥ v) * (u ⬝ᵥ v)

/-- The identity operation. (Source: `util/symmetry.py:391`.) -/
def one : Op := ⟨1, 0, 0, 1⟩
/-- `@` on the in-plane parts. (Source: `util/symmetry.py:391-393`.) -/
def comp (V W : Op) : Op := ⟨V.a * W.a + V.b * W.c, V.a * W.b + V.b * W.d, V.c * W.a + V.d * W.c, V.c * W.b + V.d * W.d⟩

/-- The `while` loop over powers, util/symmetry.py:391-393, with a bound on the number of turns (`none`: the bound was hit; in the code the
loop would go on). -/
def powersFrom (W : Op) : ℕ → Op → Option (List Op)
  | 0, cur => if cur = one then some [] else none
  | fuel + 1, cur => if cur = one then some [] else (powersFrom W fuel (comp cur W)).map (cur :: ·)

/-- `set_W`, util/symmetry.py:388-393. -/
def setW (W : Op) : Option (List Op) := (powersFrom W 6 W).map (one :: ·)

/-- All candidates `(W, W_cart @ direction)` of one required atom in order, util/symmetry.py:387-400; `ops` are the operations that map it to
itself. -/
def dirCands (L : M3 ℝ) (i j : Fin 3) : List Op → Option (List (Op × V3 ℝ))
  | [] => some []
  | W :: rest =>
    match setW W, dirCands L i j rest with
    | some ps, some l => some (ps.map (fun P => (P, (cartOp L (embed i j P)).mulVec dir0)) ++ l)
    | _, _ => none

open Classical in
/-- The loop that keeps independent directions, util/symmetry.py:405-424: `prev` are all earlier candidates, kept or not. -/
def keepLoop : List (V3 ℝ) → List (Op × V3 ℝ) → List (Op × V3 ℝ) → List (Op × V3 ℝ)
  | _, kept, [] => kept
  | prev, kept, (W, v) :: rest =>
    if ∀ p ∈ prev, ¬csDiff v p < 1 / 10 ^ 6 then
      if kept.length < 3 then keepLoop (prev ++ [v]) (kept ++ [(W, v)]) rest else kept
    else keepLoop (prev ++ [v]) kept rest

/-- `find_point_group_index`, util/symmetry.py:463-481: `assert False` if the operation was not recorded. -/
def findIndex (ops : List Op) (W : Op) : Run ℕ :=
  if W ∈ ops then .ok (ops.idxOf W) else .error .assertionError

/-- `search_independent_displacement` for one required atom, util/symmetry.py:384-428: index of the operation, operation, direction.
`none` in the result of the power loops is mapped to a missing result. -/
def independent (L : M3 ℝ) (i j : Fin 3) (ops selfOps : List Op) : Option (Run (List (ℕ × Op × V3 ℝ))) :=
  match dirCands L i j selfOps with
  | none => none
  | some [] => some (.error .indexError)
  | some ((W, v) :: rest) => some ((keepLoop [v] [(W, v)] rest).mapM fun q => do
      let k ← findIndex ops q.1
      pure (k, q.1, q.2))

open Classical in
/-- `gen_additional_displacement` for one required atom, util/symmetry.py:434-461. -/
def additional (single : List (V3 ℝ)) : List (V3 ℝ) :=
  match single.length with
  | 2 => (extra.find? fun e => decide (∀ v ∈ single, ¬csDiff e v < 1 / 10 ^ 6)).toList
  | 1 => extra
  | _ => []

end
end Interphon.SymDisp
