import Verif.Model.Cell
import Mathlib.Algebra.Order.Floor.Ring
import Mathlib.Algebra.Order.Ring.Abs
import Mathlib.Data.Rat.Floor

/-!
# Model of `InterPhon/util/symmetry.py`

Numbers are exact elements of an ordered field with floor function; `np.linalg.det` of the integer candidates is exact.
Arrays are taken with their validated shapes (`Cell`).
-/

namespace Interphon.Symmetry
open Py Interphon

/-- An integer 2×2 matrix `[[a, b], [c, d]]`, an entry of `W_candidate`, util/symmetry.py:5-51. -/
structure Op where
  a : ℤ
  b : ℤ
  c : ℤ
  d : ℤ
  deriving DecidableEq, Repr

/-- `W_candidate`, util/symmetry.py:5-51, in source order. -/
def candidates : List Op := [
  ⟨0, 1, 1, 0⟩, ⟨0, 1, -1, 0⟩, ⟨0, -1, 1, 0⟩, ⟨0, -1, -1, 0⟩, ⟨0, 1, 1, 1⟩, ⟨0, 1, 1, -1⟩, ⟨0, 1, -1, 1⟩, ⟨0, -1, 1, 1⟩,
  ⟨0, -1, -1, 1⟩, ⟨0, -1, 1, -1⟩, ⟨0, 1, -1, -1⟩, ⟨0, -1, -1, -1⟩, ⟨1, 0, 0, 1⟩, ⟨1, 0, 0, -1⟩, ⟨-1, 0, 0, 1⟩, ⟨-1, 0, 0, -1⟩,
  ⟨1, 0, 1, 1⟩, ⟨1, 0, 1, -1⟩, ⟨1, 0, -1, 1⟩, ⟨-1, 0, 1, 1⟩, ⟨-1, 0, -1, 1⟩, ⟨-1, 0, 1, -1⟩, ⟨1, 0, -1, -1⟩, ⟨-1, 0, -1, -1⟩,
  ⟨1, 1, 0, 1⟩, ⟨1, 1, 0, -1⟩, ⟨1, -1, 0, 1⟩, ⟨-1, 1, 0, 1⟩, ⟨-1, -1, 0, 1⟩, ⟨-1, 1, 0, -1⟩, ⟨1, -1, 0, -1⟩, ⟨-1, -1, 0, -1⟩,
  ⟨1, 1, 1, 0⟩, ⟨1, 1, -1, 0⟩, ⟨1, -1, 1, 0⟩, ⟨-1, 1, 1, 0⟩, ⟨-1, -1, 1, 0⟩, ⟨-1, 1, -1, 0⟩, ⟨1, -1, -1, 0⟩, ⟨-1, -1, -1, 0⟩]

/-- The 2×2 matrix. (Source: `util/symmetry.py:7-51`.) -/
def Op.mat (W : Op) : Matrix (Fin 2) (Fin 2) ℤ := !![W.a, W.b; W.c, W.d]

/-- `np.trace`. (Source: `util/symmetry.py:223`.) -/
def Op.trace (W : Op) : ℤ := W.a + W.d
/-- `np.linalg.det`. (Source: `util/symmetry.py:223`.) -/
def Op.det (W : Op) : ℤ := W.a * W.d - W.b * W.c

section
variable {K : Type*} [Field K] [LinearOrder K] [FloorRing K]

/-- `np.allclose` for one entry: `|a - b| ≤ atol + 1e-05 * |b|`. (Source: `util/symmetry.py:152,182,200`.) -/
def close (atol a b : K) : Bool := decide (|a - b| ≤ atol + 1 / 10 ^ 5 * |b|)

/-- `np.rint`: round half to even. (Source: `util/symmetry.py:198,350`.) -/
def rint (x : K) : ℤ :=
  let f := ⌊x⌋
  if x - f < 1 / 2 then f else if 1 / 2 < x - f then f + 1 else if f % 2 = 0 then f else f + 1

/-- `np.round_(x, 6)`. (Source: `util/symmetry.py:179`.) -/
def round6 (x : K) : K := (rint (x * 10 ^ 6) : K) / 10 ^ 6

/-- First component of `np.modf`: the fractional part, with the sign of `x`. (Source: `util/symmetry.py:181`.) -/
def modf (x : K) : K := if 0 ≤ x then x - ⌊x⌋ else x - ⌈x⌉

/-- What the search reads: `unit_cell.lattice_matrix`, `atom_type`, `atom_direct`, `atom_true` and `user_arg.periodicity`.
(Source: `util/symmetry.py:131-280`.) -/
structure Input (K : Type*) where
  lattice : M3 K
  types : List Str
  direct : List (V3 K)
  sel : List ℕ
  period : Fin 3 → ℤ

/-- The periodic axes, `periodicity.nonzero()[0]`. (Source: `util/symmetry.py:143-146`.) -/
def axes (p : Fin 3 → ℤ) : List (Fin 3) := (List.finRange 3).filter (fun i => p i ≠ 0)

/-- `G_metric`, util/symmetry.py:143-146: from the rows and columns `i`, `j` of the lattice matrix. -/
def metric (L : M3 K) (i j : Fin 3) : K × K × K :=
  (L i i * L i i + L i j * L i j, L i i * L j i + L i j * L j j, L j i * L j i + L j j * L j j)

/-- `G_rotate = rotᵀ G rot`, util/symmetry.py:151, for symmetric `G = [[g, h], [h, k]]`. -/
def rotateMetric (W : Op) (G : K × K × K) : K × K × K :=
  let (g, h, k) := G
  (W.a * (g * W.a + h * W.c) + W.c * (h * W.a + k * W.c),
   W.a * (g * W.b + h * W.d) + W.c * (h * W.b + k * W.d),
   W.b * (g * W.b + h * W.d) + W.d * (h * W.b + k * W.d))

/-- `np.allclose(G_metric, G_rotate, atol=1e-06)`, util/symmetry.py:152. -/
def keepsMetric (G : K × K × K) (W : Op) : Bool :=
  let R := rotateMetric W G
  close (1 / 10 ^ 6) G.1 R.1 && close (1 / 10 ^ 6) G.2.1 R.2.1 && close (1 / 10 ^ 6) G.2.2 R.2.2

/-- The 3×3 identity with the block at axes `i`, `j` replaced by `W`, util/symmetry.py:161-163. -/
def embed (i j : Fin 3) (W : Op) : M3 K := fun r c =>
  if r = i ∧ c = i then (W.a : K) else if r = i ∧ c = j then (W.b : K) else if r = j ∧ c = i then (W.c : K)
  else if r = j ∧ c = j then (W.d : K) else if r = c then 1 else 0

/-- `self.unit_cell.atom_direct[i]` (an index out of range is not modelled: the setters check the lengths). (Source: `util/symmetry.py:156`.) -/
def Input.x (s : Input K) (a : ℕ) : V3 K := s.direct.getD a 0
/-- `atom_type[i]`. (Source: `util/symmetry.py:178`.) -/
def Input.typ (s : Input K) (a : ℕ) : Str := s.types.getD a []

/-- `tmp_index`, util/symmetry.py:169-172. -/
def tmpIndex (s : Input K) : ℕ :=
  if s.sel.length < s.types.length then ((List.range s.types.length).filter (fun i => i ∉ s.sel)).headD 0 else 0

/-- `other_atom_ind`, util/symmetry.py:173-174. -/
def others (s : Input K) : List ℕ := (List.range s.types.length).erase (tmpIndex s)

/-- The candidate translation for the `k`-th other atom, util/symmetry.py:179: the code subtracts from the position of atom number `k`
(the running index `other_index`), not from that of the `k`-th other atom. -/
def candVec (s : Input K) (W : M3 K) (k : ℕ) : V3 K := fun c => round6 (s.x k c - (W.mulVec (s.x (tmpIndex s))) c)

/-- `w_candidate`, util/symmetry.py:176-183; `n` is the first non-periodic axis. -/
def transCands (s : Input K) (W : M3 K) (n : Fin 3) : List (V3 K) :=
  0 :: (others s).zipIdx.filterMap fun (o, k) =>
    if s.typ o = s.typ (tmpIndex s) ∧ candVec s W k n = 0 ∧
        ¬(∀ c, close (1 / 10 ^ 6) (modf (candVec s W k c)) 0 = true) then
      some (fun c => modf (candVec s W k c))
    else none

/-- The Cartesian difference of two positions modulo the lattice, util/symmetry.py:197-198 and 349-350. -/
def deltaCart (L : M3 K) (δ : V3 K) : V3 K := Matrix.vecMul (fun c => δ c - (rint (δ c) : K)) L

/-- `np.allclose(delta_x_cart, np.zeros([3, ]), atol=1e-04)`. (Source: `util/symmetry.py:182,200`.) -/
def nearZero (v : V3 K) : Bool := decide (∀ c, close (1 / 10 ^ 4) (v c) 0 = true)

/-- The matches of the selected atom number `i`, util/symmetry.py:193-202: positions in the selection of atoms of the same type. -/
def matchesOf (s : Input K) (W : M3 K) (w : V3 K) (i : ℕ) : List ℕ :=
  (List.range s.sel.length).filter fun t =>
    decide (s.typ (s.sel.getD t 0) = s.typ (s.sel.getD i 0)) &&
      nearZero (deltaCart s.lattice (fun c => (W.mulVec (s.x (s.sel.getD i 0))) c + w c - s.x (s.sel.getD t 0) c))

/-- The loop over the selected atoms, util/symmetry.py:191-207: `__same_index` grows; whenever its length equals the number of selected
atoms the translation is recorded (with a reference to the growing list).  Returns the final list and how often it was recorded. -/
def sameLoop (s : Input K) (W : M3 K) (w : V3 K) : List ℕ → List ℕ → ℕ → List ℕ × ℕ
  | [], acc, n => (acc, n)
  | i :: rest, acc, n =>
    let acc' := acc ++ matchesOf s W w i
    sameLoop s W w rest acc' (if acc'.length = s.sel.length then n + 1 else n)

/-- The recorded translations for one rotation, util/symmetry.py:186-210. -/
def transFor (s : Input K) (W : M3 K) (n : Fin 3) : List (V3 K × List ℕ) :=
  (transCands s W n).flatMap fun w =>
    let r := sameLoop s W w (List.range s.sel.length) [] 0
    List.replicate r.2 (w, r.1)

/-- One recorded operation: the 2×2 part and the pairs (translation, images), `W_select`, `w_select`, `same_index_select`.
(Source: `util/symmetry.py:77-80,215-221`.) -/
abbrev Recorded (K : Type*) := Op × List (V3 K × List ℕ)

/-- The recorded operations, util/symmetry.py:149-221. -/
def recorded (s : Input K) (i j n : Fin 3) : List (Recorded K) :=
  ((candidates.filter (keepsMetric (metric s.lattice i j))).map fun W => (W, transFor s (embed i j W) n)).filter (fun r => r.2 ≠ [])

end

/-- The counter increased by one operation, util/symmetry.py:223-238: `m`, `1`, `2`, `3`, `4`, `6`. -/
def lookUp (W : Op) : Option (Fin 6) :=
  if W.trace = 0 ∧ W.det = -1 then some 0
  else if W.trace = 2 ∧ W.det = 1 then some 1
  else if W.trace = -2 ∧ W.det = 1 then some 2
  else if W.trace = -1 ∧ W.det = 1 then some 3
  else if W.trace = 0 ∧ W.det = 1 then some 4
  else if W.trace = 1 ∧ W.det = 1 then some 5
  else none

/-- `look_up_table`, util/symmetry.py:213-238. -/
def lookUpTable (ops : List Op) : Run (List ℕ) :=
  if ops.all (fun W => (lookUp W).isSome) then .ok ((List.finRange 6).map fun k => ops.countP (fun W => lookUp W = some k))
  else .error .assertionError

/-- The names, util/symmetry.py:240-277 (integer counters within `1e-5·n + 1e-8` of an integer table are equal). -/
def groupName : List ℕ → Run Str
  | [0, 1, 0, 0, 0, 0] => .ok "1".toList
  | [0, 1, 1, 0, 0, 0] => .ok "2".toList
  | [1, 1, 0, 0, 0, 0] => .ok "m".toList
  | [2, 1, 1, 0, 0, 0] => .ok "2mm".toList
  | [2, 2, 0, 0, 0, 0] => .ok "m (cm)".toList
  | [4, 2, 2, 0, 0, 0] => .ok "2mm (c2mm)".toList
  | [0, 1, 1, 0, 2, 0] => .ok "4".toList
  | [4, 1, 1, 0, 2, 0] => .ok "4mm".toList
  | [0, 1, 0, 2, 0, 0] => .ok "3".toList
  | [3, 1, 0, 2, 0, 0] => .ok "3m".toList
  | [0, 1, 1, 2, 0, 2] => .ok "6".toList
  | [6, 1, 1, 2, 0, 2] => .ok "6mm".toList
  | _ => .error .cannotSearchPointGroup

section
variable {K : Type*} [Field K] [LinearOrder K] [FloorRing K]

/-- `search_point_group`, util/symmetry.py:131-279.  With a number of periodic axes other than two `np.dot(G_metric, rot)` raises
`ValueError`; with no atoms `other_atom_ind.remove(0)` does (if a rotation is left). -/
def searchPointGroup (s : Input K) : Run (List (Recorded K) × Str) :=
  match axes s.period with
  | [i, j] =>
    if s.types = [] then .error .valueError
    else
      let n : Fin 3 := ((List.finRange 3).filter (fun k => s.period k = 0)).headD 0
      let ops := recorded s i j n
      match lookUpTable (ops.map Prod.fst) with
      | .error e => .error e
      | .ok t => match groupName t with
        | .error e => .error e
        | .ok name => .ok (ops, name)
  | _ => .error .valueError

/-! ### Images -/

/-- First loop of `search_image_atom`, util/symmetry.py:293-305: state `(point_group_ind, require_atom, not_require_atom)`;
`same0` lists `same[0]` of every operation. -/
def imageLoop (same0 : List (List ℕ)) : List ℕ → List ℕ × List ℕ × List ℕ → Run (List ℕ × List ℕ × List ℕ)
  | [], st => .ok st
  | i :: rest, (pg, req, der) =>
    if req = [] then imageLoop same0 rest (pg, req ++ [i], der)
    else match firstHit same0 i req 0 with
      | .error e => .error e
      | .ok (some k) => imageLoop same0 rest (pg ++ [k], req, der ++ [i])
      | .ok none => imageLoop same0 rest (pg, req ++ [i], der)
where
  /-- The inner loop, lines 296-301: first operation whose image of `i` is already required. -/
  firstHit : List (List ℕ) → ℕ → List ℕ → ℕ → Run (Option ℕ)
    | [], _, _, _ => .ok none
    | same :: rest, i, req, k => match getE same i with
      | .error e => .error e
      | .ok img => if img ∈ req then .ok (some k) else firstHit rest i req (k + 1)

/-- `same[0]` of every operation: the images under the first recorded translation, util/symmetry.py:297. -/
def sameFirst (ops : List (Recorded K)) : List (List ℕ) := ops.map fun r => (r.2.map Prod.snd).headD []

/-- `search_image_atom`, util/symmetry.py:293-305, for `n` selected atoms. -/
def searchImageAtom (same0 : List (List ℕ)) (n : ℕ) : Run (List ℕ × List ℕ × List ℕ) := imageLoop same0 (List.range n) ([], [], [])

/-- `search_self_image_atom`, util/symmetry.py:362-371: for one required atom, the operations that map it to itself. -/
def selfImages (same0 : List (List ℕ)) (req : ℕ) : List ℕ :=
  (List.range same0.length).filter fun k => decide ((same0.getD k []).getD req 0 = req)

/-- What `search_cell_image_index` reads of the cell: lattice, and types and direct coordinates of its selected atoms in order.
(Source: `util/symmetry.py:313-360`.) -/
structure CellIn (K : Type*) where
  lattice : M3 K
  types : List Str
  direct : List (V3 K)

/-- Matches of super-cell atom `t` for the pair of home atoms at `p`, `q`, util/symmetry.py:338-355. -/
def cellMatches (c : CellIn K) (W : M3 K) (p q : V3 K) (t : ℕ) : List ℕ :=
  (List.range c.direct.length).filter fun u =>
    decide (c.types.getD u [] = c.types.getD t []) &&
      nearZero (deltaCart c.lattice (fun x => q x + (W.mulVec (fun y => c.direct.getD t 0 y - p y)) x - c.direct.getD u 0 x))

/-- The loop over the super-cell atoms, util/symmetry.py:337-358 (the list is recorded by reference whenever it is full). -/
def cellLoop (c : CellIn K) (W : M3 K) (p q : V3 K) : List ℕ → List ℕ → ℕ → List ℕ × ℕ
  | [], acc, n => (acc, n)
  | t :: rest, acc, n =>
    let acc' := acc ++ cellMatches c W p q t
    cellLoop c W p q rest acc' (if acc'.length = c.direct.length then n + 1 else n)

/-- `search_cell_image_index`, util/symmetry.py:313-360; `E` is `_enlarge`, `same` is `same_index_select[W_ind][0]`. -/
def cellImages (c : CellIn K) (E : ℕ) (W : M3 K) (same : List ℕ) : List (List ℕ) :=
  same.zipIdx.flatMap fun (img, a) =>
    let r := cellLoop c W (c.direct.getD (a * E) 0) (c.direct.getD (img * E) 0) (List.range c.direct.length) [] 0
    List.replicate r.2 r.1

end
end Interphon.Symmetry
