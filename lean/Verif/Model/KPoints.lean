import Verif.Py
import Verif.Model.Cell
import Verif.Model.Inout

/-!
# Model of `InterPhon/util/k_points.py` and of `PostProcess.set_k_points`

A k-point file is its list of lines.  Decimal numbers are exact rationals.
`p c = true` means direction `c` is periodic; `_ind_pbc = periodicity.nonzero()[0]`
(`core/post_process.py:373`) is then `indPbc p`.
-/

namespace Interphon.KPoints
open Py Interphon

/-- `user_arg.periodicity.nonzero()[0]`, `core/post_process.py:373`: periodic directions, ascending. -/
def indPbc (p : Fin 3 → Bool) : List (Fin 3) := [0, 1, 2].filter p

/-- `[i for i in range(3) if i not in _ind_pbc]`, `util/k_points.py:278`. -/
def indNonPbc (p : Fin 3 → Bool) : List (Fin 3) := [0, 1, 2].filter fun c => !p c

/-- `int(tok)`, raising `ValueError`. (Source: `util/k_points.py:20,192,275,305`.) -/
def toInt (t : Str) : Run ℤ := match parseInt t with
  | some n => .ok n
  | none => .error .valueError

/-- `float(tok)`, raising `ValueError`. (Source: `util/k_points.py:29,201`.) -/
def toFloat (t : Str) : Run ℚ := match parseFloat t with
  | some n => .ok n
  | none => .error .valueError

/-- `[int(t) for t in line.split()[0:3]]`, `util/k_points.py:20,192`. -/
def readDivisions (lines : List Str) : Run (List ℤ) := do
  let l ← getE lines 3
  ((split l).take 3).mapM toInt

/-- `util/k_points.py:28-31,200-203`: the shift line; only a *missing line* is replaced by zeros. -/
def readShift (lines : List Str) : Run (List ℚ) :=
  match lines[4]? with
  | none => .ok [0, 0, 0]
  | some l => ((split l).take 3).mapM toFloat

/-- `util/k_points.py:22-26,194-198`: every non-periodic direction must have division 1. -/
def checkPbc (p : Fin 3 → Bool) (auto : List ℤ) : List (Fin 3) → Run Unit
  | [] => .ok ()
  | c :: rest =>
    if p c then checkPbc p auto rest
    else match getE auto c with
      | .error e => .error e
      | .ok n => if n ≠ 1 then .error .mismatchKpath else checkPbc p auto rest

/-- `(ind + shift[c] + off) / float(auto[c])`, one coefficient of `util/k_points.py:41,60-61,101-103`
(`off = 0`) and `:213,227-228,247-249` (`off = 1/2`). -/
def coef (off : ℚ) (auto : List ℤ) (shift : List ℚ) (c : Fin 3) (i : ℕ) : Run ℚ := do
  let s ← getE shift c
  let n ← getE auto c
  .ok ((i + s + off) / n)

/-- `__tmp * x` : vector with `x` at `c`, zero elsewhere, `util/k_points.py:37-38`. -/
def unitVec (c : Fin 3) (x : ℚ) : V3 ℚ := fun j => if j = c then x else 0

/-- The loops of `util/k_points.py:33-103` (`off = 0`) and `:205-249` (`off = 1/2`), by number of
periodic directions. -/
def mesh (off : ℚ) (auto : List ℤ) (shift : List ℚ) : List (Fin 3) → Run (List (V3 ℚ))
  | [] => .ok [0]
  | [a] => do
    let na ← getE auto a
    (rangeInt na).mapM fun i => do
      let x ← coef off auto shift a i
      .ok (unitVec a x)
  | [a, b] => do
    let na ← getE auto a
    let rows ← (rangeInt na).mapM fun i => do
      let nb ← getE auto b
      (rangeInt nb).mapM fun j => do
        let x ← coef off auto shift a i
        let y ← coef off auto shift b j
        .ok (unitVec a x + unitVec b y)
    .ok rows.flatten
  | [a, b, c] => do
    let na ← getE auto a
    let planes ← (rangeInt na).mapM fun i => do
      let nb ← getE auto b
      let rows ← (rangeInt nb).mapM fun j => do
        let nc ← getE auto c
        (rangeInt nc).mapM fun k => do
          let x ← coef off auto shift a i
          let y ← coef off auto shift b j
          let z ← coef off auto shift c k
          .ok (unitVec a x + unitVec b y + unitVec c z)
      .ok rows.flatten
    .ok planes.flatten
  | _ => .ok []

/-- `gamma_centered`, `util/k_points.py:7-176`. -/
def gammaCentered (lines : List Str) (p : Fin 3 → Bool) : Run (List (V3 ℚ) × List ℤ) := do
  let auto ← readDivisions lines
  checkPbc p auto [0, 1, 2]
  let shift ← readShift lines
  let pts ← mesh 0 auto shift (indPbc p)
  .ok (pts, auto)

/-- `monkhorst_pack`, `util/k_points.py:179-259`. -/
def monkhorstPack (lines : List Str) (p : Fin 3 → Bool) : Run (List (V3 ℚ) × List ℤ) := do
  let auto ← readDivisions lines
  checkPbc p auto [0, 1, 2]
  let shift ← readShift lines
  let pts ← mesh (1 / 2) auto shift (indPbc p)
  .ok (pts, auto)

/-- `np.asfarray(tokens)`.  Simplification: a line with fewer than three numbers (which numpy would carry
on as a shorter vector until a broadcasting `ValueError` or an `IndexError`) raises `ValueError` here. (Source: `util/k_points.py:290,306`.) -/
def asfarray (ts : List Str) : Run (V3 ℚ) := do
  let v ← ts.mapM toFloat
  match v with
  | [x, y, z] => .ok ![x, y, z]
  | _ => .error .valueError

/-- `np.linspace(a, b, num)`: `num` points from `a` to `b`, both included; one point gives `a`; a negative
`num` is a `ValueError`. (Source: `util/k_points.py:290-292`.) -/
def linspace (a b : V3 ℚ) (num : ℤ) : Run (List (V3 ℚ)) :=
  if num < 0 then .error .valueError
  else if num = 1 then .ok [a]
  else .ok ((rangeInt num).map fun (i : ℕ) => fun c => a c + (i : ℚ) * ((b c - a c) / (num - 1)))

/-- `__k_point[_ind_non_pbc].any()`, `util/k_points.py:287`.  With no non-periodic direction
`np.array([])` has a floating-point dtype, and indexing with it raises `IndexError`. -/
def anyNonPbc (p : Fin 3 → Bool) (k : V3 ℚ) : Run Bool :=
  if indNonPbc p = [] then .error .indexError
  else .ok ((indNonPbc p).any fun c => k c ≠ 0)

/-- The loop of `util/k_points.py:284-291` over consecutive pairs of lines. -/
def segLoop (p : Fin 3 → Bool) (num : ℤ) : List (List Str) → Run (List (V3 ℚ))
  | t1 :: t2 :: rest => do
    let k1 ← asfarray t1
    let bad ← anyNonPbc p k1
    if bad then .error .mismatchKpath
    else do
      let k2 ← asfarray t2
      let pts ← linspace k1 k2 num
      let more ← segLoop p num rest
      .ok (pts ++ more)
  | _ => .ok []

/-- First token of a line, `IndexError` if blank. (Source: `util/k_points.py:275,305`, `core/post_process.py:375-387`.) -/
def firstTok (l : Str) : Run Str := getE (split l) 0

/-- `line_path`, `util/k_points.py:262-293`. -/
def linePath (lines : List Str) (p : Fin 3 → Bool) : Run (List (V3 ℚ)) := do
  let l1 ← getE lines 1
  let t ← firstTok l1
  let num ← toInt t
  let tmp := ((lines.drop 3).filter fun l => split l ≠ []).map fun l => (split l).take 3
  if tmp.length % 2 ≠ 0 then .error .invalidLineKpath
  else segLoop p num tmp

/-- `explicit_reciprocal`, `util/k_points.py:296-308`. -/
def explicitReciprocal (lines : List Str) : Run (List (V3 ℚ)) := do
  let l1 ← getE lines 1
  let t ← firstTok l1
  let num ← toInt t
  ((Inout.slice lines 3 (3 + num)).filter fun l => split l ≠ []).mapM fun l => asfarray ((split l).take 3)

/-- `set_k_points`, `core/post_process.py:370-389`: the attributes `k_points` and `auto_k_points` after the
call.  A mode letter that is none of G, M, L, R leaves both empty, without an exception. -/
def setKPoints (lines : List Str) (p : Fin 3 → Bool) : Run (List (V3 ℚ) × List ℤ) := do
  let l2 ← getE lines 2
  let t ← firstTok l2
  let ch ← getE t 0
  if ch = 'G' ∨ ch = 'g' then gammaCentered lines p
  else if ch = 'M' ∨ ch = 'm' then monkhorstPack lines p
  else if ch = 'L' ∨ ch = 'l' then do
    let pts ← linePath lines p
    .ok (pts, [])
  else if ch = 'R' ∨ ch = 'r' then do
    let pts ← explicitReciprocal lines
    .ok (pts, [])
  else .ok ([], [])

end Interphon.KPoints
