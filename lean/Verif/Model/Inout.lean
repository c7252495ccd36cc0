import Verif.Model.UnitCell

/-!
# Primitives shared by the readers and writers of `InterPhon/inout/`

Files are texts; `readlines` gives their lines.  Decoding, universal newlines and `inf`/`nan` are not modelled.
-/

namespace Interphon.Inout
open Py Interphon

/-- `float(token)`, as applied element-wise by `np.asfarray` (inout/vasp.py:25): `ValueError` on a malformed number. -/
def floatE (s : Str) : Run ℚ := match parseFloat s with
  | some q => .ok q
  | none => .error .valueError

/-- `int(token)`, inout/vasp.py:27: `ValueError` on a malformed number. -/
def intE (s : Str) : Run ℤ := match parseInt s with
  | some n => .ok n
  | none => .error .valueError

/-- A list comprehension whose body may raise. (Source: `inout/vasp.py:25,27`.) -/
def mapE {α β : Type} (f : α → Run β) : List α → Run (List β)
  | [] => .ok []
  | a :: l => match f a with
    | .error e => .error e
    | .ok b => match mapE f l with
      | .error e => .error e
      | .ok bs => .ok (b :: bs)

/-- `l[a:b]` for `a ≥ 0` and a possibly negative `b`. (Source: `inout/espresso.py:57-63`, `inout/vasp.py:199-215`.) -/
def slice {α : Type} (l : List α) (a : ℕ) (b : ℤ) : List α :=
  let e : ℕ := if 0 ≤ b then b.toNat else (l.length + b).toNat
  (l.drop a).take (e - a)

/-- `np.asfarray` of a list of lists of tokens (e.g. inout/vasp.py:25): `ValueError` on malformed numbers and on ragged rows. -/
def asRows (rows : List (List Str)) : Run (List (List ℚ)) :=
  match mapE (mapE floatE) rows with
  | .error e => .error e
  | .ok r => if r.all (fun x => x.length = (r.headD []).length) then .ok r else .error .valueError

/-- `np.dot(a, M)` of two 2-d arrays (inout/vasp.py:45): `ValueError` if the shapes are not aligned (`a` without rows has shape `(0,)`). -/
def dotRows (a M : List (List ℚ)) : Run (List (List ℚ)) :=
  if a ≠ [] ∧ a.all (fun r => r.length = M.length) then
    .ok (a.map fun r => (List.range (M.headD []).length).map fun j => ((r.zip M).map fun p => p.1 * p.2.getD j 0).sum)
  else .error .valueError

/-- `"{0:>20.16f}"` (and `"{2:20.16f}"`: numbers are right-aligned by default), e.g. inout/vasp.py:125. -/
def num (q : ℚ) : Str := padLeft ' ' 20 (fmtFixed 16 q)

/-- `"{0:>20.16f}  {1:>20.16f}  {2:20.16f}".format(v[0], v[1], v[2])`, inout/vasp.py:125, espresso.py:169, aims.py:127. -/
def row (v : V3 ℚ) : Str := num (v 0) ++ "  ".toList ++ num (v 1) ++ "  ".toList ++ num (v 2)

/-- The loop `for ind_T in __atom_true: xyz_true.extend([ind_T for i in range(3)])`, inout/vasp.py:103-105, espresso.py:125-127,
aims.py:105-107. -/
def xyzOf (l : List ℤ) : List ℤ := l.flatMap fun i => [i, i, i]

/-- The counting of runs of equal types, inout/espresso.py:71-84 and aims.py:51-64: state `(num_atom, pre_atom, num)`. -/
def runsAux : List Str → Option Str → ℤ → List ℤ
  | [], _, n => [n]
  | a :: l, pre, n =>
    if some a ≠ pre then (if n ≠ 0 then n :: runsAux l (some a) 1 else runsAux l (some a) 1)
    else runsAux l pre (n + 1)

/-- `num_atom` of inout/espresso.py:71-84 and aims.py:51-64. -/
def runs (types : List Str) : List ℤ := runsAux types none 0

/-- The force readers, inout/vasp.py:185-215, espresso.py:210-225, aims.py:170-185: the first line that contains `tag`, then `n` lines
starting `off` lines below it, columns `lo` to `hi`, times `factor`. -/
def forces (tag : Str) (off lo hi : ℕ) (factor : ℚ) (n : ℕ) (lines : List Str) : Run (List (List ℚ)) :=
  match lines.findIdx? (fun l => isInfix tag l) with
  | none => .error .assertionError
  | some i => match asRows (((lines.drop (i + off)).take n).map fun l => ((split l).take hi).drop lo) with
    | .error e => .error e
    | .ok r => .ok (r.map fun x => x.map (· * factor))

/-- Python `readlines()`, the lines of a text, each with its newline (universal-newline translation is not modelled).  Used at
inout/vasp.py:16-17, espresso.py:16-17, aims.py:15-16. -/
def readlinesAux : Str → Str → List Str
  | [], cur => if cur = [] then [] else [cur.reverse]
  | c :: cs, cur => if c = '\n' then (c :: cur).reverse :: readlinesAux cs [] else readlinesAux cs (c :: cur)

/-- `infile.readlines()`, see `readlinesAux`. (Source: `inout/vasp.py:17`, `inout/espresso.py:17`, `inout/aims.py:16`.) -/
def readlines (s : Str) : List Str := readlinesAux s []

end Interphon.Inout
