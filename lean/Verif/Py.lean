import Mathlib.Data.Rat.Floor
import Mathlib.Algebra.Order.Field.Basic
import Mathlib.Algebra.Order.Ring.Abs
import Mathlib.Tactic.Linarith

/-!
# Python / numpy primitives used by the model

Nothing in this file models a file of `/repo`; it models the behaviour of the Python built-ins and the
numpy calls that the code relies on.  Simplifications are stated at each definition.
-/

namespace Py

/-- The exceptions that the modelled code can raise (`/repo/InterPhon/error/error.py:1-171` for the
project's own classes, the others are Python/numpy built-ins; `exception` is a plain `raise Exception`). -/
inductive PyErr
  | valueError | typeError | indexError | keyError | nameError | attributeError | assertionError
  | unboundLocal | linAlgError | zeroDivision | fileNotFound
  | insufficientPBC | insufficientEnlarge | mismatchEnlargePbc | mismatchEnlargePost
  | mismatchKpath | invalidLineKpath | notSpecifiedKpath | cannotSearchPointGroup | exception
  deriving DecidableEq, Repr

/-- A Python call that may raise. (Source: the exceptions are those of `error/error.py:1-171` and of Python.) -/
abbrev Run (α : Type _) := Except PyErr α

/-- Strings are lists of characters. (Source: the strings of `inout/*.py` and `interphon.py:1-909`.) -/
abbrev Str := List Char

/-- `str.isspace` restricted to ASCII (non-ASCII Unicode blanks are not modelled).
(Source: Python or numpy built-in used at `inout/vasp.py:24-62`.) -/
def isWs (c : Char) : Bool :=
  c = ' ' || c = '\t' || c = '\n' || c = '\r' || c = '\x0b' || c = '\x0c' ||
  c = '\x1c' || c = '\x1d' || c = '\x1e' || c = '\x1f'

/-- `s.split()` : maximal runs of non-blank characters. `cur` is the run being collected (reversed).
(Source: Python or numpy built-in used at `inout/vasp.py:24-62`.) -/
def splitAux : Str → Str → List Str
  | [], cur => if cur = [] then [] else [cur.reverse]
  | c :: cs, cur =>
    if isWs c then (if cur = [] then splitAux cs [] else cur.reverse :: splitAux cs [])
    else splitAux cs (c :: cur)

/-- Python `s.split()` (no argument). (Source: Python or numpy built-in used at `inout/vasp.py:24-62`, `util/k_points.py:20,275`.) -/
def split (s : Str) : List Str := splitAux s []

/-- Python `s.lstrip()`. (Source: Python or numpy built-in used at `interphon.py:312-317`.) -/
def lstrip (s : Str) : Str := s.dropWhile isWs

/-- Python `s.rstrip()`. (Source: Python or numpy built-in used at `interphon.py:312-317`.) -/
def rstrip (s : Str) : Str := (s.reverse.dropWhile isWs).reverse

/-- Python `s.strip()`. (Source: Python or numpy built-in used at `interphon.py:312-317`, `core/pre_check.py:10`.) -/
def strip (s : Str) : Str := rstrip (lstrip s)

/-- `pat in s` for strings: substring test. (Source: Python or numpy built-in used at `core/pre_check.py:108-112`, `inout/aims.py:175`.) -/
def isInfix (pat : Str) : Str → Bool
  | [] => pat.isEmpty
  | c :: cs => pat.isPrefixOf (c :: cs) || isInfix pat cs

/-- `s.split(sep)` for a one-character separator: keeps empty pieces. (Source: Python or numpy built-in used at `interphon.py:312-316`.) -/
def splitOn (sep : Char) : Str → List Str
  | [] => [[]]
  | c :: cs =>
    if c = sep then [] :: splitOn sep cs
    else match splitOn sep cs with
      | [] => [[c]]
      | h :: t => (c :: h) :: t

/-- Value of a decimal digit character. (Source: Python or numpy built-in used at `inout/vasp.py:27`.) -/
def digitVal (c : Char) : Option ℕ :=
  if '0' ≤ c ∧ c ≤ '9' then some (c.toNat - '0'.toNat) else none

/-- Decimal digits to a natural number, accumulator style. `none` if a non-digit occurs.
(Source: Python or numpy built-in used at `inout/vasp.py:27`.) -/
def digitsAux : ℕ → Str → Option ℕ
  | acc, [] => some acc
  | acc, c :: cs => match digitVal c with
    | some d => digitsAux (acc * 10 + d) cs
    | none => none

/-- A non-empty string of decimal digits. (Source: Python or numpy built-in used at `inout/vasp.py:27`.) -/
def parseNat (s : Str) : Option ℕ := if s = [] then none else digitsAux 0 s

/-- Splits an optional leading sign off; `true` means negative. (Source: Python or numpy built-in used at `inout/vasp.py:24-27`.) -/
def takeSign : Str → Bool × Str
  | '-' :: cs => (true, cs)
  | '+' :: cs => (false, cs)
  | cs => (false, cs)

/-- Python `int(s)` for strings: blanks stripped, optional sign, decimal digits.
Underscores between digits and non-ASCII digits are not modelled (they are rejected here).
(Source: Python or numpy built-in used at `inout/vasp.py:27`, `core/pre_check.py:10`.) -/
def parseInt (s : Str) : Option ℤ :=
  let (neg, ds) := takeSign (strip s)
  (parseNat ds).map fun n => if neg then -(n : ℤ) else n

/-- Unsigned decimal `ddd`, `ddd.`, `.ddd` or `ddd.ddd` as a rational. (Source: Python or numpy built-in used at `inout/vasp.py:24-25`.) -/
def parseDec (s : Str) : Option ℚ :=
  match splitOn '.' s with
  | [a] => (parseNat a).map fun n => (n : ℚ)
  | [a, b] =>
    if a = [] ∧ b = [] then none
    else match digitsAux 0 a, digitsAux 0 b with
      | some n, some m => some ((n : ℚ) + (m : ℚ) / 10 ^ b.length)
      | _, _ => none
  | _ => none

/-- Splits at the first `e` or `E`. (Source: Python or numpy built-in used at `inout/vasp.py:24-25`.) -/
def splitExp (s : Str) : Str × Option Str :=
  match s.dropWhile (fun c => c ≠ 'e' && c ≠ 'E') with
  | [] => (s, none)
  | _ :: ex => (s.takeWhile (fun c => c ≠ 'e' && c ≠ 'E'), some ex)

/-- Python `float(s)` for strings, exact decimal value instead of the nearest double.
`inf`, `nan`, underscores are not modelled (rejected here).
(Source: Python or numpy built-in used at `inout/vasp.py:24-25`, `core/pre_check.py:48`.) -/
def parseFloat (s : Str) : Option ℚ :=
  let (neg, body) := takeSign (strip s)
  let (mant, ex) := splitExp body
  match parseDec mant, ex with
  | some q, none => some (if neg then -q else q)
  | some q, some e =>
    let (eneg, eds) := takeSign e
    (parseNat eds).map fun n =>
      let v := if eneg then q / 10 ^ n else q * 10 ^ n
      if neg then -v else v
  | none, _ => none

/-- Decimal digit character. (Source: Python or numpy built-in used at `inout/vasp.py:122-156`.) -/
def digitChar (d : ℕ) : Char := Char.ofNat ('0'.toNat + d % 10)

/-- Decimal representation of `n` with exactly `k` digits (leading zeros, high digits cut).
(Source: Python or numpy built-in used at `inout/vasp.py:122-156`.) -/
def fixDigits : ℕ → ℕ → Str
  | 0, _ => []
  | k + 1, n => fixDigits k (n / 10) ++ [digitChar n]

/-- `str(n)` for a natural number. (Source: Python or numpy built-in used at `interphon.py:654`, `inout/vasp.py:133-136`.) -/
def natStr (n : ℕ) : Str := if n < 10 then [digitChar n] else natStr (n / 10) ++ [digitChar n]

/-- `str(i)` for an integer. (Source: Python or numpy built-in used at `interphon.py:654`.) -/
def intStr (i : ℤ) : Str := if i < 0 then '-' :: natStr i.natAbs else natStr i.natAbs

/-- Left-pads with `c` to width `w` (format spec `{:c>w}`).
(Source: Python or numpy built-in used at `core/pre_process.py:173`, `inout/vasp.py:122-156`.) -/
def padLeft (c : Char) (w : ℕ) (s : Str) : Str := List.replicate (w - s.length) c ++ s

/-- Right-pads with blanks to width `w` (format spec `{:<w}`). (Source: Python or numpy built-in used at `inout/vasp.py:122-136`.) -/
def padRight (c : Char) (w : ℕ) (s : Str) : Str := s ++ List.replicate (w - s.length) c

/-- Round half to even of a non-negative rational. (Source: Python or numpy built-in used at `inout/vasp.py:122-156`.) -/
def roundHalfEven (q : ℚ) : ℕ :=
  let f := ⌊q⌋₊
  let r := q - f
  if r < 1 / 2 then f else if 1 / 2 < r then f + 1 else if f % 2 = 0 then f else f + 1

/-- Format spec `.{d}f` on the exact value: sign, integer part, point, `d` fraction digits.
(`-0.0`, `nan` and `inf` are not modelled.) (Source: Python or numpy built-in used at `inout/vasp.py:122-156`.) -/
def fmtFixed (d : ℕ) (q : ℚ) : Str :=
  let n := roundHalfEven (|q| * 10 ^ d)
  (if q < 0 then ['-'] else []) ++ natStr (n / 10 ^ d) ++ '.' :: fixDigits d (n % 10 ^ d)

/-- The value of `.{d}f` formatting read back: `q` rounded to `d` decimals. (Source: Python or numpy built-in used at `inout/vasp.py:122-156`.) -/
def rndDec (d : ℕ) (q : ℚ) : ℚ :=
  let v : ℚ := (roundHalfEven (|q| * 10 ^ d) : ℚ) / 10 ^ d
  if q < 0 then -v else v

/-! ### numpy -/

section numpy
variable {K : Type*} [Field K] [LinearOrder K]

/-- `np.isclose(a, b, rtol, atol)` : `|a - b| <= atol + rtol*|b|`.
(Source: Python or numpy built-in used at `core/post_check.py:42-45`, `util/symmetry.py:152`.) -/
def isClose (rtol atol a b : K) : Prop := |a - b| ≤ atol + rtol * |b|

instance (rtol atol a b : K) : Decidable (isClose rtol atol a b) := by
  unfold isClose; infer_instance

/-- numpy's default `rtol=1e-05`. (Source: Python or numpy built-in used at `core/post_check.py:42-45`.) -/
def rtolDefault : K := 1 / 100000
/-- numpy's default `atol=1e-08`. (Source: Python or numpy built-in used at `core/post_check.py:42-45`.) -/
def atolDefault : K := 1 / 100000000

end numpy

/-- `list[i]` / `array[i]` with a non-negative index. (Source: Python or numpy built-in used at `inout/vasp.py:24`.) -/
def getE {α : Type*} (l : List α) (i : ℕ) : Run α :=
  match l[i]? with
  | some a => .ok a
  | none => .error .indexError

/-- `range(n)` for a possibly negative integer `n`. (Source: Python or numpy built-in used at `core/super_cell.py:82-84`.) -/
def rangeInt (n : ℤ) : List ℕ := List.range n.toNat

end Py
