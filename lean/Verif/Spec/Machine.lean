import Verif.Model.Machine
import Mathlib.Data.Int.Log

/-!
# What is assumed about the arithmetic of the machine

The standard model of floating-point arithmetic, with unit roundoff `ε` (`2 ^ (-53)` for the doubles of Python and numpy).
The operations are functions on all real numbers; what a machine does outside the numbers it can represent does not matter, because any run performs finitely many
operations: if none of them over- or underflows, there is an `A` as below that agrees with the machine on all of them.
-/

noncomputable section

namespace Interphon.Machine
open Interphon

/-- Every operation returns the exact result up to a relative error `ε`; a scalar product of three terms (added in any order, with or without fused
multiplications) up to `4 ε` times the sum of the absolute terms; cosine and sine up to `2 ε`; a complex square root up to `4 ε` times its absolute value. -/
structure Rounds (ε : ℝ) (A : Arith) : Prop where
  add : ∀ x y, |A.add x y - (x + y)| ≤ ε * |x + y|
  sub : ∀ x y, |A.sub x y - (x - y)| ≤ ε * |x - y|
  mul : ∀ x y, |A.mul x y - x * y| ≤ ε * |x * y|
  div : ∀ x y, y ≠ 0 → |A.div x y - x / y| ≤ ε * |x / y|
  sqrt : ∀ x, 0 ≤ x → |A.sqrt x - Real.sqrt x| ≤ ε * Real.sqrt x
  cos : ∀ x, |A.cos x - Real.cos x| ≤ 2 * ε
  sin : ∀ x, |A.sin x - Real.sin x| ≤ 2 * ε
  dot : ∀ x y : V3 ℝ, |A.dot x y - (x 0 * y 0 + x 1 * y 1 + x 2 * y 2)| ≤ 4 * ε * (|x 0 * y 0| + |x 1 * y 1| + |x 2 * y 2|)
  csqrt : ∀ z : ℂ, ‖A.csqrt z - z ^ (1 / 2 : ℂ)‖ ≤ 4 * ε * ‖z ^ (1 / 2 : ℂ)‖
  pi : |A.pi - Real.pi| ≤ ε * Real.pi
  ang : |A.ang - 1 / 10 ^ 10| ≤ ε * (1 / 10 ^ 10)

/-- Exact arithmetic. -/
def exact : Arith where
  add := (· + ·)
  sub := (· - ·)
  mul := (· * ·)
  div := (· / ·)
  sqrt := Real.sqrt
  cos := Real.cos
  sin := Real.sin
  dot := fun x y => x 0 * y 0 + x 1 * y 1 + x 2 * y 2
  csqrt := fun z => z ^ (1 / 2 : ℂ)
  pi := Real.pi
  ang := 1 / 10 ^ 10

/-- The nearest number with `p` binary digits (and unbounded exponent). -/
def nearest (p : ℕ) (x : ℝ) : ℝ := (round (x * 2 ^ ((p : ℤ) - 1 - Int.log 2 |x|)) : ℝ) * 2 ^ (Int.log 2 |x| - ((p : ℤ) - 1))

/-- Binary floating-point arithmetic with `p` digits: every result is the nearest number with `p` digits (`p = 53` for doubles); scalar products are added
from left to right; complex square roots are rounded part by part. -/
def binary (p : ℕ) : Arith where
  add := fun x y => nearest p (x + y)
  sub := fun x y => nearest p (x - y)
  mul := fun x y => nearest p (x * y)
  div := fun x y => nearest p (x / y)
  sqrt := fun x => nearest p (Real.sqrt x)
  cos := fun x => nearest p (Real.cos x)
  sin := fun x => nearest p (Real.sin x)
  dot := fun x y => nearest p (nearest p (nearest p (x 0 * y 0) + nearest p (x 1 * y 1)) + nearest p (x 2 * y 2))
  csqrt := fun z => ⟨nearest p (z ^ (1 / 2 : ℂ)).re, nearest p (z ^ (1 / 2 : ℂ)).im⟩
  pi := nearest p Real.pi
  ang := nearest p (1 / 10 ^ 10)

end Interphon.Machine
