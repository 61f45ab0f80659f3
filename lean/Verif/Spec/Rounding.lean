import Mathlib.Data.Rat.Lemmas
import Mathlib.Algebra.Order.Field.Rat
import Mathlib.Algebra.Order.AbsoluteValue.Basic
import Mathlib.Algebra.Order.Round
import Mathlib.Data.Int.Log
import Mathlib.Data.Rat.Floor

/-!
# Specification: floating-point arithmetic (C70)

The standard model of floating-point arithmetic without overflow and underflow: every operation returns the exact result up to a
relative error of at most `u` (`u = 2^-53` for Python's floats).
-/

namespace PyBBN

/-- `inp` (reading a number), `mul`, `div` and `sum` round with unit roundoff `u`. `sum` adds up non-negative numbers; it loses at
most one rounding per summand (the plain loop does, and compensated summation is better). -/
structure Rounds (u : ℚ) (inp : ℚ → ℚ) (mul div : ℚ → ℚ → ℚ) (sum : List ℚ → ℚ) : Prop where
  unit : 0 ≤ u ∧ u < 1
  inp : ∀ x, |inp x - x| ≤ u * |x|
  mul : ∀ a b, |mul a b - a * b| ≤ u * |a * b|
  div : ∀ a b, b ≠ 0 → |div a b - a / b| ≤ u * |a / b|
  sum : ∀ l : List ℚ, (∀ x ∈ l, 0 ≤ x) → (1 - u) ^ l.length * l.sum ≤ sum l ∧ sum l ≤ (1 + u) ^ l.length * l.sum

/-- `y` is `x` up to `n` roundings -/
def Near (u : ℚ) (n : ℕ) (x y : ℚ) : Prop := (1 - u) ^ n * x ≤ y ∧ (1 - u) ^ n * y ≤ x

/-- rounding to the nearest integer, ties to the even one -/
def roundEven (y : ℚ) : ℤ := if Int.fract y = 1 / 2 ∧ ⌊y⌋ % 2 = 0 then ⌊y⌋ else round y

/-- rounding to the nearest number with `p` significant bits, ties to even (IEEE 754 without bounds on the exponent) -/
def binRound (p : ℕ) (x : ℚ) : ℚ :=
  (roundEven (x * 2 ^ ((p : ℤ) - 1 - Int.log 2 |x|)) : ℚ) * 2 ^ (Int.log 2 |x| - ((p : ℤ) - 1))

/-- the plain summation loop, rounding after every addition -/
def loopSum (rnd : ℚ → ℚ) (l : List ℚ) : ℚ := l.foldl (fun s x => rnd (s + x)) 0

end PyBBN
