import Verif.Spec.Rounding
import Verif.Model.Arith

/-!
# Specification: floating-point arithmetic with bounded exponents (C112)

Python's floats have a smallest positive number: results below `2^-1022` lose bits, results below `2^-1075` become 0. `RoundsIn` asks for
correct rounding only when the result is 0 or between `2^-E` and `2^E` and says nothing about other results.
-/

namespace PyBBN

/-- zero, or of a magnitude between `2^-E` and `2^E` -/
def InRange (E : ℕ) (x : ℚ) : Prop := x = 0 ∨ (1 / 2 ^ E ≤ |x| ∧ |x| ≤ 2 ^ E)

/-- `inp`, `mul`, `div` and `sum` round with unit roundoff `u` as long as the results are in range. The sum of a list may lose one rounding per
summand, and the range has to leave a factor of two for each of them. -/
structure RoundsIn (u : ℚ) (E : ℕ) (inp : ℚ → ℚ) (mul div : ℚ → ℚ → ℚ) (sum : List ℚ → ℚ) : Prop where
  unit : 0 ≤ u ∧ u ≤ 1 / 2
  inp : ∀ x, InRange E x → |inp x - x| ≤ u * |x|
  mul : ∀ a b, InRange E (a * b) → |mul a b - a * b| ≤ u * |a * b|
  div : ∀ a b, b ≠ 0 → InRange E (a / b) → |div a b - a / b| ≤ u * |a / b|
  sum : ∀ l : List ℚ, (∀ x ∈ l, 0 ≤ x ∧ (x = 0 ∨ 2 ^ l.length / 2 ^ E ≤ x)) → 2 ^ l.length * l.sum ≤ 2 ^ E →
    (1 - u) ^ l.length * l.sum ≤ sum l ∧ sum l ≤ (1 + u) ^ l.length * l.sum

/-- rounding to the nearest number with `p` significant bits whose last bit is worth at least `2^-m`, ties to even. `ieeeRound 53 1074` is what
Python's floats do for numbers below `2^1024`. -/
def ieeeRound (p m : ℕ) (x : ℚ) : ℚ :=
  if |x| < 2 ^ p / 2 ^ (m + 1) then (roundEven (x * 2 ^ m) : ℚ) / 2 ^ m else binRound p x

/-- the arithmetic of `ieeeRound`, with the plain summation loop -/
def ieeeArith (p m : ℕ) : Arith :=
  Arith.float (ieeeRound p m) (fun a b => ieeeRound p m (a * b)) (fun a b => ieeeRound p m (a / b)) (loopSum (ieeeRound p m))

/-- counts roundings and binary orders of magnitude: the "value" `n` of an entry says that its computation has gone through at most `n` roundings
and that the result is 0 or between `2^-n` and `2^n`. Of the numbers given by the user only the orders of magnitude matter. -/
def Arith.size : Arith where
  inp x := (|(Int.log 2 |x|)| + 2 : ℤ)
  one := 0
  mul a b := a + b + 1
  div a b := a + b + 1
  sum l := l.foldr max 0 + 2 * l.length
  quot a t := a + t + 1

end PyBBN
