import Verif.Spec.Sampling
import Verif.Spec.Rounding

/-!
# Specification: cumulative sums of floats (C76)
-/

namespace PyBBN

/-- How floats are read (`inp`) and added (`add`): with relative error at most `u`, and the result is a float (`F`). Adding something that
is not negative to a float does not give less, and adding zero gives the float itself. -/
structure Adds (u : ℚ) (inp : ℚ → ℚ) (add : ℚ → ℚ → ℚ) (F : ℚ → Prop) : Prop where
  unit : 0 ≤ u ∧ u < 1
  read : ∀ x, |inp x - x| ≤ u * |x|
  sum : ∀ a b, |add a b - (a + b)| ≤ u * |a + b|
  inpF : ∀ x, F (inp x)
  addF : ∀ a b, F (add a b)
  up : ∀ a b, F a → 0 ≤ a → 0 ≤ b → a ≤ add a b
  zero : ∀ a, F a → add a 0 = a

/-- the numbers read and added up from left to right -/
def fsum (inp : ℚ → ℚ) (add : ℚ → ℚ → ℚ) : List ℚ → ℚ
  | [] => 0
  | x :: l => l.foldl (fun s y => add s (inp y)) (inp x)

/-- `p` lies between the cumulative sum of floats before entry `i` and the one after it -/
def InFInterval (inp : ℚ → ℚ) (add : ℚ → ℚ → ℚ) (row : List ℚ) (i : Nat) (p : ℚ) : Prop :=
  fsum inp add (row.take i) ≤ p ∧ p < fsum inp add (row.take (i + 1))

end PyBBN
