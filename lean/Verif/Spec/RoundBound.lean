import Mathlib.Data.Rat.Defs

/-! # Specification: explicit bounds on the number of roundings (C113) -/

namespace PyBBN

/-- `N` variables, clique tables with at most `R` rows: a number of roundings that suffices for every reported number, however long the session -/
def roundBound (N R : ℕ) : ℕ :=
  let t := N * (R + 6)
  2 * (t + N * (2 * t + R + 2)) + 3 * R + 1

/-- the same for orders of magnitude, if the numbers given by the user are 0 or between `2^-m` and `2^m` -/
def sizeBound (N R m : ℕ) : ℕ :=
  let t := N * (2 * R + 2 * m + 8)
  2 * (t + N * (2 * t + 2 * R + 2)) + 6 * R + 1

end PyBBN
