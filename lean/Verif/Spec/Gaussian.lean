import Mathlib.Algebra.BigOperators.Ring.Finset
import Mathlib.Algebra.Order.Field.Rat
import Mathlib.Data.Rat.Lemmas

/-! Conditioning a Gaussian vector, by regression: the part of `a` that is not explained by the observed variables is uncorrelated with them
(hence independent of them), so the conditional covariance of `a` and `b` is the covariance of their unexplained parts and the conditional
mean of `a` is its mean plus what the observed deviations explain. Nothing here speaks of matrices or of the code. -/

namespace PyBBN.Normal
open Finset

variable {ι : Type}

/-- `a - ∑ k z • z` is uncorrelated with every variable of `Z` -/
def Reg (C : ι → ι → ℚ) (Z : Finset ι) (a : ι) (k : ι → ℚ) : Prop := ∀ w ∈ Z, C a w - ∑ z ∈ Z, k z * C z w = 0

/-- the covariance of `a - ∑ k z • z` and `b - ∑ l z • z` -/
def resCov (C : ι → ι → ℚ) (Z : Finset ι) (a b : ι) (k l : ι → ℚ) : ℚ :=
  C a b - ∑ z ∈ Z, k z * C z b - ∑ w ∈ Z, l w * C a w + ∑ z ∈ Z, ∑ w ∈ Z, k z * l w * C z w

/-- the conditional mean of `a` given that the variables of `Z` have the values `o` -/
def resMean (μ : ι → ℚ) (Z : Finset ι) (a : ι) (k o : ι → ℚ) : ℚ := μ a + ∑ z ∈ Z, k z * (o z - μ z)

/-- no combination of variables of `Z` other than zero is uncorrelated with all of `Z` -/
def NonSing (C : ι → ι → ℚ) (Z : Finset ι) : Prop := ∀ v : ι → ℚ, (∀ w ∈ Z, ∑ z ∈ Z, v z * C z w = 0) → ∀ z ∈ Z, v z = 0

/-- every combination of variables of `Z` other than zero has a positive variance -/
def PosDef (C : ι → ι → ℚ) (Z : Finset ι) : Prop := ∀ v : ι → ℚ, (∃ z ∈ Z, v z ≠ 0) → 0 < ∑ z ∈ Z, ∑ w ∈ Z, v z * v w * C z w

/-- the covariances of `Z` are symmetric -/
def Symm (C : ι → ι → ℚ) (Z : Finset ι) : Prop := ∀ a ∈ Z, ∀ b ∈ Z, C a b = C b a

/-- `q` is the quadratic form `uᵀ S⁻¹ u` in the exponent of the density, for deviations `u` from the means: with `w = S⁻¹ u`, `q = w · u` -/
def Mahal (C : ι → ι → ℚ) (Z : Finset ι) (u : ι → ℚ) (q : ℚ) : Prop :=
  ∃ w : ι → ℚ, (∀ y ∈ Z, ∑ z ∈ Z, w z * C z y = u y) ∧ q = ∑ z ∈ Z, w z * u z

end PyBBN.Normal
