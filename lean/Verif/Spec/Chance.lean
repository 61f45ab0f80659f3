import Verif.Model.Generator
import Mathlib.Data.Fintype.BigOperators
import Mathlib.Data.Fintype.Pi
import Mathlib.Algebra.Order.Field.Rat
import Mathlib.Algebra.Order.Group.Abs

/-!
# Probabilities of what a computation with random draws returns

Every raw draw is one of `0 … M-1`, all equally likely and independent: the probability of an event that depends on the first `L` draws is the
share of the `M ^ L` lists of draws in which it happens. A computation may need arbitrarily many draws (the pair of nodes is drawn by rejection),
so its probability is the limit of the shares.
-/

namespace PyBBN
open Classical

/-- the numbers `u 0, u 1, …` get arbitrarily close to `r` and stay there -/
def TendsTo (u : Nat → ℚ) (r : ℚ) : Prop := ∀ ε : ℚ, 0 < ε → ∃ L0, ∀ L ≥ L0, |u L - r| < ε

namespace Rnd
variable {α : Type}

/-- the computation finishes on these draws, with a result that satisfies `p` -/
def Gives (x : Rnd α) (p : α → Prop) (ds : List Nat) : Prop := ∃ a rest, x ds = .done a rest ∧ p a

/-- the share of the lists of `L` draws from `0 … M-1` on which the computation finishes with a result that satisfies `p` -/
noncomputable def share (M : Nat) (x : Rnd α) (p : α → Prop) (L : Nat) : ℚ :=
  ((Finset.univ.filter (fun ds : Fin L → Fin M => x.Gives p (List.ofFn (fun k => (ds k : Nat))))).card : ℚ) / (M : ℚ) ^ L

/-- the probability that the computation finishes with a result that satisfies `p` -/
def Prob (M : Nat) (x : Rnd α) (p : α → Prop) (r : ℚ) : Prop := TendsTo (x.share M p) r

end Rnd
end PyBBN
