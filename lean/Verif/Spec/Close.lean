import Verif.Spec.Joint

/-! # Networks with nearly the same CPTs -/

namespace PyBBN

/-- two numbers agree up to a factor `k` -/
def UpTo (k x y : ℚ) : Prop := x ≤ k * y ∧ y ≤ k * x

instance (k x y : ℚ) : Decidable (UpTo k x y) := inferInstanceAs (Decidable (_ ∧ _))

/-- two networks with the same nodes and parents, whose CPTs agree, entry by entry, up to a factor for each node -/
structure Bbn.Close (κ : Int → ℚ) (b b' : Bbn) : Prop where
  vars : b'.vars = b.vars
  parents : ∀ v ∈ b.vars, b'.parentVars v.id = b.parentVars v.id
  factor : ∀ v ∈ b.vars, 1 ≤ κ v.id
  tables : ∀ n ∈ b.toGraph.getNodes, ∀ n' ∈ b'.toGraph.getNodes, n'.var.id = n.var.id → List.Forall₂ (UpTo (κ n.var.id)) n.probs n'.probs

end PyBBN
