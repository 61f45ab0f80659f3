import Verif.Spec.Joint

/-! Markov blanket of a node: its parents, its children and the other parents of its children. -/

namespace PyBBN

/-- `j` is in the Markov blanket of `i`, for the edge relation `E` -/
def Blanket (E : Int → Int → Prop) (i j : Int) : Prop := j ≠ i ∧ (E j i ∨ E i j ∨ ∃ c, E i c ∧ E j c)

/-- `p` is a parent of `c` -/
def Bbn.parentOf (b : Bbn) (p c : Int) : Prop := p ∈ (b.parentVars c).map Variable.id

instance (b : Bbn) (p c : Int) : Decidable (b.parentOf p c) := inferInstanceAs (Decidable (_ ∈ _))

/-- the CPT entry of the node, times the CPT entries of its children, at the assignment `τ` with the node itself at `x` -/
def Bbn.blanketScore (b : Bbn) (v : Variable) (τ : Asg) (x : Str) : ℚ :=
  ((b.toGraph.getNodes.filter (fun n => decide (n.var.id = v.id ∨ b.parentOf v.id n.var.id))).map (fun n =>
    cptAt n.probs (b.parentVars n.var.id) n.var (Function.update τ v.id x))).prod

end PyBBN
