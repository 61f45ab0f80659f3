import Verif.Spec.Graph

/-!
# Specification: networks of the same shape

The same calls with the same ids and names; the values of the nodes and the CPTs may differ.
-/

namespace PyBBN

/-- the same call with the node objects replaced -/
def BOp.refit (F : BbnNode → BbnNode) : BOp → BOp
  | .addNode n => .addNode (F n)
  | .addEdge i j => .addEdge (F i) (F j)

/-- the calls agree except for the values and the CPTs of the nodes -/
def SameStructure (ops ops' : List BOp) : Prop :=
  ∃ F : BbnNode → BbnNode, (∀ n, (F n).var.id = n.var.id ∧ (F n).var.name = n.var.name) ∧ ops' = ops.map (BOp.refit F)

end PyBBN
