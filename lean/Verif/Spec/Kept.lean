import Verif.Spec.Joint
import Verif.Spec.Graph
import Verif.Model.JoinTree

/-! The part of a network that survives writing and reading a join tree that has edges. -/

namespace PyBBN

/-- the node with this id is in a clique at the end of some edge of the tree -/
def JoinTree.kept (jt : JoinTree) (i : Int) : Bool :=
  decide (∃ s ∈ Dict.values jt.edges, i ∈ s.left.nodeIds ∨ i ∈ s.right.nodeIds)

/-- the calls that concern the nodes with ids in `S` -/
def BOp.only (S : Int → Bool) (ops : List BOp) : List BOp :=
  ops.filter (fun o => match o with
    | .addNode n => S n.var.id
    | .addEdge i j => S i.var.id && S j.var.id)

end PyBBN
