import Verif.Model.Serde

/-!
# `pybbn/graph/edge.py:67-128`, `pybbn/graph/jointree.py:252-263`: the edges of a join tree, flattened
-/

namespace PyBBN

/-- `pybbn/graph/edge.py:67-78` `SepSetEdge(i, j)`, an undirected edge between two nodes of a join tree -/
structure SepSetEdge where
  i : JNode
  j : JNode
  deriving DecidableEq, Repr

/-- `pybbn/graph/edge.py:106-112` `JtEdge(s).get_lhs_edge()`. A `JtEdge` has no state but its separation set (`edge.py:97-104`). -/
def SepSet.lhsEdge (s : SepSet) : SepSetEdge := ⟨.clique s.left, .sepset s⟩

/-- `pybbn/graph/edge.py:114-120` `JtEdge(s).get_rhs_edge()` -/
def SepSet.rhsEdge (s : SepSet) : SepSetEdge := ⟨.clique s.right, .sepset s⟩

/-- `pybbn/graph/jointree.py:252-263` `get_flattened_edges`: the list the loop appends to -/
def JoinTree.getFlattenedEdges (jt : JoinTree) : List SepSetEdge :=
  (Dict.values jt.edges).foldl (fun edges e => (edges ++ [e.lhsEdge]) ++ [e.rhsEdge]) []

end PyBBN
