import Verif.Model.Evidence

/-!
# Copies of join trees: `pybbn/graph/jointree.py`, `JoinTree.__deepcopy__` and `set_listener`

The attributes are copied with `copy.deepcopy` and one memo, so that the copies refer to each other as the originals do. On values this
is the identity; the attribute `listener` is not copied.
-/

namespace PyBBN
namespace JoinTree

/-- `pybbn/graph/jointree.py:28-45` `__deepcopy__` -/
def deepcopy (jt : JoinTree) : JoinTree :=
  { nodes := jt.nodes, edges := jt.edges, neighbors := jt.neighbors, potentials := jt.potentials, evidences := jt.evidences,
    listener := false, parentInfo := jt.parentInfo, heap := jt.heap }

/-- `pybbn/graph/jointree.py:265-271` `set_listener(InferenceController())` -/
def setListener (jt : JoinTree) : JoinTree := { jt with listener := true }

end JoinTree
end PyBBN
