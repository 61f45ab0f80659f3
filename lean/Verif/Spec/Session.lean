import Verif.Spec.Graph
import Verif.Spec.Evidence
import Verif.Model.Pptc

/-!
# Specification vocabulary: replaced CPTs and sessions

`withCpts` says which network is meant by "the same network with other CPTs": the same calls, with other node objects.
-/

namespace PyBBN
open InferenceController

/-- the node object with the CPT that `cpts` names for its id, if any -/
def BbnNode.withCpt (cpts : Dict Int (List ℚ)) (n : BbnNode) : BbnNode :=
  { n with probs := (Dict.get? cpts n.var.id).getD n.probs }

/-- the same call with other CPTs -/
def BOp.withCpts (cpts : Dict Int (List ℚ)) : BOp → BOp
  | .addNode n => .addNode (n.withCpt cpts)
  | .addEdge i j => .addEdge (i.withCpt cpts) (j.withCpt cpts)

/-- the same network with other CPTs -/
def withCpts (cpts : Dict Int (List ℚ)) (ops : List BOp) : List BOp := ops.map (BOp.withCpts cpts)

end PyBBN
