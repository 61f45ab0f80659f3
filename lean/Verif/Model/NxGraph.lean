import Verif.Model.Generator
import Verif.Model.Serde

/-!
# `pybbn/graph/dag.py`: `Dag.to_nx_graph`
-/

namespace PyBBN

/-- `pybbn/graph/dag.py:96-115` `to_nx_graph`: the graph, with its edges in the order of `g.edges()`, and the labels -/
def Bbn.toNxGraph (b : Bbn) : DiG Int × Dict Int Str :=
  let g := (Dict.values b.toGraph.nodes).foldl (fun g (n : BbnNode) => Gen.addNode g (n.var.id)) ⟨[], []⟩
  let labels := (Dict.values b.toGraph.nodes).map (fun n => (n.var.id, n.var.name))
  let g := (Dict.values b.toGraph.edges).foldl (fun g (e : Edge BbnNode) => Gen.addEdgeRaw g (e.i.var.id) (e.j.var.id)) g
  (⟨g.nodes, Gen.edges g⟩, Dict.ofList labels)

end PyBBN
