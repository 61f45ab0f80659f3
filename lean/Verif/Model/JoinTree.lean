import Verif.Model.Potential

/-!
# `pybbn/graph/node.py` (cliques), `pybbn/graph/jointree.py` (structure)
-/

namespace PyBBN

/-- ascending `sorted` on ints -/
def sortInts (l : List Int) : List Int := sortBy (fun a b => decide (a ≤ b)) l

/-- `pybbn/graph/node.py:89-106` `Clique(nodes)`. A BBN node object inside a clique is represented by its
immutable part, the `Variable`. The `marked` flag is only used by one propagation pass and is modelled there. -/
structure Clique where
  nodes : List Variable
  deriving DecidableEq, Repr

namespace Clique

/-- `pybbn/graph/node.py:106,155-161` `node_ids` / `get_node_ids` -/
def nodeIds (c : Clique) : List Int := c.nodes.map Variable.id

/-- `pybbn/graph/node.py:100-103` the string id of a clique -/
def id (c : Clique) : Str := joinStr "-".toList ((sortInts c.nodeIds).map strInt)

/-- `pybbn/graph/node.py:163-172` `self.is_superset(that)` -/
def isSuperset (self that : Clique) : Bool := that.nodeIds.all (fun i => decide (i ∈ self.nodeIds))

/-- `pybbn/graph/node.py:174-180` `get_weight` (node weight = number of values, node.py:62) -/
def weight (c : Clique) : Nat := (c.nodes.map (fun v => v.values.length)).prod

/-- `pybbn/graph/node.py:108-124` `intersects`: the three lists (sorted when the intersection is non-empty) -/
def intersects (self that : Clique) : List Int × List Int × List Int :=
  let lhs := self.nodeIds
  let rhs := that.nodeIds
  let inter := lhs.filter (fun x => decide (x ∈ rhs))
  if inter = [] then (lhs, rhs, inter) else (sortInts lhs, sortInts rhs, sortInts inter)

end Clique

/-- `pybbn/graph/node.py:212-234` `SepSet` -/
structure SepSet where
  id : Str
  nodes : List Variable
  left : Clique
  right : Clique
  deriving DecidableEq, Repr

namespace SepSet

/-- `pybbn/graph/node.py:217-234` `SepSet(left, right)` -/
def mk' (left right : Clique) : SepSet :=
  let t := left.intersects right
  { id := joinStr "-".toList ((t.1 ++ t.2.2 ++ t.2.1).map strInt)
    nodes := left.nodes.filter (fun x => decide (x.id ∈ t.2.2))
    left := left
    right := right }

/-- `pybbn/graph/node.py:271-277` `get_mass` -/
def mass (s : SepSet) : Nat := s.nodes.length

/-- `pybbn/graph/node.py:263-269` `get_cost` -/
def cost (s : SepSet) : Nat := s.left.weight + s.right.weight

end SepSet

/-- what a join tree node is: a `Clique` or a `SepSet` (which subclasses `Clique`) -/
inductive JNode
  | clique (c : Clique)
  | sepset (s : SepSet)
  deriving DecidableEq, Repr

/-- the `nodes` attribute of a join tree node -/
def JNode.vars : JNode → List Variable
  | .clique c => c.nodes
  | .sepset s => s.nodes

/-- The mutable attributes of a BBN node object: `probs`, `potential` (`node.py:58-62`),
`metadata["parents"]` (`moralizer.py:33`, `potentialinitializer.py:36`; kept as ids) and
`metadata["parent.clique"]` (`initializer.py:64`; kept as the clique's id, the only attribute read). -/
structure NodeObj where
  probs : List ℚ
  potential : Option Potential := none
  parents : Option (List Int) := none
  parentClique : Option Str := none
  deriving DecidableEq, Repr

/-- `pybbn/graph/jointree.py:17-25` the attributes of a `JoinTree`. `edge_map` is not modelled: the join
tree code writes it in step with `neighbors` (jointree.py:238-246) and never reads it.
`evidences[id][value]` is a one-entry potential `{id: value}`; the model stores its likelihood.
`listener` says whether an `InferenceController` is attached. `heap` holds the mutable attributes of the
BBN node objects referenced by the cliques. -/
structure JoinTree where
  nodes : Dict Str JNode := []
  edges : Dict Str SepSet := []
  neighbors : Dict Str (List Str) := []
  potentials : Dict Str Potential := []
  evidences : Dict Int (Dict Str ℚ) := []
  listener : Bool := false
  parentInfo : Dict Int (List Int) := []
  heap : Dict Int NodeObj := []

namespace JoinTree

/-- `pybbn/graph/jointree.py:203-209` `get_cliques` -/
def getCliques (jt : JoinTree) : List Clique :=
  jt.nodes.filterMap (fun kv => match kv.2 with | .clique c => some c | .sepset _ => none)

/-- `pybbn/graph/jointree.py:211-217` `get_sep_sets` -/
def getSepSets (jt : JoinTree) : List SepSet :=
  jt.nodes.filterMap (fun kv => match kv.2 with | .clique _ => none | .sepset s => some s)

/-- `pybbn/graph/jointree.py:124-136` `{node.id: node for clique in get_cliques() for node in clique.nodes}` -/
def bbnNodeDict (jt : JoinTree) : Dict Int Variable :=
  (jt.getCliques.flatMap Clique.nodes).foldl (fun d v => Dict.set d v.id v) []

/-- `pybbn/graph/jointree.py:138-144` `get_bbn_nodes` -/
def getBbnNodes (jt : JoinTree) : List Variable := Dict.values jt.bbnNodeDict

/-- `pybbn/graph/jointree.py:146-156` `get_bbn_node` -/
def getBbnNode (jt : JoinTree) (id : Int) : Option Variable := Dict.get? jt.bbnNodeDict id

/-- `pybbn/graph/jointree.py:158-172` `get_bbn_node_by_name` -/
def getBbnNodeByName (jt : JoinTree) (name : Str) : Option Variable :=
  Dict.get? ((jt.getCliques.flatMap Clique.nodes).foldl (fun d v => Dict.set d v.name v) []) name

/-- `get_neighbors` on the join tree in set iteration order (`tick` distinguishes moments between which
the sets change). -/
def nbrs (js : SetIter Str) (tick : Nat) (jt : JoinTree) (k : Str) : List Str :=
  js.iter tick k (ddGet jt.neighbors k)

/-- `pybbn/graph/jointree.py:504-520` `JoinTree.__shouldadd__` -/
def shouldAdd (js : SetIter Str) (jt : JoinTree) (s : SepSet) : Bool :=
  if s.left.id = s.right.id then false
  else !(pathExists (nbrs js jt.edges.length jt) (jt.nodes.length + 1) s.left.id s.right.id)

/-- `pybbn/graph/edge.py:31-46` key of `JtEdge(sep_set)` (undirected, between string ids) -/
def edgeKey (s : SepSet) : Str :=
  if strLe s.left.id s.right.id then s.left.id ++ "--".toList ++ s.right.id
  else s.right.id ++ "--".toList ++ s.left.id

/-- `pybbn/graph/jointree.py:219-250` `add_edge(JtEdge(s))` -/
def addEdge (js : SetIter Str) (jt : JoinTree) (s : SepSet) : JoinTree :=
  if shouldAdd js jt s then
    let nodes := Dict.setDefault jt.nodes s.id (.sepset s)
    let nodes := Dict.setDefault nodes s.left.id (.clique s.left)
    let nodes := Dict.setDefault nodes s.right.id (.clique s.right)
    let nb := ddAdd jt.neighbors s.left.id s.id
    let nb := ddAdd nb s.right.id s.id
    let nb := ddAdd nb s.id s.left.id
    let nb := ddAdd nb s.id s.right.id
    { jt with nodes := nodes, neighbors := nb, edges := Dict.set jt.edges (edgeKey s) s }
  else jt

/-- `pybbn/graph/jointree.py:522-532` `__get_parent_ids__` -/
def getParentIds (jt : JoinTree) (id : Int) : Py (List Int) :=
  match jt.getBbnNode id with
  | none => .error .attributeError
  | some _ =>
      match Dict.get? jt.heap id with
      | some o => .ok (o.parents.getD [])
      | none => .ok []

/-- `pybbn/graph/jointree.py:174-190` `find_cliques_with_node_and_parents` -/
def findCliquesWithNodeAndParents (jt : JoinTree) (id : Int) : Py (List Clique) := do
  let ids ← jt.getParentIds id
  .ok (jt.getCliques.filter (fun c => (ids ++ [id]).all (fun i => decide (i ∈ c.nodeIds))))

/-- `pybbn/graph/jointree.py:273-295` `get_evidence`: the updated evidence dictionary and the potential -/
def getEvidence (ev : Dict Int (Dict Str ℚ)) (node : Variable) (value : Str) :
    Dict Int (Dict Str ℚ) × Potential :=
  let m := Dict.setDefault ((Dict.get? ev node.id).getD []) value 1
  (Dict.set ev node.id m, [{ entries := [(node.id, value)], value := (Dict.get? m value).getD 1 }])

end JoinTree

end PyBBN
