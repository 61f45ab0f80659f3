import Verif.Model.Py

/-!
# `pybbn/graph/{variable,node,edge,graph,dag,pdag}.py`
-/

namespace PyBBN

/-- `pybbn/graph/variable.py:4-20` `Variable(id, name, values)`. -/
structure Variable where
  id : Int
  name : Str
  values : List Str
  deriving DecidableEq, Repr

/-- `pybbn/graph/node.py:46-70` `BbnNode(variable, probs)`: the attributes given to the constructor.
`node.id` is `variable.id`. The attributes that the library mutates later (`potential`, `metadata`)
are kept in `NodeObj` (see `Model/JoinTree.lean`). -/
structure BbnNode where
  var : Variable
  probs : List ℚ
  deriving DecidableEq, Repr

/-- `pybbn/graph/node.py:5-17` plain `Node(id)`. -/
structure Node where
  id : Int
  deriving DecidableEq, Repr

/-- objects with an `id` attribute -/
class HasId (N : Type) where
  nid : N → Int

export HasId (nid)

instance : HasId Variable := ⟨Variable.id⟩
instance : HasId BbnNode := ⟨fun n => n.var.id⟩
instance : HasId Node := ⟨Node.id⟩

/-- `pybbn/graph/edge.py:5-11` -/
inductive EdgeType
  | undirected | directed
  deriving DecidableEq, Repr

/-- `pybbn/graph/edge.py:14-29` -/
structure Edge (N : Type) where
  i : N
  j : N
  type : EdgeType
  deriving DecidableEq, Repr

/-- `pybbn/graph/edge.py:31-46` `Edge.key`. -/
def Edge.key {N : Type} [HasId N] (e : Edge N) : Str :=
  match e.type with
  | .directed => strInt (nid e.i) ++ "->".toList ++ strInt (nid e.j)
  | .undirected =>
      strInt (min (nid e.i) (nid e.j)) ++ "--".toList ++ strInt (max (nid e.i) (nid e.j))

/-- `pybbn/graph/graph.py:12-19` the attributes of a `Graph`. -/
structure Graph (N : Type) where
  nodes : Dict Int N := []
  edges : Dict Str (Edge N) := []
  edgeMap : Dict Int (List Int) := []
  neighbors : Dict Int (List Int) := []

namespace Graph
variable {N : Type} [HasId N]

/-- `pybbn/graph/graph.py:12-19` `Graph()` -/
def empty : Graph N := {}

/-- `pybbn/graph/graph.py:21-28` `get_neighbors` (content of the set). -/
def getNeighbors (g : Graph N) (id : Int) : List Int := ddGet g.neighbors id

/-- `pybbn/graph/graph.py:39-45` `get_nodes` -/
def getNodes (g : Graph N) : List N := Dict.values g.nodes

/-- `pybbn/graph/graph.py:47-53` `get_edges` -/
def getEdges (g : Graph N) : List (Edge N) := Dict.values g.edges

/-- `pybbn/graph/graph.py:55-64` `add_node` -/
def addNode (g : Graph N) (n : N) : Graph N :=
  { g with nodes := Dict.setDefault g.nodes (nid n) n }

/-- `pybbn/graph/graph.py:77-83` the body of the `if` in `add_edge`. -/
def insertEdge (g : Graph N) (e : Edge N) : Graph N :=
  let em := ddAdd g.edgeMap (nid e.i) (nid e.j)
  let em := match e.type with
    | .undirected => ddAdd em (nid e.j) (nid e.i)
    | .directed => em
  let nb := ddAdd g.neighbors (nid e.i) (nid e.j)
  let nb := ddAdd nb (nid e.j) (nid e.i)
  { g with edges := Dict.set g.edges e.key e, edgeMap := em, neighbors := nb }

/-- `pybbn/graph/graph.py:98-121` `Graph.__shouldadd__` -/
def shouldAdd (g : Graph N) (e : Edge N) : Bool :=
  if nid e.i = nid e.j then false
  else match e.type with
    | .undirected =>
        decide (nid e.i ∉ ddGet g.edgeMap (nid e.j)) || decide (nid e.j ∉ ddGet g.edgeMap (nid e.i))
    | .directed => decide (nid e.j ∉ ddGet g.edgeMap (nid e.i))

/-- `pybbn/graph/graph.py:66-87` `add_edge` with the `__shouldadd__` of the subclass as parameter. -/
def addEdgeWith (should : Graph N → Edge N → Bool) (g : Graph N) (e : Edge N) : Graph N :=
  let g := (g.addNode e.i).addNode e.j
  if should g e then g.insertEdge e else g

/-- `pybbn/graph/graph.py:66-87` `Graph.add_edge` (also `Ug.add_edge`). -/
def addEdge (g : Graph N) (e : Edge N) : Graph N := addEdgeWith shouldAdd g e

/-- `pybbn/graph/graph.py:123-135` `Graph.edge_exists` -/
def edgeExists (g : Graph N) (a b : Int) : Bool :=
  decide (b ∈ ddGet g.edgeMap a) || decide (a ∈ ddGet g.edgeMap b)

/-- `pybbn/graph/graph.py:137-153` `remove_node`: note that `edges` is not touched. -/
def removeNode (g : Graph N) (id : Int) : Graph N :=
  { g with
    nodes := Dict.pop g.nodes id
    edgeMap := (Dict.pop g.edgeMap id).map (fun kv => (kv.1, kv.2.filter (fun x => decide (x ≠ id))))
    neighbors := (Dict.pop g.neighbors id).map
      (fun kv => (kv.1, kv.2.filter (fun x => decide (x ≠ id)))) }

/-- `pybbn/graph/dag.py:41-48` and `pybbn/graph/pdag.py:15-22` `get_parents`
(key order of `edge_map` as far as it is determined by insertions). -/
def getParents (g : Graph N) (id : Int) : List Int :=
  (g.edgeMap.filter (fun kv => decide (id ∈ kv.2))).map Prod.fst

end Graph

/-- The recursive search shared by the three `PathDetector.__find__` methods
(`pybbn/graph/dag.py:383-399`, `pybbn/graph/pdag.py:115-131`, `pybbn/graph/jointree.py:577-599`),
with the successor function (already in iteration order) as parameter. `seen` is the mutable set.
`fuel` bounds the recursion depth. Returns the result and the final `seen`. -/
def dfsFind {K : Type} [DecidableEq K] (succ : K → List K) (stop : K) :
    Nat → List K → K → Bool × List K
  | 0, seen, _ => (false, seen)
  | fuel + 1, seen, i =>
      if stop ∈ succ i then (true, seen)
      else
        (succ i).foldl
          (fun acc c =>
            if acc.1 then acc
            else if c ∈ acc.2 then acc
            else dfsFind succ stop fuel acc.2 c)
          (false, seen ++ [i])

/-- `PathDetector.exists` (`pybbn/graph/dag.py:372-381`, same in `pdag.py:104-113` and
`jointree.py:566-575`). -/
def pathExists {K : Type} [DecidableEq K] (succ : K → List K) (fuel : Nat) (start stop : K) : Bool :=
  if start = stop then true else (dfsFind succ stop fuel [] start).1

namespace Dag
variable {N : Type} [HasId N]

/-- `pybbn/graph/dag.py:50-57` `get_children`, in set iteration order. -/
def getChildren (it : SetIter Int) (g : Graph N) (id : Int) : List Int :=
  it.iter 0 id (ddGet g.edgeMap id)

/-- `pybbn/graph/dag.py:59-82` `Dag.__shouldadd__` -/
def shouldAdd (it : SetIter Int) (g : Graph N) (e : Edge N) : Bool :=
  match e.type with
  | .undirected => false
  | .directed =>
      if nid e.i = nid e.j then false
      else if nid e.j ∉ ddGet g.edgeMap (nid e.i) ∧ nid e.i ∉ ddGet g.edgeMap (nid e.j) then
        !(pathExists (getChildren it g) (g.nodes.length + 1) (nid e.j) (nid e.i))
      else false

/-- `Dag.add_edge` -/
def addEdge (it : SetIter Int) (g : Graph N) (e : Edge N) : Graph N :=
  Graph.addEdgeWith (shouldAdd it) g e

/-- `pybbn/graph/dag.py:84-94` `Dag.edge_exists` -/
def edgeExists (g : Graph N) (a b : Int) : Bool :=
  decide (b ∈ ddGet g.edgeMap a) && decide (a ∉ ddGet g.edgeMap b)

end Dag

namespace Pdag
variable {N : Type} [HasId N]

/-- `pybbn/graph/pdag.py:24-37` `get_out_nodes`, in set iteration order. -/
def getOutNodes (it : SetIter Int) (g : Graph N) (id : Int) : List Int :=
  (it.iter 0 id (g.getNeighbors id)).filter (fun x => decide (x ∉ g.getParents id))

/-- `pybbn/graph/pdag.py:39-59` `Pdag.__shouldadd__` -/
def shouldAdd (it : SetIter Int) (g : Graph N) (e : Edge N) : Bool :=
  if nid e.i = nid e.j then false
  else if nid e.j ∉ ddGet g.edgeMap (nid e.i) ∧ nid e.i ∉ ddGet g.edgeMap (nid e.j) then
    !(pathExists (getOutNodes it g) (g.nodes.length + 1) (nid e.j) (nid e.i))
  else false

/-- `Pdag.add_edge` -/
def addEdge (it : SetIter Int) (g : Graph N) (e : Edge N) : Graph N :=
  Graph.addEdgeWith (shouldAdd it) g e

/-- `pybbn/graph/pdag.py:61-71` `Pdag.edge_exists` -/
def edgeExists (g : Graph N) (a b : Int) : Bool :=
  decide (b ∈ ddGet g.edgeMap a) || decide (a ∈ ddGet g.edgeMap b)

/-- `pybbn/graph/pdag.py:73-83` `Pdag.directed_edge_exists` -/
def directedEdgeExists (g : Graph N) (a b : Int) : Bool :=
  decide (b ∈ ddGet g.edgeMap a) && decide (a ∉ ddGet g.edgeMap b)

end Pdag

/-- `pybbn/graph/dag.py:118-128` `Bbn`: a graph plus the `parents` dictionary. The model only admits
`BbnNode` endpoints (with other nodes `Bbn.__shouldadd__` raises `TypeError`, dag.py:155). -/
structure Bbn extends Graph BbnNode where
  parents : Dict Int (List Int) := []

namespace Bbn

/-- `Bbn()` -/
def empty : Bbn := {}

/-- `add_node` inherited from `Graph` -/
def addNode (b : Bbn) (n : BbnNode) : Bbn := { b with toGraph := b.toGraph.addNode n }

/-- `pybbn/graph/dag.py:139-144` `Bbn.__edge_added__` -/
def edgeAdded (parents : Dict Int (List Int)) (e : Edge BbnNode) : Dict Int (List Int) :=
  let parents := Dict.setDefault parents (nid e.j) []
  if nid e.i ∈ ddGet parents (nid e.j) then parents
  else Dict.set parents (nid e.j) (ddGet parents (nid e.j) ++ [nid e.i])

/-- `pybbn/graph/dag.py:146-155` `Bbn.__shouldadd__`: both endpoints are `BbnNode`s, so `True`. -/
def shouldAdd (_ : Graph BbnNode) (_ : Edge BbnNode) : Bool := true

/-- `add_edge` (`graph.py:66-87`) with `Bbn`'s `__shouldadd__` and `__edge_added__`. -/
def addEdge (b : Bbn) (e : Edge BbnNode) : Bbn :=
  let g := (b.toGraph.addNode e.i).addNode e.j
  if shouldAdd g e then
    { toGraph := g.insertEdge e, parents := edgeAdded b.parents e }
  else { toGraph := g, parents := b.parents }

/-- `remove_node` inherited from `Graph` (`graph.py:137-153`): neither `edges` nor `parents` is touched -/
def removeNode (b : Bbn) (id : Int) : Bbn := { b with toGraph := b.toGraph.removeNode id }

/-- `pybbn/graph/dag.py:130-137` `get_parents_ordered` -/
def getParentsOrdered (b : Bbn) (id : Int) : List Int :=
  sortBy (fun a c => decide (a ≤ c)) (ddGet b.parents id)

/-- `pybbn/graph/dag.py:23-30` `get_n2i` -/
def getN2i (b : Bbn) : Dict Str Int :=
  b.nodes.foldl (fun d kv => Dict.set d kv.2.var.name kv.1) []

/-- `pybbn/graph/dag.py:32-39` `get_i2n` -/
def getI2n (b : Bbn) : Dict Int Str :=
  b.nodes.foldl (fun d kv => Dict.set d kv.1 kv.2.var.name) []

end Bbn

end PyBBN
