import Verif.Model.Graph

/-! # Networks as objects: aliasing, `copy.copy` and `copy.deepcopy`

The other modules treat a network as a value. Here a `Bbn` is an object whose attributes refer to five containers, the containers
hold references to node objects, and `__copy__`/`__deepcopy__` (`graph.py:160-172`, `node.py:28-40`, `variable.py:21-33`) copy
references or objects. Not modelled: assignments to attributes of `Variable` objects and to `node.potential`/`node.metadata` (for
those see `Model/Shared.lean`), and calling `__deepcopy__` directly without a memo (`copy.deepcopy` always passes one). -/

namespace PyBBN

/-- a reference to a node object; `id` is its attribute `node.id`, which is never reassigned (`node.py:10-17`) -/
structure Ref where
  addr : Nat
  id : Int
  deriving DecidableEq, Repr

instance : HasId Ref := ⟨Ref.id⟩

/-- the contents of the containers of one network -/
structure ONet extends Graph Ref where
  parents : Dict Int (List Int) := []

/-- the attributes of a `Bbn` object (`graph.py:12-19`, `dag.py:123-128`): where its five containers are -/
structure NetRef where
  nodes : Nat
  edges : Nat
  edgeMap : Nat
  neighbors : Nat
  parents : Nat
  deriving DecidableEq, Repr

/-- the memory: node objects and containers by address -/
structure Mem where
  objs : List BbnNode := []
  nodes : List (Dict Int Ref) := []
  edges : List (Dict Str (Edge Ref)) := []
  edgeMap : List (Dict Int (List Int)) := []
  neighbors : List (Dict Int (List Int)) := []
  parents : List (Dict Int (List Int)) := []

/-- the node object behind a reference (the default is for dangling references, which do not occur) -/
def Mem.deref (m : Mem) (x : Ref) : BbnNode := m.objs.getD x.addr ⟨⟨x.id, [], []⟩, []⟩

/-- what the containers of a network hold now -/
def Mem.load (m : Mem) (r : NetRef) : ONet where
  nodes := m.nodes.getD r.nodes []
  edges := m.edges.getD r.edges []
  edgeMap := m.edgeMap.getD r.edgeMap []
  neighbors := m.neighbors.getD r.neighbors []
  parents := m.parents.getD r.parents []

/-- The methods of `Graph`, `Dag` and `Bbn` change containers in place and never assign an attribute of the network
(`graph.py:55-87`, `graph.py:137-153`, `dag.py:139-144`): all effects are writes to the five containers. -/
def Mem.save (m : Mem) (r : NetRef) (o : ONet) : Mem :=
  { m with
    nodes := m.nodes.set r.nodes o.nodes
    edges := m.edges.set r.edges o.edges
    edgeMap := m.edgeMap.set r.edgeMap o.edgeMap
    neighbors := m.neighbors.set r.neighbors o.neighbors
    parents := m.parents.set r.parents o.parents }

/-- five fresh containers -/
def Mem.alloc (m : Mem) (o : ONet) : Mem × NetRef :=
  ({ m with
      nodes := m.nodes ++ [o.nodes]
      edges := m.edges ++ [o.edges]
      edgeMap := m.edgeMap ++ [o.edgeMap]
      neighbors := m.neighbors ++ [o.neighbors]
      parents := m.parents ++ [o.parents] },
    ⟨m.nodes.length, m.edges.length, m.edgeMap.length, m.neighbors.length, m.parents.length⟩)

namespace ONet

/-- `graph.py:55-64` `add_node` -/
def addNode (o : ONet) (x : Ref) : ONet := { o with toGraph := o.toGraph.addNode x }

/-- `dag.py:139-144` `Bbn.__edge_added__` -/
def edgeAdded (parents : Dict Int (List Int)) (e : Edge Ref) : Dict Int (List Int) :=
  let parents := Dict.setDefault parents e.j.id []
  if e.i.id ∈ ddGet parents e.j.id then parents
  else Dict.set parents e.j.id (ddGet parents e.j.id ++ [e.i.id])

/-- `graph.py:66-87` `add_edge`; `Bbn.__shouldadd__` (`dag.py:146-155`) is `True` for `BbnNode`s -/
def addEdge (o : ONet) (e : Edge Ref) : ONet :=
  let g := (o.toGraph.addNode e.i).addNode e.j
  { toGraph := g.insertEdge e, parents := edgeAdded o.parents e }

/-- `graph.py:137-153` `remove_node` -/
def removeNode (o : ONet) (id : Int) : ONet := { o with toGraph := o.toGraph.removeNode id }

/-- the node objects a network refers to: in `nodes`, and in the `Edge` objects of `edges` -/
def refs (o : ONet) : List Ref := o.nodes.map Prod.snd ++ o.edges.flatMap (fun kv => [kv.2.i, kv.2.j])

end ONet

/-- a node argument in a call: a `BbnNode(...)` made for the call, or `bbn.nodes[id]` of the network itself -/
inductive NodeArg
  | fresh (n : BbnNode)
  | own (id : Int)

/-- calls on one network -/
inductive NetOp
  /-- `bbn.add_node(a)` -/
  | addNode (a : NodeArg)
  /-- `bbn.add_edge(Edge(a, b, EdgeType.DIRECTED))` -/
  | addEdge (a b : NodeArg)
  /-- `bbn.remove_node(id)` -/
  | removeNode (id : Int)
  /-- `bbn.nodes[id].probs = ps` -/
  | setProbs (id : Int) (ps : List ℚ)

/-- evaluate an argument -/
def Mem.arg (m : Mem) (r : NetRef) : NodeArg → Py (Mem × Ref)
  | .fresh n => .ok ({ m with objs := m.objs ++ [n] }, ⟨m.objs.length, n.var.id⟩)
  | .own id => match Dict.get? (m.load r).nodes id with
      | some x => .ok (m, x)
      | none => .error .keyError

/-- a call; a `KeyError` for `bbn.nodes[id]` comes before any effect -/
def Mem.op (m : Mem) (r : NetRef) : NetOp → Py Mem
  | .addNode a => do
      let (m, x) ← m.arg r a
      .ok (m.save r ((m.load r).addNode x))
  | .addEdge a b => do
      let (m, x) ← m.arg r a
      let (m, y) ← m.arg r b
      .ok (m.save r ((m.load r).addEdge ⟨x, y, .directed⟩))
  | .removeNode id => .ok (m.save r ((m.load r).removeNode id))
  | .setProbs id ps => match Dict.get? (m.load r).nodes id with
      | some x => .ok { m with objs := m.objs.set x.addr { m.deref x with probs := ps } }
      | none => .error .keyError

/-- `copy.deepcopy` with its memo: the reachable node objects are copied once each (`l` lists their addresses), to the end of
the memory -/
def copyRef (base : Nat) (l : List Nat) (x : Ref) : Ref := ⟨base + l.idxOf x.addr, x.id⟩

def copyNet (base : Nat) (l : List Nat) (o : ONet) : ONet :=
  { o with
    nodes := o.nodes.map (fun kv => (kv.1, copyRef base l kv.2))
    edges := o.edges.map (fun kv => (kv.1, ⟨copyRef base l kv.2.i, copyRef base l kv.2.j, kv.2.type⟩)) }

/-- `graph.py:166-172` `__deepcopy__` -/
def Mem.deepcopy (m : Mem) (r : NetRef) : Mem × NetRef :=
  let o := m.load r
  let l := (o.refs.map Ref.addr).dedup
  let objs := l.map (fun a => m.objs.getD a ⟨⟨0, [], []⟩, []⟩)
  Mem.alloc { m with objs := m.objs ++ objs } (copyNet m.objs.length l o)

/-- a program's memory and its variables that hold networks -/
structure NetWorld where
  mem : Mem := {}
  nets : List NetRef := []

/-- what a program can do with networks -/
inductive NetAct
  /-- `Bbn()` -/
  | new
  /-- `copy.copy(bbn)` -/
  | copy (k : Nat)
  /-- `copy.deepcopy(bbn)` -/
  | deepcopy (k : Nat)
  /-- a call on the `k`-th network -/
  | op (k : Nat) (o : NetOp)

/-- One action. A call that raises `KeyError` is caught by the program (at worst it leaves an unreachable node object).
`graph.py:160-164` `__copy__` copies the references. -/
def NetWorld.step (w : NetWorld) : NetAct → NetWorld
  | .new => let (m, r) := w.mem.alloc {}
      { mem := m, nets := w.nets ++ [r] }
  | .copy k => match w.nets[k]? with
      | some r => { w with nets := w.nets ++ [r] }
      | none => w
  | .deepcopy k => match w.nets[k]? with
      | some r => let (m, r') := w.mem.deepcopy r
          { mem := m, nets := w.nets ++ [r'] }
      | none => w
  | .op k o => match w.nets[k]? with
      | some r => match w.mem.op r o with
          | .ok m => { w with mem := m }
          | .error _ => w
      | none => w

def NetWorld.run (acts : List NetAct) : NetWorld := acts.foldl NetWorld.step {}

/-- what can be seen of a network: its nodes with variables and CPTs, its edges, and the bookkeeping -/
structure NetView where
  nodes : Dict Int BbnNode
  edges : Dict Str (Int × Int × EdgeType)
  edgeMap : Dict Int (List Int)
  neighbors : Dict Int (List Int)
  parents : Dict Int (List Int)
  deriving DecidableEq, Repr

def edgeView {N : Type} [HasId N] (e : Edge N) : Int × Int × EdgeType := (nid e.i, nid e.j, e.type)

/-- what the program sees through a variable -/
def Mem.view (m : Mem) (r : NetRef) : NetView :=
  let o := m.load r
  { nodes := o.nodes.map (fun kv => (kv.1, m.deref kv.2))
    edges := o.edges.map (fun kv => (kv.1, edgeView kv.2))
    edgeMap := o.edgeMap
    neighbors := o.neighbors
    parents := o.parents }

end PyBBN
