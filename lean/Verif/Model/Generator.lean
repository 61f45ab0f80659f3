import Verif.Model.Do
import Verif.Model.JoinTree

/-!
# `pybbn/generator/bbngenerator.py`: random networks

`networkx`, `numpy.random` and `scipy.stats.dirichlet` are not part of the repository.
* An `nx.DiGraph` is a `DiG`: nodes and edges in order of insertion. `successors(i)` and `predecessors(j)` list the edges of `i`, `j` in order
  of insertion, `edges` lists node by node. `nx.is_connected`, `is_directed_acyclic_graph` and `shortest_path` are modelled by what they decide.
* Random numbers come from a list of raw draws (natural numbers); `np.random.randint(lo, hi)` takes the next one modulo `hi - lo`, so that every
  outcome is possible. A run that needs more draws than the list has is `waiting`: a program that never stops drawing is `waiting` on every list.
* `dirichlet.rvs(alphas)` gives a vector of the length of `alphas` with positive entries summing to one; which one is left open.
-/

namespace PyBBN

/-- outcome of a run on a list of raw draws -/
inductive Run (α : Type) where
  | done (a : α) (rest : List Nat)
  | raised (e : PyErr)
  | waiting

/-- a computation with random draws -/
def Rnd (α : Type) : Type := List Nat → Run α

namespace Rnd
variable {α β : Type}

def pure (a : α) : Rnd α := fun ds => .done a ds

def raise (e : PyErr) : Rnd α := fun _ => .raised e

def lift : Py α → Rnd α
  | .ok a => pure a
  | .error e => raise e

def bind (x : Rnd α) (f : α → Rnd β) : Rnd β := fun ds =>
  match x ds with
  | .done a rest => f a rest
  | .raised e => .raised e
  | .waiting => .waiting

instance : Monad Rnd where
  pure := pure
  bind := bind

/-- the next raw draw -/
def draw : Rnd Nat
  | [] => .waiting
  | d :: ds => .done d ds

/-- `np.random.randint(lo, hi)`: `ValueError` for an empty range -/
def randint (lo hi : Int) : Rnd Int :=
  if hi ≤ lo then raise .valueError
  else bind draw (fun d => pure (lo + (d : Int) % (hi - lo)))

/-- repeat `n` times, collecting the results -/
def times (x : Rnd α) : Nat → Rnd (List α)
  | 0 => pure []
  | n + 1 => bind x (fun a => bind (times x n) (fun as => pure (a :: as)))

end Rnd

/-- the Dirichlet sampler: any function of the state of the generator and the parameters that returns probability vectors -/
structure Dirichlet where
  rvs : List Nat → List Int → List ℚ
  length_rvs : ∀ s as, (rvs s as).length = as.length
  pos_rvs : ∀ s as, ∀ q ∈ rvs s as, 0 < q
  sum_rvs : ∀ s as, as ≠ [] → (rvs s as).sum = 1

namespace Gen

/-- `range(n)` -/
def range (n : Int) : List Int := (List.range n.toNat).map Int.ofNat

/-- `g.add_node(v)` -/
def addNode (g : DiG Int) (v : Int) : DiG Int := { g with nodes := setAdd g.nodes v }

/-- `g.add_edges_from([(i, j, {})])`: an edge that exists keeps its place -/
def addEdgeRaw (g : DiG Int) (i j : Int) : DiG Int := ⟨setAdd (setAdd g.nodes i) j, setAdd g.edges (i, j)⟩

/-- `g.remove_edge(i, j)` raises `NetworkXError` when there is none -/
def removeEdge (g : DiG Int) (i j : Int) : Py (DiG Int) :=
  if Do.hasEdge g i j then .ok { g with edges := g.edges.filter (fun e => decide (e ≠ (i, j))) } else .error .exception

/-- `list(g.predecessors(j))` -/
def predecessors (g : DiG Int) (j : Int) : List Int := (g.edges.filter (fun e => decide (e.2 = j))).map Prod.fst

/-- `g.edges`, node by node -/
def edges (g : DiG Int) : List (Int × Int) := g.nodes.flatMap (fun u => (Do.successors g u).map (fun v => (u, v)))

/-- `pybbn/generator/bbngenerator.py:15-31` `__get_simple_ordered_tree__` -/
def simpleOrderedTree (n : Int) : DiG Int :=
  (range (n - 1)).foldl (fun g i => addEdgeRaw g i (i + 1)) ((range n).foldl addNode ⟨[], []⟩)

/-- `pybbn/generator/bbngenerator.py:34-51` `__convert_to_undirected_graph__` and a path between two of its nodes -/
def joined (g : DiG Int) (a b : Int) : Bool := pathExists (Do.neighbors g) (g.nodes.length + 1) a b

/-- `pybbn/generator/bbngenerator.py:54-61` `__is_connected__`; `nx.is_connected` raises on the graph without nodes -/
def isConnected (g : DiG Int) : Py Bool :=
  match g.nodes with
  | [] => .error .exception
  | v :: _ => .ok (g.nodes.all (fun w => joined g v w))

/-- `nx.is_directed_acyclic_graph` -/
def isDag (g : DiG Int) : Bool := g.edges.all (fun e => !pathExists (Do.successors g) (g.nodes.length + 1) e.2 e.1)

/-- the loop of `pybbn/generator/bbngenerator.py:64-75`: draw until different from `i`; every draw takes one element of the list -/
def drawOther (n i : Int) : List Nat → Run Int
  | [] => .waiting
  | d :: ds => if (d : Int) % n = i then drawOther n i ds else .done ((d : Int) % n) ds

/-- `pybbn/generator/bbngenerator.py:64-75` `__get_random_node_pair__` -/
def randomNodePair (n : Int) : Rnd (Int × Int) := do
  let i ← Rnd.randint 0 n
  let j ← drawOther n i
  Rnd.pure (i, j)

/-- `pybbn/generator/bbngenerator.py:78-87` `__edge_exists__` -/
def edgeExists (i j : Int) (g : DiG Int) : Bool := decide (j ∈ Do.successors g i)

/-- `pybbn/generator/bbngenerator.py:90-105` `__del_edge__` -/
def delEdge (i j : Int) (g : DiG Int) : Py (DiG Int) :=
  if Do.hasEdge g i j then do
    let g ← removeEdge g i j
    let c ← isConnected g
    .ok (if c = false then addEdgeRaw g i j else g)
  else .ok g

/-- `pybbn/generator/bbngenerator.py:108-121` `__add_edge__` -/
def addEdge (i j : Int) (g : DiG Int) : Py (DiG Int) :=
  let g := addEdgeRaw g i j
  if isDag g = false then removeEdge g i j else .ok g

/-- `pybbn/generator/bbngenerator.py:124-146` `__find_predecessor__` -/
def findPredecessor (i j : Int) (g : DiG Int) : Option Int := (predecessors g j).find? (fun pa => joined g pa i)

/-- the body of the loop of `pybbn/generator/bbngenerator.py:158-163` -/
def multiStep (n : Int) (g : DiG Int) : Rnd (DiG Int) := do
  let (i, j) ← randomNodePair n
  if Do.hasEdge g i j then Rnd.lift (delEdge i j g) else Rnd.lift (addEdge i j g)

/-- `for it in range(max_iter)` -/
def loop (step : DiG Int → Rnd (DiG Int)) : Nat → DiG Int → Rnd (DiG Int)
  | 0, g => Rnd.pure g
  | k + 1, g => Rnd.bind (step g) (loop step k)

/-- `pybbn/generator/bbngenerator.py:149-164` `__generate_multi_connected_structure__` -/
def multiStructure (n maxIter : Int) : Rnd (DiG Int) := loop (multiStep n) maxIter.toNat (simpleOrderedTree n)

/-- the branch `pybbn/generator/bbngenerator.py:184-197` for a predecessor `k`; `b` is `p < 0.5` -/
def rewire (i j k : Int) (b : Bool) (g : DiG Int) : Py (DiG Int) := do
  let g ← removeEdge g k j
  let g := if b then addEdgeRaw g j i else addEdgeRaw g i j
  let c ← isConnected g
  if c = false then
    let g := addEdgeRaw g k j
    if b then removeEdge g j i else removeEdge g i j
  else .ok g

/-- the body of the loop of `pybbn/generator/bbngenerator.py:177-197`; the draw `p` is used only in the comparison `p < 0.5`, modelled as an even raw draw -/
def singlyStep (n : Int) (g : DiG Int) : Rnd (DiG Int) := do
  let (i, j) ← randomNodePair n
  if Do.hasEdge g i j || Do.hasEdge g j i then Rnd.pure g
  else do
    let p ← Rnd.draw
    match findPredecessor i j g with
    | none => Rnd.pure g
    | some k => Rnd.lift (rewire i j k (decide (p % 2 = 0)) g)

/-- `pybbn/generator/bbngenerator.py:167-198` `__generate_singly_structure__` -/
def singlyStructure (n maxIter : Int) : Rnd (DiG Int) := loop (singlyStep n) maxIter.toNat (simpleOrderedTree n)

/-- a Python `int` or a `numpy.int64` -/
inductive Num where
  | py (k : Int)
  | np (k : Int)
  deriving DecidableEq, Repr

/-- the number itself -/
def Num.val : Num → Int
  | .py k => k
  | .np k => k

/-- `a * b` is a `numpy.int64` as soon as one of them is -/
def Num.mul : Num → Num → Num
  | .py a, .py b => .py (a * b)
  | a, b => .np (a.val * b.val)

/-- `pybbn/generator/bbngenerator.py:201-213` `__generate_num_values__` -/
def numValues (n maxValues : Int) : Rnd (List Num) :=
  Rnd.times (do
    let r ← Rnd.randint 0 maxValues
    Rnd.pure (.np (max (r + 1) 2))) n.toNat

/-- `pybbn/generator/bbngenerator.py:216-226` `__generate_alphas__` -/
def alphas (n maxAlpha : Int) : Rnd (List Int) := Rnd.times (Rnd.randint 1 (maxAlpha + 1)) n.toNat

/-- `pybbn/generator/bbngenerator.py:229-239` `__sample_dirichlet__` -/
def sampleDirichlet (D : Dirichlet) (n maxAlpha : Int) : Rnd (List ℚ) := do
  let as ← alphas n maxAlpha
  fun ds => .done (D.rvs ds as) ds

/-- `a[i]` on a numpy array: negative indices count from the end -/
def npGet (a : List Num) (i : Int) : Py Num :=
  let k := if i < 0 then i + a.length else i
  if k < 0 then .error .indexError
  else match a[k.toNat]? with
    | some x => .ok x
    | none => .error .indexError

/-- `pybbn/generator/bbngenerator.py:242-254` `__get_num_parent_instantiations__` -/
def numParentInst (parents : List Int) (nv : List Num) : Py Num :=
  parents.foldlM (fun acc pa => do
    let k ← npGet nv pa
    .ok (acc.mul k)) (.py 1)

/-- `pybbn/generator/bbngenerator.py:257-281` `__generate_dirichlet_parameters__` -/
def dirichletParameters (D : Dirichlet) (i : Int) (parents : List Int) (nv : List Num) (maxAlpha : Int) : Rnd (List (List ℚ)) := do
  let m ← Rnd.lift (numParentInst parents nv)
  let n ← Rnd.lift (npGet nv i)
  Rnd.times (sampleDirichlet D n.val maxAlpha) m.val.toNat

/-- the parameters of one node -/
structure Params where
  parents : List Int
  params : List (List ℚ)
  shape : Num × Num

/-- the loop of `pybbn/generator/bbngenerator.py:297-307` -/
def paramsLoop (D : Dirichlet) (g : DiG Int) (nv : List Num) (maxAlpha : Int) : List Int → Dict Int Params → Rnd (Dict Int Params)
  | [], ps => Rnd.pure ps
  | i :: is, ps => do
      let parents := predecessors g i
      let params ← dirichletParameters D i parents nv maxAlpha
      let m ← Rnd.lift (numParentInst parents nv)
      let n ← Rnd.lift (npGet nv i)
      paramsLoop D g nv maxAlpha is (Dict.set ps i ⟨parents, params, (m, n)⟩)

/-- `pybbn/generator/bbngenerator.py:284-308` `__generate_parameters__` -/
def generateParameters (D : Dirichlet) (g : DiG Int) (maxValues maxAlpha : Int) : Rnd (Dict Int Params) := do
  let nv ← numValues g.nodes.length maxValues
  paramsLoop D g nv maxAlpha g.nodes []

/-- `pybbn/generator/bbngenerator.py:332-344` `generate_multi_bbn` -/
def generateMulti (D : Dirichlet) (n maxIter maxValues maxAlpha : Int) : Rnd (DiG Int × Dict Int Params) := do
  let g ← multiStructure n maxIter
  let p ← generateParameters D g maxValues maxAlpha
  Rnd.pure (g, p)

/-- `pybbn/generator/bbngenerator.py:347-359` `generate_singly_bbn` -/
def generateSingly (D : Dirichlet) (n maxIter maxValues maxAlpha : Int) : Rnd (DiG Int × Dict Int Params) := do
  let g ← singlyStructure n maxIter
  let p ← generateParameters D g maxValues maxAlpha
  Rnd.pure (g, p)

/-- `d[k]` -/
def getKey {α : Type} (d : Dict Int α) (k : Int) : Py α :=
  match Dict.get? d k with
  | some a => .ok a
  | none => .error .keyError

/-- one pass of the first loop of `pybbn/generator/bbngenerator.py:374-381` -/
def convertNode (p : Dict Int Params) (acc : Bbn × Dict Int BbnNode) (id : Int) : Py (Bbn × Dict Int BbnNode) := do
  let q ← getKey p id
  let states := (range q.shape.2.val).map (fun s => "state".toList ++ strInt s)
  let n : BbnNode := ⟨⟨id, strInt id, states⟩, q.params.flatten⟩
  .ok (acc.1.addNode n, Dict.set acc.2 id n)

/-- one pass of the second loop of `pybbn/generator/bbngenerator.py:383-386` -/
def convertEdge (nodes : Dict Int BbnNode) (b : Bbn) (e : Int × Int) : Py Bbn := do
  let pa ← getKey nodes e.1
  let ch ← getKey nodes e.2
  .ok (b.addEdge ⟨pa, ch, .directed⟩)

/-- `pybbn/generator/bbngenerator.py:362-388` `convert_for_exact_inference` -/
def convert (g : DiG Int) (p : Dict Int Params) : Py Bbn := do
  let acc ← g.nodes.foldlM (convertNode p) (Bbn.empty, [])
  (edges g).foldlM (convertEdge acc.2) acc.1

/-- `pybbn/generator/bbngenerator.py:391-408` `convert_for_drawing` -/
def convertForDrawing (b : Bbn) : DiG Int :=
  (Dict.values b.toGraph.edges).foldl (fun g (e : Edge BbnNode) => addEdgeRaw g (e.i.var.id) (e.j.var.id))
    ((Dict.values b.toGraph.nodes).foldl (fun g (n : BbnNode) => addNode g (n.var.id)) ⟨[], []⟩)

/-- `json.dumps` on a number: `numpy.int64` is not serializable -/
def dumpNum : Num → Py Int
  | .py k => .ok k
  | .np _ => .error .typeError

/-- the document written by `pybbn/generator/bbngenerator.py:311-329` `to_json` -/
structure Doc where
  nodes : List Int
  edges : List (Int × Int)
  parameters : List (Int × List ℚ × List Int)

/-- `pybbn/generator/bbngenerator.py:311-329` `to_json`, up to the text of the document -/
def toJson (g : DiG Int) (p : Dict Int Params) : Py Doc := do
  let ps ← p.mapM (fun (k, v) => do
    let a ← dumpNum v.shape.1
    let b ← dumpNum v.shape.2
    .ok (k, v.params.flatten, [a, b]))
  .ok ⟨g.nodes, edges g, ps⟩

end Gen
end PyBBN
