import Verif.Model.JoinTree

/-!
# `pybbn/pptc/*.py`: moralization, triangulation, join tree construction, propagation
-/

namespace PyBBN

/-! ## `moralizer.py` -/

/-- `for i in range(size): for j in range(i+1, size)`: all pairs at increasing positions -/
def pairs {α : Type} : List α → List (α × α)
  | [] => []
  | x :: xs => xs.map (fun y => (x, y)) ++ pairs xs

/-- the undirected edge `Edge(a, b, UNDIRECTED)` between two node objects -/
def uedge (a b : Variable) : Edge Variable := ⟨a, b, .undirected⟩

/-- `pybbn/pptc/moralizer.py:24` `[dag.get_node(pa) for pa in dag.get_parents(node.id)]`
(a parent that is no node would raise `KeyError`; edge endpoints are always nodes, see C04). -/
def parentNodes (b : Bbn) (id : Int) : List BbnNode :=
  (b.toGraph.getParents id).filterMap (fun pa => Dict.get? b.nodes pa)

/-- `pybbn/pptc/moralizer.py:10-35` `moralize` (the metadata part is `moralParents`). -/
def moralize (b : Bbn) : Graph Variable :=
  let ug : Graph Variable := b.toGraph.getNodes.foldl (fun g n => g.addNode n.var) Graph.empty
  let ug := b.toGraph.getEdges.foldl (fun g e => g.addEdge (uedge e.i.var e.j.var)) ug
  b.toGraph.getNodes.foldl (fun g n =>
    (pairs (parentNodes b n.var.id)).foldl (fun g pq => g.addEdge (uedge pq.1.var pq.2.var)) g) ug

/-! ## `triangulator.py` -/

/-- `pybbn/pptc/triangulator.py:144-161` `NodeClique` -/
structure NodeClique where
  node : Variable
  neighbors : List Variable
  weight : Nat
  edges : List (Edge Variable)

namespace Triangulator

/-- `pybbn/pptc/triangulator.py:39-52` `duplicate` -/
def duplicate (g : Graph Variable) : Graph Variable :=
  g.getEdges.foldl (fun u e => u.addEdge e) (g.getNodes.foldl (fun u n => u.addNode n) Graph.empty)

/-- `pybbn/pptc/triangulator.py:63-64,122` the neighbor objects in set iteration order
(`get_node` cannot raise here: neighbors are nodes, see C04). -/
def neighborNodes (it : SetIter Int) (tick : Nat) (m : Graph Variable) (n : Variable) : List Variable :=
  (it.iter tick n.id (m.getNeighbors n.id)).filterMap (fun i => Dict.get? m.nodes i)

/-- `pybbn/pptc/triangulator.py:95-111` `get_weight` -/
def getWeight (it : SetIter Int) (tick : Nat) (n : Variable) (m : Graph Variable) : Nat :=
  n.values.length * ((neighborNodes it tick m n).map (fun v => v.values.length)).prod

/-- `pybbn/pptc/triangulator.py:113-127` `get_edges_to_add` -/
def getEdgesToAdd (it : SetIter Int) (tick : Nat) (n : Variable) (m : Graph Variable) :
    List (Edge Variable) :=
  ((pairs (neighborNodes it tick m n)).filter (fun pq => !(m.edgeExists pq.1.id pq.2.id))).map
    (fun pq => uedge pq.1 pq.2)

/-- `pybbn/pptc/triangulator.py:54-80` `generate_cliques` -/
def generateCliques (it : SetIter Int) (tick : Nat) (m : Graph Variable) : List NodeClique :=
  m.getNodes.map (fun n =>
    ⟨n, neighborNodes it tick m n, getWeight it tick n m, getEdgesToAdd it tick n m⟩)

/-- comparison of the sort key `(len(edges), weight, node.id)` (`triangulator.py:92`) -/
def keyLe (a b : NodeClique) : Bool :=
  if a.edges.length < b.edges.length then true
  else if b.edges.length < a.edges.length then false
  else if a.weight < b.weight then true
  else if b.weight < a.weight then false
  else decide (a.node.id ≤ b.node.id)

/-- `pybbn/pptc/triangulator.py:82-93` `select_node` (`[0]` of an empty list would raise; it is only
called on a non-empty graph). -/
def selectNode (it : SetIter Int) (tick : Nat) (m : Graph Variable) : Option NodeClique :=
  (sortBy keyLe (generateCliques it tick m)).head?

/-- `pybbn/pptc/triangulator.py:163-170` `get_bbn_nodes` -/
def cliqueOf (nc : NodeClique) : Clique := ⟨nc.neighbors ++ [nc.node]⟩

/-- `pybbn/pptc/triangulator.py:129-141` `is_subset` -/
def isSubset (cliques : List Clique) (c : Clique) : Bool := cliques.any (fun d => d.isSuperset c)

/-- `pybbn/pptc/triangulator.py:24-35` the `while` loop on `(cliques, m, mm)`; `fuel` = number of nodes. -/
def loop (it : SetIter Int) : Nat → List Clique → Graph Variable → Graph Variable →
    List Clique × Graph Variable
  | 0, cliques, m, _ => (cliques, m)
  | fuel + 1, cliques, m, mm =>
      match selectNode it fuel mm with
      | none => (cliques, m)
      | some nc =>
          let clique := cliqueOf nc
          let cliques := if isSubset cliques clique then cliques else cliques ++ [clique]
          let mm := mm.removeNode nc.node.id
          let m := nc.edges.foldl (fun g e => g.addEdge e) m
          let mm := nc.edges.foldl (fun g e => g.addEdge e) mm
          loop it fuel cliques m mm

/-- `pybbn/pptc/triangulator.py:14-37` `triangulate`: the cliques, and the graph `m` with the fill-in edges -/
def triangulate (it : SetIter Int) (m : Graph Variable) : List Clique × Graph Variable :=
  let mm := duplicate m
  loop it mm.nodes.length [] m mm

end Triangulator

/-! ## `transformer.py` -/

namespace Transformer

/-- comparison of the sort key `(-mass, cost, id)` (`transformer.py:50`) -/
def sepLe (a b : SepSet) : Bool :=
  if b.mass < a.mass then true
  else if a.mass < b.mass then false
  else if a.cost < b.cost then true
  else if b.cost < a.cost then false
  else strLe a.id b.id

/-- `pybbn/pptc/transformer.py:31-50` `get_sep_sets` -/
def getSepSets (cliques : List Clique) : List SepSet :=
  sortBy sepLe
    (((pairs cliques).filter (fun pq => decide ((pq.1.intersects pq.2).2.2 ≠ []))).map
      (fun pq => SepSet.mk' pq.1 pq.2))

/-- `JoinTree.add_node` for a clique (`graph.py:55-64`) -/
def addClique (jt : JoinTree) (c : Clique) : JoinTree :=
  { jt with nodes := Dict.setDefault jt.nodes c.id (.clique c) }

/-- `pybbn/pptc/transformer.py:11-29` `transform` -/
def transform (js : SetIter Str) (cliques : List Clique) : JoinTree :=
  let jt : JoinTree := cliques.foldl addClique {}
  (getSepSets cliques).foldl (fun jt s => jt.addEdge js s) jt

end Transformer

/-! ## `potentialinitializer.py` -/

/-- `pybbn/pptc/potentialinitializer.py:9-23` `PotentialInitializer.init`: sets `node.potential` of every node. -/
def potentialInit (b : Bbn) (heap : Dict Int NodeObj) : Py (Dict Int NodeObj) :=
  b.toGraph.getNodes.foldlM (fun heap n => do
    let parents ← (ddGet b.parents n.var.id).mapM (fun pa => Dict.getItem b.nodes pa)
    let pot ← PotentialUtil.getPotential n.var n.probs (parents.map BbnNode.var)
    let o ← Dict.getItem heap n.var.id
    .ok (Dict.set heap n.var.id { o with potential := some pot })) heap

/-- `pybbn/pptc/moralizer.py:31-33` `node.add_metadata("parents", parents)` -/
def moralParents (b : Bbn) (heap : Dict Int NodeObj) : Py (Dict Int NodeObj) :=
  b.toGraph.getNodes.foldlM (fun heap n => do
    let o ← Dict.getItem heap n.var.id
    .ok (Dict.set heap n.var.id
      { o with parents := some ((parentNodes b n.var.id).map (fun p => p.var.id)) })) heap

/-- `pybbn/graph/jointree.py:105-122` `get_bbn_node_and_parents` -/
def bbnNodeAndParents (jt : JoinTree) : Py (List (Variable × List Variable)) :=
  jt.getBbnNodes.mapM (fun v => do
    let ps ← (ddGet jt.parentInfo v.id).mapM (fun pa => Dict.getItem jt.bbnNodeDict pa)
    .ok (v, ps))

/-- `pybbn/pptc/potentialinitializer.py:25-36` `PotentialInitializer.reinit` -/
def potentialReinit (jt : JoinTree) : Py JoinTree := do
  let nps ← bbnNodeAndParents jt
  let heap ← nps.foldlM (fun heap np => do
    let o ← Dict.getItem heap np.1.id
    let pot ← PotentialUtil.getPotential np.1 o.probs np.2
    .ok (Dict.set heap np.1.id
      { o with potential := some pot, parents := some (np.2.map Variable.id) })) jt.heap
  .ok { jt with heap := heap }

/-! ## `initializer.py` -/

namespace Initializer

/-- `pybbn/pptc/initializer.py:49-67` `get_clique`: the id of the parent clique and the updated objects -/
def getClique (jt : JoinTree) (node : Variable) : Py (Str × JoinTree) := do
  let o ← Dict.getItem jt.heap node.id
  match o.parentClique with
  | some cid => .ok (cid, jt)
  | none =>
      let cs ← jt.findCliquesWithNodeAndParents node.id
      match (sortBy (fun a b => strLe (Clique.id a) (Clique.id b)) cs).head? with
      | none => .error .indexError
      | some c =>
          .ok (c.id, { jt with heap := Dict.set jt.heap node.id { o with parentClique := some c.id } })

/-- `pybbn/pptc/initializer.py:26-35` one iteration of the first node loop -/
def assignNode (jt : JoinTree) (node : Variable) : Py JoinTree := do
  let (cid, jt) ← getClique jt node
  let p1 ← Dict.getItem jt.potentials cid
  let o ← Dict.getItem jt.heap node.id
  match o.potential with
  | none => .error .attributeError
  | some p2 => .ok { jt with potentials := Dict.set jt.potentials cid (PotentialUtil.multiply p1 p2) }

/-- `pybbn/pptc/initializer.py:40-44` body of the evidence loop for one node and value -/
def applyEvidence (jt : JoinTree) (node : Variable) (value : Str) : Py JoinTree := do
  let o ← Dict.getItem jt.heap node.id
  match o.parentClique with
  | none => .error .keyError
  | some cid =>
      let p ← Dict.getItem jt.potentials cid
      let (ev, np) := JoinTree.getEvidence jt.evidences node value
      .ok { jt with evidences := ev, potentials := Dict.set jt.potentials cid (PotentialUtil.multiply p np) }

/-- `pybbn/pptc/initializer.py:17-23` fresh tables (all ones) for all cliques and separation sets -/
def freshTables (jt : JoinTree) : Dict Str Potential :=
  let p := jt.getCliques.foldl
    (fun d c => Dict.set d c.id (PotentialUtil.fromNodes c.nodes)) jt.potentials
  jt.getSepSets.foldl (fun d s => Dict.set d s.id (PotentialUtil.fromNodes s.nodes)) p

/-- `pybbn/pptc/initializer.py:9-47` `initialize` -/
def initializeJt (jt : JoinTree) : Py JoinTree := do
  let jt := { jt with potentials := freshTables jt }
  let nodes := jt.getBbnNodes
  let jt ← nodes.foldlM assignNode jt
  nodes.foldlM (fun jt node => node.values.foldlM (fun jt v => applyEvidence jt node v) jt) jt

end Initializer

/-! ## `propagator.py`, `evidencecollector.py`, `evidencedistributor.py` -/

namespace Propagator

/-- `pybbn/graph/potential.py:162-181` `marginalize_for(join_tree, clique, nodes)`: a missing table
(`potentials.get` gives `None`) raises `AttributeError` as soon as there is an entry to fill. -/
def marginalizeFor (jt : JoinTree) (c : Str) (nodes : List Variable) : Py Potential :=
  match Dict.get? jt.potentials c with
  | some p => .ok (PotentialUtil.marginalize p nodes)
  | none => if PotentialUtil.fromNodes nodes = [] then .ok [] else .error .attributeError

/-- `pybbn/graph/potential.py:144-160` `pass_single_message(join_tree, x, s, y)` on ids -/
def passSingleMessage (jt : JoinTree) (x s y : Str) : Py JoinTree := do
  let old ← Dict.getItem jt.potentials s
  let sn ← Dict.getItem jt.nodes s
  let new ← marginalizeFor jt x sn.vars
  let pots := Dict.set jt.potentials s new
  let yp ← Dict.getItem pots y
  let ratio ← PotentialUtil.divide new old
  .ok { jt with potentials := Dict.set pots y (PotentialUtil.multiply yp ratio) }

/-- `pybbn/pptc/evidencecollector.py:20-35` and `evidencedistributor.py:20-41`
`__get_neighboring_cliques__`: pairs (separation set id, clique id). -/
def neighboringCliques (js : SetIter Str) (jt : JoinTree) (c : Str) : List (Str × Str) :=
  (jt.nbrs js jt.edges.length c).flatMap (fun s =>
    ((jt.nbrs js jt.edges.length s).filter (fun d => decide (d ≠ c))).map (fun d => (s, d)))

/-- `evidencecollector.py:64-70`, `evidencedistributor.py:71-77`: marking of the unmarked neighbors -/
def markNew (marked : List Str) (l : List (Str × Str)) : List Str × List (Str × Str) :=
  l.foldl (fun mt sc => if sc.2 ∈ mt.1 then mt else (mt.1 ++ [sc.2], mt.2 ++ [sc])) (marked, [])

/-- `pybbn/pptc/evidencecollector.py:53-75` `__walk__(x, s, y)`; state = marked cliques and join tree -/
def collectWalk (js : SetIter Str) : Nat → Str → Str → Str → List Str × JoinTree →
    Py (List Str × JoinTree)
  | 0, _, _, _, _ => .error .recursionError
  | fuel + 1, x, s, y, st => do
      let mt := markNew st.1 (neighboringCliques js st.2 y)
      let st ← mt.2.foldlM (fun st sc => collectWalk js fuel y sc.1 sc.2 st) (mt.1, st.2)
      let jt ← passSingleMessage st.2 y s x
      .ok (st.1, jt)

/-- `pybbn/pptc/evidencecollector.py:37-51` `start` -/
def collect (js : SetIter Str) (fuel : Nat) (jt : JoinTree) (start : Str) : Py JoinTree := do
  let ns := neighboringCliques js jt start
  let marked := start :: ns.map Prod.snd
  let st ← ns.foldlM (fun st sc => collectWalk js fuel start sc.1 sc.2 st) (marked, jt)
  .ok st.2

/-- `pybbn/pptc/evidencedistributor.py:61-81` `__walk__(x, s, y)` -/
def distributeWalk (js : SetIter Str) : Nat → Str → List Str × JoinTree → Py (List Str × JoinTree)
  | 0, _, _ => .error .recursionError
  | fuel + 1, y, st => do
      let mt := markNew st.1 (neighboringCliques js st.2 y)
      mt.2.foldlM (fun st sc => do
        let jt ← passSingleMessage st.2 y sc.1 sc.2
        distributeWalk js fuel sc.2 (st.1, jt)) (mt.1, st.2)

/-- `pybbn/pptc/evidencedistributor.py:43-59` `start` -/
def distribute (js : SetIter Str) (fuel : Nat) (jt : JoinTree) (start : Str) : Py JoinTree := do
  let ns := neighboringCliques js jt start
  let marked := start :: ns.map Prod.snd
  let st ← ns.foldlM (fun st sc => do
    let jt ← passSingleMessage st.2 start sc.1 sc.2
    distributeWalk js fuel sc.2 (st.1, jt)) (marked, jt)
  .ok st.2

/-- `pybbn/pptc/propagator.py:10-29` `propagate` -/
def propagate (js : SetIter Str) (jt : JoinTree) : Py JoinTree := do
  match (sortBy (fun a b => strLe (Clique.id a) (Clique.id b)) jt.getCliques).head? with
  | none => .error .indexError
  | some x =>
      let jt ← collect js jt.nodes.length jt x.id
      distribute js jt.nodes.length jt x.id

end Propagator

/-! ## `inferencecontroller.py` -/

namespace InferenceController

/-- the attributes of a node object when `apply` is called: the constructor's `probs` (`node.py:58-62`), and whatever
potential and metadata earlier calls left on the object (`leftover`); without earlier calls `potential = None` and no metadata -/
def startObj (leftover : Dict Int NodeObj) (n : BbnNode) : Int × NodeObj :=
  (n.var.id, { probs := n.probs
               potential := (Dict.get? leftover n.var.id).bind NodeObj.potential
               parents := (Dict.get? leftover n.var.id).bind NodeObj.parents
               parentClique := (Dict.get? leftover n.var.id).bind NodeObj.parentClique })

/-- node objects still referenced by `edges` but no longer by `nodes` (`remove_node`, `graph.py:137-153`, keeps the
edges); `moralize` puts them back into the moral graph -/
def strays (b : Bbn) : List BbnNode :=
  (b.toGraph.getEdges.flatMap (fun e => [e.i, e.j])).filter (fun n => decide (n.var.id ∉ Dict.keys b.nodes))

/-- The mutable attributes of all node objects the network refers to when `apply` is called. -/
def initialHeap (b : Bbn) (leftover : Dict Int NodeObj) : Dict Int NodeObj :=
  b.toGraph.getNodes.map (startObj leftover) ++ Dict.ofList ((strays b).map (startObj leftover))

/-- `pybbn/pptc/inferencecontroller.py:30-34` -/
def parentInfoOf (b : Bbn) : Dict Int (List Int) :=
  b.toGraph.getNodes.filterMap (fun n =>
    (Dict.get? b.parents n.var.id).map (fun ps => (n.var.id, ps)))

/-- `pybbn/pptc/inferencecontroller.py:17-41` `apply`, on node objects carrying metadata `leftover` -/
def applyWith (it : SetIter Int) (js : SetIter Str) (leftover : Dict Int NodeObj) (b : Bbn) :
    Py JoinTree := do
  let heap ← potentialInit b (initialHeap b leftover)
  let ug := moralize b
  let heap ← moralParents b heap
  let cliques := (Triangulator.triangulate it ug).1
  let jt := Transformer.transform js cliques
  let jt := { jt with parentInfo := parentInfoOf b, heap := heap }
  let jt ← Initializer.initializeJt jt
  let jt ← Propagator.propagate js jt
  .ok { jt with listener := true }

/-- `pybbn/pptc/inferencecontroller.py:17-41` `apply` on fresh node objects -/
def apply (it : SetIter Int) (js : SetIter Str) (b : Bbn) : Py JoinTree := applyWith it js [] b

/-- `pybbn/graph/jointree.py:90-103` `update_bbn_cpts` -/
def updateBbnCpts (jt : JoinTree) (cpts : Dict Int (List ℚ)) : JoinTree :=
  { jt with heap := cpts.foldl (fun heap kc =>
      if Dict.has jt.bbnNodeDict kc.1 then
        match Dict.get? heap kc.1 with
        | some o => Dict.set heap kc.1 { o with probs := kc.2, potential := none }
        | none => heap
      else heap) jt.heap }

/-- `pybbn/pptc/inferencecontroller.py:66-83` `apply_from_serde` (also the tail of `reapply`) -/
def applyFromSerde (js : SetIter Str) (jt : JoinTree) : Py JoinTree := do
  let jt := { jt with listener := false, evidences := [] }
  let jt ← potentialReinit jt
  let jt ← Initializer.initializeJt jt
  let jt ← Propagator.propagate js jt
  .ok { jt with listener := true }

/-- `pybbn/pptc/inferencecontroller.py:43-64` `reapply`; `copy.deepcopy` is the identity on values -/
def reapply (js : SetIter Str) (jt : JoinTree) (cpts : Dict Int (List ℚ)) : Py JoinTree :=
  applyFromSerde js (updateBbnCpts jt cpts)

end InferenceController

end PyBBN
