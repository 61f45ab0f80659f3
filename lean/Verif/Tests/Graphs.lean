import Verif.Model.Dne
import Verif.Props.Csv
import Verif.Proofs.Sampling
import Verif.Tests.Pptc

/-!
# The model run on the repository's own unit tests: graphs, serialisation, potentials, sampling

See `Verif/Tests/Pptc.lean`. Left out are the tests that only look at Python's object identity (`copy`, `deepcopy` of nodes, edges and
graphs), at random numbers (samples, generated networks, Gaussian data), and at `str` of nodes.
-/

namespace PyBBN.Tests

/-! ## `tests/graph/test_graph.py` -/

def n (i : Int) : Node := ⟨i⟩
def edge (t : EdgeType) (i j : Int) : Edge Node := ⟨n i, n j, t⟩

/-- `len(set) == k` and the listed members are in it -/
def members (s : List Int) (expected : List Int) : Bool := s.length == expected.length && expected.all (fun i => decide (i ∈ s))

/-- the assertions on nodes, edges and neighbors shared by the creation tests of `Graph`, `Dag` and `Pdag` -/
def chain012 (g : Graph Node) : Bool :=
  g.getNodes.length == 3 && g.getEdges.length == 2 && members (g.getNeighbors 0) [1] && members (g.getNeighbors 1) [0, 2] &&
    members (g.getNeighbors 2) [1]

/-- `g.add_node(n0); g.add_node(n1); g.add_edge(e0); g.add_edge(e1)` -/
def twoEdges (add : Graph Node → Edge Node → Graph Node) (t : EdgeType) : Graph Node :=
  add (add ((Graph.empty.addNode (n 0)).addNode (n 1)) (edge t 0 1)) (edge t 1 2)

/-- `test_graph_creation` -/
example : (chain012 (twoEdges Graph.addEdge .undirected) &&
    [(0, 1, true), (1, 2, true), (0, 2, false)].all (fun (q : Int × Int × Bool) =>
      (twoEdges Graph.addEdge .undirected).edgeExists q.1 q.2.1 == q.2.2)) = true := by decide +kernel

/-- `test_graph_neighbor_tracking`, `test_ug_neighbor_tracking`, `test_dag_neighbor_tracking` -/
example : [twoEdges Graph.addEdge .undirected, twoEdges (Dag.addEdge SetIter.same) .directed].all (fun g =>
    g.neighbors.length == 3 && chain012 g &&
    ((g.removeNode 0).neighbors.length == 2 && !(Dict.has (g.removeNode 0).neighbors 0) &&
      members ((g.removeNode 0).getNeighbors 1) [2] && members ((g.removeNode 0).getNeighbors 2) [1])) = true := by decide +kernel

/-! ## `tests/graph/test_dag.py`, `test_pdag.py` -/

/-- `test_dag_creation`: the third edge would close a cycle -/
example :
    let g := Dag.addEdge SetIter.same (twoEdges (Dag.addEdge SetIter.same) .directed) (edge .directed 2 0)
    (chain012 g && (Dag.edgeExists g 0 1 == true) && (Dag.edgeExists g 1 2 == true) && (Dag.edgeExists g 0 2 == false) &&
      members (g.getParents 0) [] && members (g.getParents 1) [0] && members (g.getParents 2) [1] &&
      members (Dag.getChildren SetIter.same g 0) [1] && members (Dag.getChildren SetIter.same g 1) [2] &&
      members (Dag.getChildren SetIter.same g 2) []) = true := by decide +kernel

/-- `test_pdag_creation` -/
example :
    let g := Pdag.addEdge SetIter.same (twoEdges (Pdag.addEdge SetIter.same) .directed) (edge .directed 2 0)
    (chain012 g && (Pdag.edgeExists g 0 1 == true) && (Pdag.edgeExists g 1 2 == true) && (Pdag.edgeExists g 0 2 == false) &&
      (Pdag.directedEdgeExists g 0 1 == true) && (Pdag.directedEdgeExists g 1 2 == true) && (Pdag.directedEdgeExists g 0 2 == false) &&
      members (g.getParents 0) [] && members (g.getParents 1) [0] && members (g.getParents 2) [1] &&
      members (Pdag.getOutNodes SetIter.same g 0) [1] && members (Pdag.getOutNodes SetIter.same g 1) [2] &&
      members (Pdag.getOutNodes SetIter.same g 2) []) = true := by decide +kernel

/-- `test_to_dict`: the nodes and edges of the dictionary of the Huang graph -/
example : (Bbn.toDict huang).nodes = huangNodes.map (fun m => (PyKey.int m.var.id, m.toDict)) ∧
    (Bbn.toDict huang).edges = [(0, 1), (0, 2), (1, 3), (2, 4), (3, 5), (4, 5), (2, 6), (4, 7), (6, 7)].map
      (fun (e : Int × Int) => (⟨e.1, e.2⟩ : EdgeDict)) := by decide +kernel

/-- `test_from_dict` -/
example : ((Bbn.fromDict (Bbn.toDict huang)).val?.map (fun b => (b.nodes.length, b.edges.length))) = some (8, 9) := by decide +kernel

/-- `test_csv_serde` (numbers written as fractions); the network read back is the one written -/
example : ((Bbn.fromCsv fracText (Bbn.toCsv fracText huang)).val?.map (fun b =>
    (b.toGraph.getNodes, b.toGraph.getEdges.map (fun e => (e.i.var.id, e.j.var.id, e.type))))) =
    some (huangNodes, huang.toGraph.getEdges.map (fun e => (e.i.var.id, e.j.var.id, e.type))) := by decide +kernel

/-- `observed.find(s) != -1` -/
def findable (s : Str) : Str → Bool
  | [] => decide (s = [])
  | c :: t => s.isPrefixOf (c :: t) || findable s t

/-- `test_to_dne` -/
example : (match Bbn.toDne fracText "bbn".toList huang with
    | .error _ => false
    | .ok text => "abcdefgh".toList.all (fun c => findable ("node ".toList ++ [c]) text)) = true := by decide +kernel

/-! ## `tests/graph/test_node.py` -/

def hv (i : Nat) : Variable := (huangNodes.map BbnNode.var).getD i ⟨0, [], []⟩

/-- `test_clique_creation` -/
example : (Clique.mk [hv 0, hv 1, hv 2]).id = "0-1-2".toList ∧ (Clique.mk [hv 0, hv 1, hv 2]).weight = 8 ∧
    0 ∈ (Clique.mk [hv 0, hv 1, hv 2]).nodeIds ∧ 1 ∈ (Clique.mk [hv 0, hv 1, hv 2]).nodeIds ∧
    2 ∈ (Clique.mk [hv 0, hv 1, hv 2]).nodeIds ∧ 3 ∉ (Clique.mk [hv 0, hv 1, hv 2]).nodeIds := by decide +kernel

/-- `test_clique_is_superset` -/
example : [([0], true), ([1], true), ([2], true), ([3], false), ([0, 1, 2], true), ([0, 1], true), ([0, 2], true), ([1, 2], true),
    ([2, 3], false)].all (fun (q : List Nat × Bool) =>
      (Clique.mk [hv 0, hv 1, hv 2]).isSuperset (Clique.mk (q.1.map hv)) == q.2) = true := by decide +kernel

/-- `test_sep_set_creation` -/
example : ((SepSet.mk' ⟨[hv 0, hv 1, hv 2]⟩ ⟨[hv 1, hv 2, hv 3]⟩).nodes.map Variable.name,
    (SepSet.mk' ⟨[hv 0, hv 1, hv 2]⟩ ⟨[hv 1, hv 2, hv 3]⟩).cost, (SepSet.mk' ⟨[hv 0, hv 1, hv 2]⟩ ⟨[hv 1, hv 2, hv 3]⟩).mass) =
    (["b".toList, "c".toList], 16, 2) := by decide +kernel

/-! ## `tests/graph/test_potential.py` -/

/-- `PotentialEntry().add(i, v)...` -/
def entry (l : List (Int × String)) : PEntry := ⟨l.foldl (fun d kv => Dict.set d kv.1 kv.2.toList) [], 1⟩

/-- `test_potential_entry_matches` -/
example : (entry [(0, "on"), (1, "on")]).matchesE (entry [(0, "on"), (1, "on")]) = true ∧
    (entry [(0, "on"), (1, "on")]).matchesE (entry [(0, "on"), (1, "off")]) = false := by decide +kernel

/-- `test_potential_get_matching_entry` -/
example :
    let p : Potential := [entry [(0, "on"), (1, "on")], entry [(0, "on"), (1, "off")], entry [(0, "off"), (1, "on")], entry [(0, "off"), (1, "off")]]
    (p.map (fun e => (PotentialUtil.getMatchingEntries p e).length),
      (PotentialUtil.getMatchingEntries p (entry [(3, "off"), (1, "off")])).length) = ([1, 1, 1, 1], 0) := by decide +kernel

/-! ## `tests/sampling/test_sampling.py` -/

def val? (t : Table) (p : ℚ) (s : Dict Int Str) : Option Str := (t.getValue p s).val?

/-- `test_table` -/
example : (match Table.make (mk 0 "a" onOff [0.5, 0.5]) [] with
    | .error _ => false
    | .ok t => !t.hasParents && decide (t.probs = .inl [0.5, 1]) && decide (val? t 0.4 [] = some "on".toList) &&
        decide (val? t 0.6 [] = some "off".toList)) = true := by decide +kernel

/-- the rows of a table with parents -/
def rows (t : Table) : List (List ℚ) := match t.probs with
  | .inl _ => []
  | .inr d => Dict.values d

/-- the keys of a table with parents -/
def rowKeys (t : Table) : List Str := match t.probs with
  | .inl _ => []
  | .inr d => Dict.keys d

/-- `test_pa_ch_table` -/
example : (match Table.make (mk 1 "b" onOff [0.5, 0.5, 0.4, 0.6]) [mk 0 "a" onOff [0.5, 0.5]] with
    | .error _ => false
    | .ok t => t.hasParents && decide (rows t = [[0.5, 1], [0.4, 1]]) &&
        decide (val? t 0.4 [(0, "on".toList)] = some "on".toList) && decide (val? t 0.7 [(0, "on".toList)] = some "off".toList) &&
        decide (val? t 0.3 [(0, "off".toList)] = some "on".toList) && decide (val? t 0.6 [(0, "off".toList)] = some "off".toList)) = true := by
  decide +kernel

/-- `test_multiple_pa_ch_table` (with the rounded numbers of the expectation) -/
example : (match Table.make (mk 2 "recovery" ["false", "true"] [0.31, 0.69, 0.27, 0.73, 0.13, 0.87, 0.07, 0.93])
      [mk 1 "drug" ["false", "true"] [], mk 0 "gender" ["female", "male"] []] with
    | .error _ => false
    | .ok t => t.hasParents && decide (rows t = [[0.31, 1], [0.27, 1], [0.13, 1], [0.07, 1]]) &&
        decide (rowKeys t = ["0=female,1=false", "0=female,1=true", "0=male,1=false", "0=male,1=true"].map String.toList)) = true := by
  decide +kernel

def sortedIds (b : Bbn) : List Int :=
  (cpythonSort (fun x y => decide (paSorter x y < 0)) (LogicSampler.sortables b)).map SortableNode.nodeId

/-- `test_toplogical_sort_huang`, `test_toplogical_sort_reversed`, `test_toplogical_sort_mixed` -/
example : sortedIds huang = [0, 1, 2, 3, 4, 5, 6, 7] ∧
    sortedIds (net [mk 0 "a" onOff [0.7, 0.3, 0.2, 0.8], mk 1 "b" onOff [0.5, 0.5, 0.4, 0.6], mk 2 "c" onOff [0.5, 0.5]] [(2, 1), (1, 0)]) = [2, 1, 0] ∧
    sortedIds (net [mk 0 "a" onOff [0.7, 0.3, 0.2, 0.8], mk 1 "b" onOff [0.5, 0.5], mk 2 "c" onOff [0.5, 0.5, 0.4, 0.6]] [(1, 0), (1, 2)]) = [1, 0, 2] := by
  decide +kernel

/-- `test_sampler_tables` -/
example : (match LogicSampler.getTables (net [mk 0 "a" onOff [0.5, 0.5], mk 1 "b" onOff [0.5, 0.5, 0.4, 0.6],
      mk 2 "c" onOff [0.7, 0.3, 0.2, 0.8]] [(0, 1), (1, 2)]) with
    | .error _ => false
    | .ok ts => decide (Dict.keys ts = [0, 1, 2]) && decide ((Dict.get? ts 0).map Table.probs = some (.inl [0.5, 1])) &&
        decide ((Dict.get? ts 1).map rows = some [[0.5, 1], [0.4, 1]]) &&
        decide ((Dict.get? ts 2).map rows = some [[0.7, 1], [0.2, 1]])) = true := by decide +kernel

end PyBBN.Tests
