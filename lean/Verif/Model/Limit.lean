import Verif.Model.Pptc

/-!
# Python's recursion limit

`PathDetector.__find__` (`jointree.py:577-599`), `EvidenceCollector.__walk__` (`evidencecollector.py:53-75`) and
`EvidenceDistributor.__walk__` (`evidencedistributor.py:61-81`) call themselves. Python raises `RecursionError` when too many calls
are nested (`sys.getrecursionlimit()`, 1000 unless changed). Here the number of nested calls that still fit is a parameter.
-/

namespace PyBBN

/-- how many nested calls of each recursive function still fit on Python's stack when it is first called -/
structure Limits where
  /-- `PathDetector.__find__` -/
  find : Nat
  /-- `EvidenceCollector.__walk__` -/
  collect : Nat
  /-- `EvidenceDistributor.__walk__` -/
  distribute : Nat

/-- `PathDetector.__find__` (`pybbn/graph/dag.py:383-399`, `pybbn/graph/pdag.py:115-131`, `pybbn/graph/jointree.py:577-599`), when `lim`
nested calls fit -/
def dfsFindL {K : Type} [DecidableEq K] (succ : K → List K) (stop : K) : Nat → List K → K → Py (Bool × List K)
  | 0, _, _ => .error .recursionError
  | lim + 1, seen, i =>
      if stop ∈ succ i then .ok (true, seen)
      else
        (succ i).foldlM
          (fun acc c =>
            if acc.1 then .ok acc
            else if c ∈ acc.2 then .ok acc
            else dfsFindL succ stop lim acc.2 c)
          (false, seen ++ [i])

/-- `PathDetector.exists` (`pybbn/graph/dag.py:372-381`, `pdag.py:104-113`, `jointree.py:566-575`) -/
def pathExistsL {K : Type} [DecidableEq K] (succ : K → List K) (lim : Nat) (start stop : K) : Py Bool :=
  if start = stop then .ok true else do
    let r ← dfsFindL succ stop lim [] start
    .ok r.1

/-- `pybbn/graph/dag.py:59-82` `Dag.__shouldadd__` -/
def Dag.shouldAddL {N : Type} [HasId N] (lim : Nat) (it : SetIter Int) (g : Graph N) (e : Edge N) : Py Bool :=
  match e.type with
  | .undirected => .ok false
  | .directed =>
      if nid e.i = nid e.j then .ok false
      else if nid e.j ∉ ddGet g.edgeMap (nid e.i) ∧ nid e.i ∉ ddGet g.edgeMap (nid e.j) then do
        let r ← pathExistsL (getChildren it g) lim (nid e.j) (nid e.i)
        .ok (!r)
      else .ok false

/-- `pybbn/graph/graph.py:66-87` `Dag.add_edge` -/
def Dag.addEdgeL {N : Type} [HasId N] (lim : Nat) (it : SetIter Int) (g : Graph N) (e : Edge N) : Py (Graph N) := do
  let g := (g.addNode e.i).addNode e.j
  let r ← Dag.shouldAddL lim it g e
  .ok (if r then g.insertEdge e else g)

namespace JoinTree

/-- `pybbn/graph/jointree.py:504-520` `JoinTree.__shouldadd__` -/
def shouldAddL (lim : Nat) (js : SetIter Str) (jt : JoinTree) (s : SepSet) : Py Bool :=
  if s.left.id = s.right.id then .ok false
  else do
    let r ← pathExistsL (nbrs js jt.edges.length jt) lim s.left.id s.right.id
    .ok (!r)

/-- `pybbn/graph/jointree.py:219-250` `add_edge(JtEdge(s))` -/
def addEdgeL (lim : Nat) (js : SetIter Str) (jt : JoinTree) (s : SepSet) : Py JoinTree := do
  let r ← shouldAddL lim js jt s
  if r then
    let nodes := Dict.setDefault jt.nodes s.id (.sepset s)
    let nodes := Dict.setDefault nodes s.left.id (.clique s.left)
    let nodes := Dict.setDefault nodes s.right.id (.clique s.right)
    let nb := ddAdd jt.neighbors s.left.id s.id
    let nb := ddAdd nb s.right.id s.id
    let nb := ddAdd nb s.id s.left.id
    let nb := ddAdd nb s.id s.right.id
    .ok { jt with nodes := nodes, neighbors := nb, edges := Dict.set jt.edges (edgeKey s) s }
  else .ok jt

end JoinTree

/-- `pybbn/pptc/transformer.py:11-29` `transform` -/
def Transformer.transformL (lim : Nat) (js : SetIter Str) (cliques : List Clique) : Py JoinTree :=
  (getSepSets cliques).foldlM (fun jt s => jt.addEdgeL lim js s) (cliques.foldl addClique {})

/-- `pybbn/pptc/propagator.py:10-29` `propagate` (the walks of `Model/Pptc.lean`, which raise `RecursionError` when their first
argument is used up) -/
def Propagator.propagateL (lim : Limits) (js : SetIter Str) (jt : JoinTree) : Py JoinTree := do
  match (sortBy (fun a b => strLe (Clique.id a) (Clique.id b)) jt.getCliques).head? with
  | none => .error .indexError
  | some x =>
      let jt ← collect js lim.collect jt x.id
      distribute js lim.distribute jt x.id

/-- `pybbn/pptc/inferencecontroller.py:17-41` `apply` on fresh node objects -/
def InferenceController.applyL (lim : Limits) (it : SetIter Int) (js : SetIter Str) (b : Bbn) : Py JoinTree := do
  let heap ← potentialInit b (initialHeap b [])
  let ug := moralize b
  let heap ← moralParents b heap
  let cliques := (Triangulator.triangulate it ug).1
  let jt ← Transformer.transformL lim.find js cliques
  let jt := { jt with parentInfo := parentInfoOf b, heap := heap }
  let jt ← Initializer.initializeJt jt
  let jt ← Propagator.propagateL lim js jt
  .ok { jt with listener := true }

end PyBBN
