import Verif.Model.Text
import Verif.Proofs.Strings
import Verif.Model.Ace
import Verif.Model.Factory
import Verif.Model.PotDict
import Verif.Model.Serde
import Verif.Spec.Graph

/-!
# The model run on the repository's own unit tests: inference

These are tests of the model, not proofs of properties: each `example` evaluates the model (in the kernel) on the input of a test in
`/repo/tests` and checks what that test asserts. They guard against a model that drifts away from the code it stands for. Where a
test compares with a tolerance, so does the example; where it formats numbers to five digits, the example allows half of the last digit.
`it` and `js` are the iteration orders of the `set`s of ints and of strings; the tests must pass for every order, two are tried.
-/

namespace PyBBN.Tests

open InferenceController

/-- `BbnNode(Variable(id, name, values), probs)` -/
def mk (id : Int) (name : String) (values : List String) (probs : List ℚ) : BbnNode :=
  ⟨⟨id, name.toList, values.map String.toList⟩, probs⟩

/-- `Bbn()`, `add_node` for every node, then `add_edge` for every pair of positions -/
def net (nodes : List BbnNode) (edges : List (Nat × Nat)) : Bbn :=
  edges.foldl (fun b e => match nodes[e.1]?, nodes[e.2]? with
    | some i, some j => b.addEdge ⟨i, j, .directed⟩
    | _, _ => b) (nodes.foldl Bbn.addNode Bbn.empty)

def onOff : List String := ["on", "off"]
def tf : List String := ["t", "f"]

/-- `pybbn/graph/dag.py:413-437` the nodes of `BbnUtil.get_huang_graph` -/
def huangNodes : List BbnNode :=
  [mk 0 "a" onOff [1/2, 1/2], mk 1 "b" onOff [1/2, 1/2, 2/5, 3/5], mk 2 "c" onOff [7/10, 3/10, 1/5, 4/5],
   mk 3 "d" onOff [9/10, 1/10, 1/2, 1/2], mk 4 "e" onOff [3/10, 7/10, 3/5, 2/5],
   mk 5 "f" onOff [1/100, 99/100, 1/100, 99/100, 1/100, 99/100, 99/100, 1/100],
   mk 6 "g" onOff [4/5, 1/5, 1/10, 9/10],
   mk 7 "h" onOff [1/20, 19/20, 19/20, 1/20, 19/20, 1/20, 19/20, 1/20]]

/-- `pybbn/graph/dag.py:408-450` `BbnUtil.get_huang_graph` -/
def huang : Bbn := net huangNodes [(0, 1), (0, 2), (1, 3), (2, 4), (3, 5), (4, 5), (2, 6), (4, 7), (6, 7)]

/-- `pybbn/graph/dag.py:453-485` `BbnUtil.get_simple` -/
def simple : Bbn := net (huangNodes.take 6) [(0, 1), (0, 2), (1, 3), (2, 4), (3, 5), (4, 5)]

/-- `str(edge)` of an undirected edge (`edge.py:47-58`) -/
def undirectedText (e : Edge Variable) : Str := strInt e.i.id ++ "--".toList ++ strInt e.j.id

/-- `str(clique)` (`node.py:198-204`) -/
def cliqueText (c : Clique) : Str :=
  "(".toList ++ joinStr ",".toList (sortBy strLe (c.nodes.map Variable.name)) ++ ")".toList

/-- `str(sep_set)` (`node.py:279-285`) -/
def sepText (s : SepSet) : Str :=
  "|".toList ++ cliqueText s.left ++ " -- ".toList ++ joinStr ",".toList (sortBy strLe (s.nodes.map Variable.name)) ++
    " -- ".toList ++ cliqueText s.right ++ "|".toList

/-- `str(entry)` without the number (`potential.py:128-136`) -/
def entryText (e : PEntry) : Str := joinStr ",".toList (e.getEntryKeys.map (fun kv => kvText kv.1 kv.2))

/-- same length and every expected text present, as in the tests -/
def sameTexts (expected : List String) (observed : List Str) : Bool :=
  expected.length == observed.length && expected.all (fun s => decide (s.toList ∈ observed))

/-- every row of the tables is expected with this number, up to `tol`, and there are as many -/
def sameRows (tol : ℚ) (expected : List (String × ℚ)) (ps : List Potential) : Bool :=
  expected.length == (ps.flatten).length && ps.flatten.all (fun e =>
    match expected.find? (fun kv => decide (kv.1.toList = entryText e)) with
    | some kv => decide (e.value - kv.2 ≤ tol ∧ kv.2 - e.value ≤ tol)
    | none => false)

/-- `tests/pptc/test_inferencecontroller.py:12-39` `__validate_posterior__` -/
def validatePosterior (expected : List (String × List ℚ)) (jt : JoinTree) : Bool :=
  jt.getBbnNodes.length == expected.length && jt.getBbnNodes.all (fun n =>
    match jt.getBbnPotential n, expected.find? (fun kv => decide (kv.1.toList = n.name)) with
    | .ok p, some kv => p.length == kv.2.length && (p.zip kv.2).all (fun ab =>
        decide (ab.1.value - ab.2 < 1/1000 ∧ ab.2 - ab.1.value < 1/1000))
    | _, _ => false)

/-- a test that starts by `InferenceController.apply(bbn)`, under two iteration orders -/
def applied (b : Bbn) (test : SetIter Str → JoinTree → Bool) : Bool :=
  [(SetIter.same, SetIter.same), (SetIter.rev, SetIter.rev)].all (fun (o : SetIter Int × SetIter Str) =>
    match apply o.1 o.2 b with
    | .ok jt => test o.2 jt
    | .error _ => false)

/-- `EvidenceBuilder().with_node(join_tree.get_bbn_node_by_name(name)).with_evidence(value, 1.0).build()` -/
def evidence (jt : JoinTree) (name value : String) : List Evidence :=
  ((jt.getBbnNodeByName name.toList).map (fun n => Evidence.build n .observation [(value.toList, 1)])).toList

/-- the tree after a call that must not raise, and the test on it -/
def afterCall (o : JoinTree.Outcome) (test : JoinTree → Bool) : Bool := o.2.isNone && test o.1

/-! ## `tests/pptc/test_moralizer.py`, `test_triangulator.py`, `test_transformer.py` -/

example : sameTexts ["0--1", "0--2", "1--3", "2--4", "3--5", "4--5", "2--6", "4--7", "6--7", "3--4", "4--6"]
    ((moralize huang).getEdges.map undirectedText) = true := by decide +kernel

example : sameTexts ["(d,e,f)", "(e,g,h)", "(c,e,g)", "(a,b,c)", "(b,c,d)", "(c,d,e)"]
    ((Triangulator.triangulate SetIter.same (moralize huang)).1.map cliqueText) = true := by decide +kernel

example : sameTexts ["(d,e,f)", "(e,g,h)", "(c,e,g)", "(a,b,c)", "(b,c,d)", "(c,d,e)"]
    ((Triangulator.triangulate SetIter.rev (moralize huang)).1.map cliqueText) = true := by decide +kernel

/-- `str` of a join tree node -/
def jnodeText : JNode → Str
  | .clique c => cliqueText c
  | .sepset s => sepText s

/-- `str` of a join tree edge (`edge.py:95-104`) -/
def jtEdgeText (s : SepSet) : Str := cliqueText s.left ++ "--".toList ++ sepText s ++ "--".toList ++ cliqueText s.right

def huangTree : JoinTree := Transformer.transform SetIter.same (Triangulator.triangulate SetIter.same (moralize huang)).1

example : sameTexts ["(d,e,f)", "(e,g,h)", "(c,e,g)", "(a,b,c)", "(b,c,d)", "(c,d,e)", "|(a,b,c) -- b,c -- (b,c,d)|",
    "|(b,c,d) -- c,d -- (c,d,e)|", "|(c,e,g) -- c,e -- (c,d,e)|", "|(d,e,f) -- d,e -- (c,d,e)|", "|(e,g,h) -- e,g -- (c,e,g)|"]
    ((Dict.values huangTree.nodes).map jnodeText) = true := by decide +kernel

example : sameTexts ["(a,b,c)--|(a,b,c) -- b,c -- (b,c,d)|--(b,c,d)", "(b,c,d)--|(b,c,d) -- c,d -- (c,d,e)|--(c,d,e)",
    "(c,e,g)--|(c,e,g) -- c,e -- (c,d,e)|--(c,d,e)", "(d,e,f)--|(d,e,f) -- d,e -- (c,d,e)|--(c,d,e)",
    "(e,g,h)--|(e,g,h) -- e,g -- (c,e,g)|--(c,e,g)"]
    ((Dict.values huangTree.edges).map jtEdgeText) = true := by decide +kernel

/-- CPython iterates over sets of small integers in ascending order -/
def ascending : SetIter Int := ⟨fun _ _ l => sortInts l, fun _ _ l => sortInts_perm l⟩

/-- the assertions of `test_transformer.py` to the letter -/
example : JoinTree.text (Transformer.transform SetIter.rev (Triangulator.triangulate ascending (moralize huang)).1) =
    ("(d,e,f)\n(e,g,h)\n(c,e,g)\n(a,b,c)\n(b,c,d)\n(c,d,e)\n|(a,b,c) -- b,c -- (b,c,d)|\n|(b,c,d) -- c,d -- (c,d,e)|\n" ++
    "|(c,e,g) -- c,e -- (c,d,e)|\n|(d,e,f) -- d,e -- (c,d,e)|\n|(e,g,h) -- e,g -- (c,e,g)|\n" ++
    "(a,b,c)--|(a,b,c) -- b,c -- (b,c,d)|--(b,c,d)\n(b,c,d)--|(b,c,d) -- c,d -- (c,d,e)|--(c,d,e)\n" ++
    "(c,e,g)--|(c,e,g) -- c,e -- (c,d,e)|--(c,d,e)\n(d,e,f)--|(d,e,f) -- d,e -- (c,d,e)|--(c,d,e)\n" ++
    "(e,g,h)--|(e,g,h) -- e,g -- (c,e,g)|--(c,e,g)").toList := by decide +kernel

/-- `tests/graph/test_potential.py` `test_str` -/
example : Potential.text [⟨[(0, "on".toList), (1, "on".toList)], 1⟩, ⟨[(0, "on".toList), (1, "off".toList)], 1⟩,
      ⟨[(0, "off".toList), (1, "on".toList)], 1⟩, ⟨[(0, "off".toList), (1, "off".toList)], 1⟩] =
    "0=on,1=on|1.00000\n0=on,1=off|1.00000\n0=off,1=on|1.00000\n0=off,1=off|1.00000".toList := by decide +kernel

/-! ## `tests/pptc/test_potentialinitializer.py`, `test_initializer.py`, `test_propagator.py` -/

example : (match potentialInit huang (initialHeap huang []) with
    | .ok heap => sameRows 0
        [("0=on", 1/2), ("0=off", 1/2), ("0=on,1=on", 1/2), ("0=on,1=off", 1/2),
         ("0=off,1=on", 2/5), ("0=off,1=off", 3/5), ("0=on,2=on", 7/10), ("0=on,2=off", 3/10),
         ("0=off,2=on", 1/5), ("0=off,2=off", 4/5), ("1=on,3=on", 9/10), ("1=on,3=off", 1/10),
         ("1=off,3=on", 1/2), ("1=off,3=off", 1/2), ("2=on,4=on", 3/10), ("2=on,4=off", 7/10),
         ("2=off,4=on", 3/5), ("2=off,4=off", 2/5), ("3=on,4=on,5=on", 1/100), ("3=on,4=on,5=off", 99/100),
         ("3=on,4=off,5=on", 1/100), ("3=on,4=off,5=off", 99/100), ("3=off,4=on,5=on", 1/100), ("3=off,4=on,5=off", 99/100),
         ("3=off,4=off,5=on", 99/100), ("3=off,4=off,5=off", 1/100), ("2=on,6=on", 4/5), ("2=on,6=off", 1/5),
         ("2=off,6=on", 1/10), ("2=off,6=off", 9/10), ("4=on,6=on,7=on", 1/20), ("4=on,6=on,7=off", 19/20),
         ("4=on,6=off,7=on", 19/20), ("4=on,6=off,7=off", 1/20), ("4=off,6=on,7=on", 19/20), ("4=off,6=on,7=off", 1/20),
         ("4=off,6=off,7=on", 19/20), ("4=off,6=off,7=off", 1/20)]
        ((Dict.values heap).filterMap NodeObj.potential)
    | .error _ => false) = true := by decide +kernel

/-- the pipeline up to `Initializer.initialize` -/
def initialized (it : SetIter Int) (js : SetIter Str) (b : Bbn) : Py JoinTree := do
  let heap ← potentialInit b (initialHeap b [])
  let heap ← moralParents b heap
  let jt := Transformer.transform js (Triangulator.triangulate it (moralize b)).1
  Initializer.initializeJt { jt with heap := heap }

example : (match initialized SetIter.same SetIter.same huang with
    | .ok jt => sameRows 0
        [("3=on,4=on,5=on", 1/100), ("3=on,4=on,5=off", 99/100), ("3=on,4=off,5=on", 1/100), ("3=on,4=off,5=off", 99/100),
         ("3=off,4=on,5=on", 1/100), ("3=off,4=on,5=off", 99/100), ("3=off,4=off,5=on", 99/100), ("3=off,4=off,5=off", 1/100),
         ("4=on,6=on,7=on", 1/20), ("4=on,6=on,7=off", 19/20), ("4=on,6=off,7=on", 19/20), ("4=on,6=off,7=off", 1/20),
         ("4=off,6=on,7=on", 19/20), ("4=off,6=on,7=off", 1/20), ("4=off,6=off,7=on", 19/20), ("4=off,6=off,7=off", 1/20),
         ("2=on,4=on,6=on", 4/5), ("2=on,4=on,6=off", 1/5), ("2=on,4=off,6=on", 4/5), ("2=on,4=off,6=off", 1/5),
         ("2=off,4=on,6=on", 1/10), ("2=off,4=on,6=off", 9/10), ("2=off,4=off,6=on", 1/10), ("2=off,4=off,6=off", 9/10),
         ("0=on,1=on,2=on", 7/40), ("0=off,1=on,2=on", 1/25), ("0=on,1=on,2=off", 3/40), ("0=off,1=on,2=off", 4/25),
         ("0=on,1=off,2=on", 7/40), ("0=off,1=off,2=on", 3/50), ("0=on,1=off,2=off", 3/40), ("0=off,1=off,2=off", 6/25),
         ("1=on,2=on,3=on", 9/10), ("1=off,2=on,3=on", 1/2), ("1=on,2=on,3=off", 1/10), ("1=off,2=on,3=off", 1/2),
         ("1=on,2=off,3=on", 9/10), ("1=off,2=off,3=on", 1/2), ("1=on,2=off,3=off", 1/10), ("1=off,2=off,3=off", 1/2),
         ("2=on,3=on,4=on", 3/10), ("2=off,3=on,4=on", 3/5), ("2=on,3=on,4=off", 7/10), ("2=off,3=on,4=off", 2/5),
         ("2=on,3=off,4=on", 3/10), ("2=off,3=off,4=on", 3/5), ("2=on,3=off,4=off", 7/10), ("2=off,3=off,4=off", 2/5),
         ("1=on,2=on", 1), ("1=on,2=off", 1), ("1=off,2=on", 1), ("1=off,2=off", 1),
         ("2=on,3=on", 1), ("2=on,3=off", 1), ("2=off,3=on", 1), ("2=off,3=off", 1),
         ("2=on,4=on", 1), ("2=on,4=off", 1), ("2=off,4=on", 1), ("2=off,4=off", 1),
         ("3=on,4=on", 1), ("3=on,4=off", 1), ("3=off,4=on", 1), ("3=off,4=off", 1),
         ("4=on,6=on", 1), ("4=on,6=off", 1), ("4=off,6=on", 1), ("4=off,6=off", 1)]
        (Dict.values jt.potentials)
    | .error _ => false) = true := by decide +kernel

example : (match (initialized SetIter.same SetIter.same huang >>= Propagator.propagate SetIter.same) with
    | .ok jt => sameRows (1/200000)
        [("3=on,4=on,5=on", 63/20000), ("3=on,4=on,5=off", 6231/20000), ("3=on,4=off,5=on", 73/20000), ("3=on,4=off,5=off", 7233/20000),
         ("3=off,4=on,5=on", 3/2000), ("3=off,4=on,5=off", 93/625), ("3=off,4=off,5=on", 21/125), ("3=off,4=off,5=off", 17/10000),
         ("4=on,6=on,7=on", 141/20000), ("4=on,6=on,7=off", 2679/20000), ("4=on,6=off,7=on", 1539/5000), ("4=on,6=off,7=off", 81/5000),
         ("4=off,6=on,7=on", 2603/10000), ("4=off,6=on,7=off", 137/10000), ("4=off,6=off,7=on", 4959/20000), ("4=off,6=off,7=off", 261/20000),
         ("2=on,4=on,6=on", 27/250), ("2=on,4=on,6=off", 27/1000), ("2=on,4=off,6=on", 63/250), ("2=on,4=off,6=off", 63/1000),
         ("2=off,4=on,6=on", 33/1000), ("2=off,4=on,6=off", 297/1000), ("2=off,4=off,6=on", 11/500), ("2=off,4=off,6=off", 99/500),
         ("0=on,1=on,2=on", 7/40), ("0=off,1=on,2=on", 1/25), ("0=on,1=on,2=off", 3/40), ("0=off,1=on,2=off", 4/25),
         ("0=on,1=off,2=on", 7/40), ("0=off,1=off,2=on", 3/50), ("0=on,1=off,2=off", 3/40), ("0=off,1=off,2=off", 6/25),
         ("1=on,2=on,3=on", 387/2000), ("1=off,2=on,3=on", 47/400), ("1=on,2=on,3=off", 43/2000), ("1=off,2=on,3=off", 47/400),
         ("1=on,2=off,3=on", 423/2000), ("1=off,2=off,3=on", 63/400), ("1=on,2=off,3=off", 47/2000), ("1=off,2=off,3=off", 63/400),
         ("2=on,3=on,4=on", 933/10000), ("2=off,3=on,4=on", 1107/5000), ("2=on,3=on,4=off", 2177/10000), ("2=off,3=on,4=off", 369/2500),
         ("2=on,3=off,4=on", 417/10000), ("2=off,3=off,4=on", 543/5000), ("2=on,3=off,4=off", 973/10000), ("2=off,3=off,4=off", 181/2500),
         ("1=on,2=on", 43/200), ("1=on,2=off", 47/200), ("1=off,2=on", 47/200), ("1=off,2=off", 63/200),
         ("2=on,3=on", 311/1000), ("2=on,3=off", 139/1000), ("2=off,3=on", 369/1000), ("2=off,3=off", 181/1000),
         ("2=on,4=on", 27/200), ("2=on,4=off", 63/200), ("2=off,4=on", 33/100), ("2=off,4=off", 11/50),
         ("3=on,4=on", 3147/10000), ("3=on,4=off", 3653/10000), ("3=off,4=on", 1503/10000), ("3=off,4=off", 1697/10000),
         ("4=on,6=on", 141/1000), ("4=on,6=off", 81/250), ("4=off,6=on", 137/500), ("4=off,6=off", 261/1000)]
        (Dict.values jt.potentials)
    | .error _ => false) = true := by decide +kernel

/-! ## `tests/pptc/test_inferencecontroller.py` -/

/-- `test_github_issue_4` -/
example : applied (net [mk 0 "A" ["T", "F"] [1/2, 1/2], mk 1 "B" ["T", "F"] [1/5, 4/5, 1/10, 9/10],
      mk 2 "C" ["T", "F"] [1/2, 1/2, 1/2, 1/2], mk 3 "D" ["T", "F"] [1/2, 1/2, 1/2, 1/2], mk 4 "E" ["T", "F"] [1/2, 1/2, 1/2, 1/2],
      mk 5 "F" ["T", "F"] [1/2, 1/2, 1/2, 1/2], mk 6 "G" ["T", "F"] (List.replicate 16 (1/2))]
      [(0, 1), (0, 2), (1, 3), (1, 4), (2, 5), (4, 6), (3, 6), (5, 6)])
    (fun _ jt => validatePosterior [("A", [1/2, 1/2]), ("B", [15/100, 85/100]), ("C", [1/2, 1/2]), ("D", [1/2, 1/2]),
      ("E", [1/2, 1/2]), ("F", [1/2, 1/2]), ("G", [1/2, 1/2])] jt) = true := by decide +kernel

/-- the expected posteriors of the Huang graph -/
def huangPrior : List (String × List ℚ) :=
  [("a", [0.5, 0.5]), ("b", [0.45, 0.55]), ("c", [0.45, 0.55]), ("d", [0.68, 0.32]), ("e", [0.465, 0.535]),
   ("f", [0.176, 0.824]), ("g", [0.415, 0.585]), ("h", [0.823, 0.177])]

/-- `test_huang_inference`, `test_inference_1`, and `test_huang_inference_with_single_evidence` -/
example : applied huang (fun js jt =>
    validatePosterior huangPrior jt &&
    afterCall (jt.unobserveAll js) (fun jt' => (evidence jt "a" "on").all (fun e =>
      afterCall (jt'.setObservation js e) (validatePosterior
        [("a", [1, 0]), ("b", [0.5, 0.5]), ("c", [0.7, 0.3]), ("d", [0.7, 0.3]), ("e", [0.39, 0.61]),
         ("f", [0.18934, 0.81066]), ("g", [0.59, 0.41]), ("h", [0.7826, 0.2174])])))) = true := by decide +kernel

/-- `test_huang_inference_with_multiple_evidence` -/
example : applied huang (fun js jt =>
    afterCall (jt.unobserveAll js) (fun jt' => afterCall (jt'.updateEvidences js (evidence jt "a" "on" ++ evidence jt "f" "on"))
      (validatePosterior
        [("a", [1, 0]), ("b", [0.184, 0.816]), ("c", [0.798, 0.202]), ("d", [0.0370, 0.963]), ("e", [0.0206, 0.979]),
         ("f", [1, 0]), ("g", [0.658, 0.342]), ("h", [0.941, 0.0588])]))) = true := by decide +kernel

/-- `test_simple_inference` -/
example : applied simple (fun _ jt => validatePosterior (huangPrior.take 6) jt) = true := by decide +kernel

/-- `test_inference_2` -/
example : applied (net [mk 0 "a" onOff [0.7, 0.3], mk 1 "b" onOff [0.4, 0.6],
      mk 2 "c" onOff [0.9, 0.1, 0.3, 0.7, 0.5, 0.5, 0.1, 0.9], mk 3 "d" onOff [0.3, 0.7, 0.8, 0.2],
      mk 4 "e" onOff [0.6, 0.4, 0.2, 0.8], mk 5 "f" onOff [0.7, 0.3, 0.1, 0.9], mk 6 "g" onOff [0.4, 0.6, 0.9, 0.1]]
      [(0, 2), (1, 2), (2, 3), (2, 4), (3, 5), (3, 6)])
    (fun _ jt => validatePosterior [("a", [0.7, 0.3]), ("b", [0.4, 0.6]), ("c", [0.456, 0.544]), ("d", [0.572, 0.428]),
      ("e", [0.382, 0.618]), ("f", [0.443, 0.557]), ("g", [0.614, 0.386])] jt) = true := by decide +kernel

/-- `test_inference_4` -/
example : applied (net [mk 0 "a" onOff [0.7, 0.3], mk 1 "b" onOff [0.4, 0.6],
      mk 2 "c" onOff [0.9, 0.1, 0.3, 0.7, 0.5, 0.5, 0.1, 0.9], mk 4 "e" onOff [0.6, 0.4, 0.2, 0.8]]
      [(0, 2), (1, 2), (2, 3)])
    (fun _ jt => validatePosterior [("a", [0.7, 0.3]), ("b", [0.4, 0.6]), ("c", [0.456, 0.544]), ("e", [0.3824, 0.6176])] jt) = true := by
  decide +kernel

/-- `test_inference_libpgm` -/
example : applied (net [mk 0 "difficulty" ["easy", "hard"] [0.6, 0.4], mk 1 "intelligence" ["low", "high"] [0.7, 0.3],
      mk 2 "grade" ["a", "b", "c"] [0.3, 0.4, 0.3, 0.9, 0.08, 0.02, 0.05, 0.25, 0.7, 0.5, 0.3, 0.2],
      mk 3 "sat" ["low", "high"] [0.95, 0.05, 0.2, 0.8], mk 4 "letter" ["weak", "strong"] [0.1, 0.9, 0.4, 0.6, 0.99, 0.01]]
      [(0, 2), (1, 2), (1, 3), (2, 4)])
    (fun js jt =>
      validatePosterior [("difficulty", [0.6, 0.4]), ("intelligence", [0.7, 0.3]), ("grade", [0.362, 0.288, 0.350]),
        ("sat", [0.725, 0.275]), ("letter", [0.498, 0.502])] jt &&
      (evidence jt "sat" "high").all (fun hi => (evidence jt "sat" "low").all (fun lo =>
        afterCall (jt.unobserveAll js) (fun jt => afterCall (jt.setObservation js hi) (fun jt =>
          validatePosterior [("difficulty", [0.6, 0.4]), ("intelligence", [0.127, 0.873]), ("grade", [0.671, 0.190, 0.139]),
            ("sat", [0, 1]), ("letter", [0.281, 0.719])] jt &&
          afterCall (jt.unobserveAll js) (fun jt => afterCall (jt.setObservation js lo) (fun jt =>
            validatePosterior [("difficulty", [0.6, 0.4]), ("intelligence", [0.917, 0.0828]), ("grade", [0.245, 0.326, 0.430]),
              ("sat", [1, 0]), ("letter", [0.58, 0.42])] jt))))))) = true := by decide +kernel

/-- `test_inference_libpgm2` -/
example : applied (net [mk 4 "Letter" ["weak", "strong"] [0.1, 0.9, 0.4, 0.6, 0.99, 0.01],
      mk 2 "Grade" ["a", "b", "c"] [0.3, 0.4, 0.3, 0.9, 0.08, 0.02, 0.05, 0.25, 0.7, 0.5, 0.3, 0.2],
      mk 3 "Intelligence" ["low", "high"] [0.7, 0.3], mk 1 "SAT" ["low", "high"] [0.95, 0.05, 0.2, 0.8],
      mk 0 "Difficulty" ["easy", "hard"] [0.6, 0.4]]
      [(4, 1), (2, 1), (2, 3), (1, 0)])
    (fun _ jt => validatePosterior [("Difficulty", [0.6, 0.4]), ("Intelligence", [0.7, 0.3]), ("Grade", [0.362, 0.288, 0.350]),
        ("SAT", [0.725, 0.275]), ("Letter", [0.498, 0.502])] jt) = true := by decide +kernel

/-- `test_trivial_inference` -/
example : (applied (net [mk 0 "a" tf [0.2, 0.8], mk 1 "b" tf [0.1, 0.9, 0.9, 0.1]] [(0, 1)])
      (fun _ jt => validatePosterior [("a", [0.2, 0.8]), ("b", [0.74, 0.26])] jt) &&
    applied (net [mk 1 "a" tf [0.2, 0.8], mk 0 "b" tf [0.1, 0.9, 0.9, 0.1]] [(0, 1)])
      (fun _ jt => validatePosterior [("a", [0.2, 0.8]), ("b", [0.74, 0.26])] jt) &&
    applied (net [mk 0 "a" tf [0.2, 0.8], mk 1 "b" tf [0.1, 0.9]] [])
      (fun _ jt => validatePosterior [("a", [0.2, 0.8]), ("b", [0.1, 0.9])] jt)) = true := by decide +kernel

/-- `test_inference_var_permutation` -/
example : (applied (net [mk 0 "a" tf [0.2, 0.8], mk 1 "b" tf [0.1, 0.9, 0.9, 0.1], mk 2 "c" tf [0.2, 0.8, 0.7, 0.3]] [(0, 1), (1, 2)])
      (fun _ jt => validatePosterior [("a", [0.2, 0.8]), ("b", [0.74, 0.26]), ("c", [0.33, 0.67])] jt) &&
    applied (net [mk 2 "a" tf [0.2, 0.8], mk 1 "b" tf [0.1, 0.9, 0.9, 0.1], mk 0 "c" tf [0.2, 0.8, 0.7, 0.3]] [(0, 1), (1, 2)])
      (fun _ jt => validatePosterior [("a", [0.2, 0.8]), ("b", [0.74, 0.26]), ("c", [0.33, 0.67])] jt)) = true := by decide +kernel

/-- `Potential.to_dict([jt.get_bbn_potential(n) for n in jt.get_bbn_nodes()])` -/
def potDict (jt : JoinTree) : Option (Dict Str ℚ) := ((jt.getBbnNodes.mapM jt.getBbnPotential).val?).map Potential.toDict

/-- `test_forest_inference` (the numbers are exact here) -/
example : applied (net [mk 0 "a" tf [0.2, 0.8], mk 1 "b" tf [0.1, 0.9, 0.9, 0.1], mk 2 "c" tf [0.2, 0.8],
      mk 3 "d" tf [0.1, 0.9, 0.9, 0.1], mk 4 "e" tf [0.2, 0.8], mk 5 "f" tf [0.1, 0.9, 0.9, 0.1]] [(0, 1), (2, 3), (4, 5)])
    (fun _ jt => [("0=t", 0.2), ("0=f", 0.8), ("1=t", 0.74), ("1=f", 0.26), ("2=t", 0.2), ("2=f", 0.8), ("3=t", 0.74), ("3=f", 0.26),
      ("4=t", 0.2), ("4=f", 0.8), ("5=t", 0.74), ("5=f", 0.26)].all (fun (kv : String × ℚ) =>
        decide ((potDict jt).bind (fun d => Dict.get? d kv.1.toList) = some kv.2))) = true := by decide +kernel

/-- `test_reapply` -/
example : applied (net [mk 0 "a" tf [0.2, 0.8], mk 1 "b" tf [0.1, 0.9, 0.9, 0.1]] [(0, 1)]) (fun js lhs =>
    match reapply js lhs [(0, [0.3, 0.7]), (1, [0.2, 0.8, 0.8, 0.2])] with
    | .error _ => false
    | .ok rhs => (match potDict lhs, potDict rhs with
        | some l, some r => l.all (fun kp => match Dict.get? r kp.1 with | some p => decide (p ≠ kp.2) | none => false)
        | _, _ => false) &&
      applied (net [mk 0 "a" tf [0.3, 0.7], mk 1 "b" tf [0.2, 0.8, 0.8, 0.2]] [(0, 1)])
        (fun _ fresh => (potDict fresh).isSome && decide (potDict fresh = potDict rhs))) = true := by decide +kernel

/-- `test_six_values_parents`, `test_six_values_child` -/
example : (applied (net [mk 0 "a" ["s1", "s2", "s3", "s4", "s5", "s6"] [0.1, 0.1, 0.1, 0.1, 0.1, 0.5],
      mk 1 "b" tf [0.2, 0.8, 0.8, 0.2, 0.8, 0.2, 0.8, 0.2, 0.8, 0.2, 0.2, 0.8]] [(0, 1)])
      (fun _ jt => validatePosterior [("a", [0.1, 0.1, 0.1, 0.1, 0.1, 0.5]), ("b", [0.44, 0.56])] jt) &&
    applied (net [mk 0 "a" tf [0.1, 0.9],
      mk 1 "b" ["s1", "s2", "s3", "s4", "s5", "s6"] [0.1, 0.1, 0.1, 0.1, 0.1, 0.5, 0.2, 0.2, 0.2, 0.2, 0.1, 0.1]] [(0, 1)])
      (fun _ jt => validatePosterior [("a", [0.1, 0.9]), ("b", [0.19, 0.19, 0.19, 0.19, 0.1, 0.14])] jt)) = true := by decide +kernel

/-! ## `tests/graph/test_jointree.py` -/

def jtN (i : Int) (name : String) : Variable := ⟨i, name.toList, tf.map String.toList⟩

/-- `test_jointree_creation`: `c0` and `c1` overlap; the second, third and fourth edge are not added -/
example :
    let c0 : Clique := ⟨[jtN 0 "n0", jtN 1 "n1"]⟩
    let c1 : Clique := ⟨[jtN 1 "n1", jtN 2 "n2"]⟩
    let g := [SepSet.mk' c0 c1, SepSet.mk' c0 c1, SepSet.mk' c1 c0, SepSet.mk' c0 c0].foldl (fun (jt : JoinTree) s => jt.addEdge SetIter.same s) ({} : JoinTree)
    (g.nodes.length, g.edges.length) = (3, 1) := by decide +kernel

def serdeNet : Bbn := net [mk 0 "n0" tf [0.2, 0.8], mk 1 "n1" tf [0.9, 0.1, 0.9, 0.1], mk 2 "n2" tf [0.6, 0.4, 0.4, 0.6]] [(0, 1), (1, 2)]

/-- the dictionary of `test_to_dict` and `test_from_dict` -/
def serdeDict (k : Int → PyKey) : JtDict where
  bbnNodes := [(k 0, (mk 0 "n0" tf [0.2, 0.8]).toDict), (k 1, (mk 1 "n1" tf [0.9, 0.1, 0.9, 0.1]).toDict),
    (k 2, (mk 2 "n2" tf [0.6, 0.4, 0.4, 0.6]).toDict)]
  nodes := [("0-1".toList, .clique [0, 1]), ("0-1-1-1-2".toList, .sepset "0-1".toList "1-2".toList), ("1-2".toList, .clique [1, 2])]
  edges := ["0-1-1-1-2".toList]
  parentInfo := [("1".toList, [0]), ("2".toList, [1])]

/-- equality of Python dictionaries: same entries, in any order -/
def sameDict {K V : Type} [DecidableEq K] [DecidableEq V] (a b : Dict K V) : Bool :=
  a.length == b.length && a.all (fun kv => decide (Dict.get? b kv.1 = some kv.2))

/-- `test_to_dict` (small `set`s of ints are listed in ascending order by CPython) -/
example : applied serdeNet (fun _ jt =>
    let asc : SetIter Int := ⟨fun _ _ l => sortInts l, fun _ _ l => by
      induction l with
      | nil => exact List.Perm.refl _
      | cons x l ih =>
        have hins : ∀ (l : List Int), (insertBy (fun a b => decide (a ≤ b)) x l).Perm (x :: l) := by
          intro l
          induction l with
          | nil => exact List.Perm.refl _
          | cons y l ih => unfold insertBy; split
                           · exact List.Perm.refl _
                           · exact (List.Perm.cons y ih).trans (List.Perm.swap x y l)
        exact (hins _).trans (List.Perm.cons x ih)⟩
    let d := (jt.toDict asc serdeNet).json
    let e := (serdeDict PyKey.int).json
    sameDict d.bbnNodes e.bbnNodes && sameDict d.nodes e.nodes && decide (d.edges = e.edges) && sameDict d.parentInfo e.parentInfo) = true := by
  decide +kernel

/-- `test_from_dict` (after `json.loads`, keys are strings) -/
example : applied serdeNet (fun js rhs =>
    match (JoinTree.fromDict js (serdeDict PyKey.int).json >>= applyFromSerde js) with
    | .error _ => false
    | .ok lhs => match potDict lhs, potDict rhs with
        | some l, some r => sameDict l r
        | _, _ => false) = true := by decide +kernel

/-- `test_simple_serde` -/
example :
    let b := net [mk 0 "a" tf [0.2, 0.8], mk 1 "b" tf [0.1, 0.9, 0.9, 0.1]] [(0, 1)]
    applied b (fun js lhs =>
      match (JoinTree.fromDict js (lhs.toDict SetIter.same b) >>= applyFromSerde js) with
      | .error _ => false
      | .ok rhs => match potDict lhs, potDict rhs with
          | some l, some r => sameDict l r
          | _, _ => false) = true := by decide +kernel

/-! ## `tests/graph/test_factory.py` -/

def libpgm : LibPgm where
  V := ["Letter", "Grade", "Intelligence", "SAT", "Difficulty"].map String.toList
  Vdata := [
    ("Letter".toList, ⟨4, ["weak".toList, "strong".toList], some ["Grade".toList],
      .dict [("['A']".toList, [0.1, 0.9]), ("['B']".toList, [0.4, 0.6]), ("['C']".toList, [0.99, 0.01])]⟩),
    ("SAT".toList, ⟨3, ["lowscore".toList, "highscore".toList], some ["Intelligence".toList],
      .dict [("['low']".toList, [0.95, 0.05]), ("['high']".toList, [0.2, 0.8])]⟩),
    ("Grade".toList, ⟨2, ["A".toList, "B".toList, "C".toList], some ["Difficulty".toList, "Intelligence".toList],
      .dict [("['easy', 'low']".toList, [0.3, 0.4, 0.3]), ("['easy', 'high']".toList, [0.9, 0.08, 0.02]),
        ("['hard', 'low']".toList, [0.05, 0.25, 0.7]), ("['hard', 'high']".toList, [0.5, 0.3, 0.2])]⟩),
    ("Intelligence".toList, ⟨1, ["low".toList, "high".toList], none, .list [0.7, 0.3]⟩),
    ("Difficulty".toList, ⟨0, ["easy".toList, "hard".toList], none, .list [0.6, 0.4]⟩)]

/-- `test_from_libpgm_discrete_json`, `test_from_libpgm_discrete_dictionary` -/
example : (match libpgm.toBbn with
    | .error _ => false
    | .ok b => b.nodes.length == 5 && b.edges.length == 4 && applied b (fun _ jt =>
        validatePosterior [("Difficulty", [0.6, 0.4]), ("Intelligence", [0.7, 0.3]), ("Grade", [0.362, 0.288, 0.350]),
          ("SAT", [0.725, 0.275]), ("Letter", [0.498, 0.502])] jt)) = true := by decide +kernel

def strs (l : List String) : List Str := l.map String.toList

/-- the data of `test_ordered` -/
def frame : Frame where
  columns := strs ["a", "b", "c", "d"]
  rows := [strs ["0", "1", "0", "0"], strs ["1", "0", "1", "1"], strs ["1", "0", "1", "1"], strs ["1", "0", "0", "0"], strs ["2", "1", "1", "2"]]

/-- the data of `test_not_ordered`: `df[["a", "c", "b", "d"]]` -/
def frame' : Frame where
  columns := strs ["a", "c", "b", "d"]
  rows := [strs ["0", "0", "1", "0"], strs ["1", "1", "0", "1"], strs ["1", "1", "0", "1"], strs ["1", "0", "0", "0"], strs ["2", "1", "1", "2"]]

def structureABCD : Dict Str (List Str) :=
  [("a".toList, []), ("b".toList, [['a']]), ("c".toList, [['a']]), ("d".toList, [['b'], ['c']])]

/-- `test_ordered`, `test_not_ordered` -/
example : [frame, frame'].all (fun df => match Factory.fromData structureABCD df with
    | .error _ => false
    | .ok b => applied b (fun _ jt =>
        validatePosterior [("a", [0.2, 0.6, 0.2]), ("b", [0.6, 0.4]), ("c", [0.4, 0.6]), ("d", [0.4, 0.4, 0.2])] jt)) = true := by
  decide +kernel

/-! ## `tests/causality/test_ace.py` -/

/-- `get_drug_network` -/
def drug : Bbn := net [mk 1 "drug" ["false", "true"] [0.23323615160349853, 0.7667638483965015, 0.7563025210084033, 0.24369747899159663],
  mk 2 "recovery" ["false", "true"] [0.31000000000000005, 0.69, 0.27, 0.73, 0.13, 0.87, 0.06999999999999995, 0.93],
  mk 0 "gender" ["female", "male"] [0.49, 0.51]] [(2, 0), (2, 1), (0, 1)]

/-- `test_ace` (with both bounds) -/
example : (match Ace.init SetIter.same SetIter.same drug with
    | .error _ => false
    | .ok a => match (a.getAce SetIter.same "drug".toList "recovery".toList "true".toList).2 with
        | .error _ => false
        | .ok r => match Dict.get? r "true".toList, Dict.get? r "false".toList with
            | some t, some f => decide (t - 0.832 < 0.001 ∧ 0.832 - t < 0.001 ∧ f - 0.782 < 0.001 ∧ 0.782 - f < 0.001)
            | _, _ => false) = true := by decide +kernel

end PyBBN.Tests
