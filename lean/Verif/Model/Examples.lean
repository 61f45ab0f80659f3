import Verif.Spec.Graph

/-! # The example networks that come with the library

`pybbn/graph/dag.py:400-485` `BbnUtil`. The decimals are read as the rationals they write down. -/

namespace PyBBN
namespace BbnUtil

/-- `pybbn/graph/dag.py:414-427, 459-467` a node with the values on and off, as both functions make them -/
def node (id : Int) (name : String) (probs : List ℚ) : BbnNode := ⟨⟨id, name.toList, ["on".toList, "off".toList]⟩, probs⟩

/-- `pybbn/graph/dag.py:414, 459` -/
def a : BbnNode := node 0 "a" [1/2, 1/2]
/-- `pybbn/graph/dag.py:415, 460` -/
def b : BbnNode := node 1 "b" [1/2, 1/2, 4/10, 6/10]
/-- `pybbn/graph/dag.py:416, 461` -/
def c : BbnNode := node 2 "c" [7/10, 3/10, 2/10, 8/10]
/-- `pybbn/graph/dag.py:417, 462` -/
def d : BbnNode := node 3 "d" [9/10, 1/10, 5/10, 5/10]
/-- `pybbn/graph/dag.py:418, 463` -/
def e : BbnNode := node 4 "e" [3/10, 7/10, 6/10, 4/10]
/-- `pybbn/graph/dag.py:419-422, 464-467` -/
def f : BbnNode := node 5 "f" [1/100, 99/100, 1/100, 99/100, 1/100, 99/100, 99/100, 1/100]
/-- `pybbn/graph/dag.py:423` -/
def g : BbnNode := node 6 "g" [8/10, 2/10, 1/10, 9/10]
/-- `pybbn/graph/dag.py:424-427` -/
def h : BbnNode := node 7 "h" [5/100, 95/100, 95/100, 5/100, 95/100, 5/100, 95/100, 5/100]

/-- `pybbn/graph/dag.py:429-448` the calls of `get_huang_graph` -/
def huangOps : List BOp :=
  [.addNode a, .addNode b, .addNode c, .addNode d, .addNode e, .addNode f, .addNode g, .addNode h,
   .addEdge a b, .addEdge a c, .addEdge b d, .addEdge c e, .addEdge d f, .addEdge e f, .addEdge c g, .addEdge e h, .addEdge g h]

/-- `pybbn/graph/dag.py:469-483` the calls of `get_simple` -/
def simpleOps : List BOp :=
  [.addNode a, .addNode b, .addNode c, .addNode d, .addNode e, .addNode f,
   .addEdge a b, .addEdge a c, .addEdge b d, .addEdge c e, .addEdge d f, .addEdge e f]

/-- `pybbn/graph/dag.py:408-450` `BbnUtil.get_huang_graph` -/
def getHuangGraph : Bbn := Bbn.run huangOps

/-- `pybbn/graph/dag.py:453-485` `BbnUtil.get_simple` -/
def getSimple : Bbn := Bbn.run simpleOps

end BbnUtil
end PyBBN
