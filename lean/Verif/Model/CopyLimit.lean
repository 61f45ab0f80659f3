import Verif.Model.Copy
import Verif.Model.Pptc

/-!
# `copy.deepcopy` of a join tree and Python's recursion limit

`copy.deepcopy` calls itself (`Node.__deepcopy__`, `node.py:34-40`) on every object an object refers to. A BBN node object refers to its parents
and to its clique (`metadata`, `moralizer.py:31-33`, `potentialinitializer.py:36`, `initializer.py:64`), a clique to its nodes, a separation set to
its nodes and its two cliques. An object copied before (or being copied) is found in the memo. Python raises `RecursionError` when too many calls are
nested. Here the number of nested copies of such objects that still fit is a parameter (in CPython a nested copy takes several stack frames). Strings,
numbers, variables, potentials and the lists and dictionaries in between are not followed: they refer to none of these objects but the ones listed.
-/

namespace PyBBN

/-- an object of a join tree: a BBN node, or a clique or separation set -/
inductive JObj
  | node (i : Int)
  | jnode (k : Str)
  deriving DecidableEq

/-- the objects an object refers to, in the order in which its attributes were set: `node.py:17,58-62` (`metadata` before the rest), `node.py:104`,
`node.py:229-233` -/
def JoinTree.refs (jt : JoinTree) : JObj → List JObj
  | .node i => match Dict.get? jt.heap i with
    | none => []
    | some o => (o.parents.getD []).map .node ++ o.parentClique.toList.map .jnode
  | .jnode k => match Dict.get? jt.nodes k with
    | none => []
    | some (.clique c) => c.nodes.map (fun v => .node v.id)
    | some (.sepset s) => s.nodes.map (fun v => .node v.id) ++ [.jnode s.left.id, .jnode s.right.id]

/-- `pybbn/graph/node.py:34-40` `Node.__deepcopy__(memo)`, when `lim` nested copies fit; returns the memo (what was copied so far) -/
def copyL {K : Type} [DecidableEq K] (refs : K → List K) : Nat → List K → K → Py (List K)
  | 0, _, _ => .error .recursionError
  | lim + 1, memo, x => (refs x).foldlM (fun m y => if y ∈ m then .ok m else copyL refs lim m y) (memo ++ [x])

/-- copying several objects in turn with one memo -/
def copyAllL {K : Type} [DecidableEq K] (refs : K → List K) (lim : Nat) (memo : List K) (l : List K) : Py (List K) :=
  l.foldlM (fun m y => if y ∈ m then .ok m else copyL refs lim m y) memo

/-- `pybbn/graph/jointree.py:28-45` `copy.deepcopy(jt)`: first the dictionary `nodes`, then the edges (`edge.py:55-61`, `edge.py:92-98`: their cliques and
separation set); the other attributes hold no such objects -/
def JoinTree.deepcopyL (lim : Nat) (jt : JoinTree) : Py JoinTree := do
  let memo ← copyAllL jt.refs lim [] ((Dict.keys jt.nodes).map .jnode)
  let _ ← copyAllL jt.refs lim memo ((Dict.values jt.edges).flatMap (fun s => [.jnode s.left.id, .jnode s.right.id, .jnode s.id]))
  .ok jt.deepcopy

/-- `pybbn/pptc/inferencecontroller.py:43-64` `reapply`: it copies the join tree first -/
def InferenceController.reapplyL (lim : Nat) (js : SetIter Str) (jt : JoinTree) (cpts : Dict Int (List ℚ)) : Py JoinTree := do
  let copy ← jt.deepcopyL lim
  reapply js copy cpts

end PyBBN
