import Verif.Model.Pptc
import Verif.Spec.Graph
import Verif.Spec.Evidence

/-! # Several join trees on one network

`apply` (`inferencecontroller.py:17-41`) puts the node objects of the network itself into the cliques (`moralizer.py:19-46`,
`clique.py:9-21`), so all join trees of one network read and write the same `node.potential` and `node.metadata`; and
`join_tree.parent_info` holds the very lists of `bbn.parents` (`inferencecontroller.py:30-34`), which `Bbn.add_edge` extends in
place (`dag.py:139-144`). The other modules give every join tree objects of its own; here they are shared. -/

namespace PyBBN
open InferenceController

/-- A program's network, the present state of its node objects, and the join trees it holds. A tree is marked `true` if its
cliques hold the network's own node objects (result of `apply`) and `false` if it is a deep copy (result of `reapply`).
The `heap` and `parentInfo` of a shared tree are what they were when the tree was last used; see `World.look`. -/
structure World where
  bbn : Bbn
  heap : Dict Int NodeObj
  trees : List (Bool × JoinTree)

/-- what a program can do with them -/
inductive Act
  /-- `bbn.add_node`, `bbn.add_edge` -/
  | edit (op : BOp)
  /-- `InferenceController.apply(bbn)` -/
  | apply (it : SetIter Int) (js : SetIter Str)
  /-- an evidence operation on the `k`-th tree -/
  | evid (k : Nat) (js : SetIter Str) (op : EvOp)
  /-- `InferenceController.reapply(tree, cpts)` on the `k`-th tree -/
  | reapply (k : Nat) (js : SetIter Str) (cpts : Dict Int (List ℚ))

/-- `inferencecontroller.py:30-34`: the lists in `parent_info` are those of `bbn.parents`. The keys are fixed by `apply`. -/
def aliasInfo (b : Bbn) (info : Dict Int (List Int)) : Dict Int (List Int) :=
  info.map (fun kp => (kp.1, (Dict.get? b.parents kp.1).getD kp.2))

/-- a tree as it is now -/
def World.look (w : World) (t : Bool × JoinTree) : JoinTree :=
  if t.1 then { t.2 with heap := w.heap, parentInfo := aliasInfo w.bbn t.2.parentInfo } else t.2

/-- One action. An evidence operation that raises leaves the tree as far as it got and the program goes on. An exception in
`apply` or `reapply` ends the session (a failed `reapply` has only touched its copy, `inferencecontroller.py:53`; what a failed
`apply` leaves in the node objects is not modelled). Nodes are never removed here, so the network refers to every node object
that a shared tree refers to, and the objects after `apply` are all there are. -/
def World.step (w : World) : Act → Py World
  | .edit op => .ok { w with bbn := op.step w.bbn }
  | .apply it js => do
      let jt ← applyWith it js w.heap w.bbn
      .ok { w with heap := jt.heap, trees := w.trees ++ [(true, jt)] }
  | .evid k js op =>
      match w.trees[k]? with
      | none => .error .indexError
      | some t =>
          let jt := (op.run js (w.look t)).1
          .ok { w with heap := if t.1 then jt.heap else w.heap, trees := w.trees.set k (t.1, jt) }
  | .reapply k js cpts =>
      match w.trees[k]? with
      | none => .error .indexError
      | some t => do
          let jt ← InferenceController.reapply js (w.look t) cpts
          .ok { w with trees := w.trees ++ [(false, jt)] }

/-- a program on the network `b`, which has not been used before -/
def World.run (b : Bbn) (acts : List Act) : Py World := acts.foldlM World.step ⟨b, [], []⟩

/-! ## The same trees, each on its own -/

/-- how a tree came about -/
inductive TreeLog
  | apply (it : SetIter Int) (js : SetIter Str)
  | evid (l : TreeLog) (js : SetIter Str) (op : EvOp)
  | reapply (l : TreeLog) (js : SetIter Str) (cpts : Dict Int (List ℚ))

/-- the same calls on a network of its own: `apply` on fresh node objects, nothing else ever touches them -/
def TreeLog.alone (b : Bbn) : TreeLog → Py JoinTree
  | .apply it js => InferenceController.apply it js b
  | .evid l js op => do
      let jt ← l.alone b
      .ok (op.run js jt).1
  | .reapply l js cpts => do
      let jt ← l.alone b
      InferenceController.reapply js jt cpts

/-- bookkeeping: the calls that made each of the trees -/
def Act.log (ls : List TreeLog) : Act → List TreeLog
  | .edit _ => ls
  | .apply it js => ls ++ [.apply it js]
  | .evid k js op =>
      match ls[k]? with
      | none => ls
      | some l => ls.set k (.evid l js op)
  | .reapply k js cpts =>
      match ls[k]? with
      | none => ls
      | some l => ls ++ [.reapply l js cpts]

def logsOf (acts : List Act) : List TreeLog := acts.foldl Act.log []

end PyBBN
