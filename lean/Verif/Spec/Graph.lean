import Verif.Model.Graph
import Mathlib.Logic.Relation

/-!
# Specification vocabulary for graphs

Relations and call sequences only; nothing here depends on how the model stores a graph.
-/

namespace PyBBN

/-- no walk along `R` comes back to its start -/
def Acyclic {α : Type} (R : α → α → Prop) : Prop := ∀ a, ¬ Relation.TransGen R a a

/-- A call on a graph object. The iteration order of sets may differ from call to call. -/
inductive GOp (N : Type)
  | addNode (n : N)
  | addEdge (it : SetIter Int) (e : Edge N)
  | removeNode (id : Int)

/-- the effect of one call, for a class with the given `add_edge` -/
def GOp.step {N : Type} [HasId N] (addEdge : SetIter Int → Graph N → Edge N → Graph N)
    (g : Graph N) : GOp N → Graph N
  | .addNode n => g.addNode n
  | .addEdge it e => addEdge it g e
  | .removeNode id => g.removeNode id

/-- a sequence of calls on a fresh `Dag()` -/
def Dag.run {N : Type} [HasId N] (ops : List (GOp N)) : Graph N :=
  ops.foldl (GOp.step Dag.addEdge) Graph.empty

/-- a sequence of calls on a fresh `Pdag()` -/
def Pdag.run {N : Type} [HasId N] (ops : List (GOp N)) : Graph N :=
  ops.foldl (GOp.step Pdag.addEdge) Graph.empty

/-- a sequence of calls on a fresh `Graph()`/`Ug()` -/
def Graph.run {N : Type} [HasId N] (ops : List (GOp N)) : Graph N :=
  ops.foldl (GOp.step (fun _ => Graph.addEdge)) Graph.empty

/-- A call on a `Bbn` (node and directed edge insertion). -/
inductive BOp
  | addNode (n : BbnNode)
  | addEdge (i j : BbnNode)

/-- the effect of one call on a `Bbn` -/
def BOp.step (b : Bbn) : BOp → Bbn
  | .addNode n => b.addNode n
  | .addEdge i j => b.addEdge ⟨i, j, .directed⟩

/-- a sequence of calls on a fresh `Bbn()` -/
def Bbn.run (ops : List BOp) : Bbn := ops.foldl BOp.step Bbn.empty

/-- the directed edges requested by a call sequence, as (parent id, child id) in call order -/
def BOp.edges (ops : List BOp) : List (Int × Int) :=
  ops.filterMap (fun o => match o with
    | .addNode _ => none
    | .addEdge i j => some (i.var.id, j.var.id))

/-- the node objects passed to a call sequence, in call order (an edge passes its parent, then its child) -/
def BOp.nodes (ops : List BOp) : List BbnNode :=
  ops.flatMap (fun o => match o with
    | .addNode n => [n]
    | .addEdge i j => [i, j])

/-- keep the first occurrence of every element -/
def firsts {α : Type} [DecidableEq α] : List α → List α
  | [] => []
  | x :: xs => x :: (firsts xs).filter (fun y => decide (y ≠ x))

/-- an iteration order: as stored -/
def SetIter.same {K : Type} : SetIter K := ⟨fun _ _ l => l, fun _ _ l => List.Perm.refl l⟩

/-- another iteration order: reversed -/
def SetIter.rev {K : Type} : SetIter K := ⟨fun _ _ l => l.reverse, fun _ _ l => List.reverse_perm l⟩

end PyBBN
