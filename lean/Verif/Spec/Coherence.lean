import Verif.Spec.Evidence
import Verif.Spec.Graph

/-!
# Specification: networks that say the same (C71 – C74)

Renamed, reordered and extended networks, compared through their nodes (`get_nodes`) and the parents of each node.
-/

namespace PyBBN

/-- another id and another name for a variable -/
def Variable.ren (ρ : Int → Int) (ν : Int → Str) (v : Variable) : Variable := ⟨ρ v.id, ν v.id, v.values⟩

/-- the same evidence about the renamed node -/
def Evidence.ren (ρ : Int → Int) (ν : Int → Str) (e : Evidence) : Evidence := { e with node := e.node.ren ρ ν }

/-- the same operation about the renamed nodes -/
def EvOp.ren (ρ : Int → Int) (ν : Int → Str) : EvOp → EvOp
  | .update es => .update (es.map (Evidence.ren ρ ν))
  | .observe e => .observe (e.ren ρ ν)
  | .unobserve ns => .unobserve (ns.map (Variable.ren ρ ν))
  | .unobserveAll => .unobserveAll

/-- the same network up to the order of insertion, ids and names: the nodes with their values and CPTs, and for each node the same
parents in the same order -/
structure SameNet (ρ : Int → Int) (ν : Int → Str) (b b' : Bbn) : Prop where
  nodes : b'.toGraph.getNodes.Perm (b.toGraph.getNodes.map (fun n => ⟨n.var.ren ρ ν, n.probs⟩))
  parents : ∀ n ∈ b.toGraph.getNodes, b'.parentVars (ρ n.var.id) = (b.parentVars n.var.id).map (Variable.ren ρ ν)

/-- `b'` is `b` with one more node `c`, which is nobody's parent -/
structure Extends (b b' : Bbn) (c : BbnNode) : Prop where
  nodes : b'.toGraph.getNodes.Perm (c :: b.toGraph.getNodes)
  parents : ∀ n ∈ b.toGraph.getNodes, b'.parentVars n.var.id = b.parentVars n.var.id

/-- the rows of a CPT for a node with these parents sum to one -/
def RowsSumToOne (parents : List Variable) (c : BbnNode) : Prop :=
  ∀ k < (parents.map (fun p => p.values.length)).prod,
    ((List.range c.var.values.length).map (fun j => c.probs.getD (k * c.var.values.length + j) 0)).sum = 1

/-- two sequences of calls that pass the same node objects (one per id) and, for each child, the same edges in the same order -/
structure SameCalls (ops ops' : List BOp) : Prop where
  nodes : ∀ n, n ∈ BOp.nodes ops ↔ n ∈ BOp.nodes ops'
  objs : ∀ m ∈ BOp.nodes ops, ∀ n ∈ BOp.nodes ops, m.var.id = n.var.id → m = n
  edges : ∀ c, (BOp.edges ops).filter (fun e => decide (e.2 = c)) = (BOp.edges ops').filter (fun e => decide (e.2 = c))

/-- the two networks agree about the nodes with ids in `A`, and no arrow leads into `A`: the same nodes, with the same values and CPTs, the
same parents, and all parents are in `A` -/
structure AgreeOn (A : Int → Prop) (b b' : Bbn) : Prop where
  nodes : ∀ n : BbnNode, A n.var.id → (n ∈ b.toGraph.getNodes ↔ n ∈ b'.toGraph.getNodes)
  parents : ∀ n ∈ b.toGraph.getNodes, A n.var.id → b'.parentVars n.var.id = b.parentVars n.var.id
  closed : ∀ n ∈ b.toGraph.getNodes, A n.var.id → ∀ p ∈ b.parentVars n.var.id, A p.id

/-- the nodes outside `A` are proper conditional distributions: their CPT rows sum to one and there is no cycle among them -/
structure ProperOutside (A : Int → Prop) (b : Bbn) : Prop where
  rows : ∀ n ∈ b.toGraph.getNodes, ¬ A n.var.id → RowsSumToOne (b.parentVars n.var.id) n
  acyclic : Acyclic (fun p c => p ∈ ddGet b.parents c ∧ ¬ A p ∧ ¬ A c)

/-- the history is about nodes with ids in `A` only -/
def EvOp.About (A : Int → Prop) : EvOp → Prop
  | .update es => ∀ e ∈ es, A e.node.id
  | .observe e => A e.node.id
  | .unobserve ns => ∀ v ∈ ns, A v.id
  | .unobserveAll => True

end PyBBN
