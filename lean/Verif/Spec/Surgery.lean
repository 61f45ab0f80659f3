import Verif.Spec.Causal
import Verif.Spec.Graph

/-!
# Specification: an experiment on a node (C117)

The network in which a node has no parents and a CPT of its own choice, and probabilities when a node is set and likelihoods of other
nodes are known.
-/

namespace PyBBN

/-- the node object, with another CPT if it is the node `i` -/
def BbnNode.withPrior (i : Int) (prior : List ℚ) (n : BbnNode) : BbnNode := if n.var.id = i then ⟨n.var, prior⟩ else n

/-- a call, without the edge if it is an edge into `i` -/
def BOp.cut (i : Int) (prior : List ℚ) : BOp → List BOp
  | .addNode n => [.addNode (n.withPrior i prior)]
  | .addEdge p c =>
    if c.var.id = i then [.addNode (p.withPrior i prior), .addNode (c.withPrior i prior)]
    else [.addEdge (p.withPrior i prior) (c.withPrior i prior)]

/-- the calls that build the network without the edges into `i` -/
def cutOps (i : Int) (prior : List ℚ) (ops : List BOp) : List BOp := ops.flatMap (BOp.cut i prior)

/-- product of the CPT entries and likelihoods of all nodes but one -/
def Bbn.weightDo (b : Bbn) (ℓ : Int → Str → ℚ) (id : Int) (σ : Asg) : ℚ :=
  ((b.toGraph.getNodes.filter (fun n => decide (n.var.id ≠ id))).map
    (fun n => cptAt n.probs (b.parentVars n.var.id) n.var σ * ℓ n.var.id (σ n.var.id))).prod

/-- probability of an event when node `id` is set to `x`, given the likelihoods `ℓ` of the other nodes -/
def Bbn.prDoGiven (b : Bbn) (ℓ : Int → Str → ℚ) (id : Int) (x : Str) (E : Asg → Bool) : ℚ :=
  (((allAsg b.vars).filter (fun σ => isAt id x σ && E σ)).map (b.weightDo ℓ id)).sum /
    (((allAsg b.vars).filter (isAt id x)).map (b.weightDo ℓ id)).sum

end PyBBN
