import Verif.Spec.Joint

/-!
# Specification of causal effects

Probabilities of events, and the probability of an event when a node is *set* to a value: the joint distribution with the CPT of
that node left out (truncated factorization). Nothing here mentions evidence, join trees or adjustment formulas.
-/

namespace PyBBN

/-- total weight of the joint values for which the event holds -/
def Bbn.weightOf (b : Bbn) (E : Asg → Bool) : ℚ := (((allAsg b.vars).filter E).map (b.weight noEvidence)).sum

/-- probability of an event -/
def Bbn.pr (b : Bbn) (E : Asg → Bool) : ℚ := b.weightOf E / b.weightOf (fun _ => true)

/-- conditional probability of `E` given `F` -/
def Bbn.prGiven (b : Bbn) (E F : Asg → Bool) : ℚ := b.pr (fun σ => E σ && F σ) / b.pr F

/-- node `i` has value `x` -/
def isAt (i : Int) (x : Str) (σ : Asg) : Bool := decide (σ i = x)

/-- the nodes `ns` have the values that `τ` gives them -/
def agree (ns : List Variable) (τ σ : Asg) : Bool := decide (∀ v ∈ ns, σ v.id = τ v.id)

/-- probability of an event when node `id` is set to `x` -/
def Bbn.prDo (b : Bbn) (id : Int) (x : Str) (E : Asg → Bool) : ℚ :=
  (((allAsg b.vars).filter (fun σ => isAt id x σ && E σ)).map (fun σ =>
    ((b.toGraph.getNodes.filter (fun n => decide (n.var.id ≠ id))).map
      (fun n => cptAt n.probs (b.parentVars n.var.id) n.var σ)).prod)).sum

/-- the parents of a node, in the order in which the network lists its nodes with outgoing edges -/
def Bbn.causes (b : Bbn) (id : Int) : List Variable :=
  (b.toGraph.getParents id).filterMap (fun p => (Dict.get? b.nodes p).map BbnNode.var)

end PyBBN
