import Verif.Spec.Joint
import Verif.Model.JoinTree

/-! Reports that use only some of the nodes of a network: the joint weight is replaced by the product of the CPT entries and the
likelihoods of the nodes in `S`. With all ids in `S` it is the weight of the network and `tableOn` is the exact posterior. -/

namespace PyBBN

/-- product of the CPT entries and likelihoods of the nodes whose id is in `S`, at a joint assignment -/
def Bbn.weightOn (b : Bbn) (S : List Int) (lik : Int → Str → ℚ) (σ : Asg) : ℚ :=
  ((b.toGraph.getNodes.filter (fun n => decide (n.var.id ∈ S))).map (fun n =>
    cptAt n.probs (b.parentVars n.var.id) n.var σ * lik n.var.id (σ n.var.id))).prod

/-- marginal of `v` in the distribution proportional to `weightOn S`; all zero if the weights are -/
def Bbn.tableOn (b : Bbn) (S : List Int) (lik : Int → Str → ℚ) (v : Variable) : Potential :=
  v.values.map (fun x => ⟨[(v.id, x)],
    (((allAsg b.vars).filter (fun σ => decide (σ v.id = x))).map (b.weightOn S lik)).sum /
      ((allAsg b.vars).map (b.weightOn S lik)).sum⟩)

/-- `c` is the clique with the smallest id among those that hold a node and its parents -/
def HomeClique (E : Int → Int → Prop) (cs : List Clique) (c : Clique) (i : Int) : Prop :=
  (c ∈ cs ∧ ∀ j, j = i ∨ E j i → j ∈ c.nodeIds) ∧
  ∀ d ∈ cs, (∀ j, j = i ∨ E j i → j ∈ d.nodeIds) → strLe c.id d.id = true

end PyBBN
