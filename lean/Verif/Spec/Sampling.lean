import Verif.Spec.Joint
import Verif.Spec.Graph

/-!
# Specification of forward sampling

Conditional distributions as rows of numbers, half-open intervals of cumulative probability and the joint value drawn by a
list of numbers in [0, 1). Nothing here mentions tables, keys, sorting or the loops of the sampler.
-/

namespace PyBBN

/-- the conditional distribution of `v` that `σ` selects: one entry per value of `v` -/
def cptRow (probs : List ℚ) (parents : List Variable) (v : Variable) (σ : Asg) : List ℚ :=
  (List.range v.values.length).map (fun j => probs.getD (rowIdx parents σ * v.values.length + j) 0)

/-- `p` lies between the cumulative probability before entry `i` and the one after it -/
def InInterval (row : List ℚ) (i : Nat) (p : ℚ) : Prop := (row.take i).sum ≤ p ∧ p < (row.take (i + 1)).sum

instance (row : List ℚ) (i : Nat) (p : ℚ) : Decidable (InInterval row i p) := inferInstanceAs (Decidable (_ ∧ _))

/-- the ids of the nodes -/
def Bbn.ids (b : Bbn) : List Int := b.toGraph.getNodes.map (fun n => n.var.id)

/-- every node once, parents before children -/
def Bbn.Topological (b : Bbn) (l : List Int) : Prop :=
  l.Perm b.ids ∧ ∀ e ∈ b.toGraph.getEdges, l.idxOf e.i.var.id < l.idxOf e.j.var.id

/-- the parents of a node in ascending order of their ids -/
def Bbn.sortedParentVars (b : Bbn) (id : Int) : List Variable :=
  sortBy (fun v w => decide (v.id ≤ w.id)) (b.parentVars id)

/-- `σ` is the joint value drawn by the numbers `u` when the nodes are visited in the given order and the CPT of a node lists
its parents in the order `pv`: every number lies in the interval of the value of its node, given the parents -/
def Bbn.Draws (b : Bbn) (pv : Int → List Variable) (order : List Int) (u : List ℚ) (σ : Asg) : Prop :=
  InDom b.vars σ ∧ ∀ n ∈ b.toGraph.getNodes, ∀ p, (p, n.var.id) ∈ u.zip order →
    InInterval (cptRow n.probs (pv n.var.id) n.var σ) (n.var.values.idxOf (σ n.var.id)) p

/-- every conditional distribution sums to 1 -/
def Bbn.Normalized (b : Bbn) (pv : Int → List Variable) : Prop :=
  ∀ n ∈ b.toGraph.getNodes, ∀ σ, InDom b.vars σ → (cptRow n.probs (pv n.var.id) n.var σ).sum = 1

/-- numbers that `np.random.uniform(0.0, 1.0, size=n)` can return -/
def Uniform (n : Nat) (u : List ℚ) : Prop := u.length = n ∧ ∀ p ∈ u, 0 ≤ p ∧ p < 1

/-- what sampling needs of a network: in addition to what inference needs, every node has a value, values contain no comma and
every conditional distribution sums to 1 -/
structure Bbn.Samplable (b : Bbn) : Prop where
  wf : b.WF
  nonempty : ∀ n ∈ b.toGraph.getNodes, n.var.values ≠ []
  comma : ∀ n ∈ b.toGraph.getNodes, ∀ x ∈ n.var.values, ',' ∉ x
  normalized : b.Normalized b.sortedParentVars

/-- `σ` gives the evidence nodes the evidence values -/
def Matches (evidence : Dict Int Str) (σ : Asg) : Prop := ∀ kv ∈ evidence, σ kv.1 = kv.2

instance (evidence : Dict Int Str) (σ : Asg) : Decidable (Matches evidence σ) := inferInstanceAs (Decidable (∀ kv ∈ evidence, _))

/-- `σ` gives the evidence value to every evidence node that is followed, in the order, by a node without evidence -/
def Checked (order : List Int) (evidence : Dict Int Str) (σ : Asg) : Prop :=
  ∀ kv ∈ evidence, (∃ j ∈ order, j ∉ Dict.keys evidence ∧ order.idxOf kv.1 < order.idxOf j) → σ kv.1 = kv.2

instance (order : List Int) (evidence : Dict Int Str) (σ : Asg) : Decidable (Checked order evidence σ) :=
  inferInstanceAs (Decidable (∀ kv ∈ evidence, _))

/-- `σ` with the evidence written over it -/
def overlay (evidence : Dict Int Str) (σ : Asg) : Asg := fun id => (Dict.get? evidence id).getD (σ id)

/-- the sample lists every node once, with its value under `σ` -/
def Bbn.Sample (b : Bbn) (r : Dict Int Str) (σ : Asg) : Prop :=
  (Dict.keys r).Perm b.ids ∧ ∀ id ∈ b.ids, Dict.get? r id = some (σ id)

end PyBBN
