import Verif.Model.Potential
import Mathlib.Algebra.BigOperators.Group.List.Basic
import Mathlib.Algebra.Order.Field.Rat

/-!
# Specification of exact inference

Joint assignments, CPT lookup and posterior, written down directly from the textbook definition.
Nothing here mentions cliques, potentials or join trees.
-/

namespace PyBBN

/-- an assignment of a value to every node id (ids outside the network are irrelevant) -/
abbrev Asg := Int → Str

/-- all joint assignments of the given variables -/
def allAsg : List Variable → List Asg
  | [] => [fun _ => []]
  | v :: vs => v.values.flatMap (fun x => (allAsg vs).map (fun σ => Function.update σ v.id x))

/-- row-major position of the values of `ns` under `σ`: mixed-radix number, the last variable varying fastest -/
def rowIdx (ns : List Variable) (σ : Asg) : Nat :=
  ns.foldl (fun acc p => acc * p.values.length + p.values.idxOf (σ p.id)) 0

/-- position in a CPT of the entry for the values of `parents` and `v` under `σ`: mixed-radix number, parents in the given
order, the node itself varying fastest -/
def cptIndex (parents : List Variable) (v : Variable) (σ : Asg) : Nat :=
  rowIdx parents σ * v.values.length + v.values.idxOf (σ v.id)

/-- the CPT entry selected by `σ` -/
def cptAt (probs : List ℚ) (parents : List Variable) (v : Variable) (σ : Asg) : ℚ :=
  probs.getD (cptIndex parents v σ) 0

/-- `σ` gives every variable of `ns` one of its values -/
def InDom (ns : List Variable) (σ : Asg) : Prop := ∀ v ∈ ns, σ v.id ∈ v.values

/-- the entry lists the values that `σ` gives to `ns` -/
def PEntry.Reads (e : PEntry) (ns : List Variable) (σ : Asg) : Prop :=
  ∀ v ∈ ns, Dict.get? e.entries v.id = some (σ v.id)

instance (e : PEntry) (ns : List Variable) (σ : Asg) : Decidable (e.Reads ns σ) :=
  inferInstanceAs (Decidable (∀ v ∈ ns, _))

/-- a potential over `ns`: the rows of the fresh potential with arbitrary values -/
def Potential.Over (P : Potential) (ns : List Variable) : Prop :=
  P.map PEntry.entries = (PotentialUtil.fromNodes ns).map PEntry.entries

/-- the value a potential gives to the joint value `σ` of `ns` -/
def Potential.at (P : Potential) (ns : List Variable) (σ : Asg) : Option ℚ :=
  (P.find? (fun e => decide (e.Reads ns σ))).map PEntry.value

/-- the variables of a network -/
def Bbn.vars (b : Bbn) : List Variable := b.toGraph.getNodes.map BbnNode.var

/-- the parents of a node, in the order kept by the network -/
def Bbn.parentVars (b : Bbn) (id : Int) : List Variable :=
  (ddGet b.parents id).filterMap (fun p => (Dict.get? b.nodes p).map BbnNode.var)

/-- what inference needs of a network: no node is its own parent, values are not repeated, each CPT has (at least) one
entry per combination of parent and node values, and CPT entries are not negative -/
structure Bbn.WF (b : Bbn) : Prop where
  noLoop : ∀ id, id ∉ ddGet b.parents id
  values : ∀ n ∈ b.toGraph.getNodes, n.var.values.Nodup
  cpt : ∀ n ∈ b.toGraph.getNodes,
    ((b.parentVars n.var.id ++ [n.var]).map (fun v => v.values.length)).prod ≤ n.probs.length
  nonneg : ∀ n ∈ b.toGraph.getNodes, ∀ p ∈ n.probs, 0 ≤ p

/-- product of all CPT entries and all likelihoods at a joint assignment -/
def Bbn.weight (b : Bbn) (lik : Int → Str → ℚ) (σ : Asg) : ℚ :=
  (b.toGraph.getNodes.map (fun n =>
    cptAt n.probs (b.parentVars n.var.id) n.var σ * lik n.var.id (σ n.var.id))).prod

/-- total weight of all joint assignments -/
def Bbn.total (b : Bbn) (lik : Int → Str → ℚ) : ℚ :=
  ((allAsg b.vars).map (b.weight lik)).sum

/-- total weight of the joint assignments that give value `x` to node `id` -/
def Bbn.mass (b : Bbn) (lik : Int → Str → ℚ) (id : Int) (x : Str) : ℚ :=
  (((allAsg b.vars).filter (fun σ => decide (σ id = x))).map (b.weight lik)).sum

/-- the posterior probability of value `x` of node `id`, given likelihoods -/
def Bbn.posterior (b : Bbn) (lik : Int → Str → ℚ) (id : Int) (x : Str) : ℚ :=
  b.mass lik id x / b.total lik

/-- total weight of the joint assignments that agree with `σ` on `ns` -/
def Bbn.joint (b : Bbn) (lik : Int → Str → ℚ) (ns : List Variable) (σ : Asg) : ℚ :=
  (((allAsg b.vars).filter (fun τ => decide (∀ v ∈ ns, τ v.id = σ v.id))).map (b.weight lik)).sum

/-- no evidence -/
def noEvidence : Int → Str → ℚ := fun _ _ => 1

end PyBBN
