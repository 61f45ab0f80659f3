import Verif.Spec.Surgery

/-!
# Specification: edges that say nothing (C126)
-/

namespace PyBBN

/-- a CPT for a node with `k` values, with every row repeated `m` times: row `r` of the new table is row `r / m` of the old one -/
def repeatRows (k m : Nat) (probs : List ℚ) : List ℚ :=
  (List.range (probs.length * m)).map (fun t => probs.getD (t / (k * m) * k + t % k) 0)

/-- a call, with another CPT for the node `i` -/
def BOp.setCpt (i : Int) (probs : List ℚ) : BOp → BOp
  | .addNode n => .addNode (n.withPrior i probs)
  | .addEdge p c => .addEdge (p.withPrior i probs) (c.withPrior i probs)

/-- the calls that build the network with one more edge, from `p` to `c`, where `c` does not depend on `p`: the CPT of `c` has every row
once for each value of `p` -/
def linkOps (p c : BbnNode) (ops : List BOp) : List BOp :=
  (ops ++ [BOp.addEdge p c]).map (BOp.setCpt c.var.id (repeatRows c.var.values.length p.var.values.length c.probs))

/-- two different nodes of the network without an edge from the first to the second -/
structure CanLink (p c : BbnNode) (ops : List BOp) : Prop where
  parent : p ∈ (Bbn.run ops).toGraph.getNodes
  child : c ∈ (Bbn.run ops).toGraph.getNodes
  ne : p.var.id ≠ c.var.id
  new : (p.var.id, c.var.id) ∉ BOp.edges ops

/-- the second network is the first one with more edges, all of which say nothing -/
inductive Linked (ops : List BOp) : List BOp → Prop
  | refl : Linked ops ops
  | step {ops' : List BOp} {p c : BbnNode} (h : Linked ops ops') (hl : CanLink p c ops') : Linked ops (linkOps p c ops')

end PyBBN
