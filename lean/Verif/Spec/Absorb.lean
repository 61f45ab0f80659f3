import Verif.Spec.Surgery

/-!
# Specification: networks that agree where the evidence allows it (C132)
-/

namespace PyBBN

/-- two networks over the same variables, whose nodes have the same CPT entry at every assignment that satisfies `S`; the nodes may have
different parents -/
structure AgreeWhere (S : Asg → Prop) (b b' : Bbn) : Prop where
  vars : b'.vars.Perm b.vars
  entries : ∀ n ∈ b.toGraph.getNodes, ∀ n' ∈ b'.toGraph.getNodes, n'.var.id = n.var.id → ∀ σ, InDom b.vars σ → S σ →
    cptAt n'.probs (b'.parentVars n.var.id) n.var σ = cptAt n.probs (b.parentVars n.var.id) n.var σ

/-- the assignment that gives the listed values to the listed variables -/
def readAsg : List Variable → List Str → Asg
  | v :: vs, u :: us => Function.update (readAsg vs us) v.id u
  | _, _ => fun _ => []

/-- the rows of the CPT of `v` in which `x` has the value `a`, as a CPT for the other parents -/
def rowsWith (x : Variable) (a : Str) (ps : List Variable) (v : Variable) (probs : List ℚ) : List ℚ :=
  (product ((ps.filter (fun p => decide (p.id ≠ x.id)) ++ [v]).map Variable.values)).map (fun us =>
    cptAt probs ps v (Function.update (readAsg (ps.filter (fun p => decide (p.id ≠ x.id)) ++ [v]) us) x.id a))

/-- the second network is the first one without the edges from `x`; the children of `x` keep the rows in which `x` has the value `a` -/
structure Absorbed (x : Variable) (a : Str) (b b' : Bbn) : Prop where
  vars : b'.vars.Perm b.vars
  parents : ∀ v ∈ b.vars, b'.parentVars v.id = (b.parentVars v.id).filter (fun p => decide (p.id ≠ x.id))
  tables : ∀ n ∈ b.toGraph.getNodes, ∀ n' ∈ b'.toGraph.getNodes, n'.var.id = n.var.id →
    n'.probs = if x ∈ b.parentVars n.var.id then rowsWith x a (b.parentVars n.var.id) n.var n.probs else n.probs

end PyBBN
