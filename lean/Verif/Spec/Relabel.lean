import Verif.Spec.Evidence

/-!
# Specification: networks that differ in the names and the order of the values only (C124)
-/

namespace PyBBN

/-- the same evidence about the node `f node` whose value `x` is called `ρ id x` -/
def Evidence.relabel (f : Variable → Variable) (ρ : Int → Str → Str) (e : Evidence) : Evidence :=
  ⟨f e.node, e.type, e.values.map (fun kv => (ρ e.node.id kv.1, kv.2))⟩

/-- the same operation about the nodes with the other values -/
def EvOp.relabel (f : Variable → Variable) (ρ : Int → Str → Str) : EvOp → EvOp
  | .update es => .update (es.map (Evidence.relabel f ρ))
  | .observe e => .observe (e.relabel f ρ)
  | .unobserve ns => .unobserve (ns.map f)
  | .unobserveAll => .unobserveAll

/-- the joint assignment with the other names of the values -/
def relabelAsg (ρ : Int → Str → Str) (σ : Asg) : Asg := fun i => ρ i (σ i)

/-- the variables of `V'` are the variables `f v` with the same ids, and with the values of `v` under other names (`ρ`) and in any order -/
structure SameVars (f : Variable → Variable) (ρ : Int → Str → Str) (V V' : List Variable) : Prop where
  vars : V'.Perm (V.map f)
  id : ∀ v ∈ V, (f v).id = v.id
  values : ∀ v ∈ V, (f v).values.Perm (v.values.map (ρ v.id))

/-- the CPTs say the same about the same parents: whatever the order of the parents and of the values in the two networks, the entry for
the same values is the same number -/
def SameEntries (ρ : Int → Str → Str) (b b' : Bbn) : Prop :=
  ∀ n ∈ b.toGraph.getNodes, ∀ n' ∈ b'.toGraph.getNodes, n'.var.id = n.var.id → ∀ σ, InDom b.vars σ →
    cptAt n'.probs (b'.parentVars n'.var.id) n'.var (relabelAsg ρ σ) = cptAt n.probs (b.parentVars n.var.id) n.var σ

/-- observation evidence gives some value a positive likelihood (otherwise the order of the values decides which one is observed) -/
def Evidence.Definite (e : Evidence) : Prop := e.type = .observation → ∃ kv ∈ e.values, 0 < kv.2

/-- all observation evidence of the operation gives some value a positive likelihood -/
def EvOp.Definite : EvOp → Prop
  | .update es => ∀ e ∈ es, e.Definite
  | .observe e => e.Definite
  | _ => True

/-- a variable with other names for its values, in the same order -/
def Variable.rename (ρ : Int → Str → Str) (v : Variable) : Variable := ⟨v.id, v.name, v.values.map (ρ v.id)⟩

end PyBBN
