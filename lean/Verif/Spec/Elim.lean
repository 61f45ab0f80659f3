import Verif.Model.Graph
import Mathlib.Data.Finset.Basic
import Mathlib.Data.Finset.Insert
import Mathlib.Data.Finset.Dedup
import Mathlib.Algebra.BigOperators.Group.List.Basic

/-!
# Specification: greedy elimination

Which node to eliminate next: the one that needs the fewest new edges, then the one whose clique has the smallest table, then the one
with the smallest id. Stated for a set of variables and an adjacency relation on their ids; no reference to the code.
-/

namespace PyBBN.Elim
open Classical

/-- the neighbors of `v` among `S` -/
noncomputable def nbrs (S : List Variable) (R : Int → Int → Prop) (v : Variable) : List Variable :=
  S.filter (fun u => decide (R v.id u.id))

/-- the number of ordered pairs of different neighbors of `v` that are not joined: twice the number of edges to fill in -/
noncomputable def missing (S : List Variable) (R : Int → Int → Prop) (v : Variable) : Nat :=
  ((nbrs S R v).flatMap (fun a => (nbrs S R v).filter (fun b => decide (a.id ≠ b.id ∧ ¬ R a.id b.id)))).length

/-- the number of rows of a table over `v` and its neighbors -/
noncomputable def weight (S : List Variable) (R : Int → Int → Prop) (v : Variable) : Nat :=
  v.values.length * ((nbrs S R v).map (fun u => u.values.length)).prod

/-- `v` is to be eliminated before `u` -/
def Cheaper (S : List Variable) (R : Int → Int → Prop) (v u : Variable) : Prop :=
  missing S R v < missing S R u ∨ missing S R v = missing S R u ∧ (weight S R v < weight S R u ∨ weight S R v = weight S R u ∧ v.id < u.id)

/-- adjacency after `v` is eliminated -/
def after (R : Int → Int → Prop) (v : Int) (x y : Int) : Prop := x ≠ v ∧ y ≠ v ∧ x ≠ y ∧ (R x y ∨ R v x ∧ R v y)

/-- greedy elimination: the node eliminated together with its neighbors, step by step -/
inductive Greedy : List Variable → (Int → Int → Prop) → List (Finset Int) → Prop
  | nil (R) : Greedy [] R []
  | cons {S : List Variable} {R : Int → Int → Prop} {cs : List (Finset Int)} (v : Variable) (hv : v ∈ S)
      (hmin : ∀ u ∈ S, u.id ≠ v.id → Cheaper S R v u) (ht : Greedy (S.filter (fun u => decide (u.id ≠ v.id))) (after R v.id) cs) :
      Greedy S R (insert v.id ((nbrs S R v).map Variable.id).toFinset :: cs)

/-- keep a set unless one kept before contains it -/
def keep (kept : List (Finset Int)) (c : Finset Int) : List (Finset Int) := if ∃ d ∈ kept, c ⊆ d then kept else kept ++ [c]

end PyBBN.Elim
