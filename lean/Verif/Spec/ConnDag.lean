import Verif.Model.Generator
import Mathlib.Data.Fintype.Prod
import Mathlib.Data.Fintype.Powerset
import Mathlib.Logic.Relation

/-! # Sets of edges on the nodes `0 … n-1` -/

namespace PyBBN
open Classical Relation
variable {n : Nat}

/-- no directed cycle -/
def NoCycle (E : Finset (Fin n × Fin n)) : Prop := ∀ x, ¬ TransGen (fun a b => (a, b) ∈ E) x x

/-- connected when the directions are ignored -/
def AllJoined (E : Finset (Fin n × Fin n)) : Prop := ∀ x y, ReflTransGen (fun a b => (a, b) ∈ E ∨ (b, a) ∈ E) x y

/-- the connected acyclic structures on `n` nodes -/
noncomputable def connDags (n : Nat) : Finset (Finset (Fin n × Fin n)) := Finset.univ.filter (fun E => NoCycle E ∧ AllJoined E)

/-- the singly-connected structures on `n` nodes: connected, with as few edges as that takes -/
noncomputable def polytrees (n : Nat) : Finset (Finset (Fin n × Fin n)) := Finset.univ.filter (fun E => AllJoined E ∧ E.card + 1 = n)

/-- an edge from every other node into `c`, and no other edges -/
def inStar (c : Fin n) : Finset (Fin n × Fin n) := Finset.univ.filter (fun e => e.2 = c ∧ e.1 ≠ c)

/-- the graph has exactly these edges between the nodes `0 … n-1` -/
def DiG.Has (g : DiG Int) (E : Finset (Fin n × Fin n)) : Prop := ∀ a b : Fin n, (((a : Nat) : Int), ((b : Nat) : Int)) ∈ g.edges ↔ (a, b) ∈ E

end PyBBN
