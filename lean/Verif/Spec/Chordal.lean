import Verif.Spec.DSep

/-!
# Specification: chordal graphs, polytrees

Stated for any relation; no reference to the code.
-/

namespace PyBBN.Chord
open DSep

/-- `c 0, …, c (n - 1)` is a cycle: different nodes, each joined to the next one and the last one to the first -/
def Cycle {V : Type} (A : V → V → Prop) (n : Nat) (c : Nat → V) : Prop :=
  (∀ i < n, ∀ j < n, c i = c j → i = j) ∧ (∀ i, i + 1 < n → A (c i) (c (i + 1))) ∧ A (c (n - 1)) (c 0)

/-- two nodes that are not next to each other on the cycle are joined -/
def HasChord {V : Type} (A : V → V → Prop) (n : Nat) (c : Nat → V) : Prop :=
  ∃ i j, i + 1 < j ∧ j < n ∧ ¬ (i = 0 ∧ j + 1 = n) ∧ A (c i) (c j)

/-- every cycle of four or more nodes has a chord -/
def Chordal {V : Type} (A : V → V → Prop) : Prop := ∀ n c, 4 ≤ n → Cycle A n c → HasChord A n c

/-- at most one undirected path between any two nodes, and no two edges between the same two nodes -/
def Polytree {V : Type} (E : V → V → Prop) : Prop :=
  (∀ a b, E a b → ¬ E b a) ∧ ∀ x y p q, IsPath E x y p → IsPath E x y q → p = q

/-- a set of nodes that are pairwise joined -/
def Complete {V : Type} (A : V → V → Prop) (Q : V → Prop) : Prop := ∀ x y, Q x → Q y → x ≠ y → A x y

end PyBBN.Chord
