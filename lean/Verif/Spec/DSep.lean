import Mathlib.Logic.Relation
import Mathlib.Data.List.Chain

/-!
# Specification: paths and blocking (textbook d-separation)

Stated for any directed edge relation; no reference to the code.
-/

namespace PyBBN.DSep
variable {V : Type}

/-- two nodes are joined by an edge, in either direction -/
def Adj (E : V → V → Prop) (a b : V) : Prop := E a b ∨ E b a

/-- a simple undirected path from `x` to `y` -/
structure IsPath (E : V → V → Prop) (x y : V) (p : List V) : Prop where
  start : p.head? = some x
  stop : p.getLast? = some y
  chain : p.IsChain (Adj E)
  simple : p.Nodup

/-- position `i` is strictly inside the path -/
def Interior (p : List V) (i : Nat) : Prop := 0 < i ∧ i + 1 < p.length

/-- position `i` is a collider: both its neighbors on the path point at it -/
def Collider (E : V → V → Prop) (p : List V) (i : Nat) : Prop :=
  ∃ a c b, p[i-1]? = some a ∧ p[i]? = some c ∧ p[i+1]? = some b ∧ E a c ∧ E b c

/-- the path is open given `Z`: every interior collider is in `Z` or has a descendant in `Z`, no other interior node is in `Z` -/
def Open (E : V → V → Prop) (Z : V → Prop) (p : List V) : Prop :=
  ∀ i, Interior p i → ∀ c, p[i]? = some c →
    (Collider E p i → ∃ d, Relation.ReflTransGen E c d ∧ Z d) ∧ (¬ Collider E p i → ¬ Z c)

end PyBBN.DSep

namespace PyBBN.DSep
variable {V : Type}

/-- the path starts with an edge into its first node -/
def Backdoor (E : V → V → Prop) (p : List V) : Prop := ∃ a b l, p = a :: b :: l ∧ E b a

/-- the path starts with an edge out of its first node -/
def Frontdoor (E : V → V → Prop) (p : List V) : Prop := ∃ a b l, p = a :: b :: l ∧ E a b

/-- the node is a collider on the path -/
def ColliderOn (E : V → V → Prop) (p : List V) (n : V) : Prop := ∃ i, Collider E p i ∧ p[i]? = some n ∧ 0 < i

/-- no evidence -/
def none : V → Prop := fun _ => False

/-- `Z` satisfies the back-door criterion for `x` and `y` -/
def ValidAdjustment (E : V → V → Prop) (x y : V) (Z : V → Prop) : Prop :=
  (∀ n, Z n → ¬ Relation.ReflTransGen E x n) ∧ ∀ p, IsPath E x y p → Backdoor E p → ¬ Open E Z p

end PyBBN.DSep
