import Verif.Proofs.GenSample
import Verif.Proofs.DagWalk
import Mathlib.Data.Fintype.Pi

/-! The structures on three nodes. -/

namespace PyBBN
open Relation

namespace Gen

/-- a function on three nodes -/
def pick3 (a b c x : Fin 3) : Fin 3 := if x = 0 then a else if x = 1 then b else c

/-- no cycle, on three nodes: the nodes can be numbered along the edges -/
def noCycle3 (E : Finset (Fin 3 × Fin 3)) : Bool := decide (∃ a b c : Fin 3, ∀ e ∈ E, pick3 a b c e.1 < pick3 a b c e.2)

/-- connected, on three nodes: at most two edges away -/
def joined3 (E : Finset (Fin 3 × Fin 3)) : Bool :=
  decide (∀ x y : Fin 3, x = y ∨ ((x, y) ∈ E ∨ (y, x) ∈ E) ∨ ∃ z, ((x, z) ∈ E ∨ (z, x) ∈ E) ∧ ((z, y) ∈ E ∨ (y, z) ∈ E))

/-- the edges as a test on ids -/
def edge3 (E : Finset (Fin 3 × Fin 3)) (a b : Int) : Bool := decide (∃ i j : Fin 3, (i, j) ∈ E ∧ a = ((i : Nat) : Int) ∧ b = ((j : Nat) : Int))

/-- the order respects the edges -/
def topo3 (E : Finset (Fin 3 × Fin 3)) : Bool :=
  let l := orderOf (cpython _) 3 (edge3 E)
  decide (∀ e ∈ E, l.idxOf ((e.1 : Nat) : Int) < l.idxOf ((e.2 : Nat) : Int))

set_option maxRecDepth 100000 in
theorem cyclic3 : ∀ E : Finset (Fin 3 × Fin 3), noCycle3 E = true ∨ (∃ a, (a, a) ∈ E) ∨ (∃ a b, (a, b) ∈ E ∧ (b, a) ∈ E) ∨
    ∃ a b c, (a, b) ∈ E ∧ (b, c) ∈ E ∧ (c, a) ∈ E := by decide +kernel

theorem topo3_iff : ∀ E : Finset (Fin 3 × Fin 3), noCycle3 E = true → joined3 E = true →
    (topo3 E = true ↔ ¬ (E = {(2, 0), (0, 1)} ∨ E = {(1, 2), (2, 0)})) := by decide +kernel

theorem card3 : (Finset.univ.filter (fun E : Finset (Fin 3 × Fin 3) => noCycle3 E = true ∧ joined3 E = true)).card = 18 := by decide +kernel

theorem noCycle3_iff (E : Finset (Fin 3 × Fin 3)) : noCycle3 E = true ↔ NoCycle E := by
  constructor
  · intro h
    obtain ⟨a, b, c, h⟩ := of_decide_eq_true h
    exact DagWalk.noCycle_of_lt (ρ := pick3 a b c) (fun x y hxy => h _ hxy)
  · intro h
    rcases cyclic3 E with h1 | ⟨a, ha⟩ | ⟨a, b, h1, h2⟩ | ⟨a, b, c, h1, h2, h3⟩
    · exact h1
    · exact absurd (TransGen.single ha) (h a)
    · exact absurd ((TransGen.single h1).tail h2) (h a)
    · exact absurd (((TransGen.single h1).tail h2).tail h3) (h a)

theorem three_of : ∀ x a y z : Fin 3, x ≠ a → a ≠ y → x ≠ y → z = x ∨ z = a ∨ z = y := by decide

theorem joined3_iff (E : Finset (Fin 3 × Fin 3)) : joined3 E = true ↔ AllJoined E := by
  unfold joined3
  rw [decide_eq_true_eq]
  constructor
  · intro h x y
    rcases h x y with rfl | h | ⟨z, h1, h2⟩
    · exact .refl
    · exact .single h
    · exact ReflTransGen.tail (b := z) (ReflTransGen.single h1) h2
  · intro h x y
    have hxy := h x y
    clear h
    induction hxy with
    | refl => exact Or.inl rfl
    | @tail y z _ hyz ih =>
      by_cases hxz : x = z
      · exact Or.inl hxz
      rcases ih with rfl | ih | ⟨w, h1, h2⟩
      · exact Or.inr (Or.inl hyz)
      · exact Or.inr (Or.inr ⟨y, ih, hyz⟩)
      · by_cases hxw : x = w
        · subst hxw; exact Or.inr (Or.inr ⟨y, h2, hyz⟩)
        by_cases hwy : w = y
        · subst hwy; exact Or.inr (Or.inr ⟨w, h1, hyz⟩)
        by_cases hxy : x = y
        · subst hxy; exact Or.inr (Or.inl hyz)
        rcases three_of x w y z hxw hwy hxy with rfl | rfl | rfl
        · exact absurd rfl hxz
        · exact Or.inr (Or.inl h1)
        · exact Or.inr (Or.inr ⟨w, h1, h2⟩)

end Gen
end PyBBN
