import Verif.Proofs.MultiWalk

/-!
# C94: the distribution of generated multi-connected structures
-/

namespace PyBBN
open Classical

/-- **C94** (partial: for three nodes or more). With `n ≥ 3` nodes, `generate_multi_bbn` draws from all connected acyclic structures with, in the
limit of many iterations, equal probability: for every such structure `E` the probability `r` that it is the one returned after `K` iterations
exists and is as close to one over the number of such structures as wanted, for all large `K`. The raw draws are uniform on `0 … M-1`, where
`M` is a multiple of `n`, so that `np.random.randint(0, n)` is uniform. -/
theorem c94_uniform_partial {n M : Nat} (hn : 3 ≤ n) (hM : 0 < M) (hd : n ∣ M) {E : Finset (Fin n × Fin n)} (hE : NoCycle E ∧ AllJoined E)
    {ε : ℚ} (hε : 0 < ε) : ∃ K0 : Nat, ∀ K ≥ K0, ∃ r, (Gen.multiStructure n K).Prob M (fun g => g.Has E) r ∧ |r - 1 / ((connDags n).card : ℚ)| < ε := by
  have : Nonempty (Gen.Pair n) := ⟨⟨(⟨0, by omega⟩, ⟨1, by omega⟩), by simp [Fin.ext_iff]⟩⟩
  have hfin : {F : Finset (Fin n × Fin n) | DagWalk.Good F}.Finite := Set.toFinite _
  obtain ⟨K0, hK⟩ := Walk.equidistributed (step := DagWalk.turn) (X := DagWalk.Good) DagWalk.turn_good hfin DagWalk.turn_turn DagWalk.chain_good
    (fun F hF => DagWalk.leads_chain hn hF) (DagWalk.chain_loop (by omega)) hE hε
  refine ⟨K0, fun K h => ⟨_, Gen.prob_multi hM (by omega) hd K E, ?_⟩⟩
  have hc : hfin.toFinset.card = (connDags n).card := by
    congr 1
    ext F
    rw [Set.Finite.mem_toFinset]
    simp [connDags, DagWalk.Good]
  have e := Walk.mean_count (step := DagWalk.turn (n := n)) K (fun F => F = E) (DagWalk.chain n)
  have := hK K h
  rw [hc, ← e] at this
  convert this using 4
  funext F
  by_cases hF : F = E <;> simp [hF]

/-- not vacuous: the collider `0 → 2 ← 1` (which the simple chain is not) -/
example : NoCycle (n := 3) {(0, 2), (1, 2)} ∧ AllJoined (n := 3) {(0, 2), (1, 2)} := by
  refine ⟨DagWalk.noCycle_of_lt (ρ := id) ?_, ?_⟩
  · decide
  · have h : ∀ x : Fin 3, Relation.ReflTransGen (fun a b => (a, b) ∈ ({(0, 2), (1, 2)} : Finset (Fin 3 × Fin 3)) ∨ (b, a) ∈ ({(0, 2), (1, 2)} : Finset (Fin 3 × Fin 3))) 2 x ∧
        Relation.ReflTransGen (fun a b => (a, b) ∈ ({(0, 2), (1, 2)} : Finset (Fin 3 × Fin 3)) ∨ (b, a) ∈ ({(0, 2), (1, 2)} : Finset (Fin 3 × Fin 3))) x 2 := by
      intro x
      by_cases hx : x = 2
      · subst hx; exact ⟨.refl, .refl⟩
      · have : (x, (2 : Fin 3)) ∈ ({(0, 2), (1, 2)} : Finset (Fin 3 × Fin 3)) := by revert x; decide
        exact ⟨.single (Or.inr this), .single (Or.inl this)⟩
    exact fun x y => (h x).2.trans (h y).1

/-- **C94** is false for two nodes: `0 → 1` and `1 → 0` are both connected and acyclic, but the second one is never returned -/
theorem c94_false (maxIter : Int) : (Gen.multiStructure 2 maxIter).Always (fun g => g.edges = [(0, 1)]) ∧
    NoCycle (n := 2) {(1, 0)} ∧ AllJoined (n := 2) {(1, 0)} := by
  refine ⟨?_, DagWalk.noCycle_of_lt (ρ := fun x => 1 - x) (by decide), ?_⟩
  · have h0 : Gen.simpleOrderedTree 2 = ⟨[0, 1], [(0, 1)]⟩ := by rfl
    have h : (Gen.multiStructure 2 maxIter).Always (fun g => g = ⟨[0, 1], [(0, 1)]⟩) := by
      unfold Gen.multiStructure
      refine Gen.always_loop ?_ _ _ h0
      rintro g rfl
      unfold Gen.multiStep
      refine (Gen.always_pair (by decide)).bind ?_
      rintro ⟨i, j⟩ ⟨hi, hj, hij⟩
      rw [Gen.mem_range] at hi hj
      simp only at hi hj hij
      have hc : (i = 0 ∧ j = 1) ∨ (i = 1 ∧ j = 0) := by omega
      rcases hc with ⟨rfl, rfl⟩ | ⟨rfl, rfl⟩
      · exact Rnd.always_lift (P := fun g => g = ⟨[0, 1], [(0, 1)]⟩) (y := Gen.delEdge 0 1 ⟨[0, 1], [(0, 1)]⟩) (a := ⟨[0, 1], [(0, 1)]⟩) (by rfl) rfl
      · exact Rnd.always_lift (P := fun g => g = ⟨[0, 1], [(0, 1)]⟩) (y := Gen.addEdge 1 0 ⟨[0, 1], [(0, 1)]⟩) (a := ⟨[0, 1], [(0, 1)]⟩) (by rfl) rfl
    exact h.mono (fun g hg => by rw [hg])
  · intro x y
    have h : ∀ x y : Fin 2, x = y ∨ ((x, y) ∈ ({(1, 0)} : Finset (Fin 2 × Fin 2)) ∨ (y, x) ∈ ({(1, 0)} : Finset (Fin 2 × Fin 2))) := by decide
    rcases h x y with rfl | h
    · exact .refl
    · exact .single h

end PyBBN
