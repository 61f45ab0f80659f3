import Verif.Proofs.SinglyWalk

/-!
# C95: the distribution of generated singly-connected structures
-/

namespace PyBBN
open Classical

/-- the probability of what is not a star gets small -/
theorem Gen.mean_small {n : Nat} (hn : 2 ≤ n) {p : DiG Int → Prop} (hp : ∀ g, Gen.SInv n g → p g → ¬ Gen.Star g) {ε : ℚ} (hε : 0 < ε) :
    ∃ K0, ∀ K ≥ K0, Walk.mean (Gen.exchanged (n := n)) K (fun g => if p g then (1 : ℚ) else 0) (Gen.simpleOrderedTree n) < ε := by
  have hq : Nonempty (Gen.Pair n × Bool) := ⟨(⟨(⟨0, by omega⟩, ⟨1, by omega⟩), by simp [Fin.ext_iff]⟩, true)⟩
  obtain ⟨K0, hK⟩ := Walk.absorbed (step := Gen.exchanged (n := n)) (X := Gen.SInv n) (A := Gen.Star) (fun q g hg => Gen.exchanged_sinv q hg)
    (Gen.finite_sinv n) (fun q g hg hs => by rw [Gen.star_stays q hg hs]; exact hs)
    (fun g hg => by obtain ⟨g', ⟨w, hw⟩, hs⟩ := Gen.leads_star (by omega) hg; exact ⟨w, by rw [hw]; exact hs⟩)
    (Gen.tree_sinv (by omega) : Gen.SInv n (Gen.simpleOrderedTree n)) hε
  refine ⟨K0, fun K h => lt_of_le_of_lt ?_ (hK K h)⟩
  have e := Walk.mean_count (step := Gen.exchanged (n := n)) K (fun g => ¬ Gen.Star g) (Gen.simpleOrderedTree n)
  have h1 : ((Finset.univ.filter (fun w : Fin K → Gen.Pair n × Bool => ¬ Gen.Star (Walk.go Gen.exchanged (List.ofFn w) (Gen.simpleOrderedTree n)))).card : ℚ) /
      (Fintype.card (Gen.Pair n × Bool) : ℚ) ^ K = Walk.mean (Gen.exchanged (n := n)) K (fun g => @ite ℚ (¬ Gen.Star g) (propDecidable _) 1 0) (Gen.simpleOrderedTree n) := by
    rw [e]; congr 3; ext w; simp
  rw [h1]
  refine Walk.mean_mono (X := Gen.SInv n) (fun q g hg => Gen.exchanged_sinv q hg) ?_ K (Gen.tree_sinv (by omega))
  intro g hg
  by_cases h : p g
  · rw [if_pos h, if_pos (hp g hg h)]
  · rw [if_neg h]; split <;> norm_num

theorem Gen.star_has {n : Nat} {g : DiG Int} (h : Gen.SInv n g) (hs : Gen.Star g) : ∃ c : Fin n, g.Has (inStar c) := by
  obtain ⟨c, hc, hE⟩ := hs
  rw [h.nodes] at hc
  obtain ⟨c, rfl⟩ := Gen.fin_of_mem hc
  refine ⟨c, fun a b => ?_⟩
  have := hE (a : Nat) (b : Nat)
  unfold DiG.E at this
  rw [this]
  have ha : ((a : Nat) : Int) ∈ g.nodes := by rw [h.nodes, Gen.mem_range]; omega
  simp only [inStar, Finset.mem_filter, Finset.mem_univ, true_and, ha, and_true, Fin.ext_iff, ne_eq, Nat.cast_inj]

theorem Gen.mean_large {n : Nat} (hn : 2 ≤ n) {p : DiG Int → Prop} (hp : ∀ g, Gen.SInv n g → Gen.Star g → p g) {ε : ℚ} (hε : 0 < ε) :
    ∃ K0, ∀ K ≥ K0, 1 - ε < Walk.mean (Gen.exchanged (n := n)) K (fun g => if p g then (1 : ℚ) else 0) (Gen.simpleOrderedTree n) ∧
      Walk.mean (Gen.exchanged (n := n)) K (fun g => if p g then (1 : ℚ) else 0) (Gen.simpleOrderedTree n) ≤ 1 := by
  have hq : Nonempty (Gen.Pair n × Bool) := ⟨(⟨(⟨0, by omega⟩, ⟨1, by omega⟩), by simp [Fin.ext_iff]⟩, true)⟩
  obtain ⟨q, hpq⟩ : ∃ q : DiG Int → Prop, ∀ g, q g ↔ ¬ p g := ⟨fun g => ¬ p g, fun _ => Iff.rfl⟩
  obtain ⟨K0, hK⟩ := Gen.mean_small hn (p := q) (fun g hg h hs => (hpq g).1 h (hp g hg hs)) hε
  refine ⟨K0, fun K h => ⟨?_, ?_⟩⟩
  · have h1 := hK K h
    have h3 := Walk.mean_plus (step := Gen.exchanged (n := n)) (fun g => if q g then (1 : ℚ) else 0)
      (fun g => if p g then (1 : ℚ) else 0) K (Gen.simpleOrderedTree n)
    have h4 : (fun g : DiG Int => (if q g then (1 : ℚ) else 0) + (if p g then (1 : ℚ) else 0)) = fun _ => 1 := by
      funext g
      have := hpq g
      by_cases h : p g <;> simp_all
    rw [h4, Walk.mean_const] at h3
    linarith
  · have := Walk.mean_mono (step := Gen.exchanged (n := n)) (X := fun _ => True) (f := fun g => if p g then (1 : ℚ) else 0) (g := fun _ => 1)
      (fun _ _ _ => trivial) (fun g _ => by split <;> norm_num) K (s := Gen.simpleOrderedTree n) trivial
    rwa [Walk.mean_const] at this

/-- **C95** (what is true). With `n ≥ 2` nodes, `generate_singly_bbn` ends up in a star with all edges into one node, with a probability that
tends to one as the number of iterations grows. (The raw draws are uniform on `0 … M-1`, where `M` is a multiple of `n` and of 2, so that
`np.random.randint(0, n)` is uniform and `p < 0.5` holds half of the time.) -/
theorem c95_star_partial {n M : Nat} (hn : 2 ≤ n) (hM : 0 < M) (hd : n ∣ M) (h2 : 2 ∣ M) {ε : ℚ} (hε : 0 < ε) :
    ∃ K0 : Nat, ∀ K ≥ K0, ∃ r, (Gen.singlyStructure n K).Prob M (fun g => ∃ c : Fin n, g.Has (inStar c)) r ∧ 1 - ε < r ∧ r ≤ 1 := by
  obtain ⟨K0, hK⟩ := Gen.mean_large hn (p := fun g => ∃ c : Fin n, g.Has (inStar c)) (fun g hg hs => Gen.star_has hg hs) hε
  exact ⟨K0, fun K h => ⟨_, Gen.prob_singly hM hn hd h2 K _, hK K h⟩⟩

/-- **C95**: every other structure becomes arbitrarily unlikely -/
theorem c95_others_vanish {n M : Nat} (hn : 2 ≤ n) (hM : 0 < M) (hd : n ∣ M) (h2 : 2 ∣ M) {E : Finset (Fin n × Fin n)} (hE : ∀ c, E ≠ inStar c)
    {ε : ℚ} (hε : 0 < ε) : ∃ K0 : Nat, ∀ K ≥ K0, ∃ r, (Gen.singlyStructure n K).Prob M (fun g => g.Has E) r ∧ r < ε := by
  obtain ⟨K0, hK⟩ := Gen.mean_small hn (p := fun g => g.Has E) (fun g hg hp hs => by
    obtain ⟨c, hc⟩ := Gen.star_has hg hs
    exact hE c ((Gen.has_iff.1 hp).symm.trans (Gen.has_iff.1 hc))) hε
  exact ⟨K0, fun K h => ⟨_, Gen.prob_singly hM hn hd h2 K _, hK K h⟩⟩

theorem chain_polytree {n : Nat} (hn : 1 ≤ n) : DagWalk.chain n ∈ polytrees n := by
  simp only [polytrees, Finset.mem_filter, Finset.mem_univ, true_and]
  refine ⟨DagWalk.chain_joins, ?_⟩
  obtain ⟨m, rfl⟩ : ∃ m, n = m + 1 := ⟨n - 1, by omega⟩
  have : DagWalk.chain (m + 1) = Finset.univ.image (fun k : Fin m => (k.castSucc, k.succ)) := by
    ext ⟨a, b⟩
    simp only [DagWalk.mem_chain, Finset.mem_image, Finset.mem_univ, true_and, Prod.mk.injEq, Fin.ext_iff, Fin.val_castSucc, Fin.val_succ]
    constructor
    · intro h; exact ⟨⟨a, by omega⟩, rfl, h⟩
    · rintro ⟨k, h1, h3⟩; omega
  rw [this, Finset.card_image_of_injective, Finset.card_univ, Fintype.card_fin]
  intro k l hkl
  simpa [Fin.ext_iff] using (Prod.mk.inj hkl).1

/-- not vacuous: for three nodes or more the chain (from which the generator starts) is one of the others -/
theorem chain_not_star {n : Nat} (hn : 3 ≤ n) (c : Fin n) : DagWalk.chain n ≠ inStar c := by
  intro e
  have h1 : ((⟨0, by omega⟩, ⟨1, by omega⟩) : Fin n × Fin n) ∈ DagWalk.chain n := DagWalk.mem_chain.2 rfl
  have h2 : ((⟨1, by omega⟩, ⟨2, by omega⟩) : Fin n × Fin n) ∈ DagWalk.chain n := DagWalk.mem_chain.2 rfl
  rw [e] at h1 h2
  simp only [inStar, Finset.mem_filter, Finset.mem_univ, true_and] at h1 h2
  have := h1.1.trans h2.1.symm
  simp [Fin.ext_iff] at this

/-- **C95** is false: for three nodes or more the structures do not become equally likely -/
theorem c95_false {n M : Nat} (hn : 3 ≤ n) (hM : 0 < M) (hd : n ∣ M) (h2 : 2 ∣ M) :
    ¬ ∀ E ∈ polytrees n, ∀ ε : ℚ, 0 < ε → ∃ K0 : Nat, ∀ K ≥ K0, ∃ r, (Gen.singlyStructure n K).Prob M (fun g => g.Has E) r ∧
      |r - 1 / ((polytrees n).card : ℚ)| < ε := by
  intro hall
  have hch := chain_polytree (n := n) (by omega)
  have hN : (0 : ℚ) < (polytrees n).card := by exact_mod_cast Finset.card_pos.2 ⟨_, hch⟩
  have hε : (0 : ℚ) < 1 / (polytrees n).card / 2 := by positivity
  obtain ⟨K1, h1⟩ := hall _ hch _ hε
  obtain ⟨K2, h3⟩ := c95_others_vanish (by omega) hM hd h2 (chain_not_star hn) hε
  obtain ⟨r, hr, hr'⟩ := h1 (max K1 K2) (le_max_left _ _)
  obtain ⟨t, ht, ht'⟩ := h3 (max K1 K2) (le_max_right _ _)
  have := TendsTo.unique hr ht
  subst this
  rw [abs_lt] at hr'
  linarith

/-- **C46**, **C47**: for two nodes or more a run finishes with probability one -/
theorem c46_finishes_surely {n M : Nat} (hn : 2 ≤ n) (hM : 0 < M) (hd : n ∣ M) (K : Nat) : (Gen.multiStructure n K).Prob M (fun _ => True) 1 := by
  have hq : Nonempty (Gen.Pair n) := ⟨⟨(⟨0, by omega⟩, ⟨1, by omega⟩), by simp [Fin.ext_iff]⟩⟩
  have := Gen.prob_multi_of hM hn hd K (fun _ => True)
  simpa [Walk.mean_const] using this

theorem c47_finishes_surely {n M : Nat} (hn : 2 ≤ n) (hM : 0 < M) (hd : n ∣ M) (h2 : 2 ∣ M) (K : Nat) :
    (Gen.singlyStructure n K).Prob M (fun _ => True) 1 := by
  have hq : Nonempty (Gen.Pair n × Bool) := ⟨(⟨(⟨0, by omega⟩, ⟨1, by omega⟩), by simp [Fin.ext_iff]⟩, true)⟩
  have := Gen.prob_singly hM hn hd h2 K (fun _ => True)
  simpa [Walk.mean_const] using this

/-- not vacuous: for three nodes, raw draws from `0 … 5` -/
example : ∃ K0 : Nat, ∀ K ≥ K0, ∃ r, (Gen.singlyStructure 3 K).Prob 6 (fun g => ∃ c : Fin 3, g.Has (inStar c)) r ∧ 99 / 100 < r := by
  obtain ⟨K0, h⟩ := c95_star_partial (n := 3) (M := 6) (by decide) (by decide) (by decide) (by decide) (ε := 1 / 100) (by norm_num)
  exact ⟨K0, fun K hK => by
    obtain ⟨r, h1, h2, _⟩ := h K hK
    exact ⟨r, h1, by linarith⟩⟩

/-- … and draws that lead from the chain `0 → 1 → 2` to the star into node 2 -/
example : Gen.singlyStructure 3 2 [0, 2, 1, 2, 1, 0] = .done ⟨[0, 1, 2], [(0, 2), (1, 2)]⟩ [] := by rfl

end PyBBN
