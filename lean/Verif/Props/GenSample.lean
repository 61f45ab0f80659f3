import Verif.Proofs.GenSampleEvent
import Verif.Props.Uniform
import Verif.Props.UniformSingly
import Verif.Props.Generator

/-! # C111: sampling generated networks -/

namespace PyBBN
open Classical

/-- **C111** (partial: if the sampler visits parents first). For `n`, `max_values`, `max_alpha` at least 1, whatever is drawn: the network converted from
what `generate_multi_bbn` or `generate_singly_bbn` returns has a sampler. If its order lists parents before children, every draw gives a sample and
joint values are drawn with their probability; otherwise `get_samples` raises `KeyError` on every draw. Missing: that the order always lists parents
before children, see `c111_false`. -/
theorem c111_samples_partial (srt : PySort SortableNode) (D : Dirichlet) {n maxValues maxAlpha : Int} (hn : 0 < n) (hv : 0 < maxValues)
    (ha : 0 < maxAlpha) (maxIter : Int) :
    (Gen.generateMulti D n maxIter maxValues maxAlpha).Always (fun r => ∃ b s, Gen.convert r.1 r.2 = .ok b ∧ LogicSampler.make srt b = .ok s ∧
      (b.Topological s.nodes → b.SampledBy s) ∧
      (¬ b.Topological s.nodes → ∀ u rest N, Uniform s.nodes.length u → s.getSamples [] N (u :: rest) = some (.error .keyError))) ∧
    (Gen.generateSingly D n maxIter maxValues maxAlpha).Always (fun r => ∃ b s, Gen.convert r.1 r.2 = .ok b ∧ LogicSampler.make srt b = .ok s ∧
      (b.Topological s.nodes → b.SampledBy s) ∧
      (¬ b.Topological s.nodes → ∀ u rest N, Uniform s.nodes.length u → s.getSamples [] N (u :: rest) = some (.error .keyError))) := by
  have key : ∀ {g : DiG Int}, Gen.Inv n g → g.Acyclic → ∀ {ps card}, Gen.Fits g ps card → ∃ b s, Gen.convert g ps = .ok b ∧ LogicSampler.make srt b = .ok s ∧
      (b.Topological s.nodes → b.SampledBy s) ∧
      (¬ b.Topological s.nodes → ∀ u rest N, Uniform s.nodes.length u → s.getSamples [] N (u :: rest) = some (.error .keyError)) := by
    intro g hg hac ps card hf
    obtain ⟨b, s, h1, h2, _, h4⟩ := Gen.convert_sampled srt hg hac hf
    exact ⟨b, s, h1, h2, h4⟩
  constructor
  · unfold Gen.generateMulti
    refine (Gen.always_multi hn maxIter).bind ?_
    rintro g ⟨hg, hac⟩
    refine (Gen.always_parameters D hg hv ha).bind ?_
    rintro ps ⟨card, hf, _⟩
    exact Rnd.always_pure (key hg hac hf)
  · unfold Gen.generateSingly
    refine (Gen.always_singly hn maxIter).bind ?_
    intro g hg
    refine (Gen.always_parameters D hg.toInv hv ha).bind ?_
    rintro ps ⟨card, hf, _⟩
    have hnd : g.nodes.Nodup := by rw [hg.nodes]; exact Gen.nodup_range n
    exact Rnd.always_pure (key hg.toInv (DiG.acyclic_of_path hg.wf hg.anti (fun x hx y hy =>
      DiG.existsUnique_path hg.wf hg.anti hnd hg.conn hg.len hx hy)) hf)

theorem Gen.sinv_acyclic {n : Int} {g : DiG Int} (hg : Gen.SInv n g) : g.Acyclic := by
  have hnd : g.nodes.Nodup := by rw [hg.nodes]; exact Gen.nodup_range n
  exact DiG.acyclic_of_path hg.wf hg.anti (fun x hx y hy => DiG.existsUnique_path hg.wf hg.anti hnd hg.conn hg.len hx hy)

/-- **C111** for singly-connected networks (any sort that keeps the promise of Python's): the probability that the network can be sampled correctly
tends to one as the number of iterations grows -/
theorem c111_singly (srt : PySort SortableNode) {n M : Nat} (hn : 2 ≤ n) (hM : 0 < M) (hd : n ∣ M) (h2 : 2 ∣ M) {ε : ℚ} (hε : 0 < ε) :
    ∃ K0 : Nat, ∀ K ≥ K0, ∃ r, (Gen.singlyStructure n K).Prob M (Gen.Sampled srt) r ∧ 1 - ε < r ∧ r ≤ 1 := by
  obtain ⟨K0, hK⟩ := Gen.mean_large hn (p := Gen.Sampled srt) (fun g hg hs => by
    refine Gen.sampled_transitive srt hg.toInv (Gen.sinv_acyclic hg) ?_
    obtain ⟨c, _, hE⟩ := hs
    intro x hx y hy z hz h1 h3
    simp only [hE] at h1 h3 ⊢
    by_cases hxc : x = c <;> by_cases hyc : y = c <;> by_cases hzc : z = c <;> simp_all <;> omega) hε
  exact ⟨K0, fun K h => ⟨_, Gen.prob_singly hM hn hd h2 K _, hK K h⟩⟩

/-- five nodes, numbers drawn from 0 … 9: from some number of iterations on, more than 99 % of the networks can be sampled -/
example : ∃ K0 : Nat, ∀ K ≥ K0, ∃ r, (Gen.singlyStructure (5 : Nat) K).Prob 10 (Gen.Sampled (cpython _)) r ∧ 99 / 100 < r := by
  obtain ⟨K0, h⟩ := c111_singly (cpython _) (n := 5) (M := 10) (by norm_num) (by norm_num) (by norm_num) (by norm_num) (ε := 1 / 100) (by norm_num)
  refine ⟨K0, fun K hK => ?_⟩
  obtain ⟨r, h1, h2, _⟩ := h K hK
  exact ⟨r, h1, by linarith⟩

/-- the path `1 → 2 → … → n-1 → 0` -/
def turnedPath (n : Nat) : Finset (Fin n × Fin n) := Finset.univ.filter (fun e => (1 ≤ (e.1 : Nat) ∧ (e.1 : Nat) + 1 = e.2) ∨ ((e.1 : Nat) + 1 = n ∧ (e.2 : Nat) = 0 ∧ 1 < n))

theorem mem_turnedPath {n : Nat} {a b : Fin n} : (a, b) ∈ turnedPath n ↔ (1 ≤ (a : Nat) ∧ (a : Nat) + 1 = b) ∨ ((a : Nat) + 1 = n ∧ (b : Nat) = 0 ∧ 1 < n) := by
  simp [turnedPath]

theorem turnedPath_good {n : Nat} (hn : 3 ≤ n) : NoCycle (turnedPath n) ∧ AllJoined (turnedPath n) := by
  constructor
  · refine DagWalk.noCycle_of_lt (ρ := fun a => if h : (a : Nat) = 0 then ⟨n - 1, by omega⟩ else ⟨a - 1, by omega⟩) ?_
    intro a b h
    rw [mem_turnedPath] at h
    simp only [Fin.lt_def]
    split <;> split <;> simp only <;> omega
  · have h0 : ∀ (k : Nat) (hk : k < n), 1 ≤ k → Relation.ReflTransGen (fun a b => (a, b) ∈ turnedPath n ∨ (b, a) ∈ turnedPath n) ⟨1, by omega⟩ ⟨k, hk⟩ := by
      intro k
      induction k with
      | zero => intro _ h; omega
      | succ k ih =>
        intro hk _
        by_cases hk0 : k = 0
        · subst hk0; exact .refl
        · exact (ih (by omega) (by omega)).tail (Or.inl (mem_turnedPath.2 (Or.inl ⟨by simp only; omega, rfl⟩)))
    have h1 : ∀ x : Fin n, Relation.ReflTransGen (fun a b => (a, b) ∈ turnedPath n ∨ (b, a) ∈ turnedPath n) ⟨1, by omega⟩ x := by
      intro x
      by_cases hx : (x : Nat) = 0
      · refine (h0 (n - 1) (by omega) (by omega)).tail (Or.inl (mem_turnedPath.2 (Or.inr ⟨by simp only; omega, hx, by omega⟩)))
      · exact h0 x x.2 (by omega)
    have hs : ∀ {x y : Fin n}, Relation.ReflTransGen (fun a b => (a, b) ∈ turnedPath n ∨ (b, a) ∈ turnedPath n) x y →
        Relation.ReflTransGen (fun a b => (a, b) ∈ turnedPath n ∨ (b, a) ∈ turnedPath n) y x := by
      intro x y h
      induction h with
      | refl => exact .refl
      | tail _ h ih =>
        refine Relation.ReflTransGen.head ?_ ih
        exact h.symm
    exact fun x y => (hs (h1 x)).trans (h1 y)

theorem turnedPath_unsampled {n : Nat} (hn : 3 ≤ n) {g : DiG Int} (hg : Gen.Inv n g) (hac : g.Acyclic) (h : g.Has (turnedPath n)) :
    Gen.Unsampled (cpython _) g := by
  refine Gen.unsampled_descending hg hac (a := ((n - 1 : Nat) : Int)) (b := 0) ?_ ?_ (by omega)
  · intro i hi
    obtain ⟨h1, h2⟩ := hg.wf _ hi
    rw [hg.nodes] at h1 h2
    obtain ⟨a, ha⟩ := Gen.fin_of_mem h1
    obtain ⟨b, hb⟩ := Gen.fin_of_mem h2
    simp only at ha hb
    have hm : (a, b) ∈ turnedPath n := (h a b).1 (by rw [← ha, ← hb]; exact hi)
    rw [mem_turnedPath] at hm
    omega
  · exact (h ⟨n - 1, by omega⟩ ⟨0, by omega⟩).2 (mem_turnedPath.2 (Or.inr ⟨by simp only; omega, rfl, by omega⟩))

theorem Gen.mean_multi_le {n : Nat} {p q : DiG Int → Prop} (h : ∀ g, Gen.Inv n g → g.Acyclic → p g → q g) (K : Nat) :
    Walk.mean (Gen.turned (n := n)) K (fun g => if p g then (1 : ℚ) else 0) (Gen.simpleOrderedTree n) ≤
      Walk.mean (Gen.turned (n := n)) K (fun g => if q g then (1 : ℚ) else 0) (Gen.simpleOrderedTree n) := by
  refine Walk.mean_mono (X := fun g => Gen.Inv n g ∧ g.Acyclic)
    (fun q g hg => ⟨(Gen.turned_spec q hg.1 hg.2).2.1, (Gen.turned_spec q hg.1 hg.2).2.2.1⟩) ?_ K ⟨Gen.tree_inv, Gen.tree_acyclic⟩
  rintro g ⟨h1, h2⟩
  by_cases hp : p g
  · rw [if_pos hp, if_pos (h g h1 h2 hp)]
  · rw [if_neg hp]; split <;> norm_num

/-- **C111** is false: for three nodes or more `generate_multi_bbn` returns a network whose sampler raises `KeyError` on every draw with a probability
that, for many iterations, is at least (up to any `ε`) one over the number of connected acyclic structures (with CPython's sort, which leaves the nodes
of these networks in the order of their ids) -/
theorem c111_false {n M : Nat} (hn : 3 ≤ n) (hM : 0 < M) (hd : n ∣ M) {ε : ℚ} (hε : 0 < ε) :
    ∃ K0 : Nat, ∀ K ≥ K0, ∃ r, (Gen.multiStructure n K).Prob M (Gen.Unsampled (cpython _)) r ∧ 1 / ((connDags n).card : ℚ) - ε < r := by
  obtain ⟨K0, hK⟩ := c94_uniform_partial hn hM hd (turnedPath_good hn) hε
  refine ⟨K0, fun K h => ⟨_, Gen.prob_multi_of hM (by omega) hd K _, ?_⟩⟩
  obtain ⟨r, hr, hlt⟩ := hK K h
  have e := TendsTo.unique hr (Gen.prob_multi_of hM (by omega) hd K (fun g => g.Has (turnedPath n)))
  have := Gen.mean_multi_le (n := n) (p := fun g => g.Has (turnedPath n)) (q := Gen.Unsampled (cpython _))
    (fun g h1 h2 h3 => turnedPath_unsampled hn h1 h2 h3) K
  rw [← e] at this
  rw [abs_lt] at hlt
  refine lt_of_lt_of_le ?_ this
  linarith

/-- two draws: a singly-connected structure (`2 → 0 → 1`, after one iteration) and a multi-connected one (`1 → 2 → 0`, after six) that cannot be sampled -/
example : (∃ g rest, Gen.singlyStructure 3 1 [0, 2, 0] = .done g rest ∧ Gen.Unsampled (cpython _) g) ∧
    ∃ g rest, Gen.multiStructure 3 6 [0, 2, 0, 1, 1, 0, 0, 2, 2, 0, 1, 0] = .done g rest ∧ Gen.Unsampled (cpython _) g := by
  have key : ∀ {α : Type} {x : Run α} {a : α}, x.result = some a → ∃ rest, x = .done a rest := by
    intro α x a h
    cases x with
    | done b rest => simp only [Run.result, Option.some.injEq] at h; subst h; exact ⟨rest, rfl⟩
    | raised e => cases h
    | waiting => cases h
  have e1 : (Gen.singlyStructure 3 1 [0, 2, 0]).result.map (fun g => (g.nodes, g.edges)) = some ([0, 1, 2], [(0, 1), (2, 0)]) := by decide +kernel
  have e2 : (Gen.multiStructure 3 6 [0, 2, 0, 1, 1, 0, 0, 2, 2, 0, 1, 0]).result.map (fun g => (g.nodes, g.edges)) = some ([0, 1, 2], [(1, 2), (2, 0)]) := by
    decide +kernel
  constructor
  · obtain ⟨g, hg, he⟩ := Option.map_eq_some_iff.1 e1
    obtain ⟨rest, hr⟩ := key hg
    have hs := ((Gen.always_singly (n := 3) (by norm_num) 1) [0, 2, 0]).2 g rest hr
    have hE : g.edges = [(0, 1), (2, 0)] := (Prod.mk.inj he).2
    refine ⟨g, rest, hr, Gen.unsampled_descending hs.toInv (Gen.sinv_acyclic hs) (a := 2) (b := 0) ?_ ?_ (by norm_num)⟩
    · intro i hi
      unfold DiG.E at hi
      rw [hE] at hi
      simp at hi
      omega
    · unfold DiG.E; rw [hE]; simp
  · obtain ⟨g, hg, he⟩ := Option.map_eq_some_iff.1 e2
    obtain ⟨rest, hr⟩ := key hg
    have hs := ((Gen.always_multi (n := 3) (by norm_num) 6) _).2 g rest hr
    have hE : g.edges = [(1, 2), (2, 0)] := (Prod.mk.inj he).2
    refine ⟨g, rest, hr, Gen.unsampled_descending hs.1 hs.2 (a := 2) (b := 0) ?_ ?_ (by norm_num)⟩
    · intro i hi
      unfold DiG.E at hi
      rw [hE] at hi
      simp at hi
      omega
    · unfold DiG.E; rw [hE]; simp

/-! ### three nodes -/

theorem Gen.edge3_iff {g : DiG Int} (hg : Gen.Inv 3 g) {E : Finset (Fin 3 × Fin 3)} (h : g.Has E) (a b : Int) : Gen.edge3 E a b = true ↔ g.E a b := by
  unfold Gen.edge3
  rw [decide_eq_true_eq]
  constructor
  · rintro ⟨i, j, hij, rfl, rfl⟩
    exact (h i j).2 hij
  · intro hab
    obtain ⟨h1, h2⟩ := hg.wf _ hab
    rw [hg.nodes] at h1 h2
    obtain ⟨i, hi⟩ := Gen.fin_of_mem (n := 3) h1
    obtain ⟨j, hj⟩ := Gen.fin_of_mem (n := 3) h2
    simp only at hi hj
    exact ⟨i, j, (h i j).1 (by rw [← hi, ← hj]; exact hab), hi, hj⟩

/-- with three nodes, exactly the structures `2 → 0 → 1` and `1 → 2 → 0` cannot be sampled -/
theorem Gen.three_kinds {g : DiG Int} (hg : Gen.Inv 3 g) (hac : g.Acyclic) :
    (Gen.Unsampled (cpython _) g ↔ g.Has (n := 3) {(2, 0), (0, 1)} ∨ g.Has (n := 3) {(1, 2), (2, 0)}) ∧
    (Gen.Sampled (cpython _) g ↔ ¬ Gen.Unsampled (cpython _) g) := by
  have hE : g.Has (Gen.edgeSet 3 g) := Gen.has_iff.2 rfl
  have h1 : Gen.noCycle3 (Gen.edgeSet 3 g) = true := (Gen.noCycle3_iff _).2 ((Gen.noCycle_iff (n := 3) hg.nodes hg.wf).2 hac)
  have h2 : Gen.joined3 (Gen.edgeSet 3 g) = true := (Gen.joined3_iff _).2 ((Gen.joins_iff (n := 3) hg.nodes hg.wf).2 hg.conn)
  have h3 := Gen.topo3_iff _ h1 h2
  have he := Gen.edge3_iff hg hE
  have hb : ∀ a b, g.E a b → ∃ i j : Fin 3, (i, j) ∈ Gen.edgeSet 3 g ∧ a = ((i : Nat) : Int) ∧ b = ((j : Nat) : Int) := by
    intro a b hab
    have := (he a b).2 hab
    unfold Gen.edge3 at this
    exact of_decide_eq_true this
  have hS : Gen.topo3 (Gen.edgeSet 3 g) = true → Gen.Sampled (cpython _) g := by
    intro ht
    unfold Gen.topo3 at ht
    have ht := of_decide_eq_true ht
    refine Gen.sampled_of hg hac he ?_
    intro a b hab
    obtain ⟨i, j, hij, rfl, rfl⟩ := hb a b hab
    exact ht (i, j) hij
  have hU : ¬ Gen.topo3 (Gen.edgeSet 3 g) = true → Gen.Unsampled (cpython _) g := by
    intro ht
    unfold Gen.topo3 at ht
    rw [decide_eq_true_eq] at ht
    push Not at ht
    obtain ⟨⟨i, j⟩, hij, hlt⟩ := ht
    exact Gen.unsampled_of hg hac he ⟨_, _, (hE i j).2 hij, not_lt.2 hlt⟩
  have hiff : (g.Has (n := 3) {(2, 0), (0, 1)} ∨ g.Has (n := 3) {(1, 2), (2, 0)}) ↔ ¬ Gen.topo3 (Gen.edgeSet 3 g) = true := by
    rw [h3, not_not, Gen.has_iff, Gen.has_iff]
  rw [hiff]
  refine ⟨⟨fun h ht => Gen.sampled_unsampled (hS ht) h, hU⟩, ⟨fun h h' => Gen.sampled_unsampled h h', fun h => ?_⟩⟩
  by_contra hc
  exact h (hU (fun ht => hc (hS ht)))

theorem connDags_three : (connDags 3).card = 18 := by
  rw [← Gen.card3]
  congr 1
  ext E
  simp only [connDags, Finset.mem_filter, Finset.mem_univ, true_and, Gen.noCycle3_iff, Gen.joined3_iff]

/-- **C111**: with three nodes, in the limit of many iterations, exactly one in nine networks of `generate_multi_bbn` cannot be sampled, and the others
are sampled correctly -/
theorem c111_three {M : Nat} (hM : 0 < M) (hd : 3 ∣ M) {ε : ℚ} (hε : 0 < ε) : ∃ K0 : Nat, ∀ K ≥ K0,
    (∃ r, (Gen.multiStructure 3 K).Prob M (Gen.Unsampled (cpython _)) r ∧ |r - 1 / 9| < ε) ∧
    ∃ r, (Gen.multiStructure 3 K).Prob M (Gen.Sampled (cpython _)) r ∧ |r - 8 / 9| < ε := by
  have g1 : NoCycle (n := 3) {(2, 0), (0, 1)} ∧ AllJoined (n := 3) {(2, 0), (0, 1)} := by
    rw [← Gen.noCycle3_iff, ← Gen.joined3_iff]
    constructor <;> rfl
  have g2 : NoCycle (n := 3) {(1, 2), (2, 0)} ∧ AllJoined (n := 3) {(1, 2), (2, 0)} := by
    rw [← Gen.noCycle3_iff, ← Gen.joined3_iff]
    constructor <;> rfl
  obtain ⟨K1, hK1⟩ := c94_uniform_partial (n := 3) (le_refl _) hM hd g1 (half_pos hε)
  obtain ⟨K2, hK2⟩ := c94_uniform_partial (n := 3) (le_refl _) hM hd g2 (half_pos hε)
  rw [connDags_three] at hK1 hK2
  refine ⟨max K1 K2, fun K h => ?_⟩
  obtain ⟨r1, hr1, l1⟩ := hK1 K (le_trans (le_max_left _ _) h)
  obtain ⟨r2, hr2, l2⟩ := hK2 K (le_trans (le_max_right _ _) h)
  have e1 := TendsTo.unique hr1 (Gen.prob_multi_of (n := 3) hM (by norm_num) hd K _)
  have e2 := TendsTo.unique hr2 (Gen.prob_multi_of (n := 3) hM (by norm_num) hd K _)
  have hq : Nonempty (Gen.Pair 3) := ⟨⟨(0, 1), by decide⟩⟩
  have hsum : Walk.mean (Gen.turned (n := 3)) K (fun g => if Gen.Unsampled (cpython _) g then (1 : ℚ) else 0) (Gen.simpleOrderedTree ((3 : Nat) : Int)) = r1 + r2 := by
    rw [e1, e2, ← Walk.mean_plus]
    refine Walk.mean_congr (X := fun g => Gen.Inv ((3 : Nat) : Int) g ∧ g.Acyclic)
      (fun q g hg => ⟨(Gen.turned_spec q hg.1 hg.2).2.1, (Gen.turned_spec q hg.1 hg.2).2.2.1⟩) ?_ K ⟨Gen.tree_inv, Gen.tree_acyclic⟩
    rintro g ⟨h1, h2⟩
    have hk := (Gen.three_kinds h1 h2).1
    have hdis : ¬ (g.Has (n := 3) {(2, 0), (0, 1)} ∧ g.Has (n := 3) {(1, 2), (2, 0)}) := by
      rintro ⟨a1, a2⟩
      have := (Gen.has_iff.1 a1).symm.trans (Gen.has_iff.1 a2)
      revert this
      decide
    by_cases a1 : g.Has (n := 3) {(2, 0), (0, 1)} <;> by_cases a2 : g.Has (n := 3) {(1, 2), (2, 0)} <;> simp_all
  have hcomp : Walk.mean (Gen.turned (n := 3)) K (fun g => if Gen.Sampled (cpython _) g then (1 : ℚ) else 0) (Gen.simpleOrderedTree ((3 : Nat) : Int)) = 1 - (r1 + r2) := by
    have h3 : Walk.mean (Gen.turned (n := 3)) K (fun g => (if Gen.Sampled (cpython _) g then (1 : ℚ) else 0) + (if Gen.Unsampled (cpython _) g then (1 : ℚ) else 0))
        (Gen.simpleOrderedTree ((3 : Nat) : Int)) = 1 := by
      refine Eq.trans ?_ (Walk.mean_const (step := Gen.turned (n := 3)) 1 K (Gen.simpleOrderedTree ((3 : Nat) : Int)))
      refine Walk.mean_congr (X := fun g => Gen.Inv ((3 : Nat) : Int) g ∧ g.Acyclic)
        (fun q g hg => ⟨(Gen.turned_spec q hg.1 hg.2).2.1, (Gen.turned_spec q hg.1 hg.2).2.2.1⟩) ?_ K ⟨Gen.tree_inv, Gen.tree_acyclic⟩
      rintro g ⟨h1, h2⟩
      have hk := (Gen.three_kinds h1 h2).2
      by_cases a1 : Gen.Unsampled (cpython _) g
      · rw [if_pos a1, if_neg (fun hs => hk.1 hs a1)]; norm_num
      · rw [if_neg a1, if_pos (hk.2 a1)]; norm_num
    rw [Walk.mean_plus, hsum] at h3
    linarith
  rw [abs_lt] at l1 l2
  push_cast at l1 l2
  refine ⟨⟨_, Gen.prob_multi_of (n := 3) hM (by norm_num) hd K _, ?_⟩, ⟨_, Gen.prob_multi_of (n := 3) hM (by norm_num) hd K _, ?_⟩⟩
  · rw [hsum, abs_lt]
    constructor <;> linarith
  · rw [hcomp, abs_lt]
    constructor <;> linarith

end PyBBN
