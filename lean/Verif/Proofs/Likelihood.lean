import Verif.Spec.Likelihood
import Verif.Proofs.LearnFrame
import Verif.Proofs.Markov
import Verif.Proofs.FromData
import Mathlib.Analysis.SpecialFunctions.Exp
import Mathlib.Algebra.BigOperators.Group.Finset.Basic
import Mathlib.Algebra.Order.BigOperators.Group.List

/-! # Gibbs' inequality for lists, and counting -/

namespace PyBBN

/-- products of numbers whose average is at most one -/
theorem prod_le_one_of_sum {ρ : Type} (x : ρ → ℝ) : ∀ (R : List ρ), (∀ r ∈ R, 0 ≤ x r) →
    (R.map x).prod ≤ Real.exp ((R.map x).sum - R.length) ∧
      ((∀ r ∈ R, 0 < x r) → (∃ r ∈ R, x r ≠ 1) → (R.map x).prod < Real.exp ((R.map x).sum - R.length))
  | [], _ => by simp
  | r :: R, h => by
      obtain ⟨h1, h2⟩ := prod_le_one_of_sum x R (fun s hs => h s (List.mem_cons_of_mem _ hs))
      have hr := h r List.mem_cons_self
      have he : Real.exp (((r :: R).map x).sum - (r :: R).length) = Real.exp (x r - 1) * Real.exp ((R.map x).sum - R.length) := by
        rw [← Real.exp_add]
        congr 1
        simp only [List.map_cons, List.sum_cons, List.length_cons, Nat.cast_add, Nat.cast_one]
        ring
      have hx : x r ≤ Real.exp (x r - 1) := by
        have := Real.add_one_le_exp (x r - 1)
        linarith
      rw [he, List.map_cons, List.prod_cons]
      refine ⟨mul_le_mul hx h1 (List.prod_nonneg (by
        intro y hy
        obtain ⟨s, hs, rfl⟩ := List.mem_map.1 hy
        exact h s (List.mem_cons_of_mem _ hs))) (Real.exp_pos _).le, ?_⟩
      intro hpos hne
      have hpp : 0 < (R.map x).prod := List.prod_pos (by
        intro y hy
        obtain ⟨s, hs, rfl⟩ := List.mem_map.1 hy
        exact hpos s (List.mem_cons_of_mem _ hs))
      obtain ⟨s, hs, hs1⟩ := hne
      rcases List.mem_cons.1 hs with rfl | hs
      · have hlt : x s < Real.exp (x s - 1) := by
          have := Real.add_one_lt_exp (x := x s - 1) (sub_ne_zero.2 hs1)
          linarith
        exact mul_lt_mul hlt h1 hpp (Real.exp_pos _).le
      · exact mul_lt_mul' hx (h2 (fun t ht => hpos t (List.mem_cons_of_mem _ ht)) ⟨s, hs, hs1⟩) hpp.le (Real.exp_pos _)

theorem cast_prod {ρ : Type} (x : ρ → ℚ) (R : List ρ) : (((R.map x).prod : ℚ) : ℝ) = (R.map (fun r => (x r : ℝ))).prod := by
  induction R with
  | nil => simp
  | cons r R ih => simp only [List.map_cons, List.prod_cons, Rat.cast_mul, ih]

theorem cast_sum {ρ : Type} (x : ρ → ℚ) (R : List ρ) : (((R.map x).sum : ℚ) : ℝ) = (R.map (fun r => (x r : ℝ))).sum := by
  induction R with
  | nil => simp
  | cons r R ih => simp only [List.map_cons, List.sum_cons, Rat.cast_add, ih]

theorem prod_div {ρ : Type} (p q : ρ → ℚ) (R : List ρ) : (R.map (fun r => q r / p r)).prod = (R.map q).prod / (R.map p).prod := by
  induction R with
  | nil => simp
  | cons r R ih => simp only [List.map_cons, List.prod_cons, ih, div_mul_div_comm]

/-- Gibbs' inequality: if the ratios `q / p` are one on average, then the product of `q` is at most that of `p`, and equal only if `q = p` -/
theorem gibbs {ρ : Type} {R : List ρ} {p q : ρ → ℚ} (hp : ∀ r ∈ R, 0 < p r) (hq : ∀ r ∈ R, 0 ≤ q r)
    (hs : (R.map (fun r => q r / p r)).sum ≤ R.length) :
    (R.map q).prod ≤ (R.map p).prod ∧ ((R.map q).prod = (R.map p).prod → ∀ r ∈ R, q r = p r) := by
  have hpp : 0 < (R.map p).prod := List.prod_pos (by
    intro y hy
    obtain ⟨s, hs, rfl⟩ := List.mem_map.1 hy
    exact hp s hs)
  obtain ⟨h1, h2⟩ := prod_le_one_of_sum (fun r => ((q r / p r : ℚ) : ℝ)) R (by
    intro r hr
    exact_mod_cast div_nonneg (hq r hr) (hp r hr).le)
  rw [← cast_prod, ← cast_sum, prod_div] at h1 h2
  have he : Real.exp ((((R.map (fun r => q r / p r)).sum : ℚ) : ℝ) - R.length) ≤ 1 := by
    rw [← Real.exp_zero]
    apply Real.exp_le_exp.2
    have : (((R.map (fun r => q r / p r)).sum : ℚ) : ℝ) ≤ ((R.length : ℚ) : ℝ) := by exact_mod_cast hs
    rw [Rat.cast_natCast] at this
    linarith
  constructor
  · have h3 : ((R.map q).prod / (R.map p).prod : ℚ) ≤ 1 := by exact_mod_cast h1.trans he
    rwa [div_le_one hpp] at h3
  · intro heq r hr
    by_contra hne
    have hqpos : ∀ s ∈ R, 0 < q s := by
      intro s hs
      rcases (hq s hs).lt_or_eq with h | h
      · exact h
      · exfalso
        have : (R.map q).prod = 0 := List.prod_eq_zero (List.mem_map.2 ⟨s, hs, h.symm⟩)
        rw [heq] at this
        exact hpp.ne' this
    have h3 := lt_of_lt_of_le (h2 (by
      intro s hs
      exact_mod_cast div_pos (hqpos s hs) (hp s hs)) ⟨r, hr, by
        intro h
        have h' : q r / p r = 1 := by exact_mod_cast h
        rw [div_eq_one_iff_eq (hp r hr).ne'] at h'
        exact hne h'⟩) he
    have h4 : ((R.map q).prod / (R.map p).prod : ℚ) < 1 := by exact_mod_cast h3
    rw [heq, div_self hpp.ne'] at h4
    exact lt_irrefl _ h4

/-- conditional probabilities divided by relative frequencies are at most one on average -/
theorem ratio_average {ρ κ ξ : Type} [DecidableEq κ] [DecidableEq ξ] (R : List ρ) (K : ρ → κ) (X : ρ → ξ) (f : κ → ξ → ℚ) (h0 : ∀ r ∈ R, ∀ s ∈ R, 0 ≤ f (K r) (X s))
    (h1 : ∀ r ∈ R, ∑ x ∈ (R.map X).toFinset, f (K r) x ≤ 1) :
    (R.map (fun r => f (K r) (X r) / (((R.countP (fun s => decide (K s = K r ∧ X s = X r)) : Nat) : ℚ) / (R.countP (fun s => decide (K s = K r)) : Nat)))).sum ≤
      R.length := by
  set P := R.map (fun s => (K s, X s)) with hP
  let N : κ × ξ → ℚ := fun m => (R.countP (fun s => decide (K s = m.1 ∧ X s = m.2)) : Nat)
  let M : κ → ℚ := fun k => (R.countP (fun s => decide (K s = k)) : Nat)
  let g : κ × ξ → ℚ := fun m => f m.1 m.2 / (N m / M m.1)
  have e1 : (R.map (fun r => f (K r) (X r) / (((R.countP (fun s => decide (K s = K r ∧ X s = X r)) : Nat) : ℚ) / (R.countP (fun s => decide (K s = K r)) : Nat)))).sum =
      (P.map g).sum := by
    rw [hP, List.map_map]
    rfl
  rw [e1, Finset.sum_list_map_count]
  have key : ∀ m : κ × ξ, ∀ p : κ × ξ → Bool, (∀ x, p x = true ↔ x = m) → ((P.countP p : Nat) : ℚ) = N m := by
    intro m p hp
    simp only [N]
    rw [hP, List.countP_map]
    congr 2
    funext s
    rw [Bool.eq_iff_iff, decide_eq_true_eq, Function.comp_apply, hp, Prod.ext_iff]
  refine le_trans (le_of_eq (Finset.sum_congr rfl (fun m hm => ?_))) (show ∑ m ∈ P.toFinset, f m.1 m.2 * M m.1 ≤ (R.length : ℚ) from ?_)
  · have hc' : N m ≠ 0 := by
      rw [← key m (fun x => decide (x = m)) (by simp)]
      have : 0 < P.countP (fun x => decide (x = m)) := List.countP_pos_iff.2 ⟨m, List.mem_toFinset.1 hm, by simp⟩
      exact_mod_cast this.ne'
    rw [nsmul_eq_mul]
    change ((P.countP (fun x => decide (x = m)) : Nat) : ℚ) * g m = _
    rw [key m _ (fun x => decide_eq_true_iff)]
    simp only [g]
    rw [div_div_eq_mul_div, mul_div_assoc', mul_comm, mul_div_assoc, div_self hc', mul_one]
  have hmem : ∀ m ∈ (R.map K).toFinset ×ˢ (R.map X).toFinset, 0 ≤ f m.1 m.2 * M m.1 := by
    rintro ⟨k, x⟩ hm
    rw [Finset.mem_product, List.mem_toFinset, List.mem_toFinset] at hm
    obtain ⟨r, hr, e⟩ := List.mem_map.1 hm.1
    obtain ⟨s, hs, e'⟩ := List.mem_map.1 hm.2
    simp only at e e'
    subst e e'
    exact mul_nonneg (h0 r hr s hs) (Nat.cast_nonneg _)
  refine (Finset.sum_le_sum_of_subset_of_nonneg (t := (R.map K).toFinset ×ˢ (R.map X).toFinset) ?_ (fun m hm _ => hmem m hm)).trans ?_
  · intro m hm
    rw [List.mem_toFinset, hP] at hm
    obtain ⟨r, hr, rfl⟩ := List.mem_map.1 hm
    rw [Finset.mem_product, List.mem_toFinset, List.mem_toFinset]
    exact ⟨List.mem_map_of_mem hr, List.mem_map_of_mem hr⟩
  · rw [Finset.sum_product]
    have e3 : ((R.length : Nat) : ℚ) = ∑ k ∈ (R.map K).toFinset, M k := by
      have h := List.sum_toFinset_count_eq_length (R.map K)
      rw [List.length_map] at h
      rw [← h, Nat.cast_sum]
      apply Finset.sum_congr rfl
      intro k _
      simp only [M]
      rw [List.count, List.countP_map]
      congr 2
    rw [e3]
    apply Finset.sum_le_sum
    intro k hk
    obtain ⟨r, hr, rfl⟩ := List.mem_map.1 (List.mem_toFinset.1 hk)
    simp only
    rw [← Finset.sum_mul]
    exact mul_le_of_le_one_left (Nat.cast_nonneg _) (h1 r hr)

/-- products of factors: `≤`, and equality only factor by factor -/
theorem prod_le_strict {ι : Type} {p q : ι → ℚ} : ∀ {l : List ι}, (∀ i ∈ l, 0 < p i) → (∀ i ∈ l, 0 ≤ q i) → (∀ i ∈ l, q i ≤ p i) →
    (l.map q).prod ≤ (l.map p).prod ∧ ((l.map q).prod = (l.map p).prod → ∀ i ∈ l, q i = p i)
  | [], _, _, _ => by simp
  | i :: l, hp, hq, hle => by
      obtain ⟨h1, h2⟩ := prod_le_strict (l := l) (fun j hj => hp j (List.mem_cons_of_mem _ hj)) (fun j hj => hq j (List.mem_cons_of_mem _ hj))
        (fun j hj => hle j (List.mem_cons_of_mem _ hj))
      have hpp : 0 < (l.map p).prod := List.prod_pos (by
        intro y hy
        obtain ⟨s, hs, rfl⟩ := List.mem_map.1 hy
        exact hp s (List.mem_cons_of_mem _ hs))
      have hi := hp i List.mem_cons_self
      have hqp : 0 ≤ (l.map q).prod := List.prod_nonneg (by
        intro y hy
        obtain ⟨s, hs, rfl⟩ := List.mem_map.1 hy
        exact hq s (List.mem_cons_of_mem _ hs))
      simp only [List.map_cons, List.prod_cons]
      refine ⟨mul_le_mul (hle i List.mem_cons_self) h1 hqp hi.le, ?_⟩
      intro heq
      have hqi : q i = p i := by
        refine le_antisymm (hle i List.mem_cons_self) ?_
        by_contra hlt
        push Not at hlt
        have : q i * (l.map q).prod < p i * (l.map p).prod :=
          lt_of_le_of_lt (mul_le_mul_of_nonneg_left h1 (hq i List.mem_cons_self)) (mul_lt_mul_of_pos_right hlt hpp)
        rw [heq] at this
        exact lt_irrefl _ this
      rw [hqi] at heq
      have h3 := h2 (mul_left_cancel₀ hi.ne' heq)
      intro j hj
      rcases List.mem_cons.1 hj with rfl | hj
      · exact hqi
      · exact h3 j hj

/-- the order of two products -/
theorem prod_comm {ι κ : Type} (f : ι → κ → ℚ) (l : List ι) (m : List κ) :
    (l.map (fun i => (m.map (f i)).prod)).prod = (m.map (fun k => (l.map (fun i => f i k)).prod)).prod := by
  induction l with
  | nil => simp
  | cons i l ih => simp only [List.map_cons, List.prod_cons, ih, List.prod_map_mul]

end PyBBN
