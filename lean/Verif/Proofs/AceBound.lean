import Verif.Proofs.Adjust
import Verif.Proofs.SampleGrid

/-! Averages of numbers between 0 and 1 under two distributions. -/

namespace PyBBN
open Relation

/-- a product of distributions is a distribution -/
theorem sum_product_one {f : Variable → Str → ℚ} : ∀ (Z : List Variable), (vids Z).Nodup → (∀ z ∈ Z, (z.values.map (f z)).sum = 1) →
    ((allAsg Z).map (fun τ => (Z.map (fun z => f z (τ z.id))).prod)).sum = 1
  | [], _, _ => by simp [allAsg]
  | z :: Z, hn, h => by
      rw [vids_cons, List.nodup_cons] at hn
      rw [sum_allAsg_cons]
      have key : ∀ σ : Asg, (z.values.map (fun x => ((z :: Z).map (fun w => f w (Function.update σ z.id x w.id))).prod)).sum =
          (Z.map (fun w => f w (σ w.id))).prod := by
        intro σ
        have : ∀ x, ((z :: Z).map (fun w => f w (Function.update σ z.id x w.id))).prod = f z x * (Z.map (fun w => f w (σ w.id))).prod := by
          intro x
          rw [List.map_cons, List.prod_cons, Function.update_self]
          congr 2
          apply List.map_congr_left
          intro w hw
          rw [Function.update_of_ne]
          intro e
          exact hn.1 (e ▸ List.mem_map_of_mem hw)
        simp only [this]
        rw [List.sum_map_mul_right, h z List.mem_cons_self, one_mul]
      simp only [key]
      exact sum_product_one Z hn.2 (fun w hw => h w (List.mem_cons_of_mem _ hw))

/-- averages of numbers between 0 and 1 differ by no more than half the sum of the differences of the weights -/
theorem averages_near {α : Type} (l : List α) {p q r : α → ℚ} (hp : ∀ a ∈ l, 0 ≤ p a ∧ p a ≤ 1)
    (hq : (l.map q).sum = (l.map r).sum) :
    |(l.map (fun a => p a * q a)).sum - (l.map (fun a => p a * r a)).sum| ≤ (l.map (fun a => |q a - r a|)).sum / 2 := by
  have e : (l.map (fun a => p a * q a)).sum - (l.map (fun a => p a * r a)).sum =
      (l.map (fun a => (p a - 1 / 2) * (q a - r a))).sum := by
    have : ∀ m : List α, (m.map (fun a => (p a - 1 / 2) * (q a - r a))).sum =
        (m.map (fun a => p a * q a)).sum - (m.map (fun a => p a * r a)).sum - 1 / 2 * ((m.map q).sum - (m.map r).sum) := by
      intro m
      induction m with
      | nil => simp
      | cons a m ih => simp only [List.map_cons, List.sum_cons, ih]; ring
    rw [this l, hq]; ring
  rw [e]
  clear e hq
  induction l with
  | nil => simp
  | cons a l ih =>
    simp only [List.map_cons, List.sum_cons]
    have h1 := ih (fun b hb => hp b (List.mem_cons_of_mem _ hb))
    have h2 := hp a List.mem_cons_self
    have h3 : |(p a - 1 / 2) * (q a - r a)| ≤ |q a - r a| / 2 := by
      rw [abs_mul]
      have : |p a - 1 / 2| ≤ 1 / 2 := abs_le.2 ⟨by linarith, by linarith⟩
      have := mul_le_mul_of_nonneg_right this (abs_nonneg (q a - r a))
      linarith
    have := abs_add_le ((p a - 1 / 2) * (q a - r a)) ((l.map (fun a => (p a - 1 / 2) * (q a - r a))).sum)
    linarith

section
variable {b : Bbn}

theorem prGiven_bounds (wf : b.WF) (E F : Asg → Bool) : 0 ≤ b.prGiven E F ∧ b.prGiven E F ≤ 1 := by
  rw [prGiven_eq wf]
  refine ⟨div_nonneg (weightOf_nonneg wf _) (weightOf_nonneg wf _), ?_⟩
  refine div_le_one_of_le₀ (weightOf_mono wf ?_) (weightOf_nonneg wf _)
  intro σ h
  rw [Bool.and_eq_true] at h
  exact h.2

theorem pr_nonneg (wf : b.WF) (E : Asg → Bool) : 0 ≤ b.pr E := div_nonneg (weightOf_nonneg wf _) (weightOf_nonneg wf _)

/-- the joint values of some nodes have probabilities that sum to one -/
theorem sum_pr_agree (hb : b.Proper) {Z : List Variable} (hZn : (vids Z).Nodup) (hZ : ∀ z ∈ Z, z ∈ b.vars) :
    ((allAsg Z).map (fun τ => b.pr (agree Z τ))).sum = 1 := by
  have htot : b.weightOf (fun _ => true) = 1 := by rw [weightOf_true, total_one hb]
  have hpr : ∀ F : Asg → Bool, b.pr F = b.weightOf F := by
    intro F; unfold Bbn.pr; rw [htot, div_one]
  simp only [hpr, weightOf_eq]
  rw [sum_split hb.inv hb.wf hZn hZ, ← total_one hb]
  rfl

/-- … in particular the values of one node, also together with any event -/
theorem sum_weightOf_at (hb : b.Proper) {z : Variable} (hz : z ∈ b.vars) (F : Asg → Bool) :
    (z.values.map (fun x => b.weightOf (fun σ => isAt z.id x σ && F σ))).sum = b.weightOf F := by
  have h := sum_split hb.inv hb.wf (Z := [z]) (by simp [vids]) (by simpa using hz) (fun σ => (if F σ then 1 else 0) * b.weight noEvidence σ)
  rw [← weightOf_eq] at h
  rw [← h, sum_allAsg_cons]
  simp only [allAsg, List.map_cons, List.map_nil, List.sum_cons, List.sum_nil, add_zero]
  congr 1
  apply List.map_congr_left
  intro x _
  rw [weightOf_eq]
  congr 1
  apply List.map_congr_left
  intro σ _
  rw [show agree [z] _ σ = isAt z.id x σ from by unfold agree isAt; simp]
  by_cases h1 : isAt z.id x σ = true <;> by_cases h2 : F σ = true <;> simp [h1, h2]

end
end PyBBN
