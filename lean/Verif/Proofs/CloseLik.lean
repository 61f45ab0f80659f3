import Verif.Proofs.Close
import Verif.Props.Ratios

/-! # Nearly the same likelihoods -/

namespace PyBBN

section
variable {κ : Int → ℚ} {b : Bbn}

/-- posterior probabilities for likelihoods that agree up to factors -/
theorem close_lik_posterior (hi : BbnInv b) (wf : b.WF) {ℓ ℓ' : Liks} (hκ : ∀ v ∈ b.vars, 1 ≤ κ v.id)
    (hl : ∀ v ∈ b.vars, ∀ x ∈ v.values, 0 ≤ ℓ v.id x ∧ 0 ≤ ℓ' v.id x ∧ UpTo (κ v.id) (ℓ v.id x) (ℓ' v.id x)) (i : Int) (x : Str) {k : ℚ}
    (hk : k = (b.vars.map (fun v => κ v.id)).prod) :
    UpTo (k * k) (b.posterior ℓ i x * (1 - b.posterior ℓ' i x)) (b.posterior ℓ' i x * (1 - b.posterior ℓ i x)) ∧
      |b.posterior ℓ' i x - b.posterior ℓ i x| ≤ (k - 1) / (k + 1) := by
  have hk' : k = (b.toGraph.getNodes.map (fun n => κ n.var.id)).prod := by
    rw [hk]; unfold Bbn.vars; rw [List.map_map]; rfl
  have hrefl : List.Forall₂ (fun n n' => n ∈ b.toGraph.getNodes ∧ n' = n) b.toGraph.getNodes b.toGraph.getNodes :=
    List.forall₂_same.2 (fun n hn => ⟨hn, rfl⟩)
  have hw : ∀ σ ∈ allAsg b.vars, 1 ≤ k ∧ UpTo k (b.weight ℓ σ) (b.weight ℓ' σ) ∧ 0 ≤ b.weight ℓ σ ∧ 0 ≤ b.weight ℓ' σ := by
    intro σ hσ
    have hd := allAsg_mem_dom b.vars (vars_nodup hi) σ hσ
    rw [hk']
    unfold Bbn.weight
    refine prod_upTo (κ := fun n => κ n.var.id) (f := fun n => cptAt n.probs (b.parentVars n.var.id) n.var σ * ℓ n.var.id (σ n.var.id))
      (g := fun n => cptAt n.probs (b.parentVars n.var.id) n.var σ * ℓ' n.var.id (σ n.var.id)) ?_ hrefl
    rintro n n2 ⟨hn, he⟩; subst n2
    have hv : n.var ∈ b.vars := List.mem_map.2 ⟨n, hn, rfl⟩
    obtain ⟨h1, h2, h3⟩ := hl n.var hv _ (hd n.var hv)
    have hf : 0 ≤ cptAt n.probs (b.parentVars n.var.id) n.var σ := Bbn.w_nonneg wf hn σ
    refine ⟨mul_nonneg hf h1, mul_nonneg hf h2, hκ _ hv, ?_, ?_⟩
    · calc _ ≤ _ := mul_le_mul_of_nonneg_left h3.1 hf
        _ = _ := by ring
    · calc _ ≤ _ := mul_le_mul_of_nonneg_left h3.2 hf
        _ = _ := by ring
  have hk1 : 1 ≤ k := by
    rw [hk']
    exact (prod_upTo (κ := fun n : BbnNode => κ n.var.id) (f := fun _ => 1) (g := fun _ : BbnNode => 1)
      (by rintro n n2 ⟨hn, he⟩; subst n2; have := hκ _ (List.mem_map.2 ⟨n, hn, rfl⟩ : n.var ∈ b.vars); exact ⟨by norm_num, by norm_num, this, by simpa [UpTo] using this⟩) hrefl).1
  let A : Liks → ℚ := fun c => (((allAsg b.vars).filter (fun σ => decide (σ i = x))).map (b.weight c)).sum
  let B : Liks → ℚ := fun c => (((allAsg b.vars).filter (fun σ => !decide (σ i = x))).map (b.weight c)).sum
  have e : ∀ c, b.posterior c i x = A c / (A c + B c) := by
    intro c
    have hsplit : ((allAsg b.vars).map (b.weight c)).sum = A c + B c := by
      change _ = (((allAsg b.vars).filter _).map _).sum + (((allAsg b.vars).filter _).map _).sum
      rw [← List.sum_append, ← List.map_append]
      exact (((List.filter_append_perm _ _).map _).sum_eq).symm
    rw [← hsplit]
    unfold Bbn.posterior Bbn.mass Bbn.total
    rfl
  have nn : ∀ (p : Asg → Bool) (c : Liks), (∀ σ ∈ allAsg b.vars, 0 ≤ b.weight c σ) → 0 ≤ (((allAsg b.vars).filter p).map (b.weight c)).sum := by
    intro p c hc
    refine List.sum_nonneg ?_
    intro y hy
    obtain ⟨σ, hσ, rfl⟩ := List.mem_map.1 hy
    exact hc σ (List.mem_filter.1 hσ).1
  have a0 : 0 ≤ A ℓ := nn _ _ (fun σ hσ => (hw σ hσ).2.2.1)
  have b0 : 0 ≤ B ℓ := nn _ _ (fun σ hσ => (hw σ hσ).2.2.1)
  have a0' : 0 ≤ A ℓ' := nn _ _ (fun σ hσ => (hw σ hσ).2.2.2)
  have b0' : 0 ≤ B ℓ' := nn _ _ (fun σ hσ => (hw σ hσ).2.2.2)
  have ho := fraction_odds a0 b0 a0' b0' hk1 (sum_upTo _ (fun σ hσ => (hw σ (List.mem_filter.1 hσ).1).2.1))
    (sum_upTo _ (fun σ hσ => (hw σ (List.mem_filter.1 hσ).1).2.1))
  have le1 : ∀ {p q : ℚ}, 0 ≤ p → 0 ≤ q → 0 ≤ p / (p + q) ∧ p / (p + q) ≤ 1 := fun hp hq =>
    ⟨div_nonneg hp (add_nonneg hp hq), div_le_one_of_le₀ (by linarith) (add_nonneg hp hq)⟩
  rw [e ℓ, e ℓ']
  refine ⟨ho, abs_sub_le_iff.2 ⟨?_, ?_⟩⟩
  · exact diff_of_odds hk1 (le1 a0 b0).1 (le1 a0' b0').2 ho.2
  · exact diff_of_odds hk1 (le1 a0' b0').1 (le1 a0 b0).2 ho.1

end

end PyBBN
