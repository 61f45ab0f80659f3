import Verif.Proofs.Markov

/-! # Posteriors of a node without evidence below it are averages of CPT entries -/

namespace PyBBN
open Relation

variable {b : Bbn}

/-- without evidence about a node and what descends from it, the likelihoods are a factor of the other nodes -/
theorem evidence_above (hb : b.Proper) {n : BbnNode} {ℓ : Liks} (h0 : ∀ i x, 0 ≤ ℓ i x)
    (hdesc : ∀ w ∈ b.vars, ReflTransGen b.Par n.var.id w.id → ∀ u ∈ w.values, ℓ w.id u = 1) (x : Str) :
    ∃ E : Asg → ℚ, Dep (fun i => ¬ ReflTransGen b.Par n.var.id i) E ∧ (∀ σ, 0 ≤ E σ) ∧
      b.mass ℓ n.var.id x = ((allAsg b.vars).map (fun σ => E σ * isVal n.var.id x σ * b.weight noEvidence σ)).sum ∧
      b.total ℓ = ((allAsg b.vars).map (fun σ => E σ * b.weight noEvidence σ)).sum ∧
      ∀ σ ∈ allAsg b.vars, b.weight ℓ σ = E σ * b.weight noEvidence σ := by
  classical
  set E : Asg → ℚ := fun σ => (b.toGraph.getNodes.map (fun m =>
    if ReflTransGen b.Par n.var.id m.var.id then 1 else ℓ m.var.id (σ m.var.id))).prod with hE
  have hEdep : Dep (fun i => ¬ ReflTransGen b.Par n.var.id i) E := by
    intro σ τ' hst
    show (b.toGraph.getNodes.map _).prod = (b.toGraph.getNodes.map _).prod
    congr 1
    apply List.map_congr_left
    intro m _
    by_cases h : ReflTransGen b.Par n.var.id m.var.id
    · simp [h]
    · simp only [h, if_false]
      rw [hst m.var.id h]
  have hw : ∀ σ ∈ allAsg b.vars, b.weight ℓ σ = E σ * b.weight noEvidence σ := by
    intro σ hσ
    have hdom := allAsg_mem_dom b.vars (vars_nodup hb.inv) σ hσ
    show (b.toGraph.getNodes.map _).prod = (b.toGraph.getNodes.map _).prod * (b.toGraph.getNodes.map _).prod
    have key : ∀ l : List BbnNode, (∀ m ∈ l, m ∈ b.toGraph.getNodes) →
        (l.map (fun m => cptAt m.probs (b.parentVars m.var.id) m.var σ * ℓ m.var.id (σ m.var.id))).prod =
          (l.map (fun m => if ReflTransGen b.Par n.var.id m.var.id then 1 else ℓ m.var.id (σ m.var.id))).prod *
          (l.map (fun m => cptAt m.probs (b.parentVars m.var.id) m.var σ * noEvidence m.var.id (σ m.var.id))).prod := by
      intro l
      induction l with
      | nil => simp
      | cons m l ih =>
        intro hl
        have hm : m.var ∈ b.vars := List.mem_map_of_mem (hl m List.mem_cons_self)
        simp only [List.map_cons, List.prod_cons, ih (fun k hk => hl k (List.mem_cons_of_mem _ hk))]
        by_cases h : ReflTransGen b.Par n.var.id m.var.id
        · rw [if_pos h, hdesc m.var hm h _ (hdom m.var hm)]
          show _ = _ * (_ * 1 * _)
          ring
        · rw [if_neg h]
          show _ = _ * (_ * 1 * _)
          ring
    exact key _ (fun _ h => h)
  refine ⟨E, hEdep, ?_, ?_, ?_, hw⟩
  · intro σ
    apply prod_nonneg'
    intro m _
    split
    · norm_num
    · exact h0 _ _
  · unfold Bbn.mass
    rw [sum_filter_map]
    congr 1
    apply List.map_congr_left
    intro σ hσ
    rw [hw σ hσ]
    unfold isVal
    by_cases h : σ n.var.id = x <;> simp [h]
  · unfold Bbn.total
    rw [List.map_congr_left hw]

/-- the posterior of a value is between bounds for the CPT entries of this value -/
theorem posterior_between (hb : b.Proper) {n : BbnNode} (hn : n ∈ b.toGraph.getNodes) {ℓ : Liks} (h0 : ∀ i x, 0 ≤ ℓ i x)
    (hdesc : ∀ w ∈ b.vars, ReflTransGen b.Par n.var.id w.id → ∀ u ∈ w.values, ℓ w.id u = 1)
    (hpos : b.total ℓ ≠ 0) {x : Str} (hx : x ∈ n.var.values) {lo hi : ℚ}
    (hlo : ∀ σ, InDom b.vars σ → σ n.var.id = x → lo ≤ b.w n σ) (hhi : ∀ σ, InDom b.vars σ → σ n.var.id = x → b.w n σ ≤ hi) :
    lo ≤ b.posterior ℓ n.var.id x ∧ b.posterior ℓ n.var.id x ≤ hi := by
  obtain ⟨E, hE, hE0, hmass, htot, _⟩ := evidence_above hb (n := n) h0 hdesc x
  have ho := sum_others hb hn hx hE
  rw [← htot] at ho
  have hterm : ∀ σ ∈ allAsg b.vars, lo * (E σ * isVal n.var.id x σ * b.others n.var.id σ) ≤ E σ * isVal n.var.id x σ * b.weight noEvidence σ ∧
      E σ * isVal n.var.id x σ * b.weight noEvidence σ ≤ hi * (E σ * isVal n.var.id x σ * b.others n.var.id σ) := by
    intro σ hσ
    have hdom := allAsg_mem_dom b.vars (vars_nodup hb.inv) σ hσ
    rw [weight_split hb.inv hn]
    unfold isVal
    by_cases hs : σ n.var.id = x
    · have hnn : 0 ≤ E σ * b.others n.var.id σ := mul_nonneg (hE0 σ) (others_nonneg hb.wf _ σ)
      have h1 := mul_le_mul_of_nonneg_right (hlo σ hdom hs) hnn
      have h2 := mul_le_mul_of_nonneg_right (hhi σ hdom hs) hnn
      simp only [hs, if_true]
      constructor <;> nlinarith
    · simp [hs]
  have hm1 : lo * b.total ℓ ≤ b.mass ℓ n.var.id x := by
    rw [hmass, ← ho, ← List.sum_map_mul_left]
    exact List.sum_le_sum (fun σ hσ => (hterm σ hσ).1)
  have hm2 : b.mass ℓ n.var.id x ≤ hi * b.total ℓ := by
    rw [hmass, ← ho, ← List.sum_map_mul_left]
    exact List.sum_le_sum (fun σ hσ => (hterm σ hσ).2)
  have ht0 : 0 ≤ b.total ℓ := by
    rw [htot]
    apply List.sum_nonneg
    intro q hq
    obtain ⟨σ, _, rfl⟩ := List.mem_map.1 hq
    exact mul_nonneg (hE0 σ) (weight_noEvidence_nonneg hb.wf σ)
  have htp : 0 < b.total ℓ := lt_of_le_of_ne ht0 (Ne.symm hpos)
  unfold Bbn.posterior
  exact ⟨(le_div_iff₀ htp).2 hm1, (div_le_iff₀ htp).2 hm2⟩

end PyBBN
