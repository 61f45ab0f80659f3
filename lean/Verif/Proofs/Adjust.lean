import Verif.Proofs.Ace

/-! Adjustment for the parents of a node gives the truncated factorization. -/

namespace PyBBN
open Relation

theorem sum_agree : ∀ (Z : List Variable), (vids Z).Nodup → (∀ z ∈ Z, z.values.Nodup) → ∀ σ : Asg, (∀ z ∈ Z, σ z.id ∈ z.values) →
    ((allAsg Z).map (fun τ => if agree Z τ σ then (1 : ℚ) else 0)).sum = 1
  | [], _, _, σ, _ => by simp [allAsg, agree]
  | z :: Z, hn, hv, σ, hσ => by
      rw [vids_cons, List.nodup_cons] at hn
      rw [allAsg, sum_map_flatMap]
      have ih := sum_agree Z hn.2 (fun w hw => hv w (List.mem_cons_of_mem _ hw)) σ (fun w hw => hσ w (List.mem_cons_of_mem _ hw))
      have hx : ∀ x, (((allAsg Z).map (fun τ => Function.update τ z.id x)).map (fun τ => if agree (z :: Z) τ σ then (1 : ℚ) else 0)).sum =
          if σ z.id = x then 1 else 0 := by
        intro x
        rw [List.map_map]
        have : ((fun τ => if agree (z :: Z) τ σ then (1 : ℚ) else 0) ∘ fun τ => Function.update τ z.id x) =
            fun τ => (if σ z.id = x then 1 else 0) * (if agree Z τ σ then (1 : ℚ) else 0) := by
          funext τ
          show (if agree (z :: Z) (setTo z x τ) σ then (1 : ℚ) else 0) = _
          rw [agree_setTo hn.1]
          unfold isAt
          by_cases h1 : σ z.id = x <;> by_cases h2 : agree Z τ σ = true <;> simp [h1, h2]
        rw [this, List.sum_map_mul_left, ih, mul_one]
      simp only [hx]
      rw [sum_single (hv z List.mem_cons_self) (hσ z List.mem_cons_self)]
      · simp
      · intro y _ hy
        rw [if_neg (fun e => hy e.symm)]

section
variable {b : Bbn}

/-- a sum over the joint values, split by the values of some nodes -/
theorem sum_split (hinv : BbnInv b) (wf : b.WF) {Z : List Variable} (hZn : (vids Z).Nodup) (hZ : ∀ z ∈ Z, z ∈ b.vars) (g : Asg → ℚ) :
    ((allAsg Z).map (fun τ => ((allAsg b.vars).map (fun σ => (if agree Z τ σ then 1 else 0) * g σ)).sum)).sum =
      ((allAsg b.vars).map g).sum := by
  have hswap : ∀ (l m : List Asg) (f : Asg → Asg → ℚ), (l.map (fun τ => (m.map (fun σ => f τ σ)).sum)).sum =
      (m.map (fun σ => (l.map (fun τ => f τ σ)).sum)).sum := by
    intro l m f
    induction l with
    | nil => simp
    | cons a l ih =>
      simp only [List.map_cons, List.sum_cons, ih]
      rw [← List.sum_map_add]
  rw [hswap]
  congr 1
  apply List.map_congr_left
  intro σ hσ
  have hd := allAsg_mem_dom b.vars (vars_nodup hinv) σ hσ
  have hval : ∀ z ∈ Z, z.values.Nodup := by
    intro z hz
    obtain ⟨n, hn, rfl⟩ := List.mem_map.1 (hZ z hz)
    exact wf.values n hn
  rw [List.sum_map_mul_right, sum_agree Z hZn hval σ (fun z hz => hd z (hZ z hz)), one_mul]

/-- weight of an event when a node is set -/
theorem prDo_eq (id : Int) (x : Str) (E : Asg → Bool) :
    b.prDo id x E = ((allAsg b.vars).map (fun σ => (if E σ then 1 else 0) * isVal id x σ * b.others id σ)).sum := by
  unfold Bbn.prDo
  rw [sum_filter_map]
  congr 1
  apply List.map_congr_left
  intro σ _
  show _ = _ * _ * ((b.toGraph.getNodes.filter _).map _).prod
  unfold isAt isVal
  by_cases h1 : σ id = x <;> by_cases h2 : E σ = true <;> simp [h1, h2] <;> rfl

/-- **adjustment for direct causes**: in an acyclic network with normalized CPTs, the effect of setting a node is the average of
the conditional probabilities given the node and its parents, weighted with the joint probability of the parents. -/
theorem adjustment (hb : b.Proper) {n : BbnNode} (hn : n ∈ b.toGraph.getNodes) {x : Str} (hx : x ∈ n.var.values) {Z : List Variable}
    (hZn : (vids Z).Nodup) (hZ : ∀ z ∈ Z, z ∈ b.vars) (hpar : ∀ p, p ∈ vids Z ↔ b.Par p n.var.id) (E : Asg → Bool)
    (hpos : ∀ τ ∈ allAsg Z, b.pr (agree Z τ) ≠ 0 → b.pr (fun σ => isAt n.var.id x σ && agree Z τ σ) ≠ 0) :
    ((allAsg Z).map (fun τ => b.prGiven E (fun σ => isAt n.var.id x σ && agree Z τ σ) * b.pr (agree Z τ))).sum = b.prDo n.var.id x E := by
  have htot : b.weightOf (fun _ => true) = 1 := by rw [weightOf_true, total_one hb]
  have hpr : ∀ F : Asg → Bool, b.pr F = b.weightOf F := by
    intro F; unfold Bbn.pr; rw [htot, div_one]
  rw [prDo_eq, ← sum_split hb.inv hb.wf hZn hZ]
  congr 1
  apply List.map_congr_left
  intro τ hτ
  have hτd := allAsg_mem_dom Z hZn τ hτ
  -- the CPT entry
  set c := b.w n (setTo n.var x τ) with hc
  have hw : ∀ σ, agree Z τ σ = true → σ n.var.id = x → b.w n σ = c := by
    intro σ h1 h2
    unfold agree at h1
    rw [decide_eq_true_eq] at h1
    apply b.w_dep hb.inv n
    intro i hi
    unfold setTo
    by_cases hin : i = n.var.id
    · subst hin; rw [Function.update_self, h2]
    · rw [Function.update_of_ne hin]
      rcases hi with hi | hi
      · obtain ⟨z, hz, rfl⟩ := List.mem_map.1 ((hpar i).2 hi)
        exact h1 z hz
      · exact absurd hi hin
  have hdep : Dep (fun i => ¬ ReflTransGen b.Par n.var.id i) (fun σ => if agree Z τ σ then (1 : ℚ) else 0) := by
    intro σ σ' hst
    have : agree Z τ σ = agree Z τ σ' := by
      unfold agree
      congr 1
      apply propext
      refine forall_congr' (fun z => forall_congr' (fun hz => ?_))
      rw [hst z.id]
      intro hr
      exact hb.acyclic n.var.id (TransGen.tail' hr ((hpar z.id).1 (List.mem_map_of_mem hz)))
    show (if agree Z τ σ = true then (1 : ℚ) else 0) = if agree Z τ σ' = true then 1 else 0
    rw [this]
  have hmark := local_markov hb hn hx hdep (c := c) (fun σ _ h1 h2 => hw σ (by by_contra h; simp [h] at h1) h2)
  have hoth := sum_others hb hn hx hdep
  have e1 : b.weightOf (agree Z τ) = ((allAsg b.vars).map (fun σ => (if agree Z τ σ then (1 : ℚ) else 0) * b.weight noEvidence σ)).sum :=
    weightOf_eq _
  have e2 : b.weightOf (fun σ => isAt n.var.id x σ && agree Z τ σ) =
      ((allAsg b.vars).map (fun σ => (if agree Z τ σ then (1 : ℚ) else 0) * isVal n.var.id x σ * b.weight noEvidence σ)).sum := by
    rw [weightOf_eq]
    congr 1
    apply List.map_congr_left
    intro σ _
    unfold isAt isVal
    by_cases h1 : σ n.var.id = x <;> by_cases h2 : agree Z τ σ = true <;> simp [h1, h2]
  have e3 : b.weightOf (fun σ => E σ && (isAt n.var.id x σ && agree Z τ σ)) =
      c * ((allAsg b.vars).map (fun σ => (if agree Z τ σ then (1 : ℚ) else 0) *
        ((if E σ then 1 else 0) * isVal n.var.id x σ * b.others n.var.id σ))).sum := by
    rw [weightOf_eq, ← List.sum_map_mul_left]
    congr 1
    apply List.map_congr_left
    intro σ _
    rw [weight_split hb.inv hn]
    unfold isAt isVal
    by_cases h1 : σ n.var.id = x
    · by_cases h2 : agree Z τ σ = true
      · rw [hw σ h2 h1]
        by_cases h3 : E σ = true <;> simp [h1, h2, h3]
      · simp [h1, h2]
    · simp [h1]
  rw [← e2, ← e1] at hmark
  rw [← e1] at hoth
  rw [prGiven_eq hb.wf, hpr, e3, hmark]
  by_cases h0 : b.weightOf (agree Z τ) = 0
  · rw [h0, mul_zero]
    symm
    -- nothing has weight here
    have hle : ((allAsg b.vars).map (fun σ => (if agree Z τ σ then (1 : ℚ) else 0) *
        ((if E σ then 1 else 0) * isVal n.var.id x σ * b.others n.var.id σ))).sum ≤
        ((allAsg b.vars).map (fun σ => (if agree Z τ σ then (1 : ℚ) else 0) * isVal n.var.id x σ * b.others n.var.id σ)).sum := by
      apply List.sum_le_sum
      intro σ _
      have h1 := others_nonneg hb.wf n.var.id σ
      unfold isVal
      by_cases h2 : agree Z τ σ = true <;> by_cases h3 : E σ = true <;> by_cases h4 : σ n.var.id = x <;> simp [h2, h3, h4, h1]
    rw [hoth, h0] at hle
    refine le_antisymm hle ?_
    apply List.sum_nonneg
    intro q hq
    obtain ⟨σ, _, rfl⟩ := List.mem_map.1 hq
    have h1 := others_nonneg hb.wf n.var.id σ
    unfold isVal
    by_cases h2 : agree Z τ σ = true <;> by_cases h3 : E σ = true <;> by_cases h4 : σ n.var.id = x <;> simp [h2, h3, h4, h1]
  · have hcne : c ≠ 0 := by
      intro hc0
      have := hpos τ hτ (by rw [hpr]; exact h0)
      rw [hpr, hmark, hc0, zero_mul] at this
      exact this rfl
    rw [mul_div_mul_left _ _ hcne, div_mul_cancel₀ _ h0]

end
end PyBBN
