import Verif.Proofs.Adjust
import Verif.Proofs.LearnMath

/-! The probability of the values of a node and its parents. -/

namespace PyBBN
open Relation

variable {b : Bbn}

theorem agree_iff {ns : List Variable} {τ σ : Asg} : agree ns τ σ = true ↔ ∀ v ∈ ns, σ v.id = τ v.id := by
  unfold agree; rw [decide_eq_true_eq]

theorem agree_cons (v : Variable) (ns : List Variable) (τ σ : Asg) : agree (v :: ns) τ σ = (isAt v.id (τ v.id) σ && agree ns τ σ) := by
  unfold agree isAt
  rw [← Bool.decide_and]
  simp

/-- the probability of the values of a node and some nodes that include its parents and no descendant -/
theorem weightOf_cons (hb : b.Proper) {n : BbnNode} (hn : n ∈ b.toGraph.getNodes) {Z : List Variable} (hZ : ∀ z ∈ Z, z ∈ b.vars)
    (hpar : ∀ p ∈ b.parentVars n.var.id, p.id ∈ vids Z) (hdesc : ∀ z ∈ Z, ¬ ReflTransGen b.Par n.var.id z.id) {σ : Asg} (hσ : InDom b.vars σ) :
    b.weightOf (agree (n.var :: Z) σ) = b.w n σ * b.weightOf (agree Z σ) := by
  have e : b.weightOf (agree (n.var :: Z) σ) = b.weightOf (fun τ => isAt n.var.id (σ n.var.id) τ && agree Z σ τ) := by
    congr 1; funext τ; exact agree_cons _ _ _ _
  have hle : b.weightOf (agree (n.var :: Z) σ) ≤ b.weightOf (agree Z σ) :=
    weightOf_mono hb.wf (fun τ h => agree_iff.2 (fun v hv => agree_iff.1 h v (List.mem_cons_of_mem _ hv)))
  by_cases h0 : b.weightOf (agree Z σ) = 0
  · rw [h0, mul_zero]
    exact le_antisymm (h0 ▸ hle) (weightOf_nonneg hb.wf _)
  · have ht : b.total (pinned Z σ) = b.weightOf (agree Z σ) := by
      unfold Bbn.total
      rw [weightOf_eq]
      congr 1
      exact List.map_congr_left (fun τ _ => weight_pinned hZ σ τ)
    have hrow := posterior_row hb hn (ℓ := pinned Z σ) (τ := σ) (by
        intro p hp u _
        unfold pinned
        rw [if_pos (hpar p hp)]) (by
        intro w hw hd u _
        unfold pinned
        rw [if_neg]
        intro hm
        obtain ⟨z, hz, e⟩ := List.mem_map.1 hm
        exact hdesc z hz (by rw [e]; exact hd)) (by rw [ht]; exact h0) (hσ n.var (List.mem_map_of_mem hn))
    rw [posterior_pinned hb.wf hZ, prGiven_eq hb.wf, Function.update_eq_self, ← e, div_eq_iff h0] at hrow
    exact hrow

/-- no node is its own descendant or an ancestor of its parents -/
theorem family_weight (hb : b.Proper) {n : BbnNode} (hn : n ∈ b.toGraph.getNodes) {σ : Asg} (hσ : InDom b.vars σ) :
    b.weightOf (agree (n.var :: b.parentVars n.var.id) σ) = b.w n σ * b.weightOf (agree (b.parentVars n.var.id) σ) := by
  refine weightOf_cons hb hn (fun z hz => parentVars_sub hb.inv _ z hz) (fun p hp => List.mem_map_of_mem hp) ?_ hσ
  intro z hz hd
  have hp : b.Par z.id n.var.id := by
    have := List.mem_map_of_mem (f := Variable.id) hz
    change z.id ∈ vids (b.parentVars n.var.id) at this
    rw [vids_parentVars hb.inv] at this
    exact this
  exact hb.acyclic n.var.id (TransGen.tail' hd hp)

/-- what is possible has positive probability -/
theorem weightOf_pos (wf : b.WF) {E : Asg → Bool} {σ : Asg} (hm : σ ∈ allAsg b.vars) (hE : E σ = true) (hw : 0 < b.weight noEvidence σ) : 0 < b.weightOf E := by
  unfold Bbn.weightOf
  refine lt_of_lt_of_le hw (List.single_le_sum ?_ _ (List.mem_map_of_mem (List.mem_filter.2 ⟨hm, hE⟩)))
  intro q hq
  obtain ⟨τ, _, rfl⟩ := List.mem_map.1 hq
  exact weight_noEvidence_nonneg wf τ

theorem weightOf_pos_iff (wf : b.WF) {E : Asg → Bool} : 0 < b.weightOf E ↔ ∃ σ ∈ allAsg b.vars, E σ = true ∧ 0 < b.weight noEvidence σ := by
  refine ⟨?_, fun ⟨σ, h1, h2, h3⟩ => weightOf_pos wf h1 h2 h3⟩
  intro h
  by_contra hc
  push Not at hc
  have : b.weightOf E = 0 := by
    apply List.sum_eq_zero
    intro q hq
    obtain ⟨τ, hτ, rfl⟩ := List.mem_map.1 hq
    exact le_antisymm (hc τ (List.mem_filter.1 hτ).1 (List.mem_filter.1 hτ).2) (weight_noEvidence_nonneg wf τ)
  rw [this] at h
  exact lt_irrefl _ h

theorem weight_same (hi : BbnInv b) {σ τ : Asg} (h : ∀ v ∈ b.vars, τ v.id = σ v.id) : b.weight noEvidence τ = b.weight noEvidence σ := by
  rw [weight_noEvidence, weight_noEvidence]
  congr 1
  apply List.map_congr_left
  intro n hn
  refine b.w_dep hi n _ _ ?_
  rintro i (hp | rfl)
  · rw [← vids_parentVars hi] at hp
    obtain ⟨p, hp', rfl⟩ := List.mem_map.1 hp
    exact h p (parentVars_sub hi _ p hp')
  · exact h n.var (List.mem_map_of_mem hn)

/-- if a joint value is impossible, then the value of some node is impossible given the values of its parents, which are possible -/
theorem impossible_at (hb : b.Proper) {σ : Asg} (hσ : InDom b.vars σ) (h0 : b.weight noEvidence σ = 0) (hone : b.weightOf (fun _ => true) = 1) :
    ∃ n ∈ b.toGraph.getNodes, 0 < b.weightOf (agree (b.parentVars n.var.id) σ) ∧ b.weightOf (agree (n.var :: b.parentVars n.var.id) σ) = 0 := by
  by_contra hc
  push Not at hc
  have hac : Acyclic (TransGen b.Par) := by
    intro a ha
    rw [transGen_eq_self] at ha
    exact hb.acyclic a ha
  obtain ⟨L, hp, hpw⟩ := order_exists' hb.inv hac
  have key : ∀ (B A : List BbnNode), (A.reverse ++ B).Perm b.toGraph.getNodes → (A.reverse ++ B).Pairwise (fun a c => ¬ TransGen b.Par c.var.id a.var.id) →
      0 < b.weightOf (agree (A.map BbnNode.var) σ) → 0 < b.weightOf (agree ((A.reverse ++ B).map BbnNode.var) σ) := by
    intro B
    induction B with
    | nil =>
      intro A _ _ h
      have : agree ((A.reverse ++ []).map BbnNode.var) σ = agree (A.map BbnNode.var) σ := by
        funext τ
        rw [Bool.eq_iff_iff, agree_iff, agree_iff]
        simp
      rw [this]; exact h
    | cons n B ih =>
      intro A hp hpw h
      have e : A.reverse ++ n :: B = (n :: A).reverse ++ B := by simp
      rw [e]
      have hn : n ∈ b.toGraph.getNodes := hp.mem_iff.1 (by simp)
      have hA : ∀ a ∈ A, a ∈ b.toGraph.getNodes := fun a ha => hp.mem_iff.1 (by simp [ha])
      refine ih (n :: A) (e ▸ hp) (e ▸ hpw) ?_
      rw [List.map_cons]
      have hpw' := List.pairwise_append.1 hpw
      have hdesc : ∀ z ∈ A.map BbnNode.var, ¬ ReflTransGen b.Par n.var.id z.id := by
        intro z hz hd
        obtain ⟨a, ha, rfl⟩ := List.mem_map.1 hz
        rcases reflTransGen_iff_eq_or_transGen.1 hd with he | ht
        · have hnd : (A.reverse ++ n :: B).map (fun m => m.var.id) |>.Nodup := (hp.map _).nodup_iff.2 (node_ids_nodup hb.inv)
          rw [List.map_append, List.nodup_append] at hnd
          exact hnd.2.2 a.var.id (List.mem_map.2 ⟨a, by simp [ha], rfl⟩) n.var.id (by simp) he
        · exact hpw'.2.2 a (by simp [ha]) n (by simp) ht
      have hpar : ∀ p ∈ b.parentVars n.var.id, p.id ∈ vids (A.map BbnNode.var) := by
        intro p hp'
        have hP : b.Par p.id n.var.id := by
          have := List.mem_map_of_mem (f := Variable.id) hp'
          change p.id ∈ vids (b.parentVars n.var.id) at this
          rw [vids_parentVars hb.inv] at this
          exact this
        obtain ⟨m, hm, e⟩ := List.mem_map.1 (parentVars_sub hb.inv _ p hp')
        have hm' := hp.mem_iff.2 hm
        rw [List.mem_append, List.mem_cons, List.mem_reverse] at hm'
        rw [← e] at hP
        rcases hm' with h1 | rfl | h1
        · rw [← e]; exact List.mem_map_of_mem (List.mem_map_of_mem h1)
        · exact absurd (TransGen.single hP) (hb.acyclic _)
        · exact absurd (TransGen.single hP) ((List.pairwise_cons.1 hpw'.2.1).1 m h1)
      rw [weightOf_cons hb hn (by
        intro z hz
        obtain ⟨a, ha, rfl⟩ := List.mem_map.1 hz
        exact List.mem_map_of_mem (hA a ha)) hpar hdesc hσ]
      refine mul_pos ?_ h
      -- the conditional probability is positive
      have hg : 0 < b.weightOf (agree (b.parentVars n.var.id) σ) := by
        refine lt_of_lt_of_le h (weightOf_mono hb.wf (fun τ hτ => agree_iff.2 (fun p hp' => ?_)))
        obtain ⟨z, hz, e⟩ := List.mem_map.1 (hpar p hp')
        rw [← e]
        exact agree_iff.1 hτ z hz
      have ha := hc n hn hg
      rw [family_weight hb hn hσ] at ha
      exact lt_of_le_of_ne (b.w_nonneg hb.wf hn σ) (fun e => ha (by rw [← e, zero_mul]))
  have hfull := key L [] (by simpa using hp) (by simpa using hpw) (by
    have : agree (([] : List BbnNode).map BbnNode.var) σ = fun _ => true := by funext τ; simp [agree]
    rw [this, hone]; exact one_pos)
  obtain ⟨τ, _, h2, h3⟩ := (weightOf_pos_iff hb.wf).1 hfull
  rw [weight_same hb.inv (σ := σ) (by
    intro v hv
    obtain ⟨n, hn, rfl⟩ := List.mem_map.1 hv
    exact agree_iff.1 h2 n.var (List.mem_map_of_mem (by simpa using hp.mem_iff.2 hn))), h0] at h3
  exact lt_irrefl _ h3

end PyBBN
