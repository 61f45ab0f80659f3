import Verif.Proofs.AceBound
import Verif.Props.Ace

/-! # C107: how far `get_ace` can be from the causal effect -/

namespace PyBBN
open Relation InferenceController

section
variable {it : SetIter Int} {js : SetIter Str} {ops : List BOp} {jt : JoinTree}

/-- how much the parents of a node depend on each other: the total variation distance between their joint distribution and the product of
their distributions -/
def dependence (b : Bbn) (id : Int) : ℚ :=
  ((allAsg (b.causes id)).map (fun τ =>
    |((b.causes id).map (fun z => b.pr (isAt z.id (τ z.id)))).prod - b.pr (agree (b.causes id) τ)|)).sum / 2

theorem sum_pr_at {b : Bbn} (hb : b.Proper) {z : Variable} (hz : z ∈ b.vars) : (z.values.map (fun x => b.pr (isAt z.id x))).sum = 1 := by
  have htot : b.weightOf (fun _ => true) = 1 := by rw [weightOf_true, total_one hb]
  have h := sum_weightOf_at hb hz (fun _ => true)
  simp only [Bool.and_true] at h
  unfold Bbn.pr
  simp only [htot, div_one]
  exact h.trans htot

/-- **C107**. On a connected acyclic network whose CPT rows sum to one, with distinct names, after any history of evidence, and with every
value of `x` possible for all possible values of its parents: each number in the dictionary returned by `get_ace(x, y, y_val)` differs from
the probability of `y = y_val` when `x` is set to the value by at most the dependence of the parents of `x`. -/
theorem c107_error (hu : Net.Usable ops) (hac : AcyclicOps ops)
    (hn : (Bbn.run ops).Normalized (Bbn.run ops).parentVars) (hname : ((Bbn.run ops).vars.map Variable.name).Nodup)
    (hj : apply it js (Bbn.run ops) = .ok jt) (h : List (SetIter Str × EvOp)) (hok : ∀ op ∈ h, op.2.Ok (Bbn.run ops).vars)
    (k : SetIter Str) {v y : Variable} {yv : Str} (hv : v ∈ (Bbn.run ops).vars) (hy : y ∈ (Bbn.run ops).vars) (hyv : yv ∈ y.values)
    (hover : Overlap (Bbn.run ops) v) :
    ∃ f : Str → ℚ, (Ace.getAce k ⟨Bbn.run ops, runHist jt h⟩ v.name y.name yv).2 = .ok (v.values.map (fun x => (x, f x))) ∧
      ∀ x ∈ v.values, |f x - (Bbn.run ops).prDo v.id x (isAt y.id yv)| ≤ dependence (Bbn.run ops) v.id := by
  obtain ⟨h', _, _, a1⟩ := c38_get_ace hu hname hj h hok k hv hy hyv
  refine ⟨aceValue (Bbn.run ops) v y yv, by rw [a1], ?_⟩
  intro x hx
  have hb := proper_of hu.toSane hac hn
  obtain ⟨n, hnode, rfl⟩ := List.mem_map.1 hv
  obtain ⟨g1, g2, g3, g4⟩ := causes_spec (bbn_run_inv ops) n.var.id
  rw [← adjustment hb hnode hx g2 g3 g4 (isAt y.id yv) (hover x hx)]
  unfold aceValue dependence
  refine averages_near _ (fun τ _ => prGiven_bounds hb.wf _ _) ?_
  rw [sum_pr_agree hb g2 g3, sum_product_one (f := fun z u => (Bbn.run ops).pr (isAt z.id u)) _ g2 (fun z hz => sum_pr_at hb (g3 z hz))]

/-- **C107**: the numbers lie between 0 and 1, and those for the values of `y` sum to at most one; they sum to one if every value of `x` is possible
together with all combinations of individually possible values of its parents. (What is missing to one is the weight of impossible combinations.) -/
theorem c107_distribution (hu : Net.Usable ops) (hac : AcyclicOps ops)
    (hn : (Bbn.run ops).Normalized (Bbn.run ops).parentVars) (hname : ((Bbn.run ops).vars.map Variable.name).Nodup)
    (hj : apply it js (Bbn.run ops) = .ok jt) (h : List (SetIter Str × EvOp)) (hok : ∀ op ∈ h, op.2.Ok (Bbn.run ops).vars)
    (k : SetIter Str) {v y : Variable} (hv : v ∈ (Bbn.run ops).vars) (hy : y ∈ (Bbn.run ops).vars) :
    ∃ f : Str → Str → ℚ, (∀ yv ∈ y.values,
        (Ace.getAce k ⟨Bbn.run ops, runHist jt h⟩ v.name y.name yv).2 = .ok (v.values.map (fun x => (x, f yv x)))) ∧
      ∀ x ∈ v.values, (∀ yv ∈ y.values, 0 ≤ f yv x ∧ f yv x ≤ 1) ∧ (y.values.map (fun yv => f yv x)).sum ≤ 1 ∧
        ((∀ τ ∈ allAsg ((Bbn.run ops).causes v.id), (∀ z ∈ (Bbn.run ops).causes v.id, (Bbn.run ops).pr (isAt z.id (τ z.id)) ≠ 0) →
            (Bbn.run ops).pr (fun σ => isAt v.id x σ && agree ((Bbn.run ops).causes v.id) τ σ) ≠ 0) →
          (y.values.map (fun yv => f yv x)).sum = 1) := by
  have hb := proper_of hu.toSane hac hn
  have htot : (Bbn.run ops).weightOf (fun _ => true) = 1 := by rw [weightOf_true, total_one hb]
  have hpr : ∀ F : Asg → Bool, (Bbn.run ops).pr F = (Bbn.run ops).weightOf F := by
    intro F; unfold Bbn.pr; rw [htot, div_one]
  obtain ⟨_, g2, g3, _⟩ := causes_spec (bbn_run_inv ops) v.id
  have hone := sum_product_one (f := fun z u => (Bbn.run ops).pr (isAt z.id u)) _ g2 (fun z hz => sum_pr_at hb (g3 z hz))
  have hq0 : ∀ τ : Asg, 0 ≤ (((Bbn.run ops).causes v.id).map (fun z => (Bbn.run ops).pr (isAt z.id (τ z.id)))).prod :=
    fun τ => prod_nonneg' (fun z _ => pr_nonneg hb.wf _)
  have hsum : ∀ x, (y.values.map (fun yv => aceValue (Bbn.run ops) v y yv x)).sum =
      ((allAsg ((Bbn.run ops).causes v.id)).map (fun τ =>
        ((Bbn.run ops).weightOf (fun σ => isAt v.id x σ && agree ((Bbn.run ops).causes v.id) τ σ) /
          (Bbn.run ops).weightOf (fun σ => isAt v.id x σ && agree ((Bbn.run ops).causes v.id) τ σ)) *
        (((Bbn.run ops).causes v.id).map (fun z => (Bbn.run ops).pr (isAt z.id (τ z.id)))).prod)).sum := by
    intro x
    unfold aceValue
    rw [sum_comm']
    congr 1
    apply List.map_congr_left
    intro τ _
    rw [List.sum_map_mul_right]
    congr 1
    simp only [prGiven_eq hb.wf]
    simp only [div_eq_mul_inv]
    rw [List.sum_map_mul_right, sum_weightOf_at hb hy]
  refine ⟨aceValue (Bbn.run ops) v y, ?_, ?_⟩
  · intro yv hyv
    obtain ⟨h', _, _, a1⟩ := c38_get_ace hu hname hj h hok k hv hy hyv
    rw [a1]
  intro x hx
  have hnn : ∀ yv ∈ y.values, 0 ≤ aceValue (Bbn.run ops) v y yv x := by
    intro yv _
    apply List.sum_nonneg
    intro q hq
    obtain ⟨τ, _, rfl⟩ := List.mem_map.1 hq
    exact mul_nonneg (prGiven_bounds hb.wf _ _).1 (hq0 τ)
  refine ⟨fun yv hyv => ⟨hnn yv hyv, ?_⟩, ?_, ?_⟩
  · rw [← hone]
    apply List.sum_le_sum
    intro τ _
    exact mul_le_of_le_one_left (hq0 τ) (prGiven_bounds hb.wf _ _).2
  · rw [hsum, ← hone]
    apply List.sum_le_sum
    intro τ _
    exact mul_le_of_le_one_left (hq0 τ) (div_self_le_one _)
  · intro hall
    rw [hsum, ← hone]
    congr 1
    apply List.map_congr_left
    intro τ hτ
    by_cases hz : ∀ z ∈ (Bbn.run ops).causes v.id, (Bbn.run ops).pr (isAt z.id (τ z.id)) ≠ 0
    · have := hall τ hτ hz
      rw [hpr] at this
      rw [div_self this, one_mul]
    · push Not at hz
      obtain ⟨z, hz, h0⟩ := hz
      have : (((Bbn.run ops).causes v.id).map (fun z => (Bbn.run ops).pr (isAt z.id (τ z.id)))).prod = 0 :=
        List.prod_eq_zero (List.mem_map.2 ⟨z, hz, h0⟩)
      rw [this, mul_zero]

/-- independent parents: no dependence, so no error (C38) -/
theorem c107_independent {b : Bbn} {id : Int} (h : IndependentCauses b id) : dependence b id = 0 := by
  unfold dependence
  have : (allAsg (b.causes id)).map (fun τ => |((b.causes id).map (fun z => b.pr (isAt z.id (τ z.id)))).prod - b.pr (agree (b.causes id) τ)|) =
      (allAsg (b.causes id)).map (fun _ => (0 : ℚ)) := by
    apply List.map_congr_left
    intro τ hτ
    rw [h τ hτ, sub_self, abs_zero]
  rw [this]
  simp

end

/-- C107 is not vacuous and the bound is sharp: in the network of `c38_false` the parents of 2 have dependence 1/4; `get_ace` reports 1/2
where the causal effect is 3/4 -/
example : Net.Usable c38_ops ∧ AcyclicOps c38_ops ∧ Overlap (Bbn.run c38_ops) (mkNode 2 "x" []).var ∧ dependence (Bbn.run c38_ops) 2 = 1/4 ∧
    (Bbn.run c38_ops).prDo 2 "on".toList (isAt 3 "on".toList) = 3/4 ∧
    ((apply .same .same (Bbn.run c38_ops)).val?.bind (fun jt =>
      (Ace.getAce .same ⟨Bbn.run c38_ops, jt⟩ "x".toList "y".toList "on".toList).2.val?)) = some [("on".toList, 1/2), ("off".toList, 1/2)] :=
  ⟨c38_usable, acyclic_of_lt (by decide +kernel), by unfold Overlap; decide +kernel, by unfold dependence; decide +kernel,
    by decide +kernel, by decide +kernel⟩

/-- the theorems at this network, for any join tree of it -/
example {it : SetIter Int} {js : SetIter Str} {jt : JoinTree} (hj : apply it js (Bbn.run c38_ops) = .ok jt) :=
  c107_error c38_usable (acyclic_of_lt (by decide +kernel))
    (normalized_of_rows (fun _ v hv => parentVars_sub (bbn_run_inv _) _ v hv) (by decide +kernel)) (by decide +kernel) hj [] (by simp) .rev
    (v := (mkNode 2 "x" []).var) (y := (mkNode 3 "y" []).var) (yv := "on".toList) (by decide +kernel) (by decide +kernel) (by decide +kernel)
    (by unfold Overlap; decide +kernel)
example := c107_distribution c16_usable c16_acyclic c16_normalized (by decide +kernel) (c16_jt_ok .same .rev) c18_hist c18_hist_ok .rev
  (v := c16_node 3) (y := c16_node 4) (by decide +kernel) (by decide +kernel)

/-- the proviso of its last part holds there: every value of 3 but one is possible for all values of its parents -/
example : ∀ τ ∈ allAsg ((Bbn.run c16_ops).causes 3), (∀ z ∈ (Bbn.run c16_ops).causes 3, (Bbn.run c16_ops).pr (isAt z.id (τ z.id)) ≠ 0) →
    (Bbn.run c16_ops).pr (fun σ => isAt 3 "off".toList σ && agree ((Bbn.run c16_ops).causes 3) τ σ) ≠ 0 := by decide +kernel

/-- 0 → 1 is a copy; both are parents of 2, which has the child 3 -/
def c107_copy : List BOp :=
  [.addEdge (mkNode 0 "a" [1/2, 1/2]) (mkNode 1 "b" [1, 0, 0, 1]),
   .addEdge (mkNode 0 "a" [1/2, 1/2]) (mkNode 2 "x" [1/2, 1/2, 1/2, 1/2, 1/2, 1/2, 1/2, 1/2]),
   .addEdge (mkNode 1 "b" [1, 0, 0, 1]) (mkNode 2 "x" [1/2, 1/2, 1/2, 1/2, 1/2, 1/2, 1/2, 1/2]),
   .addEdge (mkNode 2 "x" [1/2, 1/2, 1/2, 1/2, 1/2, 1/2, 1/2, 1/2]) (mkNode 3 "y" [3/4, 1/4, 1/4, 3/4])]

/-- without the proviso the numbers for all values of `y` need not sum to one: combinations of parent values that are impossible count as zero, here
3/8 + 1/8 -/
example : ((apply .same .same (Bbn.run c107_copy)).val?.bind (fun jt =>
      (Ace.getAce .same ⟨Bbn.run c107_copy, jt⟩ "x".toList "y".toList "on".toList).2.val?)) = some [("on".toList, 3/8), ("off".toList, 1/8)] ∧
    ((apply .same .same (Bbn.run c107_copy)).val?.bind (fun jt =>
      (Ace.getAce .same ⟨Bbn.run c107_copy, jt⟩ "x".toList "y".toList "off".toList).2.val?)) = some [("on".toList, 1/8), ("off".toList, 3/8)] :=
  ⟨by decide +kernel, by decide +kernel⟩

end PyBBN
