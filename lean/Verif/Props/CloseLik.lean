import Verif.Proofs.CloseLik
import Verif.Props.Close

/-! # C109: small changes of the likelihoods change the reports little -/

namespace PyBBN
open Relation InferenceController

section
variable {it it' : SetIter Int} {js js' : SetIter Str} {ops : List BOp} {jt jt' : JoinTree} {κ : Int → ℚ}

/-- **C109**, partial. Two sessions on a connected network (any two histories of evidence, none of it ambiguous): if the likelihoods that they
store for a node agree, up to a common multiple, up to a factor for each node, and `k` is the product of these factors, then the odds that are
reported for any value of any node agree up to the factor `k²`, and the reported probabilities differ by at most `(k - 1) / (k + 1)`.
Missing: ambiguous virtual evidence, for which the claim fails (`c109_false`). -/
theorem c109_close_partial (hu : Net.Usable ops) (hj : apply it js (Bbn.run ops) = .ok jt) (hj' : apply it' js' (Bbn.run ops) = .ok jt')
    (h h' : List (SetIter Str × EvOp)) (hp : ∀ op ∈ h, op.2.Ok (Bbn.run ops).vars) (hp' : ∀ op ∈ h', op.2.Ok (Bbn.run ops).vars)
    (hκ : ∀ v ∈ (Bbn.run ops).vars, 1 ≤ κ v.id)
    (hr : ∀ v ∈ (Bbn.run ops).vars, ∃ c : ℚ, 0 < c ∧ ∀ x ∈ v.values, ∀ p p', Stored (runHist jt h) v x p → Stored (runHist jt' h') v x p' →
      UpTo (κ v.id) p (c * p'))
    {v : Variable} (hv : v ∈ (Bbn.run ops).vars) {x : Str} (hx : x ∈ v.values) {k : ℚ} (hk : k = ((Bbn.run ops).vars.map (fun w => κ w.id)).prod) :
    ∃ r r', Reports (runHist jt h) v x r ∧ Reports (runHist jt' h') v x r' ∧
      UpTo (k * k) (r * (1 - r')) (r' * (1 - r)) ∧ |r' - r| ≤ (k - 1) / (k + 1) := by
  have hi := bbn_run_inv ops
  refine ⟨_, _, reports hu hj h hp hv hx, reports hu hj' h' hp' hv hx, ?_⟩
  choose! c hc using hr
  have hf : ∀ w ∈ (Bbn.run ops).vars, (((Bbn.run ops).vars.find? (fun u => decide (u.id = w.id))).map c).getD 1 = c w := by
    intro w hw
    cases hfd : (Bbn.run ops).vars.find? (fun u => decide (u.id = w.id)) with
    | none => exact absurd (List.find?_eq_none.1 hfd w hw) (by simp)
    | some u =>
      rw [List.inj_on_of_nodup_map (vars_nodup hi) (List.mem_of_find?_eq_some hfd) hw (by simpa using List.find?_some hfd)]
      rfl
  have hnn : ∀ (jt : JoinTree) (it : SetIter Int) (js : SetIter Str), apply it js (Bbn.run ops) = .ok jt → ∀ h : List (SetIter Str × EvOp),
      (∀ op ∈ h, op.2.Ok (Bbn.run ops).vars) → ∀ i x, 0 ≤ specHist (Bbn.run ops).vars h i x := by
    intro jt it js hj h hp
    obtain ⟨T, l1, _, _⟩ := live_law hu.toSane hj h (fun op ho => (hp op ho).proper)
    have := l1.calib.likNonneg
    rw [(lawHist_ok (doms hu.toSane) h hp).1] at this
    exact this
  have hprop := posterior_proportional hi (ℓ := specHist (Bbn.run ops).vars h')
    (ℓ' := fun i y => (((Bbn.run ops).vars.find? (fun u => decide (u.id = i))).map c).getD 1 * specHist (Bbn.run ops).vars h' i y)
    (k := fun i => (((Bbn.run ops).vars.find? (fun u => decide (u.id = i))).map c).getD 1) (by
      intro w hw
      rw [hf w hw]
      exact (hc w hw).1.ne') (fun _ _ _ _ => rfl) v.id x
  rw [← hprop]
  refine close_lik_posterior hi hu.wf hκ ?_ v.id x hk
  intro w hw y hy
  rw [hf w hw]
  have h0' := hnn jt' it' js' hj' h' hp' w.id y
  exact ⟨hnn jt it js hj h hp w.id y, mul_nonneg (hc w hw).1.le h0', (hc w hw).2 y hy _ _
    ((stored_iff hu hj h (fun op ho => (hp op ho).proper) hw hy _).2 rfl) ((stored_iff hu hj' h' (fun op ho => (hp' op ho).proper) hw hy _).2 rfl)⟩

end

/-- **C109 is false of the code** for ambiguous virtual evidence, even for factors 1: the histories of `c77_false` store proportional
likelihoods, but the reports differ. -/
theorem c109_false : Net.Usable c16_ops ∧ (∀ op ∈ c18_bad, op.2.Proper (Bbn.run c16_ops).vars) ∧
    (∀ op ∈ c77_scaled, op.2.Proper (Bbn.run c16_ops).vars) ∧
    ∃ jt p p', apply .same .same (Bbn.run c16_ops) = .ok jt ∧
      (∀ v ∈ (Bbn.run c16_ops).vars, ∃ c : ℚ, 0 < c ∧ ∀ x ∈ v.values, ∀ p p', Stored (runHist jt c18_bad) v x p → Stored (runHist jt c77_scaled) v x p' →
        UpTo 1 p (c * p')) ∧
      Reports (runHist jt c18_bad) (c16_node 0) "on".toList p ∧ Reports (runHist jt c77_scaled) (c16_node 0) "on".toList p' ∧ ¬ |p' - p| ≤ (1 - 1) / (1 + 1) := by
  refine ⟨c16_usable, c18_false.2.1, fun op ho => (c77_scaled_ok op ho).proper, ?_⟩
  obtain ⟨_, _, _, jt, p, p', hj, _, h1, h2, hne⟩ := c77_false
  have hk : ∀ v ∈ (Bbn.run c16_ops).vars, ∃ c ∈ [(1 : ℚ), 5/4], 0 < c ∧ ∀ x ∈ v.values,
      specHist (Bbn.run c16_ops).vars c18_bad v.id x = c * specHist (Bbn.run c16_ops).vars c77_scaled v.id x := by decide +kernel
  refine ⟨jt, p, p', hj, ?_, h1, h2, ?_⟩
  · intro v hv
    obtain ⟨c, _, hc0, hc⟩ := hk v hv
    refine ⟨c, hc0, ?_⟩
    intro x hx q q' hq hq'
    rw [stored_iff c16_usable hj _ c18_false.2.1 hv hx] at hq
    rw [stored_iff c16_usable hj _ (fun op ho => (c77_scaled_ok op ho).proper) hv hx] at hq'
    rw [hq, hq', ← hc x hx]
    simp [UpTo]
  · intro h
    have : |p' - p| = 0 := le_antisymm (by simpa using h) (abs_nonneg _)
    exact hne (sub_eq_zero.1 (abs_eq_zero.1 this)).symm

/-- other virtual evidence about node 4 than in `c77_scaled`: `on: 1/2, off: 3/10` -/
def c109_hist : List (SetIter Str × EvOp) :=
  [(.rev, .update [Evidence.build (c16_node 4) .virtual [("on".toList, 1/2), ("off".toList, 3/10)]])]

theorem c109_hist_ok : ∀ op ∈ c109_hist, op.2.Ok (Bbn.run c16_ops).vars := by
  intro op hop
  simp only [c109_hist, List.mem_cons, List.not_mem_nil, or_false] at hop
  subst hop
  intro e he
  simp only [List.mem_cons, List.not_mem_nil, or_false] at he
  subst he
  exact ⟨by decide +kernel, unambiguous_of_check (by decide +kernel)⟩

/-- by how much the likelihoods of node 4 differ, up to a multiple -/
def c109_factor : Int → ℚ := fun i => if i = 4 then 11/10 else 1

/-- the theorem for these histories, with `k = 11/10` and the bound 1/21 -/
example {jt : JoinTree} (hj : apply .same .rev (Bbn.run c16_ops) = .ok jt) : ∃ r r', Reports (runHist jt c77_scaled) (c16_node 0) "on".toList r ∧
    Reports (runHist jt c109_hist) (c16_node 0) "on".toList r' ∧ |r' - r| ≤ 1/21 := by
  have hk : ∀ v ∈ (Bbn.run c16_ops).vars, ∃ c ∈ [(1 : ℚ), 4/3 * 11/10], 0 < c ∧ ∀ x ∈ v.values,
      UpTo (c109_factor v.id) (specHist (Bbn.run c16_ops).vars c77_scaled v.id x) (c * specHist (Bbn.run c16_ops).vars c109_hist v.id x) := by
    decide +kernel
  obtain ⟨r, r', h1, h2, _, h3⟩ := c109_close_partial c16_usable hj hj c77_scaled c109_hist c77_scaled_ok c109_hist_ok (κ := c109_factor)
    (by decide +kernel) (by
      intro v hv
      obtain ⟨c, _, hc0, hc⟩ := hk v hv
      refine ⟨c, hc0, ?_⟩
      intro x hx q q' hq hq'
      rw [stored_iff c16_usable hj _ (fun op ho => (c77_scaled_ok op ho).proper) hv hx] at hq
      rw [stored_iff c16_usable hj _ (fun op ho => (c109_hist_ok op ho).proper) hv hx] at hq'
      rw [hq, hq']
      exact hc x hx) (v := c16_node 0) (by decide +kernel) (x := "on".toList) (by decide +kernel) rfl
  refine ⟨r, r', h1, h2, ?_⟩
  have e : ((Bbn.run c16_ops).vars.map (fun w => c109_factor w.id)).prod = 11/10 := by decide +kernel
  rw [e] at h3
  norm_num at h3
  exact h3

/-- what is reported in the two sessions -/
example : ((apply .same .rev (Bbn.run c16_ops)).val?.map (fun jt =>
    [reportOf (runHist jt c77_scaled) (c16_node 0) "on".toList, reportOf (runHist jt c109_hist) (c16_node 0) "on".toList])) =
    some [some (270 / 1087), some (50 / 201)] := by decide +kernel

end PyBBN
