import Verif.Props.Ratios

/-! # C78: what the evidence rules out is reported impossible and stays so -/

namespace PyBBN
open Relation InferenceController

section
variable {it it' : SetIter Int} {js js' : SetIter Str} {ops : List BOp} {jt jt' : JoinTree}

theorem sum_ite_count (x : Str) (q : ℚ) (l : List Str) : (l.map (fun y => if y = x then q else 0)).sum = (l.count x : ℚ) * q := by
  induction l with
  | nil => simp
  | cons y l ih =>
    rw [List.map_cons, List.sum_cons, ih, List.count_cons]
    by_cases e : y = x
    · simp [e]; ring
    · simp [e]

theorem mass_lik_zero {b : Bbn} {ℓ : Liks} {v : Variable} (hv : v ∈ b.vars) {x : Str} (h0 : ℓ v.id x = 0) :
    b.mass ℓ v.id x = 0 := by
  unfold Bbn.mass
  apply List.sum_eq_zero
  intro q hq
  obtain ⟨σ, hσ, rfl⟩ := List.mem_map.1 hq
  have hx := (List.mem_filter.1 hσ).2
  simp only [decide_eq_true_eq] at hx
  obtain ⟨n, hn, rfl⟩ := List.mem_map.1 hv
  unfold Bbn.weight
  apply List.prod_eq_zero
  exact List.mem_map.2 ⟨n, hn, by rw [hx, h0, mul_zero]⟩

/-- the probabilities of the values of a node add up to the total -/
theorem sum_mass {b : Bbn} (hi : BbnInv b) (ℓ : Liks) {v : Variable} (hv : v ∈ b.vars) (hn : v.values.Nodup) :
    (v.values.map (fun x => b.mass ℓ v.id x)).sum = b.total ℓ :=
  sum_by_value (fun σ : Asg => σ v.id) (b.weight ℓ) hn (allAsg b.vars) (fun σ hσ => allAsg_mem_dom b.vars (vars_nodup hi) σ hσ v hv)

theorem reports_unique {v : Variable} {x : Str} {p q : ℚ} (h : Reports jt v x p) (h' : Reports jt v x q) : p = q := by
  obtain ⟨P, h1, h2⟩ := h
  obtain ⟨Q, h3, h4⟩ := h'
  rw [h1] at h3
  cases h3
  rw [h2] at h4
  exact Option.some.inj h4

/-- **C78**, partial: a value with stored likelihood 0 is reported with probability 0. Missing: ambiguous virtual evidence (`c78_false`). -/
theorem c78_ruled_out_partial (hu : Net.Usable ops) (hj : apply it js (Bbn.run ops) = .ok jt) (h : List (SetIter Str × EvOp))
    (hp : ∀ op ∈ h, op.2.Ok (Bbn.run ops).vars) {v : Variable} (hv : v ∈ (Bbn.run ops).vars) {x : Str} (hx : x ∈ v.values)
    (h0 : Stored (runHist jt h) v x 0) : Reports (runHist jt h) v x 0 := by
  have h1 := reports hu hj h hp hv hx
  have h2 := (stored_iff hu hj h (fun op ho => (hp op ho).proper) hv hx 0).1 h0
  unfold Bbn.posterior at h1
  rwa [mass_lik_zero hv h2.symm, zero_div] at h1

/-- **C78**, partial: if all values of a node but one have stored likelihood 0, and the evidence is not impossible (some probability
reported is not 0), that value is reported with probability 1. -/
theorem c78_observed_partial (hu : Net.Usable ops) (hj : apply it js (Bbn.run ops) = .ok jt) (h : List (SetIter Str × EvOp))
    (hp : ∀ op ∈ h, op.2.Ok (Bbn.run ops).vars) {v : Variable} (hv : v ∈ (Bbn.run ops).vars) {x : Str} (hx : x ∈ v.values)
    (h0 : ∀ y ∈ v.values, y ≠ x → Stored (runHist jt h) v y 0)
    {w : Variable} (hw : w ∈ (Bbn.run ops).vars) {z : Str} (hz : z ∈ w.values) {q : ℚ} (hq : Reports (runHist jt h) w z q) (hq0 : q ≠ 0) :
    Reports (runHist jt h) v x 1 := by
  have hi := bbn_run_inv ops
  have h1 := reports hu hj h hp hv hx
  have ht : (Bbn.run ops).total (specHist (Bbn.run ops).vars h) ≠ 0 := by
    intro e
    have := reports_unique hq (reports hu hj h hp hw hz)
    unfold Bbn.posterior at this
    rw [e, div_zero] at this
    exact hq0 this
  have hs := sum_mass hi (specHist (Bbn.run ops).vars h) hv ((doms hu.toSane).vals v hv)
  have hm : (v.values.map (fun y => (Bbn.run ops).mass (specHist (Bbn.run ops).vars h) v.id y)).sum =
      (Bbn.run ops).mass (specHist (Bbn.run ops).vars h) v.id x := by
    have e : v.values.map (fun y => (Bbn.run ops).mass (specHist (Bbn.run ops).vars h) v.id y) =
        v.values.map (fun y => if y = x then (Bbn.run ops).mass (specHist (Bbn.run ops).vars h) v.id x else 0) := by
      refine List.map_congr_left ?_
      intro y hy
      by_cases e : y = x
      · rw [if_pos e, e]
      · rw [if_neg e]
        exact mass_lik_zero hv ((stored_iff hu hj h (fun op ho => (hp op ho).proper) hv hy 0).1 (h0 y hy e)).symm
    rw [e]
    have hc : v.values.count x = 1 := List.count_eq_one_of_mem ((doms hu.toSane).vals v hv) hx
    rw [sum_ite_count, hc, Nat.cast_one, one_mul]
  unfold Bbn.posterior at h1
  rwa [← hm, hs, div_self ht] at h1

/-- **C78**, partial: evidence that rules out more never makes an impossible value possible. Two histories of unambiguous evidence; if the
second rules out every value of a node that the first rules out, then every value that is reported impossible after the first is
reported impossible after the second. -/
theorem c78_stays_impossible_partial (hu : Net.Usable ops) (hj : apply it js (Bbn.run ops) = .ok jt) (hj' : apply it' js' (Bbn.run ops) = .ok jt')
    (h h' : List (SetIter Str × EvOp)) (hp : ∀ op ∈ h, op.2.Ok (Bbn.run ops).vars) (hp' : ∀ op ∈ h', op.2.Ok (Bbn.run ops).vars)
    (hr : ∀ w ∈ (Bbn.run ops).vars, ∀ y ∈ w.values, Stored (runHist jt h) w y 0 → Stored (runHist jt' h') w y 0)
    {v : Variable} (hv : v ∈ (Bbn.run ops).vars) {x : Str} (hx : x ∈ v.values) (h0 : Reports (runHist jt h) v x 0) :
    Reports (runHist jt' h') v x 0 := by
  have hi := bbn_run_inv ops
  have hw0 := spec_weight_nonneg hu hj h hp
  have h1 := reports_unique h0 (reports hu hj h hp hv hx)
  have hz : ∀ σ ∈ (allAsg (Bbn.run ops).vars).filter (fun σ => decide (σ v.id = x)), (Bbn.run ops).weight (specHist (Bbn.run ops).vars h) σ = 0 := by
    intro σ hσ
    have hpos : ∀ q ∈ (((allAsg (Bbn.run ops).vars).filter (fun σ => decide (σ v.id = x))).map ((Bbn.run ops).weight (specHist (Bbn.run ops).vars h))), 0 ≤ q := by
      intro q hq
      obtain ⟨τ, _, rfl⟩ := List.mem_map.1 hq
      exact hw0 τ
    have hpos' : ∀ q ∈ ((allAsg (Bbn.run ops).vars).map ((Bbn.run ops).weight (specHist (Bbn.run ops).vars h))), 0 ≤ q := by
      intro q hq
      obtain ⟨τ, _, rfl⟩ := List.mem_map.1 hq
      exact hw0 τ
    unfold Bbn.posterior at h1
    rcases div_eq_zero_iff.1 h1.symm with e | e
    · exact List.all_zero_of_le_zero_le_of_sum_eq_zero hpos e (List.mem_map_of_mem hσ)
    · exact List.all_zero_of_le_zero_le_of_sum_eq_zero hpos' e (List.mem_map_of_mem (List.mem_filter.1 hσ).1)
  have h2 := reports hu hj' h' hp' hv hx
  have hm : (Bbn.run ops).mass (specHist (Bbn.run ops).vars h') v.id x = 0 := by
    unfold Bbn.mass
    apply List.sum_eq_zero
    intro q hq
    obtain ⟨σ, hσ, rfl⟩ := List.mem_map.1 hq
    have h3 := hz σ hσ
    have hd := allAsg_mem_dom (Bbn.run ops).vars (vars_nodup hi) σ (List.mem_filter.1 hσ).1
    unfold Bbn.weight at h3 ⊢
    rw [List.prod_eq_zero_iff] at h3 ⊢
    obtain ⟨n, hn, e⟩ := List.mem_map.1 h3
    refine List.mem_map.2 ⟨n, hn, ?_⟩
    have hnv : n.var ∈ (Bbn.run ops).vars := List.mem_map_of_mem hn
    rcases mul_eq_zero.1 e with e | e
    · rw [e, zero_mul]
    · have h4 := hr n.var hnv _ (hd n.var hnv) ((stored_iff hu hj h (fun op ho => (hp op ho).proper) hnv (hd n.var hnv) 0).2 e.symm)
      rw [← (stored_iff hu hj' h' (fun op ho => (hp' op ho).proper) hnv (hd n.var hnv) 0).1 h4, mul_zero]
  unfold Bbn.posterior at h2
  rwa [hm, zero_div] at h2

end

/-! ## The claim without the restriction fails -/

/-- ambiguous virtual evidence about node 4, then an observation of it -/
def c78_bad : List (SetIter Str × EvOp) :=
  [(.same, .update [Evidence.build (c16_node 4) .virtual [("on".toList, 1), ("off".toList, 1/2)]]),
   (.same, .update [Evidence.build (c16_node 4) .observation [("on".toList, 1)]])]

theorem c78_bad_proper : ∀ op ∈ c78_bad, op.2.Proper (Bbn.run c16_ops).vars := by
  intro op hop
  simp only [c78_bad, List.mem_cons, List.not_mem_nil, or_false] at hop
  rcases hop with rfl | rfl
  · intro e he
    simp only [List.mem_cons, List.not_mem_nil, or_false] at he
    subst he
    exact by decide +kernel
  · intro e he
    simp only [List.mem_cons, List.not_mem_nil, or_false] at he
    subst he
    exact by decide +kernel

/-- **C78 is false of the code** after ambiguous virtual evidence: give node 4 the virtual evidence `on: 1, off: 1/2`, then observe `on`.
The likelihoods stored are 1 for `on` and 0 for `off`, but `off` is not reported with probability 0, nor `on` with probability 1. -/
theorem c78_false : Net.Usable c16_ops ∧ (∀ op ∈ c78_bad, op.2.Proper (Bbn.run c16_ops).vars) ∧
    ∃ jt p q, apply .same .same (Bbn.run c16_ops) = .ok jt ∧
      Stored (runHist jt c78_bad) (c16_node 4) "off".toList 0 ∧ Stored (runHist jt c78_bad) (c16_node 4) "on".toList 1 ∧
      Reports (runHist jt c78_bad) (c16_node 4) "off".toList p ∧ p ≠ 0 ∧ Reports (runHist jt c78_bad) (c16_node 4) "on".toList q ∧ q ≠ 1 := by
  refine ⟨c16_usable, c78_bad_proper, ?_⟩
  have key : ((apply .same .same (Bbn.run c16_ops)).val?.map (fun jt =>
      [reportOf (runHist jt c78_bad) (c16_node 4) "off".toList, reportOf (runHist jt c78_bad) (c16_node 4) "on".toList])) =
      some [some (193 / 1087), some (894 / 1087)] := by decide +kernel
  cases hj : apply .same .same (Bbn.run c16_ops) with
  | error e => rw [hj] at key; cases key
  | ok jt =>
    rw [hj] at key
    simp only [Py.val?, Option.map_some, Option.some.injEq, List.cons.injEq, and_true] at key
    obtain ⟨h2, h3⟩ := key
    refine ⟨jt, _, _, rfl, ?_, ?_, reports_of_eval h2, by decide +kernel, reports_of_eval h3, by decide +kernel⟩
    · rw [stored_iff c16_usable hj _ c78_bad_proper (by decide +kernel) (by decide +kernel)]
      decide +kernel
    · rw [stored_iff c16_usable hj _ c78_bad_proper (by decide +kernel) (by decide +kernel)]
      decide +kernel

/-! ## The claims are not vacuous -/

/-- nodes 1 and 2 are observed `off`, which makes `on` impossible for node 3 -/
def c78_hist : List (SetIter Str × EvOp) :=
  [(.same, .update [Evidence.build (c16_node 1) .observation [("off".toList, 1)]]),
   (.rev, .update [Evidence.build (c16_node 2) .observation [("off".toList, 1)]])]

/-- then node 4 gets virtual evidence -/
def c78_more : List (SetIter Str × EvOp) :=
  c78_hist ++ [(.same, .update [Evidence.build (c16_node 4) .virtual [("on".toList, 3/4), ("off".toList, 1/4)]])]

/-- C78: unambiguous histories; `on` is ruled out for nodes 1 and 2 by the evidence and for node 3 by its CPT, after `c78_hist` and after
`c78_more`, which rules out what `c78_hist` does -/
example : Net.Usable c16_ops ∧ (∀ op ∈ c78_hist, op.2.Ok (Bbn.run c16_ops).vars) ∧ (∀ op ∈ c78_more, op.2.Ok (Bbn.run c16_ops).vars) ∧
    (∀ w ∈ (Bbn.run c16_ops).vars, ∀ y ∈ w.values, specHist (Bbn.run c16_ops).vars c78_hist w.id y = 0 → specHist (Bbn.run c16_ops).vars c78_more w.id y = 0) ∧
    (specHist (Bbn.run c16_ops).vars c78_hist (c16_node 1).id "on".toList = 0) ∧
    ((apply .same .same (Bbn.run c16_ops)).val?.map (fun jt => [reportOf (runHist jt c78_hist) (c16_node 1) "on".toList,
      reportOf (runHist jt c78_hist) (c16_node 1) "off".toList, reportOf (runHist jt c78_hist) (c16_node 3) "on".toList,
      reportOf (runHist jt c78_more) (c16_node 3) "on".toList, reportOf (runHist jt c78_hist) (c16_node 0) "on".toList])) =
      some [some 0, some 1, some 0, some 0, some (8 / 35)] := by
  have h1 : ∀ op ∈ c78_hist, op.2.Ok (Bbn.run c16_ops).vars := by
    intro op hop
    simp only [c78_hist, List.mem_cons, List.not_mem_nil, or_false] at hop
    rcases hop with rfl | rfl
    · intro e he
      simp only [List.mem_cons, List.not_mem_nil, or_false] at he
      subst he
      exact ⟨by decide +kernel, unambiguous_of_check (by decide +kernel)⟩
    · intro e he
      simp only [List.mem_cons, List.not_mem_nil, or_false] at he
      subst he
      exact ⟨by decide +kernel, unambiguous_of_check (by decide +kernel)⟩
  refine ⟨c16_usable, h1, ?_, by decide +kernel, by decide +kernel, by decide +kernel⟩
  intro op hop
  rcases List.mem_append.1 hop with h | h
  · exact h1 op h
  · simp only [List.mem_cons, List.not_mem_nil, or_false] at h
    subst h
    intro e he
    simp only [List.mem_cons, List.not_mem_nil, or_false] at he
    subst he
    exact ⟨by decide +kernel, unambiguous_of_check (by decide +kernel)⟩

end PyBBN
