import Verif.Props.Certain
import Verif.Proofs.Blanket

/-! # C90: a node whose Markov blanket is observed -/

namespace PyBBN
open Relation InferenceController

section
variable {it it' : SetIter Int} {js js' : SetIter Str} {ops : List BOp} {jt jt' : JoinTree}

/-- some report differs from 0, so the evidence is not impossible -/
theorem total_ne_of_report (hu : Net.Usable ops) (hj : apply it js (Bbn.run ops) = .ok jt) (h : List (SetIter Str × EvOp))
    (hp : ∀ op ∈ h, op.2.Ok (Bbn.run ops).vars) {w : Variable} (hw : w ∈ (Bbn.run ops).vars) {z : Str} (hz : z ∈ w.values) {q : ℚ}
    (hq : Reports (runHist jt h) w z q) (hq0 : q ≠ 0) : (Bbn.run ops).total (specHist (Bbn.run ops).vars h) ≠ 0 := by
  intro e
  have := reports_unique hq (reports hu hj h hp hw hz)
  unfold Bbn.posterior at this
  rw [e, div_zero] at this
  exact hq0 this

/-- **C90**, partial. On a connected network, after any history of unambiguous evidence that is not impossible: if every parent, every
child and every other parent of a child of a node has stored likelihood 0 for all its values but one, the report of the node is computed
from these values, the CPT of the node, the CPTs of its children and the likelihoods stored for the node, and from nothing else.
Missing: ambiguous virtual evidence (`c90_false`). -/
theorem c90_blanket_partial (hu : Net.Usable ops) (hj : apply it js (Bbn.run ops) = .ok jt) (h : List (SetIter Str × EvOp))
    (hp : ∀ op ∈ h, op.2.Ok (Bbn.run ops).vars) {v : Variable} (hv : v ∈ (Bbn.run ops).vars) {τ : Asg}
    (hb : ∀ u ∈ (Bbn.run ops).vars, Blanket (Bbn.run ops).parentOf v.id u.id → ∀ y ∈ u.values, y ≠ τ u.id → Stored (runHist jt h) u y 0)
    {l : Str → ℚ} (hl : ∀ x ∈ v.values, Stored (runHist jt h) v x (l x))
    {w : Variable} (hw : w ∈ (Bbn.run ops).vars) {z : Str} (hz : z ∈ w.values) {q : ℚ} (hq : Reports (runHist jt h) w z q) (hq0 : q ≠ 0) :
    ∀ x ∈ v.values, Reports (runHist jt h) v x ((Bbn.run ops).blanketScore v τ x * l x /
      (v.values.map (fun y => (Bbn.run ops).blanketScore v τ y * l y)).sum) := by
  have hi := bbn_run_inv ops
  have hpp : ∀ op ∈ h, op.2.Proper (Bbn.run ops).vars := fun op ho => (hp op ho).proper
  have ht := total_ne_of_report hu hj h hp hw hz hq hq0
  obtain ⟨K, hK⟩ := blanket_mass hi hu.toSane.wf (ℓ := specHist (Bbn.run ops).vars h) hv (τ := τ)
    (fun u hu' hbl y hy hne => ((stored_iff hu hj h hpp hu' hy 0).1 (hb u hu' hbl y hy hne)).symm)
  have hm : ∀ x ∈ v.values, (Bbn.run ops).mass (specHist (Bbn.run ops).vars h) v.id x = (Bbn.run ops).blanketScore v τ x * l x * K := by
    intro x hx
    rw [(stored_iff hu hj h hpp hv hx _).1 (hl x hx), ← hK x hx]
    unfold Bbn.mass massOf
    congr 1
    apply List.map_congr_left
    intro σ _
    rw [Bbn.weight_eq hi]
  have hs := sum_mass hi (specHist (Bbn.run ops).vars h) hv ((doms hu.toSane).vals v hv)
  rw [List.map_congr_left hm, List.sum_map_mul_right] at hs
  intro x hx
  have h1 := reports hu hj h hp hv hx
  unfold Bbn.posterior at h1
  rw [hm x hx, ← hs] at h1
  rw [← hs] at ht
  rwa [mul_div_mul_right _ _ (right_ne_zero_of_mul ht)] at h1

/-- **C90**, partial: the blanket screens the node off. Two sessions that agree on the observed values of the blanket and on the
likelihoods stored for the node report the same about it, whatever else they know. -/
theorem c90_screened_partial (hu : Net.Usable ops) (hj : apply it js (Bbn.run ops) = .ok jt) (hj' : apply it' js' (Bbn.run ops) = .ok jt')
    (h h' : List (SetIter Str × EvOp)) (hp : ∀ op ∈ h, op.2.Ok (Bbn.run ops).vars) (hp' : ∀ op ∈ h', op.2.Ok (Bbn.run ops).vars)
    {v : Variable} (hv : v ∈ (Bbn.run ops).vars) {τ : Asg}
    (hb : ∀ u ∈ (Bbn.run ops).vars, Blanket (Bbn.run ops).parentOf v.id u.id → ∀ y ∈ u.values, y ≠ τ u.id →
      Stored (runHist jt h) u y 0 ∧ Stored (runHist jt' h') u y 0)
    (hl : ∀ x ∈ v.values, ∃ p, Stored (runHist jt h) v x p ∧ Stored (runHist jt' h') v x p)
    {w w' : Variable} (hw : w ∈ (Bbn.run ops).vars) (hw' : w' ∈ (Bbn.run ops).vars) {z z' : Str} (hz : z ∈ w.values) (hz' : z' ∈ w'.values)
    {q q' : ℚ} (hq : Reports (runHist jt h) w z q) (hq0 : q ≠ 0) (hq' : Reports (runHist jt' h') w' z' q') (hq0' : q' ≠ 0) :
    ∀ x ∈ v.values, ∃ p, Reports (runHist jt h) v x p ∧ Reports (runHist jt' h') v x p := by
  choose! l hl using hl
  intro x hx
  exact ⟨_, c90_blanket_partial hu hj h hp hv (fun u hu' hbl y hy hne => (hb u hu' hbl y hy hne).1) (fun x hx => (hl x hx).1) hw hz hq hq0 x hx,
    c90_blanket_partial hu hj' h' hp' hv (fun u hu' hbl y hy hne => (hb u hu' hbl y hy hne).2) (fun x hx => (hl x hx).2) hw' hz' hq' hq0' x hx⟩

end

/-! ## The claim without the restriction fails -/

/-- nodes 1 and 2 are observed, then node 4 gets ambiguous virtual evidence and is observed after that -/
def c90_bad : List (SetIter Str × EvOp) :=
  (.same, .update [Evidence.build (c16_node 1) .observation [("on".toList, 1)], Evidence.build (c16_node 2) .observation [("on".toList, 1)]]) :: c78_bad

theorem c90_bad_proper : ∀ op ∈ c90_bad, op.2.Proper (Bbn.run c16_ops).vars := by
  intro op hop
  rcases List.mem_cons.1 hop with rfl | hop
  · intro e he
    simp only [List.mem_cons, List.not_mem_nil, or_false] at he
    rcases he with rfl | rfl
    · exact by decide +kernel
    · exact by decide +kernel
  · exact c78_bad_proper op hop

/-- a node outside the blanket: not a parent, not a child, and not a parent of a child -/
theorem not_blanket_of_check {ops : List BOp} {i j : Int}
    (h : (BOp.edges ops).all (fun e => decide (e ≠ (j, i) ∧ e ≠ (i, j) ∧ (e.1 = i → (j, e.2) ∉ BOp.edges ops))) = true) :
    ¬ Blanket (Bbn.run ops).parentOf i j := by
  have hr : ∀ p c, (Bbn.run ops).parentOf p c → (p, c) ∈ BOp.edges ops := fun p c e =>
    (parents_requested ops p c).1 ((Bbn.parentOf_iff (bbn_run_inv ops)).1 e)
  rw [List.all_eq_true] at h
  rintro ⟨_, e | e | ⟨c, e, e'⟩⟩
  · have := h _ (hr _ _ e); simp at this
  · have := h _ (hr _ _ e); simp at this
  · have := h _ (hr _ _ e)
    simp only [decide_eq_true_eq] at this
    exact this.2.2 trivial (hr _ _ e')

/-- **C90** fails for ambiguous virtual evidence: all parents and children of node 3 have a single value left, yet its report is not the
one computed from these values. -/
theorem c90_false : Net.Usable c16_ops ∧ (∀ op ∈ c90_bad, op.2.Proper (Bbn.run c16_ops).vars) ∧
    ∃ jt p, apply .same .same (Bbn.run c16_ops) = .ok jt ∧
      (∀ u ∈ (Bbn.run c16_ops).vars, Blanket (Bbn.run c16_ops).parentOf 3 u.id → ∀ y ∈ u.values, y ≠ "on".toList → Stored (runHist jt c90_bad) u y 0) ∧
      (∀ x ∈ (c16_node 3).values, Stored (runHist jt c90_bad) (c16_node 3) x 1) ∧
      Reports (runHist jt c90_bad) (c16_node 3) "on".toList p ∧ p ≠ 0 ∧
      p ≠ (Bbn.run c16_ops).blanketScore (c16_node 3) (fun _ => "on".toList) "on".toList * 1 /
        ((c16_node 3).values.map (fun y => (Bbn.run c16_ops).blanketScore (c16_node 3) (fun _ => "on".toList) y * 1)).sum := by
  refine ⟨c16_usable, c90_bad_proper, ?_⟩
  have key : ((apply .same .same (Bbn.run c16_ops)).val?.map (fun jt => reportOf (runHist jt c90_bad) (c16_node 3) "on".toList)) =
      some (some (16 / 205)) := by decide +kernel
  cases hj : apply .same .same (Bbn.run c16_ops) with
  | error e => rw [hj] at key; cases key
  | ok jt =>
    rw [hj] at key
    simp only [Py.val?, Option.map_some, Option.some.injEq] at key
    refine ⟨jt, _, rfl, ?_, ?_, reports_of_eval key, by decide +kernel, by decide +kernel⟩
    · intro u hu hbl y hy hne
      rw [stored_iff c16_usable hj _ c90_bad_proper hu hy]
      have h0 : u.id ≠ 0 := fun e => not_blanket_of_check (ops := c16_ops) (i := 3) (j := 0) (by decide +kernel) (e ▸ hbl)
      have h3 : u.id ≠ 3 := hbl.1
      have : ∀ u ∈ (Bbn.run c16_ops).vars, u.id ≠ 0 → u.id ≠ 3 → ∀ y ∈ u.values, y ≠ "on".toList → 0 = specHist (Bbn.run c16_ops).vars c90_bad u.id y := by
        decide +kernel
      exact this u hu h0 h3 y hy hne
    · intro x hx
      rw [stored_iff c16_usable hj _ c90_bad_proper (by decide +kernel) hx]
      have : ∀ x ∈ (c16_node 3).values, 1 = specHist (Bbn.run c16_ops).vars c90_bad (c16_node 3).id x := by decide +kernel
      exact this x hx

/-! ## The claims are not vacuous -/

/-- nodes 0, 2 and 3 are observed: the blanket of node 1 -/
def c90_h : List (SetIter Str × EvOp) :=
  [(.same, .update [Evidence.build (c16_node 0) .observation [("on".toList, 1)], Evidence.build (c16_node 2) .observation [("off".toList, 1)],
      Evidence.build (c16_node 3) .observation [("off".toList, 1)]])]

/-- and node 4 as well -/
def c90_h' : List (SetIter Str × EvOp) := c90_h ++ [(.rev, .update [Evidence.build (c16_node 4) .observation [("off".toList, 1)]])]

/-- the values of the observed nodes -/
def c90_τ : Asg := fun i => if i = 0 then "on".toList else "off".toList

theorem c90_h_ok : ∀ op ∈ c90_h, op.2.Ok (Bbn.run c16_ops).vars := by
  intro op hop
  simp only [c90_h, List.mem_cons, List.not_mem_nil, or_false] at hop
  subst hop
  intro e he
  simp only [List.mem_cons, List.not_mem_nil, or_false] at he
  rcases he with rfl | rfl | rfl
  · exact ⟨by decide +kernel, unambiguous_of_check (by decide +kernel)⟩
  · exact ⟨by decide +kernel, unambiguous_of_check (by decide +kernel)⟩
  · exact ⟨by decide +kernel, unambiguous_of_check (by decide +kernel)⟩

theorem c90_h'_ok : ∀ op ∈ c90_h', op.2.Ok (Bbn.run c16_ops).vars := by
  intro op hop
  rcases List.mem_append.1 hop with h | h
  · exact c90_h_ok op h
  · simp only [List.mem_cons, List.not_mem_nil, or_false] at h
    subst h
    intro e he
    simp only [List.mem_cons, List.not_mem_nil, or_false] at he
    subst he
    exact ⟨by decide +kernel, unambiguous_of_check (by decide +kernel)⟩

/-- C90: the blanket of node 1 is nodes 0, 2 and 3, which are observed; the report of node 1 is 7/17 by the formula, and the tree reports
7/17 whether node 4 is observed or not; the report about node 4 differs -/
example : Net.Usable c16_ops ∧ (∀ op ∈ c90_h, op.2.Ok (Bbn.run c16_ops).vars) ∧ (∀ op ∈ c90_h', op.2.Ok (Bbn.run c16_ops).vars) ∧
    Blanket (Bbn.run c16_ops).parentOf 1 0 ∧ Blanket (Bbn.run c16_ops).parentOf 1 2 ∧ Blanket (Bbn.run c16_ops).parentOf 1 3 ∧
    ¬ Blanket (Bbn.run c16_ops).parentOf 1 4 ∧
    (∀ u ∈ (Bbn.run c16_ops).vars, Blanket (Bbn.run c16_ops).parentOf 1 u.id → ∀ y ∈ u.values, y ≠ c90_τ u.id →
      specHist (Bbn.run c16_ops).vars c90_h u.id y = 0 ∧ specHist (Bbn.run c16_ops).vars c90_h' u.id y = 0) ∧
    ((c16_node 1).values.map (fun x => (Bbn.run c16_ops).blanketScore (c16_node 1) c90_τ x)) = [7 / 20, 1 / 2] ∧
    ((apply .same .same (Bbn.run c16_ops)).val?.map (fun jt => [reportOf (runHist jt c90_h) (c16_node 1) "on".toList,
      reportOf (runHist jt c90_h') (c16_node 1) "on".toList, reportOf (runHist jt c90_h) (c16_node 4) "on".toList,
      reportOf (runHist jt c90_h') (c16_node 4) "on".toList])) = some [some (7 / 17), some (7 / 17), some (3 / 4), some 0] := by
  refine ⟨c16_usable, c90_h_ok, c90_h'_ok, ⟨by decide, Or.inl (by decide +kernel)⟩, ⟨by decide, Or.inr (Or.inr ⟨3, by decide +kernel, by decide +kernel⟩)⟩,
    ⟨by decide, Or.inr (Or.inl (by decide +kernel))⟩, not_blanket_of_check (by decide +kernel), ?_, by decide +kernel, by decide +kernel⟩
  intro u hu hbl
  have h1 : u.id ≠ 1 := hbl.1
  have h4 : u.id ≠ 4 := fun e => not_blanket_of_check (ops := c16_ops) (i := 1) (j := 4) (by decide +kernel) (e ▸ hbl)
  have : ∀ u ∈ (Bbn.run c16_ops).vars, u.id ≠ 1 → u.id ≠ 4 → ∀ y ∈ u.values, y ≠ c90_τ u.id →
      specHist (Bbn.run c16_ops).vars c90_h u.id y = 0 ∧ specHist (Bbn.run c16_ops).vars c90_h' u.id y = 0 := by decide +kernel
  exact this u hu h1 h4

end PyBBN
