import Mathlib.Analysis.Convex.Jensen
import Mathlib.Analysis.SpecialFunctions.Log.NegMulLog
import Verif.Props.Decide

/-! # C125: an observation never increases the uncertainty on average -/

namespace PyBBN
open Relation InferenceController

/-- a measure of the uncertainty of a distribution `p` over the given values; `φ t = -t log t` gives the entropy -/
def uncertainty (φ : ℝ → ℝ) (vals : List Str) (p : Str → ℚ) : ℝ := (vals.map (fun x => φ (p x : ℝ))).sum

/-- Shannon entropy -/
noncomputable def entropy (vals : List Str) (p : Str → ℚ) : ℝ := (vals.map (fun x => - (p x : ℝ) * Real.log (p x))).sum

theorem entropy_eq (vals : List Str) (p : Str → ℚ) : entropy vals p = uncertainty Real.negMulLog vals p := rfl

/-- uncertainty left on average after an observation with outcomes `y` of probability `q y` -/
def uncertaintyAfter (φ : ℝ → ℝ) (outs vals : List Str) (q : Str → ℚ) (p' : Str → Str → ℚ) : ℝ :=
  (outs.map (fun y => (q y : ℝ) * uncertainty φ vals (p' y))).sum

/-- entropy left on average -/
noncomputable def entropyAfter (outs vals : List Str) (q : Str → ℚ) (p' : Str → Str → ℚ) : ℝ :=
  (outs.map (fun y => (q y : ℝ) * entropy vals (p' y))).sum

theorem sum_swap_real {α β : Type} (l : List α) (m : List β) (f : α → β → ℝ) :
    (l.map (fun a => (m.map (f a)).sum)).sum = (m.map (fun b => (l.map (fun a => f a b)).sum)).sum := by
  induction l with
  | nil => simp
  | cons a l ih => simp [ih, List.sum_map_add]

theorem cast_sum_map {α : Type} (l : List α) (f : α → ℚ) : (((l.map f).sum : ℚ) : ℝ) = (l.map (fun a => (f a : ℝ))).sum := by
  induction l with
  | nil => simp
  | cons a l ih => simp [ih]

theorem sum_le_real {α : Type} {l : List α} {f g : α → ℝ} (h : ∀ a ∈ l, f a ≤ g a) : (l.map f).sum ≤ (l.map g).sum := by
  induction l with
  | nil => simp
  | cons a l ih =>
    rw [List.map_cons, List.map_cons, List.sum_cons, List.sum_cons]
    exact add_le_add (h a (by simp)) (ih (fun b hb => h b (by simp [hb])))

theorem sum_eq_iff_real {α : Type} {l : List α} {f g : α → ℝ} (h : ∀ a ∈ l, f a ≤ g a) :
    (l.map f).sum = (l.map g).sum ↔ ∀ a ∈ l, f a = g a := by
  induction l with
  | nil => simp
  | cons a l ih =>
    have ih' := ih (fun b hb => h b (by simp [hb]))
    have h1 := h a (by simp)
    have h2 := sum_le_real (l := l) (fun b hb => h b (by simp [hb]))
    rw [List.map_cons, List.map_cons, List.sum_cons, List.sum_cons]
    constructor
    · intro e
      have e1 : f a = g a := by linarith
      have e2 : (l.map f).sum = (l.map g).sum := by linarith
      intro b hb
      rcases List.mem_cons.1 hb with rfl | hb
      · exact e1
      · exact ih'.1 e2 b hb
    · intro e
      rw [e a (by simp), ih'.2 (fun b hb => e b (by simp [hb]))]

/-- Jensen's inequality for lists, with the case of equality -/
theorem jensen_list {φ : ℝ → ℝ} (hφ : StrictConcaveOn ℝ (Set.Ici 0) φ) {outs : List Str} (hn : outs.Nodup) {q t : Str → ℝ}
    (hq : ∀ y ∈ outs, 0 ≤ q y) (ht : ∀ y ∈ outs, 0 ≤ t y) (h1 : (outs.map q).sum = 1) :
    (outs.map (fun y => q y * φ (t y))).sum ≤ φ (outs.map (fun y => q y * t y)).sum ∧
    ((outs.map (fun y => q y * φ (t y))).sum = φ (outs.map (fun y => q y * t y)).sum ↔
      ∀ y ∈ outs, q y ≠ 0 → t y = (outs.map (fun y => q y * t y)).sum) := by
  rw [← List.sum_toFinset _ hn, ← List.sum_toFinset _ hn]
  rw [← List.sum_toFinset _ hn] at h1
  have hq' : ∀ y ∈ outs.toFinset, 0 ≤ q y := fun y hy => hq y (List.mem_toFinset.1 hy)
  have ht' : ∀ y ∈ outs.toFinset, t y ∈ Set.Ici (0 : ℝ) := fun y hy => ht y (List.mem_toFinset.1 hy)
  have a := hφ.concaveOn.le_map_sum hq' h1 ht'
  have b := hφ.lt_map_sum_iff_of_nonneg' hq' h1 ht'
  simp only [smul_eq_mul] at a b
  refine ⟨a, ?_⟩
  constructor
  · intro e y hy h0
    by_contra hne
    have := b.2 ⟨y, List.mem_toFinset.2 hy, h0, hne⟩
    rw [e] at this
    exact lt_irrefl _ this
  · intro h
    refine le_antisymm a (not_lt.1 ?_)
    intro hlt
    obtain ⟨y, hy, h0, hne⟩ := b.1 hlt
    exact hne (h y (List.mem_toFinset.1 hy) h0)

section
variable {ops : List BOp} {it : SetIter Int} {js : SetIter Str} {jt : JoinTree}

/-- what is reported for a node sums to one, or everything is reported as impossible -/
theorem reports_sum (hu : Net.Usable ops) (hj : apply it js (Bbn.run ops) = .ok jt) (h : List (SetIter Str × EvOp))
    (hp : ∀ op ∈ h, op.2.Ok (Bbn.run ops).vars) {v : Variable} (hv : v ∈ (Bbn.run ops).vars) {p : Str → ℚ}
    (hr : ∀ x ∈ v.values, Reports (runHist jt h) v x (p x)) : (v.values.map p).sum = 1 ∨ ∀ x ∈ v.values, p x = 0 := by
  have e : ∀ x ∈ v.values, p x = (Bbn.run ops).posterior (specHist (Bbn.run ops).vars h) v.id x :=
    fun x hx => reports_unique (hr x hx) (reports hu hj h hp hv hx)
  by_cases h0 : (Bbn.run ops).total (specHist (Bbn.run ops).vars h) = 0
  · right
    intro x hx
    rw [e x hx]
    unfold Bbn.posterior
    rw [h0, div_zero]
  · left
    rw [List.map_congr_left e]
    unfold Bbn.posterior
    simp only [div_eq_mul_inv]
    rw [List.sum_map_mul_right, sum_mass (bbn_run_inv ops) _ hv (values_nodup hu.wf hv), mul_inv_cancel₀ h0]

section
variable (hu : Net.Usable ops) (hj : apply it js (Bbn.run ops) = .ok jt) (h : List (SetIter Str × EvOp))
  (hp : ∀ op ∈ h, op.2.Ok (Bbn.run ops).vars) {v w : Variable} (hv : v ∈ (Bbn.run ops).vars) (hw : w ∈ (Bbn.run ops).vars)
  (hwn : NoEvidenceOn (runHist jt h) w) (k : SetIter Str)
  {p q : Str → ℚ} {p' : Str → Str → ℚ}
  (hr : ∀ x ∈ v.values, Reports (runHist jt h) v x (p x))
  (hq : ∀ y ∈ w.values, Reports (runHist jt h) w y (q y))
  (hr' : ∀ y ∈ w.values, ∀ x ∈ v.values, Reports (runHist jt (h ++ [(k, .update [obs w y])])) v x (p' y x))
include hu hj hp hv hw hwn hr hq hr'

theorem total_probability_of {x : Str} (hx : x ∈ v.values) : (w.values.map (fun y => q y * p' y x)).sum = p x := by
  obtain ⟨q₁, p₁, h1, h2, h3⟩ := c71_total_probability_partial hu hj h hp hv hw hwn hx k
  rw [reports_unique (hr x hx) h3]
  refine congrArg List.sum (List.map_congr_left ?_)
  intro y hy
  rw [reports_unique (hq y hy) (h1 y hy), reports_unique (hr' y hy x hx) (h2 y hy)]

/-- **C125**. For every strictly concave measure of uncertainty: averaged over the outcomes of observing `w`, with the weights reported for
`w`, the uncertainty about `v` is at most what it was before, and it is the same exactly if no possible outcome changes what is reported
for `v`. -/
theorem c125_uncertainty {φ : ℝ → ℝ} (hφ : StrictConcaveOn ℝ (Set.Ici 0) φ) (h0 : φ 0 = 0) :
    uncertaintyAfter φ w.values v.values q p' ≤ uncertainty φ v.values p ∧
    (uncertaintyAfter φ w.values v.values q p' = uncertainty φ v.values p ↔
      ∀ y ∈ w.values, q y ≠ 0 → ∀ x ∈ v.values, p' y x = p x) := by
  have hq0 : ∀ y ∈ w.values, (0 : ℝ) ≤ q y := fun y hy => by exact_mod_cast reports_nonneg hu hj h hp hw hy (hq y hy)
  have hp0 : ∀ y ∈ w.values, ∀ x ∈ v.values, (0 : ℝ) ≤ p' y x := by
    intro y hy x hx
    have hp1 : ∀ op ∈ h ++ [(k, EvOp.update [obs w y])], op.2.Ok (Bbn.run ops).vars := by
      intro op ho
      rcases List.mem_append.1 ho with ho | ho
      · exact hp op ho
      · simp only [List.mem_cons, List.not_mem_nil, or_false] at ho
        subst ho
        exact obs_ok hw hy
    exact_mod_cast reports_nonneg hu hj _ hp1 hv hx (hr' y hy x hx)
  have ht : ∀ x ∈ v.values, (p x : ℝ) = (w.values.map (fun y => (q y : ℝ) * p' y x)).sum := by
    intro x hx
    rw [← total_probability_of hu hj h hp hv hw hwn k hr hq hr' hx, cast_sum_map]
    simp only [Rat.cast_mul]
  have hswap : uncertaintyAfter φ w.values v.values q p' = (v.values.map (fun x => (w.values.map (fun y => (q y : ℝ) * φ (p' y x))).sum)).sum := by
    unfold uncertaintyAfter uncertainty
    rw [← sum_swap_real]
    refine congrArg List.sum (List.map_congr_left ?_)
    intro y _
    rw [List.sum_map_mul_left]
  rw [hswap]
  unfold uncertainty
  rcases reports_sum hu hj h hp hw hq with h1 | h1
  · have h1' : (w.values.map (fun y => (q y : ℝ))).sum = 1 := by
      rw [← cast_sum_map, h1]; simp
    have hJ : ∀ x ∈ v.values, (w.values.map (fun y => (q y : ℝ) * φ (p' y x))).sum ≤ φ (p x) ∧
        ((w.values.map (fun y => (q y : ℝ) * φ (p' y x))).sum = φ (p x) ↔ ∀ y ∈ w.values, (q y : ℝ) ≠ 0 → (p' y x : ℝ) = p x) := by
      intro x hx
      rw [ht x hx]
      exact jensen_list hφ (values_nodup hu.wf hw) hq0 (fun y hy => hp0 y hy x hx) h1'
    refine ⟨sum_le_real (fun x hx => (hJ x hx).1), ?_⟩
    rw [sum_eq_iff_real (fun x hx => (hJ x hx).1)]
    constructor
    · intro e y hy hne x hx
      exact_mod_cast (hJ x hx).2.1 (e x hx) y hy (by exact_mod_cast hne)
    · intro e x hx
      exact (hJ x hx).2.2 (fun y hy hne => by exact_mod_cast e y hy (by exact_mod_cast hne) x hx)
  · have hz : ∀ x ∈ v.values, (w.values.map (fun y => (q y : ℝ) * φ (p' y x))).sum = φ (p x) := by
      intro x hx
      have e1 : w.values.map (fun y => (q y : ℝ) * p' y x) = w.values.map (fun _ => (0 : ℝ)) :=
        List.map_congr_left (fun y hy => by rw [h1 y hy]; simp)
      have e2 : w.values.map (fun y => (q y : ℝ) * φ (p' y x)) = w.values.map (fun _ => (0 : ℝ)) :=
        List.map_congr_left (fun y hy => by rw [h1 y hy]; simp)
      rw [ht x hx, e1, e2]
      simp [h0]
    have e := List.map_congr_left hz
    rw [e]
    exact ⟨le_refl _, fun _ y hy hne => absurd (h1 y hy) hne, fun _ => rfl⟩

/-- **C125** for the entropy. -/
theorem c125_entropy : entropyAfter w.values v.values q p' ≤ entropy v.values p ∧
    (entropyAfter w.values v.values q p' = entropy v.values p ↔ ∀ y ∈ w.values, q y ≠ 0 → ∀ x ∈ v.values, p' y x = p x) :=
  c125_uncertainty hu hj h hp hv hw hwn k hr hq hr' Real.strictConcaveOn_negMulLog Real.negMulLog_zero

/-- **C125**, mutual information. What observing `w` is expected to tell about `v` is what observing `v` is expected to tell about `w`. -/
theorem c125_symmetric (hvn : NoEvidenceOn (runHist jt h) v) (k' : SetIter Str) {q' : Str → Str → ℚ}
    (hq' : ∀ x ∈ v.values, ∀ y ∈ w.values, Reports (runHist jt (h ++ [(k', .update [obs v x])])) w y (q' x y)) :
    entropy v.values p - entropyAfter w.values v.values q p' = entropy w.values q - entropyAfter v.values w.values p q' := by
  have hB : ∀ x ∈ v.values, ∀ y ∈ w.values, p x * q' x y = q y * p' y x := by
    intro x hx y hy
    obtain ⟨a, b, c, d, h1, h2, h3, h4, h5⟩ := c71_bayes_partial hu hj h hp hv hw hvn hwn hx hy k k'
    rw [reports_unique (hr x hx) h1, reports_unique (hq y hy) h2, reports_unique (hr' y hy x hx) h3, reports_unique (hq' x hx y hy) h4]
    exact h5
  have key : ∀ {outs vals : List Str} {q : Str → ℚ} {p' : Str → Str → ℚ},
      (∀ y ∈ outs, (vals.map (fun x => q y * p' y x)).sum = q y) →
      entropyAfter outs vals q p' = (outs.map (fun y => (vals.map (fun x => Real.negMulLog ((q y : ℝ) * p' y x))).sum)).sum - entropy outs q := by
    intro outs vals q p' hsum
    rw [entropy_eq]
    unfold entropyAfter uncertainty
    rw [eq_sub_iff_add_eq, ← List.sum_map_add]
    refine congrArg List.sum (List.map_congr_left ?_)
    intro y hy
    rw [entropy_eq]
    unfold uncertainty
    have e : vals.map (fun x => Real.negMulLog ((q y : ℝ) * p' y x)) =
        vals.map (fun x => (p' y x : ℝ) * Real.negMulLog (q y) + (q y : ℝ) * Real.negMulLog (p' y x)) :=
      List.map_congr_left (fun x _ => Real.negMulLog_mul _ _)
    rw [e, List.sum_map_add, List.sum_map_mul_right, List.sum_map_mul_left]
    have hs := hsum y hy
    rw [List.sum_map_mul_left] at hs
    by_cases h0 : q y = 0
    · rw [h0]; simp
    · have h1 : (vals.map (fun x => p' y x)).sum = 1 := mul_left_cancel₀ h0 (by rw [hs, mul_one])
      have h2 : (vals.map (fun x => (p' y x : ℝ))).sum = 1 := by
        rw [← cast_sum_map, h1]; simp
      rw [h2]
      ring
  have hB' : ∀ x ∈ v.values, ∀ y ∈ w.values, (p x : ℝ) * q' x y = q y * p' y x := fun x hx y hy => by exact_mod_cast hB x hx y hy
  rw [key (outs := w.values) (vals := v.values) (q := q) (p' := p'), key (outs := v.values) (vals := w.values) (q := p) (p' := q')]
  · have e : (v.values.map (fun x => (w.values.map (fun y => Real.negMulLog ((p x : ℝ) * q' x y))).sum)).sum =
        (w.values.map (fun y => (v.values.map (fun x => Real.negMulLog ((q y : ℝ) * p' y x))).sum)).sum := by
      rw [sum_swap_real]
      refine congrArg List.sum (List.map_congr_left ?_)
      intro y hy
      refine congrArg List.sum (List.map_congr_left ?_)
      intro x hx
      rw [hB' x hx y hy]
    rw [e]
    ring
  · intro x hx
    rw [List.map_congr_left (fun y hy => hB x hx y hy)]
    exact total_probability_of hu hj h hp hv hw hwn k hr hq hr' hx
  · intro y hy
    rw [← List.map_congr_left (fun x hx => hB x hx y hy)]
    exact total_probability_of hu hj h hp hw hv hvn k' hq hr hq' hy

end
end

/-! ## the example network: how much does node 3 tell about node 0? -/

/-- what the example reports for node 3 after observing node 0 -/
def c125_q' : Str → Str → ℚ := fun x y =>
  if x = "on".toList then (if y = "on".toList then 4/35 else 31/35) else (if y = "on".toList then 4/55 else 51/55)

/-- the hypotheses hold for the example network with evidence; observing node 3 is expected to reduce the entropy of node 0, and by as much
as observing node 0 is expected to reduce the entropy of node 3 -/
example : ∃ jt, apply .same .same (Bbn.run c16_ops) = .ok jt ∧
    NoEvidenceOn (runHist jt c18_hist) (c16_node 3) ∧ NoEvidenceOn (runHist jt c18_hist) (c16_node 0) ∧
    (∀ x ∈ (c16_node 0).values, Reports (runHist jt c18_hist) (c16_node 0) x (c122_p x)) ∧
    (∀ y ∈ (c16_node 3).values, Reports (runHist jt c18_hist) (c16_node 3) y (c122_q y)) ∧
    (∀ y ∈ (c16_node 3).values, ∀ x ∈ (c16_node 0).values,
      Reports (runHist jt (c18_hist ++ [(.same, .update [obs (c16_node 3) y])])) (c16_node 0) x (c122_p' y x)) ∧
    (∀ x ∈ (c16_node 0).values, ∀ y ∈ (c16_node 3).values,
      Reports (runHist jt (c18_hist ++ [(.rev, .update [obs (c16_node 0) x])])) (c16_node 3) y (c125_q' x y)) ∧
    entropyAfter (c16_node 3).values (c16_node 0).values c122_q c122_p' < entropy (c16_node 0).values c122_p ∧
    entropy (c16_node 0).values c122_p - entropyAfter (c16_node 3).values (c16_node 0).values c122_q c122_p' =
      entropy (c16_node 3).values c122_q - entropyAfter (c16_node 0).values (c16_node 3).values c122_p c125_q' := by
  have key : ((apply .same .same (Bbn.run c16_ops)).val?.map (fun jt =>
      decide (NoEvidenceOn (runHist jt c18_hist) (c16_node 3) ∧ NoEvidenceOn (runHist jt c18_hist) (c16_node 0) ∧
        (∀ x ∈ (c16_node 0).values, reportOf (runHist jt c18_hist) (c16_node 0) x = some (c122_p x)) ∧
        (∀ y ∈ (c16_node 3).values, reportOf (runHist jt c18_hist) (c16_node 3) y = some (c122_q y)) ∧
        (∀ y ∈ (c16_node 3).values, ∀ x ∈ (c16_node 0).values,
          reportOf (runHist jt (c18_hist ++ [(.same, .update [obs (c16_node 3) y])])) (c16_node 0) x = some (c122_p' y x)) ∧
        (∀ x ∈ (c16_node 0).values, ∀ y ∈ (c16_node 3).values,
          reportOf (runHist jt (c18_hist ++ [(.rev, .update [obs (c16_node 0) x])])) (c16_node 3) y = some (c125_q' x y))))) = some true := by
    decide +kernel
  cases hj : apply .same .same (Bbn.run c16_ops) with
  | error e => rw [hj] at key; cases key
  | ok jt =>
    rw [hj] at key
    obtain ⟨h1, h1', h2, h3, h4, h5⟩ := of_decide_eq_true (Option.some.inj key)
    have h2' := fun x hx => reports_of_eval (h2 x hx)
    have h3' := fun y hy => reports_of_eval (h3 y hy)
    have h4' := fun y hy x hx => reports_of_eval (h4 y hy x hx)
    have h5' := fun x hx y hy => reports_of_eval (h5 x hx y hy)
    refine ⟨jt, rfl, h1, h1', h2', h3', h4', h5', ?_, ?_⟩
    · obtain ⟨a, b⟩ := c125_entropy c16_usable hj c18_hist c18_hist_ok (by decide +kernel) (by decide +kernel) h1 .same h2' h3' h4'
      refine lt_of_le_of_ne a (fun e => ?_)
      exact absurd (b.1 e "on".toList (by decide +kernel) (by decide +kernel) "on".toList (by decide +kernel)) (by decide +kernel)
    · exact c125_symmetric c16_usable hj c18_hist c18_hist_ok (by decide +kernel) (by decide +kernel) h1 .same h2' h3' h4' h1' .rev h5'

end PyBBN
