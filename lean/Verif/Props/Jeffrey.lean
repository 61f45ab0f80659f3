import Verif.Props.Monotone

/-! # C116: virtual evidence sets the distribution of a node (Jeffrey's rule) -/

namespace PyBBN
open Relation InferenceController

section
variable {b : Bbn} {it : SetIter Int} {js : SetIter Str} {ops : List BOp} {jt : JoinTree}

/-- soft evidence about a node without evidence, in terms of the masses before -/
theorem mass_soft (hi : BbnInv b) {ℓ : Liks} {w : Variable} (hw : w ∈ b.vars) (hn : w.values.Nodup) (h1 : ∀ x ∈ w.values, ℓ w.id x = 1)
    (f : Str → ℚ) (i : Int) (x : Str) :
    b.mass (ℓ.put w f) i x = (w.values.map (fun y => f y * b.mass2 ℓ i x w.id y)).sum := by
  have hd : ∀ σ ∈ allAsg b.vars, InDom b.vars σ := fun σ hσ => allAsg_mem_dom b.vars (vars_nodup hi) σ hσ
  rw [← sum_mass2 hi hw hn i x]
  refine congrArg List.sum (List.map_congr_left ?_)
  intro y _
  unfold Bbn.mass2
  rw [← List.sum_map_mul_left]
  refine congrArg List.sum (List.map_congr_left ?_)
  intro σ hσ
  rw [weight_put hi hw h1 f (hd σ hσ)]
  by_cases e1 : σ i = x <;> by_cases e2 : σ w.id = y <;> simp [e1, e2]

theorem mass_soft_self (hi : BbnInv b) {ℓ : Liks} {w : Variable} (hw : w ∈ b.vars) (h1 : ∀ x ∈ w.values, ℓ w.id x = 1)
    (f : Str → ℚ) (y : Str) : b.mass (ℓ.put w f) w.id y = f y * b.mass ℓ w.id y := by
  have hd : ∀ σ ∈ allAsg b.vars, InDom b.vars σ := fun σ hσ => allAsg_mem_dom b.vars (vars_nodup hi) σ hσ
  rw [mass_eq, mass_eq, ← List.sum_map_mul_left]
  refine congrArg List.sum (List.map_congr_left ?_)
  intro σ hσ
  rw [weight_put hi hw h1 f (hd σ hσ)]
  by_cases e2 : σ w.id = y <;> simp [e2]

theorem sum_mass_total (hi : BbnInv b) {ℓ : Liks} {w : Variable} (hw : w ∈ b.vars) (hn : w.values.Nodup) :
    (w.values.map (fun y => b.mass ℓ w.id y)).sum = b.total ℓ := by
  have := sum_by_value (fun σ : Asg => σ w.id) (fun σ => b.weight ℓ σ) hn (allAsg b.vars)
    (fun σ hσ => allAsg_mem_dom b.vars (vars_nodup hi) σ hσ w hw)
  unfold Bbn.total
  rw [← this]
  rfl

/-- virtual evidence that gives every value of the node a likelihood from `[0,1]` -/
structure Soft (w : Variable) (m : Dict Str ℚ) : Prop where
  keys : Dict.keys m = w.values
  unit : ∀ p ∈ Dict.values m, 0 ≤ p ∧ p ≤ 1
  some_ne : ∃ p ∈ Dict.values m, p ≠ 1

theorem Soft.proper {vars : List Variable} {w : Variable} (hw : w ∈ vars) (hnd : w.values.Nodup) {m : Dict Str ℚ} (hm : Soft w m) :
    (EvOp.update [⟨w, .virtual, m⟩]).Proper vars := by
  intro e he
  simp only [List.mem_cons, List.not_mem_nil, or_false] at he
  subst he
  exact ⟨hw, by change (Dict.keys m).Nodup; rw [hm.keys]; exact hnd, by intro k hk; rw [← hm.keys]; exact hk⟩

theorem Soft.canon {w : Variable} {m : Dict Str ℚ} (hm : Soft w m) {y : Str} (hy : y ∈ w.values) :
    Evidence.canon ⟨w, .virtual, m⟩ y = (Dict.get? m y).getD 0 := by
  cases e : Dict.get? m y with
  | none => rw [Dict.get?_eq_none_iff, hm.keys] at e; exact absurd hy e
  | some p =>
    have := hm.unit p (List.mem_map_of_mem (Dict.mem_of_get? e))
    simp only [Evidence.canon, Evidence.given, e, Option.getD_some]
    rw [min_eq_right this.2, max_eq_right this.1]

theorem Soft.exists_ne {w : Variable} (hnd : w.values.Nodup) {m : Dict Str ℚ} (hm : Soft w m) :
    ∃ y ∈ w.values, Evidence.canon ⟨w, .virtual, m⟩ y ≠ 1 := by
  obtain ⟨p, hpm, hp1⟩ := hm.some_ne
  obtain ⟨⟨y, q⟩, hyq, e⟩ := List.mem_map.1 hpm
  change q = p at e
  subst e
  have hy : y ∈ w.values := by rw [← hm.keys]; exact List.mem_map_of_mem hyq
  refine ⟨y, hy, ?_⟩
  rw [hm.canon hy, Dict.get?_of_mem (by rw [hm.keys]; exact hnd) hyq]
  exact hp1

/-- **C116**, Jeffrey's rule. On a connected network, after any history of unambiguous evidence with no evidence about `w`, let `P` be what
is reported for `w`, and let a caller who wants the distribution `q` for `w` set virtual evidence with likelihoods proportional to
`q / P`. Then `q` is reported for `w`, and every value `x` of every node `v` is reported with the average of what would be reported
after observing each value of `w`, weighted with `q`. -/
theorem c116_jeffrey_partial (hu : Net.Usable ops) (hj : apply it js (Bbn.run ops) = .ok jt) (h : List (SetIter Str × EvOp))
    (hp : ∀ op ∈ h, op.2.Ok (Bbn.run ops).vars) {w : Variable} (hw : w ∈ (Bbn.run ops).vars) (hn : NoEvidenceOn (runHist jt h) w)
    {m : Dict Str ℚ} (hm : Soft w m) {P q : Str → ℚ} (hP : ∀ y ∈ w.values, Reports (runHist jt h) w y (P y))
    (hq : (w.values.map q).sum = 1) {c : ℚ} (hc : c ≠ 0) (hmq : ∀ y ∈ w.values, (Dict.get? m y).getD 0 * P y = c * q y) (s : SetIter Str) :
    (∀ y ∈ w.values, Reports (runHist jt (h ++ [(s, .update [⟨w, .virtual, m⟩])])) w y (q y)) ∧
      ∀ v ∈ (Bbn.run ops).vars, ∀ x ∈ v.values, ∀ (t : SetIter Str) (R : Str → ℚ),
        (∀ y ∈ w.values, Reports (runHist jt (h ++ [(t, .update [obs w y])])) v x (R y)) →
        Reports (runHist jt (h ++ [(s, .update [⟨w, .virtual, m⟩])])) v x ((w.values.map (fun y => q y * R y)).sum) := by
  have hi := bbn_run_inv ops
  have hnd := (doms hu.toSane).vals w hw
  have hpp : ∀ op ∈ h, op.2.Proper (Bbn.run ops).vars := fun op ho => (hp op ho).proper
  have h0 := noEvidenceOn_iff hu hj h hpp hw hn
  have hwn := spec_weight_nonneg hu hj h hp
  have hT : (Bbn.run ops).total (specHist (Bbn.run ops).vars h) ≠ 0 := by
    intro hT
    have : (w.values.map q).sum = 0 := by
      apply List.sum_eq_zero
      intro a ha
      obtain ⟨y, hy, rfl⟩ := List.mem_map.1 ha
      have e := hmq y hy
      rw [reports_unique (hP y hy) (reports hu hj h hp hw hy)] at e
      unfold Bbn.posterior at e
      rw [hT, div_zero, mul_zero] at e
      exact (mul_eq_zero.1 e.symm).resolve_left hc
    rw [hq] at this
    exact one_ne_zero this
  -- the likelihoods times the masses
  have hf : ∀ y ∈ w.values, Evidence.canon ⟨w, .virtual, m⟩ y * (Bbn.run ops).mass (specHist (Bbn.run ops).vars h) w.id y =
      c * (Bbn.run ops).total (specHist (Bbn.run ops).vars h) * q y := by
    intro y hy
    have e := hmq y hy
    rw [reports_unique (hP y hy) (reports hu hj h hp hw hy)] at e
    unfold Bbn.posterior at e
    rw [hm.canon hy]
    field_simp at e
    linarith
  have htot : (Bbn.run ops).total ((specHist (Bbn.run ops).vars h).put w (Evidence.canon ⟨w, .virtual, m⟩)) =
      c * (Bbn.run ops).total (specHist (Bbn.run ops).vars h) := by
    rw [← sum_mass_total hi hw hnd]
    have : w.values.map (fun y => (Bbn.run ops).mass ((specHist (Bbn.run ops).vars h).put w (Evidence.canon ⟨w, .virtual, m⟩)) w.id y) =
        w.values.map (fun y => c * (Bbn.run ops).total (specHist (Bbn.run ops).vars h) * q y) := by
      refine List.map_congr_left ?_
      intro y hy
      rw [mass_soft_self hi hw h0, hf y hy]
    rw [this, List.sum_map_mul_left, hq, mul_one]
  have hcT : c * (Bbn.run ops).total (specHist (Bbn.run ops).vars h) ≠ 0 := mul_ne_zero hc hT
  have hrep : ∀ v ∈ (Bbn.run ops).vars, ∀ x ∈ v.values, Reports (runHist jt (h ++ [(s, .update [⟨w, .virtual, m⟩])])) v x
      ((Bbn.run ops).posterior ((specHist (Bbn.run ops).vars h).put w (Evidence.canon ⟨w, .virtual, m⟩)) v.id x) := by
    intro v hv x hx
    have h4 := reports_law hu hj (h ++ [(s, .update [⟨w, .virtual, m⟩])]) (proper_append hpp (hm.proper hw hnd)) hv hx
    rwa [law_seen (e := ⟨w, .virtual, m⟩) h0 (hm.exists_ne hnd) s] at h4
  constructor
  · intro y hy
    have h5 := hrep w hw y hy
    unfold Bbn.posterior at h5
    rw [htot, mass_soft_self hi hw h0, hf y hy] at h5
    rwa [mul_div_cancel_left₀ _ hcT] at h5
  · intro v hv x hx t R hR
    have h5 := hrep v hv x hx
    unfold Bbn.posterior at h5
    rw [htot, mass_soft hi hw hnd h0] at h5
    have e : (w.values.map (fun y => Evidence.canon ⟨w, .virtual, m⟩ y * (Bbn.run ops).mass2 (specHist (Bbn.run ops).vars h) v.id x w.id y)).sum =
        c * (Bbn.run ops).total (specHist (Bbn.run ops).vars h) * (w.values.map (fun y => q y * R y)).sum := by
      rw [← List.sum_map_mul_left]
      refine congrArg List.sum (List.map_congr_left ?_)
      intro y hy
      have e1 := hf y hy
      have e2 := reports_unique (hR y hy) (reports_obs hu hj h hp hv hw hn hx hy t)
      by_cases e3 : (Bbn.run ops).mass (specHist (Bbn.run ops).vars h) w.id y = 0
      · have e4 : (Bbn.run ops).mass2 (specHist (Bbn.run ops).vars h) v.id x w.id y = 0 := by
          rw [mass2_comm]; exact mass2_zero hwn e3 v.id x
        rw [e2, e4]; simp
      · rw [e2, ← mul_assoc, ← e1]
        field_simp
    rw [e, mul_div_cancel_left₀ _ hcT] at h5
    exact h5

/-- the likelihoods a caller sets to move the distribution of `w` from `P` to `q` -/
def towards (w : Variable) (P q : Str → ℚ) : Dict Str ℚ :=
  w.values.map (fun y => (y, (q y / P y) / (w.values.map (fun z => q z / P z)).sum))

/-- **C116**, every distribution can be set. For a node without evidence, with at least two values, every distribution `q` that gives
probability to values only that are reported with a positive probability is reported after the virtual evidence `towards w P q`. -/
theorem c116_set_distribution_partial (hu : Net.Usable ops) (hj : apply it js (Bbn.run ops) = .ok jt) (h : List (SetIter Str × EvOp))
    (hp : ∀ op ∈ h, op.2.Ok (Bbn.run ops).vars) {w : Variable} (hw : w ∈ (Bbn.run ops).vars) (hn : NoEvidenceOn (runHist jt h) w)
    (h2 : 2 ≤ w.values.length) {P q : Str → ℚ} (hP : ∀ y ∈ w.values, Reports (runHist jt h) w y (P y))
    (hq0 : ∀ y ∈ w.values, 0 ≤ q y) (hq : (w.values.map q).sum = 1) (hac : ∀ y ∈ w.values, P y = 0 → q y = 0) (s : SetIter Str) :
    (∀ y ∈ w.values, Reports (runHist jt (h ++ [(s, .update [⟨w, .virtual, towards w P q⟩])])) w y (q y)) ∧
      ∀ v ∈ (Bbn.run ops).vars, ∀ x ∈ v.values, ∀ (t : SetIter Str) (R : Str → ℚ),
        (∀ y ∈ w.values, Reports (runHist jt (h ++ [(t, .update [obs w y])])) v x (R y)) →
        Reports (runHist jt (h ++ [(s, .update [⟨w, .virtual, towards w P q⟩])])) v x ((w.values.map (fun y => q y * R y)).sum) := by
  have hnd := (doms hu.toSane).vals w hw
  have hP0 : ∀ y ∈ w.values, 0 ≤ P y := by
    intro y hy
    rw [reports_unique (hP y hy) (reports hu hj h hp hw hy)]
    have hwn := spec_weight_nonneg hu hj h hp
    unfold Bbn.posterior Bbn.mass Bbn.total
    refine div_nonneg (List.sum_nonneg ?_) (List.sum_nonneg ?_) <;>
    · intro a ha
      obtain ⟨σ, _, rfl⟩ := List.mem_map.1 ha
      exact hwn σ
  have hr0 : ∀ y ∈ w.values, 0 ≤ q y / P y := fun y hy => div_nonneg (hq0 y hy) (hP0 y hy)
  have hle : ∀ y ∈ w.values, q y / P y ≤ (w.values.map (fun z => q z / P z)).sum := by
    intro y hy
    refine List.single_le_sum ?_ _ (List.mem_map_of_mem hy)
    intro a ha
    obtain ⟨z, hz, rfl⟩ := List.mem_map.1 ha
    exact hr0 z hz
  have hS : 0 < (w.values.map (fun z => q z / P z)).sum := by
    refine lt_of_le_of_ne (List.sum_nonneg (fun a ha => by obtain ⟨z, hz, rfl⟩ := List.mem_map.1 ha; exact hr0 z hz)) ?_
    intro e
    have : (w.values.map q).sum = 0 := by
      apply List.sum_eq_zero
      intro a ha
      obtain ⟨y, hy, rfl⟩ := List.mem_map.1 ha
      have h3 : q y / P y = 0 := le_antisymm (e ▸ hle y hy) (hr0 y hy)
      rcases div_eq_zero_iff.1 h3 with h4 | h4
      · exact h4
      · exact hac y hy h4
    rw [hq] at this
    exact one_ne_zero this
  have hk : Dict.keys (towards w P q) = w.values := by
    unfold Dict.keys towards
    rw [List.map_map]
    exact List.map_id' _
  have hg : ∀ y ∈ w.values, Dict.get? (towards w P q) y = some ((q y / P y) / (w.values.map (fun z => q z / P z)).sum) := by
    intro y hy
    refine Dict.get?_of_mem (by rw [hk]; exact hnd) ?_
    exact List.mem_map_of_mem (f := fun y => (y, (q y / P y) / (w.values.map (fun z => q z / P z)).sum)) hy
  have hv : Dict.values (towards w P q) = w.values.map (fun y => (q y / P y) / (w.values.map (fun z => q z / P z)).sum) := by
    unfold Dict.values towards
    rw [List.map_map]
    rfl
  have hm : Soft w (towards w P q) := by
    refine ⟨hk, ?_, ?_⟩
    · intro p hp
      rw [hv] at hp
      obtain ⟨y, hy, rfl⟩ := List.mem_map.1 hp
      exact ⟨div_nonneg (hr0 y hy) hS.le, div_le_one_of_le₀ (hle y hy) hS.le⟩
    · by_contra hcon
      push Not at hcon
      have h3 : (Dict.values (towards w P q)).sum = 1 := by
        rw [hv]
        have : w.values.map (fun y => (q y / P y) / (w.values.map (fun z => q z / P z)).sum) =
            w.values.map (fun y => (q y / P y) * ((w.values.map (fun z => q z / P z)).sum)⁻¹) := rfl
        rw [this, List.sum_map_mul_right, mul_inv_cancel₀ hS.ne']
      rw [List.eq_replicate_of_mem hcon, List.sum_replicate, hv, List.length_map, nsmul_eq_mul, mul_one] at h3
      have : (2 : ℚ) ≤ w.values.length := by exact_mod_cast h2
      rw [h3] at this
      norm_num at this
  refine c116_jeffrey_partial hu hj h hp hw hn hm hP hq (c := ((w.values.map (fun z => q z / P z)).sum)⁻¹) (inv_ne_zero hS.ne') ?_ s
  intro y hy
  rw [hg y hy, Option.getD_some]
  by_cases e : P y = 0
  · rw [hac y hy e, e]; simp
  · field_simp

end

/-! ## The claim without the restriction fails -/

/-- **C116 is false of the code** after ambiguous evidence (the history of `c18_false`): node 1 has no evidence and is reported with
391/1341 and 950/1341; virtual evidence proportional to `(1/2) / P` does not make the report one half. -/
theorem c116_false : Net.Usable c16_ops ∧ (∀ op ∈ c18_bad, op.2.Proper (Bbn.run c16_ops).vars) ∧
    ∃ jt p q r, apply .same .same (Bbn.run c16_ops) = .ok jt ∧ NoEvidenceOn (runHist jt c18_bad) (c16_node 1) ∧
      Reports (runHist jt c18_bad) (c16_node 1) "on".toList p ∧ Reports (runHist jt c18_bad) (c16_node 1) "off".toList q ∧ p + q = 1 ∧ 0 < p ∧ 0 < q ∧
      Reports (runHist jt (c18_bad ++ [(.same, .update [⟨c16_node 1, .virtual, [("on".toList, q), ("off".toList, p)]⟩])])) (c16_node 1) "on".toList r ∧
      r ≠ 1 / 2 := by
  refine ⟨c16_usable, c18_false.2.1, ?_⟩
  have key0 : ((apply .same .same (Bbn.run c16_ops)).val?.map (fun jt => decide (NoEvidenceOn (runHist jt c18_bad) (c16_node 1)))) = some true := by
    decide +kernel
  have key : ((apply .same .same (Bbn.run c16_ops)).val?.map (fun jt =>
      [reportOf (runHist jt c18_bad) (c16_node 1) "on".toList, reportOf (runHist jt c18_bad) (c16_node 1) "off".toList,
        reportOf (runHist jt (c18_bad ++ [(.same, .update [⟨c16_node 1, .virtual, [("on".toList, 950 / 1341), ("off".toList, 391 / 1341)]⟩])]))
          (c16_node 1) "on".toList])) =
      some [some (391 / 1341), some (950 / 1341), some (94145 / 182902)] := by decide +kernel
  cases hj : apply .same .same (Bbn.run c16_ops) with
  | error e => rw [hj] at key; cases key
  | ok jt =>
    rw [hj] at key key0
    simp only [Py.val?, Option.map_some, Option.some.injEq, List.cons.injEq, and_true, decide_eq_true_eq] at key key0
    obtain ⟨h2, h3, h4⟩ := key
    exact ⟨jt, _, _, _, rfl, key0, reports_of_eval h2, reports_of_eval h3, by norm_num, by norm_num, by norm_num, reports_of_eval h4, by norm_num⟩

/-! ## The claims are not vacuous -/

/-- C116: after the history of C18 node 0 has no evidence and is reported with 56/155 and 99/155. A caller sets one half; one half is
reported for node 0, and for node 3 the mean of 4/35 and 4/55, which are reported after observing node 0. -/
example : Net.Usable c16_ops ∧ (∀ op ∈ c18_hist, op.2.Ok (Bbn.run c16_ops).vars) ∧
    ((apply .same .same (Bbn.run c16_ops)).val?.map (fun jt => decide (NoEvidenceOn (runHist jt c18_hist) (c16_node 0)))) = some true ∧
    towards (c16_node 0) (fun y => if y = "on".toList then 56 / 155 else 99 / 155) (fun _ => 1 / 2) =
      [("on".toList, 99 / 155), ("off".toList, 56 / 155)] ∧
    ((apply .same .same (Bbn.run c16_ops)).val?.map (fun jt =>
      let jt' := runHist jt (c18_hist ++ [(.same, .update [⟨c16_node 0, .virtual, [("on".toList, 99 / 155), ("off".toList, 56 / 155)]⟩])])
      [firstOf (runHist jt c18_hist) (c16_node 0), firstOf jt' (c16_node 0), firstOf jt' (c16_node 3)])) =
      some [some (56 / 155), some (1 / 2), some ((4 / 35 + 4 / 55) / 2)] :=
  ⟨c16_usable, c18_hist_ok, by decide +kernel, by decide +kernel, by decide +kernel⟩

end PyBBN
