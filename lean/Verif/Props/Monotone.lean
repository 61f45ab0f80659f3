import Verif.Props.Certain

/-! # C91: how evidence about a node moves the report of the node -/

namespace PyBBN
open Relation InferenceController

section
variable {it it' : SetIter Int} {js js' : SetIter Str} {ops : List BOp} {jt jt' : JoinTree}

theorem spec_nonneg (hu : Net.Usable ops) (hj : apply it js (Bbn.run ops) = .ok jt) (h : List (SetIter Str × EvOp))
    (hp : ∀ op ∈ h, op.2.Ok (Bbn.run ops).vars) (i : Int) (x : Str) : 0 ≤ specHist (Bbn.run ops).vars h i x := by
  obtain ⟨T, h1, h2, h3⟩ := live_law hu.toSane hj h (fun op ho => (hp op ho).proper)
  rw [← (lawHist_ok (doms hu.toSane) h hp).1]
  exact h1.calib.likNonneg i x

/-- the likelihood of a value is a factor of its mass; the other factor does not depend on the evidence about the node -/
theorem mass_factor {b : Bbn} (hi : BbnInv b) {ℓ ℓ' : Liks} {v : Variable} (hv : v ∈ b.vars)
    (h : ∀ w ∈ b.vars, w.id ≠ v.id → ∀ y ∈ w.values, ℓ' w.id y = ℓ w.id y) {x : Str} (hx : x ∈ v.values) :
    b.mass ℓ' v.id x = ℓ' v.id x * b.mass (ℓ.put v (fun _ => 1)) v.id x := by
  unfold Bbn.mass
  rw [← List.sum_map_mul_left]
  refine congrArg List.sum (List.map_congr_left ?_)
  intro σ hσ
  obtain ⟨h1, h2⟩ := List.mem_filter.1 hσ
  simp only [decide_eq_true_eq] at h2
  have hd : InDom b.vars σ := allAsg_mem_dom b.vars (vars_nodup hi) σ h1
  rw [← h2, ← weight_put hi hv (fun y hy => put_at hy) (ℓ' v.id) hd]
  refine weight_congr ?_ hd
  intro w hw y hy
  by_cases e : w.id = v.id
  · have : w = v := List.inj_on_of_nodup_map (vars_nodup hi) hw hv e
    rw [this, put_at (this ▸ hy)]
  · rw [put_ne e, put_ne e, h w hw e y hy]

/-- what two sessions that differ in the evidence about one node report about it -/
theorem reports_two (hu : Net.Usable ops) (hj : apply it js (Bbn.run ops) = .ok jt) (hj' : apply it' js' (Bbn.run ops) = .ok jt')
    (h h' : List (SetIter Str × EvOp)) (hp : ∀ op ∈ h, op.2.Ok (Bbn.run ops).vars) (hp' : ∀ op ∈ h', op.2.Ok (Bbn.run ops).vars)
    {v : Variable} (hv : v ∈ (Bbn.run ops).vars)
    (ho : ∀ w ∈ (Bbn.run ops).vars, w.id ≠ v.id → ∀ y ∈ w.values, ∃ p, Stored (runHist jt h) w y p ∧ Stored (runHist jt' h') w y p)
    {l l' : Str → ℚ} (hl : ∀ x ∈ v.values, Stored (runHist jt h) v x (l x)) (hl' : ∀ x ∈ v.values, Stored (runHist jt' h') v x (l' x)) :
    (∀ x ∈ v.values, 0 ≤ l x ∧ 0 ≤ l' x) ∧ ∃ m : Str → ℚ, (∀ x, 0 ≤ m x) ∧ ∀ x ∈ v.values,
      Reports (runHist jt h) v x (l x * m x / (v.values.map (fun y => l y * m y)).sum) ∧
      Reports (runHist jt' h') v x (l' x * m x / (v.values.map (fun y => l' y * m y)).sum) := by
  have hi := bbn_run_inv ops
  have hpp : ∀ op ∈ h, op.2.Proper (Bbn.run ops).vars := fun op ho => (hp op ho).proper
  have hpp' : ∀ op ∈ h', op.2.Proper (Bbn.run ops).vars := fun op ho => (hp' op ho).proper
  have e : ∀ x ∈ v.values, l x = specHist (Bbn.run ops).vars h v.id x := fun x hx => (stored_iff hu hj h hpp hv hx _).1 (hl x hx)
  have e' : ∀ x ∈ v.values, l' x = specHist (Bbn.run ops).vars h' v.id x := fun x hx => (stored_iff hu hj' h' hpp' hv hx _).1 (hl' x hx)
  refine ⟨fun x hx => ⟨e x hx ▸ spec_nonneg hu hj h hp _ _, e' x hx ▸ spec_nonneg hu hj' h' hp' _ _⟩,
    fun x => (Bbn.run ops).mass ((specHist (Bbn.run ops).vars h).put v (fun _ => 1)) v.id x, ?_, ?_⟩
  · intro x
    unfold Bbn.mass
    apply List.sum_nonneg
    intro q hq
    obtain ⟨σ, _, rfl⟩ := List.mem_map.1 hq
    refine weight_nonneg hu.wf ?_ σ
    intro i y
    unfold Liks.put
    split
    · exact zero_le_one
    · exact spec_nonneg hu hj h hp _ _
  · have hm : ∀ x ∈ v.values, (Bbn.run ops).mass (specHist (Bbn.run ops).vars h) v.id x =
        l x * (Bbn.run ops).mass ((specHist (Bbn.run ops).vars h).put v (fun _ => 1)) v.id x := by
      intro x hx
      rw [e x hx]
      exact mass_factor hi hv (fun _ _ _ _ _ => rfl) hx
    have hm' : ∀ x ∈ v.values, (Bbn.run ops).mass (specHist (Bbn.run ops).vars h') v.id x =
        l' x * (Bbn.run ops).mass ((specHist (Bbn.run ops).vars h).put v (fun _ => 1)) v.id x := by
      intro x hx
      rw [e' x hx]
      refine mass_factor hi hv ?_ hx
      intro w hw hne y hy
      obtain ⟨p, h1, h2⟩ := ho w hw hne y hy
      rw [← (stored_iff hu hj h hpp hw hy _).1 h1, ← (stored_iff hu hj' h' hpp' hw hy _).1 h2]
    intro x hx
    have hs := sum_mass hi (specHist (Bbn.run ops).vars h) hv ((doms hu.toSane).vals v hv)
    have hs' := sum_mass hi (specHist (Bbn.run ops).vars h') hv ((doms hu.toSane).vals v hv)
    rw [List.map_congr_left hm] at hs
    rw [List.map_congr_left hm'] at hs'
    have h1 := reports hu hj h hp hv hx
    have h2 := reports hu hj' h' hp' hv hx
    unfold Bbn.posterior at h1 h2
    rw [hm x hx, ← hs] at h1
    rw [hm' x hx, ← hs'] at h2
    exact ⟨h1, h2⟩

/-- **C91**, partial: Bayes' rule in odds form. On a connected network, two sessions of unambiguous evidence that store the same
likelihoods for all nodes but one: the odds between two values of this node change by the ratio of their likelihoods.
Missing: ambiguous virtual evidence (`c91_false`). -/
theorem c91_odds_partial (hu : Net.Usable ops) (hj : apply it js (Bbn.run ops) = .ok jt) (hj' : apply it' js' (Bbn.run ops) = .ok jt')
    (h h' : List (SetIter Str × EvOp)) (hp : ∀ op ∈ h, op.2.Ok (Bbn.run ops).vars) (hp' : ∀ op ∈ h', op.2.Ok (Bbn.run ops).vars)
    {v : Variable} (hv : v ∈ (Bbn.run ops).vars)
    (ho : ∀ w ∈ (Bbn.run ops).vars, w.id ≠ v.id → ∀ y ∈ w.values, ∃ p, Stored (runHist jt h) w y p ∧ Stored (runHist jt' h') w y p)
    {l l' : Str → ℚ} (hl : ∀ x ∈ v.values, Stored (runHist jt h) v x (l x)) (hl' : ∀ x ∈ v.values, Stored (runHist jt' h') v x (l' x))
    {r r' : Str → ℚ} (hr : ∀ x ∈ v.values, Reports (runHist jt h) v x (r x)) (hr' : ∀ x ∈ v.values, Reports (runHist jt' h') v x (r' x))
    {x y : Str} (hx : x ∈ v.values) (hy : y ∈ v.values) :
    (r' x * l x) * (r y * l' y) = (r' y * l y) * (r x * l' x) := by
  obtain ⟨_, m, _, h1⟩ := reports_two hu hj hj' h h' hp hp' hv ho hl hl'
  rw [reports_unique (hr x hx) (h1 x hx).1, reports_unique (hr y hy) (h1 y hy).1, reports_unique (hr' x hx) (h1 x hx).2,
    reports_unique (hr' y hy) (h1 y hy).2]
  ring

theorem sum_raise {l : List Str} {f g : Str → ℚ} {x : Str} (hn : l.Nodup) (hx : x ∈ l) (h : ∀ y ∈ l, y ≠ x → g y = f y) :
    (l.map g).sum = (l.map f).sum + (g x - f x) := by
  induction l with
  | nil => simp at hx
  | cons a l ih =>
    rw [List.nodup_cons] at hn
    rw [List.map_cons, List.map_cons, List.sum_cons, List.sum_cons]
    rcases List.mem_cons.1 hx with rfl | hx
    · have : l.map g = l.map f := List.map_congr_left (fun y hy => h y (List.mem_cons_of_mem _ hy) (fun e => hn.1 (e ▸ hy)))
      rw [this]; ring
    · rw [ih hn.2 hx (fun y hy => h y (List.mem_cons_of_mem _ hy)), h a List.mem_cons_self (fun e => hn.1 (e ▸ hx))]
      ring

/-- **C91**, partial. In the situation of `c91_odds_partial`, if the likelihood of one value of the node is raised and the others stay, the
report of this value does not fall and the reports of the other values do not rise; both sessions may be impossible (reports are 0 then).
Missing: ambiguous virtual evidence (`c91_false`). -/
theorem c91_raise_partial (hu : Net.Usable ops) (hj : apply it js (Bbn.run ops) = .ok jt) (hj' : apply it' js' (Bbn.run ops) = .ok jt')
    (h h' : List (SetIter Str × EvOp)) (hp : ∀ op ∈ h, op.2.Ok (Bbn.run ops).vars) (hp' : ∀ op ∈ h', op.2.Ok (Bbn.run ops).vars)
    {v : Variable} (hv : v ∈ (Bbn.run ops).vars)
    (ho : ∀ w ∈ (Bbn.run ops).vars, w.id ≠ v.id → ∀ y ∈ w.values, ∃ p, Stored (runHist jt h) w y p ∧ Stored (runHist jt' h') w y p)
    {l l' : Str → ℚ} (hl : ∀ x ∈ v.values, Stored (runHist jt h) v x (l x)) (hl' : ∀ x ∈ v.values, Stored (runHist jt' h') v x (l' x))
    {x : Str} (hx : x ∈ v.values) (hup : l x ≤ l' x) (hrest : ∀ y ∈ v.values, y ≠ x → l' y = l y)
    {r r' : Str → ℚ} (hr : ∀ y ∈ v.values, Reports (runHist jt h) v y (r y)) (hr' : ∀ y ∈ v.values, Reports (runHist jt' h') v y (r' y)) :
    r x ≤ r' x ∧ ∀ y ∈ v.values, y ≠ x → r' y ≤ r y := by
  obtain ⟨h0, m, hm, h1⟩ := reports_two hu hj hj' h h' hp hp' hv ho hl hl'
  have hS := sum_raise (f := fun y => l y * m y) (g := fun y => l' y * m y) ((doms hu.toSane).vals v hv) hx
    (fun y hy hne => by simp only [hrest y hy hne])
  have hge : ∀ y ∈ v.values, l y * m y ≤ (v.values.map (fun y => l y * m y)).sum := by
    intro y hy
    refine List.single_le_sum ?_ _ (List.mem_map_of_mem (f := fun y => l y * m y) hy)
    intro q hq
    obtain ⟨z, hz, rfl⟩ := List.mem_map.1 hq
    exact mul_nonneg (h0 z hz).1 (hm z)
  have hd : 0 ≤ l' x * m x - l x * m x := by
    have := mul_le_mul_of_nonneg_right hup (hm x)
    linarith
  have hx0 : 0 ≤ l x * m x := mul_nonneg (h0 x hx).1 (hm x)
  constructor
  · rw [reports_unique (hr x hx) (h1 x hx).1, reports_unique (hr' x hx) (h1 x hx).2, hS]
    set S := (v.values.map (fun y => l y * m y)).sum
    have hxS := hge x hx
    rcases (hx0.trans hxS).eq_or_lt with e | e
    · rw [← e, div_zero, zero_add]
      exact div_nonneg (mul_nonneg (h0 x hx).2 (hm x)) hd
    · rw [div_le_div_iff₀ e (by linarith)]
      nlinarith
  · intro y hy hne
    rw [reports_unique (hr y hy) (h1 y hy).1, reports_unique (hr' y hy) (h1 y hy).2, hS, hrest y hy hne]
    set S := (v.values.map (fun y => l y * m y)).sum
    have hyS := hge y hy
    have hy0 : 0 ≤ l y * m y := mul_nonneg (h0 y hy).1 (hm y)
    rcases (hy0.trans hyS).eq_or_lt with e | e
    · have : l y * m y = 0 := le_antisymm (by linarith) hy0
      rw [this]; simp
    · exact div_le_div_of_nonneg_left hy0 e (by linarith)

end

/-! ## The claim without the restriction fails -/

/-- `c78_bad` stores likelihood 0 for `off`; this stores 1/4 -/
def c91_bad : List (SetIter Str × EvOp) :=
  [(.same, .update [Evidence.build (c16_node 4) .virtual [("on".toList, 1), ("off".toList, 1/4)]])]

theorem c91_bad_proper : ∀ op ∈ c91_bad, op.2.Proper (Bbn.run c16_ops).vars := by
  intro op hop
  simp only [c91_bad, List.mem_cons, List.not_mem_nil, or_false] at hop
  subst hop
  intro e he
  simp only [List.mem_cons, List.not_mem_nil, or_false] at he
  subst he
  exact by decide +kernel

/-- **C91** fails for ambiguous virtual evidence: the likelihood stored for `off` is higher in the second session and all others are the
same, but the report of `off` is lower. -/
theorem c91_false : Net.Usable c16_ops ∧ (∀ op ∈ c78_bad, op.2.Proper (Bbn.run c16_ops).vars) ∧ (∀ op ∈ c91_bad, op.2.Proper (Bbn.run c16_ops).vars) ∧
    ∃ jt p p', apply .same .same (Bbn.run c16_ops) = .ok jt ∧
      (∀ w ∈ (Bbn.run c16_ops).vars, w.id ≠ 4 → ∀ y ∈ w.values, Stored (runHist jt c78_bad) w y 1 ∧ Stored (runHist jt c91_bad) w y 1) ∧
      Stored (runHist jt c78_bad) (c16_node 4) "on".toList 1 ∧ Stored (runHist jt c91_bad) (c16_node 4) "on".toList 1 ∧
      Stored (runHist jt c78_bad) (c16_node 4) "off".toList 0 ∧ Stored (runHist jt c91_bad) (c16_node 4) "off".toList (1 / 4) ∧
      Reports (runHist jt c78_bad) (c16_node 4) "off".toList p ∧ Reports (runHist jt c91_bad) (c16_node 4) "off".toList p' ∧ p' < p := by
  refine ⟨c16_usable, c78_bad_proper, c91_bad_proper, ?_⟩
  have key : ((apply .same .same (Bbn.run c16_ops)).val?.map (fun jt =>
      [reportOf (runHist jt c78_bad) (c16_node 4) "off".toList, reportOf (runHist jt c91_bad) (c16_node 4) "off".toList])) =
      some [some (193 / 1087), some (193 / 1981)] := by decide +kernel
  cases hj : apply .same .same (Bbn.run c16_ops) with
  | error e => rw [hj] at key; cases key
  | ok jt =>
    rw [hj] at key
    simp only [Py.val?, Option.map_some, Option.some.injEq, List.cons.injEq, and_true] at key
    obtain ⟨h2, h3⟩ := key
    refine ⟨jt, _, _, rfl, ?_, ?_, ?_, ?_, ?_, reports_of_eval h2, reports_of_eval h3, by decide +kernel⟩
    · intro w hw hne y hy
      rw [stored_iff c16_usable hj _ c78_bad_proper hw hy, stored_iff c16_usable hj _ c91_bad_proper hw hy]
      have : ∀ w ∈ (Bbn.run c16_ops).vars, w.id ≠ 4 → ∀ y ∈ w.values, 1 = specHist (Bbn.run c16_ops).vars c78_bad w.id y ∧
        1 = specHist (Bbn.run c16_ops).vars c91_bad w.id y := by decide +kernel
      exact this w hw hne y hy
    all_goals
      first
        | rw [stored_iff c16_usable hj _ c78_bad_proper (by decide +kernel) (by decide +kernel)]; decide +kernel
        | rw [stored_iff c16_usable hj _ c91_bad_proper (by decide +kernel) (by decide +kernel)]; decide +kernel

/-! ## The claims are not vacuous -/

/-- node 1 is observed and node 3 gets virtual evidence -/
def c91_h : List (SetIter Str × EvOp) :=
  [(.same, .update [Evidence.build (c16_node 1) .observation [("on".toList, 1)],
      Evidence.build (c16_node 3) .virtual [("on".toList, 1/4), ("off".toList, 1/2)]])]

/-- the same with a higher likelihood for `on`, given in another order -/
def c91_h' : List (SetIter Str × EvOp) :=
  [(.rev, .update [Evidence.build (c16_node 3) .virtual [("on".toList, 3/4), ("off".toList, 1/2)]]),
   (.same, .update [Evidence.build (c16_node 1) .observation [("on".toList, 1)]])]

/-- C91: unambiguous evidence; the likelihood of `on` is raised from 1/4 to 3/4, all other likelihoods are the same, and the report of
`on` rises -/
example : Net.Usable c16_ops ∧ (∀ op ∈ c91_h, op.2.Ok (Bbn.run c16_ops).vars) ∧ (∀ op ∈ c91_h', op.2.Ok (Bbn.run c16_ops).vars) ∧
    (∀ w ∈ (Bbn.run c16_ops).vars, w.id ≠ 3 → ∀ y ∈ w.values, specHist (Bbn.run c16_ops).vars c91_h w.id y = specHist (Bbn.run c16_ops).vars c91_h' w.id y) ∧
    (c16_node 3).values.map (specHist (Bbn.run c16_ops).vars c91_h 3) = [1 / 4, 1 / 2] ∧
    (c16_node 3).values.map (specHist (Bbn.run c16_ops).vars c91_h' 3) = [3 / 4, 1 / 2] ∧
    ((apply .same .same (Bbn.run c16_ops)).val?.map (fun jt => (c16_node 3).values.map (fun x => (reportOf (runHist jt c91_h) (c16_node 3) x,
      reportOf (runHist jt c91_h') (c16_node 3) x)))) = some [(some (59 / 441), some (177 / 559)), (some (382 / 441), some (382 / 559))] := by
  refine ⟨c16_usable, ?_, ?_, by decide +kernel, by decide +kernel, by decide +kernel, by decide +kernel⟩
  · intro op hop
    simp only [c91_h, List.mem_cons, List.not_mem_nil, or_false] at hop
    subst hop
    intro e he
    simp only [List.mem_cons, List.not_mem_nil, or_false] at he
    rcases he with rfl | rfl
    · exact ⟨by decide +kernel, unambiguous_of_check (by decide +kernel)⟩
    · exact ⟨by decide +kernel, unambiguous_of_check (by decide +kernel)⟩
  · intro op hop
    simp only [c91_h', List.mem_cons, List.not_mem_nil, or_false] at hop
    rcases hop with rfl | rfl
    · intro e he
      simp only [List.mem_cons, List.not_mem_nil, or_false] at he
      subst he
      exact ⟨by decide +kernel, unambiguous_of_check (by decide +kernel)⟩
    · intro e he
      simp only [List.mem_cons, List.not_mem_nil, or_false] at he
      subst he
      exact ⟨by decide +kernel, unambiguous_of_check (by decide +kernel)⟩

end PyBBN
