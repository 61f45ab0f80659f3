import Verif.Props.Certain

/-! # C122: an observation never makes decisions worse on average -/

namespace PyBBN
open Relation InferenceController

section
variable {ops : List BOp} {it : SetIter Int} {js : SetIter Str} {jt : JoinTree}

/-- expected utility of an action with utilities `u` under the distribution `p` of a variable with the given values -/
def expUtil (vals : List Str) (u p : Str → ℚ) : ℚ := (vals.map (fun x => u x * p x)).sum

/-- expected utility of observing first (outcome `y` has probability `q y`, the distribution becomes `p' y`) and choosing `δ y` then -/
def expUtilObs {A : Type} (outs vals : List Str) (u : A → Str → ℚ) (q : Str → ℚ) (p' : Str → Str → ℚ) (δ : Str → A) : ℚ :=
  (outs.map (fun y => q y * expUtil vals (u (δ y)) (p' y))).sum

theorem sum_swap {α β : Type} (l : List α) (m : List β) (f : α → β → ℚ) :
    (l.map (fun a => (m.map (f a)).sum)).sum = (m.map (fun b => (l.map (fun a => f a b)).sum)).sum := by
  induction l with
  | nil => simp
  | cons a l ih => simp [ih, List.sum_map_add]

theorem sum_le_of {α : Type} {l : List α} {f g : α → ℚ} (h : ∀ a ∈ l, f a ≤ g a) : (l.map f).sum ≤ (l.map g).sum := by
  induction l with
  | nil => simp
  | cons a l ih =>
    rw [List.map_cons, List.map_cons, List.sum_cons, List.sum_cons]
    exact add_le_add (h a (by simp)) (ih (fun b hb => h b (by simp [hb])))

theorem sum_lt_of {α : Type} {l : List α} {f g : α → ℚ} (h : ∀ a ∈ l, f a ≤ g a) {b : α} (hb : b ∈ l) (hlt : f b < g b) :
    (l.map f).sum < (l.map g).sum := by
  induction l with
  | nil => cases hb
  | cons a l ih =>
    rw [List.map_cons, List.map_cons, List.sum_cons, List.sum_cons]
    rcases List.mem_cons.1 hb with rfl | hb'
    · exact add_lt_add_of_lt_of_le hlt (sum_le_of (fun b hb => h b (by simp [hb])))
    · exact add_lt_add_of_le_of_lt (h a (by simp)) (ih (fun b hb => h b (by simp [hb])) hb')

/-- what is reported is not negative -/
theorem reports_nonneg (hu : Net.Usable ops) (hj : apply it js (Bbn.run ops) = .ok jt) (h : List (SetIter Str × EvOp))
    (hp : ∀ op ∈ h, op.2.Ok (Bbn.run ops).vars) {v : Variable} (hv : v ∈ (Bbn.run ops).vars) {x : Str} (hx : x ∈ v.values) {p : ℚ}
    (hr : Reports (runHist jt h) v x p) : 0 ≤ p := by
  rw [reports_unique hr (reports hu hj h hp hv hx)]
  have hw0 := spec_weight_nonneg hu hj h hp
  unfold Bbn.posterior
  refine div_nonneg ?_ ?_
  · refine List.sum_nonneg ?_
    intro r hr
    obtain ⟨σ, _, rfl⟩ := List.mem_map.1 hr
    exact hw0 σ
  · refine List.sum_nonneg ?_
    intro r hr
    obtain ⟨σ, _, rfl⟩ := List.mem_map.1 hr
    exact hw0 σ

section
variable (hu : Net.Usable ops) (hj : apply it js (Bbn.run ops) = .ok jt) (h : List (SetIter Str × EvOp))
  (hp : ∀ op ∈ h, op.2.Ok (Bbn.run ops).vars) {v w : Variable} (hv : v ∈ (Bbn.run ops).vars) (hw : w ∈ (Bbn.run ops).vars)
  (hwn : NoEvidenceOn (runHist jt h) w) (k : SetIter Str)
  {p q : Str → ℚ} {p' : Str → Str → ℚ}
  (hr : ∀ x ∈ v.values, Reports (runHist jt h) v x (p x))
  (hq : ∀ y ∈ w.values, Reports (runHist jt h) w y (q y))
  (hr' : ∀ y ∈ w.values, ∀ x ∈ v.values, Reports (runHist jt (h ++ [(k, .update [obs w y])])) v x (p' y x))
include hu hj hp hv hw hwn hr hq hr'

/-- **C122**, the outcome ignored. Choosing the same action whatever the outcome of the observation is worth what the action is worth
without the observation. -/
theorem c122_ignored (u : Str → ℚ) : (w.values.map (fun y => q y * expUtil v.values u (p' y))).sum = expUtil v.values u p := by
  unfold expUtil
  have e : ∀ x ∈ v.values, (w.values.map (fun y => q y * p' y x)).sum = p x := by
    intro x hx
    obtain ⟨q₁, p₁, h1, h2, h3⟩ := c71_total_probability_partial hu hj h hp hv hw hwn hx k
    rw [reports_unique (hr x hx) h3]
    refine congrArg List.sum (List.map_congr_left ?_)
    intro y hy
    rw [reports_unique (hq y hy) (h1 y hy), reports_unique (hr' y hy x hx) (h2 y hy)]
  calc (w.values.map (fun y => q y * (v.values.map (fun x => u x * p' y x)).sum)).sum
      = (w.values.map (fun y => (v.values.map (fun x => u x * (q y * p' y x))).sum)).sum := by
        refine congrArg List.sum (List.map_congr_left ?_)
        intro y _
        rw [← List.sum_map_mul_left]
        refine congrArg List.sum (List.map_congr_left ?_)
        intro x _
        ring
    _ = (v.values.map (fun x => (w.values.map (fun y => u x * (q y * p' y x))).sum)).sum := sum_swap _ _ _
    _ = (v.values.map (fun x => u x * p x)).sum := by
        refine congrArg List.sum (List.map_congr_left ?_)
        intro x hx
        rw [List.sum_map_mul_left, e x hx]

variable {A : Type} (u : A → Str → ℚ) (δ : Str → A) (a : A)

/-- **C122**. Let an action `δ y` be chosen after each outcome `y` of the observation that, by the reports after `w = y`, is not worse than
`a`. Averaged with the reports for `w` this is not worse than choosing `a` without the observation. -/
theorem c122_value (hδ : ∀ y ∈ w.values, expUtil v.values (u a) (p' y) ≤ expUtil v.values (u (δ y)) (p' y)) :
    expUtil v.values (u a) p ≤ expUtilObs w.values v.values u q p' δ := by
  rw [← c122_ignored hu hj h hp hv hw hwn k hr hq hr' (u a)]
  exact sum_le_of (fun y hy => mul_le_mul_of_nonneg_left (hδ y hy) (reports_nonneg hu hj h hp hw hy (hq y hy)))

/-- **C122**, when the observation is worth something: exactly if for some outcome that is reported as possible another action is better
than the one that would have been chosen without the observation. -/
theorem c122_strict (hδ : ∀ y ∈ w.values, expUtil v.values (u a) (p' y) ≤ expUtil v.values (u (δ y)) (p' y)) :
    expUtil v.values (u a) p < expUtilObs w.values v.values u q p' δ ↔
      ∃ y ∈ w.values, q y ≠ 0 ∧ expUtil v.values (u a) (p' y) < expUtil v.values (u (δ y)) (p' y) := by
  rw [← c122_ignored hu hj h hp hv hw hwn k hr hq hr' (u a)]
  have hq0 : ∀ y ∈ w.values, 0 ≤ q y := fun y hy => reports_nonneg hu hj h hp hw hy (hq y hy)
  constructor
  · intro hlt
    by_contra hno
    push Not at hno
    refine absurd hlt (not_lt.2 (sum_le_of ?_))
    intro y hy
    by_cases h0 : q y = 0
    · rw [h0]; simp
    · exact mul_le_mul_of_nonneg_left (hno y hy h0) (hq0 y hy)
  · rintro ⟨y, hy, h0, hlt⟩
    exact sum_lt_of (fun y hy => mul_le_mul_of_nonneg_left (hδ y hy) (hq0 y hy)) hy
      (mul_lt_mul_of_pos_left hlt (lt_of_le_of_ne (hq0 y hy) (Ne.symm h0)))

omit u in
/-- **C122** for guessing. The probability that the guess is right is not smaller if after each outcome a value is guessed that is then
reported at least as probable as `x`. -/
theorem c122_guess {x : Str} (hx : x ∈ v.values) (g : Str → Str) (hg : ∀ y ∈ w.values, p' y x ≤ p' y (g y)) :
    p x ≤ (w.values.map (fun y => q y * p' y (g y))).sum := by
  obtain ⟨q₁, p₁, h1, h2, h3⟩ := c71_total_probability_partial hu hj h hp hv hw hwn hx k
  rw [reports_unique (hr x hx) h3]
  refine sum_le_of ?_
  intro y hy
  rw [← reports_unique (hq y hy) (h1 y hy), ← reports_unique (hr' y hy x hx) (h2 y hy)]
  exact mul_le_mul_of_nonneg_left (hg y hy) (reports_nonneg hu hj h hp hw hy (hq y hy))

end
end

/-! ## the example network: should one bet on node 0 being on, and is it worth looking at node 3 first? -/

/-- two actions: a bet that wins 9 if the node is on and loses 5 if it is off (true), and not betting (false) -/
def c122_u : Bool → Str → ℚ := fun a x => if a then (if x = "on".toList then 9 else -5) else 0

/-- what the example reports for node 0 and node 3 after `c18_hist`, and for node 0 after observing node 3 (see the example at C71) -/
def c122_p : Str → ℚ := fun x => if x = "on".toList then 56/155 else 99/155
def c122_q : Str → ℚ := fun x => if x = "on".toList then 68/775 else 707/775
def c122_p' : Str → Str → ℚ := fun y x =>
  if y = "on".toList then (if x = "on".toList then 8/17 else 9/17) else (if x = "on".toList then 248/707 else 459/707)

/-- bet only if node 3 is on -/
def c122_rule : Str → Bool := fun y => decide (y = "on".toList)

/-- without looking betting is better than not betting; after looking it is worth less than nothing if node 3 is off; so looking first
increases what is expected, from 9/155 to 108/775. The hypotheses of the theorems hold here. -/
example : ∃ jt, apply .same .same (Bbn.run c16_ops) = .ok jt ∧ NoEvidenceOn (runHist jt c18_hist) (c16_node 3) ∧
    (∀ x ∈ (c16_node 0).values, Reports (runHist jt c18_hist) (c16_node 0) x (c122_p x)) ∧
    (∀ y ∈ (c16_node 3).values, Reports (runHist jt c18_hist) (c16_node 3) y (c122_q y)) ∧
    (∀ y ∈ (c16_node 3).values, ∀ x ∈ (c16_node 0).values,
      Reports (runHist jt (c18_hist ++ [(.same, .update [obs (c16_node 3) y])])) (c16_node 0) x (c122_p' y x)) ∧
    expUtil (c16_node 0).values (c122_u true) c122_p = 9/155 ∧ expUtil (c16_node 0).values (c122_u false) c122_p = 0 ∧
    expUtil (c16_node 0).values (c122_u true) (c122_p' "off".toList) < 0 ∧
    expUtilObs (c16_node 3).values (c16_node 0).values c122_u c122_q c122_p' c122_rule = 108/775 ∧
    expUtil (c16_node 0).values (c122_u true) c122_p < expUtilObs (c16_node 3).values (c16_node 0).values c122_u c122_q c122_p' c122_rule := by
  have key : ((apply .same .same (Bbn.run c16_ops)).val?.map (fun jt =>
      decide (NoEvidenceOn (runHist jt c18_hist) (c16_node 3) ∧
        (∀ x ∈ (c16_node 0).values, reportOf (runHist jt c18_hist) (c16_node 0) x = some (c122_p x)) ∧
        (∀ y ∈ (c16_node 3).values, reportOf (runHist jt c18_hist) (c16_node 3) y = some (c122_q y)) ∧
        (∀ y ∈ (c16_node 3).values, ∀ x ∈ (c16_node 0).values,
          reportOf (runHist jt (c18_hist ++ [(.same, .update [obs (c16_node 3) y])])) (c16_node 0) x = some (c122_p' y x))))) = some true := by
    decide +kernel
  cases hj : apply .same .same (Bbn.run c16_ops) with
  | error e => rw [hj] at key; cases key
  | ok jt =>
    rw [hj] at key
    obtain ⟨h1, h2, h3, h4⟩ := of_decide_eq_true (Option.some.inj key)
    have h2' := fun x hx => reports_of_eval (h2 x hx)
    have h3' := fun y hy => reports_of_eval (h3 y hy)
    have h4' := fun y hy x hx => reports_of_eval (h4 y hy x hx)
    refine ⟨jt, rfl, h1, h2', h3', h4', by decide +kernel, by decide +kernel, by decide +kernel, by decide +kernel, ?_⟩
    refine (c122_strict c16_usable hj c18_hist c18_hist_ok (by decide +kernel) (by decide +kernel) h1 .same h2' h3' h4' c122_u c122_rule true
      (by decide +kernel)).2 ⟨"off".toList, by decide +kernel, by decide +kernel, by decide +kernel⟩

end PyBBN
