import Verif.Props.Gaussian

/-! # C121: observations of a Gaussian vector reduce variances -/

namespace PyBBN
namespace Normal
open Finset

variable {ι : Type} [DecidableEq ι] {C : ι → ι → ℚ} {Z Z1 : Finset ι} {a : ι} {k : ι → ℚ}

/-- no combination of variables of `Z` has a negative variance -/
def PosSemi (C : ι → ι → ℚ) (Z : Finset ι) : Prop := ∀ v : ι → ℚ, 0 ≤ ∑ z ∈ Z, ∑ w ∈ Z, v z * v w * C z w

theorem PosSemi.mono (h : PosSemi C Z) (hs : Z1 ⊆ Z) : PosSemi C Z1 := by
  intro v
  have := h (fun z => if z ∈ Z1 then v z else 0)
  have e : ∑ z ∈ Z, ∑ w ∈ Z, (if z ∈ Z1 then v z else 0) * (if w ∈ Z1 then v w else 0) * C z w =
      ∑ z ∈ Z1, ∑ w ∈ Z1, v z * v w * C z w := by
    have i : Z ∩ Z1 = Z1 := Finset.inter_eq_right.2 hs
    simp only [ite_mul, zero_mul, mul_ite, mul_zero]
    have : ∀ z ∈ Z, (∑ w ∈ Z, if w ∈ Z1 then if z ∈ Z1 then v z * v w * C z w else 0 else 0) =
        if z ∈ Z1 then ∑ w ∈ Z1, v z * v w * C z w else 0 := by
      intro z _
      rw [Finset.sum_ite_mem, i]
      split <;> simp
    rw [Finset.sum_congr rfl this, Finset.sum_ite_mem, i]
  rw [e] at this
  exact this

/-- a combination without variance is uncorrelated with everything -/
theorem PosSemi.zero (h : PosSemi C Z) (hs : Symm C Z) {v : ι → ℚ} (h0 : ∑ z ∈ Z, ∑ w ∈ Z, v z * v w * C z w = 0) {y : ι} (hy : y ∈ Z) :
    ∑ z ∈ Z, v z * C z y = 0 := by
  by_contra hB
  set B := ∑ z ∈ Z, v z * C z y with hBdef
  have key : ∀ t : ℚ, 0 ≤ 2 * t * B + t * t * C y y := by
    intro t
    have := h (fun z => v z + if z = y then t else 0)
    have e : ∑ z ∈ Z, ∑ w ∈ Z, (v z + if z = y then t else 0) * (v w + if w = y then t else 0) * C z w =
        (∑ z ∈ Z, ∑ w ∈ Z, v z * v w * C z w) + (∑ z ∈ Z, v z * C z y) * t + t * (∑ w ∈ Z, v w * C y w) + t * t * C y y := by
      have bump : ∀ f : ι → ℚ, ∑ z ∈ Z, (v z + if z = y then t else 0) * f z = ∑ z ∈ Z, v z * f z + t * f y := by
        intro f
        simp only [add_mul, Finset.sum_add_distrib, ite_mul, zero_mul, Finset.sum_ite_eq', hy, if_true]
      have e1 : ∀ z, ∑ w ∈ Z, (v z + if z = y then t else 0) * (v w + if w = y then t else 0) * C z w =
          (v z + if z = y then t else 0) * (∑ w ∈ Z, v w * C z w + t * C z y) := by
        intro z
        rw [← bump, Finset.mul_sum]
        exact Finset.sum_congr rfl (fun w _ => by ring)
      simp only [e1]
      rw [bump]
      simp only [mul_add, Finset.sum_add_distrib, Finset.mul_sum, Finset.sum_mul]
      have e2 : ∀ z, v z * (t * C z y) = v z * C z y * t := fun z => by ring
      simp only [e2, ← mul_assoc]
      ring
    rw [e, h0] at this
    have e4 : ∑ w ∈ Z, v w * C y w = B := Finset.sum_congr rfl (fun w hw => by rw [hs y hy w hw])
    rw [e4] at this
    linarith
  have hc : 0 ≤ C y y := by
    have := key 1
    have := key (-1)
    linarith
  have h1 := key (-B / (C y y + 1))
  have hp : 0 < C y y + 1 := by linarith
  have e : 2 * (-B / (C y y + 1)) * B + -B / (C y y + 1) * (-B / (C y y + 1)) * C y y = -(B * B * (C y y + 2)) / ((C y y + 1) * (C y y + 1)) := by
    field_simp
    ring
  rw [e] at h1
  have h2 : 0 < B * B * (C y y + 2) := mul_pos (mul_self_pos.2 hB) (by linarith)
  have h3 := mul_nonneg h1 (le_of_lt (mul_pos hp hp))
  rw [div_mul_cancel₀ _ (mul_pos hp hp).ne'] at h3
  linarith

omit [DecidableEq ι] in
/-- what the observed variables explain of the variance of `a` -/
theorem Reg.explained (h : Reg C Z a k) (hs : ∀ z ∈ Z, C a z = C z a) :
    ∑ z ∈ Z, k z * C z a = ∑ z ∈ Z, ∑ w ∈ Z, k z * k w * C z w := by
  rw [Finset.sum_comm]
  refine Finset.sum_congr rfl (fun w hw => ?_)
  rw [← hs w hw, ← h.eq hw, Finset.mul_sum]
  exact Finset.sum_congr rfl (fun z _ => by ring)

/-- the unexplained part has no negative variance -/
theorem Reg.unexplained (h : Reg C Z a k) (hp : PosSemi C (insert a Z)) (ha : a ∉ Z) (hs : ∀ z ∈ Z, C a z = C z a) :
    0 ≤ C a a - ∑ z ∈ Z, k z * C z a := by
  have := hp (fun z => if z = a then 1 else -k z)
  have hne : ∀ z ∈ Z, z ≠ a := fun z hz e => ha (e ▸ hz)
  have hin : ∀ x : ℚ, ∀ u, ∑ w ∈ insert a Z, x * (if w = a then 1 else -k w) * C u w = x * (C u a - ∑ w ∈ Z, k w * C u w) := by
    intro x u
    rw [Finset.sum_insert ha, if_pos rfl, mul_sub, Finset.mul_sum, sub_eq_add_neg, ← Finset.sum_neg_distrib]
    congr 1
    · ring
    · exact Finset.sum_congr rfl (fun w hw => by rw [if_neg (hne w hw)]; ring)
  simp only [hin] at this
  rw [Finset.sum_insert ha, if_pos rfl, one_mul] at this
  have e1 : ∑ w ∈ Z, k w * C a w = ∑ z ∈ Z, k z * C z a := Finset.sum_congr rfl (fun z hz => by rw [hs z hz])
  have e2 : ∑ z ∈ Z, (if z = a then 1 else -k z) * (C z a - ∑ w ∈ Z, k w * C z w) = 0 := by
    have : ∑ z ∈ Z, (if z = a then 1 else -k z) * (C z a - ∑ w ∈ Z, k w * C z w) =
        ∑ z ∈ Z, ∑ w ∈ Z, k z * k w * C z w - ∑ z ∈ Z, k z * C z a := by
      rw [← Finset.sum_sub_distrib]
      refine Finset.sum_congr rfl (fun z hz => ?_)
      rw [if_neg (hne z hz), neg_mul, mul_sub, Finset.mul_sum]
      have : ∀ w, k z * (k w * C z w) = k z * k w * C z w := fun w => by ring
      simp only [this]
      ring
    rw [this, h.explained hs, sub_self]
  rw [e1, e2, add_zero] at this
  exact this

end Normal

open Normal Gauss

/-- **C121**. Vector with a positive semidefinite covariance matrix, any sequence of calls that succeed. Every variable that had not been observed
before is reported with a variance that is not negative and not larger than before; it is the same exactly if the variable is uncorrelated with
all variables observed. -/
theorem c121_variance (calls : List (List (Str × ℚ))) (g g' : Gauss) (h : g.Good) (hpsd : PosSemi g.cov g.H.toFinset)
    (hr : calls.foldlM Gauss.doInferences g = .ok g') :
    ∃ d d', g.P = .ok d ∧ g'.P = .ok d' ∧ ∀ a ∈ g.H, ∃ m v m' v', Dict.get? d a = some (m, v) ∧ Dict.get? d' a = some (m', v') ∧
      0 ≤ v' ∧ v' ≤ v ∧ (v' = v ↔ ∀ c ∈ calls, ∀ o ∈ c, g.cov a o.1 = 0) := by
  have ha := after calls g g' h hr
  refine ⟨_, _, P_eq h, P_eq ha.good, ?_⟩
  intro a haH
  obtain ⟨g'', h1, h2, _, h4⟩ := c42_history calls g g' h.wf hr
  obtain ⟨K, s⟩ := step_of_ok h.wf h1
  have hsub : names calls.flatten ⊆ g.H.toFinset := by
    intro z hz
    obtain ⟨o, ho, rfl⟩ := mem_names.1 hz
    exact List.mem_toFinset.2 (s.known o ho)
  have hflat : (∀ c ∈ calls, ∀ o ∈ c, g.cov a o.1 = 0) ↔ ∀ z ∈ names calls.flatten, g.cov a z = 0 := by
    constructor
    · intro hh z hz
      obtain ⟨o, ho, rfl⟩ := mem_names.1 hz
      obtain ⟨c, hc, ho⟩ := List.mem_flatten.1 ho
      exact hh c hc o ho
    · intro hh c hc o ho
      exact hh _ (mem_names.2 ⟨o, List.mem_flatten.2 ⟨c, hc, ho⟩, rfl⟩)
  have hsym : Symm g.cov g.H.toFinset := fun x hx y hy => cov_symm h.wf (List.mem_toFinset.1 hx) (List.mem_toFinset.1 hy)
  rw [hflat]
  by_cases hn : a ∈ names calls.flatten
  · obtain ⟨o, ho, rfl⟩ := mem_names.1 hn
    obtain ⟨c, hc, ho'⟩ := List.mem_flatten.1 ho
    refine ⟨_, _, _, _, get?_P h haH, get?_P_observed ha.good (ha.new c hc o ho'), le_refl _, ?_, ?_⟩
    · have := hpsd (fun z => if z = o.1 then 1 else 0)
      simpa [haH] using this
    · constructor
      · intro e z hz
        have h0 := hpsd.zero hsym (v := fun z => if z = o.1 then 1 else 0) (by simp [haH, ← e]) (hsub hz)
        simpa [haH] using h0
      · intro e
        exact (e _ hn).symm
  · have hleft : a ∈ g.left calls.flatten := mem_left.2 ⟨haH, hn⟩
    have haH' : a ∈ g'.H := by rw [← h2, s.head]; exact hleft
    have hv : g'.cov a a = g.cov a a - ∑ z ∈ names calls.flatten, K a z * g.cov z a := by
      rw [← h4 a haH' a haH', s.cov a hleft a hleft]
      rfl
    have hs : ∀ z ∈ names calls.flatten, g.cov a z = g.cov z a := fun z hz => hsym a (List.mem_toFinset.2 haH) z (hsub hz)
    have hex := (s.reg a).explained hs
    have hpz := hpsd.mono hsub
    refine ⟨_, _, _, _, get?_P h haH, get?_P ha.good haH', ?_, ?_, ?_⟩
    · rw [hv]
      refine (s.reg a).unexplained (hpsd.mono ?_) hn hs
      intro z hz
      rcases Finset.mem_insert.1 hz with rfl | hz
      · exact List.mem_toFinset.2 haH
      · exact hsub hz
    · rw [hv, hex]
      have := hpz (K a)
      linarith
    · rw [hv]
      constructor
      · intro e z hz
        have h0 : ∑ z ∈ names calls.flatten, ∑ w ∈ names calls.flatten, K a z * K a w * g.cov z w = 0 := by
          rw [← hex]; linarith
        rw [← (s.reg a).eq hz]
        exact hpz.zero (fun x hx y hy => hsym x (hsub hx) y (hsub hy)) h0 hz
      · intro e
        have : ∑ z ∈ names calls.flatten, K a z * g.cov z a = 0 := Finset.sum_eq_zero (fun z hz => by rw [← hs z hz, e z hz, mul_zero])
        rw [this, sub_zero]

/-- **C121**, uncorrelated variables. What is reported for a variable that is uncorrelated with all variables observed does not change at all. -/
theorem c121_uncorrelated : ∀ (calls : List (List (Str × ℚ))) (g g' : Gauss), g.Good → calls.foldlM Gauss.doInferences g = .ok g' →
    ∀ a ∈ g.H, (∀ c ∈ calls, ∀ o ∈ c, o.1 ≠ a ∧ g.cov a o.1 = 0) →
    ∃ d d' p, g.P = .ok d ∧ g'.P = .ok d' ∧ Dict.get? d a = some p ∧ Dict.get? d' a = some p
  | [], g, g', h, hr, a, ha, _ => by
      rw [List.foldlM_nil] at hr
      obtain ⟨⟩ := hr
      exact ⟨_, _, _, P_eq h, P_eq h, get?_P h ha, get?_P h ha⟩
  | c :: cs, g, g', h, hr, a, ha, hu => by
      rw [List.foldlM_cons] at hr
      cases h1 : g.doInferences c with
      | error e => rw [h1] at hr; cases hr
      | ok g1 =>
        rw [h1] at hr
        obtain ⟨K, s⟩ := step_of_ok h.wf h1
        have hg1 := s.good h
        have hn : a ∉ names c := by
          intro hm
          obtain ⟨o, ho, e⟩ := mem_names.1 hm
          exact (hu c List.mem_cons_self o ho).1 e
        have hl : a ∈ g.left c := mem_left.2 ⟨ha, hn⟩
        have hK : ∀ z ∈ names c, K a z = 0 := by
          refine s.nonSing (K a) ?_
          intro w hw
          rw [(s.reg a).eq hw]
          obtain ⟨o, ho, rfl⟩ := mem_names.1 hw
          exact (hu c List.mem_cons_self o ho).2
        have hc1 : ∀ b ∈ g.left c, g1.cov a b = g.cov a b := by
          intro b hb
          rw [s.cov a hl b hb]
          unfold rest
          rw [Finset.sum_eq_zero (fun z hz => by rw [hK z hz, zero_mul]), sub_zero]
        have hm1 : g1.mean a = g.mean a := by
          rw [s.mean a hl, Finset.sum_eq_zero, sub_zero]
          intro j _
          have : K a (c.map Prod.fst)[j] = 0 := hK _ (List.mem_toFinset.2 (List.getElem_mem _))
          rw [this, zero_mul]
        obtain ⟨d, d', p, e1, e2, e3, e4⟩ := c121_uncorrelated cs g1 g' hg1 hr a (by rw [s.head]; exact hl) (by
          intro c' hc' o ho
          refine ⟨(hu c' (List.mem_cons_of_mem _ hc') o ho).1, ?_⟩
          obtain ⟨g2, q1, _⟩ := c42_history cs g1 g' s.wf hr
          obtain ⟨_, s2⟩ := step_of_ok s.wf q1
          have := s2.known o (List.mem_flatten.2 ⟨c', hc', ho⟩)
          rw [hc1 _ (s.head ▸ this)]
          exact (hu c' (List.mem_cons_of_mem _ hc') o ho).2)
        refine ⟨_, d', p, P_eq h, e2, ?_, e4⟩
        rw [P_eq hg1] at e1
        obtain rfl := Except.ok.inj e1
        rw [get?_P hg1 (by rw [s.head]; exact hl)] at e3
        rw [get?_P h ha, ← e3, hm1, hc1 a hl]

/-- **C121**, values. The variances depend only on which variables have been observed: not on the values, the order or the number of calls. -/
theorem c121_values (calls calls' : List (List (Str × ℚ))) (g g₁ g₂ : Gauss) (h : g.Good) (h₁ : calls.foldlM Gauss.doInferences g = .ok g₁)
    (h₂ : calls'.foldlM Gauss.doInferences g = .ok g₂) (hsame : ∀ a, a ∈ calls.flatten.map Prod.fst ↔ a ∈ calls'.flatten.map Prod.fst) :
    ∃ d₁ d₂, g₁.P = .ok d₁ ∧ g₂.P = .ok d₂ ∧ ∀ a ∈ g.H, ∃ m₁ m₂ v, Dict.get? d₁ a = some (m₁, v) ∧ Dict.get? d₂ a = some (m₂, v) := by
  have a₁ := after calls g g₁ h h₁
  have a₂ := after calls' g g₂ h h₂
  refine ⟨_, _, P_eq a₁.good, P_eq a₂.good, ?_⟩
  intro a haH
  obtain ⟨k₁, p1, p2, _, p4⟩ := c42_history calls g g₁ h.wf h₁
  obtain ⟨k₂, q1, q2, _, q4⟩ := c42_history calls' g g₂ h.wf h₂
  obtain ⟨K, s⟩ := step_of_ok h.wf p1
  obtain ⟨L, t⟩ := step_of_ok h.wf q1
  have hN : names calls.flatten = names calls'.flatten := Finset.ext (fun a => by unfold names; rw [List.mem_toFinset, List.mem_toFinset]; exact hsame a)
  by_cases hn : a ∈ names calls.flatten
  · obtain ⟨o, ho, e⟩ := mem_names.1 hn
    obtain ⟨c, hc, ho'⟩ := List.mem_flatten.1 ho
    obtain ⟨o₂, ho₂, e₂⟩ := mem_names.1 (hN ▸ hn)
    obtain ⟨c₂, hc₂, ho₂'⟩ := List.mem_flatten.1 ho₂
    have x1 := a₁.new c hc o ho'
    have x2 := a₂.new c₂ hc₂ o₂ ho₂'
    rw [e] at x1
    rw [e₂] at x2
    exact ⟨_, _, _, get?_P_observed a₁.good x1, get?_P_observed a₂.good x2⟩
  · have l1 : a ∈ g.left calls.flatten := mem_left.2 ⟨haH, hn⟩
    have l2 : a ∈ g.left calls'.flatten := mem_left.2 ⟨haH, hN ▸ hn⟩
    have m1 : a ∈ g₁.H := by rw [← p2, s.head]; exact l1
    have m2 : a ∈ g₂.H := by rw [← q2, t.head]; exact l2
    refine ⟨_, -g₂.mean a, g₁.cov a a, get?_P a₁.good m1, ?_⟩
    rw [get?_P a₂.good m2, ← p4 a m1 a m1, ← q4 a m2 a m2, s.cov a l1 a l1, t.cov a l2 a l2]
    unfold rest
    have : ∀ z ∈ names calls.flatten, K a z = L a z := Reg.unique s.nonSing (s.reg a) (by rw [hN]; exact t.reg a)
    rw [← hN, Finset.sum_congr rfl (fun z hz => by rw [← this z hz])]

/-! ### a concrete vector: `c` is uncorrelated with the others -/

theorem PosDef.semi {C : Str → Str → ℚ} {Z : Finset Str} (h : PosDef C Z) : PosSemi C Z := by
  intro v
  by_cases hv : ∃ z ∈ Z, v z ≠ 0
  · exact (h v hv).le
  · push Not at hv
    refine le_of_eq (Finset.sum_eq_zero (fun z hz => Finset.sum_eq_zero (fun w _ => ?_))).symm
    rw [hv z hz]; ring

def c121_g : Gauss := ⟨["a".toList, "b".toList, "c".toList], [0, 2, 3], arrOf [[4, 1, 0], [1, 2, 0], [0, 0, 3]], []⟩

theorem c121_g_good : c121_g.Good := ⟨⟨by decide +kernel, rfl, rfl, rfl, by decide +kernel⟩, by decide +kernel, by decide +kernel⟩

theorem c121_g_semi : PosSemi c121_g.cov c121_g.H.toFinset := by
  intro v
  have hH : c121_g.H.toFinset = {"a".toList, "b".toList, "c".toList} := by decide +kernel
  rw [hH]
  have v1 : ∀ i j : Fin 3, c121_g.cov (c121_g.H.getD i []) (c121_g.H.getD j []) = (![![4, 1, 0], ![1, 2, 0], ![0, 0, 3]] : Matrix _ _ ℚ) i j := by
    decide +kernel
  have c00 : c121_g.cov "a".toList "a".toList = 4 := v1 0 0
  have c01 : c121_g.cov "a".toList "b".toList = 1 := v1 0 1
  have c02 : c121_g.cov "a".toList "c".toList = 0 := v1 0 2
  have c10 : c121_g.cov "b".toList "a".toList = 1 := v1 1 0
  have c11 : c121_g.cov "b".toList "b".toList = 2 := v1 1 1
  have c12 : c121_g.cov "b".toList "c".toList = 0 := v1 1 2
  have c20 : c121_g.cov "c".toList "a".toList = 0 := v1 2 0
  have c21 : c121_g.cov "c".toList "b".toList = 0 := v1 2 1
  have c22 : c121_g.cov "c".toList "c".toList = 3 := v1 2 2
  have h1 : "a".toList ∉ ({"b".toList, "c".toList} : Finset Str) := by decide +kernel
  have h2 : "b".toList ∉ ({"c".toList} : Finset Str) := by decide +kernel
  simp only [Finset.sum_insert h1, Finset.sum_insert h2, Finset.sum_singleton, c00, c01, c02, c10, c11, c12, c20, c21, c22]
  nlinarith [sq_nonneg (v "a".toList + v "b".toList), sq_nonneg (v "a".toList), sq_nonneg (v "b".toList), sq_nonneg (v "c".toList)]

theorem c121_runs : ∃ g', [[("b".toList, 5)]].foldlM Gauss.doInferences c121_g = .ok g' := by
  have : ((c121_g.doInferences [("b".toList, 5)]).val?.map Gauss.H) = some ["a".toList, "c".toList] := by decide +kernel
  cases h : c121_g.doInferences [("b".toList, 5)] with
  | error e => rw [h] at this; cases this
  | ok g' =>
    refine ⟨g', ?_⟩
    rw [List.foldlM_cons, h]
    rfl

/-- C121 is not vacuous: observing `b` reduces the variance 4 of `a` to 7/2 and leaves `c` at variance 3 -/
example : c121_g.P.val? = some [("a".toList, (0, 4)), ("b".toList, (-2, 2)), ("c".toList, (-3, 3))] ∧
    ((c121_g.doInferences [("b".toList, 5)]).val?.bind (fun g => g.P.val?)) =
      some [("b".toList, (5, 0)), ("a".toList, (3 / 2, 7 / 2)), ("c".toList, (-3, 3))] ∧
    c121_g.cov "c".toList "b".toList = 0 ∧ c121_g.cov "a".toList "b".toList ≠ 0 := by decide +kernel

example (g' : Gauss) (hr : [[("b".toList, (5 : ℚ))]].foldlM Gauss.doInferences c121_g = .ok g') :=
  And.intro (c121_variance [[("b".toList, 5)]] c121_g g' c121_g_good c121_g_semi hr)
    (c121_uncorrelated [[("b".toList, 5)]] c121_g g' c121_g_good hr "c".toList (by decide +kernel) (by decide +kernel))

example (g₁ g₂ : Gauss) (h₁ : [[("b".toList, (5 : ℚ))], [("a".toList, 1)]].foldlM Gauss.doInferences gaussEx = .ok g₁)
    (h₂ : [[("a".toList, (0 : ℚ)), ("b".toList, 7)]].foldlM Gauss.doInferences gaussEx = .ok g₂) :=
  c121_values _ _ gaussEx g₁ g₂ ⟨gaussEx_wf, by decide +kernel, by decide +kernel⟩ h₁ h₂ (by intro a; simp [or_comm])

end PyBBN
