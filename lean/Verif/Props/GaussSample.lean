import Verif.Model.GaussSample
import Verif.Props.Gaussian

/-! # C99: sampled marginals of a Gaussian vector -/

namespace PyBBN
open Normal Gauss

/-- the numbers are `m + s * z` for the standard normal numbers `zs`: draws from the normal distribution with mean `m` and variance `s²` -/
def NormalDraws (m : ℚ) (s : ℝ) (zs : List ℝ) (xs : List (Option ℝ)) : Prop := xs = zs.map (fun z => some ((m : ℝ) + s * z))

theorem keys_drawAll (size : Nat) : ∀ (l : List (Str × ℚ × ℚ)) (zs : List ℝ) (d : Dict Str (List (Option ℝ))),
    (Dict.keys d ++ l.map Prod.fst).Nodup → Dict.keys (drawAll size l zs d) = Dict.keys d ++ l.map Prod.fst
  | [], _, d, _ => by simp [drawAll]
  | m :: l, zs, d, h => by
      have hm : m.1 ∉ Dict.keys d := by
        intro hk
        rw [List.map_cons, List.nodup_append] at h
        exact h.2.2 _ hk _ List.mem_cons_self rfl
      rw [drawAll, keys_drawAll size l _ _ (by rw [Dict.keys_set, if_neg hm]; simpa using h), Dict.keys_set, if_neg hm]
      simp

theorem get?_drawAll_of_notMem (size : Nat) : ∀ (l : List (Str × ℚ × ℚ)) (zs : List ℝ) (d : Dict Str (List (Option ℝ))) (k : Str),
    k ∉ l.map Prod.fst → Dict.get? (drawAll size l zs d) k = Dict.get? d k
  | [], _, _, _, _ => rfl
  | m :: l, zs, d, k, h => by
      rw [List.map_cons, List.mem_cons, not_or] at h
      rw [drawAll, get?_drawAll_of_notMem size l _ _ k h.2, Dict.get?_set_ne _ _ (fun e => h.1 e.symm)]

theorem get?_drawAll (size : Nat) : ∀ (l : List (Str × ℚ × ℚ)) (zs : List ℝ) (d : Dict Str (List (Option ℝ))), (l.map Prod.fst).Nodup →
    ∀ (i : Nat) (p : Str × ℚ × ℚ), l[i]? = some p →
      Dict.get? (drawAll size l zs d) p.1 = some (drawNormal p.2.1 p.2.2 ((zs.drop (i * size)).take size))
  | [], _, _, _, i, p, h => by simp at h
  | m :: l, zs, d, hn, 0, p, h => by
      simp only [List.getElem?_cons_zero, Option.some.injEq] at h
      subst h
      rw [List.map_cons, List.nodup_cons] at hn
      rw [drawAll, get?_drawAll_of_notMem size l _ _ _ hn.1, Dict.get?_set_self]
      simp
  | m :: l, zs, d, hn, i + 1, p, h => by
      rw [List.map_cons, List.nodup_cons] at hn
      rw [drawAll, get?_drawAll size l _ _ hn.2 i p (by simpa using h), List.drop_drop]
      congr 4
      ring

/-- **C99 (partial)**. After any sequence of successful calls, `sample_marginals` returns a series for every variable that `P` reports, in the same order.
The series of a variable with a positive reported variance consists of draws from the normal distribution with the reported mean and variance; different
variables use different random numbers, so their series are independent. A variable with reported variance zero, in particular every observed variable, is
sampled with standard deviation 0.01. Partial: for these the variance is not the reported one, see `c99_false`. -/
theorem c99_samples_partial (calls : List (List (Str × ℚ))) (g g' : Gauss) (h : g.Good) (hr : calls.foldlM Gauss.doInferences g = .ok g') (size : Nat)
    (zs : List ℝ) :
    ∃ d xs, g'.P = .ok d ∧ g'.sampleMarginals size zs = .ok xs ∧ Dict.keys xs = Dict.keys d ∧
      ∀ (i : Nat) (a : Str) (m v : ℚ), d[i]? = some (a, m, v) → ∃ x, Dict.get? xs a = some x ∧
        (0 < v → ∃ s : ℝ, 0 < s ∧ s ^ 2 = v ∧ NormalDraws m s ((zs.drop (i * size)).take size) x) ∧
        (v = 0 → NormalDraws m (1 / 100) ((zs.drop (i * size)).take size) x) ∧
        (v < 0 → ∀ y ∈ x, y = none) := by
  obtain ⟨_, ⟨d, hP, hM, _, hnd, _⟩, _⟩ := c59_marginals calls g g' h hr
  have hfst : (d.map (fun kv => (kv.1, kv.2.1, kv.2.2))).map Prod.fst = Dict.keys d := by
    rw [List.map_map]; rfl
  refine ⟨d, drawAll size (d.map (fun kv => (kv.1, kv.2.1, kv.2.2))) zs [], hP, ?_, ?_, ?_⟩
  · unfold Gauss.sampleMarginals
    simp only [hM, bind, Except.bind]
  · rw [keys_drawAll size _ _ _ (by rw [hfst]; exact hnd), hfst]; rfl
  · intro i a m v hi
    refine ⟨_, get?_drawAll size _ zs [] (by rw [hfst]; exact hnd) i (a, m, v) (by rw [List.getElem?_map, hi]; rfl), ?_, ?_, ?_⟩
    · intro hv
      have hv' : (0 : ℝ) < (v : ℝ) := by exact_mod_cast hv
      refine ⟨Real.sqrt v, Real.sqrt_pos.2 hv', Real.sq_sqrt hv'.le, ?_⟩
      unfold NormalDraws drawNormal scaleOf sqrtF
      rw [if_neg hv.ne', if_neg (not_lt.2 hv.le)]
      rfl
    · rintro rfl
      unfold NormalDraws drawNormal scaleOf
      rw [if_pos rfl]
      rfl
    · intro hv y hy
      unfold drawNormal scaleOf sqrtF at hy
      rw [if_neg hv.ne, if_pos hv] at hy
      obtain ⟨_, _, rfl⟩ := List.mem_map.1 hy
      rfl

theorem posDef_var {C : Str → Str → ℚ} {Z : Finset Str} (h : PosDef C Z) {a : Str} (ha : a ∈ Z) : 0 < C a a := by
  have := h (fun z => if z = a then 1 else 0) ⟨a, ha, by simp⟩
  rw [Finset.sum_eq_single a] at this
  · rw [Finset.sum_eq_single a] at this
    · simpa using this
    · intro w _ hw; simp [hw]
    · intro hn; exact absurd ha hn
  · intro z _ hz
    apply Finset.sum_eq_zero
    intro w _; simp [hz]
  · intro hn; exact absurd ha hn

theorem posDef_history : ∀ (calls : List (List (Str × ℚ))) (g g' : Gauss), g.WF → PosDef g.cov g.H.toFinset →
    calls.foldlM Gauss.doInferences g = .ok g' → PosDef g'.cov g'.H.toFinset
  | [], g, g', _, hp, hr => by
      rw [List.foldlM_nil] at hr
      obtain ⟨⟩ := hr
      exact hp
  | obs :: calls, g, g', h, hp, hr => by
      rw [List.foldlM_cons] at hr
      cases h1 : g.doInferences obs with
      | error e => rw [h1] at hr; cases hr
      | ok g1 =>
        rw [h1] at hr
        have hin : ∀ o ∈ obs, o.1 ∈ g.H := by
          intro o ho
          by_contra hc
          rw [(c42_errors h).1 ⟨o, ho, hc⟩] at h1
          cases h1
        have hns : (obs.map Prod.fst).Nodup ∧ NonSing g.cov (names obs) := by
          by_contra hc
          rw [(c42_errors h).2 hin hc] at h1
          cases h1
        obtain ⟨g2, e2, hp2⟩ := c42_posDef h hp hin hns.1
        obtain ⟨g3, e3, hw, _⟩ := c42_conditional h hin hns.1 hns.2
        rw [h1] at e2 e3
        cases e2
        cases e3
        exact posDef_history calls g1 g' hw hp2 hr

/-- **C99**: with a positive definite covariance matrix, every variable that has not been observed is sampled from the normal distribution with the reported
mean and variance -/
theorem c99_unobserved (calls : List (List (Str × ℚ))) (g g' : Gauss) (h : g.Good) (hp : PosDef g.cov g.H.toFinset)
    (hr : calls.foldlM Gauss.doInferences g = .ok g') (size : Nat) (zs : List ℝ) :
    ∃ d xs, g'.P = .ok d ∧ g'.sampleMarginals size zs = .ok xs ∧ ∀ a ∈ g'.H, ∃ (i : Nat) (m v : ℚ) (s : ℝ) (x : List (Option ℝ)),
      Dict.get? d a = some (m, v) ∧ i < d.length ∧ 0 < s ∧ s ^ 2 = v ∧ Dict.get? xs a = some x ∧ NormalDraws m s ((zs.drop (i * size)).take size) x := by
  obtain ⟨d, xs, hP, hx, _, hd⟩ := c99_samples_partial calls g g' h hr size zs
  obtain ⟨_, ⟨d', hP', _, _, hnd, _, _, hH⟩, _⟩ := c59_marginals calls g g' h hr
  rw [hP] at hP'
  cases hP'
  have hpd := posDef_history calls g g' h.wf hp hr
  refine ⟨d, xs, hP, hx, ?_⟩
  intro a ha
  obtain ⟨m, hm⟩ := hH a ha
  obtain ⟨i, hi⟩ := List.mem_iff_getElem?.1 (Dict.mem_of_get? hm)
  have hlt : i < d.length := by
    by_contra hc
    rw [List.getElem?_eq_none (not_lt.1 hc)] at hi
    cases hi
  obtain ⟨x, hx1, hx2, _⟩ := hd i a m (g'.cov a a) hi
  obtain ⟨s, hs0, hs, hdr⟩ := hx2 (posDef_var hpd (List.mem_toFinset.2 ha))
  exact ⟨i, m, _, s, x, hm, hlt, hs0, hs, hx1, hdr⟩

/-- not vacuous: the vector of C42 after observing `b`; two numbers for each variable -/
example : gaussEx.Good ∧ PosDef gaussEx.cov gaussEx.H.toFinset ∧
    ∃ g', [[("b".toList, (5 : ℚ))]].foldlM Gauss.doInferences gaussEx = .ok g' ∧
      g'.P.val? = some [("b".toList, (5, 0)), ("a".toList, (3 / 2, 7 / 2)), ("c".toList, (-3 / 2, 5 / 2))] := by
  refine ⟨⟨gaussEx_wf, by decide +kernel, by decide +kernel⟩, gaussEx_posDef, ?_⟩
  have key : ([[("b".toList, (5 : ℚ))]].foldlM Gauss.doInferences gaussEx).val?.bind (fun g => g.P.val?) =
      some [("b".toList, (5, 0)), ("a".toList, (3 / 2, 7 / 2)), ("c".toList, (-3 / 2, 5 / 2))] := by decide +kernel
  cases hg : [[("b".toList, (5 : ℚ))]].foldlM Gauss.doInferences gaussEx with
  | error e => rw [hg] at key; cases key
  | ok g' => rw [hg] at key; exact ⟨g', rfl, key⟩

/-- **C99 is false of the code** for observed variables: `b` is observed to be 5 and reported with variance 0, but its samples are not 5 -/
theorem c99_false : ∃ g', gaussEx.doInferences [("b".toList, 5)] = .ok g' ∧
    (g'.P.val?.bind (fun d => Dict.get? d "b".toList)) = some (5, 0) ∧
    ∃ xs, g'.sampleMarginals 1 [1, 0, 0] = .ok xs ∧ Dict.get? xs "b".toList = some [some (5 + 1 / 100)] := by
  have key : (gaussEx.doInferences [("b".toList, 5)]).val?.bind (fun g => g.P.val?) =
      some [("b".toList, (5, 0)), ("a".toList, (3 / 2, 7 / 2)), ("c".toList, (-3 / 2, 5 / 2))] := by decide +kernel
  cases hg : gaussEx.doInferences [("b".toList, 5)] with
  | error e => rw [hg] at key; cases key
  | ok g' =>
    rw [hg] at key
    obtain ⟨d, xs, hP, hx, _, hd⟩ := c99_samples_partial [[("b".toList, 5)]] gaussEx g' ⟨gaussEx_wf, by decide +kernel, by decide +kernel⟩
      (by rw [List.foldlM_cons, hg]; rfl) 1 [1, 0, 0]
    have hk : g'.P.val? = some [("b".toList, (5, 0)), ("a".toList, (3 / 2, 7 / 2)), ("c".toList, (-3 / 2, 5 / 2))] := key
    have hd' : d = [("b".toList, (5, 0)), ("a".toList, (3 / 2, 7 / 2)), ("c".toList, (-3 / 2, 5 / 2))] := by
      rw [hP] at hk; exact Option.some.inj hk
    refine ⟨g', rfl, ?_, xs, hx, ?_⟩
    · rw [hk]; decide +kernel
    · obtain ⟨x, hx1, _, h0, _⟩ := hd 0 "b".toList 5 0 (by rw [hd']; rfl)
      rw [hx1, h0 rfl]
      simp

end PyBBN
