import Verif.Proofs.Gaussian

/-! # Gaussian inference: C42, C43, C59

`Gauss.WF g`: the header lists every variable once and the means and the (symmetric) covariances fit it. `g.cov a b` and `g.mean a` read the
stored covariance matrix and mean vector by name. What conditioning means is in `Verif.Spec.Gaussian`. -/

namespace PyBBN
open Normal Gauss

variable {g : Gauss} {obs : List (Str × ℚ)}

/-! ## C42: covariance -/

/-- **C42**. Observing distinct known variables that are not collinear succeeds. The variables that are left keep their order; the covariance of
any two of them is the conditional covariance (regression coefficients exist, and any will do); the result is symmetric again. -/
theorem c42_conditional (h : g.WF) (hin : ∀ o ∈ obs, o.1 ∈ g.H) (hn : (obs.map Prod.fst).Nodup) (hns : NonSing g.cov (names obs)) :
    ∃ g', g.doInferences obs = .ok g' ∧ g'.WF ∧ g'.H = g.H.filter (fun a => decide (a ∉ obs.map Prod.fst)) ∧
      (∀ a, ∃ k, Reg g.cov (names obs) a k) ∧
      ∀ a ∈ g'.H, ∀ b ∈ g'.H, ∀ k l, Reg g.cov (names obs) a k → Reg g.cov (names obs) b l → g'.cov a b = resCov g.cov (names obs) a b k l := by
  obtain ⟨g', K, hs⟩ := step_ok h hin hn hns
  refine ⟨g', hs.run, hs.wf, hs.head, fun a => ⟨K a, hs.reg a⟩, ?_⟩
  intro a ha b hb k l hk hl
  rw [hs.head] at ha hb
  rw [hs.cov a ha b hb, rest_eq_resCov (hs.reg a) hl]
  exact resCov_congr hns (hs.reg a) hk hl hl

/-- **C42**, the remaining cases: an unknown (or no longer present) variable raises `KeyError`, a repeated or collinear observation
`LinAlgError` -/
theorem c42_errors (h : g.WF) :
    ((∃ o ∈ obs, o.1 ∉ g.H) → g.doInferences obs = .error .keyError) ∧
    ((∀ o ∈ obs, o.1 ∈ g.H) → ¬ ((obs.map Prod.fst).Nodup ∧ NonSing g.cov (names obs)) → g.doInferences obs = .error .exception) :=
  ⟨doInferences_unknown h, step_error h⟩

/-- **C42**: the order of the observations does not matter for the covariances -/
theorem c42_order (h : g.WF) {obs' : List (Str × ℚ)} (hp : obs.Perm obs') :
    (∀ e, g.doInferences obs = .error e ↔ g.doInferences obs' = .error e) ∧
    ∀ g1 g2, g.doInferences obs = .ok g1 → g.doInferences obs' = .ok g2 → g1.H = g2.H ∧ ∀ a ∈ g1.H, ∀ b ∈ g1.H, g1.cov a b = g2.cov a b := by
  have hnames : names obs = names obs' := by
    ext a; rw [mem_names, mem_names]; exact exists_congr (fun o => by rw [hp.mem_iff])
  have hnd : (obs.map Prod.fst).Nodup ↔ (obs'.map Prod.fst).Nodup := (hp.map _).nodup_iff
  constructor
  · have key : ∀ {o1 o2 : List (Str × ℚ)}, o1.Perm o2 → names o1 = names o2 → ∀ e, g.doInferences o1 = .error e → g.doInferences o2 = .error e := by
      intro o1 o2 hp hnames e he
      by_cases hin : ∀ o ∈ o1, o.1 ∈ g.H
      · have hin' : ∀ o ∈ o2, o.1 ∈ g.H := fun o ho => hin o (hp.mem_iff.2 ho)
        by_cases hne : (o1.map Prod.fst).Nodup ∧ NonSing g.cov (names o1)
        · obtain ⟨g', K, hs⟩ := step_ok h hin hne.1 hne.2
          rw [hs.run] at he; cases he
        · rw [step_error h hin hne] at he
          rw [← he]
          refine step_error h hin' ?_
          rw [← hnames, ← (hp.map _).nodup_iff]
          exact hne
      · push Not at hin
        rw [doInferences_unknown h hin] at he
        rw [← he]
        obtain ⟨o, ho, hno⟩ := hin
        exact doInferences_unknown h ⟨o, hp.mem_iff.1 ho, hno⟩
    exact fun e => ⟨key hp hnames e, key hp.symm hnames.symm e⟩
  · intro g1 g2 h1 h2
    obtain ⟨K1, s1⟩ := step_of_ok h h1
    obtain ⟨K2, s2⟩ := step_of_ok h h2
    have hleft : g.left obs = g.left obs' := by
      unfold left
      refine List.filter_congr ?_
      intro a _
      rw [decide_eq_decide, (hp.map _).mem_iff]
    refine ⟨by rw [s1.head, s2.head, hleft], ?_⟩
    intro a ha b hb
    rw [s1.head] at ha hb
    rw [s1.cov a ha b hb, rest_eq_resCov (s1.reg a) (s1.reg b), s2.cov a (hleft ▸ ha) b (hleft ▸ hb), rest_eq_resCov (s2.reg a) (s2.reg b)]
    rw [← hnames]
    have r := s2.reg
    rw [← hnames] at r
    exact resCov_congr s1.nonSing (s1.reg a) (r a) (s1.reg b) (r b)

/-- **C42**: after a first call, a second call about variables that are left succeeds exactly when one call with both lists of observations
does, and leaves the same variables, covariances and recorded observations -/
theorem c42_sequential (h : g.WF) {g1 : Gauss} (h1 : g.doInferences obs = .ok g1) {obs2 : List (Str × ℚ)} (hin2 : ∀ o ∈ obs2, o.1 ∈ g1.H) :
    ((∃ g2, g1.doInferences obs2 = .ok g2) ↔ ∃ g2, g.doInferences (obs ++ obs2) = .ok g2) ∧
    ∀ g2 g12, g1.doInferences obs2 = .ok g2 → g.doInferences (obs ++ obs2) = .ok g12 →
      g2.H = g12.H ∧ g2.observed = g12.observed ∧ ∀ a ∈ g2.H, ∀ b ∈ g2.H, g2.cov a b = g12.cov a b := by
  obtain ⟨K, s⟩ := step_of_ok h h1
  have hleft2 : ∀ o ∈ obs2, o.1 ∈ g.H ∧ o.1 ∉ names obs := fun o ho => mem_left.1 (s.head ▸ hin2 o ho)
  have hdis : Disjoint (names obs) (names obs2) := by
    rw [Finset.disjoint_right]
    intro z hz
    obtain ⟨o, ho, rfl⟩ := mem_names.1 hz
    exact (hleft2 o ho).2
  have hun : names (obs ++ obs2) = names obs ∪ names obs2 := by
    ext a
    rw [Finset.mem_union, mem_names, mem_names, mem_names]
    simp only [List.mem_append, or_and_right, exists_or]
  have hmem2 : ∀ z ∈ names obs2, z ∈ g.left obs := by
    intro z hz
    obtain ⟨o, ho, rfl⟩ := mem_names.1 hz
    exact mem_left.2 (hleft2 o ho)
  have hin12 : ∀ o ∈ obs ++ obs2, o.1 ∈ g.H := by
    intro o ho
    rcases List.mem_append.1 ho with ho | ho
    · exact s.known o ho
    · exact (hleft2 o ho).1
  have hns : NonSing g1.cov (names obs2) ↔ NonSing g.cov (names (obs ++ obs2)) := by
    rw [hun, ← nonSing_step hdis (fun u _ => s.reg u) s.nonSing]
    exact nonSing_congr (fun z hz w hw => s.cov z (hmem2 z hz) w (hmem2 w hw))
  have hnd : (obs2.map Prod.fst).Nodup ↔ ((obs ++ obs2).map Prod.fst).Nodup := by
    rw [List.map_append, List.nodup_append']
    refine ⟨fun h => ⟨s.nodup, h, ?_⟩, fun h => h.2.1⟩
    intro a ha hb
    exact Finset.disjoint_left.1 hdis (List.mem_toFinset.2 ha) (List.mem_toFinset.2 hb)
  refine ⟨⟨?_, ?_⟩, ?_⟩
  · rintro ⟨g2, h2⟩
    obtain ⟨_, s2⟩ := step_of_ok s.wf h2
    obtain ⟨g', _, s'⟩ := step_ok h hin12 (hnd.1 s2.nodup) (hns.1 s2.nonSing)
    exact ⟨g', s'.run⟩
  · rintro ⟨g2, h2⟩
    obtain ⟨_, s2⟩ := step_of_ok h h2
    obtain ⟨g', _, s'⟩ := step_ok s.wf hin2 (hnd.2 s2.nodup) (hns.2 s2.nonSing)
    exact ⟨g', s'.run⟩
  · intro g2 g12 h2 h12
    obtain ⟨L, s2⟩ := step_of_ok s.wf h2
    obtain ⟨J, s12⟩ := step_of_ok h h12
    have hhead : g1.left obs2 = g.left (obs ++ obs2) := by
      unfold left
      rw [s.head]
      unfold left
      rw [List.filter_filter]
      refine List.filter_congr ?_
      intro a _
      simp only [List.map_append, List.mem_append, not_or, ← Bool.decide_and]
      exact decide_eq_decide.2 And.comm
    refine ⟨by rw [s2.head, s12.head, hhead], by rw [s2.observed, s.observed, s12.observed, List.foldl_append], ?_⟩
    intro a ha b hb
    rw [s2.head] at ha hb
    have ha1 : a ∈ g.left obs := s.head ▸ (mem_left.1 ha).1
    have hb1 : b ∈ g.left obs := s.head ▸ (mem_left.1 hb).1
    have hL : ∀ {x}, x ∈ g.left obs → Reg (rest g.cov (names obs) K) (names obs2) x (L x) := by
      intro x hx
      exact (s2.reg x).congr (fun w hw => s.cov x hx w (hmem2 w hw)) (fun z hz w hw => s.cov z (hmem2 z hz) w (hmem2 w hw))
    have hJ := fun x (hx : x ∈ g.left obs) => reg_joint hdis (fun u _ => s.reg u) (s.reg x) (hL hx)
    have e2 : g2.cov a b = rest g.cov (names obs) K a b - ∑ u ∈ names obs2, L a u * rest g.cov (names obs) K u b := by
      rw [s2.cov a ha b hb]
      unfold rest
      rw [s.cov a ha1 b hb1]
      refine congrArg₂ _ rfl (Finset.sum_congr rfl ?_)
      intro u hu
      rw [s.cov u (hmem2 u hu) b hb1]
      rfl
    rw [e2, ← joint_sum hdis, s12.cov a (hhead ▸ ha) b (hhead ▸ hb), rest_eq_resCov (s12.reg a) (s12.reg b), hun]
    have hJa := hJ a ha1
    have hJb := hJ b hb1
    have hns12 := s12.nonSing
    have r := s12.reg
    rw [hun] at hns12 r
    rw [resCov_congr hns12 (r a) hJa (r b) hJb, ← rest_eq_resCov (K := fun x => joint (names obs) (names obs2) K x (L x)) hJa hJb]
    rfl

/-- **C42**: any sequence of calls that succeed leaves what one call with all observations leaves -/
theorem c42_history : ∀ (calls : List (List (Str × ℚ))) (g g' : Gauss), g.WF → calls.foldlM Gauss.doInferences g = .ok g' →
    ∃ g'', g.doInferences calls.flatten = .ok g'' ∧ g''.H = g'.H ∧ g''.observed = g'.observed ∧ ∀ a ∈ g'.H, ∀ b ∈ g'.H, g''.cov a b = g'.cov a b
  | [], g, g', h, hr => by
      rw [List.foldlM_nil] at hr
      obtain ⟨⟩ := hr
      obtain ⟨g'', K, s⟩ := step_ok (obs := []) h (by simp) (by simp) (by intro v _ z hz; simp [names] at hz)
      have hl : g.left [] = g.H := by simp [left]
      refine ⟨g'', s.run, by rw [s.head, hl], s.observed, ?_⟩
      intro a ha b hb
      rw [s.cov a (hl ▸ ha) b (hl ▸ hb)]
      simp [rest, names]
  | c :: cs, g, g', h, hr => by
      rw [List.foldlM_cons] at hr
      cases h1 : g.doInferences c with
      | error e => rw [h1] at hr; cases hr
      | ok g1 =>
        rw [h1] at hr
        obtain ⟨K, s⟩ := step_of_ok h h1
        obtain ⟨g2, h2, e1, e2, e3⟩ := c42_history cs g1 g' s.wf hr
        obtain ⟨L, s2⟩ := step_of_ok s.wf h2
        have hseq := c42_sequential h h1 s2.known
        obtain ⟨g12, h12⟩ := hseq.1.1 ⟨g2, h2⟩
        obtain ⟨q1, q2, q3⟩ := hseq.2 g2 g12 h2 h12
        refine ⟨g12, by rw [List.flatten_cons]; exact h12, by rw [← q1, e1], by rw [← q2, e2], ?_⟩
        intro a ha b hb
        rw [← q3 a (e1 ▸ ha) b (e1 ▸ hb), e3 a ha b hb]

/-- **C42**: with a positive definite covariance matrix every list of distinct known observations succeeds, and what is left is positive definite -/
theorem c42_posDef (h : g.WF) (hpd : PosDef g.cov g.H.toFinset) (hin : ∀ o ∈ obs, o.1 ∈ g.H) (hn : (obs.map Prod.fst).Nodup) :
    ∃ g', g.doInferences obs = .ok g' ∧ PosDef g'.cov g'.H.toFinset := by
  have hsub : names obs ⊆ g.H.toFinset := by
    intro z hz
    obtain ⟨o, ho, rfl⟩ := mem_names.1 hz
    exact List.mem_toFinset.2 (hin o ho)
  obtain ⟨g', K, s⟩ := step_ok h hin hn (hpd.mono hsub).nonSing
  refine ⟨g', s.run, ?_⟩
  have hl : ∀ z ∈ g'.H.toFinset, z ∈ g.left obs := fun z hz => s.head ▸ List.mem_toFinset.1 hz
  have hd : Disjoint (names obs) g'.H.toFinset := by
    rw [Finset.disjoint_right]
    exact fun z hz => (mem_left.1 (hl z hz)).2
  have : PosDef g.cov (names obs ∪ g'.H.toFinset) := hpd.mono (by
    intro z hz
    rcases Finset.mem_union.1 hz with hz | hz
    · exact hsub hz
    · exact List.mem_toFinset.2 (mem_left.1 (hl z hz)).1)
  exact posDef_congr (fun z hz w hw => (s.cov z (hl z hz) w (hl w hw)).symm) (this.rest hd (fun u _ => s.reg u))

/-- **C42**: the result is the conditional distribution in the sense of densities. For every point `x`, the exponent `(x - μ)ᵀ S⁻¹ (x - μ)` of the
joint density is that of the density of the observed variables plus that of a Gaussian with the computed covariances around the conditional
means. -/
theorem c42_density (h : g.WF) {g' : Gauss} (hok : g.doInferences obs = .ok g') (hns : NonSing g.cov g.H.toFinset) (μ x : Str → ℚ) :
    ∃ k : Str → Str → ℚ, (∀ a, Reg g.cov (names obs) a (k a)) ∧ ∃ q q1 q2, Mahal g.cov g.H.toFinset (fun a => x a - μ a) q ∧
      Mahal g.cov (names obs) (fun a => x a - μ a) q1 ∧
      Mahal g'.cov g'.H.toFinset (fun a => x a - resMean μ (names obs) a (k a) x) q2 ∧ q = q1 + q2 := by
  obtain ⟨K, s⟩ := step_of_ok h hok
  refine ⟨K, s.reg, ?_⟩
  obtain ⟨q, hq⟩ := exists_mahal hns (fun a => x a - μ a)
  have hl : ∀ z ∈ g'.H.toFinset, z ∈ g.left obs := fun z hz => s.head ▸ List.mem_toFinset.1 hz
  have hd : Disjoint (names obs) g'.H.toFinset := by
    rw [Finset.disjoint_right]
    exact fun z hz => (mem_left.1 (hl z hz)).2
  have hun : g.H.toFinset = names obs ∪ g'.H.toFinset := by
    ext a
    rw [Finset.mem_union, List.mem_toFinset, List.mem_toFinset, s.head, mem_left]
    constructor
    · intro ha
      by_cases hb : a ∈ names obs
      · exact Or.inl hb
      · exact Or.inr ⟨ha, hb⟩
    · rintro (ha | ha)
      · obtain ⟨o, ho, rfl⟩ := mem_names.1 ha
        exact s.known o ho
      · exact ha.1
  have hsym : Symm g.cov (names obs ∪ g'.H.toFinset) := by
    rw [← hun]
    exact fun a ha b hb => cov_symm h (List.mem_toFinset.1 ha) (List.mem_toFinset.1 hb)
  refine ⟨q, ?_⟩
  have hq' := hq
  rw [hun] at hq'
  obtain ⟨p1, p2, hp1, ⟨w, hw, e⟩, rfl⟩ := mahal_split hd (fun u _ => s.reg u) hsym hq'
  refine ⟨p1, p2, hq, hp1, ⟨w, ?_, ?_⟩, rfl⟩
  · intro y hy
    rw [Finset.sum_congr rfl (fun z hz => by rw [s.cov z (hl z hz) y (hl y hy)]), hw y hy]
    simp only [resMean]; ring
  · rw [e]
    refine Finset.sum_congr rfl ?_
    intro z _
    simp only [resMean]; ring

/-- **C42**: the quadratic form of a nonsingular set is determined by it -/
theorem c42_density_unique {C : Str → Str → ℚ} {Z : Finset Str} (hns : NonSing C Z) (u : Str → ℚ) : ∃! q, Mahal C Z u q := by
  obtain ⟨q, hq⟩ := exists_mahal hns u
  exact ⟨q, hq, fun q' hq' => Mahal.unique hns hq' hq⟩

/-! ### a concrete vector -/

/-- an array from its rows -/
def arrOf (l : List (List ℚ)) : Arr2 := ⟨l.length, (l.headD []).length, fun i j => (l.getD i []).getD j 0⟩

/-- three variables -/
def gaussEx : Gauss := ⟨["a".toList, "b".toList, "c".toList], [0, 2, 3], arrOf [[4, 1, 1], [1, 2, 1], [1, 1, 3]], []⟩

theorem gaussEx_wf : gaussEx.WF := ⟨by decide +kernel, rfl, rfl, rfl, by decide +kernel⟩

theorem gaussEx_posDef : PosDef gaussEx.cov gaussEx.H.toFinset := by
  rintro v ⟨z, hz, hv⟩
  have hH : gaussEx.H.toFinset = {"a".toList, "b".toList, "c".toList} := by decide +kernel
  rw [hH] at hz ⊢
  have e : ∀ x y, gaussEx.cov x y = (arrOf [[4, 1, 1], [1, 2, 1], [1, 1, 3]]).get (gaussEx.H.idxOf x) (gaussEx.H.idxOf y) := fun _ _ => rfl
  have v1 : ∀ i j : Fin 3, gaussEx.cov (gaussEx.H.getD i []) (gaussEx.H.getD j []) = (![![4, 1, 1], ![1, 2, 1], ![1, 1, 3]] : Matrix _ _ ℚ) i j := by
    decide +kernel
  have c00 : gaussEx.cov "a".toList "a".toList = 4 := v1 0 0
  have c01 : gaussEx.cov "a".toList "b".toList = 1 := v1 0 1
  have c02 : gaussEx.cov "a".toList "c".toList = 1 := v1 0 2
  have c10 : gaussEx.cov "b".toList "a".toList = 1 := v1 1 0
  have c11 : gaussEx.cov "b".toList "b".toList = 2 := v1 1 1
  have c12 : gaussEx.cov "b".toList "c".toList = 1 := v1 1 2
  have c20 : gaussEx.cov "c".toList "a".toList = 1 := v1 2 0
  have c21 : gaussEx.cov "c".toList "b".toList = 1 := v1 2 1
  have c22 : gaussEx.cov "c".toList "c".toList = 3 := v1 2 2
  have h1 : "a".toList ∉ ({"b".toList, "c".toList} : Finset Str) := by decide +kernel
  have h2 : "b".toList ∉ ({"c".toList} : Finset Str) := by decide +kernel
  simp only [Finset.sum_insert h1, Finset.sum_insert h2, Finset.sum_singleton, c00, c01, c02, c10, c11, c12, c20, c21, c22]
  generalize hA : v "a".toList = A
  generalize hB : v "b".toList = B
  generalize hC : v "c".toList = D
  have hne : A ≠ 0 ∨ B ≠ 0 ∨ D ≠ 0 := by
    simp only [Finset.mem_insert, Finset.mem_singleton] at hz
    rcases hz with rfl | rfl | rfl
    · exact Or.inl (hA ▸ hv)
    · exact Or.inr (Or.inl (hB ▸ hv))
    · exact Or.inr (Or.inr (hC ▸ hv))
  have hq : A * A * 4 + (A * B * 1 + A * D * 1) + (B * A * 1 + (B * B * 2 + B * D * 1) + (D * A * 1 + (D * B * 1 + D * D * 3))) =
      2 * A ^ 2 + (A + B + D) ^ 2 + A ^ 2 + B ^ 2 + 2 * D ^ 2 := by ring
  rcases hne with h | h | h
  · have := sq_pos_of_ne_zero h
    nlinarith [sq_nonneg (A + B + D), sq_nonneg B, sq_nonneg D]
  · have := sq_pos_of_ne_zero h
    nlinarith [sq_nonneg (A + B + D), sq_nonneg A, sq_nonneg D]
  · have := sq_pos_of_ne_zero h
    nlinarith [sq_nonneg (A + B + D), sq_nonneg A, sq_nonneg B]

/-- the hypotheses of C42 hold here, and the numbers are as expected -/
example : (∃ g', gaussEx.doInferences [("c".toList, 5), ("b".toList, 1)] = .ok g' ∧ PosDef g'.cov g'.H.toFinset) ∧
    (gaussEx.doInferences [("b".toList, 5)]).val?.map (fun g => (g.H, g.E.get 0 0, g.E.get 0 1, g.E.get 1 1)) =
      some (["a".toList, "c".toList], 7 / 2, 1 / 2, 5 / 2) ∧
    (gaussEx.doInferences [("c".toList, 5), ("b".toList, 1)]).val?.map (fun g => (g.H, g.E.get 0 0)) = some (["a".toList], 17 / 5) ∧
    (gaussEx.doInferences [("b".toList, 5), ("b".toList, 5)]).err? = some .exception ∧
    (gaussEx.doInferences [("b".toList, 5), ("z".toList, 5)]).err? = some .keyError :=
  ⟨c42_posDef gaussEx_wf gaussEx_posDef (by decide +kernel) (by decide +kernel), by decide +kernel, by decide +kernel, by decide +kernel, by decide +kernel⟩

/-- observing `b` and `c` succeeds: they are not collinear -/
theorem gaussEx_runs : ∃ g', gaussEx.doInferences [("c".toList, 5), ("b".toList, 1)] = .ok g' ∧ PosDef g'.cov g'.H.toFinset :=
  c42_posDef gaussEx_wf gaussEx_posDef (by decide +kernel) (by decide +kernel)

/-- the other theorems of C42 at this vector -/
example := (c42_errors (obs := [("b".toList, 5), ("z".toList, 5)]) gaussEx_wf).1 ⟨("z".toList, 5), by simp, by decide +kernel⟩
example := (c42_errors (obs := [("b".toList, 5), ("b".toList, 5)]) gaussEx_wf).2 (by decide +kernel) (fun h => absurd h.1 (by decide +kernel))
example := c42_order (obs := [("c".toList, 5), ("b".toList, 1)]) gaussEx_wf (List.Perm.swap _ _ [])

/-! ## C43: means -/

/-- **C43**, what the code computes. For the variables that are left, `P` reports the stored mean with the wrong sign plus what the observations
explain, where the `j`-th observation is compared with the `j`-th mean *in the order of the header*. -/
theorem c43_exact (h : g.Good) {g' : Gauss} (hok : g.doInferences obs = .ok g') :
    ∃ d, g'.P = .ok d ∧ ∀ a ∈ g'.H, ∀ k, Reg g.cov (names obs) a k → ∃ v, Dict.get? d a = some (-g.mean a +
      ∑ j : Fin (obs.map Prod.fst).length, k (obs.map Prod.fst)[j] * ((obs.map Prod.snd).getD j 0 -
        ((g.H.filter (fun a => decide (a ∈ obs.map Prod.fst))).map g.mean).getD j 0), v) := by
  obtain ⟨K, s⟩ := step_of_ok h.wf hok
  refine ⟨_, P_eq (s.good h), ?_⟩
  intro a ha k hk
  refine ⟨g'.cov a a, ?_⟩
  have hg' := s.good h
  rw [get?_P hg' ha, s.mean a (s.head ▸ ha), headMeans_eq h.wf s.known]
  have e := (s.reg a).unique s.nonSing hk
  have e' : ∀ j : Fin (obs.map Prod.fst).length, K a (obs.map Prod.fst)[j] = k (obs.map Prod.fst)[j] :=
    fun j => e _ (List.mem_toFinset.2 (List.getElem_mem _))
  simp only [e']
  congr 2
  ring

/-- **C43**, partial. Full statement (false of the code): `P` reports the conditional mean of every variable that is left, before and after
any calls. What holds: after one call, a variable that is left *and has mean zero* is reported with its conditional mean, if the observations come
in the order of the header or all observed variables have mean zero. -/
theorem c43_zero_mean_partial (h : g.Good) {g' : Gauss} (hok : g.doInferences obs = .ok g')
    (hord : (obs.map Prod.fst).Sublist g.H ∨ ∀ o ∈ obs, g.mean o.1 = 0) (x : Str → ℚ) (hx : ∀ o ∈ obs, x o.1 = o.2) :
    ∃ d, g'.P = .ok d ∧ ∀ a ∈ g'.H, g.mean a = 0 → ∀ k, Reg g.cov (names obs) a k →
      ∃ v, Dict.get? d a = some (resMean g.mean (names obs) a k x, v) := by
  obtain ⟨d, hd, hP⟩ := c43_exact h hok
  obtain ⟨K, s⟩ := step_of_ok h.wf hok
  refine ⟨d, hd, ?_⟩
  intro a ha hm k hk
  obtain ⟨v, hv⟩ := hP a ha k hk
  refine ⟨v, ?_⟩
  rw [hv]
  congr 2
  unfold resMean names
  rw [hm, neg_zero, zero_add, zero_add, sum_list s.nodup]
  refine Finset.sum_congr rfl ?_
  intro j _
  have hj : (j : Nat) < obs.length := by have := j.2; simpa only [List.length_map] using this
  have e1 : (obs.map Prod.snd).getD j 0 = x (obs.map Prod.fst)[j] := by
    rw [List.getD_eq_getElem?_getD, List.getElem?_map, List.getElem?_eq_getElem hj]
    have : (obs.map Prod.fst)[j] = obs[(j : Nat)].1 := by simp
    rw [this, hx _ (List.getElem_mem hj)]
    rfl
  rw [e1]
  congr 2
  rcases hord with ho | ho
  · rw [filter_sublist ho h.wf.nodup, List.getD_eq_getElem?_getD, List.getElem?_map, List.getElem?_eq_getElem j.2]
    rfl
  · have hz : ∀ b ∈ obs.map Prod.fst, g.mean b = 0 := by
      intro b hb
      obtain ⟨o, ho', rfl⟩ := List.mem_map.1 hb
      exact ho o ho'
    rw [hz (obs.map Prod.fst)[j] (List.getElem_mem _), List.getD_eq_getElem?_getD, List.getElem?_map]
    cases hc : (g.H.filter (fun a => decide (a ∈ obs.map Prod.fst)))[(j : Nat)]? with
    | none => rfl
    | some b =>
      have := List.mem_of_getElem? hc
      rw [List.mem_filter, decide_eq_true_eq] at this
      exact hz b this.2

/-- not vacuous: `a` has mean zero; observing `b` in the vector above -/
example : gaussEx.Good ∧ gaussEx.mean "a".toList = 0 ∧ (([("b".toList, 5)] : List (Str × ℚ)).map Prod.fst).Sublist gaussEx.H ∧
    ((gaussEx.doInferences [("b".toList, 5)]).val?.bind (fun g => g.P.val?)) =
      some [("b".toList, (5, 0)), ("a".toList, (3 / 2, 7 / 2)), ("c".toList, (-3 / 2, 5 / 2))] :=
  ⟨⟨gaussEx_wf, by decide +kernel, by decide +kernel⟩, by decide +kernel, by decide +kernel, by decide +kernel⟩

/-- **C43** is false: before any observation the means are reported with the wrong sign; … -/
theorem c43_false_prior : gaussEx.P.val? = some [("a".toList, (0, 4)), ("b".toList, (-2, 2)), ("c".toList, (-3, 3))] := by decide +kernel

/-- … observing `b` at its mean must not change the mean 3 of `c`, but `-3` is reported; … -/
theorem c43_false_posterior : ((gaussEx.doInferences [("b".toList, 2)]).val?.bind (fun g => g.P.val?)).bind (fun d => Dict.get? d "c".toList) =
    some (-3, 5 / 2) := by decide +kernel

/-- … the mean of `a` depends on the order of the observations (by `c43_zero_mean_partial` the first is right); … -/
theorem c43_false_order : ((gaussEx.doInferences [("b".toList, 2), ("c".toList, 3)]).val?.bind (fun g => g.P.val?)).bind (fun d => Dict.get? d "a".toList) =
      some (0, 17 / 5) ∧
    ((gaussEx.doInferences [("c".toList, 3), ("b".toList, 2)]).val?.bind (fun g => g.P.val?)).bind (fun d => Dict.get? d "a".toList) =
      some (-1 / 5, 17 / 5) := by decide +kernel

/-- … and even if all means are zero, observing one variable at a time gives another mean than observing both at once -/
theorem c43_false_sequential :
    let g0 : Gauss := ⟨gaussEx.H, [0, 0, 0], gaussEx.E, []⟩
    ((g0.doInferences [("b".toList, 1), ("c".toList, 1)]).val?.bind (fun g => g.P.val?)).bind (fun d => Dict.get? d "a".toList) =
      some (3 / 5, 17 / 5) ∧
    (((g0.doInferences [("b".toList, 1)]).val?.bind (fun g => (g.doInferences [("c".toList, 1)]).val?)).bind (fun g => g.P.val?)).bind
      (fun d => Dict.get? d "a".toList) = some (4 / 5, 17 / 5) := by decide +kernel

/-! ## C59: reported parameters -/

/-- **C59**. After any sequence of successful calls, `P` and `marginals` list the observed variables with their observed value (the latest, and there
is only one) and variance 0, then the others in the order of the header with the variances of the covariance matrix. Every variable of the
original vector is listed exactly once. An observed variable cannot be observed again (`KeyError`). -/
theorem c59_marginals (calls : List (List (Str × ℚ))) (g g' : Gauss) (h : g.Good) (hr : calls.foldlM Gauss.doInferences g = .ok g') :
    g'.Good ∧
    (∃ d, g'.P = .ok d ∧ g'.marginals = .ok (d.map (fun kv => (kv.1, kv.2.1, kv.2.2))) ∧
      Dict.keys d = Dict.keys g'.observed ++ g'.H ∧ (Dict.keys d).Nodup ∧
      (∀ a, a ∈ Dict.keys d ↔ a ∈ Dict.keys g.observed ∨ a ∈ g.H) ∧
      (∀ a o, Dict.get? g'.observed a = some o → Dict.get? d a = some (o, 0)) ∧
      (∀ a ∈ g'.H, ∃ m, Dict.get? d a = some (m, g'.cov a a))) ∧
    (∀ c ∈ calls, ∀ o ∈ c, Dict.get? g'.observed o.1 = some o.2 ∧ ∀ v, g'.doInference o.1 v = .error .keyError) := by
  have ha := after calls g g' h hr
  refine ⟨ha.good, ⟨_, P_eq ha.good, ?_, keys_P g', by rw [keys_P]; exact nodup_P ha.good, ?_, fun a o => get?_P_observed ha.good,
    fun a hm => ⟨_, get?_P ha.good hm⟩⟩, ?_⟩
  · unfold marginals
    rw [P_eq ha.good]
    rfl
  · intro a
    rw [keys_P, List.mem_append]
    exact ha.all a
  · intro c hc o ho
    refine ⟨ha.new c hc o ho, fun v => doInferences_unknown ha.good.wf ⟨(o.1, v), List.mem_singleton_self _, ?_⟩⟩
    refine ha.good.apart o.1 ?_
    by_contra hk
    rw [← Dict.get?_eq_none_iff, ha.new c hc o ho] at hk
    cases hk

/-- not vacuous: two calls on the vector above -/
example : ((([[("b".toList, 5)], [("a".toList, 7)]] : List (List (Str × ℚ))).foldlM Gauss.doInferences gaussEx).val?.bind (fun g => g.marginals.val?)) =
    some [("b".toList, 5, 0), ("a".toList, 7, 0), ("c".toList, -2 / 7, 17 / 7)] := by decide +kernel

end PyBBN
