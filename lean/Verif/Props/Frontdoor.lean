import Verif.Proofs.Frontdoor

/-! # C119: the front-door criterion -/

namespace PyBBN
open Relation InferenceController DSep

section
variable {ops : List BOp} {it : SetIter Int} {js : SetIter Str} {jt : JoinTree}

/-- `do.py` says: every directed path from `x` to `y` leads through `m`; all back-door paths from `x` to `m` are inactive; all back-door
paths from `m` to `y` are inactive given `x` -/
def FrontdoorOk (b : Bbn) (x m y : Int) : Prop :=
  (∀ p ∈ Do.allPaths b.toNxGraph.1 x y, p.IsChain (fun u v => Do.hasEdge b.toNxGraph.1 u v = true) → m ∈ p) ∧
    BackdoorBlocked b x m [] ∧ BackdoorBlocked b m y [x]

/-- **C119**, mediation. The probability of `y` when `x` is set is the average, over the values of the mediator `m`, of its probability
when `m` is set. -/
theorem c119_mediated (hs : Net.Sane ops) (hac : AcyclicOps ops) (hn : (Bbn.run ops).Normalized (Bbn.run ops).parentVars)
    {x m y : Variable} (hx : x ∈ (Bbn.run ops).vars) (hm : m ∈ (Bbn.run ops).vars) (hy : y ∈ (Bbn.run ops).vars)
    (hxm : x.id ≠ m.id) (hxy : x.id ≠ y.id) (hmy : m.id ≠ y.id) (hf : FrontdoorOk (Bbn.run ops) x.id m.id y.id)
    {a : Str} (ha : a ∈ x.values) (yv : Str) :
    (Bbn.run ops).prDo x.id a (isAt y.id yv) =
      (m.values.map (fun c => (Bbn.run ops).prDo x.id a (isAt m.id c) * (Bbn.run ops).prDo m.id c (isAt y.id yv))).sum := by
  have hb := proper_of hs hac hn
  have hyid : y.id ∈ (Bbn.run ops).ids := by
    obtain ⟨k, hk, rfl⟩ := List.mem_map.1 hy
    exact mem_ids.2 ⟨k, hk, rfl⟩
  refine mediated hs hac hn hx hm hyid hxy hmy ha ?_ ?_ yv
  · intro h
    obtain ⟨p, hp, hch, hmp⟩ := avoiding_path hb.acyclic hxm h
    rw [← nxGraph_E] at hp hch
    refine hmp (hf.1 p ((c39_all_paths (nxGraph_wf ops) hxy p).2 hp) ?_)
    refine hch.imp ?_
    intro u v huv
    exact decide_eq_true huv
  · exact valid_of_blocked hac (List.mem_map_of_mem hm) hmy (by simpa using fun e => hxy e.symm) hf.2.2

/-- what is reported after observing the nodes `Z` and nothing else -/
theorem reports_pinned (hu : Net.Usable ops) (hj : apply it js (Bbn.run ops) = .ok jt) {Z : List Variable} (hZ : ∀ z ∈ Z, z ∈ (Bbn.run ops).vars)
    {τ : Asg} {h : List (SetIter Str × EvOp)} (hh : EvidenceOn (Bbn.run ops) [] (vids Z) τ h) {v : Variable} (hv : v ∈ (Bbn.run ops).vars)
    {w : Str} (hw : w ∈ v.values) : Reports (runHist jt h) v w ((Bbn.run ops).prGiven (isAt v.id w) (agree Z τ)) := by
  have h1 := reports hu hj h hh.1 hv hw
  have e : (Bbn.run ops).posterior (specHist (Bbn.run ops).vars h) v.id w = (Bbn.run ops).prGiven (isAt v.id w) (agree Z τ) := by
    rw [← posterior_pinned hu.wf hZ]
    refine posterior_congr (bbn_run_inv ops) ?_ _ _
    intro u hu' z hz
    unfold pinned
    by_cases hm : u.id ∈ vids Z
    · rw [hh.2.1 u hu' hm z hz, if_pos hm]
    · rw [hh.2.2 u hu' (by simp) hm z hz, if_neg hm]
  rwa [e] at h1

/-- **C119**. On a connected acyclic network whose CPT rows sum to one: when `do.py` says that `m` meets the front-door criterion for `x`
and `y`, take what is reported for each value `c` of `m` after observing `x = a`; for `y` after observing `x = u` and `m = c`; and for
each value `u` of `x` without evidence. Averaging the second over `u` with the third, and the result over `c` with the first, gives the
probability of `y = yv` when `x` is set to `a`. The evidence may be set by any histories of operations. -/
theorem c119_frontdoor (hu : Net.Usable ops) (hac : AcyclicOps ops) (hn : (Bbn.run ops).Normalized (Bbn.run ops).parentVars)
    (hj : apply it js (Bbn.run ops) = .ok jt) {x m y : Variable} (hx : x ∈ (Bbn.run ops).vars) (hm : m ∈ (Bbn.run ops).vars)
    (hy : y ∈ (Bbn.run ops).vars) (hxm : x.id ≠ m.id) (hxy : x.id ≠ y.id) (hmy : m.id ≠ y.id) (hf : FrontdoorOk (Bbn.run ops) x.id m.id y.id)
    {a : Str} (ha : a ∈ x.values) (hpa : (Bbn.run ops).pr (isAt x.id a) ≠ 0)
    (hover : ∀ c ∈ m.values, (Bbn.run ops).pr (fun σ => isAt m.id c σ && isAt x.id a σ) ≠ 0 →
      ∀ u ∈ x.values, (Bbn.run ops).pr (isAt x.id u) ≠ 0 → (Bbn.run ops).pr (fun σ => isAt m.id c σ && isAt x.id u σ) ≠ 0)
    {h₀ h₁ : List (SetIter Str × EvOp)} {h₂ : Str → Str → List (SetIter Str × EvOp)}
    (hh₀ : EvidenceOn (Bbn.run ops) [] [] (fun _ => []) h₀) (hh₁ : EvidenceOn (Bbn.run ops) [] [x.id] (fun _ => a) h₁)
    (hh₂ : ∀ u ∈ x.values, ∀ c ∈ m.values, EvidenceOn (Bbn.run ops) [] [m.id, x.id] (fun i => if i = m.id then c else u) (h₂ u c))
    {yv : Str} (hyv : yv ∈ y.values) :
    ∃ (pm px : Str → ℚ) (py : Str → Str → ℚ), (∀ c ∈ m.values, Reports (runHist jt h₁) m c (pm c)) ∧
      (∀ u ∈ x.values, Reports (runHist jt h₀) x u (px u)) ∧ (∀ u ∈ x.values, ∀ c ∈ m.values, Reports (runHist jt (h₂ u c)) y yv (py u c)) ∧
      (m.values.map (fun c => pm c * (x.values.map (fun u => py u c * px u)).sum)).sum = (Bbn.run ops).prDo x.id a (isAt y.id yv) := by
  have hb := proper_of hu.toSane hac hn
  refine ⟨fun c => (Bbn.run ops).prGiven (isAt m.id c) (agree [x] (fun _ => a)), fun u => (Bbn.run ops).prGiven (isAt x.id u) (agree [] (fun _ => [])),
    fun u c => (Bbn.run ops).prGiven (isAt y.id yv) (agree [m, x] (fun i => if i = m.id then c else u)), ?_, ?_, ?_, ?_⟩
  · exact fun c hc => reports_pinned hu hj (Z := [x]) (by simpa using hx) hh₁ hm hc
  · exact fun u hu' => reports_pinned hu hj (Z := []) (by simp) hh₀ hx hu'
  · exact fun u hu' c hc => reports_pinned hu hj (Z := [m, x]) (by simpa using ⟨hm, hx⟩) (hh₂ u hu' c hc) hy hyv
  · rw [c119_mediated hu.toSane hac hn hx hm hy hxm hxy hmy hf ha]
    refine congrArg List.sum (List.map_congr_left ?_)
    intro c hc
    have htrue : agree ([] : List Variable) (fun _ => []) = fun _ => true := by funext σ; simp [agree]
    have hone : (Bbn.run ops).pr (fun _ => true) = 1 := by rw [pr_weightOf hb, weightOf_true, total_one hb]
    have hmid : m.id ∈ (Bbn.run ops).ids := by
      obtain ⟨k, hk, rfl⟩ := List.mem_map.1 hm
      exact mem_ids.2 ⟨k, hk, rfl⟩
    have hyid : y.id ∈ (Bbn.run ops).ids := by
      obtain ⟨k, hk, rfl⟩ := List.mem_map.1 hy
      exact mem_ids.2 ⟨k, hk, rfl⟩
    have eax : agree [x] (fun _ => a) = isAt x.id a := by funext σ; simp [agree, isAt]
    -- the effect of `x` on `m`
    have e1 : (Bbn.run ops).prGiven (isAt m.id c) (agree [x] (fun _ => a)) = (Bbn.run ops).prDo x.id a (isAt m.id c) := by
      have hv := valid_of_blocked hac (List.mem_map_of_mem hx) hxm (by simp) hf.2.1
      obtain ⟨k, hk, rfl⟩ := List.mem_map.1 hx
      have := backdoor_adjustment hb hk ha hmid hxm (Z := []) (by simp [vids]) (by simp) (by simp [vids]) hv (by
        intro τ hτ _
        have : τ = fun _ => [] := by simpa [allAsg] using hτ
        rw [this, htrue]
        simpa using hpa) c
      simp only [allAsg, List.map_cons, List.map_nil, List.sum_cons, List.sum_nil, add_zero, htrue, hone, mul_one, Bool.and_true] at this
      rw [← this, eax]
    beta_reduce
    rw [e1]
    by_cases h0 : (Bbn.run ops).prDo x.id a (isAt m.id c) = 0
    · rw [h0, zero_mul, zero_mul]
    congr 1
    -- the effect of `m` on `y`
    have hpc : (Bbn.run ops).pr (fun σ => isAt m.id c σ && isAt x.id a σ) ≠ 0 := by
      intro h
      rw [← e1, eax] at h0
      unfold Bbn.prGiven at h0
      rw [h, zero_div] at h0
      exact h0 rfl
    have hv := valid_of_blocked hac (List.mem_map_of_mem hm) hmy (by simpa using fun e => hxy e.symm) hf.2.2
    have hag : ∀ u, agree [x] (Function.update (fun _ => []) x.id u) = isAt x.id u := by
      intro u; funext σ; simp [agree, isAt]
    have hall : allAsg [x] = x.values.map (fun u => Function.update (fun _ => []) x.id u) := by
      simp only [allAsg, List.map_cons, List.map_nil]
      induction x.values with
      | nil => rfl
      | cons u l ih => simp [ih]
    obtain ⟨k, hk, ek⟩ := List.mem_map.1 hm
    have := backdoor_adjustment hb hk (a := c) (by rw [ek]; exact hc) hyid (by rw [ek]; exact hmy) (Z := [x]) (by simp [vids])
      (by simpa using hx) (by simpa [vids] using fun e => hxy e.symm) (by rw [ek]; exact hv) (by
        rw [hall]
        intro τ hτ h1
        obtain ⟨u, hu', rfl⟩ := List.mem_map.1 hτ
        rw [hag] at h1 ⊢
        rw [ek]
        exact hover c hc hpc u hu' h1) yv
    rw [ek] at this
    rw [← this, hall, List.map_map]
    refine congrArg List.sum (List.map_congr_left ?_)
    intro u _
    simp only [Function.comp_def, hag]
    congr 1
    · congr 1
      funext σ
      unfold agree isAt
      rw [Bool.eq_iff_iff]
      simp [hxm]
    · rw [htrue]
      unfold Bbn.prGiven
      rw [hone, div_one]
      simp only [Bool.and_true]

end

/-! ### a concrete network: an unobserved cause 0 of both 1 and 3, and the mediator 2 between them -/

def c119_ops : List BOp :=
  [.addEdge (mkNode 0 "u" [1/4, 3/4]) (mkNode 1 "x" [1/2, 1/2, 1/4, 3/4]),
   .addEdge (mkNode 1 "x" [1/2, 1/2, 1/4, 3/4]) (mkNode 2 "m" [1/5, 4/5, 2/5, 3/5]),
   .addEdge (mkNode 0 "u" [1/4, 3/4]) (mkNode 3 "y" [1/10, 9/10, 1/5, 4/5, 3/10, 7/10, 0, 1]),
   .addEdge (mkNode 2 "m" [1/5, 4/5, 2/5, 3/5]) (mkNode 3 "y" [1/10, 9/10, 1/5, 4/5, 3/10, 7/10, 0, 1])]

def c119_x : Variable := (mkNode 1 "x" []).var
def c119_m : Variable := (mkNode 2 "m" []).var
def c119_y : Variable := (mkNode 3 "y" []).var

theorem c119_wf : (Bbn.run c119_ops).WF := wf_of_check (by decide +kernel) (by decide +kernel)

theorem c119_connected : ConnectedOps c119_ops := by
  have hv : ∀ u ∈ (Bbn.run c119_ops).vars, EqvGen (fun p c => (p, c) ∈ BOp.edges c119_ops) 0 u.id := by
    have e : ∀ p c, (p, c) ∈ BOp.edges c119_ops → EqvGen (fun p c => (p, c) ∈ BOp.edges c119_ops) p c :=
      fun p c h => EqvGen.rel _ _ h
    have h1 := e 0 1 (by decide +kernel)
    have h2 := EqvGen.trans _ _ _ h1 (e 1 2 (by decide +kernel))
    have h3 := e 0 3 (by decide +kernel)
    have hid : (Bbn.run c119_ops).vars.map Variable.id = [0, 1, 2, 3] := by decide +kernel
    intro u hu
    have : u.id ∈ (Bbn.run c119_ops).vars.map Variable.id := List.mem_map.2 ⟨u, hu, rfl⟩
    rw [hid] at this
    simp only [List.mem_cons, List.not_mem_nil, or_false] at this
    rcases this with h | h | h | h <;> rw [h]
    · exact EqvGen.refl _
    all_goals assumption
  intro u hu v hv'
  exact EqvGen.trans _ _ _ (EqvGen.symm _ _ (hv u hu)) (hv v hv')

theorem c119_usable : Net.Usable c119_ops := ⟨⟨c119_wf, by decide +kernel⟩, c119_connected⟩

theorem c119_acyclic : AcyclicOps c119_ops := by
  have key : ∀ a b, TransGen (fun p c => (p, c) ∈ BOp.edges c119_ops) a b → a < b := by
    intro a b h
    have hlt : ∀ e ∈ BOp.edges c119_ops, e.1 < e.2 := by decide +kernel
    induction h with
    | single hm => exact hlt _ hm
    | tail _ hm ih => exact lt_trans ih (hlt _ hm)
  intro a ha
  exact lt_irrefl a (key a a ha)

theorem c119_normalized : (Bbn.run c119_ops).Normalized (Bbn.run c119_ops).parentVars :=
  normalized_of_rows (fun _ v hv => parentVars_sub (bbn_run_inv _) _ v hv) (by decide +kernel)

theorem c119_runs (it : SetIter Int) (js : SetIter Str) : ∃ jt, apply it js (Bbn.run c119_ops) = .ok jt :=
  ((c16_exact_priors it js c119_ops c119_wf c119_connected).1 (by decide +kernel)).imp (fun _ h => h.1)

theorem c119_ok : FrontdoorOk (Bbn.run c119_ops) 1 2 3 := by
  have e1 : Do.allPaths (Bbn.run c119_ops).toNxGraph.1 1 3 = [[1, 0, 3], [1, 2, 3]] := by decide +kernel
  have e2 : Do.allPaths (Bbn.run c119_ops).toNxGraph.1 1 2 = [[1, 0, 3, 2], [1, 2]] := by decide +kernel
  have e3 : Do.allPaths (Bbn.run c119_ops).toNxGraph.1 2 3 = [[2, 1, 0, 3], [2, 3]] := by decide +kernel
  refine ⟨?_, ⟨by simp, ?_⟩, ⟨by decide +kernel, ?_⟩⟩
  · rw [e1]
    intro p hp hc
    simp only [List.mem_cons, List.not_mem_nil, or_false] at hp
    rcases hp with rfl | rfl
    · have h : Do.hasEdge (Bbn.run c119_ops).toNxGraph.1 1 0 = true := (List.isChain_cons_cons.1 hc).1
      have h' : Do.hasEdge (Bbn.run c119_ops).toNxGraph.1 1 0 = false := by decide +kernel
      rw [h'] at h
      cases h
    · simp
  · rw [e2]
    intro p hp hb
    simp only [List.mem_cons, List.not_mem_nil, or_false] at hp
    rcases hp with rfl | rfl
    · have : (Do.isActivePath (Bbn.run c119_ops).toNxGraph.1 [1, 0, 3, 2] ⟨true, []⟩).val? = some false := by decide +kernel
      exact ok_of_val? this
    · have : (Do.isBackdoor (Bbn.run c119_ops).toNxGraph.1 [1, 2]).val? = some false := by decide +kernel
      rw [hb] at this
      cases this
  · rw [e3]
    intro p hp hb
    simp only [List.mem_cons, List.not_mem_nil, or_false] at hp
    rcases hp with rfl | rfl
    · have : (Do.isActivePath (Bbn.run c119_ops).toNxGraph.1 [2, 1, 0, 3] ⟨true, [1]⟩).val? = some false := by decide +kernel
      exact ok_of_val? this
    · have : (Do.isBackdoor (Bbn.run c119_ops).toNxGraph.1 [2, 3]).val? = some false := by decide +kernel
      rw [hb] at this
      cases this

def c119_h₁ : List (SetIter Str × EvOp) := [(.same, .update [obs c119_x "on".toList])]
def c119_h₂ (u c : Str) : List (SetIter Str × EvOp) := [(.same, .update [obs c119_m c]), (.rev, .update [obs c119_x u])]

theorem c119_h₁_on : EvidenceOn (Bbn.run c119_ops) [] [1] (fun _ => "on".toList) c119_h₁ := by
  refine ⟨?_, by decide +kernel, by decide +kernel⟩
  intro op hop
  simp only [c119_h₁, List.mem_cons, List.not_mem_nil, or_false] at hop
  subst hop
  intro e he
  simp only [List.mem_cons, List.not_mem_nil, or_false] at he
  subst he
  exact ⟨by decide +kernel, unambiguous_of_check (by decide +kernel)⟩

theorem c119_h₂_on : ∀ u ∈ ["on".toList, "off".toList], ∀ c ∈ ["on".toList, "off".toList],
    EvidenceOn (Bbn.run c119_ops) [] [2, 1] (fun i => if i = 2 then c else u) (c119_h₂ u c) := by
  intro u hu c hc
  refine ⟨?_, ?_, ?_⟩
  · intro op hop
    simp only [c119_h₂, List.mem_cons, List.not_mem_nil, or_false] at hop
    simp only [List.mem_cons, List.not_mem_nil, or_false] at hu hc
    rcases hop with rfl | rfl
    · intro e he
      simp only [List.mem_cons, List.not_mem_nil, or_false] at he
      subst he
      rcases hc with rfl | rfl
      · exact ⟨by decide +kernel, unambiguous_of_check (by decide +kernel)⟩
      · exact ⟨by decide +kernel, unambiguous_of_check (by decide +kernel)⟩
    · intro e he
      simp only [List.mem_cons, List.not_mem_nil, or_false] at he
      subst he
      rcases hu with rfl | rfl
      · exact ⟨by decide +kernel, unambiguous_of_check (by decide +kernel)⟩
      · exact ⟨by decide +kernel, unambiguous_of_check (by decide +kernel)⟩
  · revert u c
    decide +kernel
  · revert u c
    decide +kernel

/-- C119 is not vacuous: the criterion holds, and the effect 9/100 is not the conditional probability 27/250 -/
example : FrontdoorOk (Bbn.run c119_ops) 1 2 3 ∧ (Bbn.run c119_ops).prDo 1 "on".toList (isAt 3 "on".toList) = 9/100 ∧
    (Bbn.run c119_ops).prGiven (isAt 3 "on".toList) (isAt 1 "on".toList) = 27/250 := ⟨c119_ok, by decide +kernel, by decide +kernel⟩

/-- the theorem here -/
example {it : SetIter Int} {js : SetIter Str} {jt : JoinTree} (hj : apply it js (Bbn.run c119_ops) = .ok jt) :
    ∃ (pm px : Str → ℚ) (py : Str → Str → ℚ), (∀ c ∈ c119_m.values, Reports (runHist jt c119_h₁) c119_m c (pm c)) ∧
      (∀ u ∈ c119_x.values, Reports (runHist jt []) c119_x u (px u)) ∧
      (∀ u ∈ c119_x.values, ∀ c ∈ c119_m.values, Reports (runHist jt (c119_h₂ u c)) c119_y "on".toList (py u c)) ∧
      (c119_m.values.map (fun c => pm c * (c119_x.values.map (fun u => py u c * px u)).sum)).sum = 9/100 := by
  have e : (Bbn.run c119_ops).prDo c119_x.id "on".toList (isAt c119_y.id "on".toList) = 9/100 := by decide +kernel
  rw [← e]
  exact c119_frontdoor c119_usable c119_acyclic c119_normalized hj (x := c119_x) (m := c119_m) (y := c119_y) (by decide +kernel) (by decide +kernel)
    (by decide +kernel) (by decide +kernel) (by decide +kernel) (by decide +kernel) c119_ok (by decide +kernel) (by decide +kernel)
    (by decide +kernel) ⟨by simp, by decide +kernel, by decide +kernel⟩ c119_h₁_on c119_h₂_on (by decide +kernel)

end PyBBN
