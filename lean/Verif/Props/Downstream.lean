import Verif.Proofs.Frontdoor

/-! # C120: setting a node changes nothing for the nodes that are not its descendants -/

namespace PyBBN
open Relation InferenceController DSep

section
variable {ops : List BOp} {it it' : SetIter Int} {js js' : SetIter Str} {jt jt' : JoinTree}

/-- `i` is neither `x` nor a descendant of `x` (`nx.descendants`) -/
def NotDownstream (b : Bbn) (x i : Int) : Prop := i ≠ x ∧ i ∉ Do.descendants b.toNxGraph.1 x

theorem notDownstream_iff {x : Variable} (hx : x ∈ (Bbn.run ops).vars) (i : Int) :
    NotDownstream (Bbn.run ops) x.id i ↔ ¬ ReflTransGen (Bbn.run ops).Par x.id i := by
  have hxn : x.id ∈ (Bbn.run ops).toNxGraph.1.nodes := by
    rw [(c62_nx_graph ops).1]
    exact List.mem_map_of_mem hx
  unfold NotDownstream
  rw [Do.mem_descendants (nxGraph_wf ops) hxn, nxGraph_E]
  constructor
  · rintro ⟨h1, h2⟩ h3
    exact h2 ⟨h1, h3⟩
  · intro h
    exact ⟨fun e => h (e ▸ ReflTransGen.refl), fun h' => h h'.2⟩

/-- the posterior in the network without the edges into `x` and with `x` fixed -/
theorem point_posterior {x : Variable} {a : Str} (hx : x ∈ (Bbn.run ops).vars) (ha : a ∈ x.values) {ℓ : Liks} (h1 : ℓ x.id a = 1) (i : Int) (y : Str) :
    (Bbn.run (cutOps x.id (point x a) ops)).posterior ℓ i y = (Bbn.run ops).prDoGiven ℓ x.id a (isAt i y) := by
  have hi' := bbn_run_inv (cutOps x.id (point x a) ops)
  unfold Bbn.posterior Bbn.prDoGiven
  congr 1
  · rw [mass_eq, sum_filter_map, sum_allAsg_perm (vars_nodup hi') cut_vars]
    refine congrArg List.sum (List.map_congr_left ?_)
    intro σ _
    rw [cut_weight hx, point_getD ha]
    unfold isAt
    by_cases e1 : σ x.id = a <;> by_cases e2 : σ i = y <;> simp [e1, e2, h1]
  · unfold Bbn.total
    rw [sum_filter_map, sum_allAsg_perm (vars_nodup hi') cut_vars]
    refine congrArg List.sum (List.map_congr_left ?_)
    intro σ _
    rw [cut_weight hx, point_getD ha]
    unfold isAt
    by_cases e1 : σ x.id = a <;> simp [e1, h1]

/-- **C120**. Connected acyclic network whose CPT rows sum to one; any history of unambiguous evidence that leaves `x` and its descendants
without evidence. Then what is reported for a value of a node that is neither `x` nor a descendant of `x` is its probability when `x` is
set to any of its values, given the likelihoods in force: the intervention changes nothing there. -/
theorem c120_downstream (hu : Net.Usable ops) (hac : AcyclicOps ops) (hn : (Bbn.run ops).Normalized (Bbn.run ops).parentVars)
    (hj : apply it js (Bbn.run ops) = .ok jt) (h : List (SetIter Str × EvOp)) (hp : ∀ op ∈ h, op.2.Ok (Bbn.run ops).vars)
    {x : Variable} (hx : x ∈ (Bbn.run ops).vars) {a : Str} (ha : a ∈ x.values)
    (hne : ∀ w ∈ (Bbn.run ops).vars, ¬ NotDownstream (Bbn.run ops) x.id w.id → NoEvidenceOn (runHist jt h) w)
    {ℓ : Liks} (hℓ : ∀ w ∈ (Bbn.run ops).vars, ∀ z ∈ w.values, Stored (runHist jt h) w z (ℓ w.id z))
    {v : Variable} (hv : v ∈ (Bbn.run ops).vars) (hvx : NotDownstream (Bbn.run ops) x.id v.id) {y : Str} (hy : y ∈ v.values) :
    Reports (runHist jt h) v y ((Bbn.run ops).prDoGiven ℓ x.id a (isAt v.id y)) := by
  classical
  have hb := proper_of hu.toSane hac hn
  have hc := cut_proper hu.toSane hac hn hx ha
  have hpp : ∀ op ∈ h, op.2.Proper (Bbn.run ops).vars := fun op ho => (hp op ho).proper
  let A : Int → Prop := NotDownstream (Bbn.run ops) x.id
  let κ : Liks := fun i z => if A i then specHist (Bbn.run ops).vars h i z else 1
  have hκ : ∀ w ∈ (Bbn.run ops).vars, ∀ z ∈ w.values, specHist (Bbn.run ops).vars h w.id z = κ w.id z := by
    intro w hw z hz
    by_cases hA : A w.id
    · exact (if_pos hA).symm
    · rw [noEvidenceOn_iff hu hj h hpp hw (hne w hw hA) z hz]
      exact (if_neg hA).symm
  have hAx : ¬ A x.id := fun hc => hc.1 rfl
  have hκx : κ x.id a = 1 := if_neg hAx
  have hrows : ∀ {b : Bbn}, b.Proper → ProperOutside A b := by
    intro b hb
    exact ⟨fun n hn _ => rows_of_normalized hb hn, acyclic_mono hb.acyclic (fun p c h => h.1)⟩
  have hag : AgreeOn A (Bbn.run ops) (Bbn.run (cutOps x.id (point x a) ops)) := by
    have hAne : ∀ {i}, A i → i ≠ x.id := fun h e => hAx (e ▸ h)
    refine ⟨?_, ?_, ?_⟩
    · intro n hA
      have hne := hAne hA
      rw [cut_getNodes.mem_iff, List.mem_map]
      constructor
      · intro hk
        exact ⟨n, hk, withPrior_ne hne⟩
      · rintro ⟨k, hk, rfl⟩
        rw [withPrior_var] at hne
        rwa [withPrior_ne hne]
    · intro n _ hA
      exact cut_parentVars_ne (hAne hA)
    · intro n _ hA q hq
      have hq' : (Bbn.run ops).Par q.id n.var.id := parentVars_par (bbn_run_inv ops) hq
      refine (notDownstream_iff hx _).2 ?_
      intro hr
      exact (notDownstream_iff hx _).1 hA (hr.tail hq')
  have h1 := reports hu hj h hp hv hy
  have e : (Bbn.run ops).posterior (specHist (Bbn.run ops).vars h) v.id y = (Bbn.run ops).prDoGiven ℓ x.id a (isAt v.id y) := by
    rw [posterior_congr hb.inv hκ, ← AgreeOn.posterior hag hb.inv hc.inv hb.wf hc.wf hb.nonempty hc.nonempty (hrows hb) (hrows hc) (ℓ := κ) (ℓ' := κ)
      (fun n _ hA z => if_neg hA) (fun n _ hA z => if_neg hA) (fun _ _ _ _ _ => rfl) hvx y, point_posterior hx ha hκx]
    have hcg : ∀ σ ∈ allAsg (Bbn.run ops).vars, (Bbn.run ops).weightDo κ x.id σ = (Bbn.run ops).weightDo ℓ x.id σ := by
      intro σ hσ
      unfold Bbn.weightDo
      refine congrArg List.prod (List.map_congr_left ?_)
      intro n hn
      have hnm := (List.mem_filter.1 hn).1
      have hz : σ n.var.id ∈ n.var.values := allAsg_mem_dom _ (vars_nodup hb.inv) σ hσ n.var (List.mem_map_of_mem hnm)
      rw [← hκ n.var (List.mem_map_of_mem hnm) _ hz, (stored_iff hu hj h hpp (List.mem_map_of_mem hnm) hz _).1 (hℓ n.var (List.mem_map_of_mem hnm) _ hz)]
    unfold Bbn.prDoGiven
    rw [List.map_congr_left (fun σ hσ => hcg σ (List.mem_filter.1 hσ).1), List.map_congr_left (fun σ hσ => hcg σ (List.mem_filter.1 hσ).1)]
  rwa [e] at h1

/-- **C120**, in two networks. Build the network again without the edges into `x` and with any CPT for `x` that makes `a` possible. After the
same calls, and after observing `x = a` in the second one, both report the same for every node that is neither `x` nor a descendant of `x`. -/
theorem c120_experiment (hu : Net.Usable ops) (hac : AcyclicOps ops) (hn : (Bbn.run ops).Normalized (Bbn.run ops).parentVars)
    (hj : apply it js (Bbn.run ops) = .ok jt) {x : Variable} (hx : x ∈ (Bbn.run ops).vars) {prior : List ℚ} (hl : x.values.length ≤ prior.length)
    (h0 : ∀ p ∈ prior, 0 ≤ p) (hc : ConnectedOps (cutOps x.id prior ops)) (hj' : apply it' js' (Bbn.run (cutOps x.id prior ops)) = .ok jt')
    {a : Str} (ha : a ∈ x.values) (hpos : prior.getD (x.values.idxOf a) 0 ≠ 0)
    (h : List (SetIter Str × EvOp)) (hp : ∀ op ∈ h, op.2.Ok (Bbn.run ops).vars)
    (hne : ∀ w ∈ (Bbn.run ops).vars, ¬ NotDownstream (Bbn.run ops) x.id w.id → NoEvidenceOn (runHist jt h) w) (s : SetIter Str)
    {v : Variable} (hv : v ∈ (Bbn.run ops).vars) (hvx : NotDownstream (Bbn.run ops) x.id v.id) {y : Str} (hy : y ∈ v.values) :
    ∃ p, Reports (runHist jt h) v y p ∧ Reports (runHist jt' (h ++ [(s, .update [obs x a])])) v y p := by
  have hu' : Net.Usable (cutOps x.id prior ops) := ⟨cut_sane hu.toSane hx hl h0, hc⟩
  have hpp : ∀ op ∈ h, op.2.Proper (Bbn.run ops).vars := fun op ho => (hp op ho).proper
  have hpp' : ∀ op ∈ h, op.2.Proper (Bbn.run (cutOps x.id prior ops)).vars :=
    fun op ho => (ok_mono (fun w hw => cut_vars.mem_iff.2 hw) (hp op ho)).proper
  have hsame : ∀ w ∈ (Bbn.run ops).vars, ∀ z ∈ w.values,
      specHist (Bbn.run (cutOps x.id prior ops)).vars h w.id z = specHist (Bbn.run ops).vars h w.id z := by
    have hi := bbn_run_inv ops
    refine specHist_ren (ρ := fun i => i) (ν := (Bbn.run ops).nameOf) ⟨fun u hu v hv e => List.inj_on_of_nodup_map (vars_nodup hi) hu hv e, ?_⟩ h h hpp
      (hist_ren_self hi hpp rfl)
    intro w hw
    rw [ren_self hi hw]
    exact cut_vars.mem_iff.2 hw
  refine ⟨_, c120_downstream hu hac hn hj h hp hx ha hne (ℓ := specHist (Bbn.run ops).vars h) ?_ hv hvx hy, ?_⟩
  · intro w hw z hz
    exact (stored_iff hu hj h hpp hw hz _).2 rfl
  refine c117_surgery hu.toSane hx hl h0 hc hj' ha hpos h hp ?_ ?_ s hv hy
  · have hxn := hne x hx (fun hc => hc.1 rfl)
    have h1 := (c18_law hu' hj' h hpp' x (cut_vars.mem_iff.2 hx)).1
    unfold NoEvidenceOn
    rw [h1]
    refine congrArg some (List.map_congr_left ?_)
    intro z hz
    exact congrArg (Prod.mk z) ((hsame x hx z hz).trans (noEvidenceOn_iff hu hj h hpp hx hxn z hz))
  · intro w hw z hz
    refine (stored_iff hu' hj' h hpp' (cut_vars.mem_iff.2 hw) hz _).2 (hsame w hw z hz).symm

end

/-! ### a concrete case: node 1 of the diamond of C16, with virtual evidence about node 2 -/

def c120_h : List (SetIter Str × EvOp) := [(.rev, .update [Evidence.build (c16_node 2) .virtual [("on".toList, 3/4), ("off".toList, 1/4)]])]

theorem c120_h_ok : ∀ op ∈ c120_h, op.2.Ok (Bbn.run c16_ops).vars := by
  intro op hop
  simp only [c120_h, List.mem_cons, List.not_mem_nil, or_false] at hop
  subst hop
  intro e he
  simp only [List.mem_cons, List.not_mem_nil, or_false] at he
  subst he
  exact ⟨by decide +kernel, unambiguous_of_check (by decide +kernel)⟩

theorem c120_h_none {it : SetIter Int} {js : SetIter Str} {jt : JoinTree} (hj : apply it js (Bbn.run c16_ops) = .ok jt) :
    ∀ w ∈ (Bbn.run c16_ops).vars, ¬ NotDownstream (Bbn.run c16_ops) 1 w.id → NoEvidenceOn (runHist jt c120_h) w := by
  intro w hw hA
  have hw2 : w.id ≠ 2 := by
    intro e
    rw [e] at hA
    exact hA ⟨by decide +kernel, by decide +kernel⟩
  have h1 := (c18_law c16_usable hj c120_h (fun op ho => (c120_h_ok op ho).proper) w hw).1
  unfold NoEvidenceOn
  rw [h1]
  refine congrArg some (List.map_congr_left ?_)
  have : ∀ w ∈ (Bbn.run c16_ops).vars, w.id ≠ 2 → ∀ z ∈ w.values, specHist (Bbn.run c16_ops).vars c120_h w.id z = 1 := by decide +kernel
  intro z hz
  exact congrArg (Prod.mk z) (this w hw hw2 z hz)

/-- C120 is not vacuous: 0 and 2 are not downstream of 1, 3 and 4 are. Setting 1 leaves the report of 0 at what it is, observing 1 changes it. -/
example : NotDownstream (Bbn.run c16_ops) 1 0 ∧ NotDownstream (Bbn.run c16_ops) 1 2 ∧ ¬ NotDownstream (Bbn.run c16_ops) 1 4 ∧
    ((apply .same .same (Bbn.run c16_ops)).val?.map (fun jt => firstOf (runHist jt c120_h) (c16_node 0))) =
      some (some ((Bbn.run c16_ops).prDoGiven (specHist (Bbn.run c16_ops).vars c120_h) 1 "on".toList (isAt 0 "on".toList))) ∧
    (Bbn.run c16_ops).prDoGiven (specHist (Bbn.run c16_ops).vars c120_h) 1 "on".toList (isAt 0 "on".toList) ≠ 1/4 ∧
    ((apply .same .same (Bbn.run c16_ops)).val?.map (fun jt =>
      decide (firstOf (runHist jt (c120_h ++ [(.same, .update [obs (c16_node 1) "on".toList])])) (c16_node 0) =
        some ((Bbn.run c16_ops).prDoGiven (specHist (Bbn.run c16_ops).vars c120_h) 1 "on".toList (isAt 0 "on".toList))))) = some false := by
  refine ⟨⟨by decide +kernel, by decide +kernel⟩, ⟨by decide +kernel, by decide +kernel⟩, fun h => h.2 (by decide +kernel), by decide +kernel, by decide +kernel,
    by decide +kernel⟩

/-- for a descendant the claim is false: setting 1 changes the report of 4 -/
example : ((apply .same .same (Bbn.run c16_ops)).val?.map (fun jt =>
      decide (firstOf (runHist jt c120_h) (c16_node 4) =
        some ((Bbn.run c16_ops).prDoGiven (specHist (Bbn.run c16_ops).vars c120_h) 1 "on".toList (isAt 4 "on".toList))))) = some false := by decide +kernel

/-- the theorems here -/
example {it it' : SetIter Int} {js js' : SetIter Str} {jt jt' : JoinTree} (hj : apply it js (Bbn.run c16_ops) = .ok jt)
    (hj' : apply it' js' (Bbn.run (cutOps 1 [1/3, 2/3] c16_ops)) = .ok jt') :
    ∃ p, Reports (runHist jt c120_h) (c16_node 0) "on".toList p ∧
      Reports (runHist jt' (c120_h ++ [(.same, .update [obs (c16_node 1) "on".toList])])) (c16_node 0) "on".toList p :=
  c120_experiment c16_usable c16_acyclic c16_normalized hj (x := c16_node 1) (prior := [1/3, 2/3]) (by decide +kernel) (by decide +kernel) (by decide +kernel)
    c117_connected hj' (by decide +kernel) (by decide +kernel) c120_h c120_h_ok (c120_h_none hj) .same (by decide +kernel)
    ⟨by decide +kernel, by decide +kernel⟩ (by decide +kernel)

end PyBBN
