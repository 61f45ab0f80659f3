import Verif.Props.Chain

/-! # C80: the reports depend on the joint distribution only -/

namespace PyBBN
open Relation InferenceController

/-- the same variables, and joint weights that differ by a constant factor at most -/
structure SameJoint (b b' : Bbn) : Prop where
  vars : b'.vars.Perm b.vars
  joint : ∃ k : ℚ, k ≠ 0 ∧ ∀ σ, InDom b.vars σ → b'.weight noEvidence σ = k * b.weight noEvidence σ

theorem weight_noEvidence_mul (b : Bbn) (ℓ : Liks) (σ : Asg) :
    b.weight ℓ σ = b.weight noEvidence σ * (b.vars.map (fun v => ℓ v.id (σ v.id))).prod := by
  unfold Bbn.weight Bbn.vars noEvidence
  rw [List.map_map, ← List.prod_map_mul]
  refine congrArg List.prod (List.map_congr_left ?_)
  intro n _
  simp only [mul_one, Function.comp_apply]

theorem SameJoint.posterior {b b' : Bbn} (hi : BbnInv b) (hs : SameJoint b b') {ℓ ℓ' : Liks}
    (hl : ∀ v ∈ b.vars, ∀ x ∈ v.values, ℓ' v.id x = ℓ v.id x) (i : Int) (x : Str) : b'.posterior ℓ' i x = b.posterior ℓ i x := by
  obtain ⟨k, hk, hw⟩ := hs.joint
  have hn : (vids b'.vars).Nodup := (hs.vars.map Variable.id).nodup_iff.2 (vars_nodup hi)
  have hW : ∀ σ ∈ allAsg b.vars, b'.weight ℓ' σ = k * b.weight ℓ σ := by
    intro σ hσ
    have hd := allAsg_mem_dom b.vars (vars_nodup hi) σ hσ
    rw [weight_noEvidence_mul, weight_noEvidence_mul b, hw σ hd, (hs.vars.map (fun v => ℓ' v.id (σ v.id))).prod_eq,
      List.map_congr_left (fun v hv => hl v hv _ (hd v hv)), mul_assoc]
  have hm : b'.mass ℓ' i x = k * b.mass ℓ i x := by
    rw [mass_eq, mass_eq, sum_allAsg_perm hn hs.vars, ← List.sum_map_mul_left]
    refine congrArg List.sum (List.map_congr_left ?_)
    intro σ hσ
    rw [hW σ hσ]
    split <;> simp
  have ht : b'.total ℓ' = k * b.total ℓ := by
    unfold Bbn.total
    rw [sum_allAsg_perm hn hs.vars, ← List.sum_map_mul_left]
    exact congrArg List.sum (List.map_congr_left hW)
  unfold Bbn.posterior
  rw [hm, ht, mul_div_mul_left _ _ hk]

section
variable {it it' : SetIter Int} {js js' : SetIter Str} {ops ops' : List BOp} {jt jt' : JoinTree}

theorem EvOp.Proper.perm {V V' : List Variable} (hm : ∀ v ∈ V, v ∈ V') {op : EvOp} (h : op.Proper V) : op.Proper V' := by
  cases op with
  | update es => exact fun e he => ⟨hm _ (h e he).node, (h e he).keys, (h e he).dom⟩
  | observe e => exact ⟨hm _ (h : e.Proper _).node, (h : e.Proper _).keys, (h : e.Proper _).dom⟩
  | unobserve ns => exact fun v hv => hm v (h v hv)
  | unobserveAll => trivial

/-- **C80**. Two connected networks over the same variables, with the same joint distribution (up to normalization), whatever their edges
and CPTs: after the same history of evidence they report the same probabilities. -/
theorem c80_same_joint (hu : Net.Usable ops) (hu' : Net.Usable ops') (hs : SameJoint (Bbn.run ops) (Bbn.run ops'))
    (hj : apply it js (Bbn.run ops) = .ok jt) (hj' : apply it' js' (Bbn.run ops') = .ok jt')
    (h h' : List (SetIter Str × EvOp)) (hp : ∀ op ∈ h, op.2.Proper (Bbn.run ops).vars) (he : h'.map Prod.snd = h.map Prod.snd)
    {v : Variable} (hv : v ∈ (Bbn.run ops).vars) {x : Str} (hx : x ∈ v.values) :
    ∃ p, Reports (runHist jt h) v x p ∧ Reports (runHist jt' h') v x p := by
  have hi := bbn_run_inv ops
  have hm : ∀ v ∈ (Bbn.run ops).vars, v ∈ (Bbn.run ops').vars := fun v hv => hs.vars.mem_iff.2 hv
  have hp' : ∀ op ∈ h', op.2.Proper (Bbn.run ops').vars := by
    intro op ho
    have : op.2 ∈ h.map Prod.snd := by rw [← he]; exact List.mem_map_of_mem ho
    obtain ⟨o, ho, e⟩ := List.mem_map.1 this
    rw [← e]
    exact (hp o ho).perm hm
  have hr : RenInto (fun i => i) (Bbn.run ops).nameOf (Bbn.run ops).vars (Bbn.run ops').vars := by
    refine ⟨fun u hu v hv e => List.inj_on_of_nodup_map (vars_nodup hi) hu hv e, ?_⟩
    intro v hv
    rw [ren_self hi hv]
    exact hm v hv
  have hl := lawHist_ren hr h h' hp (hist_ren_self hi hp he)
    (fun w hw => Or.inl ⟨w, hs.vars.mem_iff.1 hw, (ren_self hi (hs.vars.mem_iff.1 hw)).symm⟩)
  refine ⟨_, reports_law hu hj h hp hv hx, ?_⟩
  have h1 := reports_law hu' hj' h' hp' (hm v hv) hx
  rwa [hs.posterior hi hl] at h1

/-- **C80**, converse. Two connected networks without cycles, over the same variables, whose CPT rows sum to one: if they report the same
probabilities after all sequences of observations, they have the same joint distribution. -/
theorem c80_converse (hu : Net.Usable ops) (hu' : Net.Usable ops') (hac : AcyclicOps ops) (hac' : AcyclicOps ops')
    (hrow : (Bbn.run ops).Normalized (Bbn.run ops).parentVars) (hrow' : (Bbn.run ops').Normalized (Bbn.run ops').parentVars)
    (hvars : (Bbn.run ops').vars.Perm (Bbn.run ops).vars)
    (hj : apply it js (Bbn.run ops) = .ok jt) (hj' : apply it' js' (Bbn.run ops') = .ok jt')
    (hsame : ∀ os : List (Variable × Str), (∀ o ∈ os, o.1 ∈ (Bbn.run ops).vars ∧ o.2 ∈ o.1.values) →
      ∀ v ∈ (Bbn.run ops).vars, ∀ x ∈ v.values, ∀ p,
        Reports (runHist jt (os.map (fun o => (.same, .update [obs o.1 o.2])))) v x p →
        Reports (runHist jt' (os.map (fun o => (.same, .update [obs o.1 o.2])))) v x p)
    {σ : Asg} (hσ : InDom (Bbn.run ops).vars σ) :
    (Bbn.run ops').weight noEvidence σ = (Bbn.run ops).weight noEvidence σ := by
  have key : ∀ (l : List (SetIter Str × Variable)) (h : List (SetIter Str × EvOp)) (q : ℚ), Chain jt σ h l q →
      (∀ a ∈ l, a.2 ∈ (Bbn.run ops).vars) → (∀ a ∈ l, a.1 = .same) →
      (∃ os : List (Variable × Str), (∀ o ∈ os, o.1 ∈ (Bbn.run ops).vars ∧ o.2 ∈ o.1.values) ∧ h = os.map (fun o => (.same, .update [obs o.1 o.2]))) →
      Chain jt' σ h l q := by
    intro l h q hc
    induction hc with
    | nil h => intro _ _ _; exact .nil h
    | @cons h k v l p q hr hc ih =>
      rintro hm hk ⟨os, hos, rfl⟩
      have hv : v ∈ (Bbn.run ops).vars := hm (k, v) List.mem_cons_self
      have hk' : k = .same := hk (k, v) List.mem_cons_self
      refine .cons (hsame os hos v hv _ (hσ v hv) p hr) (ih (fun a ha => hm a (List.mem_cons_of_mem _ ha))
        (fun a ha => hk a (List.mem_cons_of_mem _ ha)) ⟨os ++ [(v, σ v.id)], ?_, ?_⟩)
      · intro o ho
        rcases List.mem_append.1 ho with ho | ho
        · exact hos o ho
        · simp only [List.mem_cons, List.not_mem_nil, or_false] at ho
          subst ho
          exact ⟨hv, hσ v hv⟩
      · rw [List.map_append, hk']
        rfl
  have hl : (((Bbn.run ops).vars.map (fun v => ((SetIter.same : SetIter Str), v))).map Prod.snd) = (Bbn.run ops).vars := by
    rw [List.map_map]
    exact List.map_id' _
  have h1 := c79_joint hu hac hrow hj ((Bbn.run ops).vars.map (fun v => (.same, v))) (by rw [hl]) σ hσ
  have h2 := c79_joint hu' hac' hrow' hj' ((Bbn.run ops).vars.map (fun v => (.same, v))) (by rw [hl]; exact hvars.symm) σ
    (fun v hv => hσ v (hvars.mem_iff.1 hv))
  have h3 := key _ _ _ h1 (by
    intro a ha
    obtain ⟨v, hv, rfl⟩ := List.mem_map.1 ha
    exact hv) (by
    intro a ha
    obtain ⟨v, _, rfl⟩ := List.mem_map.1 ha
    rfl) ⟨[], by simp, rfl⟩
  have h4 := h2.unique h3
  have e : ∀ b : Bbn, b.weight noEvidence σ = (b.toGraph.getNodes.map (fun n => cptAt n.probs (b.parentVars n.var.id) n.var σ)).prod := by
    intro b
    unfold Bbn.weight noEvidence
    simp only [mul_one]
  rw [e, e, h4]

end

/-! ## The claims are not vacuous -/

/-- a chain `a → b → c` … -/
def c80_ops : List BOp :=
  [.addEdge (mkNode 0 "a" [1/4, 3/4]) (mkNode 1 "b" [1/2, 1/2, 1/6, 5/6]),
   .addEdge (mkNode 1 "b" [1/2, 1/2, 1/6, 5/6]) (mkNode 2 "c" [1/3, 2/3, 3/4, 1/4])]

/-- … and the same distribution as a chain `c → b → a` -/
def c80_ops' : List BOp :=
  [.addEdge (mkNode 2 "c" [31/48, 17/48]) (mkNode 1 "b" [4/31, 27/31, 8/17, 9/17]),
   .addEdge (mkNode 1 "b" [4/31, 27/31, 8/17, 9/17]) (mkNode 0 "a" [1/2, 1/2, 1/6, 5/6])]

theorem c80_weights : ∀ σ, InDom (Bbn.run c80_ops).vars σ → (Bbn.run c80_ops').weight noEvidence σ = 1 * (Bbn.run c80_ops).weight noEvidence σ := by
  intro σ hσ
  have hi := bbn_run_inv c80_ops
  have hi' := bbn_run_inv c80_ops'
  have hb : ∀ i ∈ [(0 : Int), 1, 2], σ i = "on".toList ∨ σ i = "off".toList := by
    intro i hi
    have : ∀ v ∈ (Bbn.run c80_ops).vars, v.values = ["on".toList, "off".toList] := by decide +kernel
    have h2 : ∀ i ∈ [(0 : Int), 1, 2], ∃ v ∈ (Bbn.run c80_ops).vars, v.id = i := by decide +kernel
    obtain ⟨v, hv, rfl⟩ := h2 i hi
    have := this v hv ▸ hσ v hv
    simpa using this
  have key : ∀ a ∈ ["on".toList, "off".toList], ∀ b ∈ ["on".toList, "off".toList], ∀ c ∈ ["on".toList, "off".toList],
      (Bbn.run c80_ops').weight noEvidence (fun i => if i = 0 then a else if i = 1 then b else c) =
      1 * (Bbn.run c80_ops).weight noEvidence (fun i => if i = 0 then a else if i = 1 then b else c) := by decide +kernel
  have hv : ∀ v ∈ (Bbn.run c80_ops).vars, v.id = 0 ∨ v.id = 1 ∨ v.id = 2 := by decide +kernel
  have hv' : ∀ v ∈ (Bbn.run c80_ops').vars, v.id = 0 ∨ v.id = 1 ∨ v.id = 2 := by decide +kernel
  have h3 := key (σ 0) (by simpa using hb 0 (by simp)) (σ 1) (by simpa using hb 1 (by simp)) (σ 2) (by simpa using hb 2 (by simp))
  rw [weight_agree (σ := σ) hi', weight_agree (σ := σ) hi] at h3
  · exact h3
  · intro v h
    rcases hv v h with e | e | e <;> rw [e] <;> rfl
  · intro v h
    rcases hv' v h with e | e | e <;> rw [e] <;> rfl

theorem c80_connected : ConnectedOps c80_ops' := by
  have hv : ∀ u ∈ (Bbn.run c80_ops').vars, EqvGen (fun p c => (p, c) ∈ BOp.edges c80_ops') 2 u.id := by
    have e : ∀ p c, (p, c) ∈ BOp.edges c80_ops' → EqvGen (fun p c => (p, c) ∈ BOp.edges c80_ops') p c :=
      fun p c h => EqvGen.rel _ _ h
    have h1 := e 2 1 (by decide +kernel)
    have h2 := e 1 0 (by decide +kernel)
    have hid : ∀ u ∈ (Bbn.run c80_ops').vars, u.id = 0 ∨ u.id = 1 ∨ u.id = 2 := by decide +kernel
    intro u hu
    rcases hid u hu with h | h | h <;> rw [h]
    · exact EqvGen.trans _ _ _ h1 h2
    · exact h1
    · exact EqvGen.refl _
  intro u hu v hw
  exact EqvGen.trans _ _ _ (EqvGen.symm _ _ (hv u hu)) (hv v hw)

theorem c80_usable : Net.Usable c80_ops ∧ Net.Usable c80_ops' :=
  ⟨⟨⟨wf_of_check (by decide +kernel) (by decide +kernel), by decide +kernel⟩, connected_of_check 0 (by decide +kernel)⟩,
   ⟨⟨wf_of_check (by decide +kernel) (by decide +kernel), by decide +kernel⟩, c80_connected⟩⟩

/-- C80: two different networks with the same joint distribution, and what they report for `b` after observing `c` -/
example : Net.Usable c80_ops ∧ Net.Usable c80_ops' ∧ SameJoint (Bbn.run c80_ops) (Bbn.run c80_ops') ∧
    ((apply .same .same (Bbn.run c80_ops)).val?.map (fun jt => reportOf (runHist jt [(.same, .update [obs (c16_node 2) "on".toList])]) (c16_node 0) "on".toList)) =
    some (some (13 / 62)) ∧
    ((apply .same .same (Bbn.run c80_ops')).val?.map (fun jt => reportOf (runHist jt [(.same, .update [obs (c16_node 2) "on".toList])]) (c16_node 0) "on".toList)) =
    some (some (13 / 62)) :=
  ⟨c80_usable.1, c80_usable.2, ⟨by decide +kernel, 1, one_ne_zero, c80_weights⟩, by decide +kernel, by decide +kernel⟩

theorem acyclic_of_gt {ops : List BOp} (h : ∀ e ∈ BOp.edges ops, e.2 < e.1) : AcyclicOps ops := by
  have key : ∀ a b : Int, TransGen (fun p c => (p, c) ∈ BOp.edges ops) a b → b < a := by
    intro a b hab
    induction hab with
    | single hm => exact h _ hm
    | tail _ hm ih => exact lt_trans (h _ hm) ih
  intro a ha
  exact lt_irrefl a (key a a ha)

/-- C80, converse: the two networks report the same after all sequences of observations -/
example : AcyclicOps c80_ops ∧ AcyclicOps c80_ops' ∧ (Bbn.run c80_ops).Normalized (Bbn.run c80_ops).parentVars ∧
    (Bbn.run c80_ops').Normalized (Bbn.run c80_ops').parentVars ∧ (Bbn.run c80_ops').vars.Perm (Bbn.run c80_ops).vars ∧
    ∃ jt jt', apply .same .same (Bbn.run c80_ops) = .ok jt ∧ apply .same .same (Bbn.run c80_ops') = .ok jt' ∧
      ∀ os : List (Variable × Str), (∀ o ∈ os, o.1 ∈ (Bbn.run c80_ops).vars ∧ o.2 ∈ o.1.values) →
      ∀ v ∈ (Bbn.run c80_ops).vars, ∀ x ∈ v.values, ∀ p,
        Reports (runHist jt (os.map (fun o => (.same, .update [obs o.1 o.2])))) v x p →
        Reports (runHist jt' (os.map (fun o => (.same, .update [obs o.1 o.2])))) v x p := by
  refine ⟨acyclic_of_lt (by decide +kernel), acyclic_of_gt (by decide +kernel),
    normalized_of_rows (fun _ v hv => parentVars_sub (bbn_run_inv _) _ v hv) (by decide +kernel),
    normalized_of_rows (fun _ v hv => parentVars_sub (bbn_run_inv _) _ v hv) (by decide +kernel), by decide +kernel, ?_⟩
  have e1 : (apply .same .same (Bbn.run c80_ops)).val?.isSome = true := by decide +kernel
  have e2 : (apply .same .same (Bbn.run c80_ops')).val?.isSome = true := by decide +kernel
  obtain ⟨jt, hjt⟩ := Option.isSome_iff_exists.1 e1
  obtain ⟨jt', hjt'⟩ := Option.isSome_iff_exists.1 e2
  refine ⟨jt, jt', ok_of_val? hjt, ok_of_val? hjt', ?_⟩
  intro os hos v hv x hx p hp
  obtain ⟨q, h1, h2⟩ := c80_same_joint c80_usable.1 c80_usable.2 ⟨by decide +kernel, 1, one_ne_zero, c80_weights⟩ (ok_of_val? hjt) (ok_of_val? hjt')
    (os.map (fun o => (.same, .update [obs o.1 o.2]))) _ (by
      intro op ho
      obtain ⟨o, ho', rfl⟩ := List.mem_map.1 ho
      exact (obs_ok (hos o ho').1 (hos o ho').2).proper) rfl hv hx
  rw [reports_unique hp h1]
  exact h2

end PyBBN
