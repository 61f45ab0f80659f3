import Verif.Proofs.Coherence

/-! Helper lemmas: networks that agree on a set of nodes closed under parents. -/

namespace PyBBN
open Relation InferenceController

section
variable {b : Bbn}

/-- summing out the same variables with the same values -/
theorem elim_dom {D D' : Int → List Str} : ∀ (l : List Int) (f : Asg → ℚ), (∀ i ∈ l, D i = D' i) → elim D l f = elim D' l f
  | [], _, _ => rfl
  | i :: l, f, h => by
      rw [elim_cons, elim_cons, elim_dom l f (fun j hj => h j (List.mem_cons_of_mem _ hj))]
      unfold sumv
      rw [h i List.mem_cons_self]

/-- nodes that are not parents of earlier ones and whose rows sum to 1 sum out to 1 -/
theorem sum_suffix' (h : BbnInv b) (wf : b.WF) : ∀ (B : List BbnNode),
    (∀ n ∈ B, ∀ σ, InDom b.vars σ → (cptRow n.probs (b.parentVars n.var.id) n.var σ).sum = 1) →
    (∀ n ∈ B, n ∈ b.toGraph.getNodes) → (B.map (fun n => n.var.id)).Nodup →
    B.Pairwise (fun a c => c.var.id ∉ ddGet b.parents a.var.id) → ∀ σ, InDom b.vars σ →
    elim b.dom (B.map (fun n => n.var.id)) (fun σ => (B.map (fun n => b.w n σ)).prod) σ = 1
  | [], _, _, _, _, σ, _ => by simp [elim_nil]
  | n :: B, hnorm, hB, hnd, hpw, σ, hσ => by
      have hn := hB n List.mem_cons_self
      rw [List.map_cons, List.nodup_cons] at hnd
      rw [List.pairwise_cons] at hpw
      rw [List.map_cons, elim_cons]
      have e1 : (fun σ : Asg => ((n :: B).map (fun n => b.w n σ)).prod) = fun σ => b.w n σ * (B.map (fun n => b.w n σ)).prod := by
        funext σ; rw [List.map_cons, List.prod_cons]
      rw [e1, elim_mul_left (b.w_dep h n) (by
        rintro i hi (h1 | h1)
        · obtain ⟨m, hm, rfl⟩ := List.mem_map.1 hi
          exact hpw.1 m hm h1
        · subst h1; exact hnd.1 hi)]
      unfold sumv
      rw [dom_node h hn]
      rw [← hnorm n List.mem_cons_self σ hσ, ← sum_row h wf hn σ]
      congr 1
      apply List.map_congr_left
      intro x hx
      show b.w n _ * _ = _
      rw [sum_suffix' h wf B (fun m hm => hnorm m (List.mem_cons_of_mem _ hm)) (fun m hm => hB m (List.mem_cons_of_mem _ hm)) hnd.2 hpw.2 _
        (inDom_update h hσ hn hx), mul_one]

/-- a sum over all joint values where the last nodes only occur through their conditional distributions -/
theorem sum_prefix' (h : BbnInv b) (wf : b.WF) (hne : ∀ n ∈ b.toGraph.getNodes, n.var.values ≠ []) {A B : List BbnNode}
    (hnorm : ∀ n ∈ B, ∀ σ, InDom b.vars σ → (cptRow n.probs (b.parentVars n.var.id) n.var σ).sum = 1)
    (hp : (A ++ B).Perm b.toGraph.getNodes) (hpw : B.Pairwise (fun a c => c.var.id ∉ ddGet b.parents a.var.id))
    {g : Asg → ℚ} (hg : Dep (fun i => i ∉ B.map (fun n => n.var.id)) g) :
    ((allAsg b.vars).map (fun σ => g σ * (B.map (fun n => b.w n σ)).prod)).sum =
      elim b.dom (A.map (fun n => n.var.id)) g asg0 := by
  have hvn := vars_nodup h
  have hids : vids b.vars = b.ids := by unfold vids Bbn.vars Bbn.ids; rw [List.map_map]; rfl
  have hperm : (vids b.vars).Perm (A.map (fun n => n.var.id) ++ B.map (fun n => n.var.id)) := by
    rw [hids, ← List.map_append]
    exact (hp.map _).symm
  have hnd : (A.map (fun n => n.var.id) ++ B.map (fun n => n.var.id)).Nodup := hperm.nodup_iff.1 hvn
  rw [sum_allAsg b.vars hvn (domOf_ok hvn), elim_perm hperm, elim_append]
  refine elim_congr_dom (fun _ => False) _ ?_ _ (fun i hi => absurd hi id)
  intro σ hσ
  rw [elim_mul_left hg (fun i hi => by simpa using hi)]
  have hdep : Dep (fun i => (∃ n ∈ b.toGraph.getNodes, n.var.id = i) ∧ i ∉ B.map (fun n => n.var.id))
      (elim b.dom (B.map (fun n => n.var.id)) (fun σ => (B.map (fun n => b.w n σ)).prod)) := by
    refine Dep.elim (S := fun i => ∃ n ∈ b.toGraph.getNodes, n.var.id = i) ?_ _
    refine Dep.listProd ?_
    intro n hn
    refine (b.w_dep h n).mono ?_
    rintro i (hi | hi)
    · exact mem_ids.1 (parent_mem_ids h hi)
    · exact ⟨n, hp.mem_iff.1 (List.mem_append_right _ hn), hi.symm⟩
  obtain ⟨τ, h1, h2⟩ : ∃ τ, InDom b.vars τ ∧ ∀ i ∈ A.map (fun n => n.var.id), τ i = σ i := by
    obtain ⟨σ₀, h0⟩ := inDom_exists hne h
    refine ⟨fun i => if i ∈ A.map (fun n => n.var.id) then σ i else σ₀ i, ?_, fun i hi => if_pos hi⟩
    intro v hv
    show (if v.id ∈ A.map (fun n => n.var.id) then σ v.id else σ₀ v.id) ∈ v.values
    split
    · rename_i hA
      have := hσ v.id (Or.inr hA)
      rwa [domOf_ok hvn v hv] at this
    · exact h0 v hv
  · show g σ * elim b.dom (B.map (fun n => n.var.id)) (fun σ => (B.map (fun n => b.w n σ)).prod) σ = g σ
    rw [hdep σ τ (by
      rintro i ⟨⟨n, hn, rfl⟩, hi⟩
      refine (h2 _ ?_).symm
      rcases List.mem_append.1 (hp.mem_iff.2 hn) with hA | hB
      · exact List.mem_map_of_mem hA
      · exact absurd (List.mem_map_of_mem hB) hi), sum_suffix' h wf B hnorm
        (fun n hn => hp.mem_iff.1 (List.mem_append_right _ hn)) (List.nodup_append.1 hnd).2.1 hpw τ h1, mul_one]

open Classical in
/-- the nodes with ids in `A` -/
noncomputable def Bbn.inside (b : Bbn) (A : Int → Prop) : List BbnNode := b.toGraph.getNodes.filter (fun n => decide (A n.var.id))

open Classical in
/-- the weights of a network summed over the nodes outside a set closed under parents, without evidence there -/
theorem sum_inside (h : BbnInv b) (wf : b.WF) (hne : ∀ n ∈ b.toGraph.getNodes, n.var.values ≠ []) {A : Int → Prop}
    (hcl : ∀ n ∈ b.toGraph.getNodes, A n.var.id → ∀ p ∈ b.parentVars n.var.id, A p.id) (ho : ProperOutside A b)
    {ℓ : Liks} (hl : ∀ n ∈ b.toGraph.getNodes, ¬ A n.var.id → ∀ x, ℓ n.var.id x = 1) {F : Asg → ℚ} (hF : Dep A F) :
    ((allAsg b.vars).map (fun σ => F σ * b.weight ℓ σ)).sum =
      elim b.dom ((b.inside A).map (fun n => n.var.id)) (fun σ => F σ * ((b.inside A).map (fun n =>
        cptAt n.probs (b.parentVars n.var.id) n.var σ * ℓ n.var.id (σ n.var.id))).prod) asg0 := by
  obtain ⟨K, hp, hpw⟩ := order_exists' h ho.acyclic
  have hperm : (b.inside A ++ K.filter (fun n => !decide (A n.var.id))).Perm b.toGraph.getNodes :=
    ((hp.symm.filter (fun n : BbnNode => decide (A n.var.id))).append_right _).trans
      ((List.filter_append_perm (fun n : BbnNode => decide (A n.var.id)) K).trans hp)
  have hB : ∀ n ∈ K.filter (fun n => !decide (A n.var.id)), n ∈ b.toGraph.getNodes ∧ ¬ A n.var.id := by
    intro n hn
    obtain ⟨h1, h2⟩ := List.mem_filter.1 hn
    exact ⟨hp.mem_iff.1 h1, by simpa using h2⟩
  rw [← sum_prefix' h wf hne (A := b.inside A) (B := K.filter (fun n => !decide (A n.var.id))) ?_ hperm ?_ ?_]
  · refine congrArg List.sum (List.map_congr_left ?_)
    intro σ _
    rw [mul_assoc]
    congr 1
    unfold Bbn.weight
    rw [← (hperm.map _).prod_eq, List.map_append, List.prod_append]
    congr 1
    refine congrArg List.prod (List.map_congr_left ?_)
    intro n hn
    rw [hl n (hB n hn).1 (hB n hn).2, mul_one]
    rfl
  · intro n hn σ hσ
    exact ho.rows n (hB n hn).1 (hB n hn).2 _ (rowIdx_lt σ _ (fun v hv => hσ v (parentVars_sub h _ v hv)))
  · refine (hpw.filter _).imp_of_mem ?_
    intro a c ha hc hn hpar
    exact hn ⟨hpar, (hB c hc).2, (hB a ha).2⟩
  · have hA : ∀ i, A i → i ∉ (K.filter (fun n => !decide (A n.var.id))).map (fun n => n.var.id) := by
      intro i hi hm
      obtain ⟨n, hn, rfl⟩ := List.mem_map.1 hm
      exact (hB n hn).2 hi
    refine Dep.mono (S := A) ?_ hA
    refine hF.mul (Dep.listProd ?_)
    intro n hn
    obtain ⟨h1, h2⟩ := List.mem_filter.1 hn
    rw [decide_eq_true_eq] at h2
    refine Dep.mul ((cptAt_dep _ _ _).mono ?_) ?_
    · intro i hi
      obtain ⟨v, hv, rfl⟩ := List.mem_map.1 hi
      rcases List.mem_append.1 hv with hv | hv
      · exact hcl n h1 h2 v hv
      · simp only [List.mem_cons, List.not_mem_nil, or_false] at hv
        rw [hv]; exact h2
    · intro σ τ hst
      show ℓ n.var.id (σ n.var.id) = ℓ n.var.id (τ n.var.id)
      rw [hst _ h2]

end

section
variable {b b' : Bbn} {A : Int → Prop}

theorem AgreeOn.symm (h : AgreeOn A b b') : AgreeOn A b' b :=
  ⟨fun n hn => (h.nodes n hn).symm, fun n hn hA => (h.parents n ((h.nodes n hA).2 hn) hA).symm,
    fun n hn hA => by rw [h.parents n ((h.nodes n hA).2 hn) hA]; exact h.closed n ((h.nodes n hA).2 hn) hA⟩

open Classical in
theorem AgreeOn.inside (h : AgreeOn A b b') (hi : BbnInv b) (hi' : BbnInv b') : (b.inside A).Perm (b'.inside A) := by
  refine (List.perm_ext_iff_of_nodup ((getNodes_nodup hi).filter _) ((getNodes_nodup hi').filter _)).2 ?_
  intro n
  rw [List.mem_filter, List.mem_filter, decide_eq_true_eq]
  exact ⟨fun h1 => ⟨(h.nodes n h1.2).1 h1.1, h1.2⟩, fun h1 => ⟨(h.nodes n h1.2).2 h1.1, h1.2⟩⟩

open Classical in
theorem AgreeOn.sum (h : AgreeOn A b b') (hi : BbnInv b) (hi' : BbnInv b') (wf : b.WF) (wf' : b'.WF)
    (hne : ∀ n ∈ b.toGraph.getNodes, n.var.values ≠ []) (hne' : ∀ n ∈ b'.toGraph.getNodes, n.var.values ≠ [])
    (ho : ProperOutside A b) (ho' : ProperOutside A b') {ℓ ℓ' : Liks} (hl : ∀ n ∈ b.toGraph.getNodes, ¬ A n.var.id → ∀ x, ℓ n.var.id x = 1)
    (hl' : ∀ n ∈ b'.toGraph.getNodes, ¬ A n.var.id → ∀ x, ℓ' n.var.id x = 1)
    (hs : ∀ n ∈ b.toGraph.getNodes, A n.var.id → ∀ x ∈ n.var.values, ℓ' n.var.id x = ℓ n.var.id x) {F : Asg → ℚ} (hF : Dep A F) :
    ((allAsg b'.vars).map (fun σ => F σ * b'.weight ℓ' σ)).sum = ((allAsg b.vars).map (fun σ => F σ * b.weight ℓ σ)).sum := by
  rw [sum_inside hi wf hne h.closed ho hl hF, sum_inside hi' wf' hne' h.symm.closed ho' hl' hF]
  have hp := h.inside hi hi'
  have hin : ∀ n ∈ b.inside A, n ∈ b.toGraph.getNodes ∧ A n.var.id := by
    intro n hn
    obtain ⟨h1, h2⟩ := List.mem_filter.1 hn
    exact ⟨h1, by simpa using h2⟩
  rw [elim_perm ((hp.map _).symm), elim_dom (D := b'.dom) (D' := b.dom)]
  · refine elim_congr_dom (fun _ => False) _ ?_ _ (fun i hi => absurd hi id)
    intro σ hσ
    congr 1
    rw [← (hp.map _).prod_eq]
    refine congrArg List.prod (List.map_congr_left ?_)
    intro n hn
    obtain ⟨h1, h2⟩ := hin n hn
    rw [h.parents n h1 h2, hs n h1 h2]
    have := hσ n.var.id (Or.inr (List.mem_map_of_mem (f := fun n : BbnNode => n.var.id) hn))
    rwa [dom_node hi h1] at this
  · intro i him
    obtain ⟨n, hn, rfl⟩ := List.mem_map.1 him
    obtain ⟨h1, h2⟩ := hin n hn
    rw [dom_node hi h1, dom_node hi' ((h.nodes n h2).1 h1)]

theorem AgreeOn.posterior (h : AgreeOn A b b') (hi : BbnInv b) (hi' : BbnInv b') (wf : b.WF) (wf' : b'.WF)
    (hne : ∀ n ∈ b.toGraph.getNodes, n.var.values ≠ []) (hne' : ∀ n ∈ b'.toGraph.getNodes, n.var.values ≠ [])
    (ho : ProperOutside A b) (ho' : ProperOutside A b') {ℓ ℓ' : Liks} (hl : ∀ n ∈ b.toGraph.getNodes, ¬ A n.var.id → ∀ x, ℓ n.var.id x = 1)
    (hl' : ∀ n ∈ b'.toGraph.getNodes, ¬ A n.var.id → ∀ x, ℓ' n.var.id x = 1)
    (hs : ∀ n ∈ b.toGraph.getNodes, A n.var.id → ∀ x ∈ n.var.values, ℓ' n.var.id x = ℓ n.var.id x) {i : Int} (hA : A i) (x : Str) :
    b'.posterior ℓ' i x = b.posterior ℓ i x := by
  have h1 := h.sum hi hi' wf wf' hne hne' ho ho' hl hl' hs (F := fun _ => 1) (Dep.const 1)
  have h2 := h.sum hi hi' wf wf' hne hne' ho ho' hl hl' hs (F := fun σ => if σ i = x then 1 else 0) (fun σ τ e => by simp only [e i hA])
  simp only [one_mul] at h1
  simp only [ite_mul, one_mul, zero_mul] at h2
  unfold Bbn.posterior
  rw [mass_eq, mass_eq]
  unfold Bbn.total
  rw [h1, h2]

end

theorem EvOp.Proper.ren_same {V V' : List Variable} (hn : (vids V').Nodup) (hV : ∀ v ∈ V, v ∈ V') {op : EvOp} (h : op.Proper V) :
    op.ren (fun i => i) (fun i => ((V'.find? (fun w => decide (w.id = i))).map Variable.name).getD []) = op := by
  have hr : ∀ v ∈ V, v.ren (fun i => i) (fun i => ((V'.find? (fun w => decide (w.id = i))).map Variable.name).getD []) = v :=
    fun v hv => Variable.ren_id v V' hn (hV v hv)
  have he : ∀ e : Evidence, e.Proper V → e.ren (fun i => i) (fun i => ((V'.find? (fun w => decide (w.id = i))).map Variable.name).getD []) = e := by
    intro e h
    unfold Evidence.ren
    rw [hr _ h.node]
  cases op with
  | update es =>
    simp only [EvOp.ren]
    congr 1
    exact (List.map_congr_left (fun e hm => he e (h e hm))).trans (List.map_id' es)
  | observe e =>
    simp only [EvOp.ren]
    rw [he e h]
  | unobserve ns =>
    simp only [EvOp.ren]
    congr 1
    exact (List.map_congr_left (fun v hm => hr v (h v hm))).trans (List.map_id' ns)
  | unobserveAll => rfl

/-- histories about a part of the nodes: what is stored about that part does not depend on the other nodes -/
theorem lawHist_part {V V' : List Variable} (hn : (vids V').Nodup) (hV : ∀ v ∈ V, v ∈ V') {h h' : List (SetIter Str × EvOp)}
    (hp : ∀ op ∈ h, op.2.Proper V) (he : h'.map Prod.snd = h.map Prod.snd) :
    (∀ v ∈ V, ∀ x ∈ v.values, (lawHist V' h').prop v.id x = (lawHist V h).prop v.id x) ∧
      ∀ i, (∀ v ∈ V, v.id ≠ i) → ∀ x, (lawHist V' h').prop i x = 1 := by
  have hp0 : ∀ op ∈ h', op.2.Proper V := by
    intro op ho
    have : op.2 ∈ h.map Prod.snd := by rw [← he]; exact List.mem_map_of_mem ho
    obtain ⟨o, ho, e⟩ := List.mem_map.1 this
    rw [← e]
    exact hp o ho
  refine ⟨?_, fun i hi x => lawHist_other V' hi x h' hp0⟩
  have hr : RenInto (fun i => i) (fun i => ((V'.find? (fun w => decide (w.id = i))).map Variable.name).getD []) V V' :=
    ⟨fun u hu v hv e => List.inj_on_of_nodup_map hn (hV u hu) (hV v hv) e, fun v hv => by rw [Variable.ren_id v V' hn (hV v hv)]; exact hV v hv⟩
  refine lawHist_ren hr h h' hp ?_ ?_
  · rw [he]
    exact List.map_congr_left (fun op ho => ((hp op ho).ren_same hn hV).symm)
  · intro w hw
    by_cases hm : w ∈ V
    · exact Or.inl ⟨w, hm, (Variable.ren_id w V' hn hw).symm⟩
    · right
      have hf : ∀ v ∈ V, v.id ≠ w.id := fun v hv e => hm (List.inj_on_of_nodup_map hn (hV v hv) hw e ▸ hv)
      exact fun g hg x _ => specHist_other V' hf x g (fun op ho => hp0 op (hg.subset ho))

end PyBBN
