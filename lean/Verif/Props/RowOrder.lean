import Verif.Proofs.RowOrder
import Verif.Proofs.SampleGrid
import Verif.Props.FactoryLaw
import Verif.Props.Sampling

/-! # C37, C45, C50: the order of the parents matters for every CPT whose rows differ -/

namespace PyBBN

/-- no two of the first `k` rows of the CPT are equal -/
def DistinctRows (n : BbnNode) (k : Nat) : Prop :=
  ∀ i < k, ∀ j < k, (List.range n.var.values.length).map (fun x => n.probs.getD (i * n.var.values.length + x) 0) =
    (List.range n.var.values.length).map (fun x => n.probs.getD (j * n.var.values.length + x) 0) → i = j

instance (n : BbnNode) (k : Nat) : Decidable (DistinctRows n k) := by unfold DistinctRows; infer_instance

section
variable {ops : List BOp}

/-- sorted parents are the parents exactly if they were connected in ascending order -/
theorem sorted_eq_iff (id : Int) : (Bbn.run ops).sortedParentVars id = (Bbn.run ops).parentVars id ↔
    (ddGet (Bbn.run ops).parents id).Pairwise (· < ·) := by
  have hinv := bbn_run_inv ops
  have h1 := vids_parentVars hinv id
  have hnd : ((Bbn.run ops).parentVars id).Pairwise (fun v w => v.id ≠ w.id) := by
    have := hinv.parNodup id
    rw [← h1] at this
    exact List.pairwise_map.1 this
  rw [← h1]
  unfold vids
  rw [List.pairwise_map]
  constructor
  · intro e
    have h2 := sortBy_sorted (fun v w : Variable => decide (v.id ≤ w.id)) (by intro a b; simpa using le_total _ _)
      (by intro a b c; simpa using le_trans) ((Bbn.run ops).parentVars id)
    change ((Bbn.run ops).sortedParentVars id).Pairwise _ at h2
    rw [e] at h2
    exact (h2.and hnd).imp (fun h => lt_of_le_of_ne (by simpa using h.1) h.2)
  · intro h
    unfold Bbn.sortedParentVars
    exact sortBy_of_sorted (h.imp (fun h => by simpa using le_of_lt h))

theorem sortedParentVars_perm (id : Int) : ((Bbn.run ops).sortedParentVars id).Perm ((Bbn.run ops).parentVars id) := sortBy_perm _ _

/-- if all rows are read alike, the orders are the same -/
theorem order_of_rows (hs : (Bbn.run ops).Samplable) {n : BbnNode} (hn : n ∈ (Bbn.run ops).toGraph.getNodes)
    (h2 : ∀ p ∈ (Bbn.run ops).parentVars n.var.id, 2 ≤ p.values.length)
    (hrows : DistinctRows n (((Bbn.run ops).parentVars n.var.id).map (fun p => p.values.length)).prod)
    (heq : ∀ σ, InDom (Bbn.run ops).vars σ → cptRow n.probs ((Bbn.run ops).sortedParentVars n.var.id) n.var σ =
      cptRow n.probs ((Bbn.run ops).parentVars n.var.id) n.var σ) :
    (ddGet (Bbn.run ops).parents n.var.id).Pairwise (· < ·) := by
  have hinv := bbn_run_inv ops
  have hperm := sortedParentVars_perm (ops := ops) n.var.id
  rw [← sorted_eq_iff]
  have hnd : (vids ((Bbn.run ops).parentVars n.var.id)).Nodup := by rw [vids_parentVars hinv]; exact hinv.parNodup _
  have hvn : (vids (Bbn.run ops).vars).Nodup := vars_nodup hinv
  refine rowIdx_order hperm ((hperm.map _).nodup_iff.2 hnd) ?_ ?_
  · intro v hv
    have hv' := parentVars_sub hinv _ v (hperm.mem_iff.1 hv)
    obtain ⟨m, hm, rfl⟩ := List.mem_map.1 hv'
    exact ⟨hs.wf.values m hm, h2 _ (hperm.mem_iff.1 hv)⟩
  · intro σ hσ
    obtain ⟨τ, hτ⟩ := inDom_exists hs.nonempty hinv
    have hdom : InDom (Bbn.run ops).vars (fun i => if i ∈ vids ((Bbn.run ops).parentVars n.var.id) then σ i else τ i) := by
      intro v hv
      show (if v.id ∈ vids ((Bbn.run ops).parentVars n.var.id) then σ v.id else τ v.id) ∈ v.values
      split
      · rename_i h
        obtain ⟨w, hw, e⟩ := List.mem_map.1 h
        have : w = v := List.inj_on_of_nodup_map hvn (parentVars_sub hinv _ w hw) hv e
        rw [← this]
        exact hσ w (hperm.mem_iff.2 hw)
      · exact hτ v hv
    have hc : ∀ v ∈ (Bbn.run ops).parentVars n.var.id,
        (fun i => if i ∈ vids ((Bbn.run ops).parentVars n.var.id) then σ i else τ i) v.id = σ v.id :=
      fun v hv => if_pos (List.mem_map_of_mem hv)
    have h3 := hrows _ (by
      have := rowIdx_lt σ _ hσ
      unfold rows at this
      rwa [(hperm.map (fun v : Variable => v.values.length)).prod_eq] at this) _ (rowIdx_lt σ _ (fun v hv => hσ v (hperm.mem_iff.2 hv))) (by
        have := heq _ hdom
        unfold cptRow at this
        have e1 : rowIdx ((Bbn.run ops).parentVars n.var.id) (fun i => if i ∈ vids ((Bbn.run ops).parentVars n.var.id) then σ i else τ i) =
            rowIdx ((Bbn.run ops).parentVars n.var.id) σ := rowIdx_congr hc
        have e2 : rowIdx ((Bbn.run ops).sortedParentVars n.var.id) (fun i => if i ∈ vids ((Bbn.run ops).parentVars n.var.id) then σ i else τ i) =
            rowIdx ((Bbn.run ops).sortedParentVars n.var.id) σ := rowIdx_congr (fun v hv => hc v (hperm.mem_iff.1 hv))
        rw [e1, e2] at this
        exact this)
    exact h3

/-- every row that inference reads sums to one if those that the sampler reads do -/
theorem normalized_parentVars (hs : (Bbn.run ops).Samplable) : (Bbn.run ops).Normalized (Bbn.run ops).parentVars := by
  have hinv := bbn_run_inv ops
  obtain ⟨τ, hτ⟩ := inDom_exists hs.nonempty hinv
  have hvn : (vids (Bbn.run ops).vars).Nodup := vars_nodup hinv
  apply normalized_of_rows (fun c v hv => parentVars_sub hinv c v hv)
  intro n hn k hk
  have hperm := sortedParentVars_perm (ops := ops) n.var.id
  have hsub : ∀ v ∈ (Bbn.run ops).sortedParentVars n.var.id, v ∈ (Bbn.run ops).vars := fun v hv => parentVars_sub hinv _ v (hperm.mem_iff.1 hv)
  have hnd : (vids ((Bbn.run ops).sortedParentVars n.var.id)).Nodup :=
    (hperm.map _).nodup_iff.2 (by rw [show ((Bbn.run ops).parentVars n.var.id).map _ = vids ((Bbn.run ops).parentVars n.var.id) from rfl, vids_parentVars hinv]; exact hinv.parNodup _)
  obtain ⟨σ, h1, h2, h3⟩ := rowIdx_surj hnd (by
    intro v hv
    obtain ⟨m, hm, rfl⟩ := List.mem_map.1 (hsub v hv)
    exact hs.wf.values m hm) (k := k) (by unfold rows at hk ⊢; rwa [(hperm.map (fun v : Variable => v.values.length)).prod_eq]) τ
  have := hs.normalized n hn σ (by
    intro v hv
    by_cases h : v.id ∈ vids ((Bbn.run ops).sortedParentVars n.var.id)
    · obtain ⟨w, hw, e⟩ := List.mem_map.1 h
      have : w = v := List.inj_on_of_nodup_map hvn (hsub w hw) hv e
      rw [← this]; exact h1 w hw
    · rw [h3 _ h]; exact hτ v hv)
  unfold cptRow at this
  rw [h2] at this
  exact this

theorem cptRow_getElem {probs : List ℚ} {pv : List Variable} {v : Variable} {σ : Asg} {i : Nat} (h : i < (cptRow probs pv v σ).length) :
    (cptRow probs pv v σ)[i] = probs.getD (rowIdx pv σ * v.values.length + i) 0 := by simp [cptRow]

/-- **C37, exactly when**. For a CPT without equal rows and parents with at least two values each, the sampler and inference read the same
conditional distributions if and only if the parents were connected in ascending order of their ids. -/
theorem c37_iff (ps : PySort SortableNode) (hs : (Bbn.run ops).Samplable) (s : LogicSampler)
    (hmake : LogicSampler.make ps (Bbn.run ops) = .ok s) (n : BbnNode) (hn : n ∈ (Bbn.run ops).toGraph.getNodes)
    (h2 : ∀ p ∈ (Bbn.run ops).parentVars n.var.id, 2 ≤ p.values.length)
    (hrows : DistinctRows n (((Bbn.run ops).parentVars n.var.id).map (fun p => p.values.length)).prod) :
    DrawsFrom (Bbn.run ops) s n ((Bbn.run ops).parentVars n.var.id) ↔ (ddGet (Bbn.run ops).parents n.var.id).Pairwise (· < ·) := by
  constructor
  · rintro ⟨t, ht, hd⟩
    obtain ⟨t', ht', hd'⟩ := c37_sampler_rows ps ops hs s hmake n hn
    obtain rfl : t = t' := Option.some.inj (ht.symm.trans ht')
    refine order_of_rows hs hn h2 hrows ?_
    intro σ hσ
    refine row_eq_of_intervals (by rw [cptRow_length, cptRow_length]) (cptRow_nonneg (hs.wf.nonneg n hn) _ _ σ) (cptRow_nonneg (hs.wf.nonneg n hn) _ _ σ)
      (hs.normalized n hn σ hσ) (normalized_parentVars hs n hn σ hσ) ?_
    intro i hi p h0 h1
    rw [cptRow_length] at hi
    have hread : ∀ pa ∈ ddGet (Bbn.run ops).parents n.var.id,
        Dict.get? ((ddGet (Bbn.run ops).parents n.var.id).map (fun i => (i, σ i))) pa = some (σ pa) := by
      intro pa hpa
      have hg : ∀ l : List Int, pa ∈ l → Dict.get? (l.map (fun i => (i, σ i))) pa = some (σ pa) := by
        intro l
        induction l with
        | nil => intro h; simp at h
        | cons a l ih =>
          intro h
          by_cases e : a = pa
          · subst e; simp [Dict.get?]
          · have hne : pa ≠ a := fun h => e h.symm
            rw [List.map_cons]
            simp only [Dict.get?] at ih ⊢
            simp_all
      exact hg _ hpa
    have e1 := hd σ hσ p h0 h1 _ hread n.var.values[i] (List.getElem_mem hi)
    have e2 := hd' σ hσ p h0 h1 _ hread n.var.values[i] (List.getElem_mem hi)
    rw [(hs.wf.values n hn).idxOf_getElem i hi] at e1 e2
    exact e2.symm.trans e1
  · exact c37_same_cpt_partial ps ops hs s hmake n hn

/-- the products of the CPT entries read with the parents in ascending order and in the order of connection are the same only if these orders are -/
theorem products_iff (hs : (Bbn.run ops).Samplable) {s : LogicSampler} (ht : (Bbn.run ops).Topological s.nodes)
    (hpos : ∀ n ∈ (Bbn.run ops).toGraph.getNodes, ∀ p ∈ n.probs, 0 < p)
    (h2 : ∀ n ∈ (Bbn.run ops).toGraph.getNodes, ∀ p ∈ (Bbn.run ops).parentVars n.var.id, 2 ≤ p.values.length)
    (hrows : ∀ n ∈ (Bbn.run ops).toGraph.getNodes, DistinctRows n (((Bbn.run ops).parentVars n.var.id).map (fun p => p.values.length)).prod) :
    (∀ σ, InDom (Bbn.run ops).vars σ →
      ((Bbn.run ops).toGraph.getNodes.map (fun n => cptAt n.probs ((Bbn.run ops).sortedParentVars n.var.id) n.var σ)).prod =
        (Bbn.run ops).weight noEvidence σ) ↔
    ∀ n ∈ (Bbn.run ops).toGraph.getNodes, (ddGet (Bbn.run ops).parents n.var.id).Pairwise (· < ·) := by
  have hinv := bbn_run_inv ops
  have hvn : (vids (Bbn.run ops).vars).Nodup := vars_nodup hinv
  constructor
  · intro h
    have hids : ∀ i ∈ s.nodes, ∃ n ∈ (Bbn.run ops).toGraph.getNodes, n.var.id = i := by
      intro i hi
      obtain ⟨n, hn, e⟩ := List.mem_map.1 (ht.1.mem_iff.1 hi)
      exact ⟨n, hn, e⟩
    have hno : ∀ n ∈ (Bbn.run ops).toGraph.getNodes, (Bbn.run ops).nodeOf n.var.id = n := fun n hn => nodeOf_of_mem hinv hn
    have hperm : (s.nodes.map (Bbn.run ops).nodeOf).Perm (Bbn.run ops).toGraph.getNodes := by
      have h1 := ht.1.map (Bbn.run ops).nodeOf
      unfold Bbn.ids at h1
      rw [List.map_map] at h1
      refine h1.trans (List.Perm.of_eq ?_)
      conv_rhs => rw [← List.map_id (Bbn.run ops).toGraph.getNodes]
      exact List.map_congr_left (fun n hn => hno n hn)
    have hidL : (s.nodes.map (Bbn.run ops).nodeOf).map (fun n => n.var.id) = s.nodes := by
      rw [List.map_map]
      conv_rhs => rw [← List.map_id s.nodes]
      apply List.map_congr_left
      intro i hi
      obtain ⟨n, hn, rfl⟩ := hids i hi
      show ((Bbn.run ops).nodeOf n.var.id).var.id = n.var.id
      rw [hno n hn]
    have hidn : (Bbn.run ops).ids.Nodup := by
      have : (Bbn.run ops).ids = vids (Bbn.run ops).vars := by unfold Bbn.ids vids Bbn.vars; rw [List.map_map]; rfl
      rw [this]; exact hvn
    have hsn : s.nodes.Nodup := ht.1.nodup_iff.2 hidn
    have hcpt : ∀ (pv : List Variable) (n : BbnNode), (∀ v ∈ pv, v.id ≠ n.var.id) → n ∈ (Bbn.run ops).toGraph.getNodes →
        ∀ σ, (n.var.values.map (fun x => cptAt n.probs pv n.var (Function.update σ n.var.id x))).sum = (cptRow n.probs pv n.var σ).sum := by
      intro pv n hpv hn σ
      congr 1
      apply List.ext_getElem
      · rw [List.length_map, cptRow_length]
      · intro i h1 h2
        rw [List.length_map] at h1
        rw [List.getElem_map, cptRow_getElem]
        unfold cptAt cptIndex
        rw [Function.update_self, (hs.wf.values n hn).idxOf_getElem i h1,
          rowIdx_congr (τ := σ) (fun v hv => Function.update_of_ne (hpv v hv) _ _)]
    have hself : ∀ n ∈ (Bbn.run ops).toGraph.getNodes, ∀ v ∈ (Bbn.run ops).sortedParentVars n.var.id, v.id ≠ n.var.id := by
      intro n _ v hv e
      have := (sortedParentVars_mem hinv hv).2
      rw [e] at this
      exact hs.wf.noLoop _ this
    have hself' : ∀ n ∈ (Bbn.run ops).toGraph.getNodes, ∀ v ∈ (Bbn.run ops).parentVars n.var.id, v.id ≠ n.var.id :=
      fun n hn v hv => hself n hn v ((sortedParentVars_perm n.var.id).mem_iff.2 hv)
    have hdep : ∀ (pv : List Variable) (m : BbnNode) (i : Int) (x : Str) (σ : Asg), (∀ v ∈ pv, v.id ≠ i) → m.var.id ≠ i →
        cptAt m.probs pv m.var (Function.update σ i x) = cptAt m.probs pv m.var σ := by
      intro pv m i x σ h1 h2
      unfold cptAt cptIndex
      rw [rowIdx_congr (τ := σ) (fun v hv => Function.update_of_ne (h1 v hv) _ _), Function.update_of_ne h2]
    have key := factors_of_prod (D := (Bbn.run ops).vars) (fun n σ => cptAt n.probs ((Bbn.run ops).sortedParentVars n.var.id) n.var σ)
      (fun n σ => cptAt n.probs ((Bbn.run ops).parentVars n.var.id) n.var σ) (s.nodes.map (Bbn.run ops).nodeOf)
      (fun n hn => List.mem_map_of_mem (hperm.mem_iff.1 hn)) (by rw [hidL]; exact hsn) hvn (by
        rw [List.pairwise_map]
        have hlt : s.nodes.Pairwise (fun i j => s.nodes.idxOf i < s.nodes.idxOf j) := by
          rw [List.pairwise_iff_getElem]
          intro i j hi hj hij
          rw [hsn.idxOf_getElem i hi, hsn.idxOf_getElem j hj]
          exact hij
        refine (hlt.imp_of_mem ?_)
        intro i j hi hj hij σ x
        obtain ⟨m, hm, rfl⟩ := hids i hi
        obtain ⟨n, hn, rfl⟩ := hids j hj
        rw [hno m hm, hno n hn]
        have hne : m.var.id ≠ n.var.id := by intro e; rw [e] at hij; exact lt_irrefl _ hij
        have hpa : ∀ v ∈ (Bbn.run ops).sortedParentVars m.var.id, v.id ≠ n.var.id := by
          intro v hv e
          have h1 := topological_lt hinv ht (sortedParentVars_mem hinv hv).2
          rw [e] at h1
          omega
        exact ⟨hdep _ m _ x σ hpa hne, hdep _ m _ x σ (fun v hv => hpa v ((sortedParentVars_perm m.var.id).mem_iff.2 hv)) hne⟩) (by
        intro n hn σ hσ
        have hn' := hperm.mem_iff.1 hn
        rw [hcpt _ n (hself n hn') hn', hcpt _ n (hself' n hn') hn']
        exact ⟨hs.normalized n hn' σ hσ, normalized_parentVars hs n hn' σ hσ⟩) (by
        intro n hn σ hσ
        have hn' := hperm.mem_iff.1 hn
        have hfit := row_fits hinv hs.wf hn' hσ
        unfold cptAt cptIndex
        have hlt := List.idxOf_lt_length_of_mem (hσ n.var (List.mem_map_of_mem hn'))
        rw [Nat.add_mul, Nat.one_mul] at hfit
        have hlt' : rowIdx ((Bbn.run ops).sortedParentVars n.var.id) σ * n.var.values.length + n.var.values.idxOf (σ n.var.id) < n.probs.length := by omega
        rw [List.getD_eq_getElem?_getD, List.getElem?_eq_getElem hlt']
        exact hpos n hn' _ (List.getElem_mem _)) (by
        intro σ hσ
        have h1 := h σ hσ
        rw [(hperm.map _).prod_eq, (hperm.map _).prod_eq, h1]
        unfold Bbn.weight
        congr 1
        apply List.map_congr_left
        intro n _
        simp [noEvidence])
    intro n hn
    refine order_of_rows hs hn (h2 n hn) (hrows n hn) ?_
    intro σ hσ
    apply List.ext_getElem
    · rw [cptRow_length, cptRow_length]
    · intro i h1 _
      rw [cptRow_length] at h1
      have h3 := key n (hperm.mem_iff.2 hn) (Function.update σ n.var.id n.var.values[i]) (by
        intro v hv
        by_cases e : v.id = n.var.id
        · rw [e, Function.update_self, List.inj_on_of_nodup_map hvn hv (List.mem_map_of_mem hn) e]; exact List.getElem_mem h1
        · rw [Function.update_of_ne e]; exact hσ v hv)
      unfold cptAt cptIndex at h3
      rw [Function.update_self, (hs.wf.values n hn).idxOf_getElem i h1,
        rowIdx_congr (τ := σ) (fun v hv => Function.update_of_ne (hself n hn v hv) _ _),
        rowIdx_congr (τ := σ) (fun v hv => Function.update_of_ne (hself' n hn v hv) _ _)] at h3
      rw [cptRow_getElem, cptRow_getElem]
      exact h3
  · intro hasc σ hσ
    unfold Bbn.weight
    congr 1
    apply List.map_congr_left
    intro n hn
    rw [(sorted_eq_iff n.var.id).2 (hasc n hn)]
    simp [noEvidence]

/-- the numbers from which `σ` is sampled are those with the number for node `n` from `lo n` up to, but without, `hi n`, for all `n` -/
def SampledFrom (b : Bbn) (s : LogicSampler) (σ : Asg) (lo hi : BbnNode → ℚ) : Prop :=
  (∀ n ∈ b.toGraph.getNodes, 0 ≤ lo n ∧ lo n ≤ hi n ∧ hi n ≤ 1) ∧
  ∀ u, Uniform s.nodes.length u → ((∃ r, s.getSamples [] 1 [u] = some (.ok [r]) ∧ b.Sample r σ) ↔
    ∀ n ∈ b.toGraph.getNodes, ∀ p, (p, n.var.id) ∈ u.zip s.nodes → lo n ≤ p ∧ p < hi n)

/-- **C50, exactly when**. For positive CPTs without equal rows, and parents with at least two values, the numbers from which a sample is drawn
have its joint probability as volume, for all samples, if and only if all parents were connected in ascending order of their ids. -/
theorem c50_iff (ps : PySort SortableNode) (hs : (Bbn.run ops).Samplable) (s : LogicSampler)
    (hmake : LogicSampler.make ps (Bbn.run ops) = .ok s) (ht : (Bbn.run ops).Topological s.nodes)
    (hpos : ∀ n ∈ (Bbn.run ops).toGraph.getNodes, ∀ p ∈ n.probs, 0 < p)
    (h2 : ∀ n ∈ (Bbn.run ops).toGraph.getNodes, ∀ p ∈ (Bbn.run ops).parentVars n.var.id, 2 ≤ p.values.length)
    (hrows : ∀ n ∈ (Bbn.run ops).toGraph.getNodes, DistinctRows n (((Bbn.run ops).parentVars n.var.id).map (fun p => p.values.length)).prod) :
    (∀ σ, InDom (Bbn.run ops).vars σ → ∃ lo hi, SampledFrom (Bbn.run ops) s σ lo hi ∧
      ((Bbn.run ops).toGraph.getNodes.map (fun n => hi n - lo n)).prod = (Bbn.run ops).weight noEvidence σ) ↔
    ∀ n ∈ (Bbn.run ops).toGraph.getNodes, (ddGet (Bbn.run ops).parents n.var.id).Pairwise (· < ·) := by
  have hinv := bbn_run_inv ops
  have hvn : (vids (Bbn.run ops).vars).Nodup := vars_nodup hinv
  have hidn : (Bbn.run ops).ids.Nodup := by
    have : (Bbn.run ops).ids = vids (Bbn.run ops).vars := by unfold Bbn.ids vids Bbn.vars; rw [List.map_map]; rfl
    rw [this]; exact hvn
  rw [← products_iff hs ht hpos h2 hrows]
  refine forall₂_congr ?_
  intro σ hσ
  obtain ⟨h1, h3⟩ := c50_sample_law ps ops hs s hmake ht σ hσ
  have hb : ∀ n ∈ (Bbn.run ops).toGraph.getNodes, ∀ i, 0 ≤ ((cptRow n.probs ((Bbn.run ops).sortedParentVars n.var.id) n.var σ).take i).sum ∧
      ((cptRow n.probs ((Bbn.run ops).sortedParentVars n.var.id) n.var σ).take i).sum ≤ 1 := by
    intro n hn i
    have h5 := cptRow_nonneg (hs.wf.nonneg n hn) ((Bbn.run ops).sortedParentVars n.var.id) n.var σ
    refine ⟨List.sum_nonneg (fun x hx => h5 x (List.mem_of_mem_take hx)), ?_⟩
    have := sum_take_mono h5 (show i ≤ i + (cptRow n.probs ((Bbn.run ops).sortedParentVars n.var.id) n.var σ).length by omega)
    rw [List.take_of_length_le (show _ ≤ i + _ by omega), hs.normalized n hn σ hσ] at this
    exact this
  rw [← h3]
  constructor
  · rintro ⟨lo, hi, ⟨hr, hbox⟩, hvol⟩
    rw [← hvol]
    congr 1
    apply List.map_congr_left
    have hw : ∀ n ∈ (Bbn.run ops).toGraph.getNodes, (fun n : BbnNode => ((cptRow n.probs ((Bbn.run ops).sortedParentVars n.var.id) n.var σ).take
        (n.var.values.idxOf (σ n.var.id))).sum) n < (fun n : BbnNode => ((cptRow n.probs ((Bbn.run ops).sortedParentVars n.var.id) n.var σ).take
        (n.var.values.idxOf (σ n.var.id) + 1)).sum) n := by
      intro n hn
      show List.sum _ < List.sum _
      rw [take_succ_sum, lt_add_iff_pos_right]
      have hlt := List.idxOf_lt_length_of_mem (hσ n.var (List.mem_map_of_mem hn))
      rw [List.getD_eq_getElem?_getD, List.getElem?_eq_getElem (by rw [cptRow_length]; exact hlt), Option.getD_some, cptRow_getElem]
      have hfit := row_fits hinv hs.wf hn hσ
      rw [Nat.add_mul, Nat.one_mul] at hfit
      rw [List.getD_eq_getElem?_getD, List.getElem?_eq_getElem (by omega)]
      exact hpos n hn _ (List.getElem_mem _)
    have := box_unique (ids := fun n : BbnNode => n.var.id) hidn ht.1 hw (fun n hn => ⟨(hb n hn _).1, (hb n hn _).2⟩) (fun n hn => hr n hn)
      (fun u hu => (h1 u hu).symm.trans (hbox u hu))
    intro n hn
    exact congrArg₂ (· - ·) (this n hn).2 (this n hn).1
  · intro h
    exact ⟨_, _, ⟨fun n hn => ⟨(hb n hn _).1, sum_take_mono (cptRow_nonneg (hs.wf.nonneg n hn) _ _ σ) (Nat.le_succ _), (hb n hn _).2⟩, h1⟩, h⟩

end

/-- **C45, exactly when**. If the relative frequencies differ for any two combinations of parent values, and every parent has at least two
values, then the table that `from_data` computes for a column gives the relative frequencies if and only if the parents of the column are
listed in ascending order. -/
theorem c45_iff (st : Dict Str (List Str)) (df : Frame) (h : Factory.Valid st df) (hac : Acyclic df.Names) (hne : df.rows ≠ []) :
    ∃ b, Factory.fromData st df = .ok b ∧ ∀ n ∈ b.toGraph.getNodes, n.var ∉ b.parentVars n.var.id →
      (∀ p ∈ b.parentVars n.var.id, 2 ≤ p.values.length) →
      (∀ σ τ, InDom b.vars σ → InDom b.vars τ →
        (∀ x ∈ n.var.values, df.relFreq n.var.name x ((b.parentVars n.var.id).map (fun p => (p.name, σ p.id))) =
          df.relFreq n.var.name x ((b.parentVars n.var.id).map (fun p => (p.name, τ p.id)))) → ∀ p ∈ b.parentVars n.var.id, σ p.id = τ p.id) →
      ((∀ σ, InDom b.vars σ → cptAt n.probs (b.parentVars n.var.id) n.var σ =
          df.relFreq n.var.name (σ n.var.id) ((b.parentVars n.var.id).map (fun p => (p.name, σ p.id)))) ↔
        ((b.parentVars n.var.id).map (fun p => p.name)).Pairwise (fun a b => strLe a b = true)) := by
  obtain ⟨id, hid, hb⟩ := (Factory.fromData_spec h).1 hac
  obtain ⟨b, hb', hlaw⟩ := c45_law st df h hac
  obtain rfl : Bbn.run ((Factory.named st df id).ops df.columns (Dict.keys st)) = b := Except.ok.inj (hb.symm.trans hb')
  have hwf := Factory.named_wf h hid
  have hvars := Named.vars hwf (List.Perm.refl df.columns) (Factory.kids_perm h)
  have hinv := bbn_run_inv ((Factory.named st df id).ops df.columns (Dict.keys st))
  have hval : ∀ v ∈ (Bbn.run ((Factory.named st df id).ops df.columns (Dict.keys st))).vars, v.values.Nodup ∧ v.values ≠ [] := by
    intro v hv
    rw [hvars] at hv
    obtain ⟨c, hc, rfl⟩ := List.mem_map.1 hv
    refine ⟨Factory.vals_nodup df c, ?_⟩
    obtain ⟨r, hr⟩ := List.exists_mem_of_ne_nil _ hne
    exact List.ne_nil_of_mem ((Factory.mem_vals df c (df.cell r c)).2 ⟨r, hr, rfl⟩)
  have hname : ∀ v ∈ (Bbn.run ((Factory.named st df id).ops df.columns (Dict.keys st))).vars,
      ∀ w ∈ (Bbn.run ((Factory.named st df id).ops df.columns (Dict.keys st))).vars, v.name = w.name → v = w := by
    intro v hv w hw e
    rw [hvars] at hv hw
    obtain ⟨c, hc, rfl⟩ := List.mem_map.1 hv
    obtain ⟨d, hd, rfl⟩ := List.mem_map.1 hw
    obtain rfl : c = d := e
    rfl
  obtain ⟨τ₀, hτ₀⟩ := inDom_exists (b := Bbn.run ((Factory.named st df id).ops df.columns (Dict.keys st)))
    (fun n hn => (hval n.var (List.mem_map_of_mem hn)).2) hinv
  refine ⟨_, hb, ?_⟩
  generalize Bbn.run ((Factory.named st df id).ops df.columns (Dict.keys st)) = b at *
  have hvn : (vids b.vars).Nodup := vars_nodup hinv
  intro n hn hself h2 hdist
  obtain ⟨asc, hperm, hsorted, hl⟩ := hlaw n hn
  have hsub : ∀ p ∈ b.parentVars n.var.id, p ∈ b.vars := fun p hp => parentVars_sub hinv _ p hp
  have hnd : (vids (b.parentVars n.var.id)).Nodup := by rw [vids_parentVars hinv]; exact hinv.parNodup _
  have hn' : n.var ∈ b.vars := List.mem_map_of_mem hn
  constructor
  · intro hall
    have e : asc = b.parentVars n.var.id := by
      refine rowIdx_order hperm ((hperm.map _).nodup_iff.2 hnd) (fun v hv => ⟨(hval v (hsub v (hperm.mem_iff.1 hv))).1, h2 v (hperm.mem_iff.1 hv)⟩) ?_
      intro σ₁ hσ₁
      have hext : ∀ ρ : Asg, (∀ p ∈ asc, ρ p.id ∈ p.values) → InDom b.vars (fun i => if i ∈ vids asc then ρ i else τ₀ i) := by
        intro ρ hρ v hv
        show (if v.id ∈ vids asc then ρ v.id else τ₀ v.id) ∈ v.values
        split
        · rename_i hm
          obtain ⟨w, hw, e⟩ := List.mem_map.1 hm
          obtain rfl : w = v := List.inj_on_of_nodup_map hvn (hsub w (hperm.mem_iff.1 hw)) hv e
          exact hρ w hw
        · exact hτ₀ v hv
      have hon : ∀ (ρ : Asg), ∀ p ∈ asc, (fun i => if i ∈ vids asc then ρ i else τ₀ i) p.id = ρ p.id := fun ρ p hp => if_pos (List.mem_map_of_mem hp)
      obtain ⟨σ, hσdef⟩ : ∃ σ : Asg, σ = fun i => if i ∈ vids asc then σ₁ i else τ₀ i := ⟨_, rfl⟩
      have hσ : InDom b.vars σ := by rw [hσdef]; exact hext σ₁ hσ₁
      have hσon : ∀ p ∈ asc, σ p.id = σ₁ p.id := by rw [hσdef]; exact hon σ₁
      rw [← rowIdx_congr hσon, ← rowIdx_congr (fun p hp => hσon p (hperm.mem_iff.2 hp))]
      obtain ⟨τ, hτ, hrow, huniq, _⟩ := hl σ hσ
      have hself' : ∀ p ∈ b.parentVars n.var.id, p.id ≠ n.var.id := by
        intro p hp e
        exact hself (List.inj_on_of_nodup_map hvn (hsub p hp) hn' e ▸ hp)
      have hx : ∀ x ∈ n.var.values, df.relFreq n.var.name x ((b.parentVars n.var.id).map (fun p => (p.name, σ p.id))) =
          df.relFreq n.var.name x ((b.parentVars n.var.id).map (fun p => (p.name, (fun i => if i ∈ vids asc then τ i else τ₀ i) p.id))) := by
        intro x hx
        have hdom : InDom b.vars (Function.update σ n.var.id x) := by
          intro v hv
          by_cases e : v.id = n.var.id
          · rw [e, Function.update_self, List.inj_on_of_nodup_map hvn hv hn' e]; exact hx
          · rw [Function.update_of_ne e]; exact hσ v hv
        obtain ⟨τ', _, hrow', huniq', hc⟩ := hl _ hdom
        have hupd : ∀ p ∈ b.parentVars n.var.id, Function.update σ n.var.id x p.id = σ p.id := fun p hp => Function.update_of_ne (hself' p hp) _ _
        have e1 := hall _ hdom
        rw [hc, Function.update_self] at e1
        have e3 : (b.parentVars n.var.id).map (fun p => (p.name, Function.update σ n.var.id x p.id)) =
            (b.parentVars n.var.id).map (fun p => (p.name, σ p.id)) := List.map_congr_left (fun p hp => by rw [hupd p hp])
        have e2 := huniq' τ hτ (by rw [hrow]; exact rowIdx_congr (fun p hp => (hupd p hp).symm))
        rw [e3] at e1
        rw [← e1]
        congr 1
        apply List.map_congr_left
        intro p hp
        rw [hon τ p (hperm.mem_iff.2 hp), e2 p (hperm.mem_iff.2 hp)]
      have := hdist σ _ hσ (hext τ hτ) hx
      rw [← hrow]
      apply rowIdx_congr
      intro p hp
      exact (this p (hperm.mem_iff.1 hp)).trans (hon τ p hp)
    rw [List.pairwise_map, ← e]
    exact hsorted
  · intro hs σ hσ
    rw [List.pairwise_map] at hs
    have e : asc = b.parentVars n.var.id := by
      refine List.Perm.eq_of_pairwise ?_ hsorted hs hperm
      intro u v hu hv h1 h2
      exact hname u (hsub u (hperm.mem_iff.1 hu)) v (hsub v hv) (strLe_antisymm _ _ h1 h2)
    obtain ⟨τ, hτ, hrow, huniq, hc⟩ := hl σ hσ
    rw [hc]
    congr 1
    apply List.map_congr_left
    intro p hp
    rw [huniq σ (fun q hq => hσ q (hsub q (hperm.mem_iff.1 hq))) (by rw [e]) p (hperm.mem_iff.2 hp)]

/-! ### cases -/

/-- node 2 with parents 1 and 0, connected in this order, and a CPT with four different rows -/
def c37_desc : List BOp := [.addNode (mkNode 0 "a" [1/2, 1/2]), .addNode (mkNode 1 "b" [1/3, 2/3]),
  .addEdge (mkNode 1 "b" [1/3, 2/3]) (mkNode 2 "c" [1/10, 9/10, 2/10, 8/10, 3/10, 7/10, 4/10, 6/10]),
  .addEdge (mkNode 0 "a" [1/2, 1/2]) (mkNode 2 "c" [1/10, 9/10, 2/10, 8/10, 3/10, 7/10, 4/10, 6/10])]

theorem c37_desc_samplable : (Bbn.run c37_desc).Samplable := samplable_of_checks _ (by decide +kernel) (by decide +kernel)

/-- the sampler draws node 2 from other distributions than inference uses, and no description of the samples of every `σ` has the joint
probability as volume -/
example : ∃ s, LogicSampler.make (cpython _) (Bbn.run c37_desc) = .ok s ∧
    ¬ DrawsFrom (Bbn.run c37_desc) s (mkNode 2 "c" [1/10, 9/10, 2/10, 8/10, 3/10, 7/10, 4/10, 6/10]) ((Bbn.run c37_desc).parentVars 2) ∧
    ¬ (∀ σ, InDom (Bbn.run c37_desc).vars σ → ∃ lo hi, SampledFrom (Bbn.run c37_desc) s σ lo hi ∧
      ((Bbn.run c37_desc).toGraph.getNodes.map (fun n => hi n - lo n)).prod = (Bbn.run c37_desc).weight noEvidence σ) := by
  have hn : ((LogicSampler.make (cpython _) (Bbn.run c37_desc)).val?.map LogicSampler.nodes) = some [0, 1, 2] := by decide +kernel
  cases hmk : LogicSampler.make (cpython _) (Bbn.run c37_desc) with
  | error e => rw [hmk] at hn; cases hn
  | ok s =>
    rw [hmk] at hn
    have hnodes : s.nodes = [0, 1, 2] := Option.some.inj hn
    have hm : mkNode 2 "c" [1/10, 9/10, 2/10, 8/10, 3/10, 7/10, 4/10, 6/10] ∈ (Bbn.run c37_desc).toGraph.getNodes := by decide +kernel
    refine ⟨s, rfl, ?_, ?_⟩
    · intro h
      have := (c37_iff _ c37_desc_samplable s hmk _ hm (by decide +kernel) (by decide +kernel)).1 h
      revert this
      decide +kernel
    · intro h
      have := (c50_iff _ c37_desc_samplable s hmk (by rw [hnodes]; exact ⟨by decide +kernel, by decide +kernel⟩) (by decide +kernel)
        (by decide +kernel) (by decide +kernel)).1 h _ hm
      revert this
      decide +kernel

/-- columns in which the frequencies of `c` differ for all values of `a` and `b` -/
def c45_distinct : Frame where
  columns := ["a".toList, "b".toList, "c".toList]
  rows := [["y".toList, "y".toList, "y".toList], ["y".toList, "n".toList, "y".toList], ["y".toList, "n".toList, "n".toList],
    ["n".toList, "y".toList, "y".toList], ["n".toList, "y".toList, "n".toList], ["n".toList, "y".toList, "n".toList],
    ["n".toList, "n".toList, "n".toList]]

/-- the table of `c` is not the table of relative frequencies if `b` is listed before `a` -/
example : ∃ b, Factory.fromData c45_unsorted c45_distinct = .ok b ∧ ∃ n ∈ b.toGraph.getNodes, ∃ σ, InDom b.vars σ ∧
    cptAt n.probs (b.parentVars n.var.id) n.var σ ≠
      c45_distinct.relFreq n.var.name (σ n.var.id) ((b.parentVars n.var.id).map (fun p => (p.name, σ p.id))) := by
  have hv : Factory.Valid c45_unsorted c45_distinct :=
    ⟨by decide +kernel, by decide +kernel, by intro c; rw [show Dict.keys c45_unsorted = c45_distinct.columns from rfl], by decide +kernel⟩
  have hac : Acyclic c45_distinct.Names := Frame.acyclic_of_apart (by decide +kernel)
  have key : (Factory.fromData c45_unsorted c45_distinct).val?.map (fun b => b.toGraph.getNodes.map (fun n => (n.var, b.parentVars n.var.id))) =
    some [(⟨2, "a".toList, ["n".toList, "y".toList]⟩, []), (⟨3, "b".toList, ["n".toList, "y".toList]⟩, []),
      (⟨4, "c".toList, ["n".toList, "y".toList]⟩, [⟨3, "b".toList, ["n".toList, "y".toList]⟩, ⟨2, "a".toList, ["n".toList, "y".toList]⟩])] := by
    decide +kernel
  obtain ⟨b, hb, h⟩ := c45_iff c45_unsorted c45_distinct hv hac (by decide +kernel)
  refine ⟨b, hb, ?_⟩
  rw [hb] at key
  have key : b.toGraph.getNodes.map (fun n => (n.var, b.parentVars n.var.id)) = _ := Option.some.inj key
  obtain ⟨n, hn, e⟩ : ∃ n ∈ b.toGraph.getNodes, (n.var, b.parentVars n.var.id) = (⟨4, "c".toList, ["n".toList, "y".toList]⟩,
      [⟨3, "b".toList, ["n".toList, "y".toList]⟩, ⟨2, "a".toList, ["n".toList, "y".toList]⟩]) := by
    have : (⟨4, "c".toList, ["n".toList, "y".toList]⟩, [⟨3, "b".toList, ["n".toList, "y".toList]⟩, ⟨2, "a".toList, ["n".toList, "y".toList]⟩]) ∈
        b.toGraph.getNodes.map (fun n => (n.var, b.parentVars n.var.id)) := by rw [key]; simp
    obtain ⟨n, hn, e⟩ := List.mem_map.1 this
    exact ⟨n, hn, e⟩
  have hvars : b.vars = [⟨2, "a".toList, ["n".toList, "y".toList]⟩, ⟨3, "b".toList, ["n".toList, "y".toList]⟩, ⟨4, "c".toList, ["n".toList, "y".toList]⟩] := by
    have := congrArg (List.map Prod.fst) key
    rw [List.map_map] at this
    exact this
  obtain ⟨e1, e2⟩ := Prod.mk.inj e
  refine ⟨n, hn, ?_⟩
  by_contra hcon
  push Not at hcon
  have := (h n hn (by rw [e2, e1]; decide +kernel) (by rw [e2]; decide +kernel) (by
    intro σ τ hσ hτ heq
    rw [e2, e1] at heq
    rw [e2]
    have hpair : ∀ x₁ ∈ ["n".toList, "y".toList], ∀ x₂ ∈ ["n".toList, "y".toList], ∀ y₁ ∈ ["n".toList, "y".toList], ∀ y₂ ∈ ["n".toList, "y".toList],
        c45_distinct.relFreq "c".toList "n".toList [("b".toList, x₁), ("a".toList, x₂)] =
          c45_distinct.relFreq "c".toList "n".toList [("b".toList, y₁), ("a".toList, y₂)] → x₁ = y₁ ∧ x₂ = y₂ := by decide +kernel
    rw [hvars] at hσ hτ
    have := hpair (σ 3) (hσ ⟨3, "b".toList, ["n".toList, "y".toList]⟩ (by simp)) (σ 2) (hσ ⟨2, "a".toList, ["n".toList, "y".toList]⟩ (by simp))
      (τ 3) (hτ ⟨3, "b".toList, ["n".toList, "y".toList]⟩ (by simp)) (τ 2) (hτ ⟨2, "a".toList, ["n".toList, "y".toList]⟩ (by simp))
      (heq "n".toList (by simp))
    intro p hp
    simp only [List.mem_cons, List.not_mem_nil, or_false] at hp
    rcases hp with rfl | rfl
    · exact this.1
    · exact this.2)).1 hcon
  rw [e2] at this
  revert this
  decide +kernel

end PyBBN
