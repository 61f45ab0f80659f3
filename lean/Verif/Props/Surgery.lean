import Verif.Props.Ratios
import Verif.Props.Certain
import Verif.Props.Ace
import Verif.Spec.Surgery

/-! # C117: setting a node is observing it in the network without the edges into it -/

namespace PyBBN
open Relation InferenceController

section
variable {i : Int} {prior : List ℚ} {ops : List BOp}

theorem withPrior_var (n : BbnNode) : (n.withPrior i prior).var = n.var := by
  unfold BbnNode.withPrior; split <;> rfl

theorem withPrior_ne {n : BbnNode} (h : n.var.id ≠ i) : n.withPrior i prior = n := by
  unfold BbnNode.withPrior; rw [if_neg h]

theorem withPrior_eq {n : BbnNode} (h : n.var.id = i) : n.withPrior i prior = ⟨n.var, prior⟩ := by
  unfold BbnNode.withPrior; rw [if_pos h]

theorem cut_nodes (ops : List BOp) : BOp.nodes (cutOps i prior ops) = (BOp.nodes ops).map (BbnNode.withPrior i prior) := by
  induction ops with
  | nil => rfl
  | cons op ops ih =>
    have e1 : BOp.nodes (op :: ops) = BOp.nodes [op] ++ BOp.nodes ops := by
      unfold BOp.nodes; rw [← List.flatMap_append]; rfl
    have e2 : BOp.nodes (cutOps i prior (op :: ops)) = BOp.nodes (BOp.cut i prior op) ++ BOp.nodes (cutOps i prior ops) := by
      unfold BOp.nodes cutOps; rw [List.flatMap_cons, List.flatMap_append]
    rw [e1, e2, ih, List.map_append]
    congr 1
    cases op with
    | addNode n => rfl
    | addEdge p c => simp only [BOp.cut]; split <;> rfl

theorem cut_edges (ops : List BOp) : BOp.edges (cutOps i prior ops) = (BOp.edges ops).filter (fun e => decide (e.2 ≠ i)) := by
  induction ops with
  | nil => rfl
  | cons op ops ih =>
    have e1 : BOp.edges (op :: ops) = BOp.edges [op] ++ BOp.edges ops := by
      unfold BOp.edges; rw [← List.filterMap_append]; rfl
    have e2 : BOp.edges (cutOps i prior (op :: ops)) = BOp.edges (BOp.cut i prior op) ++ BOp.edges (cutOps i prior ops) := by
      unfold BOp.edges cutOps; rw [List.flatMap_cons, List.filterMap_append]
    rw [e1, e2, ih, List.filter_append]
    congr 1
    cases op with
    | addNode n => rfl
    | addEdge p c =>
      simp only [BOp.cut]
      split
      · rename_i h; simp [BOp.edges, h]
      · rename_i h; simp [BOp.edges, h, withPrior_var]

theorem cut_get (k : Int) : Dict.get? (Bbn.run (cutOps i prior ops)).nodes k = (Dict.get? (Bbn.run ops).nodes k).map (BbnNode.withPrior i prior) := by
  rw [get?_run, get?_run, cut_nodes, List.find?_map]
  congr 2
  funext n
  simp only [Function.comp, withPrior_var]

theorem cut_getNodes : (Bbn.run (cutOps i prior ops)).toGraph.getNodes.Perm ((Bbn.run ops).toGraph.getNodes.map (BbnNode.withPrior i prior)) := by
  have hi := bbn_run_inv ops
  have hi' := bbn_run_inv (cutOps i prior ops)
  have hnd : ((Bbn.run ops).toGraph.getNodes.map (BbnNode.withPrior i prior)).Nodup := by
    refine List.Nodup.of_map (fun n : BbnNode => n.var.id) ?_
    rw [List.map_map]
    simpa only [Function.comp_def, withPrior_var] using node_ids_nodup hi
  rw [List.perm_ext_iff_of_nodup (getNodes_nodup hi') hnd]
  intro n
  rw [mem_getNodes hi', cut_get, Option.map_eq_some_iff, List.mem_map]
  constructor
  · rintro ⟨m, h1, rfl⟩
    rw [withPrior_var] at h1
    exact ⟨m, (mem_getNodes hi m).2 h1, rfl⟩
  · rintro ⟨m, h1, rfl⟩
    rw [withPrior_var]
    exact ⟨m, (mem_getNodes hi m).1 h1, rfl⟩

theorem cut_vars : (Bbn.run (cutOps i prior ops)).vars.Perm (Bbn.run ops).vars := by
  have := (cut_getNodes (i := i) (prior := prior) (ops := ops)).map BbnNode.var
  rw [List.map_map] at this
  simp only [Function.comp_def, withPrior_var] at this
  exact this

theorem cut_parents_self : ddGet (Bbn.run (cutOps i prior ops)).parents i = [] := by
  rw [(c07_parents_first_insertion _ i).1, cut_edges, List.filter_filter]
  have : (BOp.edges ops).filter (fun a => decide (a.2 = i) && decide (a.2 ≠ i)) = [] := by
    rw [List.filter_eq_nil_iff]
    intro a _
    simp
  rw [this]
  rfl

theorem cut_parents_ne {c : Int} (h : c ≠ i) : ddGet (Bbn.run (cutOps i prior ops)).parents c = ddGet (Bbn.run ops).parents c := by
  rw [(c07_parents_first_insertion _ c).1, (c07_parents_first_insertion ops c).1, cut_edges, List.filter_filter]
  congr 2
  refine List.filter_congr ?_
  intro a _
  by_cases e : a.2 = c
  · simp [e, h]
  · simp [e]

theorem cut_parentVars_self : (Bbn.run (cutOps i prior ops)).parentVars i = [] := by
  unfold Bbn.parentVars
  rw [cut_parents_self]
  rfl

theorem cut_parentVars_ne {c : Int} (h : c ≠ i) : (Bbn.run (cutOps i prior ops)).parentVars c = (Bbn.run ops).parentVars c := by
  unfold Bbn.parentVars
  rw [cut_parents_ne h]
  congr 1
  funext p
  rw [cut_get, Option.map_map]
  congr 1
  funext n
  exact withPrior_var n

/-- the network without the edges is usable if the original is and the new CPT has an entry for each value -/
theorem cut_sane (hs : Net.Sane ops) {x : Variable} (hx : x ∈ (Bbn.run ops).vars) (hl : x.values.length ≤ prior.length)
    (h0 : ∀ p ∈ prior, 0 ≤ p) : Net.Sane (cutOps x.id prior ops) := by
  have hmem : ∀ n ∈ (Bbn.run (cutOps x.id prior ops)).toGraph.getNodes, ∃ m ∈ (Bbn.run ops).toGraph.getNodes, n = m.withPrior x.id prior := by
    intro n hn
    obtain ⟨m, hm, e⟩ := List.mem_map.1 (cut_getNodes.mem_iff.1 hn)
    exact ⟨m, hm, e.symm⟩
  refine ⟨⟨?_, ?_, ?_, ?_⟩, ?_⟩
  · intro c
    by_cases e : c = x.id
    · subst e; rw [cut_parents_self]; simp
    · rw [cut_parents_ne e]; exact hs.wf.noLoop c
  · intro n hn
    obtain ⟨m, hm, rfl⟩ := hmem n hn
    rw [withPrior_var]; exact hs.wf.values m hm
  · intro n hn
    obtain ⟨m, hm, rfl⟩ := hmem n hn
    rw [withPrior_var]
    by_cases e : m.var.id = x.id
    · have : m.var = x := List.inj_on_of_nodup_map (vars_nodup (bbn_run_inv ops)) (List.mem_map_of_mem hm) hx e
      rw [withPrior_eq e, e, cut_parentVars_self, this]
      simpa using hl
    · rw [withPrior_ne e, cut_parentVars_ne e]; exact hs.wf.cpt m hm
  · intro n hn
    obtain ⟨m, hm, rfl⟩ := hmem n hn
    by_cases e : m.var.id = x.id
    · rw [withPrior_eq e]; exact h0
    · rw [withPrior_ne e]; exact hs.wf.nonneg m hm
  · intro v hv
    exact hs.vals v (cut_vars.mem_iff.1 hv)

/-- the weights of the network without the edges -/
theorem cut_weight {x : Variable} (hx : x ∈ (Bbn.run ops).vars) (ℓ : Liks) (σ : Asg) :
    (Bbn.run (cutOps x.id prior ops)).weight ℓ σ = prior.getD (x.values.idxOf (σ x.id)) 0 * ℓ x.id (σ x.id) * (Bbn.run ops).weightDo ℓ x.id σ := by
  have hi := bbn_run_inv ops
  obtain ⟨n, hn, rfl⟩ := List.mem_map.1 hx
  unfold Bbn.weight Bbn.weightDo
  rw [(cut_getNodes.map _).prod_eq, List.map_map]
  obtain ⟨A, B, e⟩ := List.append_of_mem hn
  have hnd := node_ids_nodup hi
  rw [e] at hnd ⊢
  rw [List.map_append, List.map_cons, List.nodup_append, List.nodup_cons] at hnd
  have hA : ∀ m ∈ A, m.var.id ≠ n.var.id := fun m hm => hnd.2.2 _ (List.mem_map_of_mem hm) _ List.mem_cons_self
  have hB : ∀ m ∈ B, m.var.id ≠ n.var.id := fun m hm e => hnd.2.1.1 (e ▸ List.mem_map_of_mem (f := fun n : BbnNode => n.var.id) hm)
  have fA : A.filter (fun m => decide (m.var.id ≠ n.var.id)) = A := List.filter_eq_self.2 (fun m hm => by simpa using hA m hm)
  have fB : B.filter (fun m => decide (m.var.id ≠ n.var.id)) = B := List.filter_eq_self.2 (fun m hm => by simpa using hB m hm)
  rw [List.filter_append, List.filter_cons_of_neg (by simp), fA, fB, List.map_append, List.map_cons, List.map_append, List.prod_append,
    List.prod_cons, List.prod_append]
  have hL : ∀ L : List BbnNode, (∀ m ∈ L, m.var.id ≠ n.var.id) →
      (L.map ((fun m => cptAt m.probs ((Bbn.run (cutOps n.var.id prior ops)).parentVars m.var.id) m.var σ * ℓ m.var.id (σ m.var.id)) ∘
        BbnNode.withPrior n.var.id prior)) =
      L.map (fun m => cptAt m.probs ((Bbn.run ops).parentVars m.var.id) m.var σ * ℓ m.var.id (σ m.var.id)) := by
    intro L hL
    refine List.map_congr_left ?_
    intro m hm
    simp only [Function.comp]
    rw [withPrior_ne (hL m hm), cut_parentVars_ne (hL m hm)]
  rw [hL A hA, hL B hB]
  simp only [Function.comp]
  rw [withPrior_eq rfl, cut_parentVars_self]
  have : cptAt prior [] n.var σ = prior.getD (n.var.values.idxOf (σ n.var.id)) 0 := by
    unfold cptAt cptIndex rowIdx
    simp
  rw [this]
  ring

theorem ok_mono {V V' : List Variable} (hV : ∀ v ∈ V, v ∈ V') {op : EvOp} (h : op.Ok V) : op.Ok V' := by
  cases op with
  | update es => exact fun e he => ⟨⟨hV _ (h e he).1.node, (h e he).1.keys, (h e he).1.dom⟩, (h e he).2⟩
  | observe e => exact ⟨⟨hV _ h.1.node, h.1.keys, h.1.dom⟩, h.2⟩
  | unobserve ns => exact fun v hv => hV v (h v hv)
  | unobserveAll => trivial

variable {it it' : SetIter Int} {js js' : SetIter Str} {jt jt' : JoinTree}

/-- observing `x = a` in the network without the edges is setting `x` in the original -/
theorem cut_ratio {x : Variable} (hx : x ∈ (Bbn.run ops).vars) {a : Str} (hpos : prior.getD (x.values.idxOf a) 0 ≠ 0) {ℓ κ : Liks}
    (he : ∀ w ∈ (Bbn.run (cutOps x.id prior ops)).vars, ∀ z ∈ w.values, κ w.id z = ℓ w.id z) (hx1 : ℓ x.id a = 1) (v : Variable) (y : Str) :
    (Bbn.run (cutOps x.id prior ops)).mass2 κ v.id y x.id a / (Bbn.run (cutOps x.id prior ops)).mass κ x.id a =
      (Bbn.run ops).prDoGiven ℓ x.id a (isAt v.id y) := by
  have hi' := bbn_run_inv (cutOps x.id prior ops)
  have hw : ∀ σ ∈ allAsg (Bbn.run (cutOps x.id prior ops)).vars, σ x.id = a →
      (Bbn.run (cutOps x.id prior ops)).weight κ σ =
        prior.getD (x.values.idxOf a) 0 * (Bbn.run ops).weightDo ℓ x.id σ := by
    intro σ hσ e
    rw [weight_congr he (allAsg_mem_dom _ (vars_nodup hi') σ hσ), cut_weight hx, e, hx1, mul_one]
  have e1 : (Bbn.run (cutOps x.id prior ops)).mass2 κ v.id y x.id a =
      prior.getD (x.values.idxOf a) 0 * (((allAsg (Bbn.run ops).vars).filter (fun σ => isAt x.id a σ && isAt v.id y σ)).map
        ((Bbn.run ops).weightDo ℓ x.id)).sum := by
    unfold Bbn.mass2
    rw [sum_filter_map, ← List.sum_map_mul_left, ← sum_allAsg_perm (vars_nodup hi') cut_vars]
    refine congrArg List.sum (List.map_congr_left ?_)
    intro σ hσ
    unfold isAt
    by_cases e1 : σ x.id = a
    · by_cases e2 : σ v.id = y
      · rw [if_pos ⟨e2, e1⟩, hw σ hσ e1]; simp [e1, e2]
      · simp [e2]
    · simp [e1]
  have e2 : (Bbn.run (cutOps x.id prior ops)).mass κ x.id a =
      prior.getD (x.values.idxOf a) 0 * (((allAsg (Bbn.run ops).vars).filter (isAt x.id a)).map ((Bbn.run ops).weightDo ℓ x.id)).sum := by
    rw [mass_eq, sum_filter_map, ← List.sum_map_mul_left, ← sum_allAsg_perm (vars_nodup hi') cut_vars]
    refine congrArg List.sum (List.map_congr_left ?_)
    intro σ hσ
    unfold isAt
    by_cases e1 : σ x.id = a
    · rw [if_pos e1, hw σ hσ e1]; simp [e1]
    · simp [e1]
  rw [e1, e2, mul_div_mul_left _ _ hpos]
  rfl

/-- **C117**. Take the network without the edges into `x`, with any CPT for `x` that makes `a` possible, and assume that it is connected.
After any history of unambiguous evidence without evidence about `x` observe `x = a`. Then what is reported for a value of a node is its
probability in the original network when `x` is set to `a`, given the likelihoods stored for the other nodes. -/
theorem c117_surgery (hs : Net.Sane ops) {x : Variable} (hx : x ∈ (Bbn.run ops).vars) (hl : x.values.length ≤ prior.length)
    (h0 : ∀ p ∈ prior, 0 ≤ p) (hc : ConnectedOps (cutOps x.id prior ops)) (hj : apply it js (Bbn.run (cutOps x.id prior ops)) = .ok jt)
    {a : Str} (ha : a ∈ x.values) (hpos : prior.getD (x.values.idxOf a) 0 ≠ 0)
    (h : List (SetIter Str × EvOp)) (hp : ∀ op ∈ h, op.2.Ok (Bbn.run ops).vars) (hn : NoEvidenceOn (runHist jt h) x) {ℓ : Liks}
    (hℓ : ∀ v ∈ (Bbn.run ops).vars, ∀ z ∈ v.values, Stored (runHist jt h) v z (ℓ v.id z)) (s : SetIter Str)
    {v : Variable} (hv : v ∈ (Bbn.run ops).vars) {y : Str} (hy : y ∈ v.values) :
    Reports (runHist jt (h ++ [(s, .update [obs x a])])) v y ((Bbn.run ops).prDoGiven ℓ x.id a (isAt v.id y)) := by
  have hu : Net.Usable (cutOps x.id prior ops) := ⟨cut_sane hs hx hl h0, hc⟩
  have hmem : ∀ w, w ∈ (Bbn.run (cutOps x.id prior ops)).vars ↔ w ∈ (Bbn.run ops).vars := fun w => cut_vars.mem_iff
  have hp' : ∀ op ∈ h, op.2.Ok (Bbn.run (cutOps x.id prior ops)).vars := by
    intro op ho
    exact ok_mono (fun w hw => (hmem w).2 hw) (hp op ho)
  have hpp : ∀ op ∈ h, op.2.Proper (Bbn.run (cutOps x.id prior ops)).vars := fun op ho => (hp' op ho).proper
  have h1 := reports_obs hu hj h hp' ((hmem v).2 hv) ((hmem x).2 hx) hn hy ha s
  have he : ∀ w ∈ (Bbn.run (cutOps x.id prior ops)).vars, ∀ z ∈ w.values, specHist (Bbn.run (cutOps x.id prior ops)).vars h w.id z = ℓ w.id z := by
    intro w hw z hz
    exact ((stored_iff hu hj h hpp hw hz _).1 (hℓ w ((hmem w).1 hw) z hz)).symm
  have hx1 : ℓ x.id a = 1 := by
    rw [← he x ((hmem x).2 hx) a ha]
    exact noEvidenceOn_iff hu hj h hpp ((hmem x).2 hx) hn a ha
  rw [cut_ratio hx hpos he hx1] at h1
  exact h1

theorem weightDo_noEvidence {b : Bbn} (id : Int) (σ : Asg) : b.weightDo noEvidence id σ = b.others id σ := by
  unfold Bbn.weightDo Bbn.others Bbn.w noEvidence
  simp only [mul_one]

/-- without further evidence this is the probability when the node is set -/
theorem prDoGiven_noEvidence {b : Bbn} (hb : b.Proper) {x : Variable} (hx : x ∈ b.vars) {a : Str} (ha : a ∈ x.values) (E : Asg → Bool) :
    b.prDoGiven noEvidence x.id a E = b.prDo x.id a E := by
  obtain ⟨n, hn, rfl⟩ := List.mem_map.1 hx
  have h1 := sum_others hb hn ha (E := fun _ => 1) (Dep.const 1)
  simp only [one_mul] at h1
  have h2 : ((allAsg b.vars).map (fun σ => b.weight noEvidence σ)).sum = 1 := total_one hb
  rw [h2] at h1
  unfold Bbn.prDoGiven
  have e : (((allAsg b.vars).filter (isAt n.var.id a)).map (b.weightDo noEvidence n.var.id)).sum = 1 := by
    rw [← h1, sum_filter_map]
    refine congrArg List.sum (List.map_congr_left ?_)
    intro σ _
    rw [weightDo_noEvidence]
    unfold isAt isVal
    by_cases e1 : σ n.var.id = a <;> simp [e1]
  rw [e, div_one]
  unfold Bbn.prDo
  refine congrArg List.sum (List.map_congr_left ?_)
  intro σ _
  rw [weightDo_noEvidence]
  rfl

/-- **C117**, without other evidence, for an acyclic network whose CPT rows sum to one: what is reported is the probability when `x` is set
to `a` (truncated factorization). -/
theorem c117_do (hs : Net.Sane ops) (hac : AcyclicOps ops) (hnm : (Bbn.run ops).Normalized (Bbn.run ops).parentVars)
    {x : Variable} (hx : x ∈ (Bbn.run ops).vars) (hl : x.values.length ≤ prior.length)
    (h0 : ∀ p ∈ prior, 0 ≤ p) (hc : ConnectedOps (cutOps x.id prior ops)) (hj : apply it js (Bbn.run (cutOps x.id prior ops)) = .ok jt)
    {a : Str} (ha : a ∈ x.values) (hpos : prior.getD (x.values.idxOf a) 0 ≠ 0) (s : SetIter Str)
    {v : Variable} (hv : v ∈ (Bbn.run ops).vars) {y : Str} (hy : y ∈ v.values) :
    Reports (runHist jt [(s, .update [obs x a])]) v y ((Bbn.run ops).prDo x.id a (isAt v.id y)) := by
  have hu : Net.Usable (cutOps x.id prior ops) := ⟨cut_sane hs hx hl h0, hc⟩
  have hnone : ∀ op ∈ ([] : List (SetIter Str × EvOp)), op.2.Ok (Bbn.run ops).vars := by simp
  have hnone' : ∀ op ∈ ([] : List (SetIter Str × EvOp)), op.2.Proper (Bbn.run (cutOps x.id prior ops)).vars := by simp
  rw [← prDoGiven_noEvidence (proper_of hs hac hnm) hx ha]
  refine c117_surgery hs hx hl h0 hc hj ha hpos [] hnone ?_ ?_ s hv hy
  · exact (c18_law hu hj [] hnone' x (cut_vars.mem_iff.2 hx)).1
  · intro w hw z hz
    exact (stored_iff hu hj [] hnone' (cut_vars.mem_iff.2 hw) hz _).2 rfl

/-- **C117**, `get_ace`. When the parents of `x` are independent (see C38), what `get_ace` computes from the original network is, for every
value of `x` the experiment makes possible, what is reported by the network without the edges into `x` after observing that value. -/
theorem c117_ace (hu : Net.Usable ops) (hac : AcyclicOps ops) (hnm : (Bbn.run ops).Normalized (Bbn.run ops).parentVars)
    (hname : ((Bbn.run ops).vars.map Variable.name).Nodup) (hj : apply it js (Bbn.run ops) = .ok jt)
    (h : List (SetIter Str × EvOp)) (hok : ∀ op ∈ h, op.2.Ok (Bbn.run ops).vars) (k : SetIter Str)
    {x y : Variable} {yv : Str} (hx : x ∈ (Bbn.run ops).vars) (hy : y ∈ (Bbn.run ops).vars) (hyv : yv ∈ y.values)
    (hind : IndependentCauses (Bbn.run ops) x.id) (hover : Overlap (Bbn.run ops) x)
    (hl : x.values.length ≤ prior.length) (h0 : ∀ p ∈ prior, 0 ≤ p) (hc : ConnectedOps (cutOps x.id prior ops))
    (hj' : apply it' js' (Bbn.run (cutOps x.id prior ops)) = .ok jt') (s : SetIter Str) :
    ∃ d, (Ace.getAce k ⟨Bbn.run ops, runHist jt h⟩ x.name y.name yv).2 = .ok d ∧ Dict.keys d = x.values ∧
      ∀ a ∈ x.values, prior.getD (x.values.idxOf a) 0 ≠ 0 → ∀ p, (a, p) ∈ d → Reports (runHist jt' [(s, .update [obs x a])]) y yv p := by
  refine ⟨_, c38_causal_effect_partial hu hac hnm hname hj h hok k hx hy hyv hind hover, ?_, ?_⟩
  · unfold Dict.keys
    rw [List.map_map]
    exact List.map_id' _
  · intro a ha hpos p hm
    obtain ⟨b, _, e⟩ := List.mem_map.1 hm
    cases e
    exact c117_do hu.toSane hac hnm hx hl h0 hc hj' ha hpos s hy hyv

end

/-! ## The claims are not vacuous -/

theorem c117_connected : ConnectedOps (cutOps 1 [1/3, 2/3] c16_ops) := by
  have e : ∀ p c, (p, c) ∈ BOp.edges (cutOps 1 [1/3, 2/3] c16_ops) → EqvGen (fun p c => (p, c) ∈ BOp.edges (cutOps 1 [1/3, 2/3] c16_ops)) p c :=
    fun p c h => EqvGen.rel _ _ h
  have h1 := e 0 2 (by decide +kernel)
  have h2 := e 2 3 (by decide +kernel)
  have h3 := e 1 3 (by decide +kernel)
  have h4 := e 3 4 (by decide +kernel)
  have hv : ∀ u ∈ (Bbn.run (cutOps 1 [1/3, 2/3] c16_ops)).vars, EqvGen (fun p c => (p, c) ∈ BOp.edges (cutOps 1 [1/3, 2/3] c16_ops)) 3 u.id := by
    have hid : (Bbn.run (cutOps 1 [1/3, 2/3] c16_ops)).vars.map Variable.id = [0, 1, 2, 3, 4] := by decide +kernel
    intro u hu
    have : u.id ∈ [0, 1, 2, 3, 4] := by rw [← hid]; exact List.mem_map_of_mem hu
    simp only [List.mem_cons, List.not_mem_nil, or_false] at this
    rcases this with e | e | e | e | e <;> rw [e]
    · exact ((h1.trans _ _ _ h2).symm)
    · exact h3.symm
    · exact h2.symm
    · exact EqvGen.refl _
    · exact h4
  exact fun u hu v hv' => (hv u hu).symm.trans _ _ _ (hv v hv')

/-- C117: the diamond without the edge 0 → 1, and the prior 1/3, 2/3 for node 1. Observing node 1 there reports for node 4 what `get_ace`
computes from the original network; observing node 1 in the original network reports something else. -/
example : Net.Sane c16_ops ∧ BOp.edges (cutOps 1 [1/3, 2/3] c16_ops) = [(0, 2), (2, 3), (1, 3), (3, 4)] ∧
    ConnectedOps (cutOps 1 [1/3, 2/3] c16_ops) ∧
    ((apply .same .same (Bbn.run (cutOps 1 [1/3, 2/3] c16_ops))).val?.map (fun jt =>
      [firstOf (runHist jt [(.same, .update [obs (c16_node 1) "on".toList])]) (c16_node 4)])) =
      some [some ((Bbn.run c16_ops).prDo 1 "on".toList (isAt 4 "on".toList))] ∧
    ((apply .same .same (Bbn.run c16_ops)).val?.bind (fun jt =>
      ((Ace.getAce .same ⟨Bbn.run c16_ops, runHist jt c18_hist⟩ "b".toList "e".toList "on".toList).2.val?.map (fun d => Dict.get? d "on".toList)))) =
      some (some ((Bbn.run c16_ops).prDo 1 "on".toList (isAt 4 "on".toList))) ∧
    ((apply .same .same (Bbn.run c16_ops)).val?.map (fun jt =>
      decide (firstOf (runHist jt [(.same, .update [obs (c16_node 1) "on".toList])]) (c16_node 4) =
        some ((Bbn.run c16_ops).prDo 1 "on".toList (isAt 4 "on".toList))))) = some false :=
  ⟨c16_usable.toSane, by decide +kernel, c117_connected, by decide +kernel, by decide +kernel, by decide +kernel⟩

/-- with evidence about other nodes -/
example : ((apply .same .same (Bbn.run (cutOps 1 [1/3, 2/3] c16_ops))).val?.map (fun jt =>
      firstOf (runHist jt [(.same, .update [obs (c16_node 4) "on".toList]), (.same, .update [obs (c16_node 1) "on".toList])]) (c16_node 0))) =
      some (some ((Bbn.run c16_ops).prDoGiven (fun i x => if i = 4 ∧ x = "off".toList then 0 else 1) 1 "on".toList (isAt 0 "on".toList))) ∧
    (Bbn.run c16_ops).prDoGiven (fun i x => if i = 4 ∧ x = "off".toList then 0 else 1) 1 "on".toList (isAt 0 "on".toList) ≠
      (Bbn.run c16_ops).prDo 1 "on".toList (isAt 0 "on".toList) :=
  ⟨by decide +kernel, by decide +kernel⟩

end PyBBN
