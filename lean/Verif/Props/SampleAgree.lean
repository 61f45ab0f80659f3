import Verif.Props.SampleExact
import Verif.Props.Coherence

/-! # C84: rejection sampling estimates what inference reports

The numbers drawn by `get_samples` in one pass of its loop are a point of the unit cube; every joint value `σ` of the nodes has a box in that
cube. The volumes of the boxes of the joint values that are kept for some evidence are compared with the probabilities reported by the
join tree after observing the same evidence. -/

namespace PyBBN
open Relation InferenceController

/-- the volume of the box of the numbers that draw `σ`: the product of the widths of the intervals of its values -/
def Bbn.boxVolume (b : Bbn) (pv : Int → List Variable) (σ : Asg) : ℚ :=
  (b.toGraph.getNodes.map (fun n =>
    ((cptRow n.probs (pv n.var.id) n.var σ).take (n.var.values.idxOf (σ n.var.id) + 1)).sum -
      ((cptRow n.probs (pv n.var.id) n.var σ).take (n.var.values.idxOf (σ n.var.id))).sum)).prod

/-- observations for `update_evidences` -/
def obsList (evs : List (Variable × Str)) : List Evidence := evs.map (fun e => obs e.1 e.2)

/-- the same observations for `get_samples` -/
def obsDict (evs : List (Variable × Str)) : Dict Int Str := evs.map (fun e => (e.1.id, e.2))

/-- observations of distinct nodes of the network -/
structure Observations (b : Bbn) (evs : List (Variable × Str)) : Prop where
  nodup : (evs.map (fun e => e.1.id)).Nodup
  node : ∀ e ∈ evs, e.1 ∈ b.vars
  value : ∀ e ∈ evs, e.2 ∈ e.1.values

section
variable {it : SetIter Int} {js : SetIter Str} {ops : List BOp} {jt : JoinTree} {b : Bbn}

theorem Observations.keys {evs : List (Variable × Str)} (h : Observations b evs) : (Dict.keys (obsDict evs)).Nodup := by
  unfold Dict.keys obsDict
  rw [List.map_map]
  exact h.nodup

theorem Observations.ids {evs : List (Variable × Str)} (h : Observations b evs) : ∀ i ∈ Dict.keys (obsDict evs), i ∈ b.ids := by
  intro i hi
  unfold Dict.keys obsDict at hi
  rw [List.map_map] at hi
  obtain ⟨e, he, rfl⟩ := List.mem_map.1 hi
  obtain ⟨n, hn, hv⟩ := List.mem_map.1 (h.node e he)
  exact mem_ids.2 ⟨n, hn, by rw [hv]; rfl⟩

/-- the weight after observing -/
theorem weight_obsList (hi : BbnInv b) {τ : Asg} (hτ : InDom b.vars τ) : ∀ (evs : List (Variable × Str)) (ℓ : Liks), Observations b evs →
    (∀ e ∈ evs, ∀ x ∈ e.1.values, ℓ e.1.id x = 1) →
    b.weight ((obsList evs).foldl (fun (ℓ : Liks) e => ℓ.put e.node e.canon) ℓ) τ = if Matches (obsDict evs) τ then b.weight ℓ τ else 0
  | [], ℓ, _, _ => by simp [obsList, obsDict, Matches]
  | e :: evs, ℓ, ho, h1 => by
      have hn := ho.nodup
      rw [List.map_cons, List.nodup_cons] at hn
      have hex := ho.value e List.mem_cons_self
      have ih := weight_obsList hi hτ evs (ℓ.put e.1 (obs e.1 e.2).canon)
        ⟨hn.2, fun a ha => ho.node a (List.mem_cons_of_mem _ ha), fun a ha => ho.value a (List.mem_cons_of_mem _ ha)⟩ (by
          intro a ha x hx
          rw [put_ne (fun he => hn.1 (by rw [← he]; exact List.mem_map_of_mem (f := fun e : Variable × Str => e.1.id) ha))]
          exact h1 a (List.mem_cons_of_mem _ ha) x hx)
      change b.weight ((obsList evs).foldl (fun (ℓ : Liks) e => ℓ.put e.node e.canon) (ℓ.put e.1 (obs e.1 e.2).canon)) τ = _
      rw [ih, weight_put hi (ho.node e List.mem_cons_self) (h1 e List.mem_cons_self) _ hτ, obs_canon hex]
      have hiff : Matches (obsDict (e :: evs)) τ ↔ τ e.1.id = e.2 ∧ Matches (obsDict evs) τ := by
        unfold Matches
        rw [show obsDict (e :: evs) = (e.1.id, e.2) :: obsDict evs from rfl, List.forall_mem_cons]
      by_cases ha : τ e.1.id = e.2 <;> by_cases hb : Matches (obsDict evs) τ <;> simp [ha, hb, hiff]

theorem sorted_eq_parentVars (hi : BbnInv b) {n : BbnNode} (hasc : (ddGet b.parents n.var.id).Pairwise (· < ·)) :
    b.sortedParentVars n.var.id = b.parentVars n.var.id := by
  unfold Bbn.sortedParentVars
  apply sortBy_of_sorted
  have h1 := vids_parentVars hi n.var.id
  unfold vids at h1
  rw [← h1, List.pairwise_map] at hasc
  exact hasc.imp (fun h => by simpa using le_of_lt h)

/-- the volume of the box of `σ` is the joint probability of `σ` -/
theorem boxVolume_eq (hi : BbnInv b) (hasc : ∀ n ∈ b.toGraph.getNodes, (ddGet b.parents n.var.id).Pairwise (· < ·)) {σ : Asg}
    (hσ : InDom b.vars σ) : b.boxVolume b.sortedParentVars σ = b.weight noEvidence σ := by
  unfold Bbn.boxVolume Bbn.weight
  refine congrArg List.prod (List.map_congr_left ?_)
  intro n hn
  rw [cptRow_width (hσ n.var (List.mem_map_of_mem hn)), sorted_eq_parentVars hi (hasc n hn)]
  simp [noEvidence]

theorem draws_agree (hi : BbnInv b) {order : List Int} {u : List ℚ} {σ τ : Asg} (hσ : InDom b.vars σ) (heq : ∀ id ∈ b.ids, σ id = τ id)
    (hd : b.Draws b.sortedParentVars order u τ) : b.Draws b.sortedParentVars order u σ := by
  refine ⟨hσ, ?_⟩
  intro n hn p hp
  have e1 : cptRow n.probs (b.sortedParentVars n.var.id) n.var σ = cptRow n.probs (b.sortedParentVars n.var.id) n.var τ := by
    apply cptRow_congr
    intro w hw
    exact heq _ (parent_mem_ids hi (sortedParentVars_mem hi hw).2)
  rw [e1, heq n.var.id (mem_ids.2 ⟨n, hn, rfl⟩)]
  exact hd.2 n hn p hp

/-- one pass returns `σ` exactly if the numbers lie in the box of `σ` and `σ` matches the evidence -/
theorem pass_iff (ps : PySort SortableNode) (ops : List BOp) (hs : (Bbn.run ops).Samplable) (s : LogicSampler)
    (hmake : LogicSampler.make ps (Bbn.run ops) = .ok s) (ht : (Bbn.run ops).Topological s.nodes)
    {evs : List (Variable × Str)} (ho : Observations (Bbn.run ops) evs) (hlast : ∀ i, s.nodes.getLast? = some i → ∀ e ∈ evs, e.1.id ≠ i)
    {u : List ℚ} (hu : Uniform s.nodes.length u) {σ : Asg} (hσ : InDom (Bbn.run ops).vars σ) :
    (∃ r, s.getSamples (obsDict evs) 1 [u] = some (.ok [r]) ∧ (Bbn.run ops).Sample r σ) ↔
      (Bbn.run ops).Draws (Bbn.run ops).sortedParentVars s.nodes u σ ∧ Matches (obsDict evs) σ := by
  have hi := bbn_run_inv ops
  obtain ⟨⟨τ, hτ⟩, huniq⟩ := c36_draws ops hs s.nodes ht u hu
  have hl : ∀ i, s.nodes.getLast? = some i → i ∉ Dict.keys (obsDict evs) := by
    intro i hi hk
    unfold Dict.keys obsDict at hk
    rw [List.map_map] at hk
    obtain ⟨e, he, e1⟩ := List.mem_map.1 hk
    exact hlast i hi e he e1
  have hmt : ∀ ρ : Asg, (∀ id ∈ (Bbn.run ops).ids, ρ id = τ id) → (Matches (obsDict evs) ρ ↔ Matches (obsDict evs) τ) := by
    intro ρ heq
    refine forall₂_congr (fun kv hkv => ?_)
    rw [heq kv.1 (ho.ids kv.1 (List.mem_map_of_mem hkv))]
  obtain ⟨h1, h2⟩ := c36_rejection_partial ps ops hs s hmake ht (obsDict evs) ho.keys ho.ids hl 1 one_pos [u] (by simpa using hu) [τ]
    (.cons hτ .nil)
  constructor
  · rintro ⟨r, hr, hsam⟩
    by_cases hM : Matches (obsDict evs) τ
    · obtain ⟨samples, e1, e2⟩ := h2 (by simp [hM])
      rw [hr] at e1
      cases e1
      simp only [hM, decide_true, List.filter_cons_of_pos, List.filter_nil, List.take_succ_cons, List.take_zero] at e2
      cases e2 with
      | cons hrt _ =>
        have heq : ∀ id ∈ (Bbn.run ops).ids, σ id = τ id := fun id hid => Option.some.inj ((hsam.2 id hid).symm.trans (hrt.2 id hid))
        exact ⟨draws_agree hi hσ heq hτ, (hmt σ heq).2 hM⟩
    · rw [h1 (by simp [hM])] at hr
      cases hr
  · rintro ⟨hd, hM⟩
    have heq : ∀ id ∈ (Bbn.run ops).ids, σ id = τ id := huniq σ τ hd hτ
    have hM' := (hmt σ heq).1 hM
    obtain ⟨samples, e1, e2⟩ := h2 (by simp [hM'])
    simp only [hM', decide_true, List.filter_cons_of_pos, List.filter_nil, List.take_succ_cons, List.take_zero] at e2
    cases e2 with
    | cons hrt hnil =>
      cases hnil
      exact ⟨_, e1, hrt.1, fun id hid => by rw [hrt.2 id hid, heq id hid]⟩

/-- **C84, frequencies**. Connected network, parents connected in ascending order of their ids, topological order, observations of nodes other than
the one visited last. A pass of `get_samples` returns the joint value `σ` exactly if `σ` matches the evidence and the numbers lie in the box of
`σ`; the share of the boxes with `v = x` in the total volume of the boxes that are kept is the probability that the join tree reports for
`v = x` after the same observations. Missing: evidence on the last node, other orders of the parents (`c84_false`, `c50_false`). -/
theorem c84_frequency_partial (ps : PySort SortableNode) (hu : Net.Usable ops) (hs : (Bbn.run ops).Samplable) (s : LogicSampler)
    (hmake : LogicSampler.make ps (Bbn.run ops) = .ok s) (ht : (Bbn.run ops).Topological s.nodes)
    (hasc : ∀ n ∈ (Bbn.run ops).toGraph.getNodes, (ddGet (Bbn.run ops).parents n.var.id).Pairwise (· < ·))
    (hj : apply it js (Bbn.run ops) = .ok jt) {evs : List (Variable × Str)} (ho : Observations (Bbn.run ops) evs)
    (hlast : ∀ i, s.nodes.getLast? = some i → ∀ e ∈ evs, e.1.id ≠ i) (k : SetIter Str) :
    (∀ u, Uniform s.nodes.length u → ∀ σ, InDom (Bbn.run ops).vars σ →
      ((∃ r, s.getSamples (obsDict evs) 1 [u] = some (.ok [r]) ∧ (Bbn.run ops).Sample r σ) ↔
        (Bbn.run ops).Draws (Bbn.run ops).sortedParentVars s.nodes u σ ∧ Matches (obsDict evs) σ)) ∧
    ∀ v ∈ (Bbn.run ops).vars, ∀ x ∈ v.values, Reports (runHist jt [(k, .update (obsList evs))]) v x
      ((((allAsg (Bbn.run ops).vars).filter (fun σ => decide (Matches (obsDict evs) σ ∧ σ v.id = x))).map
          ((Bbn.run ops).boxVolume (Bbn.run ops).sortedParentVars)).sum /
        (((allAsg (Bbn.run ops).vars).filter (fun σ => decide (Matches (obsDict evs) σ))).map
          ((Bbn.run ops).boxVolume (Bbn.run ops).sortedParentVars)).sum) := by
  have hi := bbn_run_inv ops
  refine ⟨fun u hun σ hσ => pass_iff ps ops hs s hmake ht ho hlast hun hσ, ?_⟩
  intro v hv x hx
  have hok : ∀ op ∈ [(k, EvOp.update (obsList evs))], op.2.Ok (Bbn.run ops).vars := by
    intro op hop
    simp only [List.mem_cons, List.not_mem_nil, or_false] at hop
    subst hop
    intro e he
    obtain ⟨a, ha, rfl⟩ := List.mem_map.1 he
    exact obs_ok (ho.node a ha) (ho.value a ha) _ (by simp)
  have hr := reports hu hj _ hok hv hx
  have hw : ∀ τ ∈ allAsg (Bbn.run ops).vars, (Bbn.run ops).weight (specHist (Bbn.run ops).vars [(k, EvOp.update (obsList evs))]) τ =
      if Matches (obsDict evs) τ then (Bbn.run ops).boxVolume (Bbn.run ops).sortedParentVars τ else 0 := by
    intro τ hτ
    have hdom := allAsg_mem_dom _ (vars_nodup hi) τ hτ
    rw [boxVolume_eq hi hasc hdom]
    exact weight_obsList hi hdom evs noEvidence ho (fun _ _ _ _ => rfl)
  unfold Bbn.posterior at hr
  rw [mass_eq] at hr
  unfold Bbn.total at hr
  have e1 : ((allAsg (Bbn.run ops).vars).map (fun σ => if σ v.id = x then
      (Bbn.run ops).weight (specHist (Bbn.run ops).vars [(k, EvOp.update (obsList evs))]) σ else 0)).sum =
      (((allAsg (Bbn.run ops).vars).filter (fun σ => decide (Matches (obsDict evs) σ ∧ σ v.id = x))).map
          ((Bbn.run ops).boxVolume (Bbn.run ops).sortedParentVars)).sum := by
    rw [sum_map_filter]
    refine congrArg List.sum (List.map_congr_left ?_)
    intro τ hτ
    rw [hw τ hτ]
    by_cases ha : τ v.id = x <;> by_cases hb : Matches (obsDict evs) τ <;> simp [ha, hb]
  have e2 : ((allAsg (Bbn.run ops).vars).map
      ((Bbn.run ops).weight (specHist (Bbn.run ops).vars [(k, EvOp.update (obsList evs))]))).sum =
      (((allAsg (Bbn.run ops).vars).filter (fun σ => decide (Matches (obsDict evs) σ))).map
          ((Bbn.run ops).boxVolume (Bbn.run ops).sortedParentVars)).sum := by
    rw [sum_map_filter]
    refine congrArg List.sum (List.map_congr_left ?_)
    intro τ hτ
    rw [hw τ hτ]
    simp
  rw [e1, e2] at hr
  exact hr

theorem list_prod_pos : ∀ {l : List ℚ}, (∀ q ∈ l, 0 < q) → 0 < l.prod
  | [], _ => by simp
  | q :: l, h => by
      rw [List.prod_cons]
      exact mul_pos (h q List.mem_cons_self) (list_prod_pos (fun p hp => h p (List.mem_cons_of_mem _ hp)))

/-- every joint value of the variables is listed -/
theorem allAsg_agree {τ : Asg} : ∀ (ns : List Variable), (vids ns).Nodup → InDom ns τ → ∃ σ ∈ allAsg ns, ∀ v ∈ ns, σ v.id = τ v.id
  | [], _, _ => ⟨fun _ => [], by simp [allAsg], by simp⟩
  | n :: ns, hn, hd => by
      rw [vids_cons, List.nodup_cons] at hn
      obtain ⟨σ, h1, h2⟩ := allAsg_agree ns hn.2 (fun v hv => hd v (List.mem_cons_of_mem _ hv))
      refine ⟨Function.update σ n.id (τ n.id), ?_, ?_⟩
      · rw [allAsg, List.mem_flatMap]
        exact ⟨τ n.id, hd n List.mem_cons_self, List.mem_map.2 ⟨σ, h1, rfl⟩⟩
      · intro v hv
        rcases List.mem_cons.1 hv with rfl | hv
        · rw [Function.update_self]
        · rw [Function.update_of_ne (fun e => hn.1 (by rw [← e]; exact List.mem_map_of_mem hv))]
          exact h2 v hv

/-- a joint value that is drawn has positive probability -/
theorem draws_pos (hi : BbnInv b) (hasc : ∀ n ∈ b.toGraph.getNodes, (ddGet b.parents n.var.id).Pairwise (· < ·)) {order : List Int}
    (ht : b.Topological order) {u : List ℚ} (hu : u.length = order.length) {σ : Asg} (hd : b.Draws b.sortedParentVars order u σ) :
    0 < b.weight noEvidence σ := by
  rw [← boxVolume_eq hi hasc hd.1]
  unfold Bbn.boxVolume
  apply list_prod_pos
  intro q hq
  obtain ⟨n, hn, rfl⟩ := List.mem_map.1 hq
  have hid : n.var.id ∈ (u.zip order).map Prod.snd := by
    rw [zip_snd hu]
    exact ht.1.mem_iff.2 (mem_ids.2 ⟨n, hn, rfl⟩)
  obtain ⟨⟨p, i⟩, hp, rfl⟩ := List.mem_map.1 hid
  obtain ⟨h1, h2⟩ := hd.2 n hn p hp
  linarith

/-- a joint value with positive probability is drawn by some numbers -/
theorem draws_of_pos (hi : BbnInv b) (hs : b.Samplable) (hasc : ∀ n ∈ b.toGraph.getNodes, (ddGet b.parents n.var.id).Pairwise (· < ·))
    {order : List Int} (ht : b.Topological order) {σ : Asg} (hσ : InDom b.vars σ) (hpos : 0 < b.weight noEvidence σ) :
    ∃ u, Uniform order.length u ∧ b.Draws b.sortedParentVars order u σ := by
  have hne : ∀ n ∈ b.toGraph.getNodes, ((cptRow n.probs (b.sortedParentVars n.var.id) n.var σ).take (n.var.values.idxOf (σ n.var.id))).sum <
      ((cptRow n.probs (b.sortedParentVars n.var.id) n.var σ).take (n.var.values.idxOf (σ n.var.id) + 1)).sum := by
    intro n hn
    have hmem : σ n.var.id ∈ n.var.values := hσ n.var (List.mem_map_of_mem hn)
    have hw := cptRow_width (probs := n.probs) (parents := b.sortedParentVars n.var.id) hmem
    have h0 : cptAt n.probs (b.sortedParentVars n.var.id) n.var σ ≠ 0 := by
      intro hz
      rw [← boxVolume_eq hi hasc hσ] at hpos
      unfold Bbn.boxVolume at hpos
      have : (0 : ℚ) ∈ b.toGraph.getNodes.map (fun n =>
          ((cptRow n.probs (b.sortedParentVars n.var.id) n.var σ).take (n.var.values.idxOf (σ n.var.id) + 1)).sum -
            ((cptRow n.probs (b.sortedParentVars n.var.id) n.var σ).take (n.var.values.idxOf (σ n.var.id))).sum) :=
        List.mem_map.2 ⟨n, hn, hw.trans hz⟩
      rw [List.prod_eq_zero this] at hpos
      exact lt_irrefl _ hpos
    have hnn : 0 ≤ cptAt n.probs (b.sortedParentVars n.var.id) n.var σ := by
      unfold cptAt
      rw [List.getD_eq_getElem?_getD]
      cases hg : n.probs[cptIndex (b.sortedParentVars n.var.id) n.var σ]? with
      | none => simp
      | some a => exact hs.wf.nonneg n hn a (List.mem_of_getElem? hg)
    have := lt_of_le_of_ne hnn (Ne.symm h0)
    linarith
  let lo : Int → ℚ := fun i => match b.toGraph.getNodes.find? (fun n => decide (n.var.id = i)) with
    | none => 0
    | some n => ((cptRow n.probs (b.sortedParentVars n.var.id) n.var σ).take (n.var.values.idxOf (σ n.var.id))).sum
  have hlo : ∀ n ∈ b.toGraph.getNodes, lo n.var.id =
      ((cptRow n.probs (b.sortedParentVars n.var.id) n.var σ).take (n.var.values.idxOf (σ n.var.id))).sum := by
    intro n hn
    have : b.toGraph.getNodes.find? (fun m => decide (m.var.id = n.var.id)) = some n := by
      cases hf : b.toGraph.getNodes.find? (fun m => decide (m.var.id = n.var.id)) with
      | none =>
        rw [List.find?_eq_none] at hf
        exact absurd (decide_eq_true rfl) (hf n hn)
      | some m =>
        rw [node_of_id hi (List.mem_of_find?_eq_some hf) hn (by simpa using List.find?_some hf)]
    simp only [lo, this]
  refine ⟨order.map lo, ⟨by simp, ?_⟩, hσ, ?_⟩
  · intro p hp
    obtain ⟨i, hio, rfl⟩ := List.mem_map.1 hp
    obtain ⟨n, hn, rfl⟩ := mem_ids.1 (ht.1.mem_iff.1 hio)
    rw [hlo n hn]
    have hrow := cptRow_nonneg (hs.wf.nonneg n hn) (b.sortedParentVars n.var.id) n.var σ
    refine ⟨List.sum_nonneg (fun q hq => hrow q (List.mem_of_mem_take hq)), lt_of_lt_of_le (hne n hn) ?_⟩
    rw [← hs.normalized n hn σ hσ]
    conv_rhs => rw [← List.take_append_drop (n.var.values.idxOf (σ n.var.id) + 1) (cptRow n.probs (b.sortedParentVars n.var.id) n.var σ),
      List.sum_append]
    have : 0 ≤ ((cptRow n.probs (b.sortedParentVars n.var.id) n.var σ).drop (n.var.values.idxOf (σ n.var.id) + 1)).sum :=
      List.sum_nonneg (fun q hq => hrow q (List.mem_of_mem_drop hq))
    linarith
  · intro n hn p hp
    have : p = lo n.var.id := by
      rw [← List.map_id order, List.zip_map, List.map_id, List.mem_map] at hp
      obtain ⟨⟨i, j⟩, hij, e⟩ := hp
      have hij' : i = j := by
        obtain ⟨m, hm, hm'⟩ := List.mem_iff_getElem.1 hij
        rw [List.getElem_zip] at hm'
        cases hm'
        rfl
      simp only [Prod.map_apply, id, Prod.mk.injEq] at e
      rw [← e.1, ← e.2, hij']
    rw [this, hlo n hn]
    exact ⟨le_refl _, hne n hn⟩

/-- **C84, impossible evidence**. Under the conditions of `c84_frequency_partial`, `get_samples` can return (for some numbers drawn) exactly if the
evidence has positive probability; for impossible evidence its loop never ends, whatever is drawn. -/
theorem c84_returns_partial (ps : PySort SortableNode) (hs : (Bbn.run ops).Samplable) (s : LogicSampler)
    (hmake : LogicSampler.make ps (Bbn.run ops) = .ok s) (ht : (Bbn.run ops).Topological s.nodes)
    (hasc : ∀ n ∈ (Bbn.run ops).toGraph.getNodes, (ddGet (Bbn.run ops).parents n.var.id).Pairwise (· < ·))
    {evs : List (Variable × Str)} (ho : Observations (Bbn.run ops) evs)
    (hlast : ∀ i, s.nodes.getLast? = some i → ∀ e ∈ evs, e.1.id ≠ i) (nSamples : Nat) (hN : 0 < nSamples) :
    (∃ draws, (∀ u ∈ draws, Uniform s.nodes.length u) ∧ s.getSamples (obsDict evs) nSamples draws ≠ none) ↔
      0 < (((allAsg (Bbn.run ops).vars).filter (fun σ => decide (Matches (obsDict evs) σ))).map ((Bbn.run ops).weight noEvidence)).sum := by
  have hi := bbn_run_inv ops
  have hl : ∀ i, s.nodes.getLast? = some i → i ∉ Dict.keys (obsDict evs) := by
    intro i hi hk
    unfold Dict.keys obsDict at hk
    rw [List.map_map] at hk
    obtain ⟨e, he, e1⟩ := List.mem_map.1 hk
    exact hlast i hi e he e1
  have hnn : ∀ σ, 0 ≤ (Bbn.run ops).weight noEvidence σ := fun σ => weight_nonneg hs.wf (fun _ _ => zero_le_one) σ
  constructor
  · rintro ⟨draws, hun, hret⟩
    have hex : ∃ σs, List.Forall₂ ((Bbn.run ops).Draws (Bbn.run ops).sortedParentVars s.nodes) draws σs := by
      clear hret
      induction draws with
      | nil => exact ⟨[], .nil⟩
      | cons u draws ih =>
        obtain ⟨σs, h1⟩ := ih (fun u' hu' => hun u' (List.mem_cons_of_mem _ hu'))
        obtain ⟨σ, h2⟩ := (c36_draws ops hs s.nodes ht u (hun u List.mem_cons_self)).1
        exact ⟨σ :: σs, .cons h2 h1⟩
    obtain ⟨σs, hσ⟩ := hex
    have h1 := (c36_rejection_partial ps ops hs s hmake ht (obsDict evs) ho.keys ho.ids hl nSamples hN draws hun σs hσ).1
    have hpos : 0 < (σs.filter (fun σ => decide (Matches (obsDict evs) σ))).length := by
      by_contra hc
      exact hret (h1 (by omega))
    obtain ⟨τ, hτ⟩ := List.exists_mem_of_length_pos hpos
    obtain ⟨hτ1, hτ2⟩ := List.mem_filter.1 hτ
    have hτ3 : ∃ u, Uniform s.nodes.length u ∧ (Bbn.run ops).Draws (Bbn.run ops).sortedParentVars s.nodes u τ := by
      clear h1 hpos hτ hret
      induction hσ with
      | nil => cases hτ1
      | cons hd _ ih =>
        rcases List.mem_cons.1 hτ1 with rfl | h
        · exact ⟨_, hun _ List.mem_cons_self, hd⟩
        · exact ih (fun u' hu' => hun u' (List.mem_cons_of_mem _ hu')) h
    obtain ⟨u, hu1, hu2⟩ := hτ3
    have hwp := draws_pos hi hasc ht hu1.1 hu2
    obtain ⟨σ, hσ1, hσ2⟩ := allAsg_agree _ (vars_nodup hi) hu2.1
    have hσM : Matches (obsDict evs) σ := by
      intro kv hkv
      obtain ⟨e, he, rfl⟩ := List.mem_map.1 hkv
      rw [← of_decide_eq_true hτ2 _ hkv]
      exact hσ2 e.1 (ho.node e he)
    have hle : (Bbn.run ops).weight noEvidence σ ≤
        (((allAsg (Bbn.run ops).vars).filter (fun σ => decide (Matches (obsDict evs) σ))).map ((Bbn.run ops).weight noEvidence)).sum := by
      refine List.single_le_sum ?_ _ (List.mem_map_of_mem (List.mem_filter.2 ⟨hσ1, decide_eq_true hσM⟩))
      intro q hq
      obtain ⟨ρ, _, rfl⟩ := List.mem_map.1 hq
      exact hnn ρ
    rw [weight_dep hi noEvidence hσ2] at hle
    linarith
  · intro hpos
    obtain ⟨σ, hσ1, hσ2⟩ : ∃ σ ∈ (allAsg (Bbn.run ops).vars).filter (fun σ => decide (Matches (obsDict evs) σ)), (Bbn.run ops).weight noEvidence σ ≠ 0 := by
      by_contra hc
      push Not at hc
      rw [List.sum_eq_zero (by
        intro q hq
        obtain ⟨σ, h1, rfl⟩ := List.mem_map.1 hq
        exact hc σ h1)] at hpos
      exact lt_irrefl _ hpos
    obtain ⟨h1, h2⟩ := List.mem_filter.1 hσ1
    obtain ⟨u, hu1, hu2⟩ := draws_of_pos hi hs hasc ht (allAsg_mem_dom _ (vars_nodup hi) σ h1) (lt_of_le_of_ne (hnn σ) (Ne.symm hσ2))
    refine ⟨List.replicate nSamples u, fun u' hu' => by rw [(List.mem_replicate.1 hu').2]; exact hu1, ?_⟩
    obtain ⟨_, h3⟩ := c36_rejection_partial ps ops hs s hmake ht (obsDict evs) ho.keys ho.ids hl nSamples hN (List.replicate nSamples u)
      (fun u' hu' => by rw [(List.mem_replicate.1 hu').2]; exact hu1) (List.replicate nSamples σ) (by
        clear hN
        induction nSamples with
        | zero => exact .nil
        | succ n ih => exact .cons hu2 ih)
    obtain ⟨samples, e1, _⟩ := h3 (by
      rw [List.filter_eq_self.2 (by
        intro τ hτ
        rw [(List.mem_replicate.1 hτ).2]
        exact h2)]
      simp)
    rw [e1]
    exact Option.some_ne_none _

end

/-! ## The claims are not vacuous -/

/-- a cause with two effects -/
def c84_ops : List BOp := [.addEdge (mkNode 0 "a" [1/2, 1/2]) (mkNode 1 "b" [3/4, 1/4, 1/4, 3/4]),
  .addEdge (mkNode 0 "a" [1/2, 1/2]) (mkNode 2 "c" [1, 0, 1/2, 1/2])]

/-- C84: node 1 is observed to be on; the order is 0, 1, 2. The boxes that are kept have volume 1/2, those with 0 = on have volume 3/8, and
the join tree reports 3/4; one of two passes is kept -/
example : Net.Usable c84_ops ∧ (Bbn.run c84_ops).Samplable ∧
    (∃ s, LogicSampler.make (cpython _) (Bbn.run c84_ops) = .ok s ∧ (Bbn.run c84_ops).Topological s.nodes ∧
      ∀ i, s.nodes.getLast? = some i → ∀ e ∈ [(c16_node 1, "on".toList)], e.1.id ≠ i) ∧
    (∀ n ∈ (Bbn.run c84_ops).toGraph.getNodes, (ddGet (Bbn.run c84_ops).parents n.var.id).Pairwise (· < ·)) ∧
    Observations (Bbn.run c84_ops) [(c16_node 1, "on".toList)] ∧
    ((apply .same .same (Bbn.run c84_ops)).val?.map (fun jt =>
      reportOf (runHist jt [(.same, .update (obsList [(c16_node 1, "on".toList)]))]) (c16_node 0) "on".toList)) = some (some (3/4)) ∧
    (((allAsg (Bbn.run c84_ops).vars).filter (fun σ => decide (Matches (obsDict [(c16_node 1, "on".toList)]) σ))).map
      ((Bbn.run c84_ops).boxVolume (Bbn.run c84_ops).sortedParentVars)).sum = 1/2 ∧
    (((allAsg (Bbn.run c84_ops).vars).filter (fun σ => decide (Matches (obsDict [(c16_node 1, "on".toList)]) σ ∧ σ 0 = "on".toList))).map
      ((Bbn.run c84_ops).boxVolume (Bbn.run c84_ops).sortedParentVars)).sum = 3/8 ∧
    sampleRun c84_ops (obsDict [(c16_node 1, "on".toList)]) 1 [[1/4, 4/5, 0], [1/4, 1/2, 0]] =
      some [[(1, "on".toList), (0, "on".toList), (2, "on".toList)]] := by
  have hsort : LogicSampler.topologicalSort (cpython _) (Bbn.run c84_ops) = [0, 1, 2] := by decide +kernel
  have htop := c34_ascending_edges (cpython _) c84_ops (by decide +kernel)
  have hmk : (LogicSampler.make (cpython _) (Bbn.run c84_ops)).val?.isSome = true := by decide +kernel
  refine ⟨⟨⟨wf_of_check (by decide +kernel) (by decide +kernel), by decide +kernel⟩, connected_of_check 0 (by decide +kernel)⟩,
    samplable_of_checks _ (by decide +kernel) (by decide +kernel), ?_, by decide +kernel,
    ⟨by decide +kernel, by decide +kernel, by decide +kernel⟩, by decide +kernel, by decide +kernel, by decide +kernel, by decide +kernel⟩
  cases hm : LogicSampler.make (cpython _) (Bbn.run c84_ops) with
  | error e => rw [hm] at hmk; cases hmk
  | ok s =>
    have hn := (make_tables _ (bbn_run_inv c84_ops) hm).1
    refine ⟨s, rfl, by rw [hn]; exact htop, ?_⟩
    rw [hn, hsort]
    decide +kernel

/-- C84: impossible evidence; `get_samples` does not return for these numbers (nor for any others) -/
example : (((allAsg (Bbn.run [.addEdge (mkNode 0 "a" [1, 0]) (mkNode 1 "b" [1/2, 1/2, 1/2, 1/2])]).vars).filter
      (fun σ => decide (Matches (obsDict [(c16_node 0, "off".toList)]) σ))).map
      ((Bbn.run [.addEdge (mkNode 0 "a" [1, 0]) (mkNode 1 "b" [1/2, 1/2, 1/2, 1/2])]).weight noEvidence)).sum = 0 ∧
    (LogicSampler.make (cpython _) (Bbn.run [.addEdge (mkNode 0 "a" [1, 0]) (mkNode 1 "b" [1/2, 1/2, 1/2, 1/2])])).val?.isSome = true ∧
    sampleRun [.addEdge (mkNode 0 "a" [1, 0]) (mkNode 1 "b" [1/2, 1/2, 1/2, 1/2])] (obsDict [(c16_node 0, "off".toList)]) 1
      [[1/2, 1/2], [99/100, 0]] = none := by decide +kernel

theorem c36_usable : Net.Usable c36_ops :=
  ⟨⟨wf_of_check (by decide +kernel) (by decide +kernel), by decide +kernel⟩, connected_of_check 0 (by decide +kernel)⟩

/-- **C84 is false of the code** for evidence on the node visited last: 1 copies 0 and is observed to be on. The join tree reports that 0 is
off with probability 0, but `get_samples` returns a sample with 0 = off. -/
theorem c84_false : Net.Usable c36_ops ∧ (Bbn.run c36_ops).Samplable ∧ Observations (Bbn.run c36_ops) [(c16_node 1, "on".toList)] ∧
    (∀ n ∈ (Bbn.run c36_ops).toGraph.getNodes, (ddGet (Bbn.run c36_ops).parents n.var.id).Pairwise (· < ·)) ∧
    ∃ s jt r u, LogicSampler.make (cpython _) (Bbn.run c36_ops) = .ok s ∧ (Bbn.run c36_ops).Topological s.nodes ∧
      Uniform s.nodes.length u ∧ apply .same .same (Bbn.run c36_ops) = .ok jt ∧
      Reports (runHist jt [(.same, .update (obsList [(c16_node 1, "on".toList)]))]) (c16_node 0) "off".toList 0 ∧
      s.getSamples (obsDict [(c16_node 1, "on".toList)]) 1 [u] = some (.ok [r]) ∧ Dict.get? r 0 = some "off".toList := by
  refine ⟨c36_usable, c36_samplable, ⟨by decide +kernel, by decide +kernel, by decide +kernel⟩, by decide +kernel, ?_⟩
  obtain ⟨s, h1, h2, h3, _, _, h6, _⟩ := c36_false
  have key : ((apply .same .same (Bbn.run c36_ops)).val?.map (fun jt =>
      reportOf (runHist jt [(.same, .update (obsList [(c16_node 1, "on".toList)]))]) (c16_node 0) "off".toList)) = some (some 0) := by
    decide +kernel
  cases hj : apply .same .same (Bbn.run c36_ops) with
  | error e => rw [hj] at key; cases key
  | ok jt =>
    rw [hj] at key
    exact ⟨s, jt, _, _, h1, h2, h3, rfl, reports_of_eval (Option.some.inj key), h6, rfl⟩

end PyBBN
