import Verif.Proofs.LearnFrame

/-! If all frequencies are near the probabilities, then the learned network is near the network. -/

namespace PyBBN
open Relation InferenceController

variable {b : Bbn}

/-- the frequency of an event is near its probability, and impossible events do not happen -/
def NearFreq (b : Bbn) (τs : List Asg) (η : ℚ) (E : Asg → Bool) : Prop :=
  |(cnt τs E : ℚ) / τs.length - b.weightOf E| < η ∧ (b.weightOf E = 0 → cnt τs E = 0)

/-- the events whose frequencies are used: the values of the parents of a node, and those with the value of the node -/
def familyEvents (b : Bbn) : List (Asg → Bool) :=
  b.toGraph.getNodes.flatMap (fun n => (allAsg b.vars).flatMap (fun σ => [agree (b.parentVars n.var.id) σ, agree (n.var :: b.parentVars n.var.id) σ]))

theorem mem_familyEvents {n : BbnNode} (hn : n ∈ b.toGraph.getNodes) {σ : Asg} (hσ : σ ∈ allAsg b.vars) :
    agree (b.parentVars n.var.id) σ ∈ familyEvents b ∧ agree (n.var :: b.parentVars n.var.id) σ ∈ familyEvents b :=
  ⟨List.mem_flatMap.2 ⟨n, hn, List.mem_flatMap.2 ⟨σ, hσ, by simp⟩⟩, List.mem_flatMap.2 ⟨n, hn, List.mem_flatMap.2 ⟨σ, hσ, by simp⟩⟩⟩

theorem cnt_mono {τs : List Asg} {E F : Asg → Bool} (h : ∀ τ, E τ = true → F τ = true) : cnt τs E ≤ cnt τs F := by
  unfold cnt
  rw [← List.countP_eq_length_filter, ← List.countP_eq_length_filter]
  exact List.countP_mono_left (fun τ _ => h τ)

theorem w_le_one (hb : b.Proper) {n : BbnNode} (hn : n ∈ b.toGraph.getNodes) {σ : Asg} (hσ : InDom b.vars σ) : b.w n σ ≤ 1 := by
  have h1 := hb.normalized n hn σ hσ
  have hx := hσ n.var (List.mem_map_of_mem hn)
  have hlt := List.idxOf_lt_length_of_mem hx
  rw [← h1]
  refine List.single_le_sum ?_ _ ?_
  · intro q hq
    obtain ⟨j, _, rfl⟩ := List.mem_map.1 hq
    rw [List.getD_eq_getElem?_getD]
    cases hg : n.probs[rowIdx (b.parentVars n.var.id) σ * n.var.values.length + j]? with
    | none => exact le_refl _
    | some q => exact hb.wf.nonneg n hn q (List.mem_of_getElem? hg)
  · exact List.mem_map.2 ⟨_, List.mem_range.2 hlt, rfl⟩

section
variable (hb : b.Proper) (hname : (b.vars.map Variable.name).Nodup) {order : List Int} (hp : order.Perm b.ids) {τs : List Asg} (hne : τs ≠ [])
  {st : Dict Str (List Str)} (hst : Describes st b)

/-- the joint weight of the learned network; 0 if a value does not occur -/
def learnedWeight (b : Bbn) (st : Dict Str (List Str)) (df : Frame) (vals : Str → List Str) (σ : Asg) : ℚ :=
  if ∀ u ∈ b.vars, σ u.id ∈ vals u.name then (b.vars.map (fun u => Factory.learned st df (fun n => σ (b.idNamed n)) u.name)).prod else 0

theorem learnedWeight_nonneg (st : Dict Str (List Str)) (df : Frame) (vals : Str → List Str) (σ : Asg) : 0 ≤ learnedWeight b st df vals σ := by
  unfold learnedWeight
  split
  · exact prod_nonneg' (fun u _ => learned_nonneg _ _ _ _)
  · exact le_refl _

include hb hname hp hne hst

theorem learnedWeight_near {vals : Str → List Str} (hvals : ∀ v ∈ b.vars, ∀ x, x ∈ vals v.name ↔ ∃ τ ∈ τs, τ v.id = x) {η m : ℚ} (hm : 0 < m) (hη : η ≤ m / 2)
    (hη0 : 0 < η)
    (hmin : ∀ E ∈ familyEvents b, b.weightOf E = 0 ∨ m ≤ b.weightOf E) (hgood : ∀ E ∈ familyEvents b, NearFreq b τs η E) {σ : Asg} (hσ : σ ∈ allAsg b.vars) :
    |learnedWeight b st (sampleFrame b (τs.map (canon order))) vals σ - b.weight noEvidence σ| ≤ b.toGraph.getNodes.length * (4 * η / m) := by
  have hi := hb.inv
  have hdom : InDom b.vars σ := allAsg_mem_dom b.vars (vars_nodup hi) σ hσ
  have hN : (0 : ℚ) < τs.length := by exact_mod_cast List.length_pos_iff.2 hne
  have hδ : 0 ≤ (b.toGraph.getNodes.length : ℚ) * (4 * η / m) := by positivity
  have hone : b.weightOf (fun _ => true) = 1 := by rw [weightOf_true]; exact total_one hb
  rcases eq_or_lt_of_le (weight_noEvidence_nonneg hb.wf σ) with h0 | hpos
  · -- impossible: some learned factor is zero
    rw [← h0, sub_zero]
    obtain ⟨n, hn, hg, ha⟩ := impossible_at hb hdom h0.symm hone
    have hz : learnedWeight b st (sampleFrame b (τs.map (canon order))) vals σ = 0 := by
      unfold learnedWeight
      split
      · apply List.prod_eq_zero
        refine List.mem_map.2 ⟨n.var, List.mem_map_of_mem hn, ?_⟩
        have hG := (hgood _ (mem_familyEvents hn hσ).1).1
        have hF := (hgood _ (mem_familyEvents hn hσ).2).2 ha
        have hgm := (hmin _ (mem_familyEvents hn hσ).1).resolve_left hg.ne'
        have hc : cnt τs (agree (b.parentVars n.var.id) σ) ≠ 0 := by
          intro hc
          rw [hc, Nat.cast_zero, zero_div, zero_sub, abs_neg, abs_of_pos hg] at hG
          linarith
        rw [frame_learned hi hname hp hne hst (List.mem_map_of_mem hn) σ hc, hF]
        simp
      · rfl
    rw [hz, abs_zero]
    exact hδ
  · have hfam : ∀ n ∈ b.toGraph.getNodes, m ≤ b.weightOf (agree (b.parentVars n.var.id) σ) ∧ m ≤ b.weightOf (agree (n.var :: b.parentVars n.var.id) σ) := by
      intro n hn
      exact ⟨(hmin _ (mem_familyEvents hn hσ).1).resolve_left (weightOf_pos hb.wf hσ (agree_iff.2 (fun _ _ => rfl)) hpos).ne',
        (hmin _ (mem_familyEvents hn hσ).2).resolve_left (weightOf_pos hb.wf hσ (agree_iff.2 (fun _ _ => rfl)) hpos).ne'⟩
    have hcntpos : ∀ n ∈ b.toGraph.getNodes, 0 < cnt τs (agree (n.var :: b.parentVars n.var.id) σ) := by
      intro n hn
      rw [Nat.pos_iff_ne_zero]
      intro hc
      have hF := (hgood _ (mem_familyEvents hn hσ).2).1
      have h2 := (hfam n hn).2
      rw [hc, Nat.cast_zero, zero_div, zero_sub, abs_neg, abs_of_pos (lt_of_lt_of_le hm h2)] at hF
      linarith
    have hocc : ∀ u ∈ b.vars, σ u.id ∈ vals u.name := by
      intro u hu
      rw [hvals u hu]
      obtain ⟨n, hn, rfl⟩ := List.mem_map.1 hu
      obtain ⟨τ, hτ⟩ := List.exists_mem_of_length_pos (hcntpos n hn)
      rw [List.mem_filter] at hτ
      exact ⟨τ, hτ.1, agree_iff.1 hτ.2 n.var List.mem_cons_self⟩
    unfold learnedWeight
    rw [if_pos hocc, weight_noEvidence]
    have e : b.vars.map (fun u => Factory.learned st (sampleFrame b (τs.map (canon order))) (fun n => σ (b.idNamed n)) u.name) =
        b.toGraph.getNodes.map (fun n => Factory.learned st (sampleFrame b (τs.map (canon order))) (fun n => σ (b.idNamed n)) n.var.name) := by
      unfold Bbn.vars; rw [List.map_map]; rfl
    rw [e]
    refine (prod_near b.toGraph.getNodes ?_).2.2.2.2
    intro n hn
    have hle : cnt τs (agree (n.var :: b.parentVars n.var.id) σ) ≤ cnt τs (agree (b.parentVars n.var.id) σ) :=
      cnt_mono (fun τ h => agree_iff.2 (fun v hv => agree_iff.1 h v (List.mem_cons_of_mem _ hv)))
    have hcg : cnt τs (agree (b.parentVars n.var.id) σ) ≠ 0 := by have := hcntpos n hn; omega
    have hlearn := frame_learned hi hname hp hne hst (List.mem_map_of_mem hn : n.var ∈ b.vars) σ hcg
    have hG := (hgood _ (mem_familyEvents hn hσ).1).1
    have hF := (hgood _ (mem_familyEvents hn hσ).2).1
    have hfw := family_weight hb hn hdom
    have hwm : b.weightOf (agree (n.var :: b.parentVars n.var.id) σ) ≤ b.weightOf (agree (b.parentVars n.var.id) σ) :=
      weightOf_mono hb.wf (fun τ h => agree_iff.2 (fun v hv => agree_iff.1 h v (List.mem_cons_of_mem _ hv)))
    have hnear := (ratio_near (weightOf_nonneg hb.wf _) hwm (hfam n hn).1 hm hη hF hG).2
    have hg0 : b.weightOf (agree (b.parentVars n.var.id) σ) ≠ 0 := (lt_of_lt_of_le hm (hfam n hn).1).ne'
    rw [hfw, mul_div_assoc, div_self hg0, mul_one] at hnear
    have hcg' : (cnt τs (agree (b.parentVars n.var.id) σ) : ℚ) ≠ 0 := by exact_mod_cast hcg
    rw [div_div_div_cancel_right₀ hN.ne'] at hnear
    refine ⟨learned_nonneg _ _ _ _, ?_, b.w_nonneg hb.wf hn σ, w_le_one hb hn hdom, ?_⟩
    · rw [hlearn, div_le_one (by positivity)]
      exact_mod_cast hle
    · rw [hlearn]; exact hnear

/-- all reports of the learned network are near those of the network -/
theorem learned_close (hac : Acyclic (fun x n => ∃ v ∈ b.vars, v.name = n ∧ x ∈ v.values))
    (hsort : ∀ v ∈ b.vars, (Factory.pa st v.name).Pairwise (fun a c => strLe a c = true)) (hvne : b.vars ≠ [])
    (hconn : ∀ u ∈ b.vars, ∀ v ∈ b.vars, EqvGen (fun p c => p ∈ ddGet b.parents c) u.id v.id)
    (hτ : ∀ τ ∈ τs, InDom b.vars τ) {d : Dict Str (Dict Str ℚ)}
    (hd : ∀ v ∈ b.vars, Dict.get? d v.name = some (v.values.map (fun x => (x, b.mass noEvidence v.id x))))
    {η m ε : ℚ} (hm : 0 < m) (hη : η ≤ m / 2) (hη0 : 0 < η) (hmin : ∀ E ∈ familyEvents b, b.weightOf E = 0 ∨ m ≤ b.weightOf E)
    (hgood : ∀ E ∈ familyEvents b, NearFreq b τs η E) (hε : 2 * ((allAsg b.vars).length * (b.toGraph.getNodes.length * (4 * η / m))) < ε)
    (it : SetIter Int) (js : SetIter Str) :
    ∃ b' jt' d', Factory.fromData st (sampleFrame b (τs.map (canon order))) = .ok b' ∧ apply it js b' = .ok jt' ∧ jt'.getPosteriors = .ok d' ∧
      b.CloseReports ε d d' := by
  have hi := hb.inv
  set df := sampleFrame b (τs.map (canon order)) with hdf
  have hcp := order_label_perm hi hp
  have hcols : df.columns = order.map b.label := frame_columns hne
  have hmemc : ∀ c, c ∈ df.columns ↔ c ∈ b.vars.map Variable.name := fun c => by rw [hcols, hcp.mem_iff]
  have hval := frame_valid hi hname hp hne hst
  have hocc : ∀ v ∈ b.vars, ∀ x, x ∈ Factory.vals df v.name ↔ ∃ τ ∈ τs, τ v.id = x := by
    intro v hv x
    rw [Factory.mem_vals, frame_occurs hi hname hp hne hv]
  have hvsub : ∀ v ∈ b.vars, ∀ x ∈ Factory.vals df v.name, x ∈ v.values := by
    intro v hv x hx
    obtain ⟨τ, h1, rfl⟩ := (hocc v hv x).1 hx
    exact hτ τ h1 v hv
  have hpar : ∀ v ∈ b.vars, ∀ u ∈ b.vars, u.name ∈ Factory.pa st v.name ↔ u.id ∈ ddGet b.parents v.id := by
    intro v hv u hu
    rw [hst.parents v hv, ← vids_parentVars hi]
    constructor
    · intro h
      obtain ⟨z, hz, e⟩ := List.mem_map.1 h
      rw [← List.inj_on_of_nodup_map hname (parentVars_sub hi _ z hz) hu e]
      exact List.mem_map_of_mem hz
    · intro h
      obtain ⟨z, hz, e⟩ := List.mem_map.1 h
      rw [← List.inj_on_of_nodup_map (vars_nodup hi) (parentVars_sub hi _ z hz) hu e]
      exact List.mem_map_of_mem hz
  obtain ⟨b', jt', d', h1, h2, h3, h4, h5⟩ := c45_exact_partial st df hval (by
      intro a ha
      refine hac a (TransGen.mono ?_ _ _ ha)
      intro x n hxn
      obtain ⟨hn, hx⟩ := hxn
      obtain ⟨v, hv, rfl⟩ := List.mem_map.1 ((hmemc n).1 hn)
      obtain ⟨τ, h1, rfl⟩ := (frame_occurs hi hname hp hne hv x).1 hx
      exact ⟨v, hv, rfl, hτ τ h1 v hv⟩)
    (by
      intro c hc
      obtain ⟨v, hv, rfl⟩ := List.mem_map.1 ((hmemc c).1 hc)
      exact hsort v hv)
    (by
      intro c hc hcc
      obtain ⟨v, hv, rfl⟩ := List.mem_map.1 ((hmemc c).1 hc)
      exact hb.wf.noLoop v.id ((hpar v hv v hv).1 hcc))
    (by
      obtain ⟨v, hv⟩ := List.exists_mem_of_ne_nil _ hvne
      exact List.ne_nil_of_mem ((hmemc v.name).2 (List.mem_map_of_mem hv)))
    (by
      intro p hpp c hcc
      obtain ⟨u, hu, rfl⟩ := List.mem_map.1 ((hmemc p).1 hpp)
      obtain ⟨v, hv, rfl⟩ := List.mem_map.1 ((hmemc c).1 hcc)
      have hmap : ∀ i j, EqvGen (fun p c => p ∈ ddGet b.parents c) i j → EqvGen (fun p c => c ∈ df.columns ∧ p ∈ Factory.pa st c) (b.label i) (b.label j) := by
        intro i j h
        induction h with
        | rel i j hij =>
          refine EqvGen.rel _ _ ?_
          have hem := hi.ginv.emNodes i j ((hi.par i j).1 hij)
          have hids : ∀ k, k ∈ Dict.keys b.toGraph.nodes → ∃ u ∈ b.vars, u.id = k := by
            intro k hk
            exact ⟨(b.nodeOf k).var, List.mem_map_of_mem ((getNodes_eq hi _).2 (by rw [nodeOf_id hi hk]; exact nodeOf_get hk)), nodeOf_id hi hk⟩
          obtain ⟨u, hu, rfl⟩ := hids i hem.1
          obtain ⟨v, hv, rfl⟩ := hids j hem.2
          rw [label_eq hi hu, label_eq hi hv]
          exact ⟨(hmemc _).2 (List.mem_map_of_mem hv), (hpar v hv u hu).2 hij⟩
        | refl i => exact EqvGen.refl _
        | symm _ _ _ ih => exact EqvGen.symm _ _ ih
        | trans _ _ _ _ _ ih1 ih2 => exact EqvGen.trans _ _ _ ih1 ih2
      have := hmap _ _ (hconn u hu v hv)
      rw [label_eq hi hu, label_eq hi hv] at this
      exact this)
    (Factory.vals df) (fun c => Factory.lists_vals df c) it js
  refine ⟨b', jt', d', h1, h2, h3, ?_, ?_, ?_⟩
  · intro k; rw [h4, hmemc]
  · intro v hv e he x hx
    rw [h5 v.name ((hmemc _).2 (List.mem_map_of_mem hv)), Option.some.injEq] at he
    rw [← he, Dict.keys, List.map_map] at hx
    simp only [Function.comp_def, List.map_id'] at hx
    exact hvsub v hv x hx
  · intro v hv x hx
    have hvn := (hmemc _).2 (List.mem_map_of_mem (f := Variable.name) hv)
    have hnm := netMarginal_eq hi hb.wf hname (names := df.columns) (by rw [hcols]; exact hcp) (vals := Factory.vals df)
      (fun v hv => ⟨Factory.vals_nodup df v.name, hvsub v hv⟩) (prob := Factory.learned st df) (by
        intro n hn τ τ' h
        unfold Factory.learned
        rw [h n hn, List.map_congr_left (fun p hpp => by rw [h p (hval.parents n hn p hpp)])]) hv x
    change _ = ((allAsg b.vars).map (fun σ => if σ v.id = x then learnedWeight b st df (Factory.vals df) σ else 0)).sum /
      ((allAsg b.vars).map (learnedWeight b st df (Factory.vals df))).sum at hnm
    have hget : ∀ (l : List Str) (f : Str → ℚ), (Dict.get? (l.map (fun y => (y, f y))) x) = if x ∈ l then some (f x) else none := by
      intro l f
      induction l with
      | nil => simp [Dict.get?]
      | cons y l ih =>
        rw [List.map_cons, Dict.get?]
        by_cases e : y = x
        · simp [e]
        · have : ¬ (x = y) := fun h => e h.symm
          simp [e, ih, List.mem_cons, this]
    have hp1 : probIn d' v.name x = netMarginal df.columns (Factory.vals df) (Factory.learned st df) v.name x := by
      unfold probIn
      rw [h5 v.name hvn, Option.bind_some, hget]
      by_cases hxo : x ∈ Factory.vals df v.name
      · rw [if_pos hxo]; rfl
      · rw [if_neg hxo, hnm, List.sum_eq_zero, zero_div]
        · rfl
        · intro q hq
          obtain ⟨σ, _, rfl⟩ := List.mem_map.1 hq
          split
          · rename_i e
            unfold learnedWeight
            rw [if_neg]
            intro hall
            exact hxo (e ▸ hall v hv)
          · rfl
    have hp2 : probIn d v.name x = b.mass noEvidence v.id x := by
      unfold probIn
      rw [hd v hv, Option.bind_some, hget, if_pos hx]; rfl
    rw [hp1, hp2, hnm]
    refine lt_of_le_of_lt (share_near (κ := (allAsg b.vars).length * (b.toGraph.getNodes.length * (4 * η / m))) ?_ ?_ ?_ ?_) hε
    · apply List.sum_nonneg
      intro q hq
      obtain ⟨σ, _, rfl⟩ := List.mem_map.1 hq
      split
      · exact learnedWeight_nonneg _ _ _ _
      · exact le_refl _
    · apply List.sum_le_sum
      intro σ _
      split
      · exact le_refl _
      · exact learnedWeight_nonneg _ _ _ _
    · unfold Bbn.mass
      rw [sum_map_filter]
      apply sum_near
      intro σ hσ
      have := learnedWeight_near hb hname hp hne hst hocc hm hη hη0 hmin hgood hσ
      by_cases e : σ v.id = x
      · rw [if_pos e]; simp only [e, decide_true, if_true]; exact this
      · rw [if_neg e]; simp only [e, decide_false, Bool.false_eq_true, if_false, sub_self, abs_zero]; exact (abs_nonneg _).trans this
    · have ht := total_one hb
      unfold Bbn.total at ht
      rw [← ht]
      apply sum_near
      intro σ hσ
      exact learnedWeight_near hb hname hp hne hst hocc hm hη hη0 hmin hgood hσ

end
end PyBBN
