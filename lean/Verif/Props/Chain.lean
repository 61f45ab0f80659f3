import Verif.Props.Certain
import Verif.Props.Ace

/-! # C79: the chain rule

Observing nodes one after another and multiplying what is reported for each observed value just before it is observed gives the joint
probability of the values. -/

namespace PyBBN
open Relation InferenceController

/-- the nodes of `l` are observed to have their values in `σ`, one `update_evidences` call after another (with some iteration order of the
sets involved); `q` is the product of the probabilities reported for these values, each just before it is observed -/
inductive Chain (jt : JoinTree) (σ : Asg) : List (SetIter Str × EvOp) → List (SetIter Str × Variable) → ℚ → Prop
  | nil (h : List (SetIter Str × EvOp)) : Chain jt σ h [] 1
  | cons {h : List (SetIter Str × EvOp)} {k : SetIter Str} {v : Variable} {l : List (SetIter Str × Variable)} {p q : ℚ} :
      Reports (runHist jt h) v (σ v.id) p → Chain jt σ (h ++ [(k, .update [obs v (σ v.id)])]) l q → Chain jt σ h ((k, v) :: l) (p * q)

theorem Chain.unique {jt : JoinTree} {σ : Asg} {h : List (SetIter Str × EvOp)} {l : List (SetIter Str × Variable)} {q q' : ℚ}
    (hc : Chain jt σ h l q) (hc' : Chain jt σ h l q') : q = q' := by
  induction hc generalizing q' with
  | nil => cases hc'; rfl
  | cons hr hc ih =>
    cases hc' with
    | cons hr' hc' => rw [reports_unique hr hr', ih hc']

theorem joint_eq (b : Bbn) (ℓ : Liks) (ns : List Variable) (σ : Asg) :
    b.joint ℓ ns σ = ((allAsg b.vars).map (fun τ => if ∀ v ∈ ns, τ v.id = σ v.id then b.weight ℓ τ else 0)).sum := by
  unfold Bbn.joint
  rw [sum_map_filter]
  simp only [decide_eq_true_eq]

/-- exactly one assignment of the variables agrees with `σ` on all of them -/
theorem sum_agreeing {σ : Asg} (c : ℚ) : ∀ (ns : List Variable), (vids ns).Nodup → (∀ v ∈ ns, v.values.Nodup) → InDom ns σ →
    ((allAsg ns).map (fun τ => if ∀ v ∈ ns, τ v.id = σ v.id then c else 0)).sum = c
  | [], _, _, _ => by simp [allAsg]
  | n :: ns, hn, hv, hσ => by
      rw [vids_cons, List.nodup_cons] at hn
      have ih := sum_agreeing c ns hn.2 (fun v h => hv v (List.mem_cons_of_mem _ h)) (fun v h => hσ v (List.mem_cons_of_mem _ h))
      rw [allAsg, sum_map_flatMap]
      have e : n.values.map (fun x => (((allAsg ns).map (fun τ => Function.update τ n.id x)).map
          (fun τ => if ∀ v ∈ n :: ns, τ v.id = σ v.id then c else 0)).sum) = n.values.map (fun x => if x = σ n.id then c else 0) := by
        refine List.map_congr_left ?_
        intro x _
        rw [List.map_map]
        have e1 : ∀ τ : Asg, (∀ v ∈ n :: ns, (Function.update τ n.id x) v.id = σ v.id) ↔ x = σ n.id ∧ ∀ v ∈ ns, τ v.id = σ v.id := by
          intro τ
          rw [List.forall_mem_cons, Function.update_self]
          refine and_congr_right (fun _ => forall₂_congr (fun v hv => ?_))
          rw [Function.update_of_ne (fun e => hn.1 (by rw [← e]; exact List.mem_map_of_mem hv))]
        by_cases h : x = σ n.id
        · rw [if_pos h]
          refine Eq.trans ?_ ih
          refine congrArg List.sum (List.map_congr_left ?_)
          intro τ _
          simp only [Function.comp_apply]
          exact if_congr ((e1 τ).trans ⟨fun h' => h'.2, fun h' => ⟨h, h'⟩⟩) rfl rfl
        · rw [if_neg h]
          apply List.sum_eq_zero
          intro q hq
          obtain ⟨τ, _, rfl⟩ := List.mem_map.1 hq
          simp only [Function.comp_apply, e1, h, false_and, if_false]
      rw [e]
      have hc : n.values.count (σ n.id) = 1 := List.count_eq_one_of_mem (hv n List.mem_cons_self) (hσ n List.mem_cons_self)
      rw [sum_ite_count, hc, Nat.cast_one, one_mul]

theorem weight_agree {b : Bbn} (hi : BbnInv b) (ℓ : Liks) {σ τ : Asg} (h : ∀ v ∈ b.vars, τ v.id = σ v.id) : b.weight ℓ τ = b.weight ℓ σ := by
  unfold Bbn.weight
  refine congrArg List.prod (List.map_congr_left ?_)
  intro n hn
  have hv : n.var ∈ b.vars := List.mem_map_of_mem hn
  rw [h n.var hv, cptAt_dep n.probs (b.parentVars n.var.id) n.var τ σ]
  intro i hi'
  obtain ⟨v, hv', rfl⟩ := List.mem_map.1 hi'
  rcases List.mem_append.1 hv' with h1 | h1
  · exact h v (parentVars_sub hi _ v h1)
  · simp only [List.mem_cons, List.not_mem_nil, or_false] at h1
    subst h1
    exact h _ hv

theorem joint_all {b : Bbn} (hi : BbnInv b) (hd : ∀ v ∈ b.vars, v.values.Nodup) (ℓ : Liks) {ns : List Variable} (hs : ∀ v, v ∈ ns ↔ v ∈ b.vars)
    {σ : Asg} (hσ : InDom b.vars σ) : b.joint ℓ ns σ = b.weight ℓ σ := by
  rw [joint_eq, ← sum_agreeing (σ := σ) (b.weight ℓ σ) b.vars (vars_nodup hi) hd hσ]
  refine congrArg List.sum (List.map_congr_left ?_)
  intro τ _
  have e : (∀ v ∈ ns, τ v.id = σ v.id) ↔ ∀ v ∈ b.vars, τ v.id = σ v.id := forall_congr' (fun v => by rw [hs v])
  by_cases h : ∀ v ∈ b.vars, τ v.id = σ v.id
  · rw [if_pos (e.2 h), if_pos h, weight_agree hi ℓ h]
  · rw [if_neg (fun h' => h (e.1 h')), if_neg h]

section
variable {it : SetIter Int} {js : SetIter Str} {ops : List BOp} {jt : JoinTree}

theorem chain_aux (hu : Net.Usable ops) (hj : apply it js (Bbn.run ops) = .ok jt) (σ : Asg) : ∀ (l : List (SetIter Str × Variable))
    (h : List (SetIter Str × EvOp)), (∀ op ∈ h, op.2.Ok (Bbn.run ops).vars) → (∀ a ∈ l, a.2 ∈ (Bbn.run ops).vars ∧ σ a.2.id ∈ a.2.values) →
    (l.map (fun a => a.2.id)).Nodup → (∀ a ∈ l, ∀ x ∈ a.2.values, specHist (Bbn.run ops).vars h a.2.id x = 1) →
    ∃ q, Chain jt σ h l q ∧ q * (Bbn.run ops).total (specHist (Bbn.run ops).vars h) = (Bbn.run ops).joint (specHist (Bbn.run ops).vars h) (l.map Prod.snd) σ
  | [], h, _, _, _, _ => ⟨1, .nil h, by unfold Bbn.joint Bbn.total; simp⟩
  | (k, v) :: l, h, hp, hm, hn, h1 => by
      have hi := bbn_run_inv ops
      rw [List.map_cons, List.nodup_cons] at hn
      obtain ⟨hv, hx⟩ := hm (k, v) List.mem_cons_self
      have hv1 : ∀ x ∈ v.values, specHist (Bbn.run ops).vars h v.id x = 1 := h1 (k, v) List.mem_cons_self
      have e : specHist (Bbn.run ops).vars (h ++ [(k, .update [obs v (σ v.id)])]) =
          (specHist (Bbn.run ops).vars h).put v (obs v (σ v.id)).canon := by
        rw [specHist_append]; rfl
      obtain ⟨q, hq, hq'⟩ := chain_aux hu hj σ l (h ++ [(k, .update [obs v (σ v.id)])]) (ok_append hp (obs_ok hv hx))
        (fun a ha => hm a (List.mem_cons_of_mem _ ha)) hn.2 (by
          intro a ha x hxa
          rw [e, put_ne (fun e => hn.1 (by rw [← e]; exact List.mem_map_of_mem (f := fun a : SetIter Str × Variable => a.2.id) ha))]
          exact h1 a (List.mem_cons_of_mem _ ha) x hxa)
      refine ⟨_, .cons (reports hu hj h hp hv hx) hq, ?_⟩
      have hw : ∀ τ ∈ allAsg (Bbn.run ops).vars, (Bbn.run ops).weight ((specHist (Bbn.run ops).vars h).put v (obs v (σ v.id)).canon) τ =
          if τ v.id = σ v.id then (Bbn.run ops).weight (specHist (Bbn.run ops).vars h) τ else 0 := by
        intro τ hτ
        rw [weight_put hi hv hv1 _ (allAsg_mem_dom _ (vars_nodup hi) τ hτ), obs_canon hx]
        split <;> simp
      have ht : (Bbn.run ops).total (specHist (Bbn.run ops).vars (h ++ [(k, .update [obs v (σ v.id)])])) =
          (Bbn.run ops).mass (specHist (Bbn.run ops).vars h) v.id (σ v.id) := by
        rw [e, mass_eq]
        exact congrArg List.sum (List.map_congr_left hw)
      have hjt : (Bbn.run ops).joint (specHist (Bbn.run ops).vars (h ++ [(k, .update [obs v (σ v.id)])])) (l.map Prod.snd) σ =
          (Bbn.run ops).joint (specHist (Bbn.run ops).vars h) (((k, v) :: l).map Prod.snd) σ := by
        rw [e, joint_eq, joint_eq]
        refine congrArg List.sum (List.map_congr_left ?_)
        intro τ hτ
        rw [hw τ hτ, List.map_cons]
        have e3 : (∀ w ∈ v :: l.map Prod.snd, τ w.id = σ w.id) ↔ τ v.id = σ v.id ∧ ∀ w ∈ l.map Prod.snd, τ w.id = σ w.id := List.forall_mem_cons
        change _ = if ∀ w ∈ v :: l.map Prod.snd, τ w.id = σ w.id then _ else _
        by_cases h2 : τ v.id = σ v.id <;> by_cases h3 : ∀ w ∈ l.map Prod.snd, τ w.id = σ w.id
        · rw [if_pos h3, if_pos h2, if_pos (e3.2 ⟨h2, h3⟩)]
        · rw [if_neg h3, if_neg (fun h4 => h3 (e3.1 h4).2)]
        · rw [if_pos h3, if_neg h2, if_neg (fun h4 => h2 (e3.1 h4).1)]
        · rw [if_neg h3, if_neg (fun h4 => h3 (e3.1 h4).2)]
      rw [ht, hjt] at hq'
      rw [← hq']
      have hle : (Bbn.run ops).total (specHist (Bbn.run ops).vars h) = 0 → (Bbn.run ops).mass (specHist (Bbn.run ops).vars h) v.id (σ v.id) = 0 := by
        intro h0
        have hw0 := spec_weight_nonneg hu hj h hp
        have hz : ∀ τ ∈ allAsg (Bbn.run ops).vars, (Bbn.run ops).weight (specHist (Bbn.run ops).vars h) τ = 0 := by
          intro τ hτ
          refine List.all_zero_of_le_zero_le_of_sum_eq_zero ?_ h0 (List.mem_map_of_mem hτ)
          intro q hq
          obtain ⟨ρ, _, rfl⟩ := List.mem_map.1 hq
          exact hw0 ρ
        rw [mass_eq]
        apply List.sum_eq_zero
        intro q hq
        obtain ⟨τ, hτ, rfl⟩ := List.mem_map.1 hq
        simp only [hz τ hτ, ite_self]
      unfold Bbn.posterior
      by_cases h0 : (Bbn.run ops).total (specHist (Bbn.run ops).vars h) = 0
      · rw [h0, hle h0]; simp
      · field_simp

/-- **C79** after evidence, partial: after any history of unambiguous evidence, observe distinct nodes without evidence one after another;
the product of the probabilities reported for the values just before they are observed is the probability, given the evidence of the
history, that all of them have these values. Missing: ambiguous virtual evidence in the history (`c79_false`). -/
theorem c79_chain_partial (hu : Net.Usable ops) (hj : apply it js (Bbn.run ops) = .ok jt) (h : List (SetIter Str × EvOp))
    (hp : ∀ op ∈ h, op.2.Ok (Bbn.run ops).vars) (l : List (SetIter Str × Variable)) (σ : Asg)
    (hm : ∀ a ∈ l, a.2 ∈ (Bbn.run ops).vars ∧ σ a.2.id ∈ a.2.values) (hn : (l.map (fun a => a.2.id)).Nodup)
    (h1 : ∀ a ∈ l, NoEvidenceOn (runHist jt h) a.2) (ht : (Bbn.run ops).total (specHist (Bbn.run ops).vars h) ≠ 0) :
    Chain jt σ h l ((Bbn.run ops).joint (specHist (Bbn.run ops).vars h) (l.map Prod.snd) σ / (Bbn.run ops).total (specHist (Bbn.run ops).vars h)) := by
  obtain ⟨q, hq, hq'⟩ := chain_aux hu hj σ l h hp hm hn
    (fun a ha => noEvidenceOn_iff hu hj h (fun op ho => (hp op ho).proper) (hm a ha).1 (h1 a ha))
  rwa [← hq', mul_div_cancel_right₀ _ ht]

/-- **C79**. On a connected network without cycles whose CPT rows sum to one, with a fresh join tree: observe all nodes one after another, in
any order. The product of the probabilities reported for the values just before they are observed is the product of the CPT entries of
these values. -/
theorem c79_joint (hu : Net.Usable ops) (hac : AcyclicOps ops) (hrow : (Bbn.run ops).Normalized (Bbn.run ops).parentVars)
    (hj : apply it js (Bbn.run ops) = .ok jt) (l : List (SetIter Str × Variable)) (hl : (l.map Prod.snd).Perm (Bbn.run ops).vars) (σ : Asg)
    (hσ : InDom (Bbn.run ops).vars σ) :
    Chain jt σ [] l (((Bbn.run ops).toGraph.getNodes.map (fun n => cptAt n.probs ((Bbn.run ops).parentVars n.var.id) n.var σ)).prod) := by
  have hi := bbn_run_inv ops
  have hm : ∀ a ∈ l, a.2 ∈ (Bbn.run ops).vars := fun a ha => hl.mem_iff.1 (List.mem_map_of_mem ha)
  have hn : (l.map (fun a => a.2.id)).Nodup := by
    have := (hl.map Variable.id).nodup_iff.2 (vars_nodup hi)
    rwa [List.map_map] at this
  obtain ⟨q, hq, hq'⟩ := chain_aux hu hj σ l [] (by simp) (fun a ha => ⟨hm a ha, hσ _ (hm a ha)⟩) hn (fun _ _ _ _ => rfl)
  have e : specHist (Bbn.run ops).vars [] = noEvidence := rfl
  rw [e, c52_total_one hu.toSane hac hrow, mul_one, joint_all hi (doms hu.toSane).vals _ (fun v => hl.mem_iff) hσ] at hq'
  have e2 : (Bbn.run ops).weight noEvidence σ =
      ((Bbn.run ops).toGraph.getNodes.map (fun n => cptAt n.probs ((Bbn.run ops).parentVars n.var.id) n.var σ)).prod := by
    unfold Bbn.weight noEvidence
    simp only [mul_one]
  rwa [← e2, ← hq']

end

/-! ## The claim after ambiguous evidence fails -/

/-- all nodes `on` -/
def c79_on : Asg := fun _ => "on".toList

/-- **C79 is false of the code** after ambiguous virtual evidence: after `c18_bad`, observe nodes 0 and 1, about which there is no evidence, in
one order or the other; the products differ (so one of them is not the joint probability, whatever that is). -/
theorem c79_false : Net.Usable c16_ops ∧ (∀ op ∈ c18_bad, op.2.Proper (Bbn.run c16_ops).vars) ∧
    ∃ jt q q', apply .same .same (Bbn.run c16_ops) = .ok jt ∧ NoEvidenceOn (runHist jt c18_bad) (c16_node 0) ∧
      NoEvidenceOn (runHist jt c18_bad) (c16_node 1) ∧ Chain jt c79_on c18_bad [(.same, c16_node 0), (.same, c16_node 1)] q ∧
      Chain jt c79_on c18_bad [(.same, c16_node 1), (.same, c16_node 0)] q' ∧ q ≠ q' := by
  refine ⟨c16_usable, c18_false.2.1, ?_⟩
  have key : ((apply .same .same (Bbn.run c16_ops)).val?.map (fun jt =>
      ([decide (NoEvidenceOn (runHist jt c18_bad) (c16_node 0)), decide (NoEvidenceOn (runHist jt c18_bad) (c16_node 1))],
      [reportOf (runHist jt c18_bad) (c16_node 0) "on".toList,
       reportOf (runHist jt (c18_bad ++ [(.same, .update [obs (c16_node 0) "on".toList])])) (c16_node 1) "on".toList,
       reportOf (runHist jt c18_bad) (c16_node 1) "on".toList,
       reportOf (runHist jt (c18_bad ++ [(.same, .update [obs (c16_node 1) "on".toList])])) (c16_node 0) "on".toList]))) =
      some ([true, true], [some (110 / 447), some (197 / 405), some (391 / 1341), some (394 / 991)]) := by decide +kernel
  cases hj : apply .same .same (Bbn.run c16_ops) with
  | error e => rw [hj] at key; cases key
  | ok jt =>
    rw [hj] at key
    simp only [Py.val?, Option.map_some, Option.some.injEq, Prod.mk.injEq, List.cons.injEq, and_true, decide_eq_true_eq] at key
    obtain ⟨⟨h1, h2⟩, h3, h4, h5, h6⟩ := key
    exact ⟨jt, _, _, rfl, h1, h2, .cons (reports_of_eval h3) (.cons (reports_of_eval h4) (.nil _)),
      .cons (reports_of_eval h5) (.cons (reports_of_eval h6) (.nil _)), by decide +kernel⟩

/-! ## The claims are not vacuous -/

/-- C79: the network of C16, its nodes in the order 4, 2, 0, 3, 1, values for them; what is reported before each observation; and the product
of the CPT entries 1/4, 1/2, 4/5, 3/10, 1/3 -/
def c79_asg : Asg := fun i => if i = 2 then "off".toList else "on".toList

def c79_order : List (SetIter Str × Variable) := [4, 2, 0, 3, 1].map (fun i => (.same, c16_node i))

def c79_obs (i : Int) : SetIter Str × EvOp := (.same, .update [obs (c16_node i) (c79_asg i)])

example : Net.Usable c16_ops ∧ AcyclicOps c16_ops ∧ (Bbn.run c16_ops).Normalized (Bbn.run c16_ops).parentVars ∧
    (c79_order.map Prod.snd).Perm (Bbn.run c16_ops).vars ∧ InDom (Bbn.run c16_ops).vars c79_asg ∧
    ((apply .same .same (Bbn.run c16_ops)).val?.map (fun jt =>
      [reportOf (runHist jt []) (c16_node 4) (c79_asg 4), reportOf (runHist jt [c79_obs 4]) (c16_node 2) (c79_asg 2),
       reportOf (runHist jt [c79_obs 4, c79_obs 2]) (c16_node 0) (c79_asg 0),
       reportOf (runHist jt [c79_obs 4, c79_obs 2, c79_obs 0]) (c16_node 3) (c79_asg 3),
       reportOf (runHist jt [c79_obs 4, c79_obs 2, c79_obs 0, c79_obs 3]) (c16_node 1) (c79_asg 1)])) =
      some [some (447 / 640), some (295 / 447), some (88 / 295), some (4 / 55), some 1] ∧
    (((Bbn.run c16_ops).toGraph.getNodes.map (fun n => cptAt n.probs ((Bbn.run c16_ops).parentVars n.var.id) n.var c79_asg)).prod) =
      447 / 640 * (295 / 447) * (88 / 295) * (4 / 55) * 1 :=
  ⟨c16_usable, c16_acyclic, c16_normalized, by decide +kernel, by unfold InDom; decide +kernel, by decide +kernel, by decide +kernel⟩

/-- C79 after evidence: after the history of C18, which leaves nodes 0 and 3 without evidence and is possible, nodes 3 and 0 -/
example : (∀ op ∈ c18_hist, op.2.Ok (Bbn.run c16_ops).vars) ∧
    ((apply .same .same (Bbn.run c16_ops)).val?.map (fun jt => [decide (NoEvidenceOn (runHist jt c18_hist) (c16_node 0)),
      decide (NoEvidenceOn (runHist jt c18_hist) (c16_node 3))])) = some [true, true] ∧
    (Bbn.run c16_ops).total (specHist (Bbn.run c16_ops).vars c18_hist) ≠ 0 ∧
    (Bbn.run c16_ops).joint (specHist (Bbn.run c16_ops).vars c18_hist) [c16_node 3, c16_node 0] c79_on /
      (Bbn.run c16_ops).total (specHist (Bbn.run c16_ops).vars c18_hist) = 68 / 775 * (8 / 17) :=
  ⟨c18_hist_ok, by decide +kernel, by decide +kernel, by decide +kernel⟩

end PyBBN
