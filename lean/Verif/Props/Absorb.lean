import Verif.Spec.Absorb
import Verif.Props.SameJoint
import Verif.Props.Ratios
import Verif.Props.Surgery

/-! # C132: CPT entries that the evidence rules out do not matter; observed nodes can be cut from their children -/

namespace PyBBN
open Relation InferenceController

section
variable {b b' : Bbn} {S : Asg → Prop}

theorem AgreeWhere.weight (hi : BbnInv b) (hi' : BbnInv b') (hs : AgreeWhere S b b') (ℓ : Liks) {σ : Asg} (hσ : InDom b.vars σ) (hS : S σ) :
    b'.weight ℓ σ = b.weight ℓ σ := by
  have hget : ∀ n ∈ b.toGraph.getNodes, ∃ n' ∈ b'.toGraph.getNodes, n'.var = n.var := by
    intro n hn
    obtain ⟨n', h1, h2⟩ := List.mem_map.1 (hs.vars.mem_iff.2 (List.mem_map_of_mem (f := BbnNode.var) hn))
    exact ⟨n', h1, h2⟩
  -- rewrite the weight of `b` as a product over its variables
  let F : Variable → ℚ := fun v => match b.toGraph.getNodes.find? (fun n => decide (n.var.id = v.id)) with
    | some n => cptAt n.probs (b.parentVars v.id) v σ * ℓ v.id (σ v.id)
    | none => 0
  have find_of : ∀ {c : Bbn}, BbnInv c → ∀ n ∈ c.toGraph.getNodes, c.toGraph.getNodes.find? (fun m => decide (m.var.id = n.var.id)) = some n := by
    intro c hc n hn
    cases hf : c.toGraph.getNodes.find? (fun m => decide (m.var.id = n.var.id)) with
    | none =>
      have := List.find?_eq_none.1 hf n hn
      simp at this
    | some m =>
      have h1 := List.mem_of_find?_eq_some hf
      have h2 := List.find?_some hf
      rw [List.inj_on_of_nodup_map (node_ids_nodup hc) h1 hn (of_decide_eq_true h2)]
  have e1 : b.weight ℓ σ = (b.vars.map F).prod := by
    unfold Bbn.weight Bbn.vars
    rw [List.map_map]
    refine congrArg List.prod (List.map_congr_left ?_)
    intro n hn
    simp only [Function.comp, F, find_of hi n hn]
  have e2 : b'.weight ℓ σ = (b'.vars.map F).prod := by
    unfold Bbn.weight
    rw [show b'.vars = b'.toGraph.getNodes.map BbnNode.var from rfl, List.map_map]
    refine congrArg List.prod (List.map_congr_left ?_)
    intro n' hn'
    obtain ⟨n, hn, e⟩ := List.mem_map.1 (hs.vars.mem_iff.1 (List.mem_map_of_mem (f := BbnNode.var) hn'))
    have h3 := hs.entries n hn n' hn' (by rw [e]) σ hσ hS
    simp only [Function.comp, F]
    rw [← e, find_of hi n hn, h3]
  rw [e1, e2, (hs.vars.map F).prod_eq]

/-- posteriors do not depend on what happens where the likelihoods are zero -/
theorem AgreeWhere.posterior (hi : BbnInv b) (hi' : BbnInv b') (hs : AgreeWhere S b b') {ℓ ℓ' : Liks}
    (hl : ∀ v ∈ b.vars, ∀ x ∈ v.values, ℓ' v.id x = ℓ v.id x)
    (hS : ∀ σ, InDom b.vars σ → (∀ v ∈ b.vars, ℓ v.id (σ v.id) ≠ 0) → S σ) (i : Int) (x : Str) : b'.posterior ℓ' i x = b.posterior ℓ i x := by
  have hn : (vids b'.vars).Nodup := (hs.vars.map Variable.id).nodup_iff.2 (vars_nodup hi)
  have zero : ∀ (c : Bbn) (κ : Liks) (σ : Asg) (v : Variable), v ∈ c.vars → κ v.id (σ v.id) = 0 → c.weight κ σ = 0 := by
    intro c κ σ v hv h0
    rw [weight_noEvidence_mul, List.prod_eq_zero (List.mem_map.2 ⟨v, hv, h0⟩), mul_zero]
  have hW : ∀ σ ∈ allAsg b.vars, b'.weight ℓ' σ = b.weight ℓ σ := by
    intro σ hσ
    have hd : InDom b.vars σ := allAsg_mem_dom b.vars (vars_nodup hi) σ hσ
    by_cases h : ∀ v ∈ b.vars, ℓ v.id (σ v.id) ≠ 0
    · rw [hs.weight hi hi' ℓ' hd (hS σ hd h)]
      exact weight_congr hl hd
    · push Not at h
      obtain ⟨v, hv, h0⟩ := h
      rw [zero b ℓ σ v hv h0, zero b' ℓ' σ v (hs.vars.mem_iff.2 hv) (by rw [hl v hv _ (hd v hv)]; exact h0)]
  have hm : b'.mass ℓ' i x = b.mass ℓ i x := by
    rw [mass_eq, mass_eq, sum_allAsg_perm hn hs.vars]
    refine congrArg List.sum (List.map_congr_left ?_)
    intro σ hσ
    rw [hW σ hσ]
  have ht : b'.total ℓ' = b.total ℓ := by
    unfold Bbn.total
    rw [sum_allAsg_perm hn hs.vars]
    exact congrArg List.sum (List.map_congr_left hW)
  unfold Bbn.posterior
  rw [hm, ht]

theorem readAsg_map {σ : Asg} : ∀ (ns : List Variable), ∀ v ∈ ns, readAsg ns ((vids ns).map σ) v.id = σ v.id
  | w :: ns, v, hv => by
      rw [vids_cons, List.map_cons, readAsg]
      by_cases e : v.id = w.id
      · rw [e, Function.update_self]
      · rw [Function.update_of_ne e]
        rcases List.mem_cons.1 hv with rfl | hv
        · exact absurd rfl e
        · exact readAsg_map ns v hv

/-- the rows kept have the entries of the CPT -/
theorem cptAt_rowsWith {x v : Variable} {a : Str} {ps : List Variable} {probs : List ℚ} {σ : Asg} (hσ : InDom (ps ++ [v]) σ) (hx : σ x.id = a) :
    cptAt (rowsWith x a ps v probs) (ps.filter (fun p => decide (p.id ≠ x.id))) v σ = cptAt probs ps v σ := by
  have hσ' : ∀ w ∈ ps.filter (fun p => decide (p.id ≠ x.id)) ++ [v], σ w.id ∈ w.values := by
    intro w hw
    refine hσ w ?_
    rcases List.mem_append.1 hw with h | h
    · exact List.mem_append_left _ (List.mem_filter.1 h).1
    · exact List.mem_append_right _ h
  conv_lhs => unfold cptAt rowsWith
  rw [cptIndex_eq, List.getD_eq_getElem?_getD, List.getElem?_map, product_rowIdx σ _ hσ']
  simp only [Option.map_some, Option.getD_some]
  have key : ∀ w ∈ ps ++ [v], Function.update (readAsg (ps.filter (fun p => decide (p.id ≠ x.id)) ++ [v])
      ((vids (ps.filter (fun p => decide (p.id ≠ x.id)) ++ [v])).map σ)) x.id a w.id = σ w.id := by
    intro w hw
    by_cases e : w.id = x.id
    · rw [e, Function.update_self, hx]
    · rw [Function.update_of_ne e]
      refine readAsg_map _ w ?_
      rcases List.mem_append.1 hw with h | h
      · exact List.mem_append_left _ (List.mem_filter.2 ⟨h, by simpa using e⟩)
      · exact List.mem_append_right _ h
  unfold cptAt
  rw [cptIndex_eq, cptIndex_eq, rowIdx_congr key]

theorem Absorbed.entries (hi : BbnInv b) {x : Variable} {a : Str} (hx : x ∈ b.vars) (h : Absorbed x a b b') :
    AgreeWhere (fun σ => σ x.id = a) b b' := by
  refine ⟨h.vars, ?_⟩
  intro n hn n' hn' e σ hσ hS
  have hv : n.var ∈ b.vars := List.mem_map_of_mem hn
  have hd : InDom (b.parentVars n.var.id ++ [n.var]) σ := by
    intro w hw
    rcases List.mem_append.1 hw with hw | hw
    · exact hσ w (parentVars_sub hi _ w hw)
    · rw [List.mem_singleton.1 hw]; exact hσ _ hv
  rw [h.tables n hn n' hn' e, h.parents _ hv]
  split
  · exact cptAt_rowsWith hd hS
  · rename_i hne
    rw [List.filter_eq_self.2]
    intro p hp
    refine decide_eq_true ?_
    intro e
    exact hne (List.inj_on_of_nodup_map (vars_nodup hi) (parentVars_sub hi _ p hp) hx e ▸ hp)

end

section
variable {it it' : SetIter Int} {js js' : SetIter Str} {ops ops' : List BOp} {jt jt' : JoinTree} {S : Asg → Prop}

/-- **C132**. Two connected networks over the same nodes; after a history of unambiguous evidence, every assignment to which the stored
likelihoods give no zero has the same CPT entries in both. Then they report the same, whatever the other entries are. -/
theorem c132_entries (hu : Net.Usable ops) (hu' : Net.Usable ops') (hs : AgreeWhere S (Bbn.run ops) (Bbn.run ops'))
    (hj : apply it js (Bbn.run ops) = .ok jt) (hj' : apply it' js' (Bbn.run ops') = .ok jt')
    (h h' : List (SetIter Str × EvOp)) (hp : ∀ op ∈ h, op.2.Ok (Bbn.run ops).vars) (he : h'.map Prod.snd = h.map Prod.snd)
    (hS : ∀ σ, InDom (Bbn.run ops).vars σ → (∀ v ∈ (Bbn.run ops).vars, ¬ Stored (runHist jt h) v (σ v.id) 0) → S σ)
    {v : Variable} (hv : v ∈ (Bbn.run ops).vars) {x : Str} (hx : x ∈ v.values) :
    ∃ p, Reports (runHist jt h) v x p ∧ Reports (runHist jt' h') v x p := by
  have hi := bbn_run_inv ops
  have hm : ∀ v ∈ (Bbn.run ops).vars, v ∈ (Bbn.run ops').vars := fun v hv => hs.vars.mem_iff.2 hv
  have hpp : ∀ op ∈ h, op.2.Proper (Bbn.run ops).vars := fun op ho => (hp op ho).proper
  have hp' : ∀ op ∈ h', op.2.Ok (Bbn.run ops').vars := by
    intro op ho
    have : op.2 ∈ h.map Prod.snd := by rw [← he]; exact List.mem_map_of_mem ho
    obtain ⟨o, ho, e⟩ := List.mem_map.1 this
    rw [← e]
    exact ok_mono hm (hp o ho)
  have hr : RenInto (fun i => i) (Bbn.run ops).nameOf (Bbn.run ops).vars (Bbn.run ops').vars := by
    refine ⟨fun u hu v hv e => List.inj_on_of_nodup_map (vars_nodup hi) hu hv e, ?_⟩
    intro v hv
    rw [ren_self hi hv]
    exact hm v hv
  have hl := specHist_ren hr h h' hpp (hist_ren_self hi hpp he)
  refine ⟨_, reports hu hj h hp hv hx, ?_⟩
  have h1 := reports hu' hj' h' hp' (hm v hv) hx
  rwa [hs.posterior hi (bbn_run_inv ops') hl (fun σ hσ h0 => hS σ hσ (fun w hw hst =>
    h0 w hw ((stored_iff hu hj h hpp hw (hσ w hw) 0).1 hst).symm))] at h1

/-- **C132**. Absorbing an observation: after `x = a` has been observed (the last evidence about `x`; there may be more about other nodes), the network
and the network in which the edges from `x` are removed, and the children of `x` keep the rows for `x = a` only, report the same. -/
theorem c132_absorb (hu : Net.Usable ops) (hu' : Net.Usable ops') {x : Variable} (hx : x ∈ (Bbn.run ops).vars) {a : Str}
    (hs : Absorbed x a (Bbn.run ops) (Bbn.run ops'))
    (hj : apply it js (Bbn.run ops) = .ok jt) (hj' : apply it' js' (Bbn.run ops') = .ok jt')
    (h h' : List (SetIter Str × EvOp)) (hp : ∀ op ∈ h, op.2.Ok (Bbn.run ops).vars) (he : h'.map Prod.snd = h.map Prod.snd)
    (hst : ∀ z ∈ x.values, z ≠ a → Stored (runHist jt h) x z 0)
    {v : Variable} (hv : v ∈ (Bbn.run ops).vars) {y : Str} (hy : y ∈ v.values) :
    ∃ p, Reports (runHist jt h) v y p ∧ Reports (runHist jt' h') v y p := by
  refine c132_entries hu hu' (hs.entries (bbn_run_inv ops) hx) hj hj' h h' hp he ?_ hv hy
  intro σ hσ h0
  by_contra hne
  exact h0 x hx (hst _ (hσ x hx) hne)

end

/-! ## The claims are not vacuous -/

/-- entries that agree can be checked row by row -/
theorem agreeWhere_of_check {b b' : Bbn} (hi : BbnInv b) {x : Int} {a : Str} (hv : b'.vars.Perm b.vars)
    (h : ∀ n ∈ b.toGraph.getNodes, ∀ n' ∈ b'.toGraph.getNodes, n'.var.id = n.var.id → b'.parentVars n.var.id = b.parentVars n.var.id ∧
      ∀ us ∈ product ((b.parentVars n.var.id ++ [n.var]).map Variable.values),
        (x ∈ vids (b.parentVars n.var.id ++ [n.var]) → readAsg (b.parentVars n.var.id ++ [n.var]) us x = a) →
        cptAt n'.probs (b.parentVars n.var.id) n.var (readAsg (b.parentVars n.var.id ++ [n.var]) us) =
        cptAt n.probs (b.parentVars n.var.id) n.var (readAsg (b.parentVars n.var.id ++ [n.var]) us)) :
    AgreeWhere (fun σ => σ x = a) b b' := by
  refine ⟨hv, ?_⟩
  intro n hn n' hn' e σ hσ hS
  obtain ⟨h1, h2⟩ := h n hn n' hn' e
  have hd : ∀ w ∈ b.parentVars n.var.id ++ [n.var], σ w.id ∈ w.values := by
    intro w hw
    rcases List.mem_append.1 hw with hw | hw
    · exact hσ w (parentVars_sub hi _ w hw)
    · rw [List.mem_singleton.1 hw]; exact hσ _ (List.mem_map_of_mem hn)
  have hm := List.mem_of_getElem? (product_rowIdx σ _ hd)
  have key := readAsg_map (σ := σ) (b.parentVars n.var.id ++ [n.var])
  have h3 := h2 _ hm (by
    intro hx
    obtain ⟨w, hw, rfl⟩ := List.mem_map.1 hx
    rw [key w hw]; exact hS)
  unfold cptAt at h3 ⊢
  rw [cptIndex_eq, rowIdx_congr key] at h3
  rw [h1, cptIndex_eq]
  exact h3

/-- the network of C16 without the edge from `b` to `d`; `d` keeps the rows for `b = on` -/
def c132_ops : List BOp :=
  [.addEdge (mkNode 0 "a" [1/4, 3/4]) (mkNode 1 "b" [1/2, 1/2, 1/4, 3/4]),
   .addEdge (mkNode 0 "a" [1/4, 3/4]) (mkNode 2 "c" [1/5, 4/5, 2/5, 3/5]),
   .addEdge (mkNode 2 "c" [1/5, 4/5, 2/5, 3/5]) (mkNode 3 "d" [1/10, 9/10, 3/10, 7/10]),
   .addEdge (mkNode 3 "d" [1/10, 9/10, 3/10, 7/10]) (mkNode 4 "e" [1/3, 2/3, 3/4, 1/4])]

/-- the network of C16 with other rows of `d` for `b = off` -/
def c132_rows : List BOp :=
  [.addEdge (mkNode 0 "a" [1/4, 3/4]) (mkNode 1 "b" [1/2, 1/2, 1/4, 3/4]),
   .addEdge (mkNode 0 "a" [1/4, 3/4]) (mkNode 2 "c" [1/5, 4/5, 2/5, 3/5]),
   .addEdge (mkNode 2 "c" [1/5, 4/5, 2/5, 3/5]) (mkNode 3 "d" [1/10, 9/10, 1, 0, 3/10, 7/10, 1/2, 1/2]),
   .addEdge (mkNode 1 "b" [1/2, 1/2, 1/4, 3/4]) (mkNode 3 "d" [1/10, 9/10, 1, 0, 3/10, 7/10, 1/2, 1/2]),
   .addEdge (mkNode 3 "d" [1/10, 9/10, 1, 0, 3/10, 7/10, 1/2, 1/2]) (mkNode 4 "e" [1/3, 2/3, 3/4, 1/4])]

def c132_hist : List (SetIter Str × EvOp) := [(.same, .update [obs (c16_node 1) "on".toList])]

/-- C132: the three networks, what is stored, and what they report for `e`: the same after observing `b = on`, different before -/
example : Net.Usable c16_ops ∧ Net.Usable c132_ops ∧ Net.Usable c132_rows ∧
    Absorbed (c16_node 1) "on".toList (Bbn.run c16_ops) (Bbn.run c132_ops) ∧
    AgreeWhere (fun σ => σ 1 = "on".toList) (Bbn.run c16_ops) (Bbn.run c132_rows) ∧
    ((apply .same .same (Bbn.run c16_ops)).val?.map (fun jt => Dict.get? (runHist jt c132_hist).evidences 1)) =
      some (some [("on".toList, 1), ("off".toList, 0)]) ∧
    [c16_ops, c132_ops, c132_rows].map (fun ops => (apply .same .same (Bbn.run ops)).val?.bind (fun jt =>
      reportOf (runHist jt c132_hist) (c16_node 4) "on".toList)) = [some (391 / 600), some (391 / 600), some (391 / 600)] ∧
    ([c16_ops, c132_ops, c132_rows].map (fun ops => (apply .same .same (Bbn.run ops)).val?.bind (fun jt =>
      reportOf jt (c16_node 4) "on".toList))).Nodup := by
  refine ⟨c16_usable, ⟨⟨wf_of_check (by decide +kernel) (by decide +kernel), by decide +kernel⟩, connected_of_check 0 (by decide +kernel)⟩,
    ⟨⟨wf_of_check (by decide +kernel) (by decide +kernel), by decide +kernel⟩, connected_of_check 0 (by decide +kernel)⟩,
    ⟨by decide +kernel, by decide +kernel, by decide +kernel⟩,
    agreeWhere_of_check (bbn_run_inv _) (by decide +kernel) (by decide +kernel), by decide +kernel, by decide +kernel, by decide +kernel⟩

end PyBBN
