import Verif.Props.Link
import Verif.Props.Downstream

/-! # C128: every intervention can be computed, also if it breaks the network in pieces -/

namespace PyBBN
open Relation InferenceController

section
variable {it it' : SetIter Int} {js js' : SetIter Str} {ops ops' : List BOp} {jt jt' : JoinTree} {prior : List ℚ}

theorem specHist_vars {V V' : List Variable} (hn : (V.map Variable.id).Nodup) (hV : ∀ v ∈ V, v ∈ V') (b : Bbn) (hi : BbnInv b) (hb : b.vars = V)
    {h : List (SetIter Str × EvOp)} (hp : ∀ op ∈ h, op.2.Proper V) : ∀ w ∈ V, ∀ z ∈ w.values, specHist V' h w.id z = specHist V h w.id z := by
  subst hb
  refine specHist_ren (ρ := fun i => i) (ν := b.nameOf) ⟨fun u hu v hv e => List.inj_on_of_nodup_map hn hu hv e, ?_⟩ h h hp
    (hist_ren_self hi hp rfl)
  intro w hw
  rw [ren_self hi hw]
  exact hV w hw

/-- **C128**. Remove the edges into `x`, give `x` any CPT that makes `a` possible, and connect what falls apart by edges that say nothing.
After any history of unambiguous evidence without evidence about `x`, and after observing `x = a` then, what is reported for a value of a
node is its probability in the original network when `x` is set to `a`, given the likelihoods stored for the other nodes. -/
theorem c128_surgery (hs : Net.Sane ops) {x : Variable} (hx : x ∈ (Bbn.run ops).vars) (hl : x.values.length ≤ prior.length)
    (h0 : ∀ p ∈ prior, 0 ≤ p) (hlk : Linked (cutOps x.id prior ops) ops') (hc : ConnectedOps ops') (hj : apply it js (Bbn.run ops') = .ok jt)
    {a : Str} (ha : a ∈ x.values) (hpos : prior.getD (x.values.idxOf a) 0 ≠ 0)
    (h : List (SetIter Str × EvOp)) (hp : ∀ op ∈ h, op.2.Ok (Bbn.run ops).vars) (hn : NoEvidenceOn (runHist jt h) x) {ℓ : Liks}
    (hℓ : ∀ v ∈ (Bbn.run ops).vars, ∀ z ∈ v.values, Stored (runHist jt h) v z (ℓ v.id z)) (s : SetIter Str)
    {v : Variable} (hv : v ∈ (Bbn.run ops).vars) {y : Str} (hy : y ∈ v.values) :
    Reports (runHist jt (h ++ [(s, .update [obs x a])])) v y ((Bbn.run ops).prDoGiven ℓ x.id a (isAt v.id y)) := by
  have hcs := cut_sane hs hx hl h0
  obtain ⟨hs', hsame⟩ := linked_same hlk hcs
  have hi' := bbn_run_inv (cutOps x.id prior ops)
  have hmem : ∀ w, w ∈ (Bbn.run (cutOps x.id prior ops)).vars ↔ w ∈ (Bbn.run ops).vars := fun w => cut_vars.mem_iff
  have hp' : ∀ op ∈ h, op.2.Ok (Bbn.run (cutOps x.id prior ops)).vars := fun op ho => ok_mono (fun w hw => (hmem w).2 hw) (hp op ho)
  have hpp' : ∀ op ∈ h, op.2.Proper (Bbn.run ops').vars := fun op ho => (ok_mono (fun w hw => hsame.vars.mem_iff.2 hw) (hp' op ho)).proper
  have hu' : Net.Usable ops' := ⟨hs', hc⟩
  have hm' : ∀ w ∈ (Bbn.run ops).vars, w ∈ (Bbn.run ops').vars := fun w hw => hsame.vars.mem_iff.2 ((hmem w).2 hw)
  have heq := specHist_vars (V' := (Bbn.run ops').vars) (vars_nodup hi') (fun v hv => hsame.vars.mem_iff.2 hv) _ hi' rfl
    (h := h) (fun op ho => (hp' op ho).proper)
  have he : ∀ w ∈ (Bbn.run (cutOps x.id prior ops)).vars, ∀ z ∈ w.values, specHist (Bbn.run (cutOps x.id prior ops)).vars h w.id z = ℓ w.id z := by
    intro w hw z hz
    rw [← heq w hw z hz]
    exact ((stored_iff hu' hj h hpp' (hm' w ((hmem w).1 hw)) hz _).1 (hℓ w ((hmem w).1 hw) z hz)).symm
  have hx1 : ∀ z ∈ x.values, specHist (Bbn.run (cutOps x.id prior ops)).vars h x.id z = 1 := by
    intro z hz
    rw [← heq x ((hmem x).2 hx) z hz]
    exact noEvidenceOn_iff hu' hj h hpp' (hm' x hx) hn z hz
  have h1 := c126_exact hcs hlk hc hj (h ++ [(s, .update [obs x a])]) (ok_append hp' (obs_ok ((hmem x).2 hx) ha)) ((hmem v).2 hv) hy
  rw [specHist_append] at h1
  have e : (EvOp.update [obs x a]).spec (Bbn.run (cutOps x.id prior ops)).vars (specHist (Bbn.run (cutOps x.id prior ops)).vars h) =
      (specHist (Bbn.run (cutOps x.id prior ops)).vars h).put x (obs x a).canon := rfl
  rw [e, posterior_obs hi' ((hmem x).2 hx) hx1 (y := a) (fun z _ => obs_canon ha z),
    cut_ratio hx hpos he (by rw [← he x ((hmem x).2 hx) a ha]; exact hx1 a ha)] at h1
  exact h1

/-- **C128**, without other evidence, for an acyclic network whose CPT rows sum to one: what is reported is the probability when `x` is set
to `a` (truncated factorization). -/
theorem c128_do (hs : Net.Sane ops) (hac : AcyclicOps ops) (hnm : (Bbn.run ops).Normalized (Bbn.run ops).parentVars)
    {x : Variable} (hx : x ∈ (Bbn.run ops).vars) (hl : x.values.length ≤ prior.length)
    (h0 : ∀ p ∈ prior, 0 ≤ p) (hlk : Linked (cutOps x.id prior ops) ops') (hc : ConnectedOps ops') (hj : apply it js (Bbn.run ops') = .ok jt)
    {a : Str} (ha : a ∈ x.values) (hpos : prior.getD (x.values.idxOf a) 0 ≠ 0) (s : SetIter Str)
    {v : Variable} (hv : v ∈ (Bbn.run ops).vars) {y : Str} (hy : y ∈ v.values) :
    Reports (runHist jt [(s, .update [obs x a])]) v y ((Bbn.run ops).prDo x.id a (isAt v.id y)) := by
  obtain ⟨hs', hsame⟩ := linked_same hlk (cut_sane hs hx hl h0)
  have hu : Net.Usable ops' := ⟨hs', hc⟩
  have hm' : ∀ w ∈ (Bbn.run ops).vars, w ∈ (Bbn.run ops').vars := fun w hw => hsame.vars.mem_iff.2 (cut_vars.mem_iff.2 hw)
  have hnone : ∀ op ∈ ([] : List (SetIter Str × EvOp)), op.2.Ok (Bbn.run ops).vars := by simp
  have hnone' : ∀ op ∈ ([] : List (SetIter Str × EvOp)), op.2.Proper (Bbn.run ops').vars := by simp
  rw [← prDoGiven_noEvidence (proper_of hs hac hnm) hx ha]
  refine c128_surgery hs hx hl h0 hlk hc hj ha hpos [] hnone ?_ ?_ s hv hy
  · exact (c18_law hu hj [] hnone' x (hm' x hx)).1
  · intro w hw z hz
    exact (stored_iff hu hj [] hnone' (hm' w hw) hz _).2 rfl

/-- **C128**, always possible. In every acyclic network, for every node `x`: a network as `c128_surgery` and `c128_do` ask for exists, without
cycles, and its join tree can be built. -/
theorem c128_possible (it : SetIter Int) (js : SetIter Str) (hs : Net.Sane ops) (hac : AcyclicOps ops) {x : Variable} (hx : x ∈ (Bbn.run ops).vars)
    (hl : x.values.length ≤ prior.length) (h0 : ∀ p ∈ prior, 0 ≤ p) :
    ∃ ops', Linked (cutOps x.id prior ops) ops' ∧ ConnectedOps ops' ∧ AcyclicOps ops' ∧ ∃ jt, apply it js (Bbn.run ops') = .ok jt := by
  refine c126_possible it js (cut_sane hs hx hl h0) (List.ne_nil_of_mem (cut_vars.mem_iff.2 hx)) ?_
  intro a ha
  refine hac a (TransGen.mono (fun p c h => ?_) _ _ ha)
  rw [cut_edges] at h
  exact (List.mem_filter.1 h).1

end

/-! ## The claims are not vacuous: the chain `a → b → c` of C80, setting `b` -/

/-- without the edge from `a` to `b`, and with an edge from `a` to `c` that says nothing -/
def c128_ops : List BOp :=
  linkOps (mkNode 0 "a" [1/4, 3/4]) (mkNode 2 "c" [1/3, 2/3, 3/4, 1/4]) (cutOps 1 [1/2, 1/2] c80_ops)

theorem c128_linked : Linked (cutOps 1 [1/2, 1/2] c80_ops) c128_ops :=
  .step .refl ⟨by decide +kernel, by decide +kernel, by decide +kernel, by decide +kernel⟩

/-- C128: the network falls in pieces, is connected again, and reports what the original says about setting `b`: `c` follows the row of
its CPT, and `a` keeps its prior (observing `b` in the original network would change it) -/
example : Net.Sane c80_ops ∧ AcyclicOps c80_ops ∧ (Bbn.run c80_ops).Normalized (Bbn.run c80_ops).parentVars ∧
    ¬ ConnectedOps (cutOps 1 [1/2, 1/2] c80_ops) ∧ Linked (cutOps 1 [1/2, 1/2] c80_ops) c128_ops ∧ ConnectedOps c128_ops ∧
    ((apply .same .same (Bbn.run c128_ops)).val?.map (fun jt =>
      (reportOf (runHist jt [(.same, .update [obs (c16_node 1) "on".toList])]) (c16_node 2) "on".toList,
       reportOf (runHist jt [(.same, .update [obs (c16_node 1) "on".toList])]) (c16_node 0) "on".toList))) = some (some (1/3), some (1/4)) ∧
    (Bbn.run c80_ops).prDo 1 "on".toList (isAt 2 "on".toList) = 1/3 ∧ (Bbn.run c80_ops).prDo 1 "on".toList (isAt 0 "on".toList) = 1/4 ∧
    ((apply .same .same (Bbn.run c80_ops)).val?.map (fun jt =>
       reportOf (runHist jt [(.same, .update [obs (c16_node 1) "on".toList])]) (c16_node 0) "on".toList)) = some (some (1/2)) := by
  refine ⟨c80_usable.1.toSane, acyclic_of_lt (by decide +kernel),
    normalized_of_rows (fun _ v hv => parentVars_sub (bbn_run_inv _) _ v hv) (by decide +kernel), ?_, c128_linked, ?_,
    by decide +kernel, by decide +kernel, by decide +kernel, by decide +kernel⟩
  · intro h
    have h1 := h (c16_node 0) (by decide +kernel) (c16_node 1) (by decide +kernel)
    have he : BOp.edges (cutOps 1 [1/2, 1/2] c80_ops) = [(1, 2)] := by decide +kernel
    have key : ∀ a b : Int, EqvGen (fun p c => (p, c) ∈ BOp.edges (cutOps 1 [1/2, 1/2] c80_ops)) a b → (a = 0 ↔ b = 0) := by
      intro a b hab
      induction hab with
      | rel a b h =>
        rw [he] at h
        simp only [List.mem_cons, Prod.mk.injEq, List.not_mem_nil, or_false] at h
        obtain ⟨rfl, rfl⟩ := h
        decide
      | refl a => exact Iff.rfl
      | symm a b _ ih => exact ih.symm
      | trans a b c _ _ h1 h2 => exact h1.trans h2
    exact absurd ((key _ _ h1).1 rfl) (by decide)
  · exact c124_connected (ops := c128_ops) (by decide +kernel) (by decide +kernel) (by decide +kernel)

end PyBBN
