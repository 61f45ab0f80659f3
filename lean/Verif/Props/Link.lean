import Verif.Proofs.Link
import Verif.Props.Reapply
import Verif.Props.ComponentLaw
import Verif.Props.Relabel

/-! # C126: an edge that says nothing changes no report, and makes a network in pieces exact -/

namespace PyBBN
open Relation InferenceController

section
variable {it it' : SetIter Int} {js js' : SetIter Str} {ops ops' : List BOp} {jt jt' : JoinTree}

/-- **C126**. A network, possibly in several pieces (where the reports are wrong in general, C17), with further edges that say nothing and
connect the pieces: the reports are the exact posteriors of the original network. -/
theorem c126_exact (hs : Net.Sane ops) (hl : Linked ops ops') (hc : ConnectedOps ops')
    (hj : apply it js (Bbn.run ops') = .ok jt) (h : List (SetIter Str × EvOp)) (hp : ∀ op ∈ h, op.2.Ok (Bbn.run ops).vars)
    {v : Variable} (hv : v ∈ (Bbn.run ops).vars) {x : Str} (hx : x ∈ v.values) :
    Reports (runHist jt h) v x ((Bbn.run ops).posterior (specHist (Bbn.run ops).vars h) v.id x) := by
  obtain ⟨hs', hsame⟩ := linked_same hl hs
  have hi := bbn_run_inv ops
  have hm : ∀ v ∈ (Bbn.run ops).vars, v ∈ (Bbn.run ops').vars := fun v hv => hsame.vars.mem_iff.2 hv
  have hr : RenInto (fun i => i) (Bbn.run ops).nameOf (Bbn.run ops).vars (Bbn.run ops').vars := by
    refine ⟨fun u hu v hv e => List.inj_on_of_nodup_map (vars_nodup hi) hu hv e, ?_⟩
    intro v hv
    rw [ren_self hi hv]
    exact hm v hv
  have hpp : ∀ op ∈ h, op.2.Proper (Bbn.run ops).vars := fun op ho => (hp op ho).proper
  have hl := specHist_ren hr h h hpp (hist_ren_self hi hpp rfl)
  have h1 := reports ⟨hs', hc⟩ hj h (fun op ho => ok_mono hm (hp op ho)) (hm v hv) hx
  rwa [hsame.posterior hi hl] at h1

/-- **C126**. In a connected network, edges that say nothing do not change a report. -/
theorem c126_same (hu : Net.Usable ops) (hl : Linked ops ops')
    (hj : apply it js (Bbn.run ops) = .ok jt) (hj' : apply it' js' (Bbn.run ops') = .ok jt')
    (h h' : List (SetIter Str × EvOp)) (hp : ∀ op ∈ h, op.2.Proper (Bbn.run ops).vars) (he : h'.map Prod.snd = h.map Prod.snd)
    {v : Variable} (hv : v ∈ (Bbn.run ops).vars) {x : Str} (hx : x ∈ v.values) :
    ∃ p, Reports (runHist jt h) v x p ∧ Reports (runHist jt' h') v x p := by
  obtain ⟨hs', hsame⟩ := linked_same hl hu.toSane
  refine c80_same_joint hu ⟨hs', ?_⟩ hsame hj hj' h h' hp he hv hx
  have hsub := linked_edges hl
  intro u hu' w hw
  exact (hu.conn u (hsame.vars.mem_iff.1 hu') w (hsame.vars.mem_iff.1 hw)).mono (fun a b hab => hsub _ hab)

/-- **C126**. Every network can be connected with edges that say nothing, without making a cycle; then the join tree can be built. -/
theorem c126_possible (it : SetIter Int) (js : SetIter Str) (hs : Net.Sane ops) (hne : (Bbn.run ops).vars ≠ []) (hac : AcyclicOps ops) :
    ∃ ops', Linked ops ops' ∧ ConnectedOps ops' ∧ AcyclicOps ops' ∧ ∃ jt, apply it js (Bbn.run ops') = .ok jt := by
  obtain ⟨r, hr⟩ := List.exists_mem_of_ne_nil _ hne
  obtain ⟨ops', hl, hac', hc⟩ := link_all hs hac hr (Bbn.run ops).vars (fun _ h => h)
  obtain ⟨hs', hsame⟩ := linked_same hl hs
  refine ⟨ops', hl, ?_, hac', apply_ok it js hs' ?_⟩
  · intro u hu w hw
    exact EqvGen.trans _ _ _ (EqvGen.symm _ _ (hc u (hsame.vars.mem_iff.1 hu))) (hc w (hsame.vars.mem_iff.1 hw))
  · intro e
    exact hne (List.perm_nil.1 (by have := hsame.vars; rw [e] at this; exact this.symm))

end

/-! ## The claims are not vacuous -/

/-- the network of `c17_false`, with an edge from node 1 to node 4 that says nothing -/
def c126_ops : List BOp := linkOps (mkNode 1 "b" [1/2, 1/2, 1/4, 3/4]) (mkNode 4 "e" [1/3, 2/3, 3/4, 1/4]) c17_ops

theorem c126_linked : Linked c17_ops c126_ops := .step .refl ⟨by decide +kernel, by decide +kernel, by decide +kernel, by decide +kernel⟩

theorem c126_connected : ConnectedOps c126_ops := by
  have e : ∀ p c, (p, c) ∈ BOp.edges c126_ops → EqvGen (fun p c => (p, c) ∈ BOp.edges c126_ops) p c := fun p c h => EqvGen.rel _ _ h
  have h1 := e 0 1 (by decide +kernel)
  have h2 := e 1 4 (by decide +kernel)
  have h3 := e 3 4 (by decide +kernel)
  have h4 := e 2 3 (by decide +kernel)
  have hid : ∀ u ∈ (Bbn.run c126_ops).vars, u.id = 0 ∨ u.id = 1 ∨ u.id = 2 ∨ u.id = 3 ∨ u.id = 4 := by decide +kernel
  have hv : ∀ u ∈ (Bbn.run c126_ops).vars, EqvGen (fun p c => (p, c) ∈ BOp.edges c126_ops) 4 u.id := by
    intro u hu
    rcases hid u hu with h | h | h | h | h <;> rw [h]
    · exact EqvGen.trans _ _ _ (EqvGen.symm _ _ h2) (EqvGen.symm _ _ h1)
    · exact EqvGen.symm _ _ h2
    · exact EqvGen.trans _ _ _ (EqvGen.symm _ _ h3) (EqvGen.symm _ _ h4)
    · exact EqvGen.symm _ _ h3
    · exact EqvGen.refl _
  intro u hu w hw
  exact EqvGen.trans _ _ _ (EqvGen.symm _ _ (hv u hu)) (hv w hw)

/-- C126: the CPT of the linked node, and what the network in two pieces and the linked network report for it: 13/24 (wrong) and 27/40 -/
example : Net.Sane c17_ops ∧ ¬ ConnectedOps c17_ops ∧ Linked c17_ops c126_ops ∧ ConnectedOps c126_ops ∧
    (Dict.get? (Bbn.run c126_ops).nodes 4).map BbnNode.probs = some [1/3, 2/3, 1/3, 2/3, 3/4, 1/4, 3/4, 1/4] ∧
    (Bbn.run c126_ops).parentVars 4 = [(mkNode 3 "d" []).var, (mkNode 1 "b" []).var] ∧
    ((apply .same .same (Bbn.run c17_ops)).val?.map (fun jt => reportOf jt (mkNode 4 "e" []).var "on".toList)) = some (some (13 / 24)) ∧
    ((apply .same .same (Bbn.run c126_ops)).val?.map (fun jt => reportOf jt (mkNode 4 "e" []).var "on".toList)) = some (some (27 / 40)) ∧
    (Bbn.run c17_ops).posterior (specHist (Bbn.run c17_ops).vars []) 4 "on".toList = 27 / 40 := by
  refine ⟨c17_sane, ?_, c126_linked, c126_connected, by decide +kernel, by decide +kernel, by decide +kernel, by decide +kernel, by decide +kernel⟩
  intro h
  have h1 := h (mkNode 1 "b" []).var (by decide +kernel) (mkNode 4 "e" []).var (by decide +kernel)
  have key : ∀ a b : Int, EqvGen (fun p c => (p, c) ∈ BOp.edges c17_ops) a b → (a ≤ 1 ↔ b ≤ 1) := by
    intro a b hab
    induction hab with
    | rel a b h =>
      rw [c17_edges] at h
      simp only [List.mem_cons, Prod.mk.injEq, List.not_mem_nil, or_false] at h
      rcases h with ⟨rfl, rfl⟩ | ⟨rfl, rfl⟩ | ⟨rfl, rfl⟩ <;> decide
    | refl a => exact Iff.rfl
    | symm a b _ ih => exact ih.symm
    | trans a b c _ _ h1 h2 => exact h1.trans h2
  have := (key _ _ h1).1 (by decide)
  revert this
  decide

/-- C126: a connected network, and one more edge that says nothing: the same report after an observation -/
example : Net.Usable c80_ops ∧
    Linked c80_ops (linkOps (mkNode 0 "a" [1/4, 3/4]) (mkNode 2 "c" [1/3, 2/3, 3/4, 1/4]) c80_ops) ∧
    ((apply .same .same (Bbn.run c80_ops)).val?.map (fun jt => reportOf (runHist jt [(.same, .update [obs (c16_node 2) "on".toList])])
      (c16_node 0) "on".toList)) = some (some (13 / 62)) ∧
    ((apply .same .same (Bbn.run (linkOps (mkNode 0 "a" [1/4, 3/4]) (mkNode 2 "c" [1/3, 2/3, 3/4, 1/4]) c80_ops))).val?.map (fun jt =>
      reportOf (runHist jt [(.same, .update [obs (c16_node 2) "on".toList])]) (c16_node 0) "on".toList)) = some (some (13 / 62)) :=
  ⟨c80_usable.1, .step .refl ⟨by decide +kernel, by decide +kernel, by decide +kernel, by decide +kernel⟩, by decide +kernel, by decide +kernel⟩

/-- C126: a network that can be connected -/
example : Net.Sane c17_ops ∧ (Bbn.run c17_ops).vars ≠ [] ∧ AcyclicOps c17_ops :=
  ⟨c17_sane, by decide +kernel, acyclic_of_lt (by decide +kernel)⟩

end PyBBN
