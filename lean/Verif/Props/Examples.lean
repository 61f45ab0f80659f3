import Verif.Model.Examples
import Verif.Props.Ancestral
import Verif.Props.Ace

/-! # C129: the example networks that come with the library -/

namespace PyBBN
open Relation InferenceController

/-- **C129**. The two example networks are networks for which everything else is claimed: their nodes and CPTs fit together, they are
connected, there is no cycle, and CPT rows sum to one. -/
theorem c129_usable : (Net.Usable BbnUtil.huangOps ∧ BbnUtil.getHuangGraph.Proper) ∧ Net.Usable BbnUtil.simpleOps ∧ BbnUtil.getSimple.Proper := by
  have h1 : Net.Usable BbnUtil.huangOps :=
    ⟨⟨wf_of_check (by decide +kernel) (by decide +kernel), by decide +kernel⟩, connected_of_check 0 (by decide +kernel)⟩
  have h2 : Net.Usable BbnUtil.simpleOps :=
    ⟨⟨wf_of_check (by decide +kernel) (by decide +kernel), by decide +kernel⟩, connected_of_check 0 (by decide +kernel)⟩
  exact ⟨⟨h1, proper_of h1.toSane (acyclic_of_lt (by decide +kernel))
      (normalized_of_rows (fun _ v hv => parentVars_sub (bbn_run_inv _) _ v hv) (by decide +kernel))⟩,
    h2, proper_of h2.toSane (acyclic_of_lt (by decide +kernel))
      (normalized_of_rows (fun _ v hv => parentVars_sub (bbn_run_inv _) _ v hv) (by decide +kernel))⟩

/-- the probability that a node of Huang's network is on, before anything is observed -/
def huangOn : List ℚ := [1/2, 9/20, 9/20, 17/25, 93/200, 88153/500000, 83/200, 8231/10000]

/-- **C129**. Whatever orders the sets of the library are iterated in, inference on Huang's network is set up without an error and reports
the probabilities 0.5, 0.45, 0.45, 0.68, 0.465, 0.176306, 0.415 and 0.8231 for a, …, h being on. -/
theorem c129_priors (it : SetIter Int) (js : SetIter Str) :
    ∃ jt, apply it js BbnUtil.getHuangGraph = .ok jt ∧ ∀ v ∈ BbnUtil.getHuangGraph.vars,
      Reports jt v "on".toList (huangOn.getD v.id.toNat 0) ∧ Reports jt v "off".toList (1 - huangOn.getD v.id.toNat 0) := by
  obtain ⟨jt, hj⟩ := apply_ok it js c129_usable.1.1.toSane (by decide +kernel)
  refine ⟨jt, hj, fun v hv => ?_⟩
  have key : ∀ v ∈ BbnUtil.getHuangGraph.vars, "on".toList ∈ v.values ∧ "off".toList ∈ v.values ∧
      BbnUtil.getHuangGraph.posterior (lawHist BbnUtil.getHuangGraph.vars []).prop v.id "on".toList = huangOn.getD v.id.toNat 0 ∧
      BbnUtil.getHuangGraph.posterior (lawHist BbnUtil.getHuangGraph.vars []).prop v.id "off".toList = 1 - huangOn.getD v.id.toNat 0 := by
    decide +kernel
  obtain ⟨k1, k2, k3, k4⟩ := key v hv
  have r1 := reports_law c129_usable.1.1 hj [] (by simp) hv k1
  have r2 := reports_law c129_usable.1.1 hj [] (by simp) hv k2
  exact ⟨k3 ▸ r1, k4 ▸ r2⟩

/-- the nodes a, …, f -/
def simplePart (i : Int) : Prop := i ≤ 5

instance : DecidablePred simplePart := fun i => inferInstanceAs (Decidable (i ≤ 5))

theorem simple_agree : AgreeOn simplePart BbnUtil.getSimple BbnUtil.getHuangGraph := by
  refine ⟨?_, by decide +kernel, by decide +kernel⟩
  intro n hn
  have h1 : ∀ m ∈ BbnUtil.getSimple.toGraph.getNodes, simplePart m.var.id → m ∈ BbnUtil.getHuangGraph.toGraph.getNodes := by decide +kernel
  have h2 : ∀ m ∈ BbnUtil.getHuangGraph.toGraph.getNodes, simplePart m.var.id → m ∈ BbnUtil.getSimple.toGraph.getNodes := by decide +kernel
  exact ⟨fun h => h1 n h hn, fun h => h2 n h hn⟩

/-- **C129**. The simple network is Huang's network without g and h: after the same history of evidence about a, …, f, whatever it is, both
report the same probabilities for a, …, f. -/
theorem c129_simple {it it' : SetIter Int} {js js' : SetIter Str} {jt jt' : JoinTree} (hj : apply it js BbnUtil.getSimple = .ok jt)
    (hj' : apply it' js' BbnUtil.getHuangGraph = .ok jt') (h h' : List (SetIter Str × EvOp))
    (hp : ∀ op ∈ h, op.2.Proper BbnUtil.getSimple.vars) (hA : ∀ op ∈ h, op.2.About (· ≤ 5)) (he : h'.map Prod.snd = h.map Prod.snd)
    {v : Variable} (hv : v ∈ BbnUtil.getSimple.vars) {x : Str} (hx : x ∈ v.values) :
    ∃ p, Reports (runHist jt h) v x p ∧ Reports (runHist jt' h') v x p :=
  c75_ancestors (A := simplePart) c129_usable.2.1 c129_usable.1.1 simple_agree
    (properOutside_of_lt (by decide +kernel) (by decide +kernel)) (properOutside_of_lt (by decide +kernel) (by decide +kernel)) hj hj' h h' hp hA he
    hv ((by decide +kernel : ∀ v ∈ BbnUtil.getSimple.vars, simplePart v.id) v hv) hx

/-- both networks can be set up; with f observed to be on, the two report
the same for a, d and e, whatever orders sets are iterated in -/
example : (∀ op ∈ [((.same : SetIter Str), EvOp.observe (obs BbnUtil.f.var "on".toList))], op.2.Proper BbnUtil.getSimple.vars) ∧
    ((apply .same .same BbnUtil.getSimple).val?.map (fun jt => [BbnUtil.a, BbnUtil.d, BbnUtil.e].map (fun n =>
      firstOf (runHist jt [(.same, .observe (obs BbnUtil.f.var "on".toList))]) n.var))) =
    ((apply .rev .rev BbnUtil.getHuangGraph).val?.map (fun jt => [BbnUtil.a, BbnUtil.d, BbnUtil.e].map (fun n =>
      firstOf (runHist jt [(.rev, .observe (obs BbnUtil.f.var "on".toList))]) n.var))) := by
  refine ⟨?_, by decide +kernel⟩
  intro op hop
  simp only [List.mem_cons, List.not_mem_nil, or_false] at hop
  subst hop
  exact obs_proper (by decide +kernel) (by decide +kernel)

end PyBBN
