import Verif.Proofs.Between
import Verif.Props.Ancestral
import Verif.Props.Certain
import Verif.Props.Ace

/-! # C106: reports lie between the entries of the CPT -/

namespace PyBBN
open Relation InferenceController

section
variable {it : SetIter Int} {js : SetIter Str} {ops : List BOp} {jt : JoinTree}

/-- **C106**. On a connected acyclic network with normalized CPTs, after any history of evidence: if no evidence about a node and about what
descends from it is stored, and the evidence is not impossible, then the probability that is reported for a value of the node lies between the
smallest and the largest entry for this value in the CPT of the node. -/
theorem c106_between (hu : Net.Usable ops) (hac : AcyclicOps ops) (hn : (Bbn.run ops).Normalized (Bbn.run ops).parentVars)
    (hj : apply it js (Bbn.run ops) = .ok jt) (h : List (SetIter Str × EvOp)) (hp : ∀ op ∈ h, op.2.Proper (Bbn.run ops).vars)
    {n : BbnNode} (hnode : n ∈ (Bbn.run ops).toGraph.getNodes)
    (hdesc : ∀ w ∈ (Bbn.run ops).vars, ReflTransGen (fun p c => (p, c) ∈ BOp.edges ops) n.var.id w.id → NoEvidenceOn (runHist jt h) w)
    {w : Variable} (hw : w ∈ (Bbn.run ops).vars) {z : Str} (hz : z ∈ w.values) {q : ℚ} (hq : Reports (runHist jt h) w z q) (hq0 : q ≠ 0)
    {x : Str} (hx : x ∈ n.var.values) {lo hi : ℚ}
    (hlo : ∀ σ, InDom (Bbn.run ops).vars σ → σ n.var.id = x → lo ≤ cptAt n.probs ((Bbn.run ops).parentVars n.var.id) n.var σ)
    (hhi : ∀ σ, InDom (Bbn.run ops).vars σ → σ n.var.id = x → cptAt n.probs ((Bbn.run ops).parentVars n.var.id) n.var σ ≤ hi) :
    ∃ r, Reports (runHist jt h) n.var x r ∧ lo ≤ r ∧ r ≤ hi := by
  have hP : (Bbn.run ops).Par = fun p c => (p, c) ∈ BOp.edges ops := by funext p c; exact propext (par_iff ops p c)
  obtain ⟨T, l1, _, _⟩ := live_law hu.toSane hj h hp
  have hclean := lawHist_clean (doms hu.toSane) h hp
  have hpos : (Bbn.run ops).total (lawHist (Bbn.run ops).vars h).prop ≠ 0 := by
    intro e
    have := reports_unique hq (reports_law hu hj h hp hw hz)
    unfold Bbn.posterior at this
    rw [e, div_zero] at this
    exact hq0 this
  refine ⟨_, reports_law hu hj h hp (List.mem_map_of_mem hnode) hx, ?_⟩
  refine posterior_between (proper_of hu.toSane hac hn) hnode l1.calib.likNonneg ?_ hpos hx hlo hhi
  intro u hu' hr
  rw [hP] at hr
  refine hclean.2 u hu' ?_
  rw [lawHist_stored]
  exact noEvidenceOn_iff hu hj h hp hu' (hdesc u hu' hr)

end

/-- node 3 of the network of C16; its entries for `on` are 1/10, 1/5, 3/10 and 0 -/
def c106_node : BbnNode := mkNode 3 "d" [1/10, 9/10, 1/5, 4/5, 3/10, 7/10, 0, 1]

theorem c106_column (σ : Asg) (hσ : InDom (Bbn.run c16_ops).vars σ) (hx : σ 3 = "on".toList) :
    0 ≤ cptAt c106_node.probs ((Bbn.run c16_ops).parentVars 3) c106_node.var σ ∧
      cptAt c106_node.probs ((Bbn.run c16_ops).parentVars 3) c106_node.var σ ≤ 3 / 10 := by
  have e : cptAt c106_node.probs ((Bbn.run c16_ops).parentVars 3) c106_node.var σ =
      cptAt c106_node.probs ((Bbn.run c16_ops).parentVars 3) c106_node.var (fun i => if i = 1 then σ 1 else if i = 2 then σ 2 else "on".toList) := by
    refine cptAt_dep _ _ _ _ _ ?_
    intro i hi
    have : vids ((Bbn.run c16_ops).parentVars 3 ++ [c106_node.var]) = [2, 1, 3] := by decide +kernel
    rw [this] at hi
    simp only [List.mem_cons, List.not_mem_nil, or_false] at hi
    rcases hi with rfl | rfl | rfl
    · simp
    · simp
    · simpa using hx
  rw [e]
  have h1 := hσ (c16_node 1) (by decide +kernel)
  have h2 := hσ (c16_node 2) (by decide +kernel)
  have hv : ∀ i, (c16_node i).values = ["on".toList, "off".toList] := fun _ => rfl
  rw [hv] at h1 h2
  simp only [List.mem_cons, List.not_mem_nil, or_false] at h1 h2
  change σ 1 = _ ∨ σ 1 = _ at h1
  change σ 2 = _ ∨ σ 2 = _ at h2
  rcases h1 with h1 | h1 <;> rcases h2 with h2 | h2 <;> rw [h1, h2] <;> decide +kernel

/-- the theorem at this network, with evidence about nodes 1 and 2: the report for node 3 is 139/1350 -/
example (jt : JoinTree) (hj : apply .same .rev (Bbn.run c16_ops) = .ok jt) :
    ∃ r, Reports (runHist jt c75_hist) c106_node.var "on".toList r ∧ 0 ≤ r ∧ r ≤ 3 / 10 := by
  have key : (apply .same .rev (Bbn.run c16_ops)).val?.map (fun jt => ([3, 4] : List Int).map (fun i =>
      @id (Option (List (Str × ℚ))) (Dict.get? (runHist jt c75_hist).evidences i))) =
      some [some [("on".toList, 1), ("off".toList, 1)], some [("on".toList, 1), ("off".toList, 1)]] := by decide +kernel
  have key2 : (apply .same .rev (Bbn.run c16_ops)).val?.map (fun jt => reportOf (runHist jt c75_hist) (c16_node 3) "on".toList) =
      some (some (139 / 1350)) := by decide +kernel
  rw [hj] at key key2
  have h34 : ∀ i ∈ ([3, 4] : List Int), Dict.get? (runHist jt c75_hist).evidences i = some [("on".toList, 1), ("off".toList, 1)] := by
    have := Option.some.inj key
    simp only [List.map_cons, List.map_nil, List.cons.injEq] at this
    intro i hi
    simp only [List.mem_cons, List.not_mem_nil, or_false] at hi
    rcases hi with rfl | rfl
    · exact this.1
    · exact this.2.1
  refine c106_between c16_usable c16_acyclic c16_normalized hj c75_hist c75_hist_proper.1 (n := c106_node) (by decide +kernel) ?_
    (w := c16_node 3) (by decide +kernel) (z := "on".toList) (by decide +kernel) (reports_of_eval (Option.some.inj key2)) (by norm_num)
    (x := "on".toList) (by decide +kernel) (fun σ h1 h2 => (c106_column σ h1 h2).1) (fun σ h1 h2 => (c106_column σ h1 h2).2)
  intro w hw hr
  have hlt : ∀ a c, ReflTransGen (fun p c => (p, c) ∈ BOp.edges c16_ops) a c → a ≤ c := by
    intro a c h
    induction h with
    | refl => exact le_refl _
    | tail _ h ih =>
      have : ∀ e ∈ BOp.edges c16_ops, e.1 < e.2 := by decide +kernel
      exact le_trans ih (this _ h).le
  have hge : (3 : Int) ≤ w.id := hlt _ _ hr
  have hall : ∀ w ∈ (Bbn.run c16_ops).vars, 3 ≤ w.id → w.id ∈ ([3, 4] : List Int) ∧ w.values.map (fun x => (x, (1 : ℚ))) = [("on".toList, 1), ("off".toList, 1)] := by
    decide +kernel
  obtain ⟨h1, h2⟩ := hall w hw hge
  unfold NoEvidenceOn
  rw [h34 _ h1, h2]

/-- evidence about a descendant may lead out of the interval: node 0 has no parents and 1/4 for `on`, but with node 1 observed 2/5 is reported -/
example : (apply .same .rev (Bbn.run c16_ops)).val?.map (fun jt => reportOf (runHist jt [(.same, .observe (obs (c16_node 1) "on".toList))])
    (c16_node 0) "on".toList) = some (some (2 / 5)) := by
  decide +kernel

end PyBBN
