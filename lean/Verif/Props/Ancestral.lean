import Verif.Props.Coherence
import Verif.Props.Reapply
import Verif.Proofs.Ancestral

/-! # C75: only the ancestors of what is asked and observed matter -/

namespace PyBBN
open Relation InferenceController

section
variable {it it' : SetIter Int} {js js' : SetIter Str} {ops ops' : List BOp} {jt jt' : JoinTree} {A : Int → Prop}

theorem EvOp.Proper.part {V W : List Variable} {op : EvOp} (h : op.Proper V) (ha : op.About A) (hW : ∀ v ∈ V, A v.id → v ∈ W) : op.Proper W := by
  cases op with
  | update es => exact fun e he => ⟨hW _ (h e he).node (ha e he), (h e he).keys, (h e he).dom⟩
  | observe e => exact ⟨hW _ (h : e.Proper V).node ha, (h : e.Proper V).keys, (h : e.Proper V).dom⟩
  | unobserve ns => exact fun v hv => hW v (h v hv) (ha v hv)
  | unobserveAll => trivial

theorem vals_ne (hu : Net.Sane ops) : ∀ n ∈ (Bbn.run ops).toGraph.getNodes, n.var.values ≠ [] :=
  fun _ hn => (doms hu).ne _ (List.mem_map_of_mem hn)

/-- networks that agree on a part: the posteriors after histories about that part -/
theorem agree_posterior (hu : Net.Sane ops) (hu' : Net.Sane ops') (ha : AgreeOn A (Bbn.run ops) (Bbn.run ops'))
    (ho : ProperOutside A (Bbn.run ops)) (ho' : ProperOutside A (Bbn.run ops')) {h h' : List (SetIter Str × EvOp)}
    (hp : ∀ op ∈ h, op.2.Proper (Bbn.run ops).vars) (hA : ∀ op ∈ h, op.2.About A) (he : h'.map Prod.snd = h.map Prod.snd) :
    (∀ op ∈ h', op.2.Proper (Bbn.run ops').vars) ∧ ∀ i, A i → ∀ x,
      (Bbn.run ops').posterior (lawHist (Bbn.run ops').vars h').prop i x = (Bbn.run ops).posterior (lawHist (Bbn.run ops).vars h).prop i x := by
  classical
  have hi := bbn_run_inv ops
  have hi' := bbn_run_inv ops'
  have hW : ∀ v ∈ (Bbn.run ops).vars, A v.id → v ∈ ((Bbn.run ops).inside A).map BbnNode.var := by
    intro v hv hv'
    obtain ⟨n, hn, rfl⟩ := List.mem_map.1 hv
    exact List.mem_map_of_mem (List.mem_filter.2 ⟨hn, by simpa using hv'⟩)
  have hin : ∀ v ∈ ((Bbn.run ops).inside A).map BbnNode.var, v ∈ (Bbn.run ops).vars ∧ v ∈ (Bbn.run ops').vars ∧ A v.id := by
    intro v hv
    obtain ⟨n, hn, rfl⟩ := List.mem_map.1 hv
    obtain ⟨h1, h2⟩ := List.mem_filter.1 hn
    rw [decide_eq_true_eq] at h2
    exact ⟨List.mem_map_of_mem h1, List.mem_map_of_mem ((ha.nodes n h2).1 h1), h2⟩
  have hpW : ∀ op ∈ h, op.2.Proper (((Bbn.run ops).inside A).map BbnNode.var) := fun op hop => (hp op hop).part (hA op hop) hW
  obtain ⟨a1, a2⟩ := lawHist_part (vars_nodup hi) (fun v hv => (hin v hv).1) hpW rfl
  obtain ⟨b1, b2⟩ := lawHist_part (vars_nodup hi') (fun v hv => (hin v hv).2.1) hpW he
  refine ⟨?_, fun i hiA x => ?_⟩
  · intro op hop
    have : op.2 ∈ h.map Prod.snd := by rw [← he]; exact List.mem_map_of_mem hop
    obtain ⟨o, ho, e⟩ := List.mem_map.1 this
    rw [← e]
    exact (hpW o ho).part (A := fun _ => True) (by cases o.2 <;> simp [EvOp.About]) (fun v hv _ => (hin v hv).2.1)
  · refine ha.posterior hi hi' hu.wf hu'.wf (vals_ne hu) (vals_ne hu') ho ho' ?_ ?_ ?_ hiA x
    · intro n _ hnA x
      exact a2 n.var.id (fun v hv e => hnA (e ▸ (hin v hv).2.2)) x
    · intro n _ hnA x
      exact b2 n.var.id (fun v hv e => hnA (e ▸ (hin v hv).2.2)) x
    · intro n hn hnA x hx
      have := hW n.var (List.mem_map_of_mem hn) hnA
      rw [a1 _ this x hx, b1 _ this x hx]

/-- **C75**. Two connected networks agree on a set of nodes that contains all parents of its nodes; outside of that set they may differ
in everything, but CPT rows there sum to one and there is no cycle. After the same history of evidence about nodes of the set, they report
the same probabilities for the nodes of the set. -/
theorem c75_ancestors (hu : Net.Usable ops) (hu' : Net.Usable ops') (ha : AgreeOn A (Bbn.run ops) (Bbn.run ops'))
    (ho : ProperOutside A (Bbn.run ops)) (ho' : ProperOutside A (Bbn.run ops'))
    (hj : apply it js (Bbn.run ops) = .ok jt) (hj' : apply it' js' (Bbn.run ops') = .ok jt')
    (h h' : List (SetIter Str × EvOp)) (hp : ∀ op ∈ h, op.2.Proper (Bbn.run ops).vars) (hA : ∀ op ∈ h, op.2.About A)
    (he : h'.map Prod.snd = h.map Prod.snd) {v : Variable} (hv : v ∈ (Bbn.run ops).vars) (hvA : A v.id) {x : Str} (hx : x ∈ v.values) :
    ∃ p, Reports (runHist jt h) v x p ∧ Reports (runHist jt' h') v x p := by
  obtain ⟨h1, h2⟩ := agree_posterior hu.toSane hu'.toSane ha ho ho' hp hA he
  refine ⟨_, reports_law hu hj h hp hv hx, ?_⟩
  have hv' : v ∈ (Bbn.run ops').vars := by
    obtain ⟨n, hn, rfl⟩ := List.mem_map.1 hv
    exact List.mem_map_of_mem ((ha.nodes n hvA).1 hn)
  rw [← h2 _ hvA x]
  exact reports_law hu' hj' h' h1 hv' hx

/-- **C75** for `reapply`. New CPTs for nodes that are not among a set closed under parents, with rows that sum to one, given to the join
tree of a session: what is reported for the nodes of the set, after evidence about the set, is what it was before. -/
theorem c75_reapply {jt₀ : JoinTree} (hu : Net.Usable ops) (hs : Session ops jt₀) {cpts : Dict Int (List ℚ)} (hk : (Dict.keys cpts).Nodup)
    (wf : (Bbn.run (withCpts cpts ops)).WF) (hcl : ∀ n ∈ (Bbn.run ops).toGraph.getNodes, A n.var.id → ∀ p ∈ (Bbn.run ops).parentVars n.var.id, A p.id)
    (hout : ∀ k ∈ Dict.keys cpts, ¬ A k) (ho : ProperOutside A (Bbn.run ops)) (ho' : ProperOutside A (Bbn.run (withCpts cpts ops)))
    (hj : apply it js (Bbn.run ops) = .ok jt) :
    ∃ jt', reapply js' jt₀ cpts = .ok jt' ∧ ∀ h h' : List (SetIter Str × EvOp), (∀ op ∈ h, op.2.Proper (Bbn.run ops).vars) →
      (∀ op ∈ h, op.2.About A) → h'.map Prod.snd = h.map Prod.snd → ∀ v ∈ (Bbn.run ops).vars, A v.id → ∀ x ∈ v.values,
        ∃ p, Reports (runHist jt h) v x p ∧ Reports (runHist jt' h') v x p := by
  obtain ⟨ℓ, cs, T, hh⟩ := hs.held
  obtain ⟨jt', h1, h2, h3⟩ := hh.reapply js' hk wf
  refine ⟨jt', h1, fun h h' hp hA he v hv hvA x hx => ?_⟩
  have hr := recpt_run cpts ops
  have hsame : ∀ n : BbnNode, A n.var.id → n.withCpt cpts = n := by
    intro n hn
    have : Dict.get? cpts n.var.id = none := by
      cases hg : Dict.get? cpts n.var.id with
      | none => rfl
      | some c => exact absurd hn (hout _ (Dict.mem_keys_of_get? hg))
    unfold BbnNode.withCpt
    rw [this]
    rfl
  have ha : AgreeOn A (Bbn.run ops) (Bbn.run (withCpts cpts ops)) := by
    refine ⟨fun n hn => ?_, fun n _ _ => hr.parentVars _, hcl⟩
    rw [hr.getNodes]
    constructor
    · exact fun hm => List.mem_map.2 ⟨n, hm, hsame n hn⟩
    · intro hm
      obtain ⟨m, hm1, rfl⟩ := List.mem_map.1 hm
      have hm' : A m.var.id := hn
      rw [hsame m hm']
      exact hm1
  obtain ⟨g1, g2⟩ := agree_posterior hu.toSane h2.sane ha ho ho' hp hA he
  refine ⟨_, reports_law hu hj h hp hv hx, ?_⟩
  obtain ⟨g3, _⟩ := h2.hist h3 h' g1
  rw [← g2 _ hvA x]
  have hv' : v ∈ (Bbn.run (withCpts cpts ops)).vars := by rw [hr.vars]; exact hv
  exact ⟨_, g3.posterior ((connectedOps_withCpts cpts).2 hu.conn) hv', at_posteriorTable _ _ _ hx⟩

end

/-! ## The claims are not vacuous -/

/-- the example network of C16 (0 → 1, 0 → 2, 1 → 3 ← 2, 3 → 4) with the part below nodes 1 and 2 replaced: 1 → 3 → 5 ← 2, node 3 has
three values -/
def c75_ops : List BOp :=
  let n3 : BbnNode := ⟨⟨3, "x".toList, ["lo".toList, "mid".toList, "hi".toList]⟩, [1/6, 1/3, 1/2, 1/10, 2/10, 7/10]⟩
  let n5 : BbnNode := mkNode 5 "y" [1/2, 1/2, 1/3, 2/3, 1/4, 3/4, 1/5, 4/5, 0, 1, 1, 0]
  [.addEdge n3 n5, .addEdge (mkNode 2 "c" [1/5, 4/5, 2/5, 3/5]) n5, .addEdge (mkNode 1 "b" [1/2, 1/2, 1/4, 3/4]) n3,
   .addEdge (mkNode 0 "a" [1/4, 3/4]) (mkNode 2 "c" [1/5, 4/5, 2/5, 3/5]),
   .addEdge (mkNode 0 "a" [1/4, 3/4]) (mkNode 1 "b" [1/2, 1/2, 1/4, 3/4])]

/-- nodes 0, 1 and 2 -/
def c75_part (i : Int) : Prop := i ≤ 2

instance : DecidablePred c75_part := fun i => inferInstanceAs (Decidable (i ≤ 2))

theorem c75_usable : Net.Usable c75_ops :=
  ⟨⟨wf_of_check (by decide +kernel) (by decide +kernel), by decide +kernel⟩, connected_of_check 0 (by decide +kernel)⟩

theorem c75_agree : AgreeOn c75_part (Bbn.run c16_ops) (Bbn.run c75_ops) := by
  refine ⟨?_, by decide +kernel, by decide +kernel⟩
  intro n hn
  have h1 : ∀ m ∈ (Bbn.run c16_ops).toGraph.getNodes, c75_part m.var.id → m ∈ (Bbn.run c75_ops).toGraph.getNodes := by decide +kernel
  have h2 : ∀ m ∈ (Bbn.run c75_ops).toGraph.getNodes, c75_part m.var.id → m ∈ (Bbn.run c16_ops).toGraph.getNodes := by decide +kernel
  exact ⟨fun h => h1 n h hn, fun h => h2 n h hn⟩

instance (ps : List Variable) (c : BbnNode) : Decidable (RowsSumToOne ps c) := by unfold RowsSumToOne; infer_instance

theorem properOutside_of_lt {A : Int → Prop} {ops : List BOp} (hr : ∀ n ∈ (Bbn.run ops).toGraph.getNodes, ¬ A n.var.id →
    RowsSumToOne ((Bbn.run ops).parentVars n.var.id) n) (hlt : ∀ e ∈ BOp.edges ops, e.1 < e.2) : ProperOutside A (Bbn.run ops) := by
  refine ⟨hr, ?_⟩
  intro a ha
  exact acyclic_of_lt hlt a (TransGen.mono (fun p c hpc => (par_iff ops p c).1 hpc.1) a a ha)

theorem c75_outside : ProperOutside c75_part (Bbn.run c16_ops) ∧ ProperOutside c75_part (Bbn.run c75_ops) :=
  ⟨properOutside_of_lt (by decide +kernel) (by decide +kernel), properOutside_of_lt (by decide +kernel) (by decide +kernel)⟩

/-- evidence about nodes 1 and 2: node 2 observed, virtual evidence for node 1, then node 2 forgotten again -/
def c75_hist : List (SetIter Str × EvOp) :=
  [(.same, .observe (obs (c16_node 2) "off".toList)),
   (.rev, .update [Evidence.build (c16_node 1) .virtual [("on".toList, 1/3), ("off".toList, 2/3)]]),
   (.same, .unobserve [c16_node 2])]

theorem c75_hist_proper : (∀ op ∈ c75_hist, op.2.Proper (Bbn.run c16_ops).vars) ∧ ∀ op ∈ c75_hist, op.2.About c75_part := by
  constructor <;> intro op hop <;> simp only [c75_hist, List.mem_cons, List.not_mem_nil, or_false] at hop <;> rcases hop with rfl | rfl | rfl
  · exact obs_proper (by decide +kernel) (by decide +kernel)
  · intro e he
    simp only [List.mem_cons, List.not_mem_nil, or_false] at he
    subst he
    decide +kernel
  · intro v hv
    simp only [List.mem_cons, List.not_mem_nil, or_false] at hv
    subst hv
    decide +kernel
  · show c75_part _; decide +kernel
  · intro e he
    simp only [List.mem_cons, List.not_mem_nil, or_false] at he
    subst he
    show c75_part _; decide +kernel
  · intro v hv
    simp only [List.mem_cons, List.not_mem_nil, or_false] at hv
    subst hv
    decide +kernel

/-- C75: the hypotheses hold; what both networks report for nodes 0, 1 and 2 after each step -/
example : Net.Usable c16_ops ∧ Net.Usable c75_ops ∧ AgreeOn c75_part (Bbn.run c16_ops) (Bbn.run c75_ops) ∧
    ((apply .same .same (Bbn.run c16_ops)).val?.map (fun jt => [1, 2, 3].map (fun k => [0, 1, 2].map (fun i =>
      firstOf (runHist jt (c75_hist.take k)) (c16_node i))))) =
    ((apply .same .same (Bbn.run c75_ops)).val?.map (fun jt => [1, 2, 3].map (fun k => [0, 1, 2].map (fun i =>
      firstOf (runHist jt (c75_hist.take k)) (c16_node i))))) ∧
    ((apply .same .same (Bbn.run c16_ops)).val?.map (fun jt => [1, 2, 3].map (fun k => [0, 1, 2].map (fun i =>
      firstOf (runHist jt (c75_hist.take k)) (c16_node i))))) =
      some [[some (4/13), some (17/52), some 0], [some (8/29), some (17/87), some 0], [some (2/9), some (5/27), some (16/45)]] :=
  ⟨c16_usable, c75_usable, c75_agree, by decide +kernel, by decide +kernel⟩

/-- new CPTs for nodes 3 and 4 -/
def c75_cpts : Dict Int (List ℚ) := [(4, [1/2, 1/2, 1/5, 4/5]), (3, [1, 0, 1/7, 6/7, 1/2, 1/2, 0, 1])]

/-- C75 for `reapply`: the hypotheses hold, and the reports for nodes 0, 1 and 2 are those above -/
example : (Dict.keys c75_cpts).Nodup ∧ (Bbn.run (withCpts c75_cpts c16_ops)).WF ∧ (∀ k ∈ Dict.keys c75_cpts, ¬ c75_part k) ∧
    ProperOutside c75_part (Bbn.run (withCpts c75_cpts c16_ops)) ∧
    (((apply .same .same (Bbn.run c16_ops)).val?.bind (fun jt => (reapply .same jt c75_cpts).val?)).map (fun jt => [1, 2, 3].map (fun k =>
      [0, 1, 2].map (fun i => firstOf (runHist jt (c75_hist.take k)) (c16_node i))))) =
      some [[some (4/13), some (17/52), some 0], [some (8/29), some (17/87), some 0], [some (2/9), some (5/27), some (16/45)]] :=
  ⟨by decide +kernel, wf_of_check (by decide +kernel) (by decide +kernel), by decide +kernel,
    properOutside_of_lt (by decide +kernel) (by decide +kernel), by decide +kernel⟩

/-- that rows sum to one is needed: with a CPT of node 4 whose rows do not, node 0 is reported differently although nothing is observed -/
example : ¬ ProperOutside c75_part (Bbn.run (withCpts [(4, [1/2, 1/2, 1/4, 1/4])] c16_ops)) ∧
    ((apply .same .same (Bbn.run c16_ops)).val?.map (fun jt => firstOf jt (c16_node 0))) = some (some (1/4)) ∧
    ((apply .same .same (Bbn.run (withCpts [(4, [1/2, 1/2, 1/4, 1/4])] c16_ops))).val?.map (fun jt => firstOf jt (c16_node 0))) ≠
      some (some (1/4)) :=
  ⟨fun h => absurd h.rows (by decide +kernel), by decide +kernel, by decide +kernel⟩

end PyBBN
