import Verif.Proofs.Orders
import Verif.Props.Evidence

/-! Answers do not depend on the iteration order of sets. -/

namespace PyBBN
open Relation InferenceController

/-- join trees of the same network whose tables are calibrated for the same likelihoods give the same answers -/
theorem live_same {it it' : SetIter Int} {js js' : SetIter Str} {ops : List BOp} {jt jt' j j' : JoinTree} {T T' : List SepSet} {ℓ : Liks}
    (hu : Net.Sane ops) (hj : apply it js (Bbn.run ops) = .ok jt) (hj' : apply it' js' (Bbn.run ops) = .ok jt')
    (a6 : SameTree j jt) (b6 : SameTree j' jt')
    (a4 : Live (Bbn.run ops).vars (Triangulator.triangulate it (moralize (Bbn.run ops))).1 T (Bbn.run ops).net ℓ j)
    (b4 : Live (Bbn.run ops).vars (Triangulator.triangulate it' (moralize (Bbn.run ops))).1 T' (Bbn.run ops).net ℓ j') :
    ∀ v ∈ (Bbn.run ops).vars, j.getBbnPotential v = j'.getBbnPotential v := by
  intro v hv
  have hN := Bbn.net_ok (bbn_run_inv ops) hu.wf
  have hi := bbn_run_inv ops
  have hf := triangulate_same it it' hi
  have hcl : ∀ {it : SetIter Int} {js : SetIter Str} {jt j : JoinTree}, apply it js (Bbn.run ops) = .ok jt → SameTree j jt →
      j.getCliques = (Triangulator.triangulate it (moralize (Bbn.run ops))).1 := by
    intro it js jt j hj hsame
    obtain ⟨_, jt', e1, _, _, _, _, _, _, e2, _⟩ := applyWith_spec it js hi hu.wf (vars_ne hu.wf hj) (leftover_nil _ _)
    have e : jt' = jt := by
      have : apply it js (Bbn.run ops) = .ok jt' := e1
      rw [hj] at this
      cases this
      rfl
    subst e
    have hs := (triangulate_spec it hi).1
    rw [← getCliques_transform js (cs := (Triangulator.triangulate it (moralize (Bbn.run ops))).1) ⟨hs.nodup, hs.anti⟩]
    unfold JoinTree.getCliques
    rw [hsame.nodes, e2]
  refine a4.calib.same b4.calib hN hf (startClique_same (by rw [hcl hj a6, hcl hj' b6]; exact hf)) ?_ v hv
  intro u hu'
  have hpa := apply_pc hi hu.wf hj
  have hpb := apply_pc hi hu.wf hj'
  rw [← a6.heap] at hpa
  rw [← b6.heap] at hpb
  obtain ⟨o, o1, _, c, _, o2, _⟩ := a4.calib.done u hu'
  obtain ⟨o', o1', _, c', _, o2', _⟩ := b4.calib.done u hu'
  have h1 := (hpa _ _ o1).2 _ o2
  have h2 := (hpb _ _ o1').2 _ o2'
  rw [minClique_same hf, h2] at h1
  have h3 := Option.some.inj h1
  unfold pcOf
  rw [o1, o1']
  simp [o2, o2', h3]

/-! ## C20 -/

/-- **C20**: two runs of the same history of operations (whatever they are, with whatever exceptions on the way) on join trees
built with different set iteration orders give the same posteriors, and the next operation raises the same exception; connected
network or not. -/
theorem c20_order_independent {it it' : SetIter Int} {js js' : SetIter Str} {ops : List BOp} {jt jt' : JoinTree}
    (hu : Net.Sane ops) (hj : apply it js (Bbn.run ops) = .ok jt) (hj' : apply it' js' (Bbn.run ops) = .ok jt')
    (h h' : List (SetIter Str × EvOp)) (hn : ∀ op ∈ h, op.2.Nodes (Bbn.run ops).vars) (heq : h.map Prod.snd = h'.map Prod.snd) :
    (∀ v ∈ (Bbn.run ops).vars, (runHist jt h).getBbnPotential v = (runHist jt' h').getBbnPotential v) ∧
    ∀ (k k' : SetIter Str) (op : EvOp), op.Nodes (Bbn.run ops).vars →
      (op.run k (runHist jt h)).2 = (op.run k' (runHist jt' h')).2 := by
  have hd := doms hu
  have hN := Bbn.net_ok (bbn_run_inv ops) hu.wf
  have hn' : ∀ op ∈ h', op.2.Nodes (Bbn.run ops).vars := by
    intro op ho
    have : op.2 ∈ h.map Prod.snd := by rw [heq]; exact List.mem_map_of_mem ho
    obtain ⟨o, ho', e⟩ := List.mem_map.1 this
    rw [← e]
    exact hn o ho'
  obtain ⟨T, s, a1, a2, a3, a4, a5, a6⟩ := live_hist hu hj h hn
  obtain ⟨T', s', b1, b2, b3, b4, b5, b6⟩ := live_hist hu hj' h' hn'
  have hs0 : EvSame s s' := ⟨a3.eq_of_lik b3 hd (fun v _ x _ => by rw [a1, b1]), by rw [a2, b2]⟩
  have hsame : ∀ (h h' : List (SetIter Str × EvOp)) (s s' : EvState), h.map Prod.snd = h'.map Prod.snd → EvGood (Bbn.run ops).vars s.ev →
      EvSame s s' → (∀ op ∈ h, op.2.Nodes (Bbn.run ops).vars) → (∀ (h1 h2 : List (SetIter Str × EvOp)), h = h1 ++ h2 →
        EvGood (Bbn.run ops).vars (evHist (Bbn.run ops).vars s h1).ev) →
      EvSame (evHist (Bbn.run ops).vars s h) (evHist (Bbn.run ops).vars s' h') := by
    intro h
    induction h with
    | nil =>
      intro h' s s' e hg hs _ _
      have : h' = [] := by simpa using e.symm
      subst this
      exact hs
    | cons op h ih =>
      intro h' s s' e hg hs hn hpre
      cases h' with
      | nil => simp at e
      | cons op' h' =>
        rw [List.map_cons, List.map_cons, List.cons.injEq] at e
        have hc := evOp_congr hd hg hs (List.Perm.refl _) (List.Perm.refl _) op.2
        have hg' : EvGood (Bbn.run ops).vars (evOp (Bbn.run ops).vars s op.2).1.ev := hpre [op] h rfl
        have hc1 : EvSame (evOp (Bbn.run ops).vars s op.2).1 (evOp (Bbn.run ops).vars s' op'.2).1 := by
          rw [← e.1]; exact hc.1
        refine ih h' _ _ e.2 hg' hc1 (fun o ho => hn o (List.mem_cons_of_mem _ ho)) ?_
        intro h1 h2 e'
        exact hpre (op :: h1) h2 (by rw [e']; rfl)
  have hpre : ∀ (h1 h2 : List (SetIter Str × EvOp)), h = h1 ++ h2 →
      EvGood (Bbn.run ops).vars (evHist (Bbn.run ops).vars s h1).ev := by
    intro h1 h2 e
    obtain ⟨T1, l1, l2, l3⟩ := live_apply hu hj
    obtain ⟨c1, c2, _⟩ := Live.hist hN l3 hu.vals h1 (s := s) (by rw [a2]; exact l1)
      (l1.good.eq_of_lik a3 hd (fun v _ x _ => by rw [l2, a1])) (fun o ho => hn o (by rw [e]; exact List.mem_append_left _ ho))
    exact c1.good.congr c2
  have hfin := hsame h h' s s' heq a3 hs0 hn hpre
  refine ⟨?_, ?_⟩
  · intro v hv
    rw [← hfin.2] at b4
    exact live_same hu hj hj' a6 b6 a4 b4 v hv
  · intro k k' op hop
    have hne := (live_apply hu hj).choose_spec.2.2
    have hne' := (live_apply hu hj').choose_spec.2.2
    rw [Live.hist_err hN hne hu.vals a4 a5 k op hop, Live.hist_err hN hne' hu.vals b4 b5 k' op hop]
    exact (evOp_congr hd (hpre h [] (by simp)) hfin (List.Perm.refl _) (List.Perm.refl _) op).2

/-- **C20**: whether `apply` succeeds does not depend on the iteration orders either -/
theorem c20_apply (it it' : SetIter Int) (js js' : SetIter Str) {ops : List BOp} (hu : Net.Sane ops) :
    (apply it js (Bbn.run ops)).err? = (apply it' js' (Bbn.run ops)).err? := by
  by_cases hne : (Bbn.run ops).vars = []
  · have hconn : ConnectedOps ops := by
      intro u hu
      rw [hne] at hu
      simp at hu
    rw [(c16_exact_priors it js ops hu.wf hconn).2 hne, (c16_exact_priors it' js' ops hu.wf hconn).2 hne]
  · obtain ⟨_, jt, e, _⟩ := applyWith_spec it js (bbn_run_inv ops) hu.wf hne (leftover_nil _ _)
    obtain ⟨_, jt', e', _⟩ := applyWith_spec it' js' (bbn_run_inv ops) hu.wf hne (leftover_nil _ _)
    unfold apply
    rw [e, e']
    rfl

/-- C20 is not vacuous: on the example network the two orders give different join trees (the cliques are listed differently) -/
example : Net.Usable c16_ops ∧ (∀ op ∈ c18_hist, op.2.Nodes (Bbn.run c16_ops).vars) ∧
    (apply .same .same (Bbn.run c16_ops)).val?.isSome = true ∧ (apply .rev .rev (Bbn.run c16_ops)).val?.isSome = true ∧
    ((apply .same .same (Bbn.run c16_ops)).val?.map (fun jt => jt.getCliques.map (fun c => c.nodes.map Variable.id))) ≠
      ((apply .rev .rev (Bbn.run c16_ops)).val?.map (fun jt => jt.getCliques.map (fun c => c.nodes.map Variable.id))) :=
  ⟨c16_usable, fun op ho => (c18_hist_ok op ho).proper.nodes (doms c16_usable.toSane), by decide +kernel, by decide +kernel,
    by decide +kernel⟩

example := c20_order_independent c16_usable.toSane (c16_jt_ok .same .same) (c16_jt_ok .rev .rev) c18_hist c18_hist c18_hist_nodes rfl
example := c20_apply .same .rev .rev .same c16_usable.toSane

/-- … and on a network with two components, where the answers are not the exact ones -/
def c20_ops : List BOp :=
  [.addEdge (mkNode 0 "a" [1/4, 3/4]) (mkNode 1 "b" [1/2, 1/2, 1/4, 3/4]),
   .addEdge (mkNode 2 "c" [1/5, 4/5]) (mkNode 4 "e" [1/10, 9/10, 1/5, 4/5, 1/3, 2/3, 3/4, 1/4]),
   .addEdge (mkNode 3 "d" [1/10, 9/10]) (mkNode 4 "e" [1/10, 9/10, 1/5, 4/5, 1/3, 2/3, 3/4, 1/4]),
   .addEdge (mkNode 4 "e" [1/10, 9/10, 1/5, 4/5, 1/3, 2/3, 3/4, 1/4]) (mkNode 5 "f" [1/7, 6/7, 2/7, 5/7])]

def c20_hist : List (SetIter Str × EvOp) :=
  [(.same, .observe (Evidence.build (c16_node 3) .observation [("on".toList, 1)]))]

theorem c20_sane : Net.Sane c20_ops := ⟨wf_of_check (by decide +kernel) (by decide +kernel), by decide +kernel⟩

example : Net.Sane c20_ops ∧ (∀ op ∈ c20_hist, op.2.Nodes (Bbn.run c20_ops).vars) ∧
    ((apply .same .same (Bbn.run c20_ops)).val?.map (fun jt => jt.getCliques.map (fun c => c.nodes.map Variable.id))) ≠
      ((apply .rev .rev (Bbn.run c20_ops)).val?.map (fun jt => jt.getCliques.map (fun c => c.nodes.map Variable.id))) ∧
    ((apply .same .same (Bbn.run c20_ops)).val?.bind (fun jt => ((runHist jt c20_hist).getBbnPotential (mkNode 5 "f" []).var).val?)).map
      (fun P => P.map PEntry.value) = some [3/14, 11/14] ∧
    (posteriorTable (Bbn.run c20_ops) (specHist (Bbn.run c20_ops).vars c20_hist) (mkNode 5 "f" []).var).map PEntry.value ≠ [3/14, 11/14] := by
  refine ⟨c20_sane, ?_, by decide +kernel, by decide +kernel, by decide +kernel⟩
  intro op hop
  simp only [c20_hist, List.mem_cons, List.not_mem_nil, or_false] at hop
  subst hop
  exact ⟨by unfold NodeOk; decide +kernel, by decide +kernel⟩

/-! ## C21 for every network -/

/-- a table over one node that is normalized: no exception, non-negative, sums to 1 or is all 0 -/
theorem normalize_dist {vars : List Variable} (hn : (vids vars).Nodup) {v : Variable} (hv : v ∈ vars) {f : Asg → ℚ} (hf : ∀ σ, 0 ≤ f σ) :
    ∃ P, PotentialUtil.normalize (tab [v] f) = .ok P ∧ (∀ e ∈ P, 0 ≤ e.value) ∧ ((P.map PEntry.value).sum = 1 ∨ ∀ e ∈ P, e.value = 0) := by
  have hD : DomOk (domOf vars) [v] := (domOf_ok hn).sub (by intro u hu; simp at hu; subst hu; exact hv)
  refine ⟨_, normalize_tab hD f, ?_, ?_⟩
  · intro e he
    unfold tab at he
    obtain ⟨x, _, rfl⟩ := List.mem_map.1 he
    dsimp only
    split
    · exact hf _
    · exact div_nonneg (hf _) (elim_nonneg hf _ _)
  · by_cases h0 : elim (domOf vars) (vids [v]) f asg0 = 0
    · right
      simp only [h0, if_true]
      have hs := sum_tab (f := f) hD
      rw [h0] at hs
      intro e he
      have hnn : ∀ q ∈ (tab [v] f).map PEntry.value, 0 ≤ q := by
        intro q hq
        obtain ⟨e, he, rfl⟩ := List.mem_map.1 hq
        unfold tab at he
        obtain ⟨x, _, rfl⟩ := List.mem_map.1 he
        exact hf _
      exact List.all_zero_of_le_zero_le_of_sum_eq_zero hnn hs (List.mem_map_of_mem he)
    · left
      simp only [h0, if_false]
      rw [sum_tab hD]
      have := elim_mul_right (D := domOf vars) (Dep.const (S := fun _ => False) (elim (domOf vars) (vids [v]) f asg0)⁻¹) (l := vids [v])
        (fun _ _ h => h) f
      simp only [div_eq_mul_inv]
      rw [this]
      exact mul_inv_cancel₀ h0

/-- **C21**: on every network, connected or not, and after any history of operations (with whatever exceptions on the way), the table of
every node is returned without exception, is non-negative, and sums to 1 or is all 0. -/
theorem c21_any_network {it : SetIter Int} {js : SetIter Str} {ops : List BOp} {jt : JoinTree} (hu : Net.Sane ops)
    (hj : apply it js (Bbn.run ops) = .ok jt) (h : List (SetIter Str × EvOp)) (hn : ∀ op ∈ h, op.2.Nodes (Bbn.run ops).vars) :
    ∀ v ∈ (Bbn.run ops).vars, ∃ P, (runHist jt h).getBbnPotential v = .ok P ∧ (∀ e ∈ P, 0 ≤ e.value) ∧
      ((P.map PEntry.value).sum = 1 ∨ ∀ e ∈ P, e.value = 0) := by
  intro v hv
  obtain ⟨T, s0, h1, h2, h3, h4, h5, h6⟩ := live_hist hu hj h hn
  have hN := Bbn.net_ok (bbn_run_inv ops) hu.wf
  obtain ⟨R, ks, vs, c, _, _, _, _, e⟩ := h4.calib.reads hN hv
  rw [e]
  have hw : ∀ u ∈ (Bbn.run ops).vars, ∀ σ, 0 ≤ (Bbn.run ops).net.w (evHist (Bbn.run ops).vars s0 h).prop u σ := fun u hu' σ =>
    mul_nonneg (hN.nonneg u hu' σ) (h4.calib.likNonneg _ _)
  refine normalize_dist (doms hu).vn hv ?_
  split
  · refine elim_nonneg ?_ _
    intro σ
    exact prod_map_nonneg (fun v => (Bbn.run ops).net.w (evHist (Bbn.run ops).vars s0 h).prop v) σ _
      (fun u hu' => hw u (List.mem_filter.1 hu').1 σ)
  · exact elim_nonneg (fun σ => wprod_nonneg _ hw _ σ) _

/-- C21 applies to the network with two components and its evidence -/
example : Net.Sane c20_ops ∧ (apply .same .same (Bbn.run c20_ops)).val?.isSome = true ∧ (∀ op ∈ c20_hist, op.2.Nodes (Bbn.run c20_ops).vars) := by
  refine ⟨c20_sane, by decide +kernel, ?_⟩
  intro op hop
  simp only [c20_hist, List.mem_cons, List.not_mem_nil, or_false] at hop
  subst hop
  exact ⟨by unfold NodeOk; decide +kernel, by decide +kernel⟩

example := c21_any_network c16_usable.toSane (c16_jt_ok .rev .same) c18_hist c18_hist_nodes

end PyBBN
