import Verif.Props.Reapply
import Verif.Props.Certain

/-! # C82: how a report depends on one CPT -/

namespace PyBBN
open Relation InferenceController

/-- the CPT on the straight line from `p` in direction `q`: entry by entry `p + t q` -/
def cptLine (p q : List ℚ) (t : ℚ) : List ℚ := List.zipWith (fun a b => a + t * b) p q

theorem cptLine_getD {p q : List ℚ} (h : p.length = q.length) (t : ℚ) (k : Nat) :
    (cptLine p q t).getD k 0 = q.getD k 0 * t + p.getD k 0 := by
  unfold cptLine
  induction p generalizing q k with
  | nil => cases q with
    | nil => simp
    | cons _ _ => simp at h
  | cons a p ih => cases q with
    | nil => simp at h
    | cons b q =>
      cases k with
      | zero => simp; ring
      | succ k => simpa using ih (by simpa using h) k

/-- a product in which one factor is affine in `t` -/
theorem prod_affine {α : Type} (key : α → Int) (i : Int) (f : α → ℚ → ℚ) : ∀ (l : List α), (l.map key).Nodup →
    (∀ n ∈ l, key n ≠ i → ∀ t, f n t = f n 0) → (∀ n ∈ l, key n = i → ∃ a b, ∀ t, f n t = a * t + b) →
    ∃ a b, ∀ t, (l.map (fun n => f n t)).prod = a * t + b := by
  intro l
  induction l with
  | nil => intro _ _ _; exact ⟨0, 1, by simp⟩
  | cons n l ih =>
    intro hn h1 h2
    rw [List.map_cons, List.nodup_cons] at hn
    by_cases e : key n = i
    · obtain ⟨a, b, hab⟩ := h2 n List.mem_cons_self e
      have hc : ∀ t, l.map (fun m => f m t) = l.map (fun m => f m 0) := fun t => List.map_congr_left (fun m hm =>
        h1 m (List.mem_cons_of_mem _ hm) (fun e' => hn.1 (by rw [e, ← e']; exact List.mem_map_of_mem hm)) t)
      refine ⟨a * (l.map (fun m => f m 0)).prod, b * (l.map (fun m => f m 0)).prod, fun t => ?_⟩
      rw [List.map_cons, List.prod_cons, hc t, hab t]
      ring
    · obtain ⟨a, b, hab⟩ := ih hn.2 (fun m hm => h1 m (List.mem_cons_of_mem _ hm)) (fun m hm => h2 m (List.mem_cons_of_mem _ hm))
      refine ⟨f n 0 * a, f n 0 * b, fun t => ?_⟩
      rw [List.map_cons, List.prod_cons, hab t, h1 n List.mem_cons_self e t]
      ring

theorem sum_affine {α : Type} (l : List α) (f : ℚ → α → ℚ) (h : ∀ s ∈ l, ∃ a b, ∀ t, f t s = a * t + b) :
    ∃ a b, ∀ t, (l.map (f t)).sum = a * t + b := by
  induction l with
  | nil => exact ⟨0, 0, by simp⟩
  | cons s l ih =>
    obtain ⟨a, b, h1⟩ := h s List.mem_cons_self
    obtain ⟨c, d, h2⟩ := ih (fun s hs => h s (List.mem_cons_of_mem _ hs))
    refine ⟨a + c, b + d, fun t => ?_⟩
    rw [List.map_cons, List.sum_cons, h1 t, h2 t]
    ring

section
variable {it : SetIter Int} {js : SetIter Str} {ops : List BOp} {jt : JoinTree}

theorem weight_affine (ops : List BOp) (i : Int) {p q : List ℚ} (hpq : p.length = q.length) (ℓ : Liks) (σ : Asg) :
    ∃ a b, ∀ t, (Bbn.run (withCpts [(i, cptLine p q t)] ops)).weight ℓ σ = a * t + b := by
  have hi := bbn_run_inv ops
  have e : ∀ t, (Bbn.run (withCpts [(i, cptLine p q t)] ops)).weight ℓ σ = ((Bbn.run ops).toGraph.getNodes.map (fun n =>
      cptAt (n.withCpt [(i, cptLine p q t)]).probs ((Bbn.run ops).parentVars n.var.id) n.var σ * ℓ n.var.id (σ n.var.id))).prod := by
    intro t
    have hr := recpt_run [(i, cptLine p q t)] ops
    unfold Bbn.weight
    rw [hr.getNodes, List.map_map]
    refine congrArg List.prod (List.map_congr_left fun n _ => ?_)
    show cptAt _ ((Bbn.run (withCpts [(i, cptLine p q t)] ops)).parentVars n.var.id) _ _ * _ = _
    rw [hr.parentVars]
    rfl
  simp only [e]
  have hnd : ((Bbn.run ops).toGraph.getNodes.map (fun n => n.var.id)).Nodup := by
    have := vars_nodup hi
    rw [vids, Bbn.vars, List.map_map] at this
    exact this
  refine prod_affine (fun n : BbnNode => n.var.id) i
    (fun n t => cptAt (n.withCpt [(i, cptLine p q t)]).probs ((Bbn.run ops).parentVars n.var.id) n.var σ * ℓ n.var.id (σ n.var.id)) _ hnd ?_ ?_
  · intro n _ hne t
    have : ∀ t, (n.withCpt [(i, cptLine p q t)]).probs = n.probs := by
      intro t
      simp [BbnNode.withCpt, Dict.get?, Ne.symm hne]
    simp only [this]
  · intro n _ he
    refine ⟨q.getD (cptIndex ((Bbn.run ops).parentVars n.var.id) n.var σ) 0 * ℓ n.var.id (σ n.var.id),
      p.getD (cptIndex ((Bbn.run ops).parentVars n.var.id) n.var σ) 0 * ℓ n.var.id (σ n.var.id), fun t => ?_⟩
    have : (n.withCpt [(i, cptLine p q t)]).probs = cptLine p q t := by
      simp [BbnNode.withCpt, Dict.get?, he]
    simp only [this, cptAt, cptLine_getD hpq]
    ring

theorem mass_affine (ops : List BOp) (i : Int) {p q : List ℚ} (hpq : p.length = q.length) (ℓ : Liks) :
    (∀ v x, ∃ a b, ∀ t, (Bbn.run (withCpts [(i, cptLine p q t)] ops)).mass ℓ v x = a * t + b) ∧
      ∃ a b, ∀ t, (Bbn.run (withCpts [(i, cptLine p q t)] ops)).total ℓ = a * t + b := by
  have hv : ∀ t, (Bbn.run (withCpts [(i, cptLine p q t)] ops)).vars = (Bbn.run ops).vars := fun t => (recpt_run _ ops).vars
  constructor
  · intro v x
    unfold Bbn.mass
    simp only [hv]
    exact sum_affine _ _ (fun σ _ => weight_affine ops i hpq ℓ σ)
  · unfold Bbn.total
    simp only [hv]
    exact sum_affine _ _ (fun σ _ => weight_affine ops i hpq ℓ σ)

/-- the report after `reapply` with other CPTs and evidence -/
theorem reports_reapply (hs : Session ops jt) (hconn : ConnectedOps ops) (js : SetIter Str) {cpts : Dict Int (List ℚ)}
    (hk : (Dict.keys cpts).Nodup) (wf : (Bbn.run (withCpts cpts ops)).WF) :
    ∃ jt', reapply js jt cpts = .ok jt' ∧ ∀ h : List (SetIter Str × EvOp), (∀ op ∈ h, op.2.Proper (Bbn.run ops).vars) →
      (∀ i x, 0 ≤ (lawHist (Bbn.run ops).vars h).prop i x) ∧ ∀ v ∈ (Bbn.run ops).vars, ∀ x ∈ v.values,
        Reports (runHist jt' h) v x ((Bbn.run (withCpts cpts ops)).posterior (lawHist (Bbn.run ops).vars h).prop v.id x) := by
  obtain ⟨ℓ, cs, T, hh⟩ := hs.held
  obtain ⟨jt', h1, h2, h3⟩ := hh.reapply js hk wf
  refine ⟨jt', h1, fun h hp => ?_⟩
  have hr := recpt_run cpts ops
  rw [← hr.vars] at hp ⊢
  obtain ⟨g, _⟩ := h2.hist h3 h hp
  refine ⟨g.live.calib.likNonneg, fun v hv x hx => ?_⟩
  exact ⟨_, g.posterior ((connectedOps_withCpts cpts).2 hconn) hv, at_posteriorTable _ _ _ hx⟩

/-- **C82**. How a report depends on one CPT. The CPT of one node runs along a straight line `p + t q` (one entry and its complement, or a
whole row with the others scaled in proportion, are such lines), and `reapply` is given this CPT, then any history of evidence is entered.
There are numbers `α, β, γ, δ`, which do not depend on `t`, such that the report of a value of a node is `(α t + β) / (γ t + δ)` for all
`t` for which the CPT is one; on all join trees of a session and for all iteration orders. -/
theorem c82_fraction (hs : Session ops jt) (hconn : ConnectedOps ops) (i : Int) {p q : List ℚ} (hpq : p.length = q.length)
    (h : List (SetIter Str × EvOp)) (hp : ∀ op ∈ h, op.2.Proper (Bbn.run ops).vars) {v : Variable} (hv : v ∈ (Bbn.run ops).vars)
    {x : Str} (hx : x ∈ v.values) :
    ∃ α β γ δ : ℚ, ∀ t, (Bbn.run (withCpts [(i, cptLine p q t)] ops)).WF → ∀ js : SetIter Str,
      ∃ jt', reapply js jt [(i, cptLine p q t)] = .ok jt' ∧ Reports (runHist jt' h) v x ((α * t + β) / (γ * t + δ)) := by
  obtain ⟨h1, γ, δ, h2⟩ := mass_affine ops i hpq (lawHist (Bbn.run ops).vars h).prop
  obtain ⟨α, β, h3⟩ := h1 v.id x
  refine ⟨α, β, γ, δ, fun t wf js => ?_⟩
  obtain ⟨jt', g1, g2⟩ := reports_reapply hs hconn js (by simp [Dict.keys]) wf
  refine ⟨jt', g1, ?_⟩
  have := (g2 h hp).2 v hv x hx
  unfold Bbn.posterior at this
  rw [h2 t, h3 t] at this
  exact this

/-- a CPT between two CPTs is one -/
theorem wf_between (i : Int) {p q : List ℚ} (hpq : p.length = q.length) {t₁ t₂ t₃ : ℚ} (h12 : t₁ ≤ t₂) (h23 : t₂ ≤ t₃)
    (w1 : (Bbn.run (withCpts [(i, cptLine p q t₁)] ops)).WF) (w3 : (Bbn.run (withCpts [(i, cptLine p q t₃)] ops)).WF) :
    (Bbn.run (withCpts [(i, cptLine p q t₂)] ops)).WF := by
  have r1 := recpt_run [(i, cptLine p q t₁)] ops
  have r2 := recpt_run [(i, cptLine p q t₂)] ops
  have r3 := recpt_run [(i, cptLine p q t₃)] ops
  have hlen : ∀ t, (cptLine p q t).length = p.length := by
    intro t; unfold cptLine; rw [List.length_zipWith, hpq, min_self]
  refine ⟨?_, ?_, ?_, ?_⟩
  · rw [r2.parents, ← r1.parents]; exact w1.noLoop
  · intro n hn
    rw [r2.getNodes] at hn
    obtain ⟨m, hm, rfl⟩ := List.mem_map.1 hn
    exact w1.values (m.withCpt [(i, cptLine p q t₁)]) (by rw [r1.getNodes]; exact List.mem_map_of_mem hm)
  · intro n hn
    rw [r2.getNodes] at hn
    obtain ⟨m, hm, rfl⟩ := List.mem_map.1 hn
    have := w1.cpt (m.withCpt [(i, cptLine p q t₁)]) (by rw [r1.getNodes]; exact List.mem_map_of_mem hm)
    rw [r1.parentVars] at this
    rw [r2.parentVars]
    refine le_trans this (le_of_eq ?_)
    unfold BbnNode.withCpt
    by_cases e : i = m.var.id
    · simp [Dict.get?, e, hlen]
    · simp [Dict.get?, e]
  · intro n hn
    rw [r2.getNodes] at hn
    obtain ⟨m, hm, rfl⟩ := List.mem_map.1 hn
    have n1 := w1.nonneg (m.withCpt [(i, cptLine p q t₁)]) (by rw [r1.getNodes]; exact List.mem_map_of_mem hm)
    have n3 := w3.nonneg (m.withCpt [(i, cptLine p q t₃)]) (by rw [r3.getNodes]; exact List.mem_map_of_mem hm)
    by_cases e : i = m.var.id
    · simp only [BbnNode.withCpt, Dict.get?, e, if_true, Option.getD_some] at n1 n3 ⊢
      intro y hy
      obtain ⟨k, hk, rfl⟩ := List.getElem_of_mem hy
      have hk' : k < p.length := by rw [← hlen t₂]; exact hk
      have g1 := n1 _ (List.getElem_mem (h := by rw [hlen]; exact hk') (n := k))
      have g3 := n3 _ (List.getElem_mem (h := by rw [hlen]; exact hk') (n := k))
      simp only [cptLine, List.getElem_zipWith] at g1 g3 ⊢
      rcases le_total 0 (q[k]'(hpq ▸ hk')) with hq | hq
      · nlinarith [mul_le_mul_of_nonneg_right h12 hq]
      · nlinarith [mul_le_mul_of_nonpos_right h23 hq]
    · simp only [BbnNode.withCpt, Dict.get?, e, if_false, Option.getD_none] at n1 ⊢
      exact n1

theorem fraction_between {α β γ δ t₁ t₂ t₃ : ℚ} (h12 : t₁ ≤ t₂) (h23 : t₂ ≤ t₃) (d1 : 0 < γ * t₁ + δ) (d3 : 0 < γ * t₃ + δ) :
    min ((α * t₁ + β) / (γ * t₁ + δ)) ((α * t₃ + β) / (γ * t₃ + δ)) ≤ (α * t₂ + β) / (γ * t₂ + δ) ∧
      (α * t₂ + β) / (γ * t₂ + δ) ≤ max ((α * t₁ + β) / (γ * t₁ + δ)) ((α * t₃ + β) / (γ * t₃ + δ)) := by
  have d2 : 0 < γ * t₂ + δ := by
    rcases le_total 0 γ with h | h
    · nlinarith [mul_le_mul_of_nonneg_left h12 h]
    · nlinarith [mul_le_mul_of_nonpos_left h23 h]
  rcases le_total 0 (α * δ - β * γ) with h | h
  · constructor
    · refine le_trans (min_le_left _ _) ?_
      rw [div_le_div_iff₀ d1 d2]
      nlinarith [mul_le_mul_of_nonneg_left h12 h]
    · refine le_trans ?_ (le_max_right _ _)
      rw [div_le_div_iff₀ d2 d3]
      nlinarith [mul_le_mul_of_nonneg_left h23 h]
  · constructor
    · refine le_trans (min_le_right _ _) ?_
      rw [div_le_div_iff₀ d3 d2]
      nlinarith [mul_le_mul_of_nonpos_left h23 h]
    · refine le_trans ?_ (le_max_left _ _)
      rw [div_le_div_iff₀ d2 d1]
      nlinarith [mul_le_mul_of_nonpos_left h12 h]

/-- **C82**, consequence: bounds for a CPT give bounds for the reports. If two CPTs for a node are possible and the evidence is possible with
both (some value of the node asked about is not reported with 0), then with any CPT on the line between them, the report lies between the
two reports. -/
theorem c82_between (hs : Session ops jt) (hconn : ConnectedOps ops) (i : Int) {p q : List ℚ} (hpq : p.length = q.length)
    {t₁ t₂ t₃ : ℚ} (h12 : t₁ ≤ t₂) (h23 : t₂ ≤ t₃)
    (w1 : (Bbn.run (withCpts [(i, cptLine p q t₁)] ops)).WF) (w3 : (Bbn.run (withCpts [(i, cptLine p q t₃)] ops)).WF)
    (h : List (SetIter Str × EvOp)) (hp : ∀ op ∈ h, op.2.Proper (Bbn.run ops).vars) {v : Variable} (hv : v ∈ (Bbn.run ops).vars)
    {x : Str} (hx : x ∈ v.values) {js₁ js₂ js₃ : SetIter Str} {jt₁ jt₃ : JoinTree} {r₁ r₃ : ℚ}
    (a1 : reapply js₁ jt [(i, cptLine p q t₁)] = .ok jt₁) (a3 : reapply js₃ jt [(i, cptLine p q t₃)] = .ok jt₃)
    (q1 : ∃ y ∈ v.values, ¬ Reports (runHist jt₁ h) v y 0) (q3 : ∃ y ∈ v.values, ¬ Reports (runHist jt₃ h) v y 0)
    (e1 : Reports (runHist jt₁ h) v x r₁) (e3 : Reports (runHist jt₃ h) v x r₃) :
    ∃ jt₂ r₂, reapply js₂ jt [(i, cptLine p q t₂)] = .ok jt₂ ∧ Reports (runHist jt₂ h) v x r₂ ∧ min r₁ r₃ ≤ r₂ ∧ r₂ ≤ max r₁ r₃ := by
  have w2 := wf_between i hpq h12 h23 w1 w3
  obtain ⟨h1, γ, δ, h2⟩ := mass_affine ops i hpq (lawHist (Bbn.run ops).vars h).prop
  obtain ⟨α, β, h3⟩ := h1 v.id x
  have key : ∀ {t : ℚ} {js jt'}, (Bbn.run (withCpts [(i, cptLine p q t)] ops)).WF → reapply js jt [(i, cptLine p q t)] = .ok jt' →
      Reports (runHist jt' h) v x ((α * t + β) / (γ * t + δ)) ∧ ((∃ y ∈ v.values, ¬ Reports (runHist jt' h) v y 0) → 0 < γ * t + δ) := by
    intro t js jt' w a
    obtain ⟨j, g1, g2⟩ := reports_reapply hs hconn js (by simp [Dict.keys]) w
    rw [a] at g1
    cases g1
    constructor
    · have := (g2 h hp).2 v hv x hx
      unfold Bbn.posterior at this
      rw [h2 t, h3 t] at this
      exact this
    · rintro ⟨y, hy, hr⟩
      have := (g2 h hp).2 v hv y hy
      unfold Bbn.posterior at this
      rw [h2 t] at this
      have hne : γ * t + δ ≠ 0 := by
        intro h0
        rw [h0, div_zero] at this
        exact hr this
      refine lt_of_le_of_ne ?_ (Ne.symm hne)
      rw [← h2 t]
      refine List.sum_nonneg ?_
      intro a ha
      obtain ⟨σ, _, rfl⟩ := List.mem_map.1 ha
      exact weight_nonneg w (g2 h hp).1 σ
  obtain ⟨jt₂, g1, _⟩ := reports_reapply hs hconn js₂ (by simp [Dict.keys]) w2
  have k1 := key w1 a1
  have k3 := key w3 a3
  have k2 := key w2 g1
  refine ⟨jt₂, _, g1, k2.1, ?_⟩
  rw [reports_unique e1 k1.1, reports_unique e3 k3.1]
  exact fraction_between h12 h23 (k1.2 q1) (k3.2 q3)

end

/-! ## The claims are not vacuous -/

/-- the probability of `1 = on` in the example network given `3 = on`, when the CPT of node 0 is `[t, 1 - t]` -/
def c82_report (t : ℚ) : Option ℚ :=
  (apply .same .same (Bbn.run c16_ops)).val?.bind (fun jt => (reapply .same jt [(0, cptLine [0, 1] [1, -1] t)]).val?.bind (fun jt' =>
    reportOf (runHist jt' [(.same, .update [obs (c16_node 3) "on".toList])]) (c16_node 1) "on".toList))

/-- for `t` = 1/10, 1/4, 1/2 and 9/10: different reports, the inner ones between the outer ones, all of the form `(α t + β) / (γ t + δ)`
with `(α, β, γ, δ) = (15, 11, 7, 23)` -/
example : (∃ jt, apply .same .same (Bbn.run c16_ops) = .ok jt ∧ Session c16_ops jt) ∧ ConnectedOps c16_ops ∧
    (∀ op ∈ [((SetIter.same : SetIter Str), EvOp.update [obs (c16_node 3) "on".toList])], op.2.Proper (Bbn.run c16_ops).vars) ∧
    (Bbn.run (withCpts [(0, cptLine [0, 1] [1, -1] (1/10))] c16_ops)).WF ∧ (Bbn.run (withCpts [(0, cptLine [0, 1] [1, -1] (9/10))] c16_ops)).WF ∧
    [c82_report (1/10), c82_report (1/4), c82_report (1/2), c82_report (9/10)] = [some (125/237), some (59/99), some (37/53), some (245/293)] ∧
    (([1/10, 1/4, 1/2, 9/10] : List ℚ).map (fun t => (15 * t + 11) / (7 * t + 23))) = [125/237, 59/99, 37/53, 245/293] := by
  refine ⟨?_, c16_connected, ?_, wf_of_check (by decide +kernel) (by decide +kernel), wf_of_check (by decide +kernel) (by decide +kernel),
    by decide +kernel, by decide +kernel⟩
  · obtain ⟨jt, hj, _⟩ := (c16_exact_priors .same .same c16_ops c16_wf c16_connected).1 (by decide +kernel)
    exact ⟨jt, hj, .start .same .same c16_usable.toSane hj⟩
  · intro op ho
    simp only [List.mem_cons, List.not_mem_nil, or_false] at ho
    subst ho
    intro e he
    simp only [List.mem_cons, List.not_mem_nil, or_false] at he
    subst he
    exact obs_proper (by decide +kernel) (by decide +kernel)

end PyBBN
