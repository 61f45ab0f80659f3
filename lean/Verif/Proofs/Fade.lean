import Verif.Proofs.Between
import Verif.Proofs.AceBound

/-! # The posterior of a node without evidence below it is the average of the CPT rows under the posterior of its parents -/

namespace PyBBN
open Relation

section
variable {b : Bbn}

/-- probability of an event given evidence -/
def Bbn.belief (b : Bbn) (ℓ : Liks) (F : Asg → Bool) : ℚ := (((allAsg b.vars).filter F).map (b.weight ℓ)).sum / b.total ℓ

theorem belief_isAt (ℓ : Liks) (i : Int) (x : Str) : b.belief ℓ (isAt i x) = b.posterior ℓ i x := rfl

theorem posterior_average (hb : b.Proper) {n : BbnNode} (hn : n ∈ b.toGraph.getNodes) {ℓ : Liks} (h0 : ∀ i x, 0 ≤ ℓ i x)
    (hdesc : ∀ w ∈ b.vars, ReflTransGen b.Par n.var.id w.id → ∀ u ∈ w.values, ℓ w.id u = 1) {x : Str} (hx : x ∈ n.var.values) :
    b.posterior ℓ n.var.id x = ((allAsg (b.parentVars n.var.id)).map (fun τ =>
      b.w n (Function.update τ n.var.id x) * b.belief ℓ (agree (b.parentVars n.var.id) τ))).sum := by
  have hids := vids_parentVars hb.inv n.var.id
  have hpn : (vids (b.parentVars n.var.id)).Nodup := by rw [hids]; exact hb.inv.parNodup n.var.id
  have hpv : ∀ z ∈ b.parentVars n.var.id, z ∈ b.vars := parentVars_sub hb.inv _
  have hnd : ∀ z ∈ b.parentVars n.var.id, ¬ ReflTransGen b.Par n.var.id z.id := by
    intro z hz hr
    have : b.Par z.id n.var.id := by
      have : z.id ∈ vids (b.parentVars n.var.id) := List.mem_map_of_mem hz
      rwa [hids] at this
    exact hb.acyclic z.id (TransGen.head' this hr)
  obtain ⟨E, hE, _, hmass, htot, hwt⟩ := evidence_above hb (n := n) h0 hdesc x
  have key : ∀ τ ∈ allAsg (b.parentVars n.var.id),
      ((allAsg b.vars).map (fun σ => (if agree (b.parentVars n.var.id) τ σ then 1 else 0) * (E σ * isVal n.var.id x σ * b.weight noEvidence σ))).sum =
      b.w n (Function.update τ n.var.id x) *
        ((allAsg b.vars).map (fun σ => (if agree (b.parentVars n.var.id) τ σ then 1 else 0) * (E σ * b.weight noEvidence σ))).sum := by
    intro τ _
    have hE' : Dep (fun i => ¬ ReflTransGen b.Par n.var.id i) (fun σ => (if agree (b.parentVars n.var.id) τ σ then 1 else 0) * E σ) := by
      intro σ σ' hs
      have : agree (b.parentVars n.var.id) τ σ = agree (b.parentVars n.var.id) τ σ' := by
        unfold agree
        rw [Bool.eq_iff_iff]
        simp only [decide_eq_true_eq]
        exact forall_congr' (fun z => forall_congr' (fun hz => by rw [hs z.id (hnd z hz)]))
      simp only [this, hE σ σ' hs]
    have h1 := sum_others hb hn hx hE'
    have e2 : ((allAsg b.vars).map (fun σ => (if agree (b.parentVars n.var.id) τ σ then 1 else 0) * (E σ * b.weight noEvidence σ))).sum =
        ((allAsg b.vars).map (fun σ => (if agree (b.parentVars n.var.id) τ σ then 1 else 0) * E σ * b.weight noEvidence σ)).sum := by
      congr 1
      apply List.map_congr_left
      intro σ _
      ring
    rw [e2, ← h1, ← List.sum_map_mul_left]
    congr 1
    apply List.map_congr_left
    intro σ _
    rw [weight_split hb.inv hn]
    by_cases ha : agree (b.parentVars n.var.id) τ σ = true
    · by_cases hs : σ n.var.id = x
      · have hw : b.w n σ = b.w n (Function.update τ n.var.id x) := by
          refine Bbn.w_dep hb.inv n _ _ ?_
          intro i hi
          by_cases hin : i = n.var.id
          · subst hin; rw [Function.update_self, hs]
          · rw [Function.update_of_ne hin]
            have hi' : i ∈ vids (b.parentVars n.var.id) := by
              rw [hids]; exact hi.resolve_right hin
            obtain ⟨z, hz, rfl⟩ := List.mem_map.1 hi'
            exact (of_decide_eq_true ha) z hz
        rw [hw]; ring
      · unfold isVal; simp [hs]
    · simp [ha]
  unfold Bbn.posterior
  rw [hmass, ← sum_split hb.inv hb.wf hpn hpv, List.map_congr_left key]
  rw [div_eq_mul_inv, ← List.sum_map_mul_right]
  congr 1
  apply List.map_congr_left
  intro τ _
  unfold Bbn.belief
  rw [mul_assoc, ← div_eq_mul_inv]
  congr 2
  rw [sum_filter_map]
  congr 1
  apply List.map_congr_left
  intro σ hσ
  rw [hwt σ hσ]
  by_cases ha : agree (b.parentVars n.var.id) τ σ = true <;> simp [ha]

/-- with a single parent: the posterior of the parent is all that is needed -/
theorem posterior_single (hb : b.Proper) {n : BbnNode} (hn : n ∈ b.toGraph.getNodes) {p : Variable} (hp : b.parentVars n.var.id = [p])
    {ℓ : Liks} (h0 : ∀ i x, 0 ≤ ℓ i x)
    (hdesc : ∀ w ∈ b.vars, ReflTransGen b.Par n.var.id w.id → ∀ u ∈ w.values, ℓ w.id u = 1) {x : Str} (hx : x ∈ n.var.values) :
    b.posterior ℓ n.var.id x = (p.values.map (fun u => b.w n (Function.update (Function.update asg0 p.id u) n.var.id x) * b.posterior ℓ p.id u)).sum := by
  rw [posterior_average hb hn h0 hdesc hx, hp]
  rw [sum_allAsg_cons]
  simp only [allAsg, List.map_cons, List.map_nil, List.sum_cons, List.sum_nil, add_zero]
  congr 1
  apply List.map_congr_left
  intro u _
  rw [← belief_isAt]
  have : ∀ τ : Asg, agree [p] (Function.update τ p.id u) = isAt p.id u := by
    intro τ
    funext σ
    unfold agree isAt; simp
  rw [this]
  rfl

end

/-- the positive and the negative part of numbers that sum to zero have the same sum -/
theorem parts_eq {α : Type} (l : List α) {d : α → ℚ} (h : (l.map d).sum = 0) :
    (l.map (fun a => max (d a) 0)).sum = (l.map (fun a => max (- d a) 0)).sum ∧
    (l.map (fun a => |d a|)).sum = 2 * (l.map (fun a => max (d a) 0)).sum := by
  have e1 : ∀ m : List α, (m.map d).sum = (m.map (fun a => max (d a) 0)).sum - (m.map (fun a => max (- d a) 0)).sum := by
    intro m
    induction m with
    | nil => simp
    | cons a m ih =>
      simp only [List.map_cons, List.sum_cons, ih]
      rcases le_total 0 (d a) with h | h
      · rw [max_eq_left h, max_eq_right (by linarith)]; ring
      · rw [max_eq_right h, max_eq_left (by linarith)]; ring
  have e2 : ∀ m : List α, (m.map (fun a => |d a|)).sum = (m.map (fun a => max (d a) 0)).sum + (m.map (fun a => max (- d a) 0)).sum := by
    intro m
    induction m with
    | nil => simp
    | cons a m ih =>
      simp only [List.map_cons, List.sum_cons, ih]
      rcases le_total 0 (d a) with h | h
      · rw [max_eq_left h, max_eq_right (by linarith), abs_of_nonneg h]; ring
      · rw [max_eq_right h, max_eq_left (by linarith), abs_of_nonpos h]; ring
  have h1 := e1 l
  have h2 := e2 l
  rw [h] at h1
  exact ⟨by linarith, by linarith⟩

theorem abs_sum_le_map {α : Type} (l : List α) (f : α → ℚ) : |(l.map f).sum| ≤ (l.map (fun a => |f a|)).sum := by
  induction l with
  | nil => simp
  | cons a l ih =>
    simp only [List.map_cons, List.sum_cons]
    exact (abs_add_le _ _).trans (by linarith)

/-- **contraction**: averaging rows that are pairwise close brings distributions closer together -/
theorem contraction {α β : Type} (l : List α) (m : List β) {K : α → β → ℚ} {d : α → ℚ} (hd : (l.map d).sum = 0) {δ : ℚ}
    (hK : ∀ a ∈ l, ∀ a' ∈ l, (m.map (fun x => |K a x - K a' x|)).sum ≤ 2 * δ) :
    (m.map (fun x => |(l.map (fun a => K a x * d a)).sum|)).sum ≤ δ * (l.map (fun a => |d a|)).sum := by
  obtain ⟨h1, h2⟩ := parts_eq l hd
  set M := (l.map (fun a => max (d a) 0)).sum with hM
  have hM0 : 0 ≤ M := List.sum_nonneg (by
    intro q hq
    obtain ⟨a, _, rfl⟩ := List.mem_map.1 hq
    exact le_max_right _ _)
  have hsplit : ∀ x, M * (l.map (fun a => K a x * d a)).sum =
      (l.map (fun a => (l.map (fun a' => max (d a) 0 * max (- d a') 0 * (K a x - K a' x))).sum)).sum := by
    intro x
    have e : ∀ k : List α, (k.map (fun a => (l.map (fun a' => max (d a) 0 * max (- d a') 0 * (K a x - K a' x))).sum)).sum =
        (k.map (fun a => max (d a) 0 * K a x)).sum * (l.map (fun a' => max (- d a') 0)).sum -
          (k.map (fun a => max (d a) 0)).sum * (l.map (fun a' => max (- d a') 0 * K a' x)).sum := by
      intro k
      induction k with
      | nil => simp
      | cons a k ih =>
        simp only [List.map_cons, List.sum_cons, ih]
        have : ∀ j : List α, (j.map (fun a' => max (d a) 0 * max (- d a') 0 * (K a x - K a' x))).sum =
            max (d a) 0 * K a x * (j.map (fun a' => max (- d a') 0)).sum - max (d a) 0 * (j.map (fun a' => max (- d a') 0 * K a' x)).sum := by
          intro j
          induction j with
          | nil => simp
          | cons a' j ih => simp only [List.map_cons, List.sum_cons, ih]; ring
        rw [this]; ring
    rw [e, ← h1, ← hM]
    have e3 : ∀ k : List α, (k.map (fun a => K a x * d a)).sum =
        (k.map (fun a => max (d a) 0 * K a x)).sum - (k.map (fun a => max (- d a) 0 * K a x)).sum := by
      intro k
      induction k with
      | nil => simp
      | cons a k ih =>
        simp only [List.map_cons, List.sum_cons, ih]
        rcases le_total 0 (d a) with h | h
        · rw [max_eq_left h, max_eq_right (by linarith)]; ring
        · rw [max_eq_right h, max_eq_left (by linarith)]; ring
    rw [e3]; ring
  have hbound : M * (m.map (fun x => |(l.map (fun a => K a x * d a)).sum|)).sum ≤ M * M * (2 * δ) := by
    rw [← List.sum_map_mul_left]
    have s1 : (m.map (fun x => M * |(l.map (fun a => K a x * d a)).sum|)).sum ≤
        (m.map (fun x => (l.map (fun a => (l.map (fun a' => max (d a) 0 * max (- d a') 0 * |K a x - K a' x|)).sum)).sum)).sum := by
      apply List.sum_le_sum
      intro x _
      rw [← abs_of_nonneg hM0, ← abs_mul, hsplit]
      refine (abs_sum_le_map _ _).trans (List.sum_le_sum (fun a _ => (abs_sum_le_map _ _).trans (List.sum_le_sum (fun a' _ => ?_))))
      rw [abs_mul, abs_of_nonneg (mul_nonneg (le_max_right _ _) (le_max_right _ _))]
    refine s1.trans ?_
    rw [sum_comm']
    have s2 : ∀ a ∈ l, (m.map (fun x => (l.map (fun a' => max (d a) 0 * max (- d a') 0 * |K a x - K a' x|)).sum)).sum ≤
        max (d a) 0 * (M * (2 * δ)) := by
      intro a ha
      rw [sum_comm']
      have : ∀ a' ∈ l, (m.map (fun x => max (d a) 0 * max (- d a') 0 * |K a x - K a' x|)).sum ≤ max (- d a') 0 * (max (d a) 0 * (2 * δ)) := by
        intro a' ha'
        rw [List.sum_map_mul_left]
        have := mul_le_mul_of_nonneg_left (hK a ha a' ha') (mul_nonneg (le_max_right (d a) 0) (le_max_right (- d a') 0))
        linarith
      refine (List.sum_le_sum this).trans ?_
      rw [List.sum_map_mul_right, ← h1]
      linarith
    refine (List.sum_le_sum s2).trans ?_
    rw [List.sum_map_mul_right]
    linarith
  rcases eq_or_lt_of_le hM0 with h | h
  · have hz : ∀ a ∈ l, d a = 0 := by
      intro a ha
      have hs : (l.map (fun a => |d a|)).sum = 0 := by rw [h2, ← h, mul_zero]
      have := List.single_le_sum (l := l.map (fun a => |d a|)) (by
        intro q hq
        obtain ⟨a, _, rfl⟩ := List.mem_map.1 hq
        exact abs_nonneg _) (|d a|) (List.mem_map.2 ⟨a, ha, rfl⟩)
      rw [hs] at this
      exact abs_eq_zero.1 (le_antisymm this (abs_nonneg _))
    have hx : ∀ x, (l.map (fun a => K a x * d a)).sum = 0 := by
      intro x
      rw [List.map_congr_left (g := fun _ => (0 : ℚ)) (fun a ha => by rw [hz a ha, mul_zero])]
      simp
    rw [h2, ← h]
    simp [hx]
  · rw [h2]
    have := le_of_mul_le_mul_left (by linarith : M * (m.map (fun x => |(l.map (fun a => K a x * d a)).sum|)).sum ≤ M * (M * (2 * δ))) h
    linarith

end PyBBN
