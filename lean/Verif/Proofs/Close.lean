import Verif.Spec.Close
import Verif.Props.Certain
import Mathlib.Tactic.FieldSimp

/-! # Networks with nearly the same CPTs: weights and fractions -/

namespace PyBBN

theorem UpTo.getD {k : ℚ} {l m : List ℚ} (h : List.Forall₂ (UpTo k) l m) (i : Nat) : UpTo k (l.getD i 0) (m.getD i 0) := by
  induction h generalizing i with
  | nil => simp [UpTo]
  | cons h _ ih =>
    cases i with
    | zero => simpa using h
    | succ i => simpa using ih i

theorem prod_upTo {α β : Type} {R : α → β → Prop} {f κ : α → ℚ} {g : β → ℚ} (h : ∀ a b, R a b → 0 ≤ f a ∧ 0 ≤ g b ∧ 1 ≤ κ a ∧ UpTo (κ a) (f a) (g b))
    {l : List α} {m : List β} (hR : List.Forall₂ R l m) : 1 ≤ (l.map κ).prod ∧ UpTo (l.map κ).prod (l.map f).prod (m.map g).prod ∧
      0 ≤ (l.map f).prod ∧ 0 ≤ (m.map g).prod := by
  induction hR with
  | nil => simp [UpTo]
  | cons hab _ ih =>
    obtain ⟨f0, g0, k1, u1, u2⟩ := h _ _ hab
    obtain ⟨i1, ⟨i2, i3⟩, i4, i5⟩ := ih
    simp only [List.map_cons, List.prod_cons]
    refine ⟨one_le_mul_of_one_le_of_one_le k1 i1, ⟨?_, ?_⟩, mul_nonneg f0 i4, mul_nonneg g0 i5⟩
    · calc _ ≤ _ := mul_le_mul u1 i2 i4 (by positivity)
        _ = _ := by ring
    · calc _ ≤ _ := mul_le_mul u2 i3 i5 (by positivity)
        _ = _ := by ring

theorem sum_upTo {α : Type} {k : ℚ} {f g : α → ℚ} (l : List α) (h : ∀ a ∈ l, UpTo k (f a) (g a)) : UpTo k (l.map f).sum (l.map g).sum := by
  induction l with
  | nil => simp [UpTo]
  | cons a l ih =>
    obtain ⟨h1, h2⟩ := h a List.mem_cons_self
    obtain ⟨h3, h4⟩ := ih (fun a ha => h a (List.mem_cons_of_mem _ ha))
    simp only [List.map_cons, List.sum_cons, UpTo, mul_add]
    exact ⟨add_le_add h1 h3, add_le_add h2 h4⟩

/-- fractions of sums whose parts agree up to a factor -/
theorem fraction_odds {k A B A' B' : ℚ} (hA : 0 ≤ A) (hB : 0 ≤ B) (hA' : 0 ≤ A') (hB' : 0 ≤ B') (hk : 1 ≤ k) (h1 : UpTo k A A') (h2 : UpTo k B B') :
    UpTo (k * k) (A / (A + B) * (1 - A' / (A' + B'))) (A' / (A' + B') * (1 - A / (A + B))) := by
  by_cases hs : A + B = 0
  · have a0 : A = 0 := by linarith
    have b0 : B = 0 := by linarith
    have a0' : A' = 0 := le_antisymm (by simpa [a0] using h1.2) hA'
    simp [UpTo, a0, a0']
  · have hp : 0 < A + B := lt_of_le_of_ne (add_nonneg hA hB) (Ne.symm hs)
    have hp' : 0 < A' + B' := by
      have := h1.1; have := h2.1
      by_contra hc
      have : k * (A' + B') ≤ 0 := mul_nonpos_of_nonneg_of_nonpos (by linarith) (by linarith)
      linarith
    have e1 : A / (A + B) * (1 - A' / (A' + B')) = (A * B') / ((A + B) * (A' + B')) := by
      field_simp
      ring
    have e2 : A' / (A' + B') * (1 - A / (A + B)) = (A' * B) / ((A + B) * (A' + B')) := by
      field_simp
      ring
    rw [e1, e2]
    have hpp := mul_pos hp hp'
    have m1 : A * B' ≤ k * k * (A' * B) := by
      calc _ ≤ _ := mul_le_mul h1.1 h2.2 hB' (by positivity)
        _ = _ := by ring
    have m2 : A' * B ≤ k * k * (A * B') := by
      calc _ ≤ _ := mul_le_mul h1.2 h2.1 hB (by positivity)
        _ = _ := by ring
    constructor
    · rw [← mul_div_assoc]; exact div_le_div_of_nonneg_right m1 hpp.le
    · rw [← mul_div_assoc]; exact div_le_div_of_nonneg_right m2 hpp.le

/-- if the odds of two probabilities agree up to the factor `k²`, then the probabilities differ by at most `(k - 1) / (k + 1)` -/
theorem diff_of_odds {k r r' : ℚ} (hk : 1 ≤ k) (h0 : 0 ≤ r) (h1' : r' ≤ 1) (h : r' * (1 - r) ≤ k * k * (r * (1 - r'))) : r' - r ≤ (k - 1) / (k + 1) := by
  rw [le_div_iff₀ (by linarith)]
  by_contra hc
  push Not at hc
  set d := r' - r with hd
  have hr' : r' = r + d := by rw [hd]; ring
  have hd1 : d ≤ 1 := by linarith
  have hd0 : 0 < d := by
    by_contra hn
    have : d * (k + 1) ≤ 0 := mul_nonpos_of_nonpos_of_nonneg (by linarith) (by linarith)
    linarith
  have hc4 : 4 * (r * (1 - r')) ≤ (1 - d) * (1 - d) := by
    have := sq_nonneg (r - (1 - r'))
    rw [hr'] at this ⊢
    nlinarith
  have ha : r' * (1 - r) = r * (1 - r') + d := by rw [hd]; ring
  rw [ha] at h
  have hkk : 0 ≤ k * k - 1 := by nlinarith
  have hk4 : (k * k - 1) * (4 * (r * (1 - r'))) ≤ (k * k - 1) * ((1 - d) * (1 - d)) := mul_le_mul_of_nonneg_left hc4 hkk
  have h4 : 4 * d ≤ (k * k - 1) * ((1 - d) * (1 - d)) := by linarith
  have hu : (1 - d) * (k + 1) < 2 := by linarith
  have hv : 0 ≤ (1 - d) * (k + 1) := mul_nonneg (by linarith) (by linarith)
  have h5 : ((1 - d) * (k + 1)) * ((1 - d) * (k + 1)) ≤ 2 * ((1 - d) * (k + 1)) := mul_le_mul_of_nonneg_right hu.le hv
  -- multiply by `k + 1`
  have h6 : 4 * d * (k + 1) ≤ (k - 1) * (((1 - d) * (k + 1)) * ((1 - d) * (k + 1))) := by
    have := mul_le_mul_of_nonneg_right h4 (by linarith : (0 : ℚ) ≤ k + 1)
    calc _ ≤ _ := this
      _ = _ := by ring
  have h7 : (k - 1) * (((1 - d) * (k + 1)) * ((1 - d) * (k + 1))) ≤ (k - 1) * 4 := by
    refine mul_le_mul_of_nonneg_left ?_ (by linarith)
    linarith
  linarith

section
variable {κ : Int → ℚ} {b b' : Bbn}

theorem close_nodes (hi : BbnInv b) (C : Bbn.Close κ b b') :
    List.Forall₂ (fun n n' => n ∈ b.toGraph.getNodes ∧ n' ∈ b'.toGraph.getNodes ∧ n'.var = n.var) b.toGraph.getNodes b'.toGraph.getNodes := by
  have h := C.vars
  unfold Bbn.vars at h
  have key : ∀ (l m : List BbnNode), m.map BbnNode.var = l.map BbnNode.var →
      List.Forall₂ (fun n n' => n ∈ l ∧ n' ∈ m ∧ n'.var = n.var) l m := by
    intro l m
    induction l generalizing m with
    | nil => intro h; cases m with
      | nil => exact .nil
      | cons _ _ => simp at h
    | cons a l ih =>
      intro h
      cases m with
      | nil => simp at h
      | cons c m =>
        rw [List.map_cons, List.map_cons, List.cons.injEq] at h
        refine .cons ⟨List.mem_cons_self, List.mem_cons_self, h.1⟩ ((ih m h.2).imp ?_)
        rintro x y ⟨h1, h2, h3⟩
        exact ⟨List.mem_cons_of_mem _ h1, List.mem_cons_of_mem _ h2, h3⟩
  exact key _ _ h

theorem close_weight (hi : BbnInv b) (wf : b.WF) (wf' : b'.WF) (C : Bbn.Close κ b b') {ℓ : Int → Str → ℚ} (hl : ∀ i x, 0 ≤ ℓ i x) (σ : Asg) :
    1 ≤ (b.vars.map (fun v => κ v.id)).prod ∧ UpTo (b.vars.map (fun v => κ v.id)).prod (b.weight ℓ σ) (b'.weight ℓ σ) ∧
      0 ≤ b.weight ℓ σ ∧ 0 ≤ b'.weight ℓ σ := by
  have e : (b.vars.map (fun v => κ v.id)).prod = (b.toGraph.getNodes.map (fun n => κ n.var.id)).prod := by
    unfold Bbn.vars; rw [List.map_map]; rfl
  rw [e]
  unfold Bbn.weight
  obtain ⟨h1, h2, h3, h4⟩ := prod_upTo (κ := fun n => κ n.var.id)
    (f := fun n => cptAt n.probs (b.parentVars n.var.id) n.var σ * ℓ n.var.id (σ n.var.id))
    (g := fun n => cptAt n.probs (b'.parentVars n.var.id) n.var σ * ℓ n.var.id (σ n.var.id)) (by
      rintro n n' ⟨hn, hn', e⟩
      have hv : n.var ∈ b.vars := List.mem_map.2 ⟨n, hn, rfl⟩
      have hpar := C.parents _ hv
      have ht := UpTo.getD (C.tables n hn n' hn' (by rw [e])) (cptIndex (b.parentVars n.var.id) n.var σ)
      have hln := hl n.var.id (σ n.var.id)
      rw [e, hpar]
      unfold cptAt
      have hf : 0 ≤ n.probs.getD (cptIndex (b.parentVars n.var.id) n.var σ) 0 := Bbn.w_nonneg wf hn σ
      have hg : 0 ≤ n'.probs.getD (cptIndex (b.parentVars n.var.id) n.var σ) 0 := by
        have := Bbn.w_nonneg wf' hn' σ
        unfold Bbn.w cptAt at this
        rw [e, hpar] at this
        exact this
      refine ⟨mul_nonneg hf hln, mul_nonneg hg hln, C.factor _ hv, ?_, ?_⟩
      · rw [← mul_assoc]; exact mul_le_mul_of_nonneg_right ht.1 hln
      · rw [← mul_assoc]; exact mul_le_mul_of_nonneg_right ht.2 hln) (close_nodes hi C)
  exact ⟨h1, h2, h3, h4⟩

/-- posterior probabilities of networks with nearly the same CPTs -/
theorem close_posterior (hi : BbnInv b) (wf : b.WF) (wf' : b'.WF) (C : Bbn.Close κ b b') {ℓ : Int → Str → ℚ} (hl : ∀ i x, 0 ≤ ℓ i x) (i : Int) (x : Str) {k : ℚ}
    (hk : k = (b.vars.map (fun v => κ v.id)).prod) :
    UpTo (k * k) (b.posterior ℓ i x * (1 - b'.posterior ℓ i x)) (b'.posterior ℓ i x * (1 - b.posterior ℓ i x)) ∧
      |b'.posterior ℓ i x - b.posterior ℓ i x| ≤ (k - 1) / (k + 1) := by
  have hw := close_weight hi wf wf' C hl
  rw [← hk] at hw
  have hk1 := (hw (fun _ => [])).1
  have h0 : ∀ σ, 0 ≤ b.weight ℓ σ := fun σ => (hw σ).2.2.1
  have h0' : ∀ σ, 0 ≤ b'.weight ℓ σ := fun σ => (hw σ).2.2.2
  let A : Bbn → ℚ := fun c => (((allAsg b.vars).filter (fun σ => decide (σ i = x))).map (c.weight ℓ)).sum
  let B : Bbn → ℚ := fun c => (((allAsg b.vars).filter (fun σ => !decide (σ i = x))).map (c.weight ℓ)).sum
  have hsplit : ∀ c : Bbn, ((allAsg b.vars).map (c.weight ℓ)).sum = A c + B c := by
    intro c
    change _ = (((allAsg b.vars).filter _).map _).sum + (((allAsg b.vars).filter _).map _).sum
    rw [← List.sum_append, ← List.map_append]
    exact (((List.filter_append_perm _ _).map _).sum_eq).symm
  have e : b.posterior ℓ i x = A b / (A b + B b) := by
    rw [← hsplit b]
    unfold Bbn.posterior Bbn.mass Bbn.total
    rfl
  have e' : b'.posterior ℓ i x = A b' / (A b' + B b') := by
    rw [← hsplit b']
    unfold Bbn.posterior Bbn.mass Bbn.total
    rw [C.vars]
  have nn : ∀ (l : List Asg) (c : Bbn), (∀ σ, 0 ≤ c.weight ℓ σ) → 0 ≤ (l.map (c.weight ℓ)).sum := by
    intro l c hc
    refine List.sum_nonneg ?_
    intro y hy
    obtain ⟨σ, _, rfl⟩ := List.mem_map.1 hy
    exact hc σ
  have a0 : 0 ≤ A b := nn _ _ h0
  have b0 : 0 ≤ B b := nn _ _ h0
  have a0' : 0 ≤ A b' := nn _ _ h0'
  have b0' : 0 ≤ B b' := nn _ _ h0'
  have ho := fraction_odds a0 b0 a0' b0' hk1 (sum_upTo _ (fun σ _ => (hw σ).2.1)) (sum_upTo _ (fun σ _ => (hw σ).2.1))
  have le1 : ∀ {p q : ℚ}, 0 ≤ p → 0 ≤ q → 0 ≤ p / (p + q) ∧ p / (p + q) ≤ 1 := fun hp hq =>
    ⟨div_nonneg hp (add_nonneg hp hq), div_le_one_of_le₀ (by linarith) (add_nonneg hp hq)⟩
  rw [e, e']
  refine ⟨ho, abs_sub_le_iff.2 ⟨?_, ?_⟩⟩
  · exact diff_of_odds hk1 (le1 a0 b0).1 (le1 a0' b0').2 ho.2
  · exact diff_of_odds hk1 (le1 a0' b0').1 (le1 a0 b0).2 ho.1

end

end PyBBN
