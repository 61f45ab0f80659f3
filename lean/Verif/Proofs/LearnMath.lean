import Verif.Proofs.Reject
import Verif.Proofs.NamedExact

/-! Union bounds, quotients and products of nearby numbers, sums over smaller domains. -/

namespace PyBBN

namespace Reject
open Classical

variable {Ω : Type} [Fintype Ω]

theorem part_mono {L : Nat} {p q : List Ω → Prop} (h : ∀ l, l.length = L → p l → q l) : part Ω L p ≤ part Ω L q := by
  unfold part
  apply div_le_div_of_nonneg_right _ (by positivity)
  apply Finset.sum_le_sum
  intro ds _
  by_cases hp : p (List.ofFn ds)
  · rw [if_pos hp, if_pos (h _ (List.length_ofFn) hp)]
  · rw [if_neg hp]; split <;> norm_num

theorem part_false (L : Nat) : part Ω L (fun _ => False) = 0 := by simp [part]

theorem part_or (L : Nat) (p q : List Ω → Prop) : part Ω L (fun l => p l ∨ q l) ≤ part Ω L p + part Ω L q := by
  unfold part
  rw [← add_div, ← Finset.sum_add_distrib]
  apply div_le_div_of_nonneg_right _ (by positivity)
  apply Finset.sum_le_sum
  intro ds _
  by_cases hp : p (List.ofFn ds) <;> by_cases hq : q (List.ofFn ds) <;> simp [hp, hq]

/-- the union bound -/
theorem part_exists {β : Type} (L : Nat) (p : β → List Ω → Prop) {c : ℚ} : ∀ bs : List β, (∀ b ∈ bs, part Ω L (p b) ≤ c) →
    part Ω L (fun l => ∃ b ∈ bs, p b l) ≤ bs.length * c
  | [], _ => by
      rw [part_congr (q := fun _ => False) (fun l _ => by simp), part_false]
      simp
  | b :: bs, h => by
      have ih := part_exists L p bs (fun b' hb' => h b' (List.mem_cons_of_mem _ hb'))
      have hb := h b List.mem_cons_self
      rw [part_congr (q := fun l => p b l ∨ ∃ b ∈ bs, p b l) (fun l _ => by simp)]
      refine (part_or L _ _).trans ?_
      rw [List.length_cons]
      push_cast
      linarith

/-- what never happens has share zero, and conversely -/
theorem frac_zero {q : Ω → Prop} (h : frac Ω q = 0) (d : Ω) : ¬ q d := by
  intro hq
  have h0 : 0 < Fintype.card Ω := Fintype.card_pos_iff.2 ⟨d⟩
  unfold frac at h
  rw [div_eq_zero_iff] at h
  rcases h with h | h
  · have := (Finset.sum_eq_zero_iff_of_nonneg (fun _ _ => by split <;> norm_num)).1 h d (Finset.mem_univ _)
    rw [if_pos hq] at this
    exact one_ne_zero this
  · exact absurd h (by exact_mod_cast h0.ne')

end Reject

/-! ## nearby numbers -/

/-- a quotient of frequencies is near the quotient of the probabilities -/
theorem ratio_near {F G a g η m : ℚ} (ha : 0 ≤ a) (hag : a ≤ g) (hm : m ≤ g) (hm0 : 0 < m) (hη : η ≤ m / 2) (hF : |F - a| < η) (hG : |G - g| < η) :
    0 < G ∧ |F / G - a / g| ≤ 4 * η / m := by
  have hg : 0 < g := lt_of_lt_of_le hm0 hm
  have hη0 : 0 < η := lt_of_le_of_lt (abs_nonneg _) hF
  have h1 := abs_lt.1 hG
  have hG2 : m / 2 < G := by linarith
  have hG0 : 0 < G := by linarith
  refine ⟨hG0, ?_⟩
  have e : F / G - a / g = ((F - a) * g + a * (g - G)) / (G * g) := by field_simp; ring
  rw [e, abs_div, abs_of_pos (mul_pos hG0 hg), div_le_div_iff₀ (mul_pos hG0 hg) hm0]
  have h2 : |(F - a) * g + a * (g - G)| ≤ η * g + g * η := by
    refine (abs_add_le _ _).trans ?_
    rw [abs_mul, abs_mul, abs_of_pos hg, abs_of_nonneg ha, abs_sub_comm g G]
    refine add_le_add (mul_le_mul_of_nonneg_right hF.le hg.le) ?_
    exact mul_le_mul hag hG.le (abs_nonneg _) hg.le
  have h3 : |(F - a) * g + a * (g - G)| * m ≤ (2 * η * g) * m := mul_le_mul_of_nonneg_right (by linarith) hm0.le
  refine h3.trans ?_
  have : 0 ≤ η * g := by positivity
  nlinarith

/-- products of nearby numbers between 0 and 1 -/
theorem prod_near {α : Type} {f h : α → ℚ} {δ : ℚ} : ∀ l : List α, (∀ a ∈ l, 0 ≤ f a ∧ f a ≤ 1 ∧ 0 ≤ h a ∧ h a ≤ 1 ∧ |f a - h a| ≤ δ) →
    0 ≤ (l.map f).prod ∧ (l.map f).prod ≤ 1 ∧ 0 ≤ (l.map h).prod ∧ (l.map h).prod ≤ 1 ∧ |(l.map f).prod - (l.map h).prod| ≤ l.length * δ
  | [], _ => by simp
  | a :: l, hl => by
      obtain ⟨p1, p2, p3, p4, p5⟩ := prod_near l (fun b hb => hl b (List.mem_cons_of_mem _ hb))
      obtain ⟨q1, q2, q3, q4, q5⟩ := hl a List.mem_cons_self
      rw [List.map_cons, List.map_cons, List.prod_cons, List.prod_cons]
      refine ⟨mul_nonneg q1 p1, mul_le_one₀ q2 p1 p2, mul_nonneg q3 p3, mul_le_one₀ q4 p3 p4, ?_⟩
      have e : f a * (l.map f).prod - h a * (l.map h).prod = (f a - h a) * (l.map f).prod + h a * ((l.map f).prod - (l.map h).prod) := by ring
      rw [e]
      refine (abs_add_le _ _).trans ?_
      rw [abs_mul, abs_mul, abs_of_nonneg p1, abs_of_nonneg q3]
      have h1 : |f a - h a| * (l.map f).prod ≤ δ * 1 := mul_le_mul q5 p2 p1 ((abs_nonneg _).trans q5)
      have h2 : h a * |(l.map f).prod - (l.map h).prod| ≤ 1 * (l.length * δ) := mul_le_mul q4 p5 (abs_nonneg _) zero_le_one
      rw [List.length_cons]
      push_cast
      linarith

/-- sums of nearby numbers -/
theorem sum_near {α : Type} {f h : α → ℚ} {δ : ℚ} : ∀ l : List α, (∀ a ∈ l, |f a - h a| ≤ δ) → |(l.map f).sum - (l.map h).sum| ≤ l.length * δ
  | [], _ => by simp
  | a :: l, hl => by
      have ih := sum_near l (fun b hb => hl b (List.mem_cons_of_mem _ hb))
      have h0 := hl a List.mem_cons_self
      rw [List.map_cons, List.map_cons, List.sum_cons, List.sum_cons, List.length_cons]
      have e : f a + (l.map f).sum - (h a + (l.map h).sum) = (f a - h a) + ((l.map f).sum - (l.map h).sum) := by ring
      rw [e]
      refine (abs_add_le _ _).trans ?_
      push_cast
      linarith

/-- a share of a total that is nearly one -/
theorem share_near {A B a κ : ℚ} (hA : 0 ≤ A) (hAB : A ≤ B) (h1 : |A - a| ≤ κ) (h2 : |B - 1| ≤ κ) : |A / B - a| ≤ 2 * κ := by
  rcases eq_or_lt_of_le (hA.trans hAB) with hB | hB
  · have : A = 0 := le_antisymm (by rw [hB]; exact hAB) hA
    rw [← hB, div_zero, ← this]
    have := (abs_nonneg _).trans h1
    linarith
  · have e : A / B - a = A / B * (1 - B) + (A - a) := by field_simp; ring
    rw [e]
    refine (abs_add_le _ _).trans ?_
    rw [abs_mul, abs_of_nonneg (div_nonneg hA hB.le), abs_sub_comm 1 B]
    have : A / B * |B - 1| ≤ 1 * κ := mul_le_mul ((div_le_one hB).2 hAB) h2 (abs_nonneg _) zero_le_one
    linarith

/-- the least positive number of a list -/
theorem exists_least : ∀ l : List ℚ, (∀ q ∈ l, 0 ≤ q) → ∃ m : ℚ, 0 < m ∧ m ≤ 1 ∧ ∀ q ∈ l, q = 0 ∨ m ≤ q
  | [], _ => ⟨1, one_pos, le_refl _, by simp⟩
  | q :: l, h => by
      obtain ⟨m, h1, h2, h3⟩ := exists_least l (fun q hq => h q (List.mem_cons_of_mem _ hq))
      rcases eq_or_lt_of_le (h q List.mem_cons_self) with h0 | h0
      · refine ⟨m, h1, h2, ?_⟩
        intro q' hq'
        rcases List.mem_cons.1 hq' with rfl | hq'
        · exact Or.inl h0.symm
        · exact h3 q' hq'
      · refine ⟨min m q, lt_min h1 h0, (min_le_left _ _).trans h2, ?_⟩
        intro q' hq'
        rcases List.mem_cons.1 hq' with rfl | hq'
        · exact Or.inr (min_le_right _ _)
        · rcases h3 q' hq' with h | h
          · exact Or.inl h
          · exact Or.inr ((min_le_left _ _).trans h)

/-! ## smaller domains -/

theorem sum_sublist_values {vs ws : List Str} (hv : vs.Nodup) (hw : ws.Nodup) (h : ∀ x ∈ vs, x ∈ ws) (f : Str → ℚ) :
    (vs.map f).sum = (ws.map (fun x => if x ∈ vs then f x else 0)).sum := by
  have hp : vs.Perm (ws.filter (fun x => decide (x ∈ vs))) := by
    rw [List.perm_ext_iff_of_nodup hv (hw.filter _)]
    intro x
    simp only [List.mem_filter, decide_eq_true_eq]
    exact ⟨fun hx => ⟨h x hx, hx⟩, fun hx => hx.2⟩
  rw [(hp.map f).sum_eq, sum_map_filter]
  simp

/-- the sum over the assignments with smaller domains is the sum over the assignments whose values are in the smaller domains -/
theorem sum_allAsg_small (vs : Variable → List Str) : ∀ (ns : List Variable), (vids ns).Nodup →
    (∀ v ∈ ns, v.values.Nodup ∧ (vs v).Nodup ∧ ∀ x ∈ vs v, x ∈ v.values) → ∀ g : Asg → ℚ,
    ((allAsg (ns.map (fun v => (⟨v.id, v.name, vs v⟩ : Variable)))).map g).sum =
      ((allAsg ns).map (fun σ => if ∀ v ∈ ns, σ v.id ∈ vs v then g σ else 0)).sum
  | [], _, _, g => by simp [allAsg]
  | n :: ns, hn, hv, g => by
      rw [vids_cons, List.nodup_cons] at hn
      obtain ⟨v1, v2, v3⟩ := hv n List.mem_cons_self
      rw [List.map_cons]
      simp only [allAsg, List.map_flatMap]
      rw [sum_flatMap_map, sum_flatMap_map, sum_sublist_values v2 v1 v3]
      congr 1
      apply List.map_congr_left
      intro x _
      simp only [List.map_map, Function.comp_def]
      have hup : ∀ σ : Asg, (∀ v ∈ n :: ns, (Function.update σ n.id x) v.id ∈ vs v) ↔ x ∈ vs n ∧ ∀ v ∈ ns, σ v.id ∈ vs v := by
        intro σ
        rw [List.forall_mem_cons, Function.update_self]
        refine and_congr_right (fun _ => forall₂_congr (fun v hv => ?_))
        rw [Function.update_of_ne]
        exact fun e => hn.1 (e ▸ List.mem_map_of_mem hv)
      by_cases hx : x ∈ vs n
      · rw [if_pos hx, sum_allAsg_small vs ns hn.2 (fun v h => hv v (List.mem_cons_of_mem _ h)) (fun σ => g (Function.update σ n.id x))]
        congr 1
        apply List.map_congr_left
        intro σ _
        by_cases hc : ∀ v ∈ ns, σ v.id ∈ vs v
        · rw [if_pos hc, if_pos ((hup σ).2 ⟨hx, hc⟩)]
        · rw [if_neg hc, if_neg (fun h => hc ((hup σ).1 h).2)]
      · rw [if_neg hx]
        symm
        apply List.sum_eq_zero
        intro q hq
        obtain ⟨σ, _, rfl⟩ := List.mem_map.1 hq
        rw [if_neg (fun h => hx ((hup σ).1 h).1)]

end PyBBN
