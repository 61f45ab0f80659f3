import Verif.Proofs.Chance

/-! Independent draws, rejection, and the distance of a relative frequency from its mean. -/

namespace PyBBN
namespace Reject
open Classical

variable {Ω : Type} [Fintype Ω]

/-- the share of the lists of `L` elements with a property -/
noncomputable def part (Ω : Type) [Fintype Ω] (L : Nat) (p : List Ω → Prop) : ℚ :=
  (∑ ds : Fin L → Ω, if p (List.ofFn ds) then (1 : ℚ) else 0) / (Fintype.card Ω : ℚ) ^ L

theorem sum_cons {L : Nat} (F : (Fin (L + 1) → Ω) → ℚ) : ∑ ds, F ds = ∑ d : Ω, ∑ ds : Fin L → Ω, F (Fin.cons d ds) := by
  rw [← Fintype.sum_prod_type']
  symm
  exact Fintype.sum_equiv (Fin.consEquiv (fun _ => Ω)) _ _ (fun x => rfl)

theorem part_succ (L : Nat) (p : List Ω → Prop) :
    part Ω (L + 1) p = (∑ d : Ω, part Ω L (fun l => p (d :: l))) / (Fintype.card Ω : ℚ) := by
  unfold part
  rw [sum_cons, ← Finset.sum_div, div_div, pow_succ]
  congr 1
  refine Finset.sum_congr rfl (fun d _ => Finset.sum_congr rfl (fun ds _ => ?_))
  rw [List.ofFn_succ]
  simp

theorem part_zero (p : List Ω → Prop) : part Ω 0 p = if p [] then 1 else 0 := by
  unfold part
  simp

theorem part_congr {L : Nat} {p q : List Ω → Prop} (h : ∀ l, l.length = L → (p l ↔ q l)) : part Ω L p = part Ω L q := by
  unfold part
  congr 1
  refine Finset.sum_congr rfl (fun ds _ => ?_)
  by_cases hp : p (List.ofFn ds)
  · rw [if_pos hp, if_pos ((h _ (List.length_ofFn)).1 hp)]
  · rw [if_neg hp, if_neg (fun hq => hp ((h _ (List.length_ofFn)).2 hq))]

/-- at least `N` elements of the list are kept, and the first `N` of them have a property -/
def First (keep : Ω → Prop) (N : Nat) (p : List Ω → Prop) (l : List Ω) : Prop :=
  N ≤ (l.filter (fun ω => decide (keep ω))).length ∧ p ((l.filter (fun ω => decide (keep ω))).take N)

theorem first_keep {keep : Ω → Prop} {N : Nat} {p : List Ω → Prop} {d : Ω} (h : keep d) (l : List Ω) :
    First keep (N + 1) p (d :: l) ↔ First keep N (fun l => p (d :: l)) l := by
  unfold First
  simp [h]

theorem first_drop {keep : Ω → Prop} {N : Nat} {p : List Ω → Prop} {d : Ω} (h : ¬ keep d) (l : List Ω) :
    First keep N p (d :: l) ↔ First keep N p l := by
  unfold First
  simp [h]

theorem sum_split_keep (keep : Ω → Prop) (a : Ω → ℚ) (b : ℚ) :
    ∑ d : Ω, (if keep d then a d else b) = (∑ d : {ω // keep ω}, a d) + ((Fintype.card Ω : ℚ) - (Fintype.card {ω // keep ω} : ℚ)) * b := by
  rw [← Finset.sum_filter_add_sum_filter_not Finset.univ keep]
  congr 1
  · rw [Finset.sum_subtype (p := keep) (Finset.univ.filter keep) (by simp)]
    exact Finset.sum_congr rfl (fun d _ => if_pos d.2)
  · rw [Finset.sum_congr rfl (fun d hd => if_neg (Finset.mem_filter.1 hd).2), Finset.sum_const, nsmul_eq_mul]
    congr 1
    rw [Fintype.card_subtype, ← Finset.card_univ (α := Ω), ← Finset.card_filter_add_card_filter_not (s := Finset.univ) (p := keep)]
    push_cast
    ring

/-- rejection: the first `N` elements that are kept are independent and uniform on the elements that can be kept -/
theorem law {keep : Ω → Prop} (hK : 0 < Fintype.card {ω // keep ω}) : ∀ (N : Nat) (p : List Ω → Prop),
    TendsTo (fun L => part Ω L (First keep N p)) (part {ω // keep ω} N (fun l => p (l.map Subtype.val)))
  | 0, p => by
      have h0 : 0 < Fintype.card Ω := lt_of_lt_of_le hK (Fintype.card_subtype_le _)
      have : ∀ L, part Ω L (First keep 0 p) = if p [] then 1 else 0 := by
        intro L
        rw [part_congr (q := fun _ => p []) (fun l _ => by simp [First])]
        unfold part
        have : (Fintype.card Ω : ℚ) ^ L ≠ 0 := by positivity
        by_cases hp : p [] <;> simp [hp, this]
      simp only [this, part_zero, List.map_nil]
      exact TendsTo.const _
  | N + 1, p => by
      have h0 : 0 < Fintype.card Ω := lt_of_lt_of_le hK (Fintype.card_subtype_le _)
      set m : ℚ := (Fintype.card Ω : ℚ) with hm
      set k : ℚ := (Fintype.card {ω // keep ω} : ℚ) with hk
      have hm0 : 0 < m := by rw [hm]; exact_mod_cast h0
      have hk0 : 0 < k := by rw [hk]; exact_mod_cast hK
      have hkm : k ≤ m := by rw [hk, hm]; exact_mod_cast Fintype.card_subtype_le _
      have hrec : ∀ L, part Ω (L + 1) (First keep (N + 1) p) = ((m - k) / m) * part Ω L (First keep (N + 1) p) +
          (1 / m) * ∑ d : {ω // keep ω}, part Ω L (First keep N (fun l => p ((d : Ω) :: l))) := by
        intro L
        rw [part_succ]
        have h1 : ∀ d : Ω, part Ω L (fun l => First keep (N + 1) p (d :: l)) =
            if keep d then part Ω L (First keep N (fun l => p (d :: l))) else part Ω L (First keep (N + 1) p) := by
          intro d
          split
          · rename_i h; exact part_congr (fun l _ => first_keep h l)
          · rename_i h; exact part_congr (fun l _ => first_drop h l)
        rw [Finset.sum_congr rfl (fun d _ => h1 d), sum_split_keep]
        ring
      have hv : TendsTo (fun L => (1 / m) * ∑ d : {ω // keep ω}, part Ω L (First keep N (fun l => p ((d : Ω) :: l))))
          ((1 / m) * ∑ d : {ω // keep ω}, part {ω // keep ω} N (fun l => p ((d : Ω) :: l.map Subtype.val))) :=
        TendsTo.mul _ (TendsTo.sum _ (fun d _ => law hK N (fun l => p ((d : Ω) :: l))))
      have := TendsTo.recur (u := fun L => part Ω L (First keep (N + 1) p)) (c := (m - k) / m) (div_nonneg (by linarith) hm0.le)
        (by rw [div_lt_one hm0]; linarith) hv hrec
      have e : part {ω // keep ω} (N + 1) (fun l => p (l.map Subtype.val)) =
          (1 / m) * (∑ d : {ω // keep ω}, part {ω // keep ω} N (fun l => p ((d : Ω) :: l.map Subtype.val))) / (1 - (m - k) / m) := by
        rw [part_succ]
        simp only [List.map_cons]
        rw [← hk]
        have : 1 - (m - k) / m = k / m := by field_simp; ring
        rw [this]
        field_simp
      rw [e]
      exact this

/-! ## independent draws of given elements -/

/-- the share of the elements with a property -/
noncomputable def frac (Ω : Type) [Fintype Ω] (q : Ω → Prop) : ℚ := (∑ d : Ω, if q d then (1 : ℚ) else 0) / (Fintype.card Ω : ℚ)

theorem part_forall₂ {β : Type} (R : Ω → β → Prop) : ∀ (bs : List β),
    part Ω bs.length (fun l => List.Forall₂ R l bs) = (bs.map (fun b => frac Ω (fun d => R d b))).prod
  | [] => by simp [part_zero]
  | b :: bs => by
      rw [List.length_cons, part_succ, List.map_cons, List.prod_cons, ← part_forall₂ R bs]
      unfold frac
      rw [div_mul_eq_mul_div, Finset.sum_mul]
      congr 1
      refine Finset.sum_congr rfl (fun d _ => ?_)
      by_cases h : R d b
      · rw [if_pos h, one_mul]
        exact part_congr (fun l _ => by simp [h])
      · rw [if_neg h, zero_mul]
        rw [part_congr (q := fun _ => False) (fun l _ => by simp [h])]
        simp [part]

/-! ## relative frequencies -/

theorem part_nonneg (L : Nat) (p : List Ω → Prop) : 0 ≤ part Ω L p := by
  unfold part
  exact div_nonneg (Finset.sum_nonneg (fun _ _ => by split <;> norm_num)) (by positivity)

/-- the average of the square of a sum of independent terms with mean zero -/
theorem variance (h0 : 0 < Fintype.card Ω) {Y : Ω → ℚ} (hY : ∑ d, Y d = 0) (N : Nat) :
    ∑ ds : Fin N → Ω, ((List.ofFn ds).map Y).sum = 0 ∧
    (∑ ds : Fin N → Ω, (((List.ofFn ds).map Y).sum) ^ 2) / (Fintype.card Ω : ℚ) ^ N = N * ((∑ d, Y d ^ 2) / (Fintype.card Ω : ℚ)) := by
  have hm : (Fintype.card Ω : ℚ) ≠ 0 := by positivity
  induction N with
  | zero => simp
  | succ N ih =>
    have e : ∀ (d : Ω) (ds : Fin N → Ω), ((List.ofFn (Fin.cons d ds : Fin (N + 1) → Ω)).map Y).sum = Y d + ((List.ofFn ds).map Y).sum := by
      intro d ds
      rw [List.ofFn_succ]
      simp
    constructor
    · rw [sum_cons]
      simp only [e, Finset.sum_add_distrib, ih.1, Finset.sum_const, add_zero, nsmul_eq_mul]
      rw [← Finset.mul_sum, hY, mul_zero]
    · rw [sum_cons]
      have e2 : ∀ (d : Ω), ∑ ds : Fin N → Ω, (((List.ofFn (Fin.cons d ds : Fin (N + 1) → Ω)).map Y).sum) ^ 2 =
          (Fintype.card Ω : ℚ) ^ N * Y d ^ 2 + ∑ ds : Fin N → Ω, (((List.ofFn ds).map Y).sum) ^ 2 := by
        intro d
        have : ∀ ds : Fin N → Ω, (((List.ofFn (Fin.cons d ds : Fin (N + 1) → Ω)).map Y).sum) ^ 2 =
            Y d ^ 2 + 2 * Y d * ((List.ofFn ds).map Y).sum + (((List.ofFn ds).map Y).sum) ^ 2 := by
          intro ds; rw [e]; ring
        rw [Finset.sum_congr rfl (fun ds _ => this ds), Finset.sum_add_distrib, Finset.sum_add_distrib, ← Finset.mul_sum, ih.1]
        simp
      rw [Finset.sum_congr rfl (fun d _ => e2 d), Finset.sum_add_distrib, ← Finset.mul_sum]
      simp only [Finset.sum_const, Finset.card_univ, nsmul_eq_mul]
      have h2 := ih.2
      rw [div_eq_iff (pow_ne_zero _ hm)] at h2
      rw [h2, pow_succ]
      push_cast
      field_simp
      ring

/-- the probability that a relative frequency is off by `ε` or more -/
theorem chebyshev (h0 : 0 < Fintype.card Ω) (q : Ω → Prop) {N : Nat} (hN : 0 < N) {ε : ℚ} (hε : 0 < ε) :
    part Ω N (fun l => ε ≤ |((l.filter (fun d => decide (q d))).length : ℚ) / N - frac Ω q|) ≤ 1 / (4 * N * ε ^ 2) := by
  have hm : 0 < (Fintype.card Ω : ℚ) := by exact_mod_cast h0
  have hN' : 0 < (N : ℚ) := by exact_mod_cast hN
  set f := frac Ω q with hf
  let Y : Ω → ℚ := fun d => (if q d then (1 : ℚ) else 0) - f
  have hfm : ∑ d : Ω, (if q d then (1 : ℚ) else 0) = f * (Fintype.card Ω : ℚ) := by
    rw [hf]; unfold frac; field_simp
  have hY : ∑ d, Y d = 0 := by
    simp only [Y, Finset.sum_sub_distrib, Finset.sum_const, Finset.card_univ, nsmul_eq_mul, hfm]; ring
  have hY2 : (∑ d, Y d ^ 2) / (Fintype.card Ω : ℚ) = f * (1 - f) := by
    have : ∀ d, Y d ^ 2 = (1 - 2 * f) * (if q d then (1 : ℚ) else 0) + f ^ 2 := by
      intro d
      simp only [Y]
      split <;> ring
    rw [Finset.sum_congr rfl (fun d _ => this d), Finset.sum_add_distrib, ← Finset.mul_sum, hfm]
    simp only [Finset.sum_const, Finset.card_univ, nsmul_eq_mul]
    field_simp
    ring
  have hsum : ∀ l : List Ω, (l.map Y).sum = ((l.filter (fun d => decide (q d))).length : ℚ) - l.length * f := by
    intro l
    induction l with
    | nil => simp
    | cons d l ih =>
      rw [List.map_cons, List.sum_cons, ih, List.filter_cons]
      by_cases h : q d
      · simp [Y, h]; ring
      · simp [Y, h]; ring
  have hv := (variance h0 hY N).2
  rw [hY2] at hv
  have hle : part Ω N (fun l => ε ≤ |((l.filter (fun d => decide (q d))).length : ℚ) / N - f|) * (N * ε) ^ 2 ≤
      (∑ ds : Fin N → Ω, (((List.ofFn ds).map Y).sum) ^ 2) / (Fintype.card Ω : ℚ) ^ N := by
    unfold part
    rw [div_mul_eq_mul_div, Finset.sum_mul]
    apply div_le_div_of_nonneg_right _ (by positivity)
    apply Finset.sum_le_sum
    intro ds _
    split
    · rename_i h
      rw [one_mul, hsum, List.length_ofFn]
      have e : ((((List.ofFn ds).filter (fun d => decide (q d))).length : ℚ) - N * f) =
          N * ((((List.ofFn ds).filter (fun d => decide (q d))).length : ℚ) / N - f) := by field_simp
      rw [e, mul_pow, mul_pow]
      apply mul_le_mul_of_nonneg_left _ (by positivity)
      rw [← sq_abs (_ / _ - f)]
      exact pow_le_pow_left₀ hε.le h 2
    · rw [zero_mul]; positivity
  rw [hv] at hle
  have h4 : f * (1 - f) ≤ 1 / 4 := by nlinarith [sq_nonneg (f - 1 / 2)]
  rw [le_div_iff₀ (by positivity)]
  have : N * (f * (1 - f)) ≤ N * (1 / 4) := mul_le_mul_of_nonneg_left h4 hN'.le
  have h5 : part Ω N (fun l => ε ≤ |((l.filter (fun d => decide (q d))).length : ℚ) / N - f|) * (N * ε) ^ 2 ≤ N * (1 / 4) := hle.trans this
  have h6 : N * (part Ω N (fun l => ε ≤ |((l.filter (fun d => decide (q d))).length : ℚ) / N - f|) * (4 * N * ε ^ 2)) ≤ N * 1 := by
    nlinarith
  exact le_of_mul_le_mul_left h6 hN'

end Reject
end PyBBN
