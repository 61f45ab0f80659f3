import Verif.Spec.Rounding
import Verif.Proofs.Lockstep

/-!
# Lemmas about rounding (C70)
-/

namespace PyBBN

variable {u : ℚ}

theorem rel_bounds {x y : ℚ} (hx : 0 ≤ x) (h : |y - x| ≤ u * |x|) : (1 - u) * x ≤ y ∧ y ≤ (1 + u) * x := by
  rw [abs_of_nonneg hx] at h
  obtain ⟨h1, h2⟩ := abs_le.1 h
  constructor <;> linarith

theorem pow_one_sub (hu : 0 ≤ u ∧ u < 1) (n : ℕ) : 0 < (1 - u) ^ n ∧ (1 - u) ^ n ≤ 1 := by
  have h0 : 0 < 1 - u := by linarith [hu.2]
  exact ⟨pow_pos h0 n, pow_le_one₀ (le_of_lt h0) (by linarith [hu.1])⟩

/-- one more rounding -/
theorem Near.round (hu : 0 ≤ u ∧ u < 1) {n : ℕ} {x y z : ℚ} (hy : 0 ≤ y) (h : Near u n x y)
    (hz : |z - y| ≤ u * |y|) : 0 ≤ z ∧ Near u (n + 1) x z := by
  obtain ⟨b1, b2⟩ := rel_bounds hy hz
  have h0 : 0 < 1 - u := by linarith [hu.2]
  obtain ⟨p1, p2⟩ := pow_one_sub hu n
  obtain ⟨h1, h2⟩ := h
  have hsq : (1 - u) * (1 + u) ≤ 1 := by nlinarith [hu.1]
  refine ⟨le_trans (mul_nonneg (le_of_lt h0) hy) b1, ?_, ?_⟩
  · calc (1 - u) ^ (n + 1) * x = (1 - u) * ((1 - u) ^ n * x) := by ring
      _ ≤ (1 - u) * y := mul_le_mul_of_nonneg_left h1 (le_of_lt h0)
      _ ≤ z := b1
  · calc (1 - u) ^ (n + 1) * z = (1 - u) ^ n * ((1 - u) * z) := by ring
      _ ≤ (1 - u) ^ n * ((1 - u) * ((1 + u) * y)) :=
          mul_le_mul_of_nonneg_left (mul_le_mul_of_nonneg_left b2 (le_of_lt h0)) (le_of_lt p1)
      _ = (1 - u) ^ n * (((1 - u) * (1 + u)) * y) := by ring
      _ ≤ (1 - u) ^ n * (1 * y) := mul_le_mul_of_nonneg_left (mul_le_mul_of_nonneg_right hsq hy) (le_of_lt p1)
      _ = (1 - u) ^ n * y := by ring
      _ ≤ x := h2

theorem Near.mono (hu : 0 ≤ u ∧ u < 1) {n m : ℕ} (hnm : n ≤ m) {x y : ℚ} (hx : 0 ≤ x) (hy : 0 ≤ y) (h : Near u n x y) : Near u m x y := by
  have h0 : 0 ≤ 1 - u := by linarith [hu.2]
  have hp : (1 - u) ^ m ≤ (1 - u) ^ n := pow_le_pow_of_le_one h0 (by linarith [hu.1]) hnm
  exact ⟨le_trans (mul_le_mul_of_nonneg_right hp hx) h.1, le_trans (mul_le_mul_of_nonneg_right hp hy) h.2⟩

theorem Near.refl (x : ℚ) : Near u 0 x x := ⟨by simp, by simp⟩

theorem Near.mul (hu : 0 ≤ u ∧ u < 1) {n m : ℕ} {x y x' y' : ℚ} (hx : 0 ≤ x) (hy : 0 ≤ y) (hx' : 0 ≤ x') (hy' : 0 ≤ y')
    (h : Near u n x y) (h' : Near u m x' y') : Near u (n + m) (x * x') (y * y') := by
  obtain ⟨p1, _⟩ := pow_one_sub hu n
  obtain ⟨q1, _⟩ := pow_one_sub hu m
  constructor
  · calc (1 - u) ^ (n + m) * (x * x') = ((1 - u) ^ n * x) * ((1 - u) ^ m * x') := by rw [pow_add]; ring
      _ ≤ y * y' := mul_le_mul h.1 h'.1 (mul_nonneg (le_of_lt q1) hx') hy
  · calc (1 - u) ^ (n + m) * (y * y') = ((1 - u) ^ n * y) * ((1 - u) ^ m * y') := by rw [pow_add]; ring
      _ ≤ x * x' := mul_le_mul h.2 h'.2 (mul_nonneg (le_of_lt q1) hy') hx

theorem Near.zero_iff (hu : 0 ≤ u ∧ u < 1) {n : ℕ} {x y : ℚ} (hx : 0 ≤ x) (hy : 0 ≤ y) (h : Near u n x y) : y = 0 ↔ x = 0 := by
  obtain ⟨p1, _⟩ := pow_one_sub hu n
  constructor
  · intro e
    have := h.1
    rw [e] at this
    nlinarith [mul_nonneg (le_of_lt p1) hx, mul_pos_iff_of_pos_left p1 (b := x)]
  · intro e
    have := h.2
    rw [e] at this
    nlinarith [mul_nonneg (le_of_lt p1) hy, mul_pos_iff_of_pos_left p1 (b := y)]

theorem Near.div (hu : 0 ≤ u ∧ u < 1) {n m : ℕ} {x y x' y' : ℚ} (hx : 0 ≤ x) (hy : 0 ≤ y) (hx' : 0 < x') (hy' : 0 < y')
    (h : Near u n x y) (h' : Near u m x' y') : Near u (n + m) (x / x') (y / y') := by
  obtain ⟨p1, _⟩ := pow_one_sub hu n
  obtain ⟨q1, _⟩ := pow_one_sub hu m
  constructor
  · rw [← mul_div_assoc, div_le_div_iff₀ hx' hy', pow_add]
    calc (1 - u) ^ n * (1 - u) ^ m * x * y' = ((1 - u) ^ n * x) * ((1 - u) ^ m * y') := by ring
      _ ≤ y * x' := mul_le_mul h.1 h'.2 (mul_nonneg (le_of_lt q1) (le_of_lt hy')) hy
  · rw [← mul_div_assoc, div_le_div_iff₀ hy' hx', pow_add]
    calc (1 - u) ^ n * (1 - u) ^ m * y * x' = ((1 - u) ^ n * y) * ((1 - u) ^ m * x') := by ring
      _ ≤ x * y' := mul_le_mul h.2 h'.1 (mul_nonneg (le_of_lt q1) (le_of_lt hx')) hx

/-! ### the relation of the three runs: exact value, float, number of roundings -/

def R70 (u : ℚ) (x y c : ℚ) : Prop := 0 ≤ x ∧ 0 ≤ y ∧ ∃ n : ℕ, c = n ∧ Near u n x y

theorem max_cast : ∀ {l m n : List ℚ}, L3 (R70 u) l m n → (∀ x ∈ l, 0 ≤ x) ∧ (∀ y ∈ m, 0 ≤ y) ∧ m.length = l.length ∧ n.length = l.length ∧
    ∃ k : ℕ, n.foldr max 0 = (k : ℚ)
  | _, _, _, L3.nil => ⟨by simp, by simp, rfl, rfl, 0, by simp⟩
  | _, _, _, L3.cons ⟨hx, hy, k, hk, _⟩ h => by
      obtain ⟨h1, h2, h3, h4, k', hk'⟩ := max_cast h
      refine ⟨?_, ?_, by simp [h3], by simp [h4], max k k', ?_⟩
      · intro x hx'
        rcases List.mem_cons.1 hx' with rfl | h
        · exact hx
        · exact h1 x h
      · intro x hx'
        rcases List.mem_cons.1 hx' with rfl | h
        · exact hy
        · exact h2 x h
      · simp [hk, hk']

theorem near_sum (hu : 0 ≤ u ∧ u < 1) : ∀ {l m n : List ℚ}, L3 (R70 u) l m n → ∀ k : ℕ, n.foldr max 0 ≤ (k : ℚ) → Near u k l.sum m.sum
  | _, _, _, L3.nil, k, _ => ⟨by simp, by simp⟩
  | _, _, _, @L3.cons _ _ x y c l m n ⟨hx, hy, j, hj, hn⟩ h, k, hk => by
      rw [List.foldr_cons] at hk
      have hjk : j ≤ k := by
        have := le_trans (le_max_left c (n.foldr max 0)) hk
        rw [hj] at this
        exact_mod_cast this
      have h1 := near_sum hu h k (le_trans (le_max_right _ _) hk)
      have h2 := hn.mono hu hjk hx hy
      simp only [List.sum_cons]
      constructor
      · rw [mul_add]; exact add_le_add h2.1 h1.1
      · rw [mul_add]; exact add_le_add h2.2 h1.2

theorem closed70 {inp : ℚ → ℚ} {mul div : ℚ → ℚ → ℚ} {sum : List ℚ → ℚ} (h : Rounds u inp mul div sum) :
    Closed (fun q : ℚ => 0 ≤ q) (R70 u) Arith.exact (Arith.float inp mul div sum) Arith.count := by
  have hu := h.unit
  have hdiv : ∀ a b c a' b' c', R70 u a b c → R70 u a' b' c' → a' ≠ 0 → b' ≠ 0 → R70 u (a / a') (div b b') (c + c' + 1) := by
    rintro a b c a' b' c' ⟨h1, h2, n, hn, h3⟩ ⟨h1', h2', n', hn', h3'⟩ ha hb
    have ha' := lt_of_le_of_ne h1' (Ne.symm ha)
    have hb' := lt_of_le_of_ne h2' (Ne.symm hb)
    have h4 := Near.div hu h1 h2 ha' hb' h3 h3'
    obtain ⟨h5, h6⟩ := h4.round hu (div_nonneg h2 h2') (h.div b b' hb)
    exact ⟨div_nonneg h1 h1', h5, n + n' + 1, by rw [hn, hn']; push_cast; ring, h6⟩
  have hz : ∀ a b c, R70 u a b c → (b = 0 ↔ a = 0) := fun a b c ⟨h1, h2, n, _, h3⟩ => h3.zero_iff hu h1 h2
  constructor
  · intro x hx
    obtain ⟨h1, h2⟩ := (Near.refl (u := u) x).round hu hx (h.inp x)
    exact ⟨hx, h1, 1, by simp [Arith.count], h2⟩
  · exact ⟨by simp [Arith.exact], by simp [Arith.float], 0, by simp [Arith.count], Near.refl 1⟩
  · rintro a b c a' b' c' ⟨h1, h2, n, hn, h3⟩ ⟨h1', h2', n', hn', h3'⟩
    have h4 := Near.mul hu h1 h2 h1' h2' h3 h3'
    obtain ⟨h5, h6⟩ := h4.round hu (mul_nonneg h2 h2') (h.mul b b')
    exact ⟨mul_nonneg h1 h1', h5, n + n' + 1, by simp only [Arith.count]; rw [hn, hn']; push_cast; ring, h6⟩
  · intro a b c a' b' c' hr hr'
    have e1 := hz _ _ _ hr
    have e2 := hz _ _ _ hr'
    simp only [Arith.exact, Arith.float, Arith.count, PotentialUtil.isZero]
    by_cases ha : a = 0
    · have hb := e1.2 ha
      obtain ⟨_, _, n, hn, _⟩ := hr
      obtain ⟨_, _, n', hn', _⟩ := hr'
      simp only [ha, hb, decide_true, Bool.true_or, if_true]
      exact ⟨le_refl _, le_refl _, n + n' + 1, by rw [hn, hn']; push_cast; ring, by simp, by simp⟩
    · by_cases ha' : a' = 0
      · have hb := e2.2 ha'
        obtain ⟨_, _, n, hn, _⟩ := hr
        obtain ⟨_, _, n', hn', _⟩ := hr'
        simp only [ha', hb, decide_true, Bool.or_true, if_true]
        exact ⟨le_refl _, le_refl _, n + n' + 1, by rw [hn, hn']; push_cast; ring, by simp, by simp⟩
      · have hb := fun e => ha (e1.1 e)
        have hb' := fun e => ha' (e2.1 e)
        simp only [Ne.symm ha, Ne.symm ha', Ne.symm hb, Ne.symm hb', decide_false, Bool.or_self, Bool.false_eq_true, if_false]
        exact hdiv _ _ _ _ _ _ hr hr' ha' hb'
  · intro l m n hl
    obtain ⟨h1, h2, h3, h4, k, hk⟩ := max_cast hl
    have h5 := near_sum hu hl k (le_of_eq hk)
    obtain ⟨s1, s2⟩ := h.sum m h2
    have hm := List.sum_nonneg h2
    obtain ⟨p1, _⟩ := pow_one_sub hu m.length
    obtain ⟨q1, _⟩ := pow_one_sub hu k
    have hsq : (1 - u) ^ m.length * (1 + u) ^ m.length ≤ 1 := by
      rw [← mul_pow]
      have h0 : 0 < 1 - u := by linarith [hu.2]
      exact pow_le_one₀ (mul_nonneg (le_of_lt h0) (by linarith [hu.1])) (by nlinarith [hu.1])
    refine ⟨List.sum_nonneg h1, le_trans (mul_nonneg (le_of_lt p1) hm) s1, k + m.length, ?_, ?_, ?_⟩
    · simp only [Arith.count]
      rw [hk, h4, h3]
      push_cast
      ring
    · calc (1 - u) ^ (k + m.length) * l.sum = (1 - u) ^ m.length * ((1 - u) ^ k * l.sum) := by rw [pow_add]; ring
        _ ≤ (1 - u) ^ m.length * m.sum := mul_le_mul_of_nonneg_left h5.1 (le_of_lt p1)
        _ ≤ sum m := s1
    · calc (1 - u) ^ (k + m.length) * sum m = (1 - u) ^ k * ((1 - u) ^ m.length * sum m) := by rw [pow_add]; ring
        _ ≤ (1 - u) ^ k * ((1 - u) ^ m.length * ((1 + u) ^ m.length * m.sum)) :=
            mul_le_mul_of_nonneg_left (mul_le_mul_of_nonneg_left s2 (le_of_lt p1)) (le_of_lt q1)
        _ = (1 - u) ^ k * (((1 - u) ^ m.length * (1 + u) ^ m.length) * m.sum) := by ring
        _ ≤ (1 - u) ^ k * (1 * m.sum) := mul_le_mul_of_nonneg_left (mul_le_mul_of_nonneg_right hsq hm) (le_of_lt q1)
        _ = (1 - u) ^ k * m.sum := by ring
        _ ≤ l.sum := h5.2
  · intro a b c a' b' c' hr hr'
    have e2 := hz _ _ _ hr'
    simp only [Arith.exact, Arith.float, Arith.count]
    by_cases ha' : a' = 0
    · have hb := e2.2 ha'
      simp only [ha', hb, ne_eq, not_true_eq_false, if_false]
      obtain ⟨h1, h2, n, hn, h3⟩ := hr
      obtain ⟨_, _, n', hn', _⟩ := hr'
      exact ⟨h1, h2, n + n' + 1, by rw [hn, hn']; push_cast; ring, h3.mono hu (by omega) h1 h2⟩
    · have hb' : b' ≠ 0 := fun e => ha' (e2.1 e)
      simp only [ne_eq, ha', hb', not_false_eq_true, if_true]
      exact hdiv _ _ _ _ _ _ hr hr' ha' hb'

/-! ### binary rounding and the summation loop -/

theorem roundEven_err (y : ℚ) : |y - roundEven y| ≤ 1 / 2 := by
  unfold roundEven
  split
  · rename_i h
    have h1 : y - (⌊y⌋ : ℚ) = Int.fract y := rfl
    rw [h1, h.1, abs_of_pos (by norm_num)]
  · exact abs_sub_round y

theorem binRound_err (p : ℕ) (x : ℚ) : |binRound (p + 1) x - x| ≤ (1 / 2 ^ (p + 1)) * |x| := by
  by_cases hx : x = 0
  · subst hx
    simp [binRound, roundEven]
  · unfold binRound
    have hpos : 0 < |x| := abs_pos.2 hx
    have hle : (2 : ℚ) ^ Int.log 2 |x| ≤ |x| := by
      have := Int.zpow_log_le_self (b := 2) (R := ℚ) (by norm_num) hpos
      exact_mod_cast this
    set e := Int.log 2 |x| with he
    set y := x * 2 ^ (((p + 1 : ℕ) : ℤ) - 1 - e) with hy
    have hcast : (((p + 1 : ℕ) : ℤ) - 1) = (p : ℤ) := by push_cast; ring
    have h2 : (2 : ℚ) ≠ 0 := by norm_num
    have hb : (0 : ℚ) < 2 ^ (e - (((p + 1 : ℕ) : ℤ) - 1)) := zpow_pos (by norm_num) _
    have hback : y * 2 ^ (e - (((p + 1 : ℕ) : ℤ) - 1)) = x := by
      rw [hy, mul_assoc, ← zpow_add₀ h2]
      simp
    have hd : (roundEven y : ℚ) * 2 ^ (e - (((p + 1 : ℕ) : ℤ) - 1)) - x = ((roundEven y : ℚ) - y) * 2 ^ (e - (((p + 1 : ℕ) : ℤ) - 1)) := by
      rw [sub_mul, hback]
    rw [hd, abs_mul, abs_of_pos hb, abs_sub_comm]
    have hr := roundEven_err y
    calc |y - roundEven y| * 2 ^ (e - (((p + 1 : ℕ) : ℤ) - 1)) ≤ 1 / 2 * 2 ^ (e - (((p + 1 : ℕ) : ℤ) - 1)) :=
          mul_le_mul_of_nonneg_right hr (le_of_lt hb)
      _ = (1 / 2 ^ (p + 1)) * 2 ^ e := by
          rw [hcast, zpow_sub₀ h2, zpow_natCast, pow_succ]
          field_simp
      _ ≤ (1 / 2 ^ (p + 1)) * |x| := mul_le_mul_of_nonneg_left hle (by positivity)

theorem loopSum_bounds (hu : 0 ≤ u ∧ u < 1) {rnd : ℚ → ℚ} (hr : ∀ x, |rnd x - x| ≤ u * |x|) : ∀ (l : List ℚ) (s : ℚ), 0 ≤ s → (∀ x ∈ l, 0 ≤ x) →
    (1 - u) ^ l.length * (s + l.sum) ≤ l.foldl (fun s x => rnd (s + x)) s ∧ l.foldl (fun s x => rnd (s + x)) s ≤ (1 + u) ^ l.length * (s + l.sum)
  | [], s, hs, _ => by simp
  | x :: l, s, hs, hl => by
      have hx := hl x List.mem_cons_self
      have hl' : ∀ y ∈ l, 0 ≤ y := fun y hy => hl y (List.mem_cons_of_mem _ hy)
      have hsx : 0 ≤ s + x := add_nonneg hs hx
      obtain ⟨b1, b2⟩ := rel_bounds hsx (hr (s + x))
      have h0 : 0 < 1 - u := by linarith [hu.2]
      have h0' : 0 < 1 + u := by linarith [hu.1]
      have hn : 0 ≤ rnd (s + x) := le_trans (mul_nonneg (le_of_lt h0) hsx) b1
      obtain ⟨i1, i2⟩ := loopSum_bounds hu hr l (rnd (s + x)) hn hl'
      have hS := List.sum_nonneg hl'
      simp only [List.foldl_cons, List.sum_cons, List.length_cons]
      constructor
      · refine le_trans ?_ i1
        rw [pow_succ, mul_assoc]
        refine mul_le_mul_of_nonneg_left ?_ (le_of_lt (pow_pos h0 _))
        nlinarith [mul_nonneg hu.1 hS]
      · refine le_trans i2 ?_
        rw [pow_succ, mul_assoc]
        refine mul_le_mul_of_nonneg_left ?_ (le_of_lt (pow_pos h0' _))
        nlinarith [mul_nonneg hu.1 hS]

end PyBBN
