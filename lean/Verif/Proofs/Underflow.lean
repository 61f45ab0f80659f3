import Verif.Spec.Underflow
import Verif.Proofs.Rounding

/-! # Lemmas about bounded exponents (C112) -/

namespace PyBBN

variable {u : ℚ} {E : ℕ}

/-- zero, or between `2^-n` and `2^n` -/
def Sized (n : ℕ) (y : ℚ) : Prop := y = 0 ∨ (1 / 2 ^ n ≤ y ∧ y ≤ 2 ^ n)

theorem Sized.mono {n m : ℕ} (h : n ≤ m) {y : ℚ} (hy : Sized n y) : Sized m y := by
  rcases hy with h0 | ⟨h1, h2⟩
  · exact Or.inl h0
  · have hp : (2 : ℚ) ^ n ≤ 2 ^ m := pow_le_pow_right₀ (by norm_num) h
    exact Or.inr ⟨le_trans (one_div_le_one_div_of_le (by positivity) hp) h1, le_trans h2 hp⟩

theorem Sized.inRange {n : ℕ} {y : ℚ} (hy : 0 ≤ y) (h : Sized n y) (hn : n ≤ E) : InRange E y := by
  rcases h.mono hn with h0 | h1
  · exact Or.inl h0
  · right
    rw [abs_of_nonneg hy]
    exact h1

/-- one rounding changes the order of magnitude by at most one -/
theorem Sized.round (hu : 0 ≤ u ∧ u ≤ 1 / 2) {n : ℕ} {y z : ℚ} (hy : 0 ≤ y) (h : Sized n y) (hz : |z - y| ≤ u * |y|) : Sized (n + 1) z := by
  obtain ⟨b1, b2⟩ := rel_bounds hy hz
  rcases h with h0 | ⟨h1, h2⟩
  · left
    rw [h0] at b1 b2
    linarith
  · right
    constructor
    · have e : (1 : ℚ) / 2 ^ (n + 1) = 1 / 2 * (1 / 2 ^ n) := by rw [pow_succ]; field_simp
      rw [e]
      nlinarith [hu.2]
    · rw [pow_succ]
      nlinarith [hu.2]

theorem Sized.mul {n m : ℕ} {y z : ℚ} (h : Sized n y) (h' : Sized m z) : Sized (n + m) (y * z) := by
  rcases h with h0 | ⟨h1, h2⟩
  · left; rw [h0, zero_mul]
  rcases h' with h0 | ⟨h3, h4⟩
  · left; rw [h0, mul_zero]
  right
  have hp : (0 : ℚ) < 1 / 2 ^ n := by positivity
  have hq : (0 : ℚ) < 1 / 2 ^ m := by positivity
  constructor
  · rw [pow_add, ← one_div_mul_one_div]
    exact mul_le_mul h1 h3 hq.le (hp.le.trans h1)
  · rw [pow_add]
    exact mul_le_mul h2 h4 (hq.le.trans h3) (by positivity)

theorem Sized.inv {m : ℕ} {z : ℚ} (h : Sized m z) : Sized m z⁻¹ := by
  rcases h with h0 | ⟨h1, h2⟩
  · left; rw [h0, inv_zero]
  right
  have hq : (0 : ℚ) < 1 / 2 ^ m := by positivity
  have hz : 0 < z := hq.trans_le h1
  constructor
  · rw [one_div]; exact inv_anti₀ hz h2
  · have := inv_anti₀ hq h1
    simpa using this

theorem Sized.div {n m : ℕ} {y z : ℚ} (h : Sized n y) (h' : Sized m z) : Sized (n + m) (y / z) := by
  rw [div_eq_mul_inv]
  exact h.mul h'.inv

theorem sized_inp (x : ℚ) (hx : 0 ≤ x) : Sized (|(Int.log 2 |x|)| + 1).toNat x := by
  by_cases h0 : x = 0
  · exact Or.inl h0
  have hpos : 0 < |x| := abs_pos.2 h0
  have h1 : (2 : ℚ) ^ Int.log 2 |x| ≤ |x| := by
    have := Int.zpow_log_le_self (b := 2) (R := ℚ) (by norm_num) hpos
    exact_mod_cast this
  have h2 : |x| < (2 : ℚ) ^ (Int.log 2 |x| + 1) := by
    have := Int.lt_zpow_succ_log_self (b := 2) (R := ℚ) (by norm_num) |x|
    exact_mod_cast this
  rw [abs_of_nonneg hx] at h1 h2 ⊢
  right
  generalize Int.log 2 x = L at h1 h2 ⊢
  have hc : (((|L| + 1).toNat : ℕ) : ℤ) = |L| + 1 := Int.toNat_of_nonneg (by positivity)
  constructor
  · refine le_trans ?_ h1
    rw [one_div, ← zpow_natCast, ← zpow_neg, hc]
    refine zpow_le_zpow_right₀ (by norm_num) ?_
    have := neg_abs_le L
    omega
  · refine h2.le.trans ?_
    rw [← zpow_natCast, hc]
    refine zpow_le_zpow_right₀ (by norm_num) ?_
    have := le_abs_self L
    omega

/-- the relation of the three runs: exact value, float, count. It says something only for counts up to `E`. -/
def R112 (u : ℚ) (E : ℕ) (x y c : ℚ) : Prop := ∃ n : ℕ, c = n ∧ (n ≤ E → 0 ≤ x ∧ 0 ≤ y ∧ Near u n x y ∧ Sized n y)

theorem sum_sized {n : ℕ} : ∀ {m : List ℚ}, (∀ y ∈ m, 0 ≤ y ∧ Sized n y) → m.sum ≤ m.length * 2 ^ n ∧ (m.sum = 0 ∨ 1 / 2 ^ n ≤ m.sum) ∧ 0 ≤ m.sum
  | [], _ => ⟨by simp, Or.inl rfl, le_refl _⟩
  | y :: m, h => by
      obtain ⟨h1, h2, h3⟩ := sum_sized (fun z hz => h z (List.mem_cons_of_mem _ hz))
      obtain ⟨hy, hs⟩ := h y List.mem_cons_self
      have hp : (0 : ℚ) < 2 ^ n := by positivity
      simp only [List.sum_cons, List.length_cons]
      push_cast
      refine ⟨?_, ?_, by linarith⟩
      · rcases hs with h0 | ⟨_, h5⟩
        · rw [h0]; nlinarith
        · nlinarith
      · rcases hs with h0 | ⟨h5, _⟩
        · rw [h0, zero_add]; exact h2
        · right; linarith

theorem unpack112 : ∀ {l m n : List ℚ}, L3 (R112 u E) l m n → m.length = l.length ∧ n.length = l.length ∧ ∃ k : ℕ, n.foldr max 0 = (k : ℚ) ∧
    (k ≤ E → L3 (R70 u) l m n ∧ ∀ y ∈ m, 0 ≤ y ∧ Sized k y)
  | _, _, _, L3.nil => ⟨rfl, rfl, 0, by simp, fun _ => ⟨L3.nil, by simp⟩⟩
  | _, _, _, L3.cons ⟨k, hk, hr⟩ h => by
      obtain ⟨h3, h4, k', hk', h5⟩ := unpack112 h
      refine ⟨by simp [h3], by simp [h4], max k k', by simp [hk, hk'], ?_⟩
      intro hle
      obtain ⟨h6, h7⟩ := h5 (le_trans (le_max_right _ _) hle)
      obtain ⟨r1, r2, r3, r4⟩ := hr (le_trans (le_max_left _ _) hle)
      refine ⟨L3.cons ⟨r1, r2, k, hk, r3⟩ h6, ?_⟩
      intro y hy
      rcases List.mem_cons.1 hy with rfl | hy
      · exact ⟨r2, r4.mono (le_max_left _ _)⟩
      · exact ⟨(h7 y hy).1, (h7 y hy).2.mono (le_max_right _ _)⟩

theorem closed112 {inp : ℚ → ℚ} {mul div : ℚ → ℚ → ℚ} {sum : List ℚ → ℚ} (h : RoundsIn u E inp mul div sum) :
    Closed (fun q : ℚ => 0 ≤ q) (R112 u E) Arith.exact (Arith.float inp mul div sum) Arith.size := by
  have hu2 := h.unit
  have hu : 0 ≤ u ∧ u < 1 := ⟨hu2.1, by linarith [hu2.2]⟩
  have hdiv : ∀ (a b a' b' : ℚ) (n n' : ℕ), n + n' + 1 ≤ E → 0 ≤ a → 0 ≤ b → Near u n a b → Sized n b → 0 ≤ a' → 0 ≤ b' → Near u n' a' b' → Sized n' b' →
      a' ≠ 0 → b' ≠ 0 → 0 ≤ a / a' ∧ 0 ≤ div b b' ∧ Near u (n + n' + 1) (a / a') (div b b') ∧ Sized (n + n' + 1) (div b b') := by
    intro a b a' b' n n' hE h1 h2 h3 h4 h1' h2' h3' h4' ha hb
    have ha' := lt_of_le_of_ne h1' (Ne.symm ha)
    have hb' := lt_of_le_of_ne h2' (Ne.symm hb)
    have h5 := Near.div hu h1 h2 ha' hb' h3 h3'
    have h6 := h4.div h4'
    have h7 := h.div b b' hb (h6.inRange (div_nonneg h2 h2') (by omega))
    obtain ⟨h8, h9⟩ := h5.round hu (div_nonneg h2 h2') h7
    exact ⟨div_nonneg h1 h1', h8, h9, h6.round hu2 (div_nonneg h2 h2') h7⟩
  constructor
  · intro x hx
    refine ⟨(|(Int.log 2 |x|)| + 1).toNat + 1, ?_, ?_⟩
    · have hc : (((|(Int.log 2 |x|)| + 1).toNat : ℕ) : ℤ) = |(Int.log 2 |x|)| + 1 := Int.toNat_of_nonneg (by positivity)
      have hc' : (((|(Int.log 2 |x|)| + 1).toNat : ℕ) : ℚ) = ((|(Int.log 2 |x|)| + 1 : ℤ) : ℚ) := by exact_mod_cast hc
      simp only [Arith.size]
      push_cast at hc' ⊢
      rw [hc']
      ring
    · intro hE
      have hs := sized_inp x hx
      have hi := h.inp x (hs.inRange hx (by omega))
      obtain ⟨h1, h2⟩ := (Near.refl (u := u) x).round hu hx hi
      exact ⟨hx, h1, h2.mono hu (by omega) hx h1, hs.round hu2 hx hi⟩
  · refine ⟨0, by simp [Arith.size], fun _ => ⟨by simp [Arith.exact], by simp [Arith.float], Near.refl 1, Or.inr ?_⟩⟩
    simp [Arith.float]
  · rintro a b c a' b' c' ⟨n, hn, hr⟩ ⟨n', hn', hr'⟩
    refine ⟨n + n' + 1, by simp only [Arith.size]; rw [hn, hn']; push_cast; ring, ?_⟩
    intro hE
    obtain ⟨h1, h2, h3, h4⟩ := hr (by omega)
    obtain ⟨h1', h2', h3', h4'⟩ := hr' (by omega)
    have h5 := Near.mul hu h1 h2 h1' h2' h3 h3'
    have h6 := h4.mul h4'
    have h7 := h.mul b b' (h6.inRange (mul_nonneg h2 h2') (by omega))
    obtain ⟨h8, h9⟩ := h5.round hu (mul_nonneg h2 h2') h7
    exact ⟨mul_nonneg h1 h1', h8, h9, h6.round hu2 (mul_nonneg h2 h2') h7⟩
  · rintro a b c a' b' c' ⟨n, hn, hr⟩ ⟨n', hn', hr'⟩
    refine ⟨n + n' + 1, by simp only [Arith.size]; rw [hn, hn']; push_cast; ring, ?_⟩
    intro hE
    obtain ⟨h1, h2, h3, h4⟩ := hr (by omega)
    obtain ⟨h1', h2', h3', h4'⟩ := hr' (by omega)
    have e1 := h3.zero_iff hu h1 h2
    have e2 := h3'.zero_iff hu h1' h2'
    simp only [Arith.exact, Arith.float, PotentialUtil.isZero]
    by_cases ha : a = 0
    · have hb := e1.2 ha
      simp only [ha, hb, decide_true, Bool.true_or, if_true]
      exact ⟨le_refl _, le_refl _, ⟨by simp, by simp⟩, Or.inl rfl⟩
    · by_cases ha' : a' = 0
      · have hb := e2.2 ha'
        simp only [ha', hb, decide_true, Bool.or_true, if_true]
        exact ⟨le_refl _, le_refl _, ⟨by simp, by simp⟩, Or.inl rfl⟩
      · have hb := fun e => ha (e1.1 e)
        have hb' := fun e => ha' (e2.1 e)
        simp only [Ne.symm ha, Ne.symm ha', Ne.symm hb, Ne.symm hb', decide_false, Bool.or_self, Bool.false_eq_true, if_false]
        exact hdiv _ _ _ _ _ _ hE h1 h2 h3 h4 h1' h2' h3' h4' ha' hb'
  · intro l m n hl
    obtain ⟨h3, h4, k, hk, hrest⟩ := unpack112 hl
    refine ⟨k + 2 * m.length, by simp only [Arith.size]; rw [hk, h4, h3]; push_cast; ring, ?_⟩
    intro hE
    obtain ⟨h70, hsz⟩ := hrest (by omega)
    obtain ⟨hx, hy, _, _, _, _⟩ := max_cast h70
    have hnear := near_sum hu h70 k (le_of_eq hk)
    obtain ⟨s1, s2, s3⟩ := sum_sized hsz
    have hlen : (m.length : ℚ) ≤ 2 ^ m.length := by exact_mod_cast (Nat.lt_two_pow_self).le
    have hbound : (2 : ℚ) ^ m.length * m.sum ≤ 2 ^ (k + 2 * m.length) := by
      calc (2 : ℚ) ^ m.length * m.sum ≤ 2 ^ m.length * (2 ^ m.length * 2 ^ k) := by
            refine mul_le_mul_of_nonneg_left (s1.trans ?_) (by positivity)
            exact mul_le_mul_of_nonneg_right hlen (by positivity)
        _ = 2 ^ (k + 2 * m.length) := by rw [pow_add, two_mul, pow_add]; ring
    have hEpow : (2 : ℚ) ^ (k + 2 * m.length) ≤ 2 ^ E := pow_le_pow_right₀ (by norm_num) hE
    obtain ⟨t1, t2⟩ := h.sum m (by
      intro y hym
      refine ⟨(hsz y hym).1, ?_⟩
      rcases (hsz y hym).2 with h0 | ⟨h5, _⟩
      · exact Or.inl h0
      · right
        refine le_trans ?_ h5
        rw [div_le_div_iff₀ (by positivity) (by positivity), one_mul, ← pow_add]
        exact pow_le_pow_right₀ (by norm_num) (by omega)) (hbound.trans hEpow)
    obtain ⟨p1, _⟩ := pow_one_sub hu m.length
    obtain ⟨q1, _⟩ := pow_one_sub hu k
    have hsq : (1 - u) ^ m.length * (1 + u) ^ m.length ≤ 1 := by
      rw [← mul_pow]
      have h0 : 0 < 1 - u := by linarith [hu.2]
      exact pow_le_one₀ (mul_nonneg (le_of_lt h0) (by linarith [hu.1])) (by nlinarith [hu.1])
    have hn0 : 0 ≤ sum m := le_trans (mul_nonneg (le_of_lt p1) s3) t1
    have hN : Near u (k + m.length) l.sum (sum m) := by
      constructor
      · calc (1 - u) ^ (k + m.length) * l.sum = (1 - u) ^ m.length * ((1 - u) ^ k * l.sum) := by rw [pow_add]; ring
          _ ≤ (1 - u) ^ m.length * m.sum := mul_le_mul_of_nonneg_left hnear.1 (le_of_lt p1)
          _ ≤ sum m := t1
      · calc (1 - u) ^ (k + m.length) * sum m = (1 - u) ^ k * ((1 - u) ^ m.length * sum m) := by rw [pow_add]; ring
          _ ≤ (1 - u) ^ k * ((1 - u) ^ m.length * ((1 + u) ^ m.length * m.sum)) :=
              mul_le_mul_of_nonneg_left (mul_le_mul_of_nonneg_left t2 (le_of_lt p1)) (le_of_lt q1)
          _ = (1 - u) ^ k * (((1 - u) ^ m.length * (1 + u) ^ m.length) * m.sum) := by ring
          _ ≤ (1 - u) ^ k * (1 * m.sum) := mul_le_mul_of_nonneg_left (mul_le_mul_of_nonneg_right hsq s3) (le_of_lt q1)
          _ = (1 - u) ^ k * m.sum := by ring
          _ ≤ l.sum := hnear.2
    refine ⟨List.sum_nonneg hx, hn0, hN.mono hu (by omega) (List.sum_nonneg hx) hn0, ?_⟩
    rcases s2 with h0 | h5
    · left
      rw [h0, mul_zero] at t1 t2
      exact le_antisymm t2 t1
    · right
      constructor
      · have hhalf : (1 / 2 : ℚ) ^ m.length ≤ (1 - u) ^ m.length := pow_le_pow_left₀ (by norm_num) (by linarith [hu2.2]) _
        calc (1 : ℚ) / 2 ^ (k + 2 * m.length) ≤ 1 / 2 ^ (k + m.length) := one_div_le_one_div_of_le (by positivity) (pow_le_pow_right₀ (by norm_num) (by omega))
          _ = (1 / 2) ^ m.length * (1 / 2 ^ k) := by rw [pow_add, one_div_pow]; field_simp
          _ ≤ (1 - u) ^ m.length * m.sum := mul_le_mul hhalf h5 (by positivity) p1.le
          _ ≤ sum m := t1
      · calc sum m ≤ (1 + u) ^ m.length * m.sum := t2
          _ ≤ 2 ^ m.length * m.sum := mul_le_mul_of_nonneg_right (pow_le_pow_left₀ (by linarith [hu.1]) (by linarith [hu2.2]) _) s3
          _ ≤ 2 ^ (k + 2 * m.length) := hbound
  · rintro a b c a' b' c' ⟨n, hn, hr⟩ ⟨n', hn', hr'⟩
    refine ⟨n + n' + 1, by simp only [Arith.size]; rw [hn, hn']; push_cast; ring, ?_⟩
    intro hE
    obtain ⟨h1, h2, h3, h4⟩ := hr (by omega)
    obtain ⟨h1', h2', h3', h4'⟩ := hr' (by omega)
    have e2 := h3'.zero_iff hu h1' h2'
    simp only [Arith.exact, Arith.float]
    by_cases ha' : a' = 0
    · have hb := e2.2 ha'
      simp only [ha', hb, ne_eq, not_true_eq_false, if_false]
      exact ⟨h1, h2, h3.mono hu (by omega) h1 h2, h4.mono (by omega)⟩
    · have hb' : b' ≠ 0 := fun e => ha' (e2.1 e)
      simp only [ne_eq, ha', hb', not_false_eq_true, if_true]
      exact hdiv _ _ _ _ _ _ hE h1 h2 h3 h4 h1' h2' h3' h4' ha' hb'

/-! ### binary rounding with a smallest number -/

theorem ieeeRound_err (p m : ℕ) {x : ℚ} (h : x = 0 ∨ 2 ^ (p + 1) / 2 ^ (m + 1) ≤ |x|) : |ieeeRound (p + 1) m x - x| ≤ (1 / 2 ^ (p + 1)) * |x| := by
  rcases h with rfl | h
  · simp only [ieeeRound, abs_zero]
    rw [if_pos (by positivity)]
    simp [roundEven]
  · rw [ieeeRound, if_neg (not_lt.2 h)]
    exact binRound_err p x

theorem loopSum_bounds_in (hu : 0 ≤ u ∧ u ≤ 1 / 2) {c : ℚ} (hc : 0 < c) {rnd : ℚ → ℚ} (hr : ∀ x, x = 0 ∨ c ≤ |x| → |rnd x - x| ≤ u * |x|) : ∀ (l : List ℚ) (s : ℚ),
    0 ≤ s → (s = 0 ∨ 2 ^ l.length * c ≤ s) → (∀ x ∈ l, 0 ≤ x ∧ (x = 0 ∨ 2 ^ l.length * c ≤ x)) →
    (1 - u) ^ l.length * (s + l.sum) ≤ l.foldl (fun s x => rnd (s + x)) s ∧ l.foldl (fun s x => rnd (s + x)) s ≤ (1 + u) ^ l.length * (s + l.sum)
  | [], s, hs, _, _ => by simp
  | x :: l, s, hs, hs2, hl => by
      obtain ⟨hx, hx2⟩ := hl x List.mem_cons_self
      simp only [List.length_cons] at hx2 hs2
      have hpow : (1 : ℚ) ≤ 2 ^ l.length := one_le_pow₀ (by norm_num)
      have hsx : 0 ≤ s + x := add_nonneg hs hx
      have hbig : s + x = 0 ∨ 2 * (2 ^ l.length * c) ≤ s + x := by
        rcases hs2 with h0 | h1
        · rcases hx2 with h2 | h2
          · left; rw [h0, h2, add_zero]
          · right; rw [pow_succ] at h2; linarith
        · right; rw [pow_succ] at h1; linarith
      have hcl : c ≤ 2 ^ l.length * c := by nlinarith
      obtain ⟨b1, b2⟩ := rel_bounds hsx (hr (s + x) (by
        rcases hbig with h | h
        · exact Or.inl h
        · right; rw [abs_of_nonneg hsx]; linarith))
      have h0 : 0 < 1 - u := by linarith [hu.2]
      have h0' : 0 < 1 + u := by linarith [hu.1]
      have hn : 0 ≤ rnd (s + x) := le_trans (mul_nonneg (le_of_lt h0) hsx) b1
      have hl' : ∀ y ∈ l, 0 ≤ y ∧ (y = 0 ∨ 2 ^ l.length * c ≤ y) := by
        intro y hy
        obtain ⟨h1, h2⟩ := hl y (List.mem_cons_of_mem _ hy)
        refine ⟨h1, h2.imp id ?_⟩
        intro h3
        rw [List.length_cons, pow_succ] at h3
        linarith
      obtain ⟨i1, i2⟩ := loopSum_bounds_in hu hc hr l (rnd (s + x)) hn (by
        rcases hbig with h | h
        · left
          rw [h] at b1 b2 ⊢
          linarith
        · right
          nlinarith [hu.2]) hl'
      have hS := List.sum_nonneg (fun y hy => (hl' y hy).1)
      simp only [List.foldl_cons, List.sum_cons, List.length_cons]
      constructor
      · refine le_trans ?_ i1
        rw [pow_succ, mul_assoc]
        refine mul_le_mul_of_nonneg_left ?_ (le_of_lt (pow_pos h0 _))
        nlinarith [mul_nonneg hu.1 hS]
      · refine le_trans i2 ?_
        rw [pow_succ, mul_assoc]
        refine mul_le_mul_of_nonneg_left ?_ (le_of_lt (pow_pos h0' _))
        nlinarith [mul_nonneg hu.1 hS]

end PyBBN
