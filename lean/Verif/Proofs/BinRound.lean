import Verif.Proofs.SampleFloat
import Mathlib.Tactic.FieldSimp

/-! Binary rounding: monotone, exact on representable numbers; it satisfies `Adds`. -/

namespace PyBBN

theorem roundEven_cases (y : ℚ) : (roundEven y = ⌊y⌋ ∧ Int.fract y ≤ 1 / 2 ∧ (Int.fract y = 1 / 2 → ⌊y⌋ % 2 = 0)) ∨
    (roundEven y = ⌊y⌋ + 1 ∧ 1 / 2 ≤ Int.fract y ∧ (Int.fract y = 1 / 2 → ⌊y⌋ % 2 ≠ 0)) := by
  have h0 := Int.fract_nonneg y
  have h1 := Int.fract_lt_one y
  unfold roundEven
  split
  · rename_i h
    exact Or.inl ⟨rfl, le_of_eq h.1, fun _ => h.2⟩
  · rename_i h
    unfold round
    split
    · refine Or.inl ⟨rfl, by linarith, fun e => by linarith⟩
    · rename_i h2
      refine Or.inr ⟨?_, by linarith, fun e he => h ⟨e, he⟩⟩
      rw [Int.ceil_eq_iff]
      have : y = ⌊y⌋ + Int.fract y := (Int.floor_add_fract y).symm
      push_cast
      constructor <;> linarith

theorem roundEven_mono {x y : ℚ} (h : x ≤ y) : roundEven x ≤ roundEven y := by
  have hf : ⌊x⌋ ≤ ⌊y⌋ := Int.floor_mono h
  have hx : x = ⌊x⌋ + Int.fract x := (Int.floor_add_fract x).symm
  have hy : y = ⌊y⌋ + Int.fract y := (Int.floor_add_fract y).symm
  rcases Int.lt_or_eq_of_le hf with hlt | heq
  · rcases roundEven_cases x with ⟨e, _⟩ | ⟨e, _⟩ <;> rcases roundEven_cases y with ⟨e', _⟩ | ⟨e', _⟩ <;> omega
  · have hfr : Int.fract x ≤ Int.fract y := by
      rw [heq] at hx; linarith
    rcases roundEven_cases x with ⟨e, a, b⟩ | ⟨e, a, b⟩ <;> rcases roundEven_cases y with ⟨e', a', b'⟩ | ⟨e', a', b'⟩
    · omega
    · omega
    · exfalso
      have : Int.fract x = 1 / 2 := le_antisymm (le_trans hfr a') a
      have h2 : Int.fract y = 1 / 2 := le_antisymm a' (by linarith)
      exact b this (by rw [heq]; exact b' h2)
    · omega

theorem roundEven_int (m : ℤ) : roundEven (m : ℚ) = m := by
  unfold roundEven
  rw [if_neg (by intro h; have := h.1; rw [Int.fract_intCast] at this; norm_num at this), round_intCast]

theorem two_zpow_split (a b : ℤ) : (2 : ℚ) ^ a * 2 ^ b = 2 ^ (a + b) := (zpow_add₀ (by norm_num) a b).symm

theorem two_zpow_nat {k : ℤ} (hk : 0 ≤ k) : ∃ z : ℤ, (2 : ℚ) ^ k = z := by
  obtain ⟨n, rfl⟩ := Int.eq_ofNat_of_zero_le hk
  exact ⟨2 ^ n, by simp⟩

theorem log_bounds {x : ℚ} (hx : x ≠ 0) : (2 : ℚ) ^ Int.log 2 |x| ≤ |x| ∧ |x| < (2 : ℚ) ^ (Int.log 2 |x| + 1) := by
  have hpos : 0 < |x| := abs_pos.2 hx
  constructor
  · have := Int.zpow_log_le_self (b := 2) (R := ℚ) (by norm_num) hpos
    exact_mod_cast this
  · have := Int.lt_zpow_succ_log_self (b := 2) (R := ℚ) (by norm_num) |x|
    exact_mod_cast this

/-- numbers with at most `p` significant bits are not changed -/
theorem binRound_exact (p : ℕ) {m k : ℤ} (hm : |m| ≤ 2 ^ (p + 1)) : binRound (p + 1) ((m : ℚ) * 2 ^ k) = (m : ℚ) * 2 ^ k := by
  by_cases h0 : m = 0
  · subst h0
    simp [binRound, roundEven]
  set x : ℚ := (m : ℚ) * 2 ^ k with hx
  have hx0 : x ≠ 0 := mul_ne_zero (by exact_mod_cast h0) (zpow_ne_zero _ (by norm_num))
  obtain ⟨l1, _⟩ := log_bounds hx0
  set e := Int.log 2 |x| with he
  have habs : |x| = |(m : ℚ)| * 2 ^ k := by rw [hx, abs_mul, abs_of_pos (zpow_pos (by norm_num : (0 : ℚ) < 2) k)]
  have hmq : |(m : ℚ)| ≤ 2 ^ (p + 1) := by exact_mod_cast hm
  have hle : (2 : ℚ) ^ e ≤ 2 ^ (((p + 1 : ℕ) : ℤ) + k) := by
    refine le_trans l1 ?_
    rw [habs, ← two_zpow_split, zpow_natCast]
    exact mul_le_mul_of_nonneg_right hmq (le_of_lt (zpow_pos (by norm_num) _))
  have hek : e ≤ ((p + 1 : ℕ) : ℤ) + k := (zpow_le_zpow_iff_right₀ (by norm_num : (1 : ℚ) < 2)).1 hle
  have hcast : (((p + 1 : ℕ) : ℤ) - 1) = (p : ℤ) := by push_cast; ring
  have key : ∃ z : ℤ, x * 2 ^ (((p + 1 : ℕ) : ℤ) - 1 - e) = z := by
    rw [hx, mul_assoc, two_zpow_split]
    by_cases hge : 0 ≤ k + (((p + 1 : ℕ) : ℤ) - 1 - e)
    · obtain ⟨z, hz⟩ := two_zpow_nat hge
      exact ⟨m * z, by rw [hz]; push_cast; ring⟩
    · have hm1 : k + (((p + 1 : ℕ) : ℤ) - 1 - e) = -1 := by omega
      have hee : e = ((p + 1 : ℕ) : ℤ) + k := by omega
      have hmeq : |m| = 2 ^ (p + 1) := by
        apply le_antisymm hm
        have : (2 : ℚ) ^ (p + 1) ≤ |(m : ℚ)| := by
          rw [hee, habs, ← two_zpow_split, zpow_natCast] at l1
          exact le_of_mul_le_mul_right l1 (zpow_pos (by norm_num) _)
        exact_mod_cast this
      rw [hm1]
      rcases abs_eq (by positivity : (0 : ℤ) ≤ 2 ^ (p + 1)) |>.1 hmeq with e | e
      · exact ⟨2 ^ p, by rw [e, zpow_neg_one]; push_cast; rw [pow_succ]; ring⟩
      · exact ⟨-2 ^ p, by rw [e, zpow_neg_one]; push_cast; rw [pow_succ]; ring⟩
  obtain ⟨z, hz⟩ := key
  unfold binRound
  rw [← he, hz, roundEven_int, ← hz, mul_assoc, two_zpow_split]
  simp

/-- the result has at most `p` significant bits -/
theorem binRound_form (p : ℕ) (x : ℚ) : ∃ m k : ℤ, |m| ≤ 2 ^ (p + 1) ∧ binRound (p + 1) x = (m : ℚ) * 2 ^ k := by
  refine ⟨_, _, ?_, rfl⟩
  by_cases hx : x = 0
  · subst hx
    simp [roundEven]
  obtain ⟨_, l2⟩ := log_bounds hx
  have hcast : (((p + 1 : ℕ) : ℤ) - 1) = (p : ℤ) := by push_cast; ring
  set e := Int.log 2 |x| with he
  have hb : |x * 2 ^ (((p + 1 : ℕ) : ℤ) - 1 - e)| ≤ ((2 ^ (p + 1) : ℤ) : ℚ) := by
    rw [abs_mul, abs_of_pos (zpow_pos (by norm_num : (0 : ℚ) < 2) _)]
    refine le_trans (mul_le_mul_of_nonneg_right (le_of_lt l2) (le_of_lt (zpow_pos (by norm_num : (0 : ℚ) < 2) _))) ?_
    rw [two_zpow_split, show e + 1 + (((p + 1 : ℕ) : ℤ) - 1 - e) = ((p + 1 : ℕ) : ℤ) by ring, zpow_natCast]
    push_cast
    exact le_refl _
  rw [abs_le] at hb ⊢
  constructor
  · have := roundEven_mono (x := ((-(2 ^ (p + 1)) : ℤ) : ℚ)) (by push_cast; push_cast at hb; exact hb.1)
    rwa [roundEven_int] at this
  · have := roundEven_mono hb.2
    rwa [roundEven_int] at this

theorem binRound_idem (p : ℕ) (x : ℚ) : binRound (p + 1) (binRound (p + 1) x) = binRound (p + 1) x := by
  obtain ⟨m, k, hm, e⟩ := binRound_form p x
  rw [e]
  exact binRound_exact p hm

theorem binRound_mono (p : ℕ) {x y : ℚ} (hx : 0 < x) (h : x ≤ y) : binRound (p + 1) x ≤ binRound (p + 1) y := by
  have hy : 0 < y := lt_of_lt_of_le hx h
  obtain ⟨a1, a2⟩ := log_bounds (ne_of_gt hx)
  obtain ⟨b1, b2⟩ := log_bounds (ne_of_gt hy)
  have habx : |x| = x := abs_of_pos hx
  have haby : |y| = y := abs_of_pos hy
  unfold binRound
  set e := Int.log 2 |x| with he
  set f := Int.log 2 |y| with hf
  rw [habx] at a1 a2
  rw [haby] at b1 b2
  have hef : e ≤ f := by
    have : (2 : ℚ) ^ e < 2 ^ (f + 1) := lt_of_le_of_lt a1 (lt_of_le_of_lt h b2)
    have := (zpow_lt_zpow_iff_right₀ (by norm_num : (1 : ℚ) < 2)).1 this
    omega
  have hpow : ∀ k : ℤ, (0 : ℚ) < 2 ^ k := fun k => zpow_pos (by norm_num) k
  rcases Int.lt_or_eq_of_le hef with hlt | heq
  · have hup : (roundEven (x * 2 ^ (((p + 1 : ℕ) : ℤ) - 1 - e)) : ℚ) * 2 ^ (e - (((p + 1 : ℕ) : ℤ) - 1)) ≤ 2 ^ (e + 1) := by
      have h1 : x * 2 ^ (((p + 1 : ℕ) : ℤ) - 1 - e) ≤ ((2 ^ (p + 1) : ℤ) : ℚ) := by
        refine le_trans (mul_le_mul_of_nonneg_right (le_of_lt a2) (le_of_lt (hpow _))) ?_
        rw [two_zpow_split, show e + 1 + (((p + 1 : ℕ) : ℤ) - 1 - e) = ((p + 1 : ℕ) : ℤ) by ring, zpow_natCast]
        push_cast
        exact le_refl _
      have h2 := roundEven_mono h1
      rw [roundEven_int] at h2
      have h3 : (roundEven (x * 2 ^ (((p + 1 : ℕ) : ℤ) - 1 - e)) : ℚ) ≤ ((2 ^ (p + 1) : ℤ) : ℚ) := by exact_mod_cast h2
      refine le_trans (mul_le_mul_of_nonneg_right h3 (le_of_lt (hpow _))) ?_
      have : (((2 ^ (p + 1) : ℤ) : ℚ)) = 2 ^ ((p + 1 : ℕ) : ℤ) := by rw [zpow_natCast]; push_cast; rfl
      rw [this, two_zpow_split]
      apply le_of_eq
      congr 1
      ring
    have hdn : (2 : ℚ) ^ f ≤ (roundEven (y * 2 ^ (((p + 1 : ℕ) : ℤ) - 1 - f)) : ℚ) * 2 ^ (f - (((p + 1 : ℕ) : ℤ) - 1)) := by
      have h1 : ((2 ^ p : ℤ) : ℚ) ≤ y * 2 ^ (((p + 1 : ℕ) : ℤ) - 1 - f) := by
        refine le_trans ?_ (mul_le_mul_of_nonneg_right b1 (le_of_lt (hpow _)))
        rw [two_zpow_split, show f + (((p + 1 : ℕ) : ℤ) - 1 - f) = (p : ℤ) by push_cast; ring, zpow_natCast]
        push_cast
        exact le_refl _
      have h2 := roundEven_mono h1
      rw [roundEven_int] at h2
      have h3 : ((2 ^ p : ℤ) : ℚ) ≤ (roundEven (y * 2 ^ (((p + 1 : ℕ) : ℤ) - 1 - f)) : ℚ) := by exact_mod_cast h2
      refine le_trans ?_ (mul_le_mul_of_nonneg_right h3 (le_of_lt (hpow _)))
      have : (((2 ^ p : ℤ) : ℚ)) = 2 ^ (p : ℤ) := by rw [zpow_natCast]; push_cast; rfl
      rw [this, two_zpow_split]
      apply le_of_eq
      congr 1
      push_cast
      ring
    refine le_trans hup (le_trans ?_ hdn)
    exact zpow_le_zpow_right₀ (by norm_num) (by omega)
  · rw [heq]
    refine mul_le_mul_of_nonneg_right ?_ (le_of_lt (hpow _))
    exact_mod_cast roundEven_mono (mul_le_mul_of_nonneg_right h (le_of_lt (hpow _)))

/-- binary floats with `p + 1` significant bits -/
theorem binRound_adds (p : ℕ) : Adds (1 / 2 ^ (p + 1)) (binRound (p + 1)) (fun a b => binRound (p + 1) (a + b)) (fun a => binRound (p + 1) a = a) where
  unit := by
    constructor
    · positivity
    · rw [div_lt_one (by positivity)]
      exact one_lt_pow₀ (by norm_num) (by omega)
  read := binRound_err p
  sum a b := binRound_err p (a + b)
  inpF := binRound_idem p
  addF a b := binRound_idem p (a + b)
  up a b ha h0 hb := by
    rcases eq_or_lt_of_le h0 with e | hpos
    · subst e
      rw [zero_add]
      have := (rel_bounds hb (binRound_err p b)).1
      refine le_trans (mul_nonneg ?_ hb) this
      have : (1 : ℚ) / 2 ^ (p + 1) ≤ 1 := by
        rw [div_le_one (by positivity)]
        exact one_le_pow₀ (by norm_num)
      linarith
    · calc a = binRound (p + 1) a := ha.symm
        _ ≤ binRound (p + 1) (a + b) := binRound_mono p hpos (by linarith)
  zero a ha := by rw [add_zero]; exact ha

end PyBBN
