import Verif.Model.Text
import Verif.Spec.Printed
import Verif.Proofs.Strings
import Verif.Proofs.Csv
import Verif.Proofs.Sampling
import Verif.Proofs.PotDict
import Mathlib.Tactic.Linarith
import Mathlib.Tactic.FieldSimp
import Mathlib.Tactic.Ring
import Mathlib.Tactic.NormNum

/-! Reading printed numbers and rows. -/

namespace PyBBN

theorem digitsNat_eq (s : Str) : digitsNat s = Nat.ofDigitChars 10 s 0 := (Nat.ofDigitChars_eq_foldl).symm

theorem digitsNat_toDigits (n : Nat) : digitsNat (Nat.toDigits 10 n) = n := by
  rw [digitsNat_eq, Nat.ofDigitChars_ten_toDigits]

theorem digitsNat_zfill (k n : Nat) : digitsNat (zfill k (Nat.toDigits 10 n)) = n := by
  rw [digitsNat_eq, zfill, Nat.ofDigitChars_append, Nat.ofDigitChars_replicate_zero, Nat.mul_zero, ← digitsNat_eq, digitsNat_toDigits]

theorem length_zfill {k n : Nat} (hk : 0 < k) (h : n < 10 ^ k) : (zfill k (Nat.toDigits 10 n)).length = k := by
  have := (Nat.length_toDigits_le_iff (b := 10) (n := n) (k := k) (by decide) hk).2 h
  rw [zfill, List.length_append, List.length_replicate]
  omega

theorem all_digits_toDigits (n : Nat) : (Nat.toDigits 10 n).all Char.isDigit = true :=
  List.all_eq_true.2 (fun _ h => toDigits_isDigit h)

theorem all_digits_zfill (k n : Nat) : (zfill k (Nat.toDigits 10 n)).all Char.isDigit = true := by
  rw [zfill, List.all_append, all_digits_toDigits, Bool.and_true, List.all_eq_true]
  intro c hc
  rw [List.eq_of_mem_replicate hc]
  rfl

theorem not_mem_of_digits {c : Char} {s : Str} (hc : c.isDigit = false) (h : s.all Char.isDigit = true) : c ∉ s := by
  intro hm
  rw [List.all_eq_true.1 h c hm] at hc
  cases hc

theorem nearestEven_spec {q : ℚ} (hq : 0 ≤ q) :
    |((nearestEven q : ℤ) : ℚ) - q| ≤ 1 / 2 ∧ (|((nearestEven q : ℤ) : ℚ) - q| = 1 / 2 → Even (nearestEven q : ℤ)) := by
  have hd : (0 : ℚ) < q.den := by exact_mod_cast q.den_pos
  have hnum : (q.num.toNat : ℤ) = q.num := Int.toNat_of_nonneg (Rat.num_nonneg.2 hq)
  have hqe : q = (q.num.toNat : ℚ) / q.den := by
    conv_lhs => rw [← Rat.num_div_den q]
    congr 1
    exact_mod_cast hnum.symm
  have hdm := Nat.div_add_mod q.num.toNat q.den
  set n := q.num.toNat / q.den with hn
  set r := q.num.toNat % q.den with hr
  have hqn : q = n + (r : ℚ) / q.den := by
    have h1 : ((q.den * n + r : ℕ) : ℚ) = q.num.toNat := by rw [hdm]
    refine hqe.trans ?_
    rw [← h1, div_eq_iff hd.ne', add_mul, div_mul_cancel₀ _ hd.ne']
    push_cast
    ring
  have hrd : r < q.den := Nat.mod_lt _ q.den_pos
  have hrq : (r : ℚ) < q.den := by exact_mod_cast hrd
  have hr0 : (0 : ℚ) ≤ (r : ℚ) / q.den := div_nonneg (Nat.cast_nonneg r) hd.le
  have hdef : nearestEven q = if 2 * r < q.den then n else if q.den < 2 * r then n + 1 else if n % 2 = 0 then n else n + 1 := rfl
  rw [hdef]
  split
  · rename_i h
    have h' : (2 : ℚ) * r < q.den := by exact_mod_cast h
    have hlt : (r : ℚ) / q.den < 1 / 2 := by rw [div_lt_div_iff₀ hd (by norm_num)]; linarith
    have e : (((n : ℕ) : ℤ) : ℚ) - q = -((r : ℚ) / q.den) := by push_cast; linarith
    rw [e, abs_neg, abs_of_nonneg hr0]
    exact ⟨hlt.le, fun h => absurd h hlt.ne⟩
  · rename_i h
    split
    · rename_i h2
      have h' : (q.den : ℚ) < 2 * r := by exact_mod_cast h2
      have hlt : 1 / 2 < (r : ℚ) / q.den := by rw [div_lt_div_iff₀ (by norm_num) hd]; linarith
      have hl1 : (r : ℚ) / q.den < 1 := by rw [div_lt_iff₀ hd, one_mul]; exact hrq
      have e : (((n + 1 : ℕ) : ℤ) : ℚ) - q = 1 - (r : ℚ) / q.den := by push_cast; linarith
      rw [e, abs_of_pos (by linarith)]
      exact ⟨by linarith, fun h => by linarith⟩
    · rename_i h2
      have h3 : 2 * r = q.den := by omega
      have h' : (2 : ℚ) * r = q.den := by exact_mod_cast h3
      have heq : (r : ℚ) / q.den = 1 / 2 := by rw [div_eq_div_iff hd.ne' (by norm_num)]; linarith
      split
      · rename_i h4
        have e : (((n : ℕ) : ℤ) : ℚ) - q = -(1 / 2) := by push_cast; linarith
        rw [e]
        refine ⟨by norm_num [abs_of_pos], fun _ => ?_⟩
        exact_mod_cast (Nat.even_iff.2 h4)
      · rename_i h4
        have e : (((n + 1 : ℕ) : ℤ) : ℚ) - q = 1 / 2 := by push_cast; linarith
        rw [e]
        refine ⟨by norm_num [abs_of_pos], fun _ => ?_⟩
        have : Even (n + 1) := Nat.even_iff.2 (by omega)
        exact_mod_cast this

/-- the digits of a number with `k` decimals -/
theorem readPoint_fixed {k : Nat} (hk : 0 < k) (n : Nat) :
    readPoint (Nat.toDigits 10 (n / 10 ^ k) ++ ".".toList ++ zfill k (Nat.toDigits 10 (n % 10 ^ k))) = some ((n : ℚ) / 10 ^ k) := by
  have hpos : 0 < 10 ^ k := Nat.pow_pos (by decide)
  have hlen := length_zfill hk (Nat.mod_lt n hpos)
  have hne : zfill k (Nat.toDigits 10 (n % 10 ^ k)) ≠ [] := by
    intro e
    rw [e] at hlen
    exact absurd hlen (by simpa using hk.ne)
  unfold readPoint
  rw [show ".".toList = ['.'] from rfl, List.append_assoc, List.singleton_append,
    splitOn_append (not_mem_of_digits (by decide) (all_digits_toDigits _)),
    splitOn_none (not_mem_of_digits (by decide) (all_digits_zfill _ _))]
  simp only [Nat.toDigits_ne_nil, ne_eq, not_false_eq_true, hne, all_digits_toDigits, all_digits_zfill, and_self, if_true,
    digitsNat_toDigits, digitsNat_zfill, hlen, Option.some.injEq]
  have h10 : (10 : ℚ) ^ k ≠ 0 := by positivity
  field_simp
  have := Nat.div_add_mod n (10 ^ k)
  have h' : ((10 ^ k * (n / 10 ^ k) + n % 10 ^ k : ℕ) : ℚ) = n := by rw [this]
  push_cast at h' ⊢
  linarith

theorem fixed_head {k n : Nat} (s : Str) : ∀ t, Nat.toDigits 10 (n / 10 ^ k) ++ s ≠ '-' :: t := by
  intro t h
  cases hd : Nat.toDigits 10 (n / 10 ^ k) with
  | nil => exact Nat.toDigits_ne_nil hd
  | cons c l =>
    rw [hd, List.cons_append, List.cons.injEq] at h
    exact minus_not_mem_toDigits (n / 10 ^ k) (by rw [hd, h.1]; exact List.mem_cons_self)

theorem readNumber_of_ne {s : Str} (h : ∀ t, s ≠ '-' :: t) : readNumber s = readPoint s := by
  unfold readNumber
  split
  · rename_i t
    exact absurd rfl (h t)
  · rfl

theorem readNumber_fixed {k : Nat} (hk : 0 < k) (q : ℚ) :
    ∃ m : ℤ, readNumber (fixedText k q) = some ((m : ℚ) / 10 ^ k) ∧ Nearest k q m := by
  by_cases hq : q < 0
  · have hp : (0 : ℚ) ≤ -q * 10 ^ k := by
      have : (0 : ℚ) < 10 ^ k := by positivity
      nlinarith
    obtain ⟨h1, h2⟩ := nearestEven_spec hp
    have e : |((-(nearestEven (-q * 10 ^ k) : ℤ) : ℤ) : ℚ) - q * 10 ^ k| = |((nearestEven (-q * 10 ^ k) : ℤ) : ℚ) - -q * 10 ^ k| := by
      rw [← abs_neg]
      congr 1
      push_cast
      ring
    refine ⟨-(nearestEven (-q * 10 ^ k) : ℤ), ?_, ?_, ?_⟩
    · simp only [fixedText, if_pos hq]
      rw [show "-".toList = ['-'] from rfl, List.append_assoc, List.append_assoc, List.singleton_append, ← List.append_assoc]
      unfold readNumber
      simp only [readPoint_fixed hk, Option.map_some, Option.some.injEq]
      push_cast
      ring
    · rw [e]; exact h1
    · rw [e]; exact fun h => (h2 h).neg
  · have hp : (0 : ℚ) ≤ q * 10 ^ k := by
      have : (0 : ℚ) < 10 ^ k := by positivity
      have := not_lt.1 hq
      positivity
    obtain ⟨h1, h2⟩ := nearestEven_spec hp
    refine ⟨nearestEven (q * 10 ^ k), ?_, h1, h2⟩
    simp only [fixedText, if_neg hq, List.nil_append]
    rw [readNumber_of_ne, readPoint_fixed hk]
    · simp
    · rw [List.append_assoc]; exact fixed_head _

/-- a printed number has no bar and no line break -/
theorem fixedText_chars {k : Nat} {q : ℚ} {c : Char} (h : c ∈ fixedText k q) : c = '-' ∨ c = '.' ∨ c.isDigit = true := by
  simp only [fixedText, List.mem_append] at h
  rcases h with ((h | h) | h) | h
  · split at h
    · left; simpa using h
    · cases h
  · exact Or.inr (Or.inr (toDigits_isDigit h))
  · right; left; simpa using h
  · exact Or.inr (Or.inr (List.all_eq_true.1 (all_digits_zfill _ _) c h))

theorem bar_not_mem_fixedText (k : Nat) (q : ℚ) : '|' ∉ fixedText k q := by
  intro h
  rcases fixedText_chars h with h | h | h <;> revert h <;> decide

theorem nl_not_mem_fixedText (k : Nat) (q : ℚ) : '\n' ∉ fixedText k q := by
  intro h
  rcases fixedText_chars h with h | h | h <;> revert h <;> decide

/-- splitting a text at its last bar -/
theorem joinStr_splitOn (c : Char) : ∀ s : Str, joinStr [c] (splitOn c s) = s
  | [] => rfl
  | a :: s => by
      have ih := joinStr_splitOn c s
      unfold splitOn
      split
      · rename_i h
        subst h
        cases hs : splitOn a s with
        | nil => exact absurd hs (splitOn_ne_nil a s)
        | cons t ts =>
          rw [hs] at ih
          simp only [joinStr, List.nil_append]
          rw [ih]
          rfl
      · cases hs : splitOn c s with
        | nil => exact absurd hs (splitOn_ne_nil c s)
        | cons t ts =>
          rw [hs] at ih
          cases ts with
          | nil => simp only [consHead, joinStr] at ih ⊢; rw [ih]
          | cons u us => simp only [consHead, joinStr, List.cons_append] at ih ⊢; rw [ih]

theorem splitOn_append_last {c : Char} {n : Str} (h : c ∉ n) : ∀ s : Str, splitOn c (s ++ c :: n) = splitOn c s ++ [n]
  | [] => by simp [splitOn, splitOn_none h]
  | a :: s => by
      rw [List.cons_append, splitOn, splitOn_append_last h s, splitOn]
      split
      · rfl
      · cases hs : splitOn c s with
        | nil => exact absurd hs (splitOn_ne_nil c s)
        | cons t ts => rfl

theorem readRow_append {n : Str} (h : '|' ∉ n) (s : Str) : readRow (s ++ "|".toList ++ n) = (readNumber n).map (fun x => (s, x)) := by
  have e : s ++ "|".toList ++ n = s ++ '|' :: n := by simp
  unfold readRow
  rw [e, splitOn_append_last h, List.reverse_append, List.reverse_singleton, List.singleton_append]
  cases hr : (splitOn '|' s).reverse with
  | nil => exact absurd (by simpa using hr) (splitOn_ne_nil '|' s)
  | cons t ts =>
    simp only
    rw [← hr, List.reverse_reverse]
    rw [show "|".toList = ['|'] from rfl, joinStr_splitOn]

end PyBBN
