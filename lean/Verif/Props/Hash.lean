import Verif.Model.Hash
import Mathlib.Algebra.BigOperators.Fin
import Mathlib.Tactic.Ring
import Mathlib.Tactic.Linarith
import Mathlib.Tactic.Positivity

/-! # C49: `IdUtil.hash_string` -/

namespace PyBBN
open IdUtil

/-- the specification: `s[0] * 31^(n-1) + … + s[n-1] * 31^0`, a sum over positions -/
def poly31 (s : List Nat) : Int := ∑ i : Fin s.length, (s[i] : Int) * 31 ^ (s.length - 1 - i.val)

theorem hash_step (h : Int) (c : Nat) : step h c = h * 31 + c := by
  unfold step
  have : ∀ x : Int, Int.lor x 0 = x := by
    intro x
    cases x with
    | ofNat n => simp [Int.lor]
    | negSucc n => show Int.lor (Int.negSucc n) (Int.ofNat 0) = _; simp [Int.lor, Nat.ldiff]
  simp only [this]
  rw [Int.shiftLeft_eq]
  norm_num
  ring

theorem hash_foldl (s : List Nat) (h : Int) : s.foldl step h = h * 31 ^ s.length + poly31 s := by
  induction s generalizing h with
  | nil => simp [poly31]
  | cons c s ih =>
    rw [List.foldl_cons, ih, hash_step]
    unfold poly31
    have : (∑ i : Fin (c :: s).length, ((c :: s)[i] : Int) * 31 ^ ((c :: s).length - 1 - i.val)) =
        c * 31 ^ s.length + ∑ i : Fin s.length, (s[i] : Int) * 31 ^ (s.length - 1 - i.val) := by
      refine (Fin.sum_univ_succ (n := s.length) _).trans ?_
      simp only [List.length_cons, Fin.getElem_fin, Fin.val_zero, List.getElem_cons_zero, Nat.add_sub_cancel, Nat.sub_zero, Fin.val_succ, List.getElem_cons_succ]
      congr 1
      refine Finset.sum_congr rfl ?_
      intro i _
      congr 2
      omega
    rw [this]
    simp only [List.length_cons, pow_succ]
    ring

/-- **C49**. The hash is the base-31 polynomial of the code points, without truncation, … -/
theorem c49_polynomial (s : List Nat) : hashString s = poly31 s := by
  unfold hashString
  split
  · rename_i h
    rw [List.length_eq_zero_iff.1 h]; simp [poly31]
  · rw [hash_foldl]; simp

/-- … and the hash of a concatenation is determined by the hashes of the parts and the length of the second, … -/
theorem c49_append (s t : List Nat) : hashString (s ++ t) = hashString s * 31 ^ t.length + hashString t := by
  have h : ∀ u, hashString u = u.foldl step 0 := by
    intro u
    unfold hashString
    split
    · rename_i h; rw [List.length_eq_zero_iff.1 h]; rfl
    · rfl
  rw [h, List.foldl_append, ← h, hash_foldl, ← c49_polynomial]

/-- … never negative and less than `m * 31^n` for `n` code points of at most `m * 30`; … -/
theorem c49_bounds (s : List Nat) (m : Nat) (hm : ∀ c ∈ s, c ≤ 30 * m) : 0 ≤ hashString s ∧ hashString s ≤ m * (31 ^ s.length - 1) := by
  induction s using List.reverseRecOn with
  | nil => simp [hashString]
  | append_singleton s c ih =>
    obtain ⟨h1, h2⟩ := ih (fun x hx => hm x (List.mem_append_left _ hx))
    have hc := hm c (by simp)
    have hs : hashString [c] = c := by rw [c49_polynomial]; simp [poly31]
    rw [c49_append, hs, List.length_append, List.length_singleton, pow_one, pow_succ (31 : Int) s.length]
    have : (c : Int) ≤ 30 * m := by exact_mod_cast hc
    constructor
    · positivity
    · nlinarith

/-- … but it is no identifier: in any context `Aa` and `BB` give the same hash, and so do a string and the string with `\0` in front -/
theorem c49_collisions (u v : List Nat) : hashString (u ++ [65, 97] ++ v) = hashString (u ++ [66, 66] ++ v) ∧ hashString (0 :: v) = hashString v := by
  constructor
  · rw [c49_append, c49_append u, c49_append _ v, c49_append u]
    rfl
  · rw [show 0 :: v = [0] ++ v from rfl, c49_append]
    simp [show hashString [0] = 0 from rfl]

/-- not vacuous: a hash beyond 32 bits, and with a code point beyond the basic plane -/
example : hashString [97, 98, 99, 100, 101, 102, 103, 104] = 2758628677764 ∧ hashString [128512, 97] = 3983969 ∧ hashString [] = 0 := by
  decide +kernel

end PyBBN
