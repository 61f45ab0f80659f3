import Mathlib.Algebra.BigOperators.Fin
import Mathlib.Algebra.BigOperators.Field
import Mathlib.Algebra.Order.BigOperators.Group.Finset
import Mathlib.Algebra.Order.Archimedean.Basic
import Mathlib.Algebra.Order.Field.Rat
import Mathlib.Data.Finset.Lattice.Fold
import Mathlib.Data.Fintype.BigOperators
import Mathlib.Data.Fintype.Pi
import Mathlib.Data.Rat.Floor
import Mathlib.Data.Set.Finite.Basic
import Mathlib.Tactic.FieldSimp
import Mathlib.Tactic.Linarith
import Mathlib.Tactic.Positivity
import Mathlib.Tactic.Ring

/-! Repeating a random step: how often the words of a given length lead to a given place. -/

namespace PyBBN.Walk

variable {S Q : Type}

/-- the steps of a word, one after the other -/
def go (step : Q → S → S) (w : List Q) (s : S) : S := w.foldl (fun s q => step q s) s

theorem go_append (step : Q → S → S) (v w : List Q) (s : S) : go step (v ++ w) s = go step w (go step v s) := List.foldl_append

/-- the mean of `f` after `K` steps -/
def mean [Fintype Q] (step : Q → S → S) : Nat → (S → ℚ) → S → ℚ
  | 0, f, s => f s
  | K + 1, f, s => (∑ q, mean step K f (step q s)) / Fintype.card Q

section
variable [Fintype Q] {step : Q → S → S}

theorem mean_add (a b : Nat) (f : S → ℚ) (s : S) : mean step (a + b) f s = mean step a (mean step b f) s := by
  induction a generalizing s with
  | zero => rw [Nat.zero_add]; rfl
  | succ a ih =>
    rw [Nat.succ_add]
    change (∑ q, mean step (a + b) f (step q s)) / _ = (∑ q, mean step a (mean step b f) (step q s)) / _
    simp only [ih]

/-- the mean is the average over all words -/
theorem mean_eq (K : Nat) (f : S → ℚ) (s : S) :
    mean step K f s = (∑ w : Fin K → Q, f (go step (List.ofFn w) s)) / (Fintype.card Q : ℚ) ^ K := by
  induction K generalizing s with
  | zero => simp [mean, go]
  | succ K ih =>
    have h1 : ∑ w : Fin (K + 1) → Q, f (go step (List.ofFn w) s) = ∑ q : Q, ∑ w : Fin K → Q, f (go step (List.ofFn w) (step q s)) := by
      rw [← Fintype.sum_prod_type']
      symm
      apply Fintype.sum_equiv (Fin.consEquiv (fun _ => Q))
      rintro ⟨q, w⟩
      simp [Fin.consEquiv, go, List.ofFn_succ]
    rw [h1]
    change (∑ q, mean step K f (step q s)) / _ = _
    simp only [ih]
    rw [← Finset.sum_div, div_div, pow_succ]

open Classical in
/-- … so that the mean of a yes-or-no question is the fraction of the words that lead to yes -/
theorem mean_count (K : Nat) (A : S → Prop) (s : S) :
    mean step K (fun t => if A t then 1 else 0) s =
      ((Finset.univ.filter (fun w : Fin K → Q => A (go step (List.ofFn w) s))).card : ℚ) / (Fintype.card Q : ℚ) ^ K := by
  rw [mean_eq, Finset.card_filter]
  push_cast
  rfl

variable {X : S → Prop} (hX : ∀ q s, X s → X (step q s))
include hX

theorem go_mem (w : List Q) {s : S} (hs : X s) : X (go step w s) := by
  induction w generalizing s with
  | nil => exact hs
  | cons q w ih => exact ih (hX q s hs)

theorem mean_mono {f g : S → ℚ} (h : ∀ s, X s → f s ≤ g s) (K : Nat) {s : S} (hs : X s) : mean step K f s ≤ mean step K g s := by
  induction K generalizing s with
  | zero => exact h s hs
  | succ K ih =>
    exact div_le_div_of_nonneg_right (Finset.sum_le_sum (fun q _ => ih (hX q s hs))) (Nat.cast_nonneg _)

theorem mean_congr {f g : S → ℚ} (h : ∀ s, X s → f s = g s) (K : Nat) {s : S} (hs : X s) : mean step K f s = mean step K g s :=
  le_antisymm (mean_mono hX (fun s hs => (h s hs).le) K hs) (mean_mono hX (fun s hs => (h s hs).ge) K hs)

omit hX in
theorem mean_smul (c : ℚ) (f : S → ℚ) (K : Nat) (s : S) : mean step K (fun t => c * f t) s = c * mean step K f s := by
  induction K generalizing s with
  | zero => rfl
  | succ K ih =>
    change (∑ q, mean step K (fun t => c * f t) (step q s)) / _ = c * ((∑ q, mean step K f (step q s)) / _)
    simp only [ih]
    rw [← Finset.mul_sum, mul_div_assoc]

omit hX in
theorem mean_const [Nonempty Q] (c : ℚ) (K : Nat) (s : S) : mean step K (fun _ => c) s = c := by
  induction K generalizing s with
  | zero => rfl
  | succ K ih =>
    change (∑ q, mean step K (fun _ => c) (step q s)) / _ = c
    simp only [ih]
    rw [Finset.sum_const, nsmul_eq_mul, Finset.card_univ]
    have : (Fintype.card Q : ℚ) ≠ 0 := by exact_mod_cast Fintype.card_ne_zero
    field_simp

omit hX in
theorem mean_plus (f g : S → ℚ) (K : Nat) (s : S) : mean step K (fun t => f t + g t) s = mean step K f s + mean step K g s := by
  induction K generalizing s with
  | zero => rfl
  | succ K ih =>
    change (∑ q, mean step K (fun t => f t + g t) (step q s)) / _ = (∑ q, mean step K f (step q s)) / _ + (∑ q, mean step K g (step q s)) / _
    simp only [ih]
    rw [Finset.sum_add_distrib, add_div]

/-- one word already contributes -/
theorem mean_le_of_word [Nonempty Q] {f : S → ℚ} {b c : ℚ} (hf : ∀ s, X s → f s ≤ b) {s : S} (hs : X s) {w : List Q} (hw : f (go step w s) ≤ c) :
    mean step w.length f s ≤ b - (b - c) / (Fintype.card Q : ℚ) ^ w.length := by
  induction w generalizing s with
  | nil => simpa [mean, go] using hw
  | cons q w ih =>
    have hq := ih (hX q s hs) hw
    have hQ : (0 : ℚ) < Fintype.card Q := by exact_mod_cast Fintype.card_pos
    change (∑ q, mean step w.length f (step q s)) / _ ≤ _
    rw [div_le_iff₀ hQ]
    classical
    have hsum : ∑ q', mean step w.length f (step q' s) ≤
        ∑ q' : Q, (b - if q' = q then (b - c) / (Fintype.card Q : ℚ) ^ w.length else 0) := by
      apply Finset.sum_le_sum
      intro q' _
      by_cases h : q' = q
      · subst h; rw [if_pos rfl]; exact hq
      · rw [if_neg h, sub_zero]
        have := mean_mono hX (step := step) hf w.length (hX q' s hs)
        rwa [mean_const] at this
    refine hsum.trans (le_of_eq ?_)
    rw [Finset.sum_sub_distrib, Finset.sum_const, nsmul_eq_mul, Finset.card_univ]
    simp only [Finset.sum_ite_eq', Finset.mem_univ, if_true, List.length_cons, pow_succ]
    field_simp

end

/-! ## absorption -/

section
variable [Fintype Q] [Nonempty Q] {step : Q → S → S} {X A : S → Prop}

/-- words of one length that lead into `A` from everywhere -/
theorem uniform_words (hX : ∀ q s, X s → X (step q s)) (hfin : {s | X s}.Finite) (hA : ∀ q s, X s → A s → A (step q s))
    (hr : ∀ s, X s → ∃ w, A (go step w s)) : ∃ M, ∀ s, X s → ∃ w : List Q, w.length = M ∧ A (go step w s) := by
  classical
  choose! W hW using hr
  obtain ⟨q0⟩ := ‹Nonempty Q›
  have hAw : ∀ (w : List Q) s, X s → A s → A (go step w s) := by
    intro w
    induction w with
    | nil => intro s _ h; exact h
    | cons q w ih => intro s hs h; exact ih _ (hX q s hs) (hA q s hs h)
  refine ⟨hfin.toFinset.sup (fun s => (W s).length), fun s hs => ?_⟩
  have hle : (W s).length ≤ hfin.toFinset.sup (fun s => (W s).length) :=
    Finset.le_sup (f := fun s => (W s).length) (hfin.mem_toFinset.2 hs)
  refine ⟨W s ++ List.replicate (hfin.toFinset.sup (fun s => (W s).length) - (W s).length) q0, ?_, ?_⟩
  · rw [List.length_append, List.length_replicate]; omega
  · rw [go_append]
    exact hAw _ _ (go_mem hX _ hs) (hW s hs)

open Classical in
/-- if `A` is never left and can be reached from everywhere, the fraction of words that lead outside `A` gets arbitrarily small -/
theorem absorbed (hX : ∀ q s, X s → X (step q s)) (hfin : {s | X s}.Finite) (hA : ∀ q s, X s → A s → A (step q s))
    (hr : ∀ s, X s → ∃ w, A (go step w s)) {s : S} (hs : X s) {ε : ℚ} (hε : 0 < ε) :
    ∃ K0, ∀ K ≥ K0, ((Finset.univ.filter (fun w : Fin K → Q => ¬ A (go step (List.ofFn w) s))).card : ℚ) / (Fintype.card Q : ℚ) ^ K < ε := by
  obtain ⟨M, hM⟩ := uniform_words hX hfin hA hr
  set f : S → ℚ := fun t => if ¬ A t then 1 else 0 with hf
  have hQ : (1 : ℚ) ≤ Fintype.card Q := by exact_mod_cast Fintype.card_pos
  set δ : ℚ := 1 / (Fintype.card Q : ℚ) ^ M with hδ
  have hδ0 : 0 < δ := by positivity
  have hδ1 : δ ≤ 1 := by
    rw [hδ, div_le_one (by positivity)]
    exact one_le_pow₀ hQ
  -- one block of steps
  have hfA : ∀ K s, X s → A s → mean step K f s = 0 := by
    intro K
    induction K with
    | zero => intro s _ h; simp [mean, hf, h]
    | succ K ih =>
      intro s hs h
      change (∑ q, mean step K f (step q s)) / _ = 0
      rw [Finset.sum_eq_zero (fun q _ => ih _ (hX q s hs) (hA q s hs h)), zero_div]
  have hblock : ∀ s, X s → mean step M f s ≤ (1 - δ) * f s := by
    intro s hs
    by_cases h : A s
    · rw [hfA M s hs h]; simp [hf, h]
    · obtain ⟨w, hw1, hw2⟩ := hM s hs
      have := mean_le_of_word hX (f := f) (b := 1) (c := 0) (by intro t _; simp only [hf]; split <;> norm_num) hs (w := w)
        (by simp [hf, hw2])
      rw [hw1] at this
      have h1 : f s = 1 := by simp [hf, h]
      rw [h1, mul_one, hδ]
      simpa using this
  have hblocks : ∀ m s, X s → mean step (m * M) f s ≤ (1 - δ) ^ m * f s := by
    intro m
    induction m with
    | zero => intro s _; simp [mean]
    | succ m ih =>
      intro s hs
      rw [Nat.succ_mul, mean_add]
      refine (mean_mono hX (fun t ht => hblock t ht) (m * M) hs).trans ?_
      rw [mean_smul, pow_succ]
      have := mul_le_mul_of_nonneg_left (ih s hs) (by linarith : (0 : ℚ) ≤ 1 - δ)
      linarith
  have hstep : ∀ K s, X s → mean step (K + 1) f s ≤ mean step K f s := by
    intro K s hs
    rw [mean_add]
    refine mean_mono hX (fun t ht => ?_) K hs
    by_cases h : A t
    · rw [hfA 1 t ht h]; simp [hf, h]
    · have h1 : ∀ t, X t → f t ≤ 1 := by intro t _; simp only [hf]; split <;> norm_num
      have := mean_mono hX (step := step) h1 1 ht
      rw [mean_const] at this
      simpa [hf, h] using this
  have hanti : ∀ a b, a ≤ b → mean step b f s ≤ mean step a f s := by
    intro a b hab
    induction b, hab using Nat.le_induction with
    | base => exact le_refl _
    | succ b _ ih => exact (hstep b s hs).trans ih
  obtain ⟨m, hm⟩ := exists_pow_lt_of_lt_one hε (by linarith : 1 - δ < 1)
  refine ⟨m * M, fun K hK => ?_⟩
  have e := mean_count (step := step) K (fun t => ¬ A t) s
  have e' : mean step K f s = mean step K (fun t => @ite ℚ (¬ A t) (propDecidable _) 1 0) s := by
    congr 1; funext t; simp only [hf]; split <;> simp_all
  rw [← e'] at e
  rw [show ((Finset.univ.filter (fun w : Fin K → Q => ¬ A (go step (List.ofFn w) s))).card : ℚ) / (Fintype.card Q : ℚ) ^ K = mean step K f s by
    rw [e]; congr 3; ext w; simp]
  refine lt_of_le_of_lt ((hanti _ _ hK).trans (hblocks m s hs)) ?_
  refine lt_of_le_of_lt ?_ hm
  have h0 : (0 : ℚ) ≤ (1 - δ) ^ m := pow_nonneg (by linarith) m
  have h1 : f s ≤ 1 := by simp only [hf]; split <;> norm_num
  nlinarith

end

/-! ## equidistribution -/

section
variable [Fintype Q] [Nonempty Q] {step : Q → S → S} {X : S → Prop}

omit [Fintype Q] [Nonempty Q] in
theorem go_back (hX : ∀ q s, X s → X (step q s)) (hinv : ∀ q s, X s → step q (step q s) = s) (w : List Q) {s : S} (hs : X s) :
    go step w.reverse (go step w s) = s := by
  induction w generalizing s with
  | nil => rfl
  | cons q w ih =>
    rw [List.reverse_cons, go_append]
    have := ih (hX q s hs)
    change go step [q] (go step w.reverse (go step w (step q s))) = s
    rw [this]
    exact hinv q s hs

/-- when every step can be undone by repeating it, and one step stands still, there are words of one length between any two places -/
theorem uniform_paths (hX : ∀ q s, X s → X (step q s)) (hfin : {s | X s}.Finite) (hinv : ∀ q s, X s → step q (step q s) = s)
    {s0 : S} (hs0 : X s0) (hr : ∀ s, X s → ∃ w, go step w s0 = s) (hloop : ∃ q, step q s0 = s0) :
    ∃ M, ∀ s t, X s → X t → ∃ w : List Q, w.length = M ∧ go step w s = t := by
  classical
  choose! W hW using hr
  obtain ⟨q0, hq0⟩ := hloop
  have hrep : ∀ k, go step (List.replicate k q0) s0 = s0 := by
    intro k
    induction k with
    | zero => rfl
    | succ k ih =>
      rw [List.replicate_succ]
      change go step (List.replicate k q0) (step q0 s0) = s0
      rw [hq0]; exact ih
  set L := hfin.toFinset.sup (fun s => (W s).length)
  have hle : ∀ s, X s → (W s).length ≤ L := fun s hs =>
    Finset.le_sup (f := fun s => (W s).length) (hfin.mem_toFinset.2 hs)
  refine ⟨L + L, fun s t hs ht => ?_⟩
  refine ⟨(W s).reverse ++ (List.replicate (L + L - (W s).length - (W t).length) q0 ++ W t), ?_, ?_⟩
  · simp only [List.length_append, List.length_reverse, List.length_replicate]
    have := hle s hs
    have := hle t ht
    omega
  · rw [go_append, go_append]
    have h1 : go step (W s).reverse s = s0 := by
      have := go_back hX hinv (W s) hs0
      rwa [hW s hs] at this
    rw [h1, hrep, hW t ht]

open Classical in
/-- … and the fraction of the words that lead from `s0` to `t` gets arbitrarily close to one over the number of places -/
theorem equidistributed (hX : ∀ q s, X s → X (step q s)) (hfin : {s | X s}.Finite) (hinv : ∀ q s, X s → step q (step q s) = s)
    {s0 : S} (hs0 : X s0) (hr : ∀ s, X s → ∃ w, go step w s0 = s) (hloop : ∃ q, step q s0 = s0) {t : S} (ht : X t) {ε : ℚ} (hε : 0 < ε) :
    ∃ K0, ∀ K ≥ K0, |((Finset.univ.filter (fun w : Fin K → Q => go step (List.ofFn w) s0 = t)).card : ℚ) / (Fintype.card Q : ℚ) ^ K -
      1 / (hfin.toFinset.card : ℚ)| < ε := by
  obtain ⟨M, hM⟩ := uniform_paths hX hfin hinv hs0 hr hloop
  have hQ : (1 : ℚ) ≤ Fintype.card Q := by exact_mod_cast Fintype.card_pos
  set δ : ℚ := 1 / (Fintype.card Q : ℚ) ^ M with hδ
  have hδ0 : 0 < δ := by positivity
  have hδ1 : δ ≤ 1 := by
    rw [hδ, div_le_one (by positivity)]
    exact one_le_pow₀ hQ
  set f : S → ℚ := fun s => if s = t then 1 else 0 with hf
  -- a block of steps brings the values closer together
  have hblock : ∀ (g : S → ℚ) (d : ℚ), (∀ a b, X a → X b → g a - g b ≤ d) → ∀ a b, X a → X b →
      mean step M g a - mean step M g b ≤ (1 - δ) * d := by
    intro g d hd a b ha hb
    -- the smallest and the largest value
    obtain ⟨lo, hlo, hmin⟩ := Finset.exists_min_image hfin.toFinset g ⟨s0, hfin.mem_toFinset.2 hs0⟩
    obtain ⟨hi, hhi, hmax⟩ := Finset.exists_max_image hfin.toFinset g ⟨s0, hfin.mem_toFinset.2 hs0⟩
    rw [hfin.mem_toFinset] at hlo hhi
    have hmin' : ∀ s, X s → g lo ≤ g s := fun s hs => hmin s (hfin.mem_toFinset.2 hs)
    have hmax' : ∀ s, X s → g s ≤ g hi := fun s hs => hmax s (hfin.mem_toFinset.2 hs)
    obtain ⟨w, hw1, hw2⟩ := hM a lo ha hlo
    have h1 := mean_le_of_word hX (f := g) (b := g hi) (c := g lo) hmax' ha (w := w) (by rw [hw2])
    have h2 := mean_mono hX (step := step) (f := fun _ => g lo) (g := g) hmin' M hb
    rw [mean_const] at h2
    rw [hw1] at h1
    have h3 := hd hi lo hhi hlo
    have h4 : (g hi - g lo) / (Fintype.card Q : ℚ) ^ M = δ * (g hi - g lo) := by rw [hδ]; ring
    rw [h4] at h1
    nlinarith
  have hblocks : ∀ m a b, X a → X b → mean step (m * M) f a - mean step (m * M) f b ≤ (1 - δ) ^ m := by
    intro m
    induction m with
    | zero =>
      intro a b _ _
      simp only [Nat.zero_mul, mean, pow_zero, hf]
      split <;> split <;> norm_num
    | succ m ih =>
      intro a b ha hb
      rw [Nat.succ_mul, Nat.add_comm, mean_add, mean_add, pow_succ, mul_comm ((1 - δ) ^ m)]
      exact hblock (mean step (m * M) f) _ ih a b ha hb
  have hstep : ∀ K (d : ℚ), (∀ a b, X a → X b → mean step K f a - mean step K f b ≤ d) →
      ∀ a b, X a → X b → mean step (K + 1) f a - mean step (K + 1) f b ≤ d := by
    intro K d hd a b ha hb
    change (∑ q, mean step K f (step q a)) / _ - (∑ q, mean step K f (step q b)) / _ ≤ d
    rw [← sub_div, ← Finset.sum_sub_distrib, div_le_iff₀ (by linarith)]
    calc ∑ q, (mean step K f (step q a) - mean step K f (step q b)) ≤ ∑ _q : Q, d :=
          Finset.sum_le_sum (fun q _ => hd _ _ (hX q a ha) (hX q b hb))
      _ = d * Fintype.card Q := by rw [Finset.sum_const, nsmul_eq_mul, Finset.card_univ, mul_comm]
  have hlater : ∀ a c, a ≤ c → ∀ (d : ℚ), (∀ u v, X u → X v → mean step a f u - mean step a f v ≤ d) →
      ∀ u v, X u → X v → mean step c f u - mean step c f v ≤ d := by
    intro a c hac d hd
    induction c, hac using Nat.le_induction with
    | base => exact hd
    | succ c _ ih => exact hstep c d ih
  -- the sum over all places does not change
  have hsum : ∀ K, ∑ s ∈ hfin.toFinset, mean step K f s = 1 := by
    intro K
    induction K with
    | zero =>
      change ∑ s ∈ hfin.toFinset, f s = 1
      simp only [hf]
      rw [Finset.sum_ite_eq' hfin.toFinset t]
      rw [if_pos (hfin.mem_toFinset.2 ht)]
    | succ K ih =>
      change ∑ s ∈ hfin.toFinset, (∑ q, mean step K f (step q s)) / _ = 1
      rw [← Finset.sum_div, Finset.sum_comm]
      have : ∀ q : Q, ∑ s ∈ hfin.toFinset, mean step K f (step q s) = 1 := by
        intro q
        rw [← ih]
        refine Finset.sum_nbij' (step q) (step q) ?_ ?_ ?_ ?_ ?_
        · intro s hs; rw [hfin.mem_toFinset] at hs ⊢; exact hX q s hs
        · intro s hs; rw [hfin.mem_toFinset] at hs ⊢; exact hX q s hs
        · intro s hs; rw [hfin.mem_toFinset] at hs; exact hinv q s hs
        · intro s hs; rw [hfin.mem_toFinset] at hs; exact hinv q s hs
        · intro s _; rfl
      simp only [this]
      rw [Finset.sum_const, nsmul_eq_mul, mul_one, Finset.card_univ]
      exact div_self (by linarith)
  obtain ⟨m, hm⟩ := exists_pow_lt_of_lt_one hε (by linarith : 1 - δ < 1)
  refine ⟨m * M, fun K hK => ?_⟩
  have e : mean step K f s0 = _ := mean_count (step := step) K (fun s => s = t) s0
  rw [← e]
  have hd := hlater _ _ hK _ (hblocks m)
  have hN : (0 : ℚ) < hfin.toFinset.card := by
    exact_mod_cast Finset.card_pos.2 ⟨s0, hfin.mem_toFinset.2 hs0⟩
  have havg : (hfin.toFinset.card : ℚ) * mean step K f s0 - 1 = ∑ s ∈ hfin.toFinset, (mean step K f s0 - mean step K f s) := by
    rw [Finset.sum_sub_distrib, hsum K, Finset.sum_const, nsmul_eq_mul]
  have hup : (hfin.toFinset.card : ℚ) * mean step K f s0 - 1 ≤ hfin.toFinset.card * (1 - δ) ^ m := by
    rw [havg]
    calc _ ≤ ∑ _s ∈ hfin.toFinset, (1 - δ) ^ m :=
          Finset.sum_le_sum (fun s hs => hd s0 s hs0 (hfin.mem_toFinset.1 hs))
      _ = _ := by rw [Finset.sum_const, nsmul_eq_mul]
  have hdn : -((hfin.toFinset.card : ℚ) * (1 - δ) ^ m) ≤ hfin.toFinset.card * mean step K f s0 - 1 := by
    rw [havg]
    calc -((hfin.toFinset.card : ℚ) * (1 - δ) ^ m) = ∑ _s ∈ hfin.toFinset, -((1 - δ) ^ m) := by
          rw [Finset.sum_const, nsmul_eq_mul]; ring
      _ ≤ _ := Finset.sum_le_sum (fun s hs => by have := hd s s0 (hfin.mem_toFinset.1 hs) hs0; linarith)
  have hdiff : mean step K f s0 - 1 / (hfin.toFinset.card : ℚ) =
      ((hfin.toFinset.card : ℚ) * mean step K f s0 - 1) / hfin.toFinset.card := by field_simp
  rw [hdiff, abs_lt]
  constructor
  · rw [lt_div_iff₀ hN]; nlinarith
  · rw [div_lt_iff₀ hN]; nlinarith

end

end PyBBN.Walk
