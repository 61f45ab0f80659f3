import Verif.Spec.Chance
import Verif.Proofs.Generator
import Verif.Proofs.RandomWalk

/-! Calculating probabilities of computations with random draws. -/

namespace PyBBN
open Classical

/-! ## limits -/

theorem TendsTo.const (c : ℚ) : TendsTo (fun _ => c) c := fun ε hε => ⟨0, fun L _ => by simpa using hε⟩

theorem TendsTo.unique {u : Nat → ℚ} {a b : ℚ} (ha : TendsTo u a) (hb : TendsTo u b) : a = b := by
  by_contra hne
  have h0 : 0 < |a - b| := abs_pos.2 (sub_ne_zero.2 hne)
  obtain ⟨L1, h1⟩ := ha (|a - b| / 2) (by linarith)
  obtain ⟨L2, h2⟩ := hb (|a - b| / 2) (by linarith)
  have h1 := h1 (max L1 L2) (le_max_left _ _)
  have h2 := h2 (max L1 L2) (le_max_right _ _)
  have := abs_sub_le a (u (max L1 L2)) b
  rw [abs_sub_comm a (u _)] at this
  linarith

theorem TendsTo.add {u v : Nat → ℚ} {a b : ℚ} (ha : TendsTo u a) (hb : TendsTo v b) : TendsTo (fun L => u L + v L) (a + b) := by
  intro ε hε
  obtain ⟨L1, h1⟩ := ha (ε / 2) (by linarith)
  obtain ⟨L2, h2⟩ := hb (ε / 2) (by linarith)
  refine ⟨max L1 L2, fun L hL => ?_⟩
  have h1 := h1 L (le_trans (le_max_left _ _) hL)
  have h2 := h2 L (le_trans (le_max_right _ _) hL)
  have := abs_add_le (u L - a) (v L - b)
  have e : u L + v L - (a + b) = (u L - a) + (v L - b) := by ring
  rw [e]; linarith

theorem TendsTo.mul {u : Nat → ℚ} {a : ℚ} (c : ℚ) (ha : TendsTo u a) : TendsTo (fun L => c * u L) (c * a) := by
  intro ε hε
  obtain ⟨L1, h1⟩ := ha (ε / (|c| + 1)) (by positivity)
  refine ⟨L1, fun L hL => ?_⟩
  have h1 := h1 L hL
  rw [← mul_sub, abs_mul]
  rw [lt_div_iff₀ (by positivity)] at h1
  have := abs_nonneg (u L - a)
  nlinarith

theorem TendsTo.sum {ι : Type} (s : Finset ι) {u : ι → Nat → ℚ} {a : ι → ℚ} (h : ∀ i ∈ s, TendsTo (u i) (a i)) :
    TendsTo (fun L => ∑ i ∈ s, u i L) (∑ i ∈ s, a i) := by
  induction s using Finset.induction_on with
  | empty => simpa using TendsTo.const 0
  | insert i s hi ih =>
    simp only [Finset.sum_insert hi]
    exact (h i (Finset.mem_insert_self i s)).add (ih (fun j hj => h j (Finset.mem_insert_of_mem hj)))

theorem TendsTo.shift {u : Nat → ℚ} {a : ℚ} (h : TendsTo (fun L => u (L + 1)) a) : TendsTo u a := by
  intro ε hε
  obtain ⟨L0, hL⟩ := h ε hε
  refine ⟨L0 + 1, fun L h => ?_⟩
  obtain ⟨m, rfl⟩ := Nat.exists_eq_add_of_le h
  have := hL (L0 + m) (by omega)
  simpa only [show L0 + m + 1 = L0 + 1 + m by omega] using this

/-- a sequence that depends on its last value with a factor less than one -/
theorem TendsTo.recur {u v : Nat → ℚ} {c b : ℚ} (hc0 : 0 ≤ c) (hc1 : c < 1) (hv : TendsTo v b) (h : ∀ L, u (L + 1) = c * u L + v L) :
    TendsTo u (b / (1 - c)) := by
  intro ε hε
  have hc : 0 < 1 - c := by linarith
  obtain ⟨L1, h1⟩ := hv (ε / 2 * (1 - c)) (by positivity)
  set r := b / (1 - c) with hr
  have hb : b = r * (1 - c) := by rw [hr]; field_simp
  have hstep : ∀ k, |u (L1 + k) - r| ≤ c ^ k * |u L1 - r| + ε / 2 := by
    intro k
    induction k with
    | zero => simp; linarith
    | succ k ih =>
      have e : u (L1 + (k + 1)) - r = c * (u (L1 + k) - r) + (v (L1 + k) - b) := by
        rw [← Nat.add_assoc, h, hb]; ring
      rw [e]
      refine (abs_add_le _ _).trans ?_
      rw [abs_mul, abs_of_nonneg hc0]
      have := h1 (L1 + k) (by omega)
      have := mul_le_mul_of_nonneg_left ih hc0
      rw [pow_succ]
      nlinarith
  obtain ⟨m, hm⟩ := exists_pow_lt_of_lt_one (show 0 < ε / 2 / (|u L1 - r| + 1) by positivity) hc1
  refine ⟨L1 + m, fun L hL => ?_⟩
  obtain ⟨k, rfl⟩ := Nat.exists_eq_add_of_le hL
  rw [Nat.add_assoc]
  refine lt_of_le_of_lt (hstep (m + k)) ?_
  have h2 : c ^ (m + k) ≤ c ^ m := pow_le_pow_of_le_one hc0 hc1.le (by omega)
  rw [lt_div_iff₀ (by positivity)] at hm
  have h3 := abs_nonneg (u L1 - r)
  have h4 : 0 ≤ c ^ m := pow_nonneg hc0 m
  nlinarith

/-! ## shares -/

namespace Rnd
variable {α β : Type} {M : Nat}

theorem share_eq_sum (x : Rnd α) (p : α → Prop) (L : Nat) :
    share M x p L = (∑ ds : Fin L → Fin M, if x.Gives p (List.ofFn (fun k => (ds k : Nat))) then (1 : ℚ) else 0) / (M : ℚ) ^ L := by
  unfold share
  rw [Finset.card_filter]
  push_cast
  rfl

/-- the first draw -/
theorem share_draw (f : Nat → Rnd α) (p : α → Prop) (L : Nat) :
    share M (Rnd.bind draw f) p (L + 1) = (1 / (M : ℚ)) * ∑ d : Fin M, share M (f d) p L := by
  simp only [share_eq_sum]
  have h1 : ∑ ds : Fin (L + 1) → Fin M, (if (Rnd.bind draw f).Gives p (List.ofFn (fun k => (ds k : Nat))) then (1 : ℚ) else 0) =
      ∑ d : Fin M, ∑ ds : Fin L → Fin M, if (f d).Gives p (List.ofFn (fun k => (ds k : Nat))) then (1 : ℚ) else 0 := by
    rw [← Fintype.sum_prod_type']
    symm
    apply Fintype.sum_equiv (Fin.consEquiv (fun _ => Fin M))
    rintro ⟨d, ds⟩
    have : (List.ofFn fun k => ((Fin.consEquiv (fun _ => Fin M)) (d, ds) k : Nat)) = (d : Nat) :: List.ofFn (fun k => (ds k : Nat)) := by
      rw [List.ofFn_succ]; rfl
    rw [this]
    rfl
  rw [h1, ← Finset.sum_div, pow_succ]
  ring

theorem share_congr {x y : Rnd α} (h : ∀ ds, x ds = y ds) (p : α → Prop) : share M x p = share M y p := by
  rw [show x = y from funext h]

theorem share_zero_or (x : Rnd α) (p : α → Prop) (L : Nat) : 0 ≤ share M x p L := by
  unfold share; positivity

theorem prob_pure (hM : 0 < M) (a : α) (p : α → Prop) : Prob M (pure a) p (if p a then 1 else 0) := by
  intro ε hε
  refine ⟨0, fun L _ => ?_⟩
  rw [show share M (pure a) p L = if p a then 1 else 0 from ?_]
  · simpa using hε
  · have hM' : (M : ℚ) ≠ 0 := by positivity
    rw [share_eq_sum]
    have : ∀ ds, (pure a : Rnd α).Gives p ds ↔ p a := by
      intro ds
      constructor
      · rintro ⟨b, rest, h, hb⟩; cases h; exact hb
      · intro h; exact ⟨a, ds, rfl, h⟩
    simp only [this]
    by_cases h : p a
    · simp [h, hM']
    · simp [h]

/-- one draw -/
theorem prob_draw {f : Nat → Rnd α} {p : α → Prop} {r : Nat → ℚ} (h : ∀ d < M, Prob M (f d) p (r d)) :
    Prob M (Rnd.bind draw f) p ((1 / (M : ℚ)) * ∑ d : Fin M, r d) := by
  apply TendsTo.shift
  simp only [share_draw]
  exact TendsTo.mul _ (TendsTo.sum (Finset.univ : Finset (Fin M)) (u := fun d => share M (f d) p) (a := fun d => r d) (fun d _ => h (d : Nat) d.2))

end Rnd

/-! ## residues -/

/-- the numbers below a multiple of `n`, modulo `n` -/
theorem sum_mod {n m : Nat} (F : Nat → ℚ) : ∑ d ∈ Finset.range (n * m), F (d % n) = m * ∑ k ∈ Finset.range n, F k := by
  induction m with
  | zero => simp
  | succ m ih =>
    rw [Nat.mul_succ, Finset.sum_range_add, ih]
    have : ∑ x ∈ Finset.range n, F ((n * m + x) % n) = ∑ k ∈ Finset.range n, F k := by
      apply Finset.sum_congr rfl
      intro x hx
      rw [Finset.mem_range] at hx
      rw [Nat.mul_add_mod, Nat.mod_eq_of_lt hx]
    rw [this]; push_cast; ring

theorem avg_mod {n M : Nat} (hn : 0 < n) (hM : 0 < M) (hd : n ∣ M) (F : Nat → ℚ) :
    (1 / (M : ℚ)) * ∑ d : Fin M, F ((d : Nat) % n) = (1 / (n : ℚ)) * ∑ k ∈ Finset.range n, F k := by
  obtain ⟨m, rfl⟩ := hd
  rw [Fin.sum_univ_eq_sum_range (fun d => F (d % n)), sum_mod]
  have hm : 0 < m := Nat.pos_of_mul_pos_left hM
  have h1 : (n : ℚ) ≠ 0 := by positivity
  have h2 : (m : ℚ) ≠ 0 := by positivity
  push_cast
  field_simp

namespace Rnd
variable {α β : Type} {M : Nat}

/-- `np.random.randint` -/
theorem prob_randint (hM : 0 < M) {lo : Int} {m : Nat} (hm : 0 < m) (hd : m ∣ M) {f : Int → Rnd α} {p : α → Prop} {r : Nat → ℚ}
    (h : ∀ k < m, Prob M (f (lo + k)) p (r k)) : Prob M (Rnd.bind (randint lo (lo + m)) f) p ((1 / (m : ℚ)) * ∑ k ∈ Finset.range m, r k) := by
  have e : Rnd.bind (randint lo (lo + m)) f = Rnd.bind draw (fun d => f (lo + ((d % m : Nat) : Int))) := by
    funext ds
    have : ¬ (lo + (m : Int) ≤ lo) := by omega
    simp only [randint, this, if_false]
    cases ds with
    | nil => rfl
    | cons d ds =>
      simp only [Rnd.bind, draw, Rnd.pure]
      congr 1
      push_cast
      congr 2
      omega
  rw [e, ← avg_mod hm hM hd r]
  exact prob_draw (f := fun d => f (lo + ((d % m : Nat) : Int))) (r := fun d => r (d % m)) (fun d _ => h _ (Nat.mod_lt d hm))

end Rnd
end PyBBN
