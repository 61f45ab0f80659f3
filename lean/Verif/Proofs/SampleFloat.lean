import Verif.Spec.SampleFloat
import Verif.Proofs.SamplingRun
import Verif.Proofs.Reapply
import Verif.Proofs.Rounding
import Mathlib.Algebra.Order.Ring.Pow
import Mathlib.Data.List.GetD

/-! Helper lemmas: cumulative sums of floats. -/

namespace PyBBN

section
variable {u : ℚ} {inp : ℚ → ℚ} {add : ℚ → ℚ → ℚ} {F : ℚ → Prop}

theorem scanl_getD {f : ℚ → ℚ → ℚ} : ∀ (l : List ℚ) (a : ℚ) (m : Nat), m ≤ l.length → (l.scanl f a).getD m 0 = (l.take m).foldl f a
  | l, a, 0, _ => by cases l <;> simp
  | [], a, m + 1, h => by simp at h
  | x :: l, a, m + 1, h => by
      rw [List.scanl_cons, List.getD_cons_succ, scanl_getD l _ m (by simpa using h)]
      rfl

theorem cumsumF_length (l : List ℚ) : (cumsumF inp add l).length = l.length := by
  cases l <;> simp [cumsumF]

theorem cumsumF_getD (l : List ℚ) {m : Nat} (h : m < l.length) : (cumsumF inp add l).getD m 0 = fsum inp add (l.take (m + 1)) := by
  cases l with
  | nil => simp at h
  | cons x l =>
    unfold cumsumF
    rw [scanl_getD l _ m (by simp at h; omega), List.take_succ_cons]
    rfl

theorem fsum_append_one {l : List ℚ} (hl : l ≠ []) (x : ℚ) : fsum inp add (l ++ [x]) = add (fsum inp add l) (inp x) := by
  cases l with
  | nil => exact absurd rfl hl
  | cons y l => simp [fsum]

section
variable (hr : Adds u inp add F)
include hr

theorem Adds.inp_bounds {x : ℚ} (hx : 0 ≤ x) : (1 - u) * x ≤ inp x ∧ inp x ≤ (1 + u) * x := by
  have := hr.read x
  rw [abs_of_nonneg hx, abs_le] at this
  constructor <;> linarith [this.1, this.2]

theorem Adds.inp_nonneg {x : ℚ} (hx : 0 ≤ x) : 0 ≤ inp x :=
  le_trans (mul_nonneg (by linarith [hr.unit.2]) hx) (hr.inp_bounds hx).1

theorem Adds.add_bounds {a b : ℚ} (ha : 0 ≤ a) (hb : 0 ≤ b) : (1 - u) * (a + b) ≤ add a b ∧ add a b ≤ (1 + u) * (a + b) := by
  have := hr.sum a b
  rw [abs_of_nonneg (add_nonneg ha hb), abs_le] at this
  constructor <;> linarith [this.1, this.2]

/-- sums of floats: not negative, a float, and off by one rounding per summand -/
theorem Adds.fsum_bounds : ∀ (l : List ℚ), (∀ x ∈ l, 0 ≤ x) →
    0 ≤ fsum inp add l ∧ (l ≠ [] → F (fsum inp add l)) ∧ (1 - u) ^ l.length * l.sum ≤ fsum inp add l ∧ fsum inp add l ≤ (1 + u) ^ l.length * l.sum := by
  intro l
  induction l using List.reverseRecOn with
  | nil => intro _; simp [fsum]
  | append_singleton l x ih =>
    intro h
    have hx : 0 ≤ x := h x (by simp)
    obtain ⟨h0, hF, h1, h2⟩ := ih (fun y hy => h y (by simp [hy]))
    have hi := hr.inp_bounds hx
    have hi0 := hr.inp_nonneg hx
    have hu0 : 0 ≤ 1 - u := by linarith [hr.unit.2]
    have hu1 : (1 : ℚ) - u ≤ 1 := by linarith [hr.unit.1]
    have hu2 : (1 : ℚ) ≤ 1 + u := by linarith [hr.unit.1]
    by_cases hl : l = []
    · subst hl
      simp only [List.nil_append, fsum, List.foldl_nil, List.length_cons, List.length_nil, zero_add, pow_one, List.sum_cons, List.sum_nil, add_zero]
      exact ⟨hi0, fun _ => hr.inpF x, hi.1, hi.2⟩
    · rw [fsum_append_one hl, List.length_append, List.sum_append, List.length_singleton, List.sum_singleton]
      have hs : 0 ≤ l.sum := List.sum_nonneg (fun y hy => h y (by simp [hy]))
      have ha := hr.add_bounds h0 hi0
      have hlen : 1 ≤ l.length := List.length_pos_iff.2 hl
      refine ⟨le_trans (mul_nonneg hu0 (add_nonneg h0 hi0)) ha.1, fun _ => hr.addF _ _, ?_, ?_⟩
      · refine le_trans ?_ ha.1
        rw [pow_succ, mul_comm ((1 - u) ^ l.length) (1 - u), mul_assoc]
        refine mul_le_mul_of_nonneg_left ?_ hu0
        rw [mul_add]
        refine add_le_add h1 (le_trans ?_ hi.1)
        refine mul_le_mul_of_nonneg_right ?_ hx
        calc (1 - u) ^ l.length ≤ (1 - u) ^ 1 := pow_le_pow_of_le_one hu0 hu1 hlen
          _ = 1 - u := pow_one _
      · refine le_trans ha.2 ?_
        rw [pow_succ, mul_comm ((1 + u) ^ l.length) (1 + u), mul_assoc]
        refine mul_le_mul_of_nonneg_left ?_ (by linarith)
        rw [mul_add]
        refine add_le_add h2 (le_trans hi.2 ?_)
        refine mul_le_mul_of_nonneg_right ?_ hx
        calc 1 + u = (1 + u) ^ 1 := (pow_one _).symm
          _ ≤ (1 + u) ^ l.length := pow_le_pow_right₀ hu2 hlen

theorem Adds.fsum_step {row : List ℚ} (h : ∀ x ∈ row, 0 ≤ x) (i : Nat) : fsum inp add (row.take i) ≤ fsum inp add (row.take (i + 1)) := by
  by_cases hi : i < row.length
  · rw [List.take_succ_eq_append_getElem hi]
    have hx : 0 ≤ row[i] := h _ (List.getElem_mem hi)
    have hb := hr.fsum_bounds (row.take i) (fun y hy => h y (List.mem_of_mem_take hy))
    by_cases h0 : row.take i = []
    · rw [h0]
      exact hr.inp_nonneg hx
    · rw [fsum_append_one h0]
      exact hr.up _ _ (hb.2.1 h0) hb.1 (hr.inp_nonneg hx)
  · rw [List.take_of_length_le (by omega), List.take_of_length_le (by omega)]

theorem Adds.fsum_mono {row : List ℚ} (h : ∀ x ∈ row, 0 ≤ x) {i j : Nat} (hij : i ≤ j) :
    fsum inp add (row.take i) ≤ fsum inp add (row.take j) := by
  induction hij with
  | refl => exact le_refl _
  | step _ ih => exact le_trans ih (hr.fsum_step h _)

/-- the index found: everything before is at most `p`, everything from there on is more -/
theorem Adds.bisect {row : List ℚ} (h : ∀ x ∈ row, 0 ≤ x) (p : ℚ) :
    bisect (cumsumF inp add row) p ≤ row.length ∧
      (∀ i < bisect (cumsumF inp add row) p, fsum inp add (row.take (i + 1)) ≤ p) ∧
      ∀ i, bisect (cumsumF inp add row) p ≤ i → i < row.length → p < fsum inp add (row.take (i + 1)) := by
  have hmono : ∀ i j, 0 ≤ i → i ≤ j → j < (cumsumF inp add row).length → decide (p < (cumsumF inp add row).getD i 0) = true →
      decide (p < (cumsumF inp add row).getD j 0) = true := by
    intro i j _ hij hj h1
    rw [cumsumF_length] at hj
    rw [cumsumF_getD row (by omega), decide_eq_true_eq] at h1
    rw [cumsumF_getD row hj, decide_eq_true_eq]
    exact lt_of_lt_of_le h1 (hr.fsum_mono h (by omega))
  have hsp := bsearch_spec (fun m => decide (p < (cumsumF inp add row).getD m 0)) (cumsumF inp add row).length 0
    (cumsumF inp add row).length (by omega) (Nat.zero_le _) hmono
  change _ ∧ PyBBN.bisect (cumsumF inp add row) p ≤ _ ∧ (∀ i, 0 ≤ i → i < PyBBN.bisect (cumsumF inp add row) p → _) ∧
    (∀ i, PyBBN.bisect (cumsumF inp add row) p ≤ i → _) at hsp
  obtain ⟨_, h2, h3, h4⟩ := hsp
  rw [cumsumF_length] at h2
  refine ⟨h2, ?_, ?_⟩
  · intro i hi
    have := h3 i (Nat.zero_le _) hi
    rw [cumsumF_getD row (by omega), decide_eq_false_iff_not, not_lt] at this
    exact this
  · intro i hi hlt
    have := h4 i hi (by rw [cumsumF_length]; exact hlt)
    rw [cumsumF_getD row hlt, decide_eq_true_eq] at this
    exact this

/-- the index found, as an interval -/
theorem Adds.bisect_iff {row : List ℚ} (h : ∀ x ∈ row, 0 ≤ x) {p : ℚ} (hp : 0 ≤ p) {i : Nat} (hi : i < row.length) :
    PyBBN.bisect (cumsumF inp add row) p = i ↔ InFInterval inp add row i p := by
  obtain ⟨h1, h2, h3⟩ := hr.bisect h p
  constructor
  · intro e
    refine ⟨?_, h3 i (by omega) hi⟩
    cases i with
    | zero => simpa [fsum] using hp
    | succ i => exact h2 i (by omega)
  · rintro ⟨e1, e2⟩
    rcases Nat.lt_trichotomy (PyBBN.bisect (cumsumF inp add row) p) i with hlt | he | hlt
    · have := h3 _ (le_refl _) (by omega)
      have := hr.fsum_mono h (show PyBBN.bisect (cumsumF inp add row) p + 1 ≤ i by omega)
      linarith
    · exact he
    · have := h2 i hlt
      linarith

end

/-! ### the nearby row -/

/-- the upper ends of the intervals, cut at one and stretched to one -/
def topF (inp : ℚ → ℚ) (add : ℚ → ℚ → ℚ) (row : List ℚ) (k : Nat) : ℚ :=
  if row.length ≤ k then 1 else min 1 (fsum inp add (row.take k))

/-- the row whose exact cumulative sums are these -/
def pertRow (inp : ℚ → ℚ) (add : ℚ → ℚ → ℚ) (row : List ℚ) : List ℚ :=
  (List.range row.length).map (fun i => topF inp add row (i + 1) - topF inp add row i)

theorem pertRow_length (row : List ℚ) : (pertRow inp add row).length = row.length := by simp [pertRow]

theorem range_telescope (f : Nat → ℚ) : ∀ n, ((List.range n).map (fun i => f (i + 1) - f i)).sum = f n - f 0
  | 0 => by simp
  | n + 1 => by
      rw [List.range_succ, List.map_append, List.sum_append, range_telescope f n]
      simp

theorem pertRow_take {row : List ℚ} (hne : row ≠ []) {i : Nat} (hi : i ≤ row.length) :
    ((pertRow inp add row).take i).sum = topF inp add row i := by
  unfold pertRow
  rw [← List.map_take, List.take_range, min_eq_left hi, range_telescope]
  have h0 : topF inp add row 0 = 0 := by
    unfold topF
    rw [if_neg (by have := List.length_pos_iff.2 hne; omega)]
    simp [fsum]
  rw [h0, sub_zero]

theorem pertRow_sum {row : List ℚ} (hne : row ≠ []) : (pertRow inp add row).sum = 1 := by
  have := pertRow_take (inp := inp) (add := add) hne (le_refl _)
  rw [← pertRow_length (inp := inp) (add := add), List.take_length] at this
  rw [this, pertRow_length]
  simp [topF]

section
variable (hr : Adds u inp add F)
include hr

theorem Adds.topF_mono {row : List ℚ} (h : ∀ x ∈ row, 0 ≤ x) (i : Nat) : topF inp add row i ≤ topF inp add row (i + 1) := by
  unfold topF
  by_cases h1 : row.length ≤ i
  · rw [if_pos h1, if_pos (by omega)]
  · rw [if_neg h1]
    by_cases h2 : row.length ≤ i + 1
    · rw [if_pos h2]; exact min_le_left _ _
    · rw [if_neg h2]
      exact min_le_min_left _ (hr.fsum_step h i)

theorem Adds.pertRow_nonneg {row : List ℚ} (h : ∀ x ∈ row, 0 ≤ x) : ∀ x ∈ pertRow inp add row, 0 ≤ x := by
  intro x hx
  obtain ⟨i, _, rfl⟩ := List.mem_map.1 hx
  have := hr.topF_mono h i
  linarith

/-- cumulative sums of floats of a row that sums to one -/
theorem Adds.topF_near {row : List ℚ} (h : ∀ x ∈ row, 0 ≤ x) (hs : row.sum = 1) (i : Nat) :
    |topF inp add row i - (row.take i).sum| ≤ (1 + u) ^ row.length - 1 := by
  have hu1 : (1 : ℚ) ≤ 1 + u := by linarith [hr.unit.1]
  have hpos : (0 : ℚ) ≤ (1 + u) ^ row.length - 1 := by linarith [one_le_pow₀ hu1 (n := row.length)]
  unfold topF
  by_cases h1 : row.length ≤ i
  · rw [if_pos h1, List.take_of_length_le h1, hs]
    simpa using hpos
  · rw [if_neg h1]
    obtain ⟨b0, _, b1, b2⟩ := hr.fsum_bounds (row.take i) (fun y hy => h y (List.mem_of_mem_take hy))
    have hlen : (row.take i).length = i := by rw [List.length_take]; omega
    rw [hlen] at b1 b2
    have hS1 : (row.take i).sum ≤ 1 := by
      have := sum_take_mono h (show i ≤ row.length by omega)
      rwa [List.take_length, hs] at this
    have hS0 : 0 ≤ (row.take i).sum := List.sum_nonneg (fun y hy => h y (List.mem_of_mem_take hy))
    have hpow : (1 + u) ^ i ≤ (1 + u) ^ row.length := pow_le_pow_right₀ hu1 (by omega)
    have h1i : (1 : ℚ) ≤ (1 + u) ^ i := one_le_pow₀ hu1
    have hlow : 1 - ((1 + u) ^ i - 1) ≤ (1 - u) ^ i := by
      have e1 : 1 + (i : ℚ) * (-u) ≤ (1 + -u) ^ i := one_add_mul_le_pow (by linarith [hr.unit.2]) i
      have e2 : 1 + (i : ℚ) * u ≤ (1 + u) ^ i := one_add_mul_le_pow (by linarith [hr.unit.1]) i
      have e3 : (1 : ℚ) + -u = 1 - u := by ring
      rw [e3] at e1
      linarith
    have hup : fsum inp add (row.take i) ≤ (row.take i).sum + ((1 + u) ^ row.length - 1) := by
      refine le_trans b2 ?_
      nlinarith
    have hdn : (row.take i).sum - ((1 + u) ^ row.length - 1) ≤ fsum inp add (row.take i) := by
      refine le_trans ?_ b1
      nlinarith
    rw [abs_le]
    constructor
    · have : (row.take i).sum - ((1 + u) ^ row.length - 1) ≤ min 1 (fsum inp add (row.take i)) := le_min (by linarith) hdn
      linarith
    · have : min 1 (fsum inp add (row.take i)) ≤ fsum inp add (row.take i) := min_le_right _ _
      linarith

theorem Adds.pertRow_near {row : List ℚ} (h : ∀ x ∈ row, 0 ≤ x) (hs : row.sum = 1) (i : Nat) :
    |(pertRow inp add row).getD i 0 - row.getD i 0| ≤ 2 * ((1 + u) ^ row.length - 1) := by
  by_cases hi : i < row.length
  · have e : (pertRow inp add row).getD i 0 = topF inp add row (i + 1) - topF inp add row i := by
      rw [List.getD_eq_getElem _ _ (by rw [pertRow_length]; exact hi)]
      simp [pertRow]
    have e2 : row.getD i 0 = (row.take (i + 1)).sum - (row.take i).sum := by
      rw [take_succ_sum]; ring
    rw [e, e2]
    have a1 := abs_le.1 (hr.topF_near h hs i)
    have a2 := abs_le.1 (hr.topF_near h hs (i + 1))
    rw [abs_le]
    constructor <;> linarith [a1.1, a1.2, a2.1, a2.2]
  · rw [List.getD_eq_default _ _ (by rw [pertRow_length]; omega), List.getD_eq_default _ _ (by omega)]
    have hu1 : (1 : ℚ) ≤ 1 + u := by linarith [hr.unit.1]
    have : (0 : ℚ) ≤ (1 + u) ^ row.length - 1 := by linarith [one_le_pow₀ hu1 (n := row.length)]
    simpa using this

/-- the index found in the cumulative sums of floats is the index found in the exact cumulative sums of the nearby row -/
theorem Adds.bisect_pert {probs probs' : List ℚ} (h : ∀ x ∈ probs, 0 ≤ x) (h' : ∀ x ∈ probs', 0 ≤ x) {n : Nat} (hn : n ≤ probs.length)
    (hn' : n ≤ probs'.length) (hp : probs'.take n = pertRow inp add (probs.take n)) {p : ℚ} (p0 : 0 ≤ p) (p1 : p < 1)
    (p2 : p < fsum inp add (probs.take n)) : PyBBN.bisect (cumsumF inp add probs) p = PyBBN.bisect (cumsum 0 probs') p := by
  obtain ⟨b1, b2, b3⟩ := hr.bisect h p
  have hn0 : 0 < n := by
    rcases Nat.eq_zero_or_pos n with e | e
    · subst e; simp [fsum] at p2; linarith
    · exact e
  have hlt : PyBBN.bisect (cumsumF inp add probs) p < n := by
    by_contra hge
    have := b2 (n - 1) (by omega)
    rw [Nat.sub_add_cancel hn0] at this
    linarith
  set i := PyBBN.bisect (cumsumF inp add probs) p with hi
  symm
  rw [inInterval_bisect h' p0 (by omega)]
  have hne : probs.take n ≠ [] := by
    intro e
    have := congrArg List.length e
    rw [List.length_take, List.length_nil] at this
    omega
  have hl : (probs.take n).length = n := by rw [List.length_take]; omega
  have ht : ∀ k ≤ n, (probs'.take k).sum = topF inp add (probs.take n) k := by
    intro k hk
    rw [← pertRow_take hne (by omega), ← hp, List.take_take, min_eq_left hk]
  have hf : ∀ k ≤ n, fsum inp add ((probs.take n).take k) = fsum inp add (probs.take k) := by
    intro k hk
    rw [List.take_take, min_eq_left hk]
  have hlow : fsum inp add (probs.take i) ≤ p := ((hr.bisect_iff h p0 (by omega)).1 hi.symm).1
  unfold InInterval
  rw [ht i (by omega), ht (i + 1) (by omega)]
  constructor
  · unfold topF
    rw [if_neg (by omega), hf i (by omega)]
    exact le_trans (min_le_right _ _) hlow
  · unfold topF
    split
    · exact p1
    · rw [hf (i + 1) (by omega)]
      exact lt_min p1 (b3 i (le_refl _) (by omega))

end

/-! ### the nearby CPT -/

def rowOf (probs : List ℚ) (n k : Nat) : List ℚ := (probs.drop (k * n)).take n

theorem rowOf_length {probs : List ℚ} {n k : Nat} (h : (k + 1) * n ≤ probs.length) : (rowOf probs n k).length = n := by
  unfold rowOf
  rw [Nat.add_mul, Nat.one_mul] at h
  rw [List.length_take, List.length_drop]
  omega

theorem rowOf_eq {probs : List ℚ} {n k : Nat} (h : (k + 1) * n ≤ probs.length) :
    rowOf probs n k = (List.range n).map (fun j => probs.getD (k * n + j) 0) := by
  apply List.ext_getElem
  · rw [rowOf_length h]; simp
  · intro i h1 h2
    rw [rowOf_length h] at h1
    rw [Nat.add_mul, Nat.one_mul] at h
    simp only [rowOf, List.getElem_map, List.getElem_range, List.getElem_take, List.getElem_drop]
    rw [List.getD_eq_getElem _ _ (by omega)]

def pertProbs (inp : ℚ → ℚ) (add : ℚ → ℚ → ℚ) (n : Nat) (probs : List ℚ) : List ℚ :=
  (List.range probs.length).map (fun j => (pertRow inp add (rowOf probs n (j / n))).getD (j % n) 0)

theorem pertProbs_length (n : Nat) (probs : List ℚ) : (pertProbs inp add n probs).length = probs.length := by simp [pertProbs]

theorem rowOf_pert {n : Nat} (hn : 0 < n) (probs : List ℚ) (k : Nat) :
    rowOf (pertProbs inp add n probs) n k = pertRow inp add (rowOf probs n k) := by
  apply List.ext_getElem
  · rw [pertRow_length]; unfold rowOf
    simp [pertProbs_length]
  · intro i h1 h2
    have hi : i < n := by unfold rowOf at h1; rw [List.length_take] at h1; omega
    have e1 : (k * n + i) / n = k := by
      rw [Nat.add_comm, Nat.add_mul_div_right _ _ hn, Nat.div_eq_of_lt hi, Nat.zero_add]
    have e2 : (k * n + i) % n = i := by
      rw [Nat.add_comm, Nat.add_mul_mod_self_right, Nat.mod_eq_of_lt hi]
    have : (rowOf (pertProbs inp add n probs) n k)[i] = (pertRow inp add (rowOf probs n ((k * n + i) / n))).getD ((k * n + i) % n) 0 := by
      simp only [rowOf, pertProbs, List.getElem_take, List.getElem_drop, List.getElem_map, List.getElem_range]
    rw [this, e1, e2, List.getD_eq_getElem _ _ h2]

theorem Adds.pertProbs_nonneg (hr : Adds u inp add F) {n : Nat} {probs : List ℚ} (h : ∀ x ∈ probs, 0 ≤ x) :
    ∀ x ∈ pertProbs inp add n probs, 0 ≤ x := by
  intro x hx
  obtain ⟨j, _, rfl⟩ := List.mem_map.1 hx
  have hn := hr.pertRow_nonneg (row := rowOf probs n (j / n)) (fun y hy => h y (List.mem_of_mem_drop (List.mem_of_mem_take hy)))
  by_cases hj : j % n < (pertRow inp add (rowOf probs n (j / n))).length
  · rw [List.getD_eq_getElem _ _ hj]
    exact hn _ (List.getElem_mem hj)
  · rw [List.getD_eq_default _ _ (by omega)]

end

end PyBBN
