import Verif.Proofs.ChancePair

/-!
# C96: the distribution of the numbers of values and of the hyperparameters
-/

namespace PyBBN
open Classical

namespace Rnd
variable {α β : Type} {M : Nat}

theorem gives_map (y : Rnd α) (h : α → β) (p : β → Prop) (ds : List Nat) : (Rnd.bind y (fun a => pure (h a))).Gives p ds ↔ y.Gives (fun a => p (h a)) ds := by
  unfold Gives Rnd.bind
  cases hy : y ds with
  | done a rest =>
    constructor
    · rintro ⟨b, r, e, hb⟩
      cases e
      exact ⟨a, rest, rfl, hb⟩
    · rintro ⟨b, r, e, hb⟩
      cases e
      exact ⟨h a, rest, rfl, hb⟩
  | raised e =>
    constructor
    · rintro ⟨b, r, e, _⟩; cases e
    · rintro ⟨b, r, e, _⟩; cases e
  | waiting =>
    constructor
    · rintro ⟨b, r, e, _⟩; cases e
    · rintro ⟨b, r, e, _⟩; cases e

theorem prob_map {y : Rnd α} {h : α → β} {p : β → Prop} {r : ℚ} (hy : Prob M y (fun a => p (h a)) r) : Prob M (Rnd.bind y (fun a => pure (h a))) p r := by
  have : share M (Rnd.bind y (fun a => pure (h a))) p = share M y (fun a => p (h a)) := by
    funext L
    unfold share
    simp only [gives_map]
  unfold Prob
  rw [this]
  exact hy

theorem prob_congr {y : Rnd α} {p q : α → Prop} {r : ℚ} (h : ∀ a, p a ↔ q a) (hy : Prob M y p r) : Prob M y q r := by
  rwa [show q = p from funext (fun a => propext (h a).symm)]

theorem prob_false (hM : 0 < M) (y : Rnd α) : Prob M y (fun _ => False) 0 := by
  intro ε hε
  refine ⟨0, fun L _ => ?_⟩
  have : share M y (fun _ => False) L = 0 := by
    unfold share
    rw [div_eq_zero_iff]
    left
    rw [Nat.cast_eq_zero, Finset.card_eq_zero, Finset.filter_eq_empty_iff]
    rintro ds _ ⟨_, _, _, h⟩
    exact h
  rw [this]
  simpa using hε

/-- a list of independent numbers -/
theorem prob_times [DecidableEq β] (hM : 0 < M) {lo : Int} {m : Nat} (hm : 0 < m) (hd : m ∣ M) (f : Int → β) : ∀ l : List β,
    Prob M (times (Rnd.bind (randint lo (lo + m)) (fun k => pure (f k))) l.length) (fun as => as = l)
      (l.map (fun a => (((Finset.range m).filter (fun k : Nat => f (lo + k) = a)).card : ℚ) / m)).prod
  | [] => by
      have := prob_pure hM ([] : List β) (fun as => as = [])
      rw [if_pos rfl] at this
      exact this
  | a :: l => by
      have ih := prob_times hM (lo := lo) hm hd f l
      set R := (l.map (fun a => (((Finset.range m).filter (fun k : Nat => f (lo + k) = a)).card : ℚ) / m)).prod with hR
      simp only [List.length_cons, times, List.map_cons, List.prod_cons]
      rw [rnd_assoc_r]
      have h1 : ∀ k < m, Prob M (Rnd.bind (pure (f (lo + (k : Nat)))) (fun b => Rnd.bind
          (times (Rnd.bind (randint lo (lo + m)) (fun k => pure (f k))) l.length) (fun as => pure (b :: as)))) (fun as => as = a :: l)
          (if f (lo + (k : Nat)) = a then R else 0) := by
        intro k _
        change Prob M (Rnd.bind (times (Rnd.bind (randint lo (lo + m)) (fun k => pure (f k))) l.length) (fun as => pure (f (lo + k) :: as))) _ _
        refine prob_map (h := fun as => f (lo + k) :: as) ?_
        by_cases hk : f (lo + (k : Nat)) = a
        · rw [if_pos hk]
          exact prob_congr (fun as => by simp [hk]) ih
        · rw [if_neg hk]
          exact prob_congr (fun as => by simp [hk]) (prob_false hM _)
      have h2 := prob_randint hM hm hd (f := fun k => Rnd.bind (pure (f k)) (fun b => Rnd.bind
          (times (Rnd.bind (randint lo (lo + m)) (fun k => pure (f k))) l.length) (fun as => pure (b :: as)))) h1
      have e : (1 / (m : ℚ)) * ∑ k ∈ Finset.range m, (if f (lo + (k : Nat)) = a then R else 0) =
          (((Finset.range m).filter (fun k : Nat => f (lo + k) = a)).card : ℚ) / m * R := by
        rw [← Finset.sum_filter, Finset.sum_const, nsmul_eq_mul]
        ring
      rw [e] at h2
      exact h2
where
  rnd_assoc_r {α β γ : Type} (x : Rnd α) (g : α → Rnd β) (f : β → Rnd γ) : Rnd.bind (Rnd.bind x g) f = Rnd.bind x (fun a => Rnd.bind (g a) f) :=
    Gen.rnd_assoc x g f

end Rnd

/-- **C96**, hyperparameters: every list of `n` numbers between 1 and `max_alpha` is equally likely -/
theorem c96_alphas {M maxAlpha : Nat} (hM : 0 < M) (ha : 0 < maxAlpha) (hd : maxAlpha ∣ M) {l : List Int} (hl : ∀ a ∈ l, 1 ≤ a ∧ a ≤ maxAlpha) :
    (Gen.alphas l.length maxAlpha).Prob M (fun as => as = l) ((1 / (maxAlpha : ℚ)) ^ l.length) := by
  have h := Rnd.prob_times hM ha hd (lo := 1) (fun k : Int => k) l
  have e : (l.map (fun a => (((Finset.range maxAlpha).filter (fun k : Nat => 1 + (k : Int) = a)).card : ℚ) / maxAlpha)).prod = (1 / (maxAlpha : ℚ)) ^ l.length := by
    rw [← List.prod_replicate, ← List.map_const']
    congr 1
    apply List.map_congr_left
    intro a hal
    have := hl a hal
    have e : (Finset.range maxAlpha).filter (fun k : Nat => 1 + (k : Int) = a) = {(a - 1).toNat} := by
      ext k
      simp only [Finset.mem_filter, Finset.mem_range, Finset.mem_singleton]
      omega
    rw [e, Finset.card_singleton]
    simp
  rw [e] at h
  have e2 : Gen.alphas l.length maxAlpha = Rnd.times (Rnd.bind (Rnd.randint 1 (1 + (maxAlpha : Int))) (fun k => Rnd.pure k)) l.length := by
    unfold Gen.alphas
    rw [Int.toNat_natCast, add_comm (maxAlpha : Int) 1]
    congr 1
    funext ds
    unfold Rnd.bind
    cases Rnd.randint 1 (1 + (maxAlpha : Int)) ds <;> rfl
  rw [e2]
  exact h

/-- not vacuous -/
example : (Gen.alphas 3 10).Prob 10 (fun as => as = [1, 10, 4]) ((1 / 10) ^ 3) :=
  c96_alphas (M := 10) (maxAlpha := 10) (l := [1, 10, 4]) (by decide) (by decide) (by decide) (by decide)

/-- **C96**, numbers of values (what is true): the numbers are independent; 2 has probability `2 / max_values`, each of `3 … max_values` has
probability `1 / max_values` -/
theorem c96_numValues_partial {M maxValues : Nat} (hM : 0 < M) (hv : 2 ≤ maxValues) (hd : maxValues ∣ M) {l : List Int} (hl : ∀ a ∈ l, 2 ≤ a ∧ a ≤ maxValues) :
    (Gen.numValues l.length maxValues).Prob M (fun as => as.map Gen.Num.val = l)
      (l.map (fun a => (if a = 2 then 2 else 1) / (maxValues : ℚ))).prod := by
  have h := Rnd.prob_times hM (by omega : 0 < maxValues) hd (lo := 0) (fun k : Int => Gen.Num.np (max (k + 1) 2)) (l.map Gen.Num.np)
  rw [List.length_map, List.map_map] at h
  have e : l.map ((fun a => (((Finset.range maxValues).filter (fun k : Nat => Gen.Num.np (max ((0 : Int) + k + 1) 2) = a)).card : ℚ) / maxValues) ∘ Gen.Num.np) =
      l.map (fun a => (if a = 2 then 2 else 1) / (maxValues : ℚ)) := by
    apply List.map_congr_left
    intro a hal
    have := hl a hal
    simp only [Function.comp_apply, Gen.Num.np.injEq]
    congr 1
    by_cases h2 : a = 2
    · rw [if_pos h2]
      have e : (Finset.range maxValues).filter (fun k : Nat => max ((0 : Int) + k + 1) 2 = a) = {0, 1} := by
        ext k
        simp only [Finset.mem_filter, Finset.mem_range, Finset.mem_insert, Finset.mem_singleton]
        omega
      rw [e]; rfl
    · rw [if_neg h2]
      have e : (Finset.range maxValues).filter (fun k : Nat => max ((0 : Int) + k + 1) 2 = a) = {(a - 1).toNat} := by
        ext k
        simp only [Finset.mem_filter, Finset.mem_range, Finset.mem_singleton]
        omega
      rw [e, Finset.card_singleton, Nat.cast_one]
  rw [e] at h
  have e2 : Gen.numValues l.length maxValues = Rnd.times (Rnd.bind (Rnd.randint 0 (0 + (maxValues : Int))) (fun k => Rnd.pure (Gen.Num.np (max (k + 1) 2)))) l.length := by
    unfold Gen.numValues
    rw [Int.toNat_natCast, zero_add]
    rfl
  -- every result is a list of `numpy` numbers
  rw [← e2] at h
  have hnp : ∀ ds, (Gen.numValues l.length maxValues).Gives (fun as => as.map Gen.Num.val = l) ds ↔
      (Gen.numValues l.length maxValues).Gives (fun as => as = l.map Gen.Num.np) ds := by
    intro ds
    have hall : (Gen.numValues l.length maxValues).Always (fun as => as.length = l.length ∧ ∀ a ∈ as, ∃ k, a = Gen.Num.np k) := by
      rw [e2]
      exact (((Rnd.always_randint (by omega)).bind (Q := fun a => ∃ k, a = Gen.Num.np k) (fun k _ => Rnd.always_pure ⟨_, rfl⟩)).times _)
    constructor
    · rintro ⟨as, rest, h1, h2⟩
      refine ⟨as, rest, h1, ?_⟩
      rw [← h2, List.map_map]
      change as = as.map (Gen.Num.np ∘ Gen.Num.val)
      symm
      have := ((hall ds).2 as rest h1).2
      conv_rhs => rw [← List.map_id as]
      apply List.map_congr_left
      intro a ha
      obtain ⟨k, rfl⟩ := this a ha
      rfl
    · rintro ⟨as, rest, h1, rfl⟩
      refine ⟨_, rest, h1, ?_⟩
      change (l.map Gen.Num.np).map Gen.Num.val = l
      rw [List.map_map]
      exact List.map_id l
  unfold Rnd.Prob at h ⊢
  have e3 : (Gen.numValues l.length maxValues).share M (fun as => as.map Gen.Num.val = l) = (Gen.numValues l.length maxValues).share M (fun as => as = l.map Gen.Num.np) := by
    funext L
    unfold Rnd.share
    simp only [hnp]
  rw [e3]
  exact h

/-- not vacuous: four nodes with up to five values -/
example : (Gen.numValues 4 5).Prob 10 (fun as => as.map Gen.Num.val = [2, 5, 2, 3]) (2 / 5 * (1 / 5 * (2 / 5 * (1 / 5)))) := by
  have := c96_numValues_partial (M := 10) (maxValues := 5) (l := [2, 5, 2, 3]) (by decide) (by decide) (by decide) (by decide)
  simpa using this

/-- **C96** is false: with `max_values ≥ 3`, two values are twice as likely as three -/
theorem c96_false {M maxValues : Nat} (hM : 0 < M) (hv : 3 ≤ maxValues) (hd : maxValues ∣ M) :
    (Gen.numValues 1 maxValues).Prob M (fun as => as.map Gen.Num.val = [2]) (2 / maxValues) ∧
    (Gen.numValues 1 maxValues).Prob M (fun as => as.map Gen.Num.val = [3]) (1 / maxValues) := by
  have h2 := c96_numValues_partial (M := M) (maxValues := maxValues) (l := [2]) hM (by omega) hd (by simp; omega)
  have h3 := c96_numValues_partial (M := M) (maxValues := maxValues) (l := [3]) hM (by omega) hd (by simp; omega)
  simp only [List.map_cons, List.map_nil, List.prod_cons, List.prod_nil, mul_one, if_true, List.length_cons, List.length_nil] at h2 h3
  exact ⟨h2, by simpa using h3⟩

/-- **C96**: the maximum is exceeded when it is one -/
theorem c96_one_exceeded (n : Int) : (Gen.numValues n 1).Always (fun as => ∀ a ∈ as, a.val = 2) := by
  refine (Rnd.Always.times (P := fun a : Gen.Num => a.val = 2) ?_ _).mono (fun as h => h.2)
  refine (Rnd.always_randint (by decide)).bind (fun k hk => Rnd.always_pure ?_)
  change max (k + 1) 2 = 2
  omega

end PyBBN
