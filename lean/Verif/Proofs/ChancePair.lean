import Verif.Proofs.Chance

/-! The probability of a pair of nodes, and of a number of iterations. -/

namespace PyBBN
open Classical

namespace Gen
open Rnd
variable {α : Type} {M : Nat}

theorem rnd_assoc {β γ : Type} (x : Rnd α) (g : α → Rnd β) (f : β → Rnd γ) : Rnd.bind (Rnd.bind x g) f = Rnd.bind x (fun a => Rnd.bind (g a) f) := by
  funext ds
  unfold Rnd.bind
  cases x ds <;> rfl

/-- ordered pairs of different nodes -/
abbrev Pair (n : Nat) : Type := {q : Fin n × Fin n // q.1 ≠ q.2}

theorem prob_other (hM : 0 < M) {n : Nat} (hn : 2 ≤ n) (hd : n ∣ M) {i : Nat} (hi : i < n) {f : Int → Rnd α} {p : α → Prop} {r : Nat → ℚ}
    (h : ∀ j < n, j ≠ i → Prob M (f j) p (r j)) :
    Prob M (Rnd.bind (drawOther n i) f) p ((∑ j ∈ (Finset.range n).erase i, r j) / ((n : ℚ) - 1)) := by
  have hn0 : (n : ℚ) ≠ 0 := by positivity
  have hn2 : (2 : ℚ) ≤ n := by exact_mod_cast hn
  have hn1 : (n : ℚ) - 1 ≠ 0 := by linarith
  have e : Rnd.bind (drawOther n i) f = Rnd.bind draw (fun d => if d % n = i then Rnd.bind (drawOther n i) f else f ((d % n : Nat) : Int)) := by
    funext ds
    cases ds with
    | nil => rfl
    | cons d ds =>
      simp only [Rnd.bind, draw, drawOther]
      have h1 : ((d : Int) % (n : Int) = (i : Int)) ↔ d % n = i := by exact_mod_cast Iff.rfl
      by_cases hd : d % n = i
      · simp [h1, hd]; rfl
      · simp [h1, hd]
  have hrec : ∀ L, share M (Rnd.bind (drawOther n i) f) p (L + 1) = (1 / (n : ℚ)) * share M (Rnd.bind (drawOther n i) f) p L +
      (1 / (n : ℚ)) * ∑ j ∈ (Finset.range n).erase i, share M (f j) p L := by
    intro L
    conv_lhs => rw [e]
    rw [share_draw]
    have := avg_mod (n := n) (by omega) hM hd (fun k => if k = i then share M (Rnd.bind (drawOther n i) f) p L else share M (f k) p L)
    have e2 : ∀ d : Nat, share M (if d % n = i then Rnd.bind (drawOther n i) f else f ((d % n : Nat) : Int)) p L =
        (if d % n = i then share M (Rnd.bind (drawOther n i) f) p L else share M (f ((d % n : Nat) : Int)) p L) := by
      intro d; split <;> rfl
    simp only [e2]
    refine this.trans ?_
    rw [← Finset.add_sum_erase _ _ (Finset.mem_range.2 hi), if_pos rfl, mul_add]
    congr 2
    apply Finset.sum_congr rfl
    intro k hk
    rw [if_neg (Finset.ne_of_mem_erase hk)]
  have hv : TendsTo (fun L => (1 / (n : ℚ)) * ∑ j ∈ (Finset.range n).erase i, share M (f j) p L) ((1 / (n : ℚ)) * ∑ j ∈ (Finset.range n).erase i, r j) :=
    TendsTo.mul _ (TendsTo.sum _ (fun j hj => h j (Finset.mem_range.1 (Finset.mem_of_mem_erase hj)) (Finset.ne_of_mem_erase hj)))
  have hlt : 1 / (n : ℚ) < 1 := by rw [div_lt_one (by linarith)]; linarith
  have := TendsTo.recur (u := share M (Rnd.bind (drawOther n i) f) p) (by positivity) hlt hv hrec
  have e3 : (1 / (n : ℚ)) * (∑ j ∈ (Finset.range n).erase i, r j) / (1 - 1 / (n : ℚ)) = (∑ j ∈ (Finset.range n).erase i, r j) / ((n : ℚ) - 1) := by
    field_simp
  rw [e3] at this
  exact this

theorem card_pair (n : Nat) : (Fintype.card (Pair n) : ℚ) = n * ((n : ℚ) - 1) := by
  rw [Fintype.card_subtype]
  have h1 : (Finset.univ.filter (fun q : Fin n × Fin n => q.1 ≠ q.2)) = (Finset.univ : Finset (Fin n)).offDiag := by
    ext q; simp [Finset.mem_offDiag]
  rw [h1, Finset.offDiag_card, Finset.card_univ, Fintype.card_fin]
  cases n with
  | zero => simp
  | succ n =>
    rw [Nat.cast_sub (Nat.le_mul_of_pos_left _ (Nat.succ_pos n))]
    push_cast; ring

/-- every ordered pair of different nodes has the same probability -/
theorem prob_pair (hM : 0 < M) {n : Nat} (hn : 2 ≤ n) (hd : n ∣ M) {f : Int × Int → Rnd α} {p : α → Prop} {r : Pair n → ℚ}
    (h : ∀ q : Pair n, Prob M (f ((q.1.1 : Nat), (q.1.2 : Nat))) p (r q)) :
    Prob M (Rnd.bind (randomNodePair n) f) p ((∑ q, r q) / (Fintype.card (Pair n) : ℚ)) := by
  let R : Nat → Nat → ℚ := fun i j => if h : i < n ∧ j < n ∧ i ≠ j then r ⟨(⟨i, h.1⟩, ⟨j, h.2.1⟩), by simpa [Fin.ext_iff] using h.2.2⟩ else 0
  have e : Rnd.bind (randomNodePair n) f = Rnd.bind (randint 0 (0 + (n : Int))) (fun i => Rnd.bind (drawOther n i) (fun j => f (i, j))) := by
    rw [zero_add]
    change Rnd.bind (Rnd.bind (randint 0 n) (fun i => Rnd.bind (drawOther n i) (fun j => Rnd.pure (i, j)))) f = _
    rw [rnd_assoc]
    congr 1
    funext i
    exact rnd_assoc (drawOther n i : Rnd Int) (fun j => Rnd.pure (i, j)) f
  have h1 : ∀ i < n, Prob M (Rnd.bind (drawOther n ((0 : Int) + (i : Nat))) (fun j => f ((0 : Int) + (i : Nat), j))) p
      ((∑ j ∈ (Finset.range n).erase i, R i j) / ((n : ℚ) - 1)) := by
    intro i hi
    simp only [zero_add]
    refine prob_other hM hn hd hi (f := fun j => f ((i : Int), j)) (r := R i) (fun j hj hji => ?_)
    have hc : i < n ∧ j < n ∧ i ≠ j := ⟨hi, hj, fun e => hji e.symm⟩
    have : R i j = r ⟨(⟨i, hc.1⟩, ⟨j, hc.2.1⟩), by simpa [Fin.ext_iff] using hc.2.2⟩ := dif_pos hc
    rw [this]
    exact h ⟨(⟨i, hc.1⟩, ⟨j, hc.2.1⟩), by simpa [Fin.ext_iff] using hc.2.2⟩
  have h2 := prob_randint hM (lo := 0) (m := n) (by omega) hd (f := fun i => Rnd.bind (drawOther n i) (fun j => f (i, j)))
    (r := fun i => (∑ j ∈ (Finset.range n).erase i, R i j) / ((n : ℚ) - 1)) h1
  rw [e]
  have e3 : (1 / (n : ℚ)) * ∑ k ∈ Finset.range n, (∑ j ∈ (Finset.range n).erase k, R k j) / ((n : ℚ) - 1) =
      (∑ q, r q) / (Fintype.card (Pair n) : ℚ) := by
    rw [card_pair, ← Finset.sum_div, one_div_mul_eq_div, div_div, mul_comm ((n : ℚ) - 1)]
    congr 1
    have hz : ∀ i ∈ Finset.range n, ∑ j ∈ (Finset.range n).erase i, R i j = ∑ j ∈ Finset.range n, R i j := by
      intro i hi
      rw [← Finset.add_sum_erase _ _ hi]
      have : R i i = 0 := dif_neg (by simp)
      rw [this, zero_add]
    rw [Finset.sum_congr rfl hz, ← Fin.sum_univ_eq_sum_range (fun i => ∑ j ∈ Finset.range n, R i j)]
    have hy : ∀ i : Fin n, ∑ j ∈ Finset.range n, R i j = ∑ j : Fin n, R i j := fun i => (Fin.sum_univ_eq_sum_range (fun j => R i j) n).symm
    simp only [hy]
    rw [← Fintype.sum_prod_type' (fun i j : Fin n => R i j)]
    rw [← Finset.sum_subset (Finset.subset_univ (Finset.univ.filter (fun q : Fin n × Fin n => q.1 ≠ q.2)))]
    · rw [Finset.sum_subtype (p := fun q : Fin n × Fin n => q.1 ≠ q.2) _ (by simp)]
      apply Finset.sum_congr rfl
      rintro ⟨⟨i, j⟩, hij⟩ _
      have hc : (i : Nat) < n ∧ (j : Nat) < n ∧ (i : Nat) ≠ j := ⟨i.2, j.2, by simpa [Fin.ext_iff] using hij⟩
      exact dif_pos hc
    · rintro ⟨i, j⟩ _ hij
      simp only [Finset.mem_filter, Finset.mem_univ, true_and, not_not] at hij
      exact dif_neg (by simp [hij])
  rw [← e3]
  exact h2

/-- a number of iterations whose body chooses uniformly among finitely many ways to go on -/
theorem prob_loop {Q : Type} [Fintype Q] {X : DiG Int → Prop} {body : DiG Int → Rnd (DiG Int)} {next : Q → DiG Int → DiG Int} (hM : 0 < M)
    (hX : ∀ q g, X g → X (next q g))
    (hb : ∀ g, X g → ∀ (f : DiG Int → Rnd (DiG Int)) (p : DiG Int → Prop) (r : Q → ℚ), (∀ q, Prob M (f (next q g)) p (r q)) →
      Prob M (Rnd.bind (body g) f) p ((∑ q, r q) / (Fintype.card Q : ℚ)))
    (p : DiG Int → Prop) (K : Nat) {g : DiG Int} (hg : X g) :
    Prob M (loop body K g) p (Walk.mean next K (fun g => if p g then 1 else 0) g) := by
  induction K generalizing g with
  | zero => exact prob_pure hM g p
  | succ K ih =>
    exact hb g hg (loop body K) p _ (fun q => ih (hX q g hg))

end Gen
end PyBBN
