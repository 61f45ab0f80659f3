import Mathlib.Data.Fintype.Prod
import Mathlib.Algebra.BigOperators.Ring.Finset
import Mathlib.Algebra.BigOperators.GroupWithZero.Action
import Mathlib.Algebra.Order.BigOperators.Group.Finset
import Mathlib.Algebra.Order.Field.Rat
import Mathlib.Data.Fintype.BigOperators
import Mathlib.Tactic.Ring
import Mathlib.Tactic.Linarith
import Mathlib.Tactic.LinearCombination
import Mathlib.Tactic.FieldSimp

/-!
Conditional distributions that make two connected nodes dependent, built node by node along an order of the graph.

Nodes are integers, all of them have values in one finite type. `l` lists nodes with children before parents.
-/

namespace PyBBN.Faith
open Finset

section
variable {α : Type} [Fintype α] [DecidableEq α]

/-- likelihood of a value: observed nodes have the value of `ζ` -/
def ev (Z : Int → Bool) (ζ : Int → α) (n : Int) (a : α) : ℚ := if Z n then (if a = ζ n then 1 else 0) else 1

/-- the sum over the values of the nodes of `l`, of products of conditional probabilities, evidence and `F` -/
def E (Z : Int → Bool) (f : Int → (Int → α) → ℚ) (ζ : Int → α) : List Int → ((Int → α) → ℚ) → (Int → α) → ℚ
  | [], F, σ => F σ
  | n :: l, F, σ => E Z f ζ l (fun σ => ∑ a, ev Z ζ n a * f n (Function.update σ n a) * F (Function.update σ n a)) σ

variable {Z : Int → Bool} {f f' : Int → (Int → α) → ℚ} {ζ : Int → α}

theorem E_congr : ∀ {l : List Int} (_ : ∀ m ∈ l, f m = f' m) (F : (Int → α) → ℚ) (σ : Int → α), E Z f ζ l F σ = E Z f' ζ l F σ
  | [], _, _, _ => rfl
  | n :: l, h, F, σ => by
      simp only [E]
      rw [h n List.mem_cons_self]
      exact E_congr (fun m hm => h m (List.mem_cons_of_mem _ hm)) _ _

theorem E_add : ∀ (l : List Int) (F G : (Int → α) → ℚ) (σ : Int → α),
    E Z f ζ l (fun σ => F σ + G σ) σ = E Z f ζ l F σ + E Z f ζ l G σ
  | [], _, _, _ => rfl
  | n :: l, F, G, σ => by
      simp only [E]
      rw [← E_add l]
      congr 1
      funext τ
      simp only [mul_add, Finset.sum_add_distrib]

theorem E_smul : ∀ (l : List Int) (c : ℚ) (F : (Int → α) → ℚ) (σ : Int → α),
    E Z f ζ l (fun σ => c * F σ) σ = c * E Z f ζ l F σ
  | [], _, _, _ => rfl
  | n :: l, c, F, σ => by
      simp only [E]
      rw [← E_smul l]
      congr 1
      funext τ
      rw [Finset.mul_sum]
      exact Finset.sum_congr rfl (fun a _ => by ring)

theorem E_sum {ι : Type} (s : Finset ι) (l : List Int) (F : ι → (Int → α) → ℚ) (σ : Int → α) :
    E Z f ζ l (fun σ => ∑ i ∈ s, F i σ) σ = ∑ i ∈ s, E Z f ζ l (F i) σ := by
  classical
  induction s using Finset.induction_on with
  | empty =>
    have := E_smul (Z := Z) (f := f) (ζ := ζ) l 0 (fun _ => 0) σ
    simpa using this
  | insert i s hi ih =>
    rw [Finset.sum_insert hi, ← ih, ← E_add]
    congr 1
    funext τ
    rw [Finset.sum_insert hi]

theorem E_nonneg (h0 : ∀ n σ, 0 ≤ f n σ) : ∀ (l : List Int) {F : (Int → α) → ℚ} (_ : ∀ σ, 0 ≤ F σ) (σ : Int → α), 0 ≤ E Z f ζ l F σ
  | [], _, hF, σ => hF σ
  | n :: l, F, hF, σ => by
      refine E_nonneg h0 l (fun τ => Finset.sum_nonneg fun a _ => mul_nonneg (mul_nonneg ?_ (h0 _ _)) (hF _)) σ
      unfold ev
      split
      · split <;> norm_num
      · norm_num

theorem E_mono (h0 : ∀ n σ, 0 ≤ f n σ) (l : List Int) {F G : (Int → α) → ℚ} (h : ∀ σ, F σ ≤ G σ) (σ : Int → α) :
    E Z f ζ l F σ ≤ E Z f ζ l G σ := by
  have h1 := E_nonneg (Z := Z) (ζ := ζ) h0 l (F := fun σ => G σ + (-1) * F σ) (fun σ => by have := h σ; linarith) σ
  rw [E_add, E_smul] at h1
  linarith

/-- nodes whose values weigh one together can be summed out -/
theorem E_one : ∀ {l : List Int} (_ : ∀ m ∈ l, ∀ σ : Int → α, ∑ a, ev Z ζ m a * f m (Function.update σ m a) = 1) (c : ℚ) (σ : Int → α),
    E Z f ζ l (fun _ => c) σ = c
  | [], _, _, _ => rfl
  | n :: l, h, c, σ => by
      simp only [E]
      have : (fun σ : Int → α => ∑ a, ev Z ζ n a * f n (Function.update σ n a) * c) = fun _ => c := by
        funext τ
        rw [← Finset.sum_mul, h n List.mem_cons_self, one_mul]
      rw [this]
      exact E_one (fun m hm => h m (List.mem_cons_of_mem _ hm)) c σ

/-- the node at the head of the list always has the value given by `v` -/
theorem E_fix {n : Int} {l : List Int} {v : (Int → α) → α} (hf : f n = fun σ => if σ n = v σ then 1 else 0)
    (hv : ∀ σ a, v (Function.update σ n a) = v σ) (he : ∀ σ, ev Z ζ n (v σ) = 1) (F : (Int → α) → ℚ) (σ : Int → α) :
    E Z f ζ (n :: l) F σ = E Z f ζ l (fun σ => F (Function.update σ n (v σ))) σ := by
  simp only [E]
  congr 1
  funext τ
  rw [Finset.sum_eq_single (v τ)]
  · rw [hf]
    simp [hv, he]
  · intro a _ ha
    rw [hf]
    simp [hv, ha]
  · intro h; exact absurd (Finset.mem_univ _) h

end

section
variable {α β : Type} [Fintype α] [DecidableEq α] [Fintype β] [DecidableEq β]

/-- two models side by side -/
def both (f : Int → (Int → α) → ℚ) (g : Int → (Int → β) → ℚ) : Int → (Int → α × β) → ℚ :=
  fun n σ => f n (fun i => (σ i).1) * g n (fun i => (σ i).2)

omit [Fintype α] [Fintype β] in
theorem ev_both (Z : Int → Bool) (ζ : Int → α) (ξ : Int → β) (n : Int) (a : α) (b : β) :
    ev Z (fun i => (ζ i, ξ i)) n (a, b) = ev Z ζ n a * ev Z ξ n b := by
  unfold ev
  cases Z n with
  | false => simp
  | true =>
    by_cases h1 : a = ζ n <;> by_cases h2 : b = ξ n <;> simp [h1, h2]

theorem E_both (Z : Int → Bool) (f : Int → (Int → α) → ℚ) (g : Int → (Int → β) → ℚ) (ζ : Int → α) (ξ : Int → β) :
    ∀ (l : List Int) (F : (Int → α) → ℚ) (G : (Int → β) → ℚ) (σ : Int → α × β),
    E Z (both f g) (fun i => (ζ i, ξ i)) l (fun σ => F (fun i => (σ i).1) * G (fun i => (σ i).2)) σ =
      E Z f ζ l F (fun i => (σ i).1) * E Z g ξ l G (fun i => (σ i).2)
  | [], _, _, _ => rfl
  | n :: l, F, G, σ => by
      simp only [E]
      rw [← E_both Z f g ζ ξ l]
      congr 1
      funext τ
      rw [Fintype.sum_prod_type, Finset.sum_mul_sum]
      refine Finset.sum_congr rfl fun a _ => Finset.sum_congr rfl fun b _ => ?_
      have h1 : (fun i => (Function.update τ n (a, b) i).1) = Function.update (fun i => (τ i).1) n a := by
        funext i; by_cases h : i = n
        · subst h; simp
        · simp [h]
      have h2 : (fun i => (Function.update τ n (a, b) i).2) = Function.update (fun i => (τ i).2) n b := by
        funext i; by_cases h : i = n
        · subst h; simp
        · simp [h]
      rw [ev_both]
      unfold both
      rw [h1, h2]
      ring

end

/-- conditional distributions of the nodes of a graph -/
structure Cpts (Par : Int → Int → Prop) {α : Type} [Fintype α] [DecidableEq α] (f : Int → (Int → α) → ℚ) : Prop where
  nonneg : ∀ n σ, 0 ≤ f n σ
  one : ∀ n σ, ∑ a, f n (Function.update σ n a) = 1
  loc : ∀ n σ σ', σ n = σ' n → (∀ p, Par p n → σ p = σ' p) → f n σ = f n σ'

/-- there are distributions, and values of `Z`, under which `x` and `y` are dependent -/
def Depend (Par : Int → Int → Prop) (Z : Int → Bool) (l : List Int) (x y : Int) : Prop :=
  ∃ (α : Type) (_ : Fintype α) (_ : DecidableEq α) (_ : Nontrivial α) (f : Int → (Int → α) → ℚ) (ζ : Int → α) (g h : α → ℚ),
    Cpts Par f ∧ (∀ a, 0 ≤ g a ∧ g a ≤ 1) ∧ (∀ a, 0 ≤ h a ∧ h a ≤ 1) ∧ ∀ σ,
      E Z f ζ l (fun σ => g (σ x) * h (σ y)) σ * E Z f ζ l (fun _ => 1) σ ≠ E Z f ζ l (fun σ => g (σ x)) σ * E Z f ζ l (fun σ => h (σ y)) σ

section
variable {Par : Int → Int → Prop} {α : Type} [Fintype α] [DecidableEq α]

theorem Cpts.update {f : Int → (Int → α) → ℚ} (hf : Cpts Par f) {n : Int} {k : (Int → α) → ℚ} (h0 : ∀ σ, 0 ≤ k σ)
    (h1 : ∀ σ, ∑ a, k (Function.update σ n a) = 1) (hl : ∀ σ σ', σ n = σ' n → (∀ p, Par p n → σ p = σ' p) → k σ = k σ') :
    Cpts Par (Function.update f n k) := by
  constructor
  · intro m σ
    by_cases h : m = n
    · subst h; simpa using h0 σ
    · simpa [h] using hf.nonneg m σ
  · intro m σ
    by_cases h : m = n
    · subst h; simpa using h1 σ
    · simpa [h] using hf.one m σ
  · intro m σ σ' e1 e2
    by_cases h : m = n
    · subst h; simpa using hl σ σ' e1 e2
    · simpa [h] using hf.loc m σ σ' e1 e2

/-- a node that has a value determined by others -/
theorem Cpts.fix {f : Int → (Int → α) → ℚ} (hf : Cpts Par f) {n : Int} {v : (Int → α) → α} (hv : ∀ σ a, v (Function.update σ n a) = v σ)
    (hl : ∀ σ σ', (∀ p, Par p n → σ p = σ' p) → v σ = v σ') :
    Cpts Par (Function.update f n (fun σ => if σ n = v σ then 1 else 0)) := by
  refine hf.update (fun σ => by split <;> norm_num) (fun σ => ?_) (fun σ σ' e1 e2 => by rw [e1, hl σ σ' e2])
  rw [Finset.sum_eq_single (v σ)]
  · simp [hv]
  · intro a _ ha; simp [hv, ha]
  · intro h; exact absurd (Finset.mem_univ _) h

theorem Cpts.both {β : Type} [Fintype β] [DecidableEq β] {f : Int → (Int → α) → ℚ} {g : Int → (Int → β) → ℚ} (hf : Cpts Par f)
    (hg : Cpts Par g) : Cpts Par (both f g) := by
  constructor
  · exact fun n σ => mul_nonneg (hf.nonneg _ _) (hg.nonneg _ _)
  · intro n σ
    unfold Faith.both
    have h1 : ∀ (a : α) (b : β), (fun i => (Function.update σ n (a, b) i).1) = Function.update (fun i => (σ i).1) n a := by
      intro a b
      funext i; by_cases h : i = n
      · subst h; simp
      · simp [h]
    have h2 : ∀ (a : α) (b : β), (fun i => (Function.update σ n (a, b) i).2) = Function.update (fun i => (σ i).2) n b := by
      intro a b
      funext i; by_cases h : i = n
      · subst h; simp
      · simp [h]
    rw [Fintype.sum_prod_type]
    simp only [h1, h2]
    rw [← Finset.sum_mul_sum, hf.one, hg.one, one_mul]
  · intro n σ σ' e1 e2
    unfold Faith.both
    rw [hf.loc n _ (fun i => (σ' i).1) (by simp [e1]) (fun p hp => by simp [e2 p hp]),
      hg.loc n _ (fun i => (σ' i).2) (by simp [e1]) (fun p hp => by simp [e2 p hp])]

end

section
variable {Par : Int → Int → Prop} {Z : Int → Bool} {l : List Int} {n x y : Int}

/-- a node is dependent on itself -/
theorem depend_self (hn : n ∉ l) (hnZ : Z n = false) : Depend Par Z (n :: l) n n := by
  have hc : Cpts (α := Bool) Par (fun m σ => if σ m = false then 1 else 0) := by
    refine ⟨fun m σ => by split <;> norm_num, fun m σ => ?_, fun m σ σ' e _ => by rw [e]⟩
    simp [Fintype.univ_bool]
  have hc' := hc.update (n := n) (k := fun _ => (1 / 2 : ℚ)) (fun _ => by norm_num) (fun σ => by simp) (fun _ _ _ _ => rfl)
  refine ⟨Bool, inferInstance, inferInstance, inferInstance, _, fun _ => false, (fun a => if a then 1 else 0), (fun a => if a then 1 else 0), hc',
    fun a => by cases a <;> norm_num, fun a => by cases a <;> norm_num, fun σ => ?_⟩
  have key : ∀ c : ℚ, E Z (Function.update (fun m (σ : Int → Bool) => if σ m = false then (1 : ℚ) else 0) n (fun _ => 1 / 2)) (fun _ => false) l
      (fun _ => c) σ = c := by
    intro c
    refine E_one ?_ c _
    intro m hm σ
    have : m ≠ n := fun e => hn (e ▸ hm)
    cases hz : Z m <;> simp [this, ev, hz, Fintype.univ_bool]
  simp only [E, Function.update_self, ev, hnZ, Fintype.sum_bool]
  norm_num [key]

/-- a further node leaves dependent nodes dependent -/
theorem Depend.cons (hn : n ∉ l) (hxn : x ≠ n) (hyn : y ≠ n) (h : Depend Par Z l x y) : Depend Par Z (n :: l) x y := by
  obtain ⟨α, i1, i2, i3, f, ζ, g, k, hc, hg, hk, hd⟩ := h
  refine ⟨α, i1, i2, i3, _, ζ, g, k, hc.fix (n := n) (v := fun _ => ζ n) (fun _ _ => rfl) (fun _ _ _ => rfl), hg, hk, fun σ => ?_⟩
  have he : ∀ τ : Int → α, ev Z ζ n ((fun _ => ζ n) τ) = 1 := by intro τ; unfold ev; split <;> simp
  have hl : ∀ m ∈ l, Function.update f n (fun σ => if σ n = ζ n then (1 : ℚ) else 0) m = f m :=
    fun m hm => Function.update_of_ne (fun e : m = n => hn (e ▸ hm)) _ _
  simp only [E_fix (v := fun _ => ζ n) (Function.update_self ..) (fun _ _ => rfl) he, E_congr hl, Function.update_of_ne hxn, Function.update_of_ne hyn]
  exact hd σ

/-- a child depends on what its parent depends on -/
theorem Depend.child {p : Int} (hn : n ∉ l) (hnZ : Z n = false) (hpn : p ≠ n) (hp : Par p n) (hyn : y ≠ n) (h : Depend Par Z l p y) :
    Depend Par Z (n :: l) n y := by
  obtain ⟨α, i1, i2, i3, f, ζ, g, k, hc, hg, hk, hd⟩ := h
  have hv : ∀ (σ : Int → α) (a : α), (fun σ => σ p) (Function.update σ n a) = (fun σ : Int → α => σ p) σ := by
    intro σ a; simp [Function.update_of_ne hpn]
  refine ⟨α, i1, i2, i3, _, ζ, g, k, hc.fix (n := n) (v := fun σ => σ p) hv (fun _ _ e => e p hp), hg, hk, fun σ => ?_⟩
  have he : ∀ τ : Int → α, ev Z ζ n ((fun σ => σ p) τ) = 1 := by intro τ; unfold ev; rw [hnZ]; simp
  have hl : ∀ m ∈ l, Function.update f n (fun σ => if σ n = σ p then (1 : ℚ) else 0) m = f m :=
    fun m hm => Function.update_of_ne (fun e : m = n => hn (e ▸ hm)) _ _
  simp only [E_fix (v := fun σ => σ p) (Function.update_self ..) hv he, E_congr hl, Function.update_self, Function.update_of_ne hyn]
  exact hd σ

theorem Depend.symm (h : Depend Par Z l x y) : Depend Par Z l y x := by
  obtain ⟨α, i1, i2, i3, f, ζ, g, k, hc, hg, hk, hd⟩ := h
  refine ⟨α, i1, i2, i3, f, ζ, k, g, hc, hk, hg, fun σ => ?_⟩
  have e : (fun σ : Int → α => k (σ y) * g (σ x)) = fun σ => g (σ x) * k (σ y) := by funext σ; ring
  rw [e, mul_comm (E Z f ζ l (fun σ => k (σ y)) σ)]
  exact hd σ

/-- the parents of an observed node: what depends on one is dependent on what depends on the other -/
theorem Depend.collider {p q : Int} (hn : n ∉ l) (hnZ : Z n = true) (hpn : p ≠ n) (hqn : q ≠ n) (hp : Par p n) (hq : Par q n)
    (hxn : x ≠ n) (hyn : y ≠ n) (h1 : Depend Par Z l x p) (h2 : Depend Par Z l q y) : Depend Par Z (n :: l) x y := by
  obtain ⟨α, i1, i2, i3, f, ζ, g, k, hc, hg, hk, hd⟩ := h1
  obtain ⟨β, j1, j2, j3, f', ξ, g', k', hc', hg', hk', hd'⟩ := h2
  let w : (Int → α × β) → ℚ := fun σ => (1 + k (σ p).1 * g' (σ q).2) / 2
  have hw0 : ∀ σ, 0 ≤ w σ := by
    intro σ
    have := mul_nonneg (hk (σ p).1).1 (hg' (σ q).2).1
    change 0 ≤ (1 + k (σ p).1 * g' (σ q).2) / 2
    linarith
  have hw1 : ∀ σ, w σ ≤ 1 := by
    intro σ
    have := mul_le_one₀ (hk (σ p).1).2 (hg' (σ q).2).1 (hg' (σ q).2).2
    change (1 + k (σ p).1 * g' (σ q).2) / 2 ≤ 1
    linarith
  have hwu : ∀ σ a, w (Function.update σ n a) = w σ := by
    intro σ a
    change (1 + k (Function.update σ n a p).1 * g' (Function.update σ n a q).2) / 2 = _
    rw [Function.update_of_ne hpn, Function.update_of_ne hqn]
  obtain ⟨c, hcne⟩ := exists_ne ((ζ n, ξ n) : α × β)
  let kn : (Int → α × β) → ℚ := fun σ => if σ n = (ζ n, ξ n) then w σ else if σ n = c then 1 - w σ else 0
  have hcp := (hc.both hc').update (n := n) (k := kn) (fun σ => by
      change 0 ≤ if σ n = (ζ n, ξ n) then w σ else if σ n = c then 1 - w σ else 0
      split
      · exact hw0 σ
      · split
        · have := hw1 σ; linarith
        · exact le_refl _) (fun σ => by
      change ∑ a, (if Function.update σ n a n = (ζ n, ξ n) then w (Function.update σ n a) else
        if Function.update σ n a n = c then 1 - w (Function.update σ n a) else 0) = 1
      simp only [Function.update_self, hwu]
      have : ∀ a : α × β, (if a = (ζ n, ξ n) then w σ else if a = c then 1 - w σ else 0) =
          (if a = (ζ n, ξ n) then w σ else 0) + (if a = c then 1 - w σ else 0) := by
        intro a
        by_cases h1 : a = (ζ n, ξ n)
        · rw [if_pos h1, if_pos h1, if_neg (fun e : a = c => hcne (e.symm.trans h1)), add_zero]
        · rw [if_neg h1, if_neg h1, zero_add]
      rw [Finset.sum_congr rfl (fun a _ => this a), Finset.sum_add_distrib]
      simp) (fun σ σ' e1 e2 => by
      have : w σ = w σ' := by
        change (1 + k (σ p).1 * g' (σ q).2) / 2 = (1 + k (σ' p).1 * g' (σ' q).2) / 2
        rw [e2 p hp, e2 q hq]
      change (if σ n = (ζ n, ξ n) then w σ else if σ n = c then 1 - w σ else 0) = _
      rw [e1, this])
  refine ⟨α × β, inferInstance, inferInstance, inferInstance, _, (fun i => (ζ i, ξ i)), (fun a => g a.1), (fun a => k' a.2), hcp,
    fun a => hg a.1, fun a => hk' a.2, fun ρ => ?_⟩
  let σ : Int → α := fun i => (ρ i).1
  let σ' : Int → β := fun i => (ρ i).2
  have key : ∀ (F : (Int → α) → ℚ) (G : (Int → β) → ℚ), (∀ σ a, F (Function.update σ n a) = F σ) → (∀ σ a, G (Function.update σ n a) = G σ) →
      E Z (Function.update (both f f') n kn) (fun i => (ζ i, ξ i)) (n :: l) (fun σ => F (fun i => (σ i).1) * G (fun i => (σ i).2)) ρ =
      (E Z f ζ l F σ * E Z f' ξ l G σ' + E Z f ζ l (fun σ => F σ * k (σ p)) σ * E Z f' ξ l (fun σ => g' (σ q) * G σ) σ') / 2 := by
    intro F G hF hG
    have h1 : ∀ m ∈ l, Function.update (both f f') n kn m = both f f' m := fun m hm => Function.update_of_ne (fun e : m = n => hn (e ▸ hm)) _ _
    rw [E, E_congr h1]
    have h2 : (fun σ : Int → α × β => ∑ a, ev Z (fun i => (ζ i, ξ i)) n a * Function.update (both f f') n kn n (Function.update σ n a) *
        (F (fun i => (Function.update σ n a i).1) * G (fun i => (Function.update σ n a i).2))) =
        fun σ => (1 / 2) * (F (fun i => (σ i).1) * G (fun i => (σ i).2) +
          (F (fun i => (σ i).1) * k (σ p).1) * (g' (σ q).2 * G (fun i => (σ i).2))) := by
      funext σ
      rw [Finset.sum_eq_single (ζ n, ξ n)]
      · have e1 : (fun i => (Function.update σ n (ζ n, ξ n) i).1) = Function.update (fun i => (σ i).1) n (ζ n) := by
          funext i; by_cases h : i = n
          · subst h; simp
          · simp [h]
        have e2 : (fun i => (Function.update σ n (ζ n, ξ n) i).2) = Function.update (fun i => (σ i).2) n (ξ n) := by
          funext i; by_cases h : i = n
          · subst h; simp
          · simp [h]
        rw [e1, e2, hF, hG, Function.update_self]
        have e3 : kn (Function.update σ n (ζ n, ξ n)) = w σ := by
          change (if Function.update σ n (ζ n, ξ n) n = (ζ n, ξ n) then w (Function.update σ n (ζ n, ξ n)) else _) = _
          rw [Function.update_self, if_pos rfl, hwu]
        rw [e3]
        have e4 : ev Z (fun i => (ζ i, ξ i)) n (ζ n, ξ n) = 1 := by unfold ev; rw [hnZ]; simp
        rw [e4]
        change 1 * ((1 + k (σ p).1 * g' (σ q).2) / 2) * _ = _
        ring
      · intro a _ ha
        have : ev Z (fun i => (ζ i, ξ i)) n a = 0 := by unfold ev; rw [hnZ]; simp [ha]
        rw [this, zero_mul, zero_mul]
      · intro h; exact absurd (Finset.mem_univ _) h
    rw [h2, E_smul, E_add, E_both Z f f' ζ ξ l F G, E_both Z f f' ζ ξ l (fun σ => F σ * k (σ p)) (fun σ => g' (σ q) * G σ)]
    ring
  have k1 := key (fun σ => g (σ x)) (fun σ => k' (σ y)) (fun σ a => by rw [Function.update_of_ne hxn]) (fun σ a => by rw [Function.update_of_ne hyn])
  have k2 := key (fun _ => 1) (fun _ => 1) (fun _ _ => rfl) (fun _ _ => rfl)
  have k3 := key (fun σ => g (σ x)) (fun _ => 1) (fun σ a => by rw [Function.update_of_ne hxn]) (fun _ _ => rfl)
  have k4 := key (fun _ => 1) (fun σ => k' (σ y)) (fun _ _ => rfl) (fun σ a => by rw [Function.update_of_ne hyn])
  simp only [mul_one, one_mul] at k1 k2 k3 k4
  rw [k1, k2, k3, k4]
  intro hcon
  have hz : (E Z f ζ l (fun σ => g (σ x) * k (σ p)) σ * E Z f ζ l (fun _ => 1) σ - E Z f ζ l (fun σ => g (σ x)) σ * E Z f ζ l (fun σ => k (σ p)) σ) *
      (E Z f' ξ l (fun σ => g' (σ q) * k' (σ y)) σ' * E Z f' ξ l (fun _ => 1) σ' -
        E Z f' ξ l (fun σ => g' (σ q)) σ' * E Z f' ξ l (fun σ => k' (σ y)) σ') = 0 := by
    linear_combination 4 * hcon
  rcases mul_eq_zero.1 hz with h | h
  · exact hd σ (sub_eq_zero.1 h)
  · exact hd' σ' (sub_eq_zero.1 h)

end

/-! ## Connection -/

/-- `x` is connected with `v` inside `l` by a walk that goes through nodes outside `Z`, except that it may go down to a node of `Z` and up
again; `up` tells whether the walk may leave `v` as it may leave its start -/
inductive Ball (Par : Int → Int → Prop) (Z : Int → Bool) (l : List Int) (x : Int) : Int → Bool → Prop
  | start : x ∈ l → Ball Par Z l x x true
  | upPar {v p : Int} : Ball Par Z l x v true → Z v = false → Par p v → p ∈ l → Ball Par Z l x p true
  | toChild {v c : Int} {d : Bool} : Ball Par Z l x v d → Z v = false → Par v c → c ∈ l → Ball Par Z l x c false
  | downPar {v p : Int} : Ball Par Z l x v false → Z v = true → Par p v → p ∈ l → Ball Par Z l x p true

section
variable {Par : Int → Int → Prop} {Z : Int → Bool} {l : List Int} {n x v : Int} {d : Bool}

theorem Ball.mem (h : Ball Par Z l x v d) : v ∈ l := by cases h <;> assumption

theorem Ball.mem_start (h : Ball Par Z l x v d) : x ∈ l := by
  induction h with
  | start h => exact h
  | upPar _ _ _ _ ih => exact ih
  | toChild _ _ _ _ ih => exact ih
  | downPar _ _ _ _ ih => exact ih

/-- a walk that starts in `Z` goes nowhere -/
theorem Ball.stuck (h : Ball Par Z l x v d) (hx : Z x = true) : v = x ∧ d = true := by
  induction h with
  | start h => exact ⟨rfl, rfl⟩
  | upPar _ h2 _ _ ih => rw [ih.1, hx] at h2; cases h2
  | toChild _ h2 _ _ ih => rw [ih.1, hx] at h2; cases h2
  | downPar _ _ _ _ ih => exact absurd ih.2 (by simp)

/-- walks in a list whose head has no child -/
theorem Ball.sink (hnn : ¬ Par n n) (hs : ∀ m ∈ l, ¬ Par n m) (hxn : x ≠ n) (h : Ball Par Z (n :: l) x v d) :
    (v ∈ l ∧ (Ball Par Z l x v d ∨ Z n = true ∧ ∃ p q d', Par p n ∧ Par q n ∧ Z p = false ∧ Ball Par Z l x p d' ∧ Ball Par Z l q v d)) ∨
      (v = n ∧ d = false ∧ ∃ p d', Par p n ∧ Z p = false ∧ Ball Par Z l x p d') := by
  have hch : ∀ c ∈ n :: l, ¬ Par n c := by
    intro c hc
    rcases List.mem_cons.1 hc with rfl | hc
    · exact hnn
    · exact hs c hc
  have hpar : ∀ p ∈ n :: l, Par p n → p ∈ l := by
    intro p hp h
    rcases List.mem_cons.1 hp with rfl | hp
    · exact absurd h hnn
    · exact hp
  induction h with
  | start h =>
    rcases List.mem_cons.1 h with h | h
    · exact absurd h hxn
    · exact .inl ⟨h, .inl (.start h)⟩
  | @upPar v p _ h2 h3 h4 ih =>
    rcases ih with ⟨a, b⟩ | ⟨_, b, _⟩
    · have hpl : p ∈ l := by
        rcases List.mem_cons.1 h4 with rfl | h4
        · exact absurd h3 (hs v a)
        · exact h4
      refine .inl ⟨hpl, ?_⟩
      rcases b with b | ⟨hz, r, q, d', c1, c2, c3, c4, c5⟩
      · exact .inl (b.upPar h2 h3 hpl)
      · exact .inr ⟨hz, r, q, d', c1, c2, c3, c4, c5.upPar h2 h3 hpl⟩
    · exact absurd b (by simp)
  | @toChild v c d _ h2 h3 h4 ih =>
    rcases ih with ⟨a, b⟩ | ⟨rfl, _, _⟩
    · rcases List.mem_cons.1 h4 with rfl | hcl
      · refine .inr ⟨rfl, rfl, ?_⟩
        rcases b with b | ⟨hz, r, q, d', c1, c2, c3, c4, c5⟩
        · exact ⟨v, d, h3, h2, b⟩
        · exact ⟨r, d', c1, c3, c4⟩
      · refine .inl ⟨hcl, ?_⟩
        rcases b with b | ⟨hz, r, q, d', c1, c2, c3, c4, c5⟩
        · exact .inl (b.toChild h2 h3 hcl)
        · exact .inr ⟨hz, r, q, d', c1, c2, c3, c4, c5.toChild h2 h3 hcl⟩
    · exact absurd h3 (hch c h4)
  | @downPar v p _ h2 h3 h4 ih =>
    rcases ih with ⟨a, b⟩ | ⟨rfl, _, r, d', c1, c3, c4⟩
    · have hpl : p ∈ l := by
        rcases List.mem_cons.1 h4 with rfl | h4
        · exact absurd h3 (hs v a)
        · exact h4
      refine .inl ⟨hpl, ?_⟩
      rcases b with b | ⟨hz, r, q, d', c1, c2, c3, c4, c5⟩
      · exact .inl (b.downPar h2 h3 hpl)
      · exact .inr ⟨hz, r, q, d', c1, c2, c3, c4, c5.downPar h2 h3 hpl⟩
    · have hpl := hpar p h4 h3
      exact .inl ⟨hpl, .inr ⟨h2, r, p, d', c1, h3, c3, c4, .start hpl⟩⟩

/-- walks from a node without children outside `Z` -/
theorem Ball.sink_start (hnn : ¬ Par n n) (hs : ∀ m ∈ l, ¬ Par n m) (hnZ : Z n = false) (h : Ball Par Z (n :: l) n v d) :
    v = n ∨ ∃ p, p ∈ l ∧ Par p n ∧ Ball Par Z l p v d := by
  have hch : ∀ c ∈ n :: l, ¬ Par n c := by
    intro c hc
    rcases List.mem_cons.1 hc with rfl | hc
    · exact hnn
    · exact hs c hc
  have hin : ∀ {c v : Int}, v ∈ l → Par c v → c ∈ n :: l → c ∈ l := by
    intro c v hv hcv hc
    rcases List.mem_cons.1 hc with rfl | hc
    · exact absurd hcv (hs v hv)
    · exact hc
  induction h with
  | start h => exact .inl rfl
  | @upPar v p _ h2 h3 h4 ih =>
    rcases ih with rfl | ⟨q, c1, c2, c3⟩
    · rcases List.mem_cons.1 h4 with rfl | h4
      · exact .inl rfl
      · exact .inr ⟨p, h4, h3, .start h4⟩
    · have hpl := hin c3.mem h3 h4
      exact .inr ⟨q, c1, c2, c3.upPar h2 h3 hpl⟩
  | @toChild v c d _ h2 h3 h4 ih =>
    rcases ih with rfl | ⟨q, c1, c2, c3⟩
    · exact absurd h3 (hch c h4)
    · rcases List.mem_cons.1 h4 with rfl | hcl
      · exact .inl rfl
      · exact .inr ⟨q, c1, c2, c3.toChild h2 h3 hcl⟩
  | @downPar v p _ h2 h3 h4 ih =>
    rcases ih with rfl | ⟨q, c1, c2, c3⟩
    · rw [hnZ] at h2; cases h2
    · exact .inr ⟨q, c1, c2, c3.downPar h2 h3 (hin c3.mem h3 h4)⟩

/-- **connected nodes can be dependent** -/
theorem depend_of_ball : ∀ {l : List Int}, l.Nodup → (∀ n, ¬ Par n n) → l.Pairwise (fun n m => ¬ Par n m) →
    ∀ {x y : Int} {d : Bool}, Z x = false → Z y = false → Ball Par Z l x y d → Depend Par Z l x y
  | [], _, _, _, x, y, d, _, _, h => absurd h.mem (by simp)
  | n :: l, hnd, hirr, hs, x, y, d, hx, hy, h => by
      rw [List.nodup_cons] at hnd
      rw [List.pairwise_cons] at hs
      have IH : ∀ {x y : Int} {d : Bool}, Z x = false → Z y = false → Ball Par Z l x y d → Depend Par Z l x y :=
        depend_of_ball hnd.2 hirr hs.2
      have hmem : ∀ {i : Int}, i ∈ l → i ≠ n := fun hi e => hnd.1 (e ▸ hi)
      have hstart : ∀ {q v : Int} {d : Bool}, Z v = false → Ball Par Z l q v d → Z q = false := by
        intro q v d hv hb
        cases hq : Z q with
        | false => rfl
        | true => rw [(hb.stuck hq).1, hq] at hv; cases hv
      by_cases hxn : x = n
      · subst hxn
        rcases h.sink_start (hirr x) hs.1 hx with rfl | ⟨p, c1, c2, c3⟩
        · exact depend_self hnd.1 hx
        · exact (IH (hstart hy c3) hy c3).child hnd.1 hx (hmem c1) c2 (hmem c3.mem)
      · rcases h.sink (hirr n) hs.1 hxn with ⟨a, b | ⟨hz, p, q, d', c1, c2, c3, c4, c5⟩⟩ | ⟨rfl, _, p, d', c1, c2, c3⟩
        · exact (IH hx hy b).cons hnd.1 hxn (hmem a)
        · exact Depend.collider hnd.1 hz (hmem c4.mem) (hmem c5.mem_start) c1 c2 hxn (hmem a) (IH hx c3 c4) (IH (hstart hy c5) hy c5)
        · exact ((IH hx c2 c3).symm.child hnd.1 hy (hmem c3.mem) c1 hxn).symm

end

/-! ## Single values -/

/-- single values of two dependent nodes are dependent -/
theorem Depend.values {Par : Int → Int → Prop} {Z : Int → Bool} {l : List Int} {x y : Int} (h : Depend Par Z l x y) :
    ∃ (α : Type) (_ : Fintype α) (_ : DecidableEq α) (_ : Nontrivial α) (f : Int → (Int → α) → ℚ) (ζ : Int → α), Cpts Par f ∧
      ∀ σ, ∃ a b : α, E Z f ζ l (fun _ => 1) σ ≠ 0 ∧ E Z f ζ l (fun σ => if σ y = b then 1 else 0) σ ≠ 0 ∧
        E Z f ζ l (fun σ => if σ x = a then 1 else 0) σ / E Z f ζ l (fun _ => 1) σ ≠
          E Z f ζ l (fun σ => (if σ x = a then 1 else 0) * (if σ y = b then 1 else 0)) σ / E Z f ζ l (fun σ => if σ y = b then 1 else 0) σ := by
  obtain ⟨α, i1, i2, i3, f, ζ, g, k, hc, hg, hk, hd⟩ := h
  refine ⟨α, i1, i2, i3, f, ζ, hc, fun σ => ?_⟩
  let P : α → α → ℚ := fun a b => E Z f ζ l (fun σ => (if σ x = a then 1 else 0) * (if σ y = b then 1 else 0)) σ
  let A : α → ℚ := fun a => E Z f ζ l (fun σ => if σ x = a then 1 else 0) σ
  let B : α → ℚ := fun b => E Z f ζ l (fun σ => if σ y = b then 1 else 0) σ
  let T : ℚ := E Z f ζ l (fun _ => 1) σ
  have key : ∃ a b, P a b * T ≠ A a * B b := by
    by_contra hno
    push Not at hno
    refine hd σ ?_
    have e1 : E Z f ζ l (fun σ => g (σ x)) σ = ∑ a, g a * A a := by
      have : (fun σ : Int → α => g (σ x)) = fun σ => ∑ a, g a * (if σ x = a then 1 else 0) := by
        funext τ
        simp
      rw [this, E_sum]
      exact Finset.sum_congr rfl fun a _ => E_smul ..
    have e2 : E Z f ζ l (fun σ => k (σ y)) σ = ∑ b, k b * B b := by
      have : (fun σ : Int → α => k (σ y)) = fun σ => ∑ b, k b * (if σ y = b then 1 else 0) := by
        funext τ
        simp
      rw [this, E_sum]
      exact Finset.sum_congr rfl fun a _ => E_smul ..
    have e3 : E Z f ζ l (fun σ => g (σ x) * k (σ y)) σ = ∑ a, ∑ b, (g a * k b) * P a b := by
      have : (fun σ : Int → α => g (σ x) * k (σ y)) =
          fun σ => ∑ a, ∑ b, (g a * k b) * ((if σ x = a then 1 else 0) * (if σ y = b then 1 else 0)) := by
        funext τ
        simp
      rw [this, E_sum]
      refine Finset.sum_congr rfl fun a _ => ?_
      rw [E_sum]
      exact Finset.sum_congr rfl fun b _ => E_smul ..
    rw [e1, e2, e3, Finset.sum_mul_sum, Finset.sum_mul]
    refine Finset.sum_congr rfl fun a _ => ?_
    rw [Finset.sum_mul]
    refine Finset.sum_congr rfl fun b _ => ?_
    have := hno a b
    change (g a * k b) * P a b * T = _
    linear_combination (g a * k b) * this
  obtain ⟨a, b, hab⟩ := key
  have hA0 : 0 ≤ A a := E_nonneg hc.nonneg l (fun σ => by split <;> norm_num) σ
  have hB0 : 0 ≤ B b := E_nonneg hc.nonneg l (fun σ => by split <;> norm_num) σ
  have hP0 : 0 ≤ P a b := E_nonneg hc.nonneg l (fun σ => mul_nonneg (by split <;> norm_num) (by split <;> norm_num)) σ
  have hPB : P a b ≤ B b := E_mono hc.nonneg l (fun σ => by split <;> split <;> norm_num) σ
  have hBT : B b ≤ T := E_mono hc.nonneg l (fun σ => by split <;> norm_num) σ
  have hBne : B b ≠ 0 := by
    intro h0
    have : P a b = 0 := by linarith
    rw [h0, this] at hab
    simp at hab
  have hTne : T ≠ 0 := by
    intro h0
    have := lt_of_le_of_ne hB0 (Ne.symm hBne)
    linarith
  refine ⟨a, b, hTne, hBne, ?_⟩
  change A a / T ≠ P a b / B b
  intro hcon
  rw [div_eq_div_iff hTne hBne] at hcon
  exact hab hcon.symm

end PyBBN.Faith
