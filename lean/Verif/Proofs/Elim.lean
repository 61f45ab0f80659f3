import Verif.Spec.Joint
import Mathlib.Algebra.BigOperators.Ring.List
import Mathlib.Algebra.Order.BigOperators.Group.List
import Mathlib.Tactic.Ring

/-! Algebra of summing out variables. -/

namespace PyBBN

/-- sum out one variable -/
def sumv (D : Int → List Str) (i : Int) (f : Asg → ℚ) : Asg → ℚ :=
  fun σ => ((D i).map (fun x => f (Function.update σ i x))).sum

/-- sum out a list of variables -/
def elim (D : Int → List Str) (l : List Int) (f : Asg → ℚ) : Asg → ℚ := l.foldr (sumv D) f

/-- `f` depends only on the coordinates in `S` -/
def Dep (S : Int → Prop) (f : Asg → ℚ) : Prop := ∀ σ τ : Asg, (∀ i, S i → σ i = τ i) → f σ = f τ

variable {D : Int → List Str}

theorem Dep.mono {S T : Int → Prop} {f : Asg → ℚ} (h : Dep S f) (hST : ∀ i, S i → T i) : Dep T f :=
  fun σ τ hh => h σ τ (fun i hi => hh i (hST i hi))

theorem Dep.mul {S : Int → Prop} {f g : Asg → ℚ} (hf : Dep S f) (hg : Dep S g) : Dep S (fun σ => f σ * g σ) :=
  fun σ τ h => by simp only [hf σ τ h, hg σ τ h]

theorem Dep.div {S : Int → Prop} {f g : Asg → ℚ} (hf : Dep S f) (hg : Dep S g) : Dep S (fun σ => f σ / g σ) :=
  fun σ τ h => by simp only [hf σ τ h, hg σ τ h]

theorem Dep.const {S : Int → Prop} (c : ℚ) : Dep S (fun _ => c) := fun _ _ _ => rfl

theorem Dep.update {S : Int → Prop} {f : Asg → ℚ} (h : Dep S f) {i : Int} (hi : ¬ S i) (σ : Asg) (x : Str) :
    f (Function.update σ i x) = f σ := by
  apply h
  intro j hj
  have : j ≠ i := fun e => hi (e ▸ hj)
  simp [this]

theorem Dep.sumv {S : Int → Prop} {f : Asg → ℚ} (h : Dep S f) (i : Int) :
    Dep (fun j => S j ∧ j ≠ i) (sumv D i f) := by
  intro σ τ hh
  unfold PyBBN.sumv
  congr 1
  apply List.map_congr_left
  intro x _
  apply h
  intro j hj
  by_cases hji : j = i
  · subst hji; simp
  · simp [hji, hh j ⟨hj, hji⟩]

theorem Dep.elim {S : Int → Prop} {f : Asg → ℚ} (h : Dep S f) (l : List Int) :
    Dep (fun j => S j ∧ j ∉ l) (elim D l f) := by
  induction l with
  | nil => exact h.mono (fun i hi => ⟨hi, by simp⟩)
  | cons i l ih =>
    exact (ih.sumv i).mono (fun j hj => ⟨hj.1.1, by simp [hj.2, hj.1.2]⟩)

theorem elim_nil (f : Asg → ℚ) : elim D [] f = f := rfl

theorem elim_cons (i : Int) (l : List Int) (f : Asg → ℚ) : elim D (i :: l) f = sumv D i (elim D l f) := rfl

theorem elim_append (l m : List Int) (f : Asg → ℚ) : elim D (l ++ m) f = elim D l (elim D m f) := by
  simp [elim, List.foldr_append]

theorem list_sum_comm {α β : Type} (l : List α) (m : List β) (f : α → β → ℚ) :
    (l.map (fun a => (m.map (f a)).sum)).sum = (m.map (fun b => (l.map (fun a => f a b)).sum)).sum := by
  induction l with
  | nil => simp
  | cons a l ih => simp [ih, List.sum_map_add]

theorem sumv_comm {i j : Int} (hij : i ≠ j) (f : Asg → ℚ) :
    sumv D i (sumv D j f) = sumv D j (sumv D i f) := by
  funext σ
  unfold sumv
  rw [list_sum_comm]
  congr 1
  apply List.map_congr_left
  intro y _
  congr 1
  apply List.map_congr_left
  intro x _
  rw [Function.update_comm hij.symm]

theorem elim_perm {l m : List Int} (h : l.Perm m) (f : Asg → ℚ) : elim D l f = elim D m f := by
  induction h with
  | nil => rfl
  | cons x _ ih => simp only [elim_cons, ih]
  | swap x y l =>
    simp only [elim_cons]
    by_cases hxy : x = y
    · subst hxy; rfl
    · exact sumv_comm (fun e => hxy e.symm) _
  | trans _ _ ih1 ih2 => exact ih1.trans ih2

theorem elim_congr_mem {l m : List Int} (hl : l.Nodup) (hm : m.Nodup) (h : ∀ x, x ∈ l ↔ x ∈ m)
    (f : Asg → ℚ) : elim D l f = elim D m f :=
  elim_perm ((List.perm_ext_iff_of_nodup hl hm).2 h) f

theorem sumv_mul_left {S : Int → Prop} {f : Asg → ℚ} (hf : Dep S f) {i : Int} (hi : ¬ S i) (g : Asg → ℚ) :
    sumv D i (fun σ => f σ * g σ) = fun σ => f σ * sumv D i g σ := by
  funext σ
  unfold sumv
  rw [← List.sum_map_mul_left]
  congr 1
  apply List.map_congr_left
  intro x _
  show f _ * g _ = _
  rw [hf.update hi]

theorem elim_mul_left {S : Int → Prop} {f : Asg → ℚ} (hf : Dep S f) {l : List Int} (hl : ∀ i ∈ l, ¬ S i)
    (g : Asg → ℚ) : elim D l (fun σ => f σ * g σ) = fun σ => f σ * elim D l g σ := by
  induction l with
  | nil => rfl
  | cons i l ih =>
    rw [elim_cons, ih (fun j hj => hl j (List.mem_cons_of_mem _ hj)),
      sumv_mul_left hf (hl i List.mem_cons_self)]
    rfl

theorem elim_mul_right {S : Int → Prop} {f : Asg → ℚ} (hf : Dep S f) {l : List Int} (hl : ∀ i ∈ l, ¬ S i)
    (g : Asg → ℚ) : elim D l (fun σ => g σ * f σ) = fun σ => elim D l g σ * f σ := by
  have : (fun σ => g σ * f σ) = fun σ => f σ * g σ := by funext σ; ring
  rw [this, elim_mul_left hf hl]
  funext σ; ring

theorem sumv_nonneg {f : Asg → ℚ} (h : ∀ σ, 0 ≤ f σ) (i : Int) (σ : Asg) : 0 ≤ sumv D i f σ := by
  apply List.sum_nonneg
  intro x hx
  obtain ⟨y, _, rfl⟩ := List.mem_map.1 hx
  exact h _

theorem elim_nonneg {f : Asg → ℚ} (h : ∀ σ, 0 ≤ f σ) (l : List Int) : ∀ σ, 0 ≤ elim D l f σ := by
  induction l with
  | nil => exact h
  | cons i l ih => exact sumv_nonneg ih i

/-- a vanishing sum of non-negative terms has vanishing terms -/
theorem eq_zero_of_elim_eq_zero {f : Asg → ℚ} (h : ∀ σ, 0 ≤ f σ) :
    ∀ (l : List Int) (σ : Asg), (∀ i ∈ l, σ i ∈ D i) → elim D l f σ = 0 → f σ = 0
  | [], _, _, h0 => h0
  | i :: l, σ, hd, h0 => by
      rw [elim_cons] at h0
      unfold sumv at h0
      have hall : ∀ x ∈ (D i).map (fun x => elim D l f (Function.update σ i x)), 0 ≤ x := by
        intro x hx
        obtain ⟨y, _, rfl⟩ := List.mem_map.1 hx
        exact elim_nonneg h l _
      have hle := List.single_le_sum hall
      have hz : elim D l f (Function.update σ i (σ i)) = 0 := by
        apply le_antisymm
        · rw [← h0]
          exact hle _ (List.mem_map.2 ⟨σ i, hd i List.mem_cons_self, rfl⟩)
        · exact elim_nonneg h l _
      rw [Function.update_eq_self] at hz
      exact eq_zero_of_elim_eq_zero h l σ (fun j hj => hd j (List.mem_cons_of_mem _ hj)) hz

theorem elim_congr {f g : Asg → ℚ} (h : ∀ σ, f σ = g σ) (l : List Int) : elim D l f = elim D l g := by
  have : f = g := funext h
  rw [this]

/-- functions that agree on the domain of the remaining coordinates have equal sums -/
theorem elim_congr_dom {f g : Asg → ℚ} (S : Int → Prop) :
    ∀ (l : List Int), (∀ σ : Asg, (∀ i, S i ∨ i ∈ l → σ i ∈ D i) → f σ = g σ) →
      ∀ σ : Asg, (∀ i, S i → i ∉ l → σ i ∈ D i) → elim D l f σ = elim D l g σ
  | [], h, σ, hs => h σ (fun i hi => by
      rcases hi with hi | hi
      · exact hs i hi (by simp)
      · simp at hi)
  | j :: l, h, σ, hs => by
      rw [elim_cons, elim_cons]
      unfold sumv
      congr 1
      apply List.map_congr_left
      intro x hx
      refine elim_congr_dom (fun i => S i ∨ i = j) l ?_ _ ?_
      · intro τ hτ
        apply h
        intro i hi
        apply hτ
        rcases hi with hi | hi
        · exact Or.inl (Or.inl hi)
        · rcases List.mem_cons.1 hi with rfl | hi
          · exact Or.inl (Or.inr rfl)
          · exact Or.inr hi
      · intro i hi hil
        by_cases hij : i = j
        · subst hij; simpa using hx
        · rcases hi with hi | hi
          · simp only [Function.update_of_ne hij]
            exact hs i hi (by simp [hij, hil])
          · exact absurd hi hij

/-! ### picking out one assignment -/

/-- indicator of agreeing with `σ0` on `l` -/
def ind (l : List Int) (σ0 : Asg) : Asg → ℚ := fun σ => if ∀ i ∈ l, σ i = σ0 i then 1 else 0

theorem ind_dep (l : List Int) (σ0 : Asg) : Dep (fun i => i ∈ l) (ind l σ0) := by
  intro σ τ h
  unfold ind
  have : (∀ i ∈ l, σ i = σ0 i) ↔ (∀ i ∈ l, τ i = σ0 i) := by
    constructor
    · intro h1 i hi; rw [← h i hi]; exact h1 i hi
    · intro h1 i hi; rw [h i hi]; exact h1 i hi
  simp [this]

theorem sum_single {l : List Str} (hl : l.Nodup) {a : Str} (ha : a ∈ l) (F : Str → ℚ)
    (h : ∀ x ∈ l, x ≠ a → F x = 0) : (l.map F).sum = F a := by
  induction l with
  | nil => simp at ha
  | cons b l ih =>
    rw [List.nodup_cons] at hl
    rw [List.map_cons, List.sum_cons]
    rcases List.mem_cons.1 ha with rfl | ha'
    · have : (l.map F).sum = 0 := by
        apply List.sum_eq_zero
        intro x hx
        obtain ⟨y, hy, rfl⟩ := List.mem_map.1 hx
        exact h y (List.mem_cons_of_mem _ hy) (fun e => hl.1 (e ▸ hy))
      rw [this, add_zero]
    · have hb : b ≠ a := fun e => hl.1 (e ▸ ha')
      rw [h b List.mem_cons_self hb, zero_add]
      exact ih hl.2 ha' (fun x hx => h x (List.mem_cons_of_mem _ hx))

/-- summing out the coordinates on which agreement with `σ0` is required evaluates at `σ0` -/
theorem elim_ind {S : Int → Prop} {h : Asg → ℚ} (σ0 : Asg) (hD : ∀ i, (D i).Nodup) :
    ∀ (l : List Int), l.Nodup → (∀ i ∈ l, σ0 i ∈ D i) → ∀ σ : Asg, Dep S h →
      (∀ i, S i → i ∉ l → σ i = σ0 i) → elim D l (fun σ => ind l σ0 σ * h σ) σ = h σ0 := by
  intro l
  induction l generalizing S with
  | nil =>
    intro _ _ σ hh hs
    simp only [elim_nil, ind]
    simp
    exact hh σ σ0 (fun i hi => hs i hi (by simp))
  | cons j l ih =>
    intro hn hd σ hh hs
    rw [List.nodup_cons] at hn
    rw [elim_cons]
    have hrw : (fun σ => ind (j :: l) σ0 σ * h σ) =
        fun σ => ind [j] σ0 σ * (ind l σ0 σ * h σ) := by
      funext σ
      unfold ind
      by_cases h1 : σ j = σ0 j
      · by_cases h2 : ∀ i ∈ l, σ i = σ0 i
        · simp [h1]
        · simp [h1]
      · simp [h1]
    rw [hrw, elim_mul_left (ind_dep [j] σ0) (by
      intro i hi; simp; rintro rfl; exact hn.1 hi)]
    unfold sumv
    rw [sum_single (hD j) (hd j List.mem_cons_self)]
    · have : ind [j] σ0 (Function.update σ j (σ0 j)) = 1 := by simp [ind]
      show ind [j] σ0 _ * _ = _
      rw [this, one_mul]
      refine ih hn.2 (fun i hi => hd i (List.mem_cons_of_mem _ hi)) _ hh ?_
      intro i hi hil
      by_cases hij : i = j
      · subst hij; simp
      · simp [hij]
        exact hs i hi (by simp [hij, hil])
    · intro x _ hx
      have : ind [j] σ0 (Function.update σ j x) = 0 := by simp [ind, hx]
      show ind [j] σ0 _ * _ = _
      rw [this, zero_mul]

end PyBBN
