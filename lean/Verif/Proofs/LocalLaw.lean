import Verif.Proofs.FamMin
import Verif.Proofs.Exact
import Verif.Proofs.Apply
import Verif.Spec.Local

namespace PyBBN
open InferenceController

theorem elim_const_pos {D : Int → List Str} : ∀ (l : List Int), (∀ i ∈ l, D i ≠ []) →
    ∃ K : ℚ, K ≠ 0 ∧ ∀ σ, elim D l (fun _ => (1 : ℚ)) σ = K
  | [], _ => ⟨1, one_ne_zero, fun _ => rfl⟩
  | i :: l, h => by
      obtain ⟨K, hK, e⟩ := elim_const_pos l (fun j hj => h j (List.mem_cons_of_mem _ hj))
      refine ⟨((D i).length : ℚ) * K, mul_ne_zero ?_ hK, ?_⟩
      · rw [Nat.cast_ne_zero]
        intro e'
        exact h i List.mem_cons_self (List.length_eq_zero_iff.1 e')
      · intro σ
        rw [elim_cons]
        unfold sumv
        simp only [e]
        rw [List.map_const', List.sum_replicate, nsmul_eq_mul]

section
variable {vars : List Variable}

/-- normalizing the marginal of a weight that depends only on the variables in `l` gives its exact marginal: the other variables
contribute a constant factor -/
theorem normalize_local (hn : (vids vars).Nodup) (hvals : ∀ v ∈ vars, v.values.Nodup) (hne : ∀ v ∈ vars, v.values ≠ [])
    {W : Asg → ℚ} {l : List Int} (hW : Dep (fun i => i ∈ l) W) (hnn : ∀ σ, 0 ≤ W σ) (hl : l.Nodup) (hsub : ∀ i ∈ l, i ∈ vids vars)
    {v : Variable} (hv : v ∈ vars) (hvl : v.id ∈ l) :
    PotentialUtil.normalize (tab [v] (elim (domOf vars) (l.filter (fun i => decide (i ∉ [v.id]))) W)) = .ok (exactAnswer vars W v) := by
  have hDom := domOf_ok hn
  have hDv : domOf vars v.id = v.values := hDom v hv
  have hD1 : DomOk (domOf vars) [v] := hDom.sub (by intro u hu; simp at hu; subst hu; exact hv)
  set rest := (vids vars).filter (fun i => decide (i ∉ l)) with hrest
  obtain ⟨K, hK, hKe⟩ := elim_const_pos (D := domOf vars) rest (by
    intro i hi
    obtain ⟨u, hu, rfl⟩ := List.mem_map.1 (List.mem_filter.1 hi).1
    rw [hDom u hu]
    exact hne u hu)
  have hrl : ∀ i ∈ rest, i ∉ l := fun i hi => by simpa using (List.mem_filter.1 hi).2
  have hrestn : rest.Nodup := hn.filter _
  have hsum : ∀ (m k : List Int), m.Nodup → k.Nodup → (∀ i ∈ m, i ∈ l) → (∀ i, i ∈ k ↔ i ∈ m ∨ i ∈ rest) → ∀ σ,
      elim (domOf vars) k W σ = elim (domOf vars) m W σ * K := by
    intro m k hm hk hml hmem σ
    have hdisj : (m ++ rest).Nodup := List.Nodup.append hm hrestn (fun i hi hi' => hrl i hi' (hml i hi))
    rw [elim_congr_mem hk hdisj (by intro i; rw [List.mem_append]; exact hmem i), elim_append]
    have e1 : elim (domOf vars) rest W = fun σ => W σ * K := by
      have := elim_mul_left (D := domOf vars) hW hrl (fun _ => (1 : ℚ))
      simp only [mul_one] at this
      rw [this]
      funext τ
      rw [hKe]
    rw [e1, elim_mul_right (Dep.const (S := fun _ => False) _) (by simp)]
  set g := elim (domOf vars) (l.filter (fun i => decide (i ∉ [v.id]))) W with hg
  have hgn : ∀ σ, 0 ≤ g σ := elim_nonneg hnn _
  have htot : totalOf vars W = elim (domOf vars) l W asg0 * K := by
    rw [totalOf_eq hn hDom]
    refine hsum l _ hl hn (fun _ h => h) ?_ _
    intro i
    rw [hrest, List.mem_filter]
    by_cases hi : i ∈ l
    · simp [hi, hsub i hi]
    · simp [hi]
  have hmass : ∀ x ∈ v.values, massOf vars W v.id x = g (Function.update asg0 v.id x) * K := by
    intro x hx
    rw [massOf_eq hn hDom hv (hvals v hv) W hx]
    refine hsum _ _ (hl.filter _) (hn.filter _) (fun i hi => (List.mem_filter.1 hi).1) ?_ _
    intro i
    rw [hrest]
    simp only [List.mem_filter, decide_eq_true_eq, List.mem_cons, List.not_mem_nil, or_false]
    by_cases hi : i ∈ l
    · simp [hi, hsub i hi]
    · have : i ≠ v.id := fun e => hi (e ▸ hvl)
      simp [hi, this]
  have hZ : elim (domOf vars) (vids [v]) g asg0 = elim (domOf vars) l W asg0 := by
    rw [elim_perm (filter_ne_perm hl hvl), vids_cons, elim_cons, elim_cons]
    rfl
  rw [normalize_tab hD1, hZ]
  congr 1
  unfold tab exactAnswer
  rw [List.map_cons, List.map_nil]
  have hprod : product [v.values] = v.values.map (fun x => [x]) := by
    induction v.values with
    | nil => rfl
    | cons x xs ih =>
      simp only [product, List.flatMap_cons, List.map_cons, List.map_nil] at ih ⊢
      rw [ih]; rfl
  rw [hprod, List.map_map]
  apply List.map_congr_left
  intro x hx
  simp only [Function.comp]
  refine congrArg₂ PEntry.mk rfl ?_
  have ho : over asg0 (vids [v]) [x] = Function.update asg0 v.id x := rfl
  rw [ho, hmass x hx, htot]
  set Z1 := elim (domOf vars) l W asg0 with hZ1d
  by_cases h0 : Z1 = 0
  · rw [if_pos h0, h0]
    have : g (Function.update asg0 v.id x) = 0 := by
      have hs : (v.values.map (fun y => g (Function.update asg0 v.id y))).sum = 0 := by
        rw [← h0, ← hZ, vids_cons, elim_cons, ← hDv]
        rfl
      refine le_antisymm ?_ (hgn _)
      rw [← hs]
      exact List.single_le_sum (by
        intro a ha
        obtain ⟨y, hy, rfl⟩ := List.mem_map.1 ha
        exact hgn _) _ (List.mem_map.2 ⟨x, hx, rfl⟩)
    rw [this]
    simp
  · rw [if_neg h0, mul_div_mul_right _ _ hK]

end

/-- `weightOn` as a product over variables -/
theorem Bbn.weightOn_eq {b : Bbn} (h : BbnInv b) (ℓ : Int → Str → ℚ) (S : List Int) :
    b.weightOn S ℓ = wsel b.vars (b.net.w ℓ) (fun u => decide (u.id ∈ S)) := by
  funext σ
  unfold Bbn.weightOn wsel Bbn.vars
  rw [List.filter_map, List.map_map]
  congr 1
  apply List.map_congr_left
  intro n hn
  simp only [Function.comp, Net.w, Bbn.net_loc h (List.mem_filter.1 hn).1]

theorem Bbn.tableOn_eq (b : Bbn) (ℓ : Int → Str → ℚ) (S : List Int) (v : Variable) :
    b.tableOn S ℓ v = exactAnswer b.vars (b.weightOn S ℓ) v := rfl

end PyBBN
