import Verif.Proofs.Exact
import Verif.Proofs.Apply
import Verif.Spec.Blanket

namespace PyBBN
open InferenceController

section
variable {b : Bbn}

theorem Bbn.parentOf_iff (h : BbnInv b) {p c : Int} : b.parentOf p c ↔ p ∈ ddGet b.parents c := by
  unfold Bbn.parentOf
  rw [← vids, vids_parentVars h]

theorem Bbn.blanketScore_eq (h : BbnInv b) (v : Variable) (τ : Asg) (x : Str) :
    b.blanketScore v τ x = wsel b.vars b.net.loc (fun u => decide (u.id = v.id ∨ b.parentOf v.id u.id)) (Function.update τ v.id x) := by
  unfold Bbn.blanketScore wsel Bbn.vars
  rw [List.filter_map, List.map_map]
  congr 1
  apply List.map_congr_left
  intro n hn
  simp only [Function.comp, Bbn.net_loc h (List.mem_filter.1 hn).1]

theorem vids_family (h : BbnInv b) (u : Variable) {i : Int} (hi : i ∈ vids (b.net.fam u)) : i = u.id ∨ b.parentOf i u.id := by
  change i ∈ vids (b.family u) at hi
  unfold Bbn.family at hi
  rw [vids, List.map_append, List.mem_append, ← vids, vids_parentVars h] at hi
  rw [Bbn.parentOf_iff h]
  simpa [or_comm] using hi

/-- with the blanket observed, the weight of a value of the node is its blanket score times its likelihood times a constant -/
theorem blanket_mass (h : BbnInv b) (wf : b.WF) {ℓ : Int → Str → ℚ} {v : Variable} (hv : v ∈ b.vars) {τ : Asg}
    (hb : ∀ u ∈ b.vars, Blanket b.parentOf v.id u.id → ∀ y ∈ u.values, y ≠ τ u.id → ℓ u.id y = 0) :
    ∃ K : ℚ, ∀ x ∈ v.values, massOf b.vars (b.net.W ℓ b.vars) v.id x = b.blanketScore v τ x * ℓ v.id x * K := by
  have hN := Bbn.net_ok h wf
  have hn := vars_nodup h
  have hDom := domOf_ok hn
  set P : Variable → Bool := fun u => decide (u.id = v.id ∨ b.parentOf v.id u.id) with hP
  set Q : Variable → Bool := fun u => decide (u.id = v.id) with hQ
  set lw : Variable → Asg → ℚ := fun u σ => ℓ u.id (σ u.id) with hlw
  set rest := (vids b.vars).filter (fun j => decide (j ∉ [v.id])) with hrest
  set B : Asg → ℚ := fun σ => wsel b.vars b.net.loc (fun u => !P u) σ * wsel b.vars lw (fun u => !Q u) σ with hB
  have hQv : ∀ σ, wsel b.vars lw Q σ = ℓ v.id (σ v.id) := by
    intro σ
    have : b.vars.filter Q = [v] := by
      have hnd : (b.vars.filter Q).Nodup := (List.Nodup.of_map _ hn).filter _
      have hm : ∀ u, u ∈ b.vars.filter Q ↔ u = v := by
        intro u
        rw [List.mem_filter]
        constructor
        · rintro ⟨hu, e⟩
          exact List.inj_on_of_nodup_map hn hu hv (by simpa [hQ] using e)
        · rintro rfl
          exact ⟨hv, by simp [hQ]⟩
      exact List.perm_singleton.1 ((List.perm_ext_iff_of_nodup hnd (by simp)).2 (by intro u; rw [hm]; simp))
    unfold wsel
    rw [this]
    simp [hlw]
  have hW : ∀ σ, b.net.W ℓ b.vars σ = wsel b.vars b.net.loc P σ * ℓ v.id (σ v.id) * B σ := by
    intro σ
    have h1 := wsel_split b.net.loc P σ b.vars
    have h2 := wsel_split lw Q σ b.vars
    rw [hQv] at h2
    have h3 : b.net.W ℓ b.vars σ = (b.vars.map (fun u => b.net.loc u σ)).prod * (b.vars.map (fun u => lw u σ)).prod := by
      unfold Net.W Net.w
      rw [← List.prod_map_mul]
    rw [h3, h1, h2, hB]
    ring
  have hBdep : Dep (fun i => i ≠ v.id) B := by
    refine Dep.mul (prod_map_dep _ _ ?_) (prod_map_dep _ _ ?_)
    · intro u hu
      obtain ⟨hu1, hu2⟩ := List.mem_filter.1 hu
      refine (hN.dep u hu1).mono ?_
      intro i hi e
      subst e
      have := vids_family h u hi
      simp only [hP, Bool.not_eq_true', decide_eq_false_iff_not, not_or] at hu2
      rcases this with e | e
      · exact hu2.1 e.symm
      · exact hu2.2 e
    · intro u hu
      obtain ⟨_, hu2⟩ := List.mem_filter.1 hu
      simp only [hQ, Bool.not_eq_true', decide_eq_false_iff_not] at hu2
      intro σ σ' e
      show ℓ u.id (σ u.id) = ℓ u.id (σ' u.id)
      rw [e u.id hu2]
  have hvr : ∀ i ∈ rest, i ≠ v.id := by
    intro i hi
    simpa using (List.mem_filter.1 hi).2
  have hKdep : ∀ σ σ' : Asg, elim (domOf b.vars) rest B σ = elim (domOf b.vars) rest B σ' := by
    -- `B` depends only on the variables other than `v`, and they are summed out
    have hBv : Dep (fun i => i ∈ vids b.vars) B := by
      refine Dep.mul (prod_map_dep _ _ ?_) (prod_map_dep _ _ ?_)
      · intro u hu
        obtain ⟨hu1, _⟩ := List.mem_filter.1 hu
        refine (hN.dep u hu1).mono ?_
        intro i hi
        obtain ⟨w, hw, rfl⟩ := List.mem_map.1 hi
        exact List.mem_map_of_mem (hN.sub u hu1 w hw)
      · intro u hu σ σ' e
        show ℓ u.id (σ u.id) = ℓ u.id (σ' u.id)
        rw [e u.id (List.mem_map_of_mem (List.mem_filter.1 hu).1)]
    have hBr : Dep (fun i => i ∈ rest) B := by
      intro σ σ' e
      have h1 : B σ = B (fun i => if i ∈ vids b.vars then σ i else σ' i) := hBv _ _ (fun i hi => by simp [hi])
      rw [h1]
      apply hBdep
      intro i hi
      by_cases hv' : i ∈ vids b.vars
      · simp only [hv', if_true]
        exact e i (List.mem_filter.2 ⟨hv', by simpa using hi⟩)
      · simp [hv']
    intro σ σ'
    refine (hBr.elim rest) σ σ' ?_
    rintro i ⟨h1, h2⟩
    exact absurd h1 h2
  refine ⟨elim (domOf b.vars) rest B asg0, ?_⟩
  intro x hx
  rw [massOf_eq hn hDom hv (values_nodup wf hv) _ hx, Bbn.blanketScore_eq h]
  set g : Asg → ℚ := fun σ => wsel b.vars b.net.loc P (Function.update τ v.id (σ v.id)) * ℓ v.id (σ v.id) with hg
  have hstep : elim (domOf b.vars) rest (b.net.W ℓ b.vars) (Function.update asg0 v.id x) =
      elim (domOf b.vars) rest (fun σ => g σ * B σ) (Function.update asg0 v.id x) := by
    refine elim_congr_dom (fun i => i = v.id) _ ?_ _ ?_
    · intro σ hσ
      rw [hW]
      by_cases hB0 : B σ = 0
      · rw [hB0, mul_zero, mul_zero]
      · congr 1
        simp only [hg]
        congr 1
        -- every member of the blanket has its observed value
        have hval : ∀ u ∈ b.vars, Blanket b.parentOf v.id u.id → σ u.id = τ u.id := by
          intro u hu hbl
          by_contra hne
          apply hB0
          have hd : σ u.id ∈ u.values := by
            have := hσ u.id (Or.inr (List.mem_filter.2 ⟨List.mem_map_of_mem hu, by simpa using hbl.1⟩))
            rwa [hDom u hu] at this
          have h0 := hb u hu hbl _ hd hne
          simp only [hB]
          apply mul_eq_zero_of_right
          unfold wsel
          apply List.prod_eq_zero
          refine List.mem_map.2 ⟨u, List.mem_filter.2 ⟨hu, ?_⟩, h0⟩
          simpa [hQ] using hbl.1
        unfold wsel
        congr 1
        apply List.map_congr_left
        intro u hu
        obtain ⟨hu1, hu2⟩ := List.mem_filter.1 hu
        apply hN.dep u hu1
        intro i hi
        by_cases hiv : i = v.id
        · subst hiv; simp
        · rw [Function.update_of_ne hiv]
          obtain ⟨w, hw, rfl⟩ := List.mem_map.1 hi
          have hwv := hN.sub u hu1 w hw
          refine hval w hwv ⟨hiv, ?_⟩
          simp only [hP, decide_eq_true_eq] at hu2
          rcases vids_family h u hi with e | e
          · rcases hu2 with e' | e'
            · exact absurd (e.trans e') hiv
            · exact Or.inr (Or.inl (by rw [e]; exact e'))
          · rcases hu2 with e' | e'
            · exact Or.inl (by rw [← e']; exact e)
            · exact Or.inr (Or.inr ⟨u.id, e', e⟩)
    · rintro i rfl _
      rw [Function.update_self, hDom v hv]
      exact hx
  rw [hstep]
  have hdep : Dep (fun i => i = v.id) g := by
    intro σ σ' e
    simp only [hg, e v.id rfl]
  rw [elim_mul_left hdep (by intro i hi; exact hvr i hi)]
  simp only [hg, Function.update_self]
  rw [hKdep _ asg0]

end

end PyBBN
