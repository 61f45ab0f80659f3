import Verif.Proofs.DSep
import Verif.Proofs.Markov

/-!
Soundness of d-separation, the part about probabilities: blocked paths make the posterior of a node independent of evidence.
-/

namespace PyBBN
open Relation DSep

theorem Dep.listProd {α : Type} {S : Int → Prop} {f : α → Asg → ℚ} : ∀ {l : List α}, (∀ n ∈ l, Dep S (f n)) →
    Dep S (fun σ => (l.map (fun n => f n σ)).prod)
  | [], _ => fun _ _ _ => rfl
  | n :: l, h => by
      simp only [List.map_cons, List.prod_cons]
      exact (h n List.mem_cons_self).mul (Dep.listProd (fun m hm => h m (List.mem_cons_of_mem _ hm)))

/-- a sum of products splits when the factors share only coordinates that are fixed -/
theorem elim_split {D : Int → List Str} {X Y Z : List Int} {F G H : Asg → ℚ} {τ : Asg}
    (hF : Dep (fun i => i ∈ X ∨ i ∈ Z) F) (hG : Dep (fun i => i ∈ Y ∨ i ∈ Z) G) (hH : Dep (fun i => i ∈ Z) H)
    (hXY : ∀ i ∈ X, i ∉ Y) (hXZ : ∀ i ∈ X, i ∉ Z) (hYZ : ∀ i ∈ Y, i ∉ Z)
    (hτ : ∀ σ, (∀ i ∈ Z, σ i ∈ D i) → H σ ≠ 0 → ∀ i ∈ Z, σ i = τ i) (ρ : Asg) :
    elim D (Z ++ (X ++ Y)) (fun σ => H σ * (F σ * G σ)) ρ = elim D X F τ * (elim D Y G τ * elim D Z H ρ) := by
  have hGe : Dep (fun i => i ∈ Z) (elim D Y G) := (hG.elim (D := D) Y).mono (by
    rintro i ⟨h1 | h1, h2⟩
    · exact absurd h1 h2
    · exact h1)
  have hFe : Dep (fun i => i ∈ Z) (elim D X F) := (hF.elim (D := D) X).mono (by
    rintro i ⟨h1 | h1, h2⟩
    · exact absurd h1 h2
    · exact h1)
  rw [elim_append, elim_mul_left hH (by
    intro i hi
    rcases List.mem_append.1 hi with h | h
    · exact hXZ i h
    · exact hYZ i h)]
  have e : elim D (X ++ Y) (fun σ => F σ * G σ) = fun σ => elim D X F σ * elim D Y G σ := by
    rw [elim_append, elim_mul_left hF (by
      rintro i hi (h | h)
      · exact hXY i h hi
      · exact hYZ i hi h), elim_mul_right hGe (fun i hi => hXZ i hi)]
  rw [e]
  have e2 : elim D Z (fun σ => H σ * (elim D X F σ * elim D Y G σ)) ρ =
      elim D Z (fun σ => (elim D X F τ * elim D Y G τ) * H σ) ρ := by
    refine elim_congr_dom (fun _ => False) Z ?_ ρ (fun i hi => absurd hi id)
    intro σ hσ
    by_cases h0 : H σ = 0
    · rw [h0]; ring
    · have hz := hτ σ (fun i hi => hσ i (Or.inr hi)) h0
      rw [hFe σ τ hz, hGe σ τ hz]; ring
  rw [e2, elim_mul_left (S := fun _ => False) (Dep.const _) (fun _ _ h => h)]
  ring

section
variable {b : Bbn}

/-- an order with parents first that lists the nodes of a set closed under parents before the others -/
theorem order_split (h : BbnInv b) (hac : Acyclic b.Par) {A : Int → Prop} (hA : ∀ p c, b.Par p c → A c → A p) :
    ∃ L M : List BbnNode, (L ++ M).Perm b.toGraph.getNodes ∧ (L ++ M).Pairwise (fun a c => c.var.id ∉ ddGet b.parents a.var.id) ∧
      (∀ n ∈ L, A n.var.id) ∧ ∀ n ∈ M, ¬ A n.var.id := by
  classical
  obtain ⟨K, hp, hpw⟩ := order_exists h hac
  refine ⟨K.filter (fun n => decide (A n.var.id)), K.filter (fun n => !decide (A n.var.id)), ?_, ?_, ?_, ?_⟩
  · exact (List.filter_append_perm _ K).trans hp
  · rw [List.pairwise_append]
    refine ⟨hpw.filter _, hpw.filter _, ?_⟩
    intro a ha c hc hcon
    have h1 := (List.mem_filter.1 ha).2
    have h2 := (List.mem_filter.1 hc).2
    simp only [decide_eq_true_eq] at h1
    simp only [Bool.not_eq_true', decide_eq_false_iff_not] at h2
    exact h2 (hA _ _ hcon h1)
  · intro n hn
    simpa using (List.mem_filter.1 hn).2
  · intro n hn
    simpa using (List.mem_filter.1 hn).2

/-- evidence: `Z` is observed at the values of `τ`, and there is no other evidence outside `Y` -/
structure EvOn (b : Bbn) (Y Z : Int → Prop) (τ : Asg) (ℓ : Liks) : Prop where
  obs : ∀ v ∈ b.vars, Z v.id → ∀ u ∈ v.values, ℓ v.id u = if u = τ v.id then 1 else 0
  none : ∀ v ∈ b.vars, ¬ Y v.id → ¬ Z v.id → ∀ u ∈ v.values, ℓ v.id u = 1

/-- when `Y` is not connected with `x`, the weights are a fixed number times one that does not depend on the value of `x` -/
theorem dsep_factor (hb : b.Proper) {x : Int} (hxn : x ∈ b.ids) {Y Z : Int → Prop} (hxZ : ¬ Z x)
    (hsep : ∀ v, ReflTransGen (Mor b.Par x Y Z) x v → ¬ Y v) (τ : Asg) (a : Str) :
    ∃ p q : ℚ, ∀ ℓ, EvOn b Y Z τ ℓ → ∃ r : ℚ, b.total ℓ = p * r ∧ b.mass ℓ x a = q * r := by
  classical
  obtain ⟨L, M, hp, hpw, hL, hM⟩ := order_split hb.inv hb.acyclic (A := DSep.Rel b.Par x Y Z) (fun p c h1 h2 => h2.head h1)
  let C : Int → Prop := fun v => ReflTransGen (Mor b.Par x Y Z) x v
  have hCx : C x := .refl
  have hCZ : ∀ v, C v → ¬ Z v := by
    intro v hv
    rcases ReflTransGen.cases_tail hv with h | ⟨u, _, h⟩
    · rw [h]; exact hxZ
    · exact h.2.1
  let T : BbnNode → Prop := fun n => ∃ i, (i = n.var.id ∨ b.Par i n.var.id) ∧ C i
  have hLn : ∀ n ∈ L, n ∈ b.toGraph.getNodes := fun n hn => hp.mem_iff.1 (List.mem_append_left _ hn)
  have hMn : ∀ n ∈ M, n ∈ b.toGraph.getNodes := fun n hn => hp.mem_iff.1 (List.mem_append_right _ hn)
  have hmemL : ∀ i ∈ b.ids, DSep.Rel b.Par x Y Z i → ∃ n ∈ L, n.var.id = i := by
    intro i hi hr
    obtain ⟨n, hn, rfl⟩ := mem_ids.1 hi
    rcases List.mem_append.1 (hp.mem_iff.2 hn) with h | h
    · exact ⟨n, h, rfl⟩
    · exact absurd hr (hM n h)
  have hnd : ((L ++ M).map (fun n => n.var.id)).Nodup := (hp.map _).nodup_iff.2 (node_ids_nodup hb.inv)
  have hndL : (L.map (fun n => n.var.id)).Nodup := by
    rw [List.map_append, List.nodup_append] at hnd; exact hnd.1
  let ids : List Int := L.map (fun n => n.var.id)
  let Xs := ids.filter (fun i => decide (C i))
  let Zs := ids.filter (fun i => decide (Z i))
  let Ys := ids.filter (fun i => decide (¬ C i ∧ ¬ Z i))
  have hperm : (ids).Perm (Zs ++ (Xs ++ Ys)) := by
    refine (List.perm_ext_iff_of_nodup hndL ?_).2 ?_
    · refine List.Nodup.append (hndL.filter _) (List.Nodup.append (hndL.filter _) (hndL.filter _) ?_) ?_
      · intro i h1 h2
        have h1 := (List.mem_filter.1 h1).2
        have h2 := (List.mem_filter.1 h2).2
        simp only [decide_eq_true_eq] at h1 h2
        exact h2.1 h1
      · intro i h1 h2
        have h1 := (List.mem_filter.1 h1).2
        simp only [decide_eq_true_eq] at h1
        rcases List.mem_append.1 h2 with h2 | h2
        · have h2 := (List.mem_filter.1 h2).2
          simp only [decide_eq_true_eq] at h2
          exact hCZ i h2 h1
        · have h2 := (List.mem_filter.1 h2).2
          simp only [decide_eq_true_eq] at h2
          exact h2.2 h1
    · intro i
      simp only [Zs, Xs, Ys, List.mem_append, List.mem_filter, decide_eq_true_eq]
      tauto
  -- members of a family
  have hfam : ∀ n ∈ L, ∀ i, (i ∈ ddGet b.parents n.var.id ∨ i = n.var.id) → i ∈ ids := by
    rintro n hn i (h | rfl)
    · obtain ⟨m, hm, rfl⟩ := hmemL i (parent_mem_ids hb.inv h) ((hL n hn).head h)
      exact List.mem_map_of_mem hm
    · exact List.mem_map_of_mem hn
  have hdepT : ∀ n ∈ L, T n → Dep (fun i => i ∈ Xs ∨ i ∈ Zs) (b.w n) := by
    intro n hn hT
    refine (b.w_dep hb.inv n).mono ?_
    intro i hi
    obtain ⟨u, hu, hCu⟩ := hT
    by_cases hz : Z i
    · exact Or.inr (List.mem_filter.2 ⟨hfam n hn i hi, by simpa using hz⟩)
    · refine Or.inl (List.mem_filter.2 ⟨hfam n hn i hi, ?_⟩)
      rw [decide_eq_true_eq]
      refine ReflTransGen.tail hCu ⟨hCZ u hCu, hz, n.var.id, hL n hn, hu, ?_⟩
      rcases hi with hi | hi
      · exact Or.inr hi
      · exact Or.inl hi
  have hdepN : ∀ n ∈ L, ¬ T n → Dep (fun i => i ∈ Ys ∨ i ∈ Zs) (b.w n) := by
    intro n hn hT
    refine (b.w_dep hb.inv n).mono ?_
    intro i hi
    by_cases hz : Z i
    · exact Or.inr (List.mem_filter.2 ⟨hfam n hn i hi, by simpa using hz⟩)
    · refine Or.inl (List.mem_filter.2 ⟨hfam n hn i hi, ?_⟩)
      rw [decide_eq_true_eq]
      refine ⟨fun hc => hT ⟨i, ?_, hc⟩, hz⟩
      rcases hi with hi | hi
      · exact Or.inr hi
      · exact Or.inl hi
  let F : Asg → ℚ := fun σ => (L.map (fun n => if T n then b.w n σ else 1)).prod
  let G : Liks → Asg → ℚ := fun ℓ σ => (L.map (fun n => (if T n then 1 else b.w n σ) *
    (if C n.var.id ∨ Z n.var.id then 1 else ℓ n.var.id (σ n.var.id)))).prod
  let H : Liks → Asg → ℚ := fun ℓ σ => (L.map (fun n => if Z n.var.id then ℓ n.var.id (σ n.var.id) else 1)).prod
  have hF : Dep (fun i => i ∈ Xs ∨ i ∈ Zs) F := by
    refine Dep.listProd ?_
    intro n hn
    by_cases h : T n
    · simp only [h, if_true]; exact hdepT n hn h
    · simp only [h, if_false]; exact Dep.const 1
  have hcoord : ∀ (ℓ : Liks) (S : Int → Prop) (i : Int), S i → Dep S (fun σ => ℓ i (σ i)) := by
    intro ℓ S i hi σ τ hst
    show ℓ i (σ i) = ℓ i (τ i)
    rw [hst i hi]
  have hG : ∀ ℓ, Dep (fun i => i ∈ Ys ∨ i ∈ Zs) (G ℓ) := by
    intro ℓ
    refine Dep.listProd ?_
    intro n hn
    refine Dep.mul ?_ ?_
    · by_cases h : T n
      · simp only [h, if_true]; exact Dep.const 1
      · simp only [h, if_false]; exact hdepN n hn h
    · by_cases h : C n.var.id ∨ Z n.var.id
      · simp only [h, if_true]; exact Dep.const 1
      · simp only [h, if_false]
        refine hcoord ℓ _ _ (Or.inl (List.mem_filter.2 ⟨List.mem_map_of_mem hn, ?_⟩))
        rw [decide_eq_true_eq]
        rw [not_or] at h
        exact h
  have hH : ∀ ℓ, Dep (fun i => i ∈ Zs) (H ℓ) := by
    intro ℓ
    refine Dep.listProd ?_
    intro n hn
    by_cases h : Z n.var.id
    · simp only [h, if_true]
      exact hcoord ℓ _ _ (List.mem_filter.2 ⟨List.mem_map_of_mem hn, by simpa using h⟩)
    · simp only [h, if_false]; exact Dep.const 1
  have hI : Dep (fun i => i ∈ Xs ∨ i ∈ Zs) (isVal x a) := by
    intro σ τ hst
    unfold isVal
    have hxL : x ∈ ids := by
      obtain ⟨n, hn, e⟩ := hmemL x hxn ⟨x, .refl, Or.inl rfl⟩
      rw [← e]; exact List.mem_map_of_mem hn
    have hx' : x ∈ Xs := List.mem_filter.2 ⟨hxL, decide_eq_true hCx⟩
    rw [hst x (Or.inl hx')]
  refine ⟨elim b.dom Xs F τ, elim b.dom Xs (fun σ => F σ * isVal x a σ) τ, ?_⟩
  intro ℓ hℓ
  refine ⟨elim b.dom Ys (G ℓ) τ * elim b.dom Zs (H ℓ) asg0, ?_, ?_⟩
  all_goals
    have hτ : ∀ σ : Asg, (∀ i ∈ Zs, σ i ∈ b.dom i) → H ℓ σ ≠ 0 → ∀ i ∈ Zs, σ i = τ i := by
      intro σ hσ h0 i hi
      by_contra hne
      apply h0
      have h1 := hσ i hi
      obtain ⟨h2, h3⟩ := List.mem_filter.1 hi
      rw [decide_eq_true_eq] at h3
      obtain ⟨n, hn, rfl⟩ := List.mem_map.1 h2
      apply List.prod_eq_zero
      refine List.mem_map.2 ⟨n, hn, ?_⟩
      rw [if_pos h3, hℓ.obs n.var (List.mem_map_of_mem (hLn n hn)) h3 _ (by rw [← dom_node hb.inv (hLn n hn)]; exact h1), if_neg hne]
    have hdis1 : ∀ i ∈ Xs, i ∉ Ys := by
      intro i h1 h2
      have h1 := (List.mem_filter.1 h1).2
      have h2 := (List.mem_filter.1 h2).2
      simp only [decide_eq_true_eq] at h1 h2
      exact h2.1 h1
    have hdis2 : ∀ i ∈ Xs, i ∉ Zs := by
      intro i h1 h2
      have h1 := (List.mem_filter.1 h1).2
      have h2 := (List.mem_filter.1 h2).2
      simp only [decide_eq_true_eq] at h1 h2
      exact hCZ i h1 h2
    have hdis3 : ∀ i ∈ Ys, i ∉ Zs := by
      intro i h1 h2
      have h1 := (List.mem_filter.1 h1).2
      have h2 := (List.mem_filter.1 h2).2
      simp only [decide_eq_true_eq] at h1 h2
      exact h1.2 h2
    have hout : ∀ S : Asg → ℚ, Dep (fun i => i ∈ Xs ∨ i ∈ Ys ∨ i ∈ Zs) S → Dep (fun i => i ∉ M.map (fun n => n.var.id)) S := by
      intro S hS
      refine hS.mono ?_
      intro i hi hm
      have hi' : i ∈ ids := by
        rcases hi with h | h | h
        · exact (List.mem_filter.1 h).1
        · exact (List.mem_filter.1 h).1
        · exact (List.mem_filter.1 h).1
      rw [List.map_append, List.nodup_append] at hnd
      exact hnd.2.2 i hi' i hm rfl
    have hwt : ∀ σ ∈ allAsg b.vars, b.weight ℓ σ = (H ℓ σ * (F σ * G ℓ σ)) * (M.map (fun n => b.w n σ)).prod := by
      intro σ hσ
      have hdom := allAsg_mem_dom b.vars (vars_nodup hb.inv) σ hσ
      have e1 : b.weight ℓ σ = ((L ++ M).map (fun n => b.w n σ * ℓ n.var.id (σ n.var.id))).prod := ((hp.map _).prod_eq).symm
      rw [e1, List.map_append, List.prod_append]
      congr 1
      · have key : ∀ K : List BbnNode, (∀ n ∈ K, n ∈ L) →
            (K.map (fun n => b.w n σ * ℓ n.var.id (σ n.var.id))).prod =
            (K.map (fun n => if Z n.var.id then ℓ n.var.id (σ n.var.id) else 1)).prod *
              ((K.map (fun n => if T n then b.w n σ else 1)).prod *
              (K.map (fun n => (if T n then 1 else b.w n σ) * (if C n.var.id ∨ Z n.var.id then 1 else ℓ n.var.id (σ n.var.id)))).prod) := by
          intro K
          induction K with
          | nil => simp
          | cons n K ih =>
            intro hK
            simp only [List.map_cons, List.prod_cons, ih (fun m hm => hK m (List.mem_cons_of_mem _ hm))]
            have hn := hLn n (hK n List.mem_cons_self)
            have hv : n.var ∈ b.vars := List.mem_map_of_mem hn
            by_cases h1 : Z n.var.id
            · by_cases h2 : T n
              · simp only [h1, h2, if_true, or_true]; ring
              · simp only [h1, h2, if_true, if_false, or_true]; ring
            · by_cases h3 : C n.var.id
              · rw [hℓ.none n.var hv (hsep _ h3) h1 _ (hdom n.var hv)]
                by_cases h2 : T n
                · simp only [h1, h2, h3, if_true, if_false, true_or]; ring
                · simp only [h1, h2, h3, if_true, if_false, true_or]; ring
              · by_cases h2 : T n
                · simp only [h1, h2, h3, if_true, if_false, or_self]; ring
                · simp only [h1, h2, h3, if_false, or_self]; ring
        exact key L (fun _ h => h)
      · congr 1
        apply List.map_congr_left
        intro n hn
        have hv : n.var ∈ b.vars := List.mem_map_of_mem (hMn n hn)
        rw [hℓ.none n.var hv (fun hy => hM n hn ⟨_, .refl, Or.inr (Or.inl hy)⟩) (fun hz => hM n hn ⟨_, .refl, Or.inr (Or.inr hz)⟩) _
          (hdom n.var hv), mul_one]
    have hFGH : ∀ F' : Asg → ℚ, Dep (fun i => i ∈ Xs ∨ i ∈ Zs) F' → ((allAsg b.vars).map (fun σ => (H ℓ σ * (F' σ * G ℓ σ)) * (M.map (fun n => b.w n σ)).prod)).sum =
        elim b.dom Xs F' τ * (elim b.dom Ys (G ℓ) τ * elim b.dom Zs (H ℓ) asg0) := by
      intro F' hF'
      rw [sum_prefix hb.inv hb.wf hb.nonempty hb.normalized hp hpw, elim_perm hperm, elim_split hF' (hG ℓ) (hH ℓ) hdis1 hdis2 hdis3 hτ]
      refine hout _ (Dep.mul ((hH ℓ).mono (fun i h => Or.inr (Or.inr h))) (Dep.mul (hF'.mono ?_) ((hG ℓ).mono ?_)))
      · rintro i (h | h)
        · exact Or.inl h
        · exact Or.inr (Or.inr h)
      · rintro i (h | h)
        · exact Or.inr (Or.inl h)
        · exact Or.inr (Or.inr h)
  · unfold Bbn.total
    rw [List.map_congr_left hwt, hFGH F hF]
  · unfold Bbn.mass
    rw [sum_filter_map, ← hFGH _ (hF.mul hI)]
    congr 1
    apply List.map_congr_left
    intro σ hσ
    rw [hwt σ hσ]
    unfold isVal
    by_cases h : σ x = a <;> simp [h]

/-- evidence on nodes that are not connected with `x` does not change the posterior of `x` -/
theorem dsep_posterior (hb : b.Proper) {x : Int} (hxn : x ∈ b.ids) {Y Z : Int → Prop} (hxZ : ¬ Z x)
    (hsep : ∀ v, ReflTransGen (Mor b.Par x Y Z) x v → ¬ Y v) {τ : Asg} {ℓ ℓ' : Liks} (h : EvOn b Y Z τ ℓ) (h' : EvOn b Y Z τ ℓ')
    (hpos : b.total ℓ ≠ 0) (hpos' : b.total ℓ' ≠ 0) (a : Str) : b.posterior ℓ x a = b.posterior ℓ' x a := by
  obtain ⟨p, q, hpq⟩ := dsep_factor hb hxn hxZ hsep τ a
  obtain ⟨r, h1, h2⟩ := hpq ℓ h
  obtain ⟨r', h1', h2'⟩ := hpq ℓ' h'
  unfold Bbn.posterior
  rw [h2, h2', h1, h1']
  rw [h1] at hpos
  rw [h1'] at hpos'
  rw [mul_div_mul_right _ _ (fun e => hpos (by rw [e, mul_zero])), mul_div_mul_right _ _ (fun e => hpos' (by rw [e, mul_zero]))]

end
end PyBBN
