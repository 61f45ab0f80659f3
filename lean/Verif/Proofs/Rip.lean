import Verif.Proofs.Forest
import Verif.Proofs.Junction
import Mathlib.Algebra.BigOperators.Group.Finset.Piecewise
import Mathlib.Algebra.Order.BigOperators.Group.Finset

/-! A maximum weight spanning forest of a family with a junction order has the running intersection property. -/

namespace PyBBN

/-- the forest given by a junction order -/
theorem JOrder.forest : ∀ {F : List (Finset Int)}, JOrder F → F.Nodup →
    ∃ J : List (Finset Int × Finset Int), Forest Prod.fst Prod.snd J ∧
      (∀ e ∈ J, e.1 ∈ F ∧ e.2 ∈ F ∧ e.1 ≠ e.2 ∧ e.1 ∩ e.2 ≠ ∅) ∧
      (J.map (fun e => (e.1 ∩ e.2).card)).sum + (unionAll F).card = (F.map Finset.card).sum
  | [], _, _ => ⟨[], trivial, by simp, by simp [unionAll]⟩
  | A :: F, h, hn => by
      cases h with
      | cons _ _ h hl =>
      rw [List.nodup_cons] at hn
      obtain ⟨J, j1, j2, j3⟩ := JOrder.forest hl hn.2
      have hu : unionAll (A :: F) = A ∪ unionAll F := rfl
      have hcard := Finset.card_union_add_card_inter A (unionAll F)
      by_cases hA : A ∩ unionAll F = ∅
      · refine ⟨J, j1, ?_, ?_⟩
        · intro e he
          obtain ⟨h1, h2, h3⟩ := j2 e he
          exact ⟨List.mem_cons_of_mem _ h1, List.mem_cons_of_mem _ h2, h3⟩
        · rw [hu, List.map_cons, List.sum_cons, ← j3]
          rw [hA, Finset.card_empty] at hcard
          omega
      · rcases h with h | ⟨P, hP, h⟩
        · exact absurd h hA
        · have hPU : P ⊆ unionAll F := fun i hi => (mem_unionAll _ _).2 ⟨P, hP, hi⟩
          have e : A ∩ unionAll F = A ∩ P := by
            ext i
            simp only [Finset.mem_inter]
            constructor
            · rintro ⟨h1, h2⟩; exact ⟨h1, h (Finset.mem_inter.2 ⟨h1, h2⟩)⟩
            · rintro ⟨h1, h2⟩; exact ⟨h1, hPU h2⟩
          have hAP : A ≠ P := fun c => hn.1 (c ▸ hP)
          refine ⟨(A, P) :: J, ⟨?_, j1⟩, ?_, ?_⟩
          · intro hc
            have hiso := Conn.isolated (z := A) (fun f hf => ⟨fun c => hn.1 (c ▸ (j2 f hf).1),
              fun c => hn.1 (c ▸ (j2 f hf).2.1)⟩) hc
            exact hAP (hiso.1 rfl).symm
          · intro f hf
            rcases List.mem_cons.1 hf with rfl | hf
            · exact ⟨List.mem_cons_self, List.mem_cons_of_mem _ hP, hAP, e ▸ hA⟩
            · obtain ⟨h1, h2, h3⟩ := j2 f hf
              exact ⟨List.mem_cons_of_mem _ h1, List.mem_cons_of_mem _ h2, h3⟩
          · rw [hu, List.map_cons, List.sum_cons, List.map_cons, List.sum_cons, ← j3]
            rw [e] at hcard
            simp only
            omega

theorem double_count {α : Type} (U : Finset Int) (s : α → Finset Int) : ∀ (T : List α), (∀ e ∈ T, s e ⊆ U) →
    ∑ v ∈ U, (T.filter (fun e => decide (v ∈ s e))).length = (T.map (fun e => (s e).card)).sum
  | [], _ => by simp
  | e :: T, h => by
      have ih := double_count U s T (fun f hf => h f (List.mem_cons_of_mem _ hf))
      rw [List.map_cons, List.sum_cons, ← ih]
      have : (s e).card = ∑ v ∈ U, if v ∈ s e then 1 else 0 := by
        rw [← Finset.card_filter]
        congr 1
        ext v
        simp only [Finset.mem_filter]
        exact ⟨fun hv => ⟨h e List.mem_cons_self hv, hv⟩, fun hv => hv.2⟩
      rw [this, ← Finset.sum_add_distrib]
      apply Finset.sum_congr rfl
      intro v _
      rw [List.filter_cons]
      by_cases hc : v ∈ s e
      · simp [hc, Nat.add_comm]
      · simp [hc]

/-- running intersection: members sharing `v` are connected through edges whose intersection contains `v` -/
theorem rip_of_max {E : Type} {l r : E → Finset Int} {F : List (Finset Int)} {T : List E} (hj : JOrder F) (hn : F.Nodup)
    (hT : Forest l r T) (hm : ∀ e ∈ T, l e ∈ F ∧ r e ∈ F)
    (hw : ∀ A ∈ F, ∀ B ∈ F, A ≠ B → A ∩ B ≠ ∅ →
      Conn l r (T.filter (fun e => decide ((A ∩ B).card ≤ (l e ∩ r e).card))) A B)
    {v : Int} {A B : Finset Int} (hA : A ∈ F) (hB : B ∈ F) (hvA : v ∈ A) (hvB : v ∈ B) :
    Conn l r (T.filter (fun e => decide (v ∈ l e ∩ r e))) A B := by
  obtain ⟨J, j1, j2, j3⟩ := hj.forest hn
  -- weights
  have hle : (J.map (fun e => (e.1 ∩ e.2).card)).sum ≤ (T.map (fun e => (l e ∩ r e).card)).sum := by
    apply sum_le_of_levels
    intro t
    have c1 := (j1.sublist (List.filter_sublist (p := fun e : Finset Int × Finset Int =>
      decide (t + 1 ≤ (e.1 ∩ e.2).card)))).count (S := F.toFinset) (by
        intro e he
        have := j2 e (List.mem_filter.1 he).1
        exact ⟨by simpa using this.1, by simpa using this.2.1⟩)
    have c2 := (hT.sublist (List.filter_sublist (p := fun e : E =>
      decide (t + 1 ≤ (l e ∩ r e).card)))).count (S := F.toFinset) (by
        intro e he
        have := hm e (List.mem_filter.1 he).1
        exact ⟨by simpa using this.1, by simpa using this.2⟩)
    have c3 : comp l r F.toFinset (T.filter (fun e => decide (t + 1 ≤ (l e ∩ r e).card))) ≤
        comp Prod.fst Prod.snd F.toFinset (J.filter (fun e => decide (t + 1 ≤ (e.1 ∩ e.2).card))) := by
      apply comp_le
      intro e he
      obtain ⟨h1, h2⟩ := List.mem_filter.1 he
      obtain ⟨k1, k2, k3, k4⟩ := j2 e h1
      refine (hw _ k1 _ k2 k3 k4).mono ?_
      intro f hf
      obtain ⟨h3, h4⟩ := List.mem_filter.1 hf
      refine List.mem_filter.2 ⟨h3, ?_⟩
      simp only [decide_eq_true_eq] at h2 h4 ⊢
      omega
    omega
  -- counting per variable
  set U := unionAll F with hU
  have hsub : ∀ A ∈ F, A ⊆ U := fun A hA i hi => (mem_unionAll _ _).2 ⟨A, hA, hi⟩
  have d1 := double_count U (fun e => l e ∩ r e) T
    (fun e he => (Finset.inter_subset_left).trans (hsub _ (hm e he).1))
  have d2 := double_count U (fun A : Finset Int => A) F hsub
  have cnt : ∀ v ∈ U, comp l r (F.filter (fun A => decide (v ∈ A))).toFinset (T.filter (fun e => decide (v ∈ l e ∩ r e))) +
      (T.filter (fun e => decide (v ∈ l e ∩ r e))).length = (F.filter (fun A => decide (v ∈ A))).length := by
    intro v hv
    rw [(hT.sublist List.filter_sublist).count, List.toFinset_card_of_nodup (hn.filter _)]
    intro e he
    obtain ⟨h1, h2⟩ := List.mem_filter.1 he
    simp only [decide_eq_true_eq, Finset.mem_inter] at h2
    simp only [List.mem_toFinset, List.mem_filter, decide_eq_true_eq]
    exact ⟨⟨(hm e h1).1, h2.1⟩, ⟨(hm e h1).2, h2.2⟩⟩
  have hpos : ∀ v ∈ U, (T.filter (fun e => decide (v ∈ l e ∩ r e))).length + 1 ≤
      (F.filter (fun A => decide (v ∈ A))).length := by
    intro v hv
    have := cnt v hv
    have hp : 0 < comp l r (F.filter (fun A => decide (v ∈ A))).toFinset (T.filter (fun e => decide (v ∈ l e ∩ r e))) := by
      obtain ⟨A, hA, hvA⟩ := (mem_unionAll _ _).1 hv
      unfold comp
      refine Finset.card_pos.2 ⟨_, Finset.mem_image_of_mem _ (a := A) ?_⟩
      simpa using ⟨hA, hvA⟩
    omega
  have hsum : ∑ v ∈ U, ((T.filter (fun e => decide (v ∈ l e ∩ r e))).length + 1) =
      ∑ v ∈ U, (F.filter (fun A => decide (v ∈ A))).length := by
    refine Nat.le_antisymm (Finset.sum_le_sum hpos) ?_
    rw [d2, Finset.sum_add_distrib, d1]
    have : (F.map (fun A => A.card)).sum = (F.map Finset.card).sum := rfl
    have hone : ∑ _v ∈ U, 1 = U.card := by simp
    rw [hone]
    omega
  have heq := (Finset.sum_eq_sum_iff_of_le hpos).1 hsum
  have hvU : v ∈ U := hsub A hA hvA
  have h1 := heq v hvU
  have h2 := cnt v hvU
  refine conn_of_comp_le_one (S := (F.filter (fun A => decide (v ∈ A))).toFinset) (by omega) ?_ ?_
  · simpa using ⟨hA, hvA⟩
  · simpa using ⟨hB, hvB⟩

end PyBBN
