import Verif.Proofs.SampleChance

/-! The samples that are kept for some observations. -/

namespace PyBBN
open Classical InferenceController Reject

variable {it : SetIter Int} {js : SetIter Str} {ops : List BOp} {jt : JoinTree} {M : Nat}

/-! ## observations that are followed by an unobserved node -/

theorem keys_obsDict (evs : List (Variable × Str)) : Dict.keys (obsDict evs) = evs.map (fun e => e.1.id) := by
  unfold Dict.keys obsDict
  rw [List.map_map]
  rfl

theorem checked_iff (order : List Int) (evs : List (Variable × Str)) (σ : Asg) :
    Checked order (obsDict evs) σ ↔ Matches (obsDict (followed order evs)) σ := by
  unfold Checked Matches
  rw [keys_obsDict]
  unfold followed obsDict
  simp only [List.mem_map, List.mem_filter, decide_eq_true_eq]
  constructor
  · rintro h kv ⟨e, ⟨he, hf⟩, rfl⟩
    exact h _ ⟨e, he, rfl⟩ (by simpa using hf)
  · rintro h kv ⟨e, he, rfl⟩ hf
    exact h _ ⟨e, ⟨he, by simpa using hf⟩, rfl⟩

theorem followed_observations {b : Bbn} {evs : List (Variable × Str)} (h : Observations b evs) (order : List Int) :
    Observations b (followed order evs) := by
  refine ⟨h.nodup.sublist (List.Sublist.map _ List.filter_sublist), fun e he => h.node e (List.mem_of_mem_filter he), fun e he => h.value e (List.mem_of_mem_filter he)⟩

theorem followed_last {order : List Int} (hn : order.Nodup) (evs : List (Variable × Str)) :
    ∀ i, order.getLast? = some i → ∀ e ∈ followed order evs, e.1.id ≠ i := by
  intro i hi e he hei
  obtain ⟨_, hf⟩ := List.mem_filter.1 he
  obtain ⟨j, hj, _, hlt⟩ := of_decide_eq_true hf
  obtain ⟨l, rfl⟩ := List.getLast?_eq_some_iff.1 hi
  have h1 : j = i ∨ j ∈ l := by
    rcases List.mem_append.1 hj with h | h
    · exact Or.inr h
    · exact Or.inl (by simpa using h)
  have h2 : i ∉ l := fun h => (List.nodup_append.1 hn).2.2 i h i (by simp) rfl
  rw [hei, List.idxOf_append_of_notMem h2] at hlt
  rcases h1 with rfl | h1
  · rw [List.idxOf_append_of_notMem h2] at hlt; omega
  · rw [List.idxOf_append_of_mem h1] at hlt
    have := List.idxOf_lt_length_of_mem h1
    omega

theorem followed_eq {b : Bbn} {order : List Int} (hp : order.Perm b.ids) (hn : order.Nodup) {evs : List (Variable × Str)} (ho : Observations b evs)
    (hlast : ∀ i, order.getLast? = some i → ∀ e ∈ evs, e.1.id ≠ i) : followed order evs = evs := by
  apply List.filter_eq_self.2
  intro e he
  apply decide_eq_true
  have hmem : e.1.id ∈ order := by
    obtain ⟨n, hn, e1⟩ := List.mem_map.1 (ho.node e he)
    exact hp.mem_iff.2 (mem_ids.2 ⟨n, hn, by rw [e1]⟩)
  cases hl : order.getLast? with
  | none =>
    rw [List.getLast?_eq_none_iff] at hl
    rw [hl] at hmem; cases hmem
  | some i =>
    obtain ⟨l, rfl⟩ := List.getLast?_eq_some_iff.1 hl
    have h2 : i ∉ l := fun h => (List.nodup_append.1 hn).2.2 i h i (by simp) rfl
    refine ⟨i, by simp, ?_, ?_⟩
    · intro hc
      obtain ⟨a, ha, e1⟩ := List.mem_map.1 hc
      exact hlast i hl a ha e1
    · rcases List.mem_append.1 hmem with h | h
      · rw [List.idxOf_append_of_mem h, List.idxOf_append_of_notMem h2]
        have := List.idxOf_lt_length_of_mem h
        omega
      · exact absurd (by simpa using h) (hlast i hl e he)

/-! ## shares -/

theorem matches_dep {evs : List (Variable × Str)} (ho : Observations (Bbn.run ops) evs) {σ τ : Asg}
    (h : ∀ v ∈ (Bbn.run ops).vars, σ v.id = τ v.id) : Matches (obsDict evs) σ ↔ Matches (obsDict evs) τ := by
  refine forall₂_congr (fun kv hkv => ?_)
  obtain ⟨e, he, rfl⟩ := List.mem_map.1 hkv
  rw [h e.1 (ho.node e he)]

section
variable (hs : (Bbn.run ops).Samplable) (s : LogicSampler) (ht : (Bbn.run ops).Topological s.nodes)
include hs ht

/-- the share of the passes that are kept and draw a joint value with a property, as a sum over joint values -/
theorem frac_kept_sum (hM : 0 < M) {evs : List (Variable × Str)} (ho : Observations (Bbn.run ops) evs) (Q : Asg → Prop)
    (hQ : ∀ σ τ, (∀ v ∈ (Bbn.run ops).vars, σ v.id = τ v.id) → (Q σ ↔ Q τ)) :
    frac (Fin s.nodes.length → Fin M) (fun ω => Kept (Bbn.run ops) s.nodes (obsDict evs) ω ∧ Q (drawn (Bbn.run ops) s.nodes ω)) =
      (((allAsg (Bbn.run ops).vars).filter (fun σ => decide (Matches (obsDict (followed s.nodes evs)) σ ∧ Q σ))).map (fun σ =>
        frac (Fin s.nodes.length → Fin M) (fun ω => (Bbn.run ops).Draws (Bbn.run ops).sortedParentVars s.nodes (gridPass ω) σ))).sum := by
  have h := frac_drawn_sum hs hM ht (fun σ => Matches (obsDict (followed s.nodes evs)) σ ∧ Q σ)
    (fun σ τ h => and_congr (matches_dep (followed_observations ho s.nodes) h) (hQ σ τ h))
  refine Eq.trans ?_ (h.trans ?_)
  · unfold frac
    congr 1
    refine Finset.sum_congr rfl (fun ω _ => ?_)
    by_cases hc : Matches (obsDict (followed s.nodes evs)) (drawn (Bbn.run ops) s.nodes ω) ∧ Q (drawn (Bbn.run ops) s.nodes ω)
    · rw [if_pos hc, if_pos ⟨(checked_iff _ _ _).2 hc.1, hc.2⟩]
    · rw [if_neg hc, if_neg (fun h => hc ⟨(checked_iff _ _ _).1 h.1, h.2⟩)]
  · refine congrArg List.sum (congrArg _ (List.filter_congr (fun σ _ => ?_)))
    exact decide_eq_decide.2 Iff.rfl

end

section
variable (hs : (Bbn.run ops).Samplable) (hg : (Bbn.run ops).Grid M) (s : LogicSampler) (ht : (Bbn.run ops).Topological s.nodes)
include hs hg ht

/-- the share of the passes that are kept and draw a joint value with a property -/
theorem frac_kept {evs : List (Variable × Str)} (ho : Observations (Bbn.run ops) evs) (Q : Asg → Prop)
    (hQ : ∀ σ τ, (∀ v ∈ (Bbn.run ops).vars, σ v.id = τ v.id) → (Q σ ↔ Q τ)) :
    frac (Fin s.nodes.length → Fin M) (fun ω => Kept (Bbn.run ops) s.nodes (obsDict evs) ω ∧ Q (drawn (Bbn.run ops) s.nodes ω)) =
      (((allAsg (Bbn.run ops).vars).filter (fun σ => decide (Matches (obsDict (followed s.nodes evs)) σ ∧ Q σ))).map
        ((Bbn.run ops).boxVolume (Bbn.run ops).sortedParentVars)).sum := by
  rw [frac_kept_sum hs s ht hg.1 ho Q hQ]
  refine congrArg List.sum (List.map_congr_left (fun σ hσ => ?_))
  exact frac_draws (bbn_run_inv ops) hs hg ht (allAsg_mem_dom _ (vars_nodup (bbn_run_inv ops)) σ (List.mem_filter.1 hσ).1)

end

end PyBBN
