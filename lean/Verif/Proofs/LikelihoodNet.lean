import Verif.Proofs.Likelihood

/-! # The likelihood of a data frame under a network with the given structure -/

namespace PyBBN

variable {df : Frame} {st : Dict Str (List Str)} {b : Bbn}

theorem asgOf_var (hi : BbnInv b) {v : Variable} (hv : v ∈ b.vars) (r : List Str) : df.asgOf b r v.id = df.cell r v.name := by
  unfold Frame.asgOf; rw [label_eq hi hv]

theorem asgOf_inDom (hi : BbnInv b) (C : df.Candidate st b) {r : List Str} (hr : r ∈ df.rows) : InDom b.vars (df.asgOf b r) := by
  intro v hv
  rw [asgOf_var hi hv]
  exact C.occurs v hv _ ⟨r, hr, rfl⟩

theorem learned_eq (C : df.Candidate st b) {v : Variable} (hv : v ∈ b.vars) (r : List Str) :
    Factory.learned st df (df.cell r) v.name =
      df.relFreq v.name (df.cell r v.name) ((b.parentVars v.id).map (fun p => (p.name, df.cell r p.name))) := by
  unfold Factory.learned
  refine Frame.relFreq_congr df _ _ ?_
  intro x
  rw [List.mem_map, List.mem_map]
  constructor
  · rintro ⟨p, hp, rfl⟩
    obtain ⟨z, hz, rfl⟩ := List.mem_map.1 ((C.describes.parents v hv p).1 hp)
    exact ⟨z, hz, rfl⟩
  · rintro ⟨z, hz, rfl⟩
    exact ⟨z.name, (C.describes.parents v hv _).2 (List.mem_map.2 ⟨z, hz, rfl⟩), rfl⟩

/-- the relative frequencies as counts of equal keys -/
theorem learned_count (C : df.Candidate st b) {v : Variable} (hv : v ∈ b.vars) {r : List Str} (hr : r ∈ df.rows) :
    Factory.learned st df (df.cell r) v.name =
      ((df.rows.countP (fun s => decide ((b.parentVars v.id).map (fun p => df.cell s p.name) = (b.parentVars v.id).map (fun p => df.cell r p.name) ∧
        df.cell s v.name = df.cell r v.name)) : Nat) : ℚ) /
      (df.rows.countP (fun s => decide ((b.parentVars v.id).map (fun p => df.cell s p.name) = (b.parentVars v.id).map (fun p => df.cell r p.name))) : Nat) ∧
    0 < Factory.learned st df (df.cell r) v.name := by
  have e1 : df.hits ((b.parentVars v.id).map (fun p => (p.name, df.cell r p.name))) =
      df.rows.countP (fun s => decide ((b.parentVars v.id).map (fun p => df.cell s p.name) = (b.parentVars v.id).map (fun p => df.cell r p.name))) := by
    unfold Frame.hits
    congr 1
    funext s
    rw [decide_eq_decide, List.map_inj_left]
    constructor
    · intro h p hp; exact h _ (List.mem_map.2 ⟨p, hp, rfl⟩)
    · intro h x hx
      obtain ⟨p, hp, rfl⟩ := List.mem_map.1 hx
      exact h p hp
  have e2 : df.hits ((v.name, df.cell r v.name) :: (b.parentVars v.id).map (fun p => (p.name, df.cell r p.name))) =
      df.rows.countP (fun s => decide ((b.parentVars v.id).map (fun p => df.cell s p.name) = (b.parentVars v.id).map (fun p => df.cell r p.name) ∧
        df.cell s v.name = df.cell r v.name)) := by
    unfold Frame.hits
    congr 1
    funext s
    rw [decide_eq_decide, List.map_inj_left, List.forall_mem_cons]
    constructor
    · rintro ⟨h1, h⟩; exact ⟨fun p hp => h _ (List.mem_map.2 ⟨p, hp, rfl⟩), h1⟩
    · rintro ⟨h, h1⟩
      refine ⟨h1, ?_⟩
      intro x hx
      obtain ⟨p, hp, rfl⟩ := List.mem_map.1 hx
      exact h p hp
  have p1 : 0 < df.hits ((b.parentVars v.id).map (fun p => (p.name, df.cell r p.name))) := by
    rw [e1]; exact List.countP_pos_iff.2 ⟨r, hr, by simp⟩
  have p2 : 0 < df.hits ((v.name, df.cell r v.name) :: (b.parentVars v.id).map (fun p => (p.name, df.cell r p.name))) := by
    rw [e2]; exact List.countP_pos_iff.2 ⟨r, hr, by simp⟩
  have e : Factory.learned st df (df.cell r) v.name = (df.hits ((v.name, df.cell r v.name) :: (b.parentVars v.id).map (fun p => (p.name, df.cell r p.name))) : ℚ) /
      (df.hits ((b.parentVars v.id).map (fun p => (p.name, df.cell r p.name))) : ℚ) := by
    rw [learned_eq C hv]
    unfold Frame.relFreq
    rw [if_neg (by omega)]
  constructor
  · rw [e, e1, e2]
  · rw [e]
    exact div_pos (by exact_mod_cast p2) (by exact_mod_cast p1)

/-- one node: the product of the table entries that the rows read is largest for the relative frequencies -/
theorem node_gibbs (hi : BbnInv b) (C : df.Candidate st b) {n : BbnNode} (hn : n ∈ b.toGraph.getNodes) :
    (df.rows.map (fun r => b.w n (df.asgOf b r))).prod ≤ (df.rows.map (fun r => Factory.learned st df (df.cell r) n.var.name)).prod ∧
      ((df.rows.map (fun r => b.w n (df.asgOf b r))).prod = (df.rows.map (fun r => Factory.learned st df (df.cell r) n.var.name)).prod →
        ∀ r ∈ df.rows, b.w n (df.asgOf b r) = Factory.learned st df (df.cell r) n.var.name) := by
  have hv : n.var ∈ b.vars := List.mem_map.2 ⟨n, hn, rfl⟩
  let K : List Str → List Str := fun r => (b.parentVars n.var.id).map (fun p => df.cell r p.name)
  let X : List Str → Str := fun r => df.cell r n.var.name
  let f : List Str → Str → ℚ := fun k x =>
    b.w n (Function.update (df.asgOf b ((df.rows.find? (fun r => decide (K r = k))).getD [])) n.var.id x)
  have hf : ∀ r ∈ df.rows, ∀ x, f (K r) x = b.w n (Function.update (df.asgOf b r) n.var.id x) := by
    intro r hr x
    change b.w n (Function.update (df.asgOf b ((df.rows.find? (fun s => decide (K s = K r))).getD [])) n.var.id x) = _
    cases hfd : df.rows.find? (fun s => decide (K s = K r)) with
    | none => exact absurd (List.find?_eq_none.1 hfd r hr) (by simp)
    | some s =>
      have hk := List.find?_some hfd
      rw [decide_eq_true_eq] at hk
      have hk' := List.map_inj_left.1 hk
      unfold Bbn.w
      refine cptAt_dep _ _ _ _ _ ?_
      intro i hi'
      unfold vids at hi'
      rw [List.map_append, List.mem_append] at hi'
      by_cases hin : i = n.var.id
      · subst hin; simp
      · rw [Function.update_of_ne hin, Function.update_of_ne hin]
        rcases hi' with h | h
        · obtain ⟨p, hp, rfl⟩ := List.mem_map.1 h
          have hpv := parentVars_sub hi _ p hp
          rw [asgOf_var hi hpv, asgOf_var hi hpv]
          exact hk' p hp
        · exact absurd (by simpa using h) hin
  have hfx : ∀ r ∈ df.rows, f (K r) (X r) = b.w n (df.asgOf b r) := by
    intro r hr
    rw [hf r hr]
    congr 1
    have : X r = df.asgOf b r n.var.id := (asgOf_var hi hv r).symm
    rw [this, Function.update_eq_self]
  have havg := ratio_average df.rows K X f (by
    intro r hr s _
    rw [hf r hr]; exact Bbn.w_nonneg C.wf hn _) (by
    intro r hr
    have hsub : (df.rows.map X).toFinset ⊆ n.var.values.toFinset := by
      intro x hx
      rw [List.mem_toFinset] at hx ⊢
      obtain ⟨s, hs, rfl⟩ := List.mem_map.1 hx
      exact C.occurs _ hv _ ⟨s, hs, rfl⟩
    calc ∑ x ∈ (df.rows.map X).toFinset, f (K r) x
        ≤ ∑ x ∈ n.var.values.toFinset, f (K r) x := Finset.sum_le_sum_of_subset_of_nonneg hsub (by
            intro x _ _
            rw [hf r hr]; exact Bbn.w_nonneg C.wf hn _)
      _ = (n.var.values.map (fun x => b.w n (Function.update (df.asgOf b r) n.var.id x))).sum := by
            rw [List.sum_toFinset _ (C.wf.values n hn)]
            congr 1
            exact List.map_congr_left (fun x _ => hf r hr x)
      _ = 1 := by
            rw [sum_row hi C.wf hn]
            exact C.normalized n hn _ (asgOf_inDom hi C hr)
      _ ≤ 1 := le_refl _)
  refine gibbs (fun r hr => (learned_count C hv hr).2) (fun r _ => Bbn.w_nonneg C.wf hn _) ?_
  refine le_trans (le_of_eq ?_) havg
  congr 1
  refine List.map_congr_left ?_
  intro r hr
  rw [hfx r hr, (learned_count C hv hr).1]

/-- the likelihood, node by node -/
theorem likelihood_nodes (df : Frame) (b : Bbn) :
    df.likelihood b = (b.toGraph.getNodes.map (fun n => (df.rows.map (fun r => b.w n (df.asgOf b r))).prod)).prod := by
  rw [← prod_comm]
  unfold Frame.likelihood Bbn.weight
  congr 1
  refine List.map_congr_left ?_
  intro r _
  congr 1
  refine List.map_congr_left ?_
  intro n _
  simp [noEvidence, Bbn.w]

theorem candidate_names (hst : ∀ c, c ∈ Dict.keys st ↔ c ∈ df.columns) (hc : df.columns.Nodup) (C : df.Candidate st b) :
    (b.vars.map Variable.name).Perm df.columns :=
  (List.perm_ext_iff_of_nodup C.names hc).2 (fun c => (C.describes.same c).symm.trans (hst c))

/-- the likelihood of the relative frequencies -/
def Frame.best (df : Frame) (st : Dict Str (List Str)) : ℚ :=
  (df.columns.map (fun c => (df.rows.map (fun r => Factory.learned st df (df.cell r) c)).prod)).prod

theorem likelihood_le (hst : ∀ c, c ∈ Dict.keys st ↔ c ∈ df.columns) (hc : df.columns.Nodup) (hi : BbnInv b) (C : df.Candidate st b) :
    df.likelihood b ≤ df.best st ∧
      (df.likelihood b = df.best st ↔ ∀ n ∈ b.toGraph.getNodes, ∀ r ∈ df.rows, b.w n (df.asgOf b r) = Factory.learned st df (df.cell r) n.var.name) := by
  have hbest : df.best st = (b.toGraph.getNodes.map (fun n => (df.rows.map (fun r => Factory.learned st df (df.cell r) n.var.name)).prod)).prod := by
    unfold Frame.best
    rw [← ((candidate_names hst hc C).map _).prod_eq]
    unfold Bbn.vars
    rw [List.map_map, List.map_map]
    rfl
  have hg := prod_le_strict (l := b.toGraph.getNodes)
    (p := fun n => (df.rows.map (fun r => Factory.learned st df (df.cell r) n.var.name)).prod)
    (q := fun n => (df.rows.map (fun r => b.w n (df.asgOf b r))).prod)
    (by
      intro n hn
      refine List.prod_pos ?_
      intro y hy
      obtain ⟨r, hr, rfl⟩ := List.mem_map.1 hy
      exact (learned_count C (List.mem_map.2 ⟨n, hn, rfl⟩) hr).2)
    (by
      intro n hn
      refine List.prod_nonneg ?_
      intro y hy
      obtain ⟨r, hr, rfl⟩ := List.mem_map.1 hy
      exact Bbn.w_nonneg C.wf hn _)
    (by
      intro n hn
      have := (node_gibbs hi C hn).1
      exact this)
  rw [likelihood_nodes, hbest]
  refine ⟨hg.1, fun e n hn => (node_gibbs hi C hn).2 (hg.2 e n hn), fun h => ?_⟩
  congr 1
  refine List.map_congr_left ?_
  intro n hn
  congr 1
  exact List.map_congr_left (h n hn)

end PyBBN
