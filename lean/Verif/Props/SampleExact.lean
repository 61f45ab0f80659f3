import Verif.Props.Sampling

/-!
# C36: what `get_samples` returns for any evidence on nodes of the network

`c36_rejection_partial` excludes evidence on the node visited last. Here the evidence is arbitrary, and the theorem says exactly which
draws are kept and what is recorded for them.
-/

namespace PyBBN

/-- **C36, for any evidence**. `get_samples` keeps the draws that match the evidence on every evidence node that is followed in the order by a
node without evidence, and writes the evidence values over them. The evidence nodes at the end of the order reject nothing. -/
theorem c36_exact (ps : PySort SortableNode) (ops : List BOp) (hs : (Bbn.run ops).Samplable) (s : LogicSampler)
    (hmake : LogicSampler.make ps (Bbn.run ops) = .ok s) (ht : (Bbn.run ops).Topological s.nodes)
    (evidence : Dict Int Str) (hnd : (Dict.keys evidence).Nodup) (hev : ∀ i ∈ Dict.keys evidence, i ∈ (Bbn.run ops).ids)
    (nSamples : Nat) (hN : 0 < nSamples) (draws : List (List ℚ)) (hu : ∀ u ∈ draws, Uniform s.nodes.length u) (σs : List Asg)
    (hσ : List.Forall₂ ((Bbn.run ops).Draws (Bbn.run ops).sortedParentVars s.nodes) draws σs) :
    let kept := σs.filter (fun σ => decide (Checked s.nodes evidence σ))
    (kept.length < nSamples → s.getSamples evidence nSamples draws = none) ∧
    (nSamples ≤ kept.length → ∃ samples, s.getSamples evidence nSamples draws = some (.ok samples) ∧
      List.Forall₂ (fun r σ => (Bbn.run ops).Sample r (overlay evidence σ)) samples (kept.take nSamples)) := by
  have := sampleLoop_gen (b := Bbn.run ops) (K := Checked s.nodes evidence) (f := overlay evidence)
    (fun _ hu _ hσ => pass_exact ps (bbn_run_inv ops) hs hmake ht hnd hev hu hσ) (N := nSamples) (acc := []) hu hσ (by simpa using hN)
  simp only [List.length_nil, Nat.zero_add, List.nil_append, Nat.sub_zero] at this
  exact this

/-- reading a key past an entry with another key -/
theorem get?_skip (z : Str) {k last : Int} (hk : k ≠ last) : ∀ before after : Dict Int Str,
    Dict.get? (before ++ (last, z) :: after) k = Dict.get? (before ++ after) k
  | [], after => by simp [Dict.get?, Ne.symm hk]
  | p :: before, after => by
      simp only [List.cons_append, Dict.get?]
      split
      · rfl
      · exact get?_skip z hk before after

/-- **C36 fails in the same way for every network and every evidence that includes the node visited last**: the value of that evidence
changes nothing in which draws are kept, it is only written into them. -/
theorem c36_last_ignored (ps : PySort SortableNode) (ops : List BOp) (hs : (Bbn.run ops).Samplable) (s : LogicSampler)
    (hmake : LogicSampler.make ps (Bbn.run ops) = .ok s) (ht : (Bbn.run ops).Topological s.nodes)
    (last : Int) (hlast : s.nodes.getLast? = some last) (before after : Dict Int Str) (x y : Str)
    (hnd : (Dict.keys (before ++ (last, x) :: after)).Nodup) (hev : ∀ i ∈ Dict.keys (before ++ (last, x) :: after), i ∈ (Bbn.run ops).ids)
    (nSamples : Nat) (hN : 0 < nSamples) (draws : List (List ℚ)) (hu : ∀ u ∈ draws, Uniform s.nodes.length u)
    (samples : List (Dict Int Str)) (hx : s.getSamples (before ++ (last, x) :: after) nSamples draws = some (.ok samples)) :
    ∃ samples', s.getSamples (before ++ (last, y) :: after) nSamples draws = some (.ok samples') ∧
      List.Forall₂ (fun r r' => Dict.get? r last = some x ∧ Dict.get? r' last = some y ∧
        ∀ id ∈ (Bbn.run ops).ids, id ≠ last → Dict.get? r' id = Dict.get? r id) samples samples' := by
  have hinv := bbn_run_inv ops
  have hkeys : Dict.keys (before ++ (last, y) :: after) = Dict.keys (before ++ (last, x) :: after) := by simp [Dict.keys]
  have hon := topological_nodup hinv ht
  have hex : ∃ σs, List.Forall₂ ((Bbn.run ops).Draws (Bbn.run ops).sortedParentVars s.nodes) draws σs := by
    clear hx
    induction draws with
    | nil => exact ⟨[], .nil⟩
    | cons u draws ih =>
      obtain ⟨σs, h1⟩ := ih (fun u' hu' => hu u' (List.mem_cons_of_mem _ hu'))
      obtain ⟨σ, h2⟩ := (c36_draws ops hs s.nodes ht u (hu u List.mem_cons_self)).1
      exact ⟨σ :: σs, .cons h2 h1⟩
  obtain ⟨σs, hσ⟩ := hex
  -- nothing comes after the last node
  have hno : ∀ j ∈ s.nodes, ¬ s.nodes.idxOf last < s.nodes.idxOf j := by
    intro j hj hlt
    obtain ⟨l, hl⟩ : ∃ l, s.nodes = l ++ [last] := ⟨s.nodes.dropLast, by
      rw [List.dropLast_append_getLast? last hlast]⟩
    have h1 : last ∉ l := by
      intro hc
      rw [hl, List.nodup_append] at hon
      exact hon.2.2 _ hc _ List.mem_cons_self rfl
    have h2 : s.nodes.idxOf last = l.length := by
      rw [hl, List.idxOf_append_of_notMem h1]; simp
    have h3 := List.idxOf_lt_length_of_mem hj
    rw [hl, List.length_append, List.length_singleton, ← hl] at h3
    omega
  have hiff : ∀ σ, Checked s.nodes (before ++ (last, x) :: after) σ ↔ Checked s.nodes (before ++ (last, y) :: after) σ := by
    intro σ
    unfold Checked
    rw [hkeys]
    constructor
    · intro h kv hkv hj
      rcases List.mem_append.1 hkv with hm | hm
      · exact h kv (List.mem_append_left _ hm) hj
      · rcases List.mem_cons.1 hm with rfl | hm
        · obtain ⟨j, hj1, _, hj3⟩ := hj
          exact absurd hj3 (hno j hj1)
        · exact h kv (List.mem_append_right _ (List.mem_cons_of_mem _ hm)) hj
    · intro h kv hkv hj
      rcases List.mem_append.1 hkv with hm | hm
      · exact h kv (List.mem_append_left _ hm) hj
      · rcases List.mem_cons.1 hm with rfl | hm
        · obtain ⟨j, hj1, _, hj3⟩ := hj
          exact absurd hj3 (hno j hj1)
        · exact h kv (List.mem_append_right _ (List.mem_cons_of_mem _ hm)) hj
  obtain ⟨a1, a2⟩ := c36_exact ps ops hs s hmake ht _ hnd hev nSamples hN draws hu σs hσ
  obtain ⟨_, b2⟩ := c36_exact ps ops hs s hmake ht (before ++ (last, y) :: after) (hkeys ▸ hnd) (hkeys ▸ hev) nSamples hN draws hu σs hσ
  have hfil : σs.filter (fun σ => decide (Checked s.nodes (before ++ (last, y) :: after) σ)) =
      σs.filter (fun σ => decide (Checked s.nodes (before ++ (last, x) :: after) σ)) := by
    apply List.filter_congr
    intro σ _
    exact decide_eq_decide.2 (hiff σ).symm
  rw [hfil] at b2
  by_cases hlt : (σs.filter (fun σ => decide (Checked s.nodes (before ++ (last, x) :: after) σ))).length < nSamples
  · rw [a1 hlt] at hx; cases hx
  obtain ⟨s1, c1, c2⟩ := a2 (by omega)
  obtain ⟨s2, d1, d2⟩ := b2 (by omega)
  rw [hx] at c1
  cases c1
  refine ⟨s2, d1, ?_⟩
  have hget : ∀ (z : Str) (k : Int), k ≠ last → Dict.get? (before ++ (last, z) :: after) k = Dict.get? (before ++ after) k :=
    fun z k hk => get?_skip z hk before after
  have hlm : last ∈ (Bbn.run ops).ids := hev last (by simp [Dict.keys])
  have hgx : Dict.get? (before ++ (last, x) :: after) last = some x := Dict.get?_of_mem hnd (by simp)
  have hgy : Dict.get? (before ++ (last, y) :: after) last = some y := Dict.get?_of_mem (hkeys ▸ hnd) (by simp)
  clear hx d1 a1 a2 b2 hlt hfil
  generalize (σs.filter (fun σ => decide (Checked s.nodes (before ++ (last, x) :: after) σ))).take nSamples = K at c2 d2
  induction c2 generalizing s2 with
  | nil => cases d2; exact .nil
  | @cons r σ l1 l2 hr _ ih =>
    cases d2 with
    | cons hr' hrest =>
      refine .cons ⟨?_, ?_, ?_⟩ (ih _ hrest)
      · rw [hr.2 last hlm]; simp [overlay, hgx]
      · rw [hr'.2 last hlm]; simp [overlay, hgy]
      · intro id hid hne
        rw [hr.2 id hid, hr'.2 id hid]
        simp only [overlay, hget _ id hne]

/-- non-vacuity of both: 1 copies 0 and is visited last. The evidence 1 = on rejects nothing: of the draws off, on, off all three are
returned, with 1 = on written over them -/
example : ∃ s, LogicSampler.make (cpython _) (Bbn.run c36_ops) = .ok s ∧ (Bbn.run c36_ops).Topological s.nodes ∧
    (Bbn.run c36_ops).Samplable ∧ s.nodes.getLast? = some 1 ∧
    (∀ u ∈ [[3/4, 1/2], [1/4, 1/2], [1/2, 0]], Uniform s.nodes.length u) ∧
    sampleRun c36_ops [(1, "on".toList)] 3 [[3/4, 1/2], [1/4, 1/2], [1/2, 0]] =
      some [[(1, "on".toList), (0, "off".toList)], [(1, "on".toList), (0, "on".toList)], [(1, "on".toList), (0, "off".toList)]] ∧
    sampleRun c36_ops [(1, "off".toList)] 3 [[3/4, 1/2], [1/4, 1/2], [1/2, 0]] =
      some [[(1, "off".toList), (0, "off".toList)], [(1, "off".toList), (0, "on".toList)], [(1, "off".toList), (0, "off".toList)]] := by
  obtain ⟨s, h1, h2, _⟩ := c36_false
  have hn := (make_tables _ (bbn_run_inv c36_ops) h1).1
  have hsort : LogicSampler.topologicalSort (cpython _) (Bbn.run c36_ops) = [0, 1] := by decide +kernel
  refine ⟨s, h1, h2, c36_samplable, ?_, ?_, by decide +kernel, by decide +kernel⟩
  · rw [hn, hsort]; rfl
  · rw [hn, hsort]; unfold Uniform; decide +kernel

/-- the theorems at this sampler and these draws: three draws cannot give four samples -/
example : c36_sampler.getSamples [(1, "on".toList)] 4 [[3/4, 1/2], [1/4, 1/2], [1/2, 0]] = none := by
  obtain ⟨_, σs, _, _, h⟩ := c36_no_evidence _ c36_ops c36_samplable _ c36_make c36_topological _ (by simp) c36_uniform
  refine (c36_exact _ c36_ops c36_samplable _ c36_make c36_topological [(1, "on".toList)] (by decide +kernel)
    (by decide +kernel) 4 (by decide) _ c36_uniform σs h).1 (lt_of_le_of_lt (List.length_filter_le _ _) ?_)
  rw [← h.length_eq]
  decide

example := c36_last_ignored _ c36_ops c36_samplable _ c36_make c36_topological 1 (by rw [c36_order]; rfl) [] [] "on".toList "off".toList
  (by decide +kernel) (by decide +kernel) 3 (by decide) _ c36_uniform

/-! ## Evidence about ids that are not in the network -/

/-- **C35 fails for every evidence that mentions an id outside the network**: whatever is drawn, every sample that is returned lacks a node of
the network (and lists the foreign id). -/
theorem c35_foreign_id (ps : PySort SortableNode) (ops : List BOp) (s : LogicSampler) (hmake : LogicSampler.make ps (Bbn.run ops) = .ok s)
    (evidence : Dict Int Str) (hnd : (Dict.keys evidence).Nodup) (i : Int) (hi : i ∈ Dict.keys evidence) (hni : i ∉ (Bbn.run ops).ids)
    (nSamples : Nat) (draws : List (List ℚ)) (samples : List (Dict Int Str)) (h : s.getSamples evidence nSamples draws = some (.ok samples)) :
    ∀ r ∈ samples, i ∈ Dict.keys r ∧ ∃ n ∈ (Bbn.run ops).toGraph.getNodes, n.var.id ∉ Dict.keys r := by
  have hinv := bbn_run_inv ops
  obtain ⟨hnodes, _⟩ := make_tables ps hinv hmake
  have hperm : s.nodes.Perm (Bbn.run ops).ids := by rw [hnodes]; exact topologicalSort_perm ps
  refine (sampleLoop_inv s evidence ?_ draws [] samples (by simp) h).2
  intro u r hr hlen
  obtain ⟨i1, _, _⟩ := drawLoop_inv s evidence _ _ r hnd hr
  have hkeep : i ∈ Dict.keys r := drawLoop_keeps s evidence _ _ r hr i hi
  refine ⟨hkeep, ?_⟩
  by_contra hc
  push Not at hc
  have hsub : (i :: (Bbn.run ops).ids) ⊆ Dict.keys r := by
    intro k hk
    rcases List.mem_cons.1 hk with rfl | hk
    · exact hkeep
    · obtain ⟨n, hn, rfl⟩ := mem_ids.1 hk
      exact hc n hn
  have hl := (List.subperm_of_subset (List.nodup_cons.2 ⟨hni, node_ids_nodup hinv⟩) hsub).length_le
  have hk : (Dict.keys r).length = r.length := by simp [Dict.keys]
  have hlen2 := hperm.length_eq
  rw [List.length_cons, hk, hlen, hlen2] at hl
  have : (Bbn.run ops).ids.length = ((Bbn.run ops).toGraph.getNodes.map (fun n => n.var.id)).length := rfl
  omega

/-- **C36**. If all the evidence is about ids outside the network, `get_samples` never returns: every draw is complete, but the samples are never
of the expected length. -/
theorem c36_foreign_never (ps : PySort SortableNode) (ops : List BOp) (hs : (Bbn.run ops).Samplable) (s : LogicSampler)
    (hmake : LogicSampler.make ps (Bbn.run ops) = .ok s) (ht : (Bbn.run ops).Topological s.nodes)
    (evidence : Dict Int Str) (hnd : (Dict.keys evidence).Nodup) (hne : evidence ≠ []) (hev : ∀ i ∈ Dict.keys evidence, i ∉ (Bbn.run ops).ids)
    (nSamples : Nat) (hN : 0 < nSamples) (draws : List (List ℚ)) (hu : ∀ u ∈ draws, Uniform s.nodes.length u) :
    s.getSamples evidence nSamples draws = none := by
  have hinv := bbn_run_inv ops
  have hex : ∃ σs, List.Forall₂ ((Bbn.run ops).Draws (Bbn.run ops).sortedParentVars s.nodes) draws σs := by
    induction draws with
    | nil => exact ⟨[], .nil⟩
    | cons u draws ih =>
      obtain ⟨σs, h1⟩ := ih (fun u' hu' => hu u' (List.mem_cons_of_mem _ hu'))
      obtain ⟨σ, h2⟩ := (c36_draws ops hs s.nodes ht u (hu u List.mem_cons_self)).1
      exact ⟨σ :: σs, .cons h2 h1⟩
  obtain ⟨σs, hσ⟩ := hex
  have hgen := sampleLoop_gen (b := Bbn.run ops) (s := s) (ev := evidence) (K := fun _ => False) (f := id) (by
    intro u hu σ hσ
    have hz := zip_snd hu.1
    obtain ⟨r1, _⟩ := drawLoop_run ps hinv hs hmake ht hu hσ evidence (u.zip s.nodes) [] evidence rfl (by simp)
    refine ⟨_, r1 ?_, False.elim, fun _ hlen => ?_⟩
    · intro q hq e he
      exact absurd (ht.1.mem_iff.1 (List.of_mem_zip hq).2) (hev q.2 (Dict.mem_keys_of_get? he))
    · obtain ⟨k1, k2⟩ := drawAll_keys σ (u.zip s.nodes) evidence hnd
      obtain ⟨⟨i, x⟩, rest, rfl⟩ := List.exists_cons_of_ne_nil hne
      have hik : i ∈ Dict.keys ((i, x) :: rest) := by simp [Dict.keys]
      have hsub : (i :: s.nodes) ⊆ Dict.keys (drawAll σ (u.zip s.nodes) ((i, x) :: rest)) := by
        intro k hk
        rw [k2, hz]
        rcases List.mem_cons.1 hk with rfl | hk
        · exact Or.inl hik
        · exact Or.inr hk
      have hl := (List.subperm_of_subset (List.nodup_cons.2 ⟨fun hc => hev i hik (ht.1.mem_iff.1 hc), topological_nodup hinv ht⟩) hsub).length_le
      have hk : (Dict.keys (drawAll σ (u.zip s.nodes) ((i, x) :: rest))).length = (drawAll σ (u.zip s.nodes) ((i, x) :: rest)).length := by
        simp [Dict.keys]
      rw [List.length_cons, hk, hlen] at hl
      omega) (N := nSamples) (acc := []) hu hσ (by simpa using hN)
  refine hgen.1 ?_
  rw [List.filter_eq_nil_iff.2 (by simp)]
  simpa using hN

/-- non-vacuity: 7 is not a node. With evidence about 0 as well, a rejected draw (0 = off) is returned, without node 1; with evidence about 7 only,
nothing is returned -/
example : 7 ∉ (Bbn.run c36_ops).ids ∧
    sampleRun c36_ops [(0, "on".toList), (7, "x".toList)] 1 [[3/4, 1/2]] = some [[(0, "on".toList), (7, "x".toList)]] ∧
    sampleRun c36_ops [(7, "x".toList)] 1 [[3/4, 1/2], [1/4, 1/2]] = none := by decide +kernel

example := c35_foreign_id _ c36_ops _ c36_make [(0, "on".toList), (7, "x".toList)] (by decide +kernel) 7 (by decide +kernel) (by decide +kernel)
example := c36_foreign_never _ c36_ops c36_samplable _ c36_make c36_topological [(7, "x".toList)] (by decide +kernel) (by decide +kernel)
  (by decide +kernel) 1 (by decide) _ c36_uniform

end PyBBN
