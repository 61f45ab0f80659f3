import Verif.Proofs.SamplingRun
import Verif.Proofs.Remove

/-! The sampler on an order in which a node comes before one of its parents. -/

namespace PyBBN
section
variable {b : Bbn}

/-- the constructor succeeds on networks fit for sampling -/
theorem make_exists (ps : PySort SortableNode) (h : BbnInv b) (hs : b.Samplable) : ∃ s, LogicSampler.make ps b = .ok s := by
  obtain ⟨f, hf⟩ : ∃ f : BbnNode → Int × Table, ∀ n ∈ b.toGraph.getNodes, (do
      let parents ← (b.getParentsOrdered n.var.id).mapM (fun pa => Dict.getItem b.nodes pa)
      let t ← Table.makeWith (cumsum 0) n parents
      (.ok (n.var.id, t) : Py (Int × Table))) = .ok (f n) := by
    classical
    have key : ∀ n ∈ b.toGraph.getNodes, ∃ kt, (do
      let parents ← (b.getParentsOrdered n.var.id).mapM (fun pa => Dict.getItem b.nodes pa)
      let t ← Table.makeWith (cumsum 0) n parents
      (.ok (n.var.id, t) : Py (Int × Table))) = .ok kt := by
      intro n hn
      obtain ⟨t, ht, _⟩ := table_value (tableOk h hs hn)
      refine ⟨(n.var.id, t), ?_⟩
      rw [tableParents_mapM h]
      simp only [bind, Except.bind]
      unfold Table.make at ht
      rw [ht]
    refine ⟨fun n => if hn : n ∈ b.toGraph.getNodes then (key n hn).choose else (0, ⟨n, [], [], .inl []⟩), ?_⟩
    intro n hn
    simp only [hn, dite_true]
    exact (key n hn).choose_spec
  unfold LogicSampler.make LogicSampler.makeWith LogicSampler.getTablesWith
  rw [mapM_ok _ f _ hf]
  exact ⟨_, rfl⟩

theorem table_parentIds {n : BbnNode} {ps : List BbnNode} {t : Table} (h : Table.make n ps = .ok t) (hne : ps ≠ []) :
    t.parentIds = ps.map (fun p => p.var.id) ∧ t.hasParents = true := by
  unfold Table.make Table.makeWith at h
  simp only [if_neg hne] at h
  split at h
  · cases h
  · cases h
    refine ⟨rfl, ?_⟩
    unfold Table.hasParents
    simp only [decide_eq_true_eq]
    rw [(sortBy_perm _ ps).length_eq]
    exact List.length_pos_iff.2 hne

/-- without a value for one of the parents `get_value` raises `KeyError` -/
theorem getValue_missing (ps : PySort SortableNode) (h : BbnInv b) {s : LogicSampler} (hm : LogicSampler.make ps b = .ok s)
    {n : BbnNode} (hn : n ∈ b.toGraph.getNodes) {pa : Int} (hpa : pa ∈ ddGet b.parents n.var.id) : ∃ t, Dict.get? s.tables n.var.id = some t ∧
      ∀ p sample, pa ∉ Dict.keys sample → t.getValue p sample = .error .keyError := by
  obtain ⟨t, ht, hmk⟩ := (make_tables ps h hm).2 n hn
  refine ⟨t, ht, ?_⟩
  intro p sample hk
  have hmem : pa ∈ (b.tableParents n.var.id).map (fun p => p.var.id) := by
    rw [tableParents_ids h]; exact mem_getParentsOrdered.2 hpa
  obtain ⟨h1, h2⟩ := table_parentIds hmk (by rintro e; rw [e] at hmem; simp at hmem)
  unfold Table.getValue
  rw [h2, h1]
  simp only [Bool.not_true, Bool.false_eq_true, if_false]
  rw [mapM_getItem_missing hk hmem]
  rfl

/-- a node that comes before one of its parents raises `KeyError` -/
theorem drawLoop_fails (ps : PySort SortableNode) (h : BbnInv b) (hs : b.Samplable) {s : LogicSampler} (hm : LogicSampler.make ps b = .ok s) :
    ∀ (l : List (ℚ × Int)) (pre : List Int) (sample : Dict Int Str) (σ : Asg), InDom b.vars σ →
      (∀ k, k ∈ Dict.keys sample ↔ k ∈ pre) → (∀ k ∈ pre, Dict.get? sample k = some (σ k)) → (∀ q ∈ l, q.2 ∈ b.ids ∧ 0 ≤ q.1 ∧ q.1 < 1) →
      (pre ++ l.map Prod.snd).Nodup →
      (∃ l1 q l2, l = l1 ++ q :: l2 ∧ ∃ pa ∈ ddGet b.parents q.2, pa ∉ pre ++ l1.map Prod.snd) →
      s.drawLoop [] l sample = .error .keyError
  | [], _, _, _, _, _, _, _, _, hbad => by
      obtain ⟨l1, q, l2, e, _⟩ := hbad
      simp at e
  | (p, id) :: l, pre, sample, σ, hσ, hkeys, hread, hq, hnd, hbad => by
      obtain ⟨hid, h0, h1⟩ := hq _ List.mem_cons_self
      obtain ⟨n, hn, rfl⟩ := mem_ids.1 hid
      by_cases hpar : ∀ pa ∈ ddGet b.parents n.var.id, pa ∈ pre
      · obtain ⟨t, ht, hval⟩ := value_of_draw ps h hs hm hn
        obtain ⟨i, hi, hv, _⟩ := hval σ hσ p h0 h1 sample (fun pa hpa => hread pa (hpar pa hpa))
        have hnot : n.var.id ∉ pre := by
          intro hc
          rw [List.nodup_append] at hnd
          exact hnd.2.2 _ hc n.var.id (by simp) rfl
        have hstep : s.drawLoop [] ((p, n.var.id) :: l) sample = s.drawLoop [] l (Dict.set sample n.var.id n.var.values[i]) := by
          simp only [LogicSampler.drawLoop]
          rw [Dict.getItem_of_get? ht]
          simp only [bind, Except.bind]
          rw [hv]
          rfl
        rw [hstep]
        refine drawLoop_fails ps h hs hm l (pre ++ [n.var.id]) _ (Function.update σ n.var.id n.var.values[i]) ?_ ?_ ?_
          (fun q hq' => hq q (List.mem_cons_of_mem _ hq')) (by simpa using hnd) ?_
        · intro v hvv
          obtain ⟨m, hmn, rfl⟩ := List.mem_map.1 hvv
          by_cases e : m.var.id = n.var.id
          · have := node_of_id h hmn hn e
            subst this
            rw [Function.update_self]
            exact List.getElem_mem hi
          · rw [Function.update_of_ne e]
            exact hσ _ hvv
        · intro k
          rw [Dict.mem_keys_set, hkeys]
          simp [or_comm]
        · intro k hk
          rcases List.mem_append.1 hk with hk | hk
          · have hne : k ≠ n.var.id := by rintro rfl; exact hnot hk
            rw [Dict.get?_set_ne _ _ (fun e => hne e.symm), Function.update_of_ne hne]
            exact hread k hk
          · rw [List.mem_singleton] at hk
            subst hk
            simp [Dict.get?_set]
        · obtain ⟨l1, q, l2, e, pa, hpa, hnp⟩ := hbad
          cases l1 with
          | nil =>
            simp only [List.nil_append, List.cons.injEq] at e
            obtain ⟨rfl, _⟩ := e
            simp only [List.map_nil, List.append_nil] at hnp
            exact absurd (hpar pa hpa) hnp
          | cons x l1 =>
            simp only [List.cons_append, List.cons.injEq] at e
            obtain ⟨rfl, e⟩ := e
            exact ⟨l1, q, l2, e, pa, hpa, by simpa using hnp⟩
      · push Not at hpar
        obtain ⟨pa, hpa, hnp⟩ := hpar
        obtain ⟨t, ht, hval⟩ := getValue_missing ps h hm hn hpa
        simp only [LogicSampler.drawLoop]
        rw [Dict.getItem_of_get? ht]
        simp only [bind, Except.bind]
        rw [hval p sample (fun hc => hnp ((hkeys pa).1 hc))]

/-- if a node comes before one of its parents, `get_samples` without evidence raises `KeyError` on every draw -/
theorem getSamples_raises (ps : PySort SortableNode) (h : BbnInv b) (hs : b.Samplable) {s : LogicSampler} (hm : LogicSampler.make ps b = .ok s)
    (ht : ¬ b.Topological s.nodes) {u : List ℚ} (hu : Uniform s.nodes.length u) (rest : List (List ℚ)) (N : Nat) :
    s.getSamples [] N (u :: rest) = some (.error .keyError) := by
  have hperm : s.nodes.Perm b.ids := by rw [(make_tables ps h hm).1]; exact topologicalSort_perm ps
  have hnd : s.nodes.Nodup := hperm.nodup_iff.2 (node_ids_nodup h)
  have hz := zip_snd hu.1
  obtain ⟨σ, hσ⟩ := inDom_exists hs.nonempty h
  have hfail : s.drawLoop [] (u.zip s.nodes) [] = .error .keyError := by
    refine drawLoop_fails ps h hs hm (u.zip s.nodes) [] [] σ hσ (by simp [Dict.keys]) (by simp) ?_ (by rw [hz]; simpa using hnd) ?_
    · intro q hq
      have h2 : q.2 ∈ s.nodes := by rw [← hz]; exact List.mem_map_of_mem hq
      exact ⟨hperm.mem_iff.1 h2, hu.2 _ (List.of_mem_zip hq).1⟩
    · have hex : ∃ e ∈ b.toGraph.getEdges, ¬ s.nodes.idxOf e.i.var.id < s.nodes.idxOf e.j.var.id := by
        by_contra hc
        push Not at hc
        exact ht ⟨hperm, hc⟩
      obtain ⟨e, he, hlt⟩ := hex
      have hem := h.einv.em e he
      have hpar : e.i.var.id ∈ ddGet b.parents e.j.var.id := (h.par _ _).2 hem
      have hj : e.j.var.id ∈ s.nodes := hperm.mem_iff.2 (by
        have := (h.ginv.emNodes _ _ hem).2
        rw [← vids_vars h] at this
        unfold vids Bbn.vars at this
        rw [List.map_map] at this
        exact this)
      have hk : s.nodes.idxOf e.j.var.id < (u.zip s.nodes).length := by
        have h1 := List.idxOf_lt_length_iff.2 hj
        have h2 : (u.zip s.nodes).length = s.nodes.length := by rw [← List.length_map (f := Prod.snd), hz]
        omega
      refine ⟨(u.zip s.nodes).take (s.nodes.idxOf e.j.var.id), (u.zip s.nodes)[s.nodes.idxOf e.j.var.id], (u.zip s.nodes).drop (s.nodes.idxOf e.j.var.id + 1), ?_, e.i.var.id, ?_, ?_⟩
      · rw [List.cons_getElem_drop_succ, List.take_append_drop]
      · have : ((u.zip s.nodes)[s.nodes.idxOf e.j.var.id]).2 = e.j.var.id := by
          simp
        rw [this]
        exact hpar
      · simp only [List.nil_append]
        rw [List.map_take, hz]
        intro hc
        obtain ⟨k, hk1, hk2⟩ := List.mem_take_iff_getElem.1 hc
        rw [← hk2, hnd.idxOf_getElem] at hlt
        omega
  unfold LogicSampler.getSamples
  rw [LogicSampler.sampleLoop]
  rw [hfail]

end
end PyBBN
