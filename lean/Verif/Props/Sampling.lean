import Verif.Proofs.SamplingRun
import Verif.Props.Graphs

/-! # C33 – C37: the logic sampler -/

namespace PyBBN

/-! ## C33 -/

/-- `Table(node, parents)` works and `get_value(p, sample)` returns value number `i` of the node exactly when `p` lies between
the cumulative probabilities before and after `i` in the CPT row selected by the sampled parent values -/
def InverseCdf (node : BbnNode) (parents : List BbnNode) : Prop :=
  ∃ t, Table.make node parents = .ok t ∧
    ∀ σ, InDom (parents.map BbnNode.var) σ → (cptRow node.probs (parents.map BbnNode.var) node.var σ).sum = 1 →
      ∀ sample, (∀ p ∈ parents, Dict.get? sample p.var.id = some (σ p.var.id)) →
        ∀ p, 0 ≤ p → p < 1 → ∀ i (hi : i < node.var.values.length),
          t.getValue p sample = .ok node.var.values[i] ↔ InInterval (cptRow node.probs (parents.map BbnNode.var) node.var σ) i p

/-- a CPT with an entry for every combination of values -/
def FullCpt (node : BbnNode) (parents : List BbnNode) : Prop :=
  ((parents.map BbnNode.var ++ [node.var]).map (fun v => v.values.length)).prod ≤ node.probs.length

/-- **C33**, proved for parents passed in ascending order of their ids (as `LogicSampler` does) whose values contain no comma.
Missing: values with commas, see `c33_false`. -/
theorem c33_inverse_cdf_partial (node : BbnNode) (parents : List BbnNode)
    (asc : (parents.map (fun p => p.var.id)).Pairwise (· < ·)) (pvals : ∀ p ∈ parents, p.var.values.Nodup)
    (comma : ∀ p ∈ parents, ∀ x ∈ p.var.values, ',' ∉ x) (vals : node.var.values.Nodup) (nonempty : node.var.values ≠ [])
    (nonneg : ∀ p ∈ node.probs, 0 ≤ p) (full : FullCpt node parents) : InverseCdf node parents := by
  obtain ⟨t, h1, h2⟩ := table_value ⟨asc, pvals, comma, vals, nonempty, nonneg⟩
  refine ⟨t, h1, ?_⟩
  intro σ hσ hsum sample hread p h0 h1' i hi
  have hlen : (rowIdx (parents.map BbnNode.var) σ + 1) * node.var.values.length ≤ node.probs.length := by
    refine le_trans ?_ full
    rw [List.map_append, List.prod_append]
    simp only [List.map_cons, List.map_nil, List.prod_cons, List.prod_nil, mul_one]
    exact Nat.mul_le_mul_right _ (rowIdx_lt σ _ hσ)
  obtain ⟨j, hj, e, hint⟩ := h2 σ hσ hlen hsum sample hread p h0 h1'
  rw [e]
  constructor
  · intro hx
    have := (vals.getElem_inj_iff (hi := hj) (hj := hi)).1 (Except.ok.inj hx)
    rw [← this]; exact hint
  · intro hint'
    have := inInterval_unique (cptRow_nonneg nonneg _ _ _) hint hint'
    subst this
    rfl

/-- the widths of the intervals are the CPT entries, and with a row summing to 1 every number in [0, 1) falls in exactly one -/
theorem c33_interval_widths (probs : List ℚ) (parents : List Variable) (v : Variable) (σ : Asg) (hx : σ v.id ∈ v.values)
    (nonneg : ∀ p ∈ probs, 0 ≤ p) (hsum : (cptRow probs parents v σ).sum = 1) :
    ((cptRow probs parents v σ).take (v.values.idxOf (σ v.id) + 1)).sum - ((cptRow probs parents v σ).take (v.values.idxOf (σ v.id))).sum =
      cptAt probs parents v σ ∧
    ∀ p, 0 ≤ p → p < 1 → ∃! i, i < v.values.length ∧ InInterval (cptRow probs parents v σ) i p := by
  refine ⟨cptRow_width hx, ?_⟩
  intro p h0 h1
  obtain ⟨i, hi, hint⟩ := inInterval_exists (cptRow_nonneg nonneg parents v σ) hsum h0 h1
  rw [cptRow_length] at hi
  exact ⟨i, ⟨hi, hint⟩, fun j hj => inInterval_unique (cptRow_nonneg nonneg parents v σ) hj.2 hint⟩

def c33_pa : BbnNode := ⟨⟨1, "p".toList, ["a".toList, "a,2=b".toList]⟩, [1/2, 1/2]⟩
def c33_pb : BbnNode := ⟨⟨2, "q".toList, ["c".toList, "b,2=c".toList]⟩, [1/2, 1/2]⟩
def c33_ch : BbnNode := mkNode 3 "r" [1, 0, 1, 0, 0, 1, 1, 0]

/-- **C33 is false of the code**: the keys of two different rows are both `1=a,2=b,2=c`, so the sampled parents 1 = "a",
2 = "b,2=c" select the row of 1 = "a,2=b", 2 = "c". -/
theorem c33_false : ([c33_pa, c33_pb].map (fun p => p.var.id)).Pairwise (· < ·) ∧ (∀ p ∈ [c33_pa, c33_pb], p.var.values.Nodup) ∧
    c33_ch.var.values.Nodup ∧ (∀ p ∈ c33_ch.probs, 0 ≤ p) ∧ FullCpt c33_ch [c33_pa, c33_pb] ∧ ¬ InverseCdf c33_ch [c33_pa, c33_pb] := by
  refine ⟨by decide +kernel, by decide +kernel, by decide +kernel, by decide +kernel, by unfold FullCpt; decide +kernel, ?_⟩
  rintro ⟨t, h1, h2⟩
  have hσ : InDom ([c33_pa, c33_pb].map BbnNode.var) (fun i => if i = 1 then "a".toList else "b,2=c".toList) := by
    intro v hv
    simp only [List.map_cons, List.map_nil, List.mem_cons, List.not_mem_nil, or_false] at hv
    rcases hv with rfl | rfl <;> decide +kernel
  have := h2 (fun i => if i = 1 then "a".toList else "b,2=c".toList) hσ (by decide +kernel)
    [(1, "a".toList), (2, "b,2=c".toList)] (by decide +kernel) (1/2) (by norm_num) (by norm_num) 0 (by decide +kernel)
  have hon := this.2 (by decide +kernel)
  have e : ((Table.make c33_ch [c33_pa, c33_pb]).val?.bind (fun t => (t.getValue (1/2) [(1, "a".toList), (2, "b,2=c".toList)]).val?)) =
      some "off".toList := by decide +kernel
  rw [h1] at e
  change (t.getValue (1/2) [(1, "a".toList), (2, "b,2=c".toList)]).val? = _ at e
  rw [hon] at e
  revert e
  decide +kernel

/-- parents passed in another order cannot be looked up at all -/
example : ((Table.make (mkNode 3 "r" [1, 0, 1, 0, 0, 1, 1, 0]) [mkNode 2 "b" [1/2, 1/2], mkNode 1 "a" [1/2, 1/2]]).val?.bind
    (fun t => (t.getValue (1/2) [(1, "on".toList), (2, "off".toList)]).err?)) = some .keyError := by decide +kernel

/-- non-vacuity: a node with two parents, and the values at the boundaries of a row 1/4, 3/4 -/
example : InverseCdf (mkNode 3 "c" [1/2, 1/2, 1/4, 3/4, 0, 1, 1, 0]) [mkNode 1 "a" [1/2, 1/2], mkNode 2 "b" [1/2, 1/2]] :=
  c33_inverse_cdf_partial _ _ (by decide +kernel) (by decide +kernel) (by decide +kernel) (by decide +kernel) (by decide +kernel)
    (by decide +kernel) (by unfold FullCpt; decide +kernel)

example : [0, 1/8, 1/4, 1/2, 99/100].map (fun p => ((Table.make (mkNode 3 "c" [1/2, 1/2, 1/4, 3/4, 0, 1, 1, 0])
    [mkNode 1 "a" [1/2, 1/2], mkNode 2 "b" [1/2, 1/2]]).val?.bind (fun t => (t.getValue p [(1, "on".toList), (2, "off".toList)]).val?))) =
    [some "on".toList, some "on".toList, some "off".toList, some "off".toList, some "off".toList] := by decide +kernel

/-- the second row of that CPT: its entry for `off` is 3/4, and every number falls in one interval -/
example := c33_interval_widths [1/2, 1/2, 1/4, 3/4, 0, 1, 1, 0] [(mkNode 1 "a" []).var, (mkNode 2 "b" []).var] (mkNode 3 "c" []).var
  (fun i => if i = 1 then "on".toList else "off".toList) (by decide +kernel) (by decide +kernel) (by decide +kernel)

/-! ## C34 -/

/-- the order is always a rearrangement of the node ids -/
theorem c34_permutation (ps : PySort SortableNode) (b : Bbn) : (LogicSampler.topologicalSort ps b).Perm b.ids := topologicalSort_perm ps

/-- **C34**, proved for networks in which "is a parent of, or unrelated with a smaller id" is transitive; in particular
(`c34_ascending_edges`) when every edge goes from a smaller id to a larger one. Missing: other acyclic networks, see `c34_false`. -/
theorem c34_parents_first_partial (ps : PySort SortableNode) (ops : List BOp) (hac : Acyclic (fun p c => (p, c) ∈ BOp.edges ops))
    (htr : ∀ x ∈ (Bbn.run ops).ids, ∀ y ∈ (Bbn.run ops).ids, ∀ z ∈ (Bbn.run ops).ids,
      ((x, y) ∈ BOp.edges ops ∨ ((y, x) ∉ BOp.edges ops ∧ x < y)) → ((y, z) ∈ BOp.edges ops ∨ ((z, y) ∉ BOp.edges ops ∧ y < z)) →
      ((x, z) ∈ BOp.edges ops ∨ ((z, x) ∉ BOp.edges ops ∧ x < z))) :
    (Bbn.run ops).Topological (LogicSampler.topologicalSort ps (Bbn.run ops)) := by
  have hinv := bbn_run_inv ops
  have hedge : ∀ p c, p ∈ ddGet (Bbn.run ops).parents c ↔ (p, c) ∈ BOp.edges ops := by
    intro p c
    rw [hinv.par, ← c03_bbn_edges_requested]
    constructor
    · intro h
      obtain ⟨e, he, h1, h2⟩ := hinv.listed p c h
      exact ⟨e, he, h1, h2⟩
    · rintro ⟨e, he, rfl, rfl⟩
      exact hinv.einv.em e he
  apply topologicalSort_ok ps hinv
  · intro c hc
    exact hac c (Relation.TransGen.single ((hedge c c).1 hc))
  · intro x hx y hy z hz h1 h2
    unfold Bbn.Before at h1 h2 ⊢
    simp only [hedge] at h1 h2 ⊢
    exact htr x hx y hy z hz h1 h2

/-- **C34** for networks whose edges all go from a smaller id to a larger id -/
theorem c34_ascending_edges (ps : PySort SortableNode) (ops : List BOp) (h : ∀ e ∈ BOp.edges ops, e.1 < e.2) :
    (Bbn.run ops).Topological (LogicSampler.topologicalSort ps (Bbn.run ops)) := by
  apply c34_parents_first_partial
  · intro a ha
    have key : ∀ x y, Relation.TransGen (fun p c => (p, c) ∈ BOp.edges ops) x y → x < y := by
      intro x y hxy
      induction hxy with
      | single h1 => exact h _ h1
      | tail _ h1 ih => exact lt_trans ih (h _ h1)
    exact lt_irrefl _ (key a a ha)
  · have e : ∀ x y, ((x, y) ∈ BOp.edges ops ∨ ((y, x) ∉ BOp.edges ops ∧ x < y)) ↔ x < y := by
      intro x y
      constructor
      · rintro (h1 | h1)
        · exact h _ h1
        · exact h1.2
      · intro h1
        exact Or.inr ⟨fun h2 => absurd (h _ h2) (not_lt.2 (le_of_lt h1)), h1⟩
    intro x _ y _ z _ h1 h2
    rw [e] at h1 h2 ⊢
    exact lt_trans h1 h2

/-- nodes 0, 1, 2 with the single edge 2 → 0 -/
def c34_ops : List BOp := [.addNode (mkNode 0 "a" [1/2, 1/2, 1/4, 3/4]), .addNode (mkNode 1 "b" [1/2, 1/2]),
  .addNode (mkNode 2 "c" [1/2, 1/2]), .addEdge (mkNode 2 "c" [1/2, 1/2]) (mkNode 0 "a" [1/2, 1/2, 1/4, 3/4])]

/-- **C34 is false of the code**: with CPython's sort the nodes 0, 1, 2 stay in this order although 2 is the parent of 0 (the
comparator says 0 < 1 < 2 < 0), and `get_samples` raises `KeyError` for every draw. -/
theorem c34_false : Acyclic (fun p c => (p, c) ∈ BOp.edges c34_ops) ∧
    LogicSampler.topologicalSort (cpython _) (Bbn.run c34_ops) = [0, 1, 2] ∧
    ¬ (Bbn.run c34_ops).Topological (LogicSampler.topologicalSort (cpython _) (Bbn.run c34_ops)) ∧
    ∃ s, LogicSampler.make (cpython _) (Bbn.run c34_ops) = .ok s ∧ ∀ p q r rest N,
      s.getSamples [] N ([p, q, r] :: rest) = some (.error .keyError) := by
  have hsort : LogicSampler.topologicalSort (cpython _) (Bbn.run c34_ops) = [0, 1, 2] := by decide +kernel
  refine ⟨?_, hsort, ?_, ?_⟩
  · have e : BOp.edges c34_ops = [(2, 0)] := by decide +kernel
    rw [e]
    have key : ∀ x y, Relation.TransGen (fun p c : Int => (p, c) ∈ [((2 : Int), (0 : Int))]) x y → x = 2 ∧ y = 0 := by
      intro x y hxy
      induction hxy with
      | single h1 => simpa using h1
      | tail _ h1 ih => simp at h1; omega
    intro a ha
    have := key a a ha
    omega
  · rintro ⟨_, h2⟩
    rw [hsort] at h2
    revert h2
    decide +kernel
  · have hok : ((LogicSampler.make (cpython _) (Bbn.run c34_ops)).val?.map (fun s => (s.nodes, Dict.get? s.tables 0))) =
        some ([0, 1, 2], (Table.make (mkNode 0 "a" [1/2, 1/2, 1/4, 3/4]) [mkNode 2 "c" [1/2, 1/2]]).val?) := by decide +kernel
    cases hmk : LogicSampler.make (cpython _) (Bbn.run c34_ops) with
    | error e => rw [hmk] at hok; cases hok
    | ok s =>
      refine ⟨s, rfl, ?_⟩
      rw [hmk] at hok
      simp only [Py.val?, Option.map_some, Option.some.injEq, Prod.mk.injEq] at hok
      obtain ⟨hn, ht⟩ := hok
      obtain ⟨t, htm, hpid⟩ : ∃ t, Table.make (mkNode 0 "a" [1/2, 1/2, 1/4, 3/4]) [mkNode 2 "c" [1/2, 1/2]] = .ok t ∧
          t.parentIds = [2] ∧ t.hasParents = true := ⟨_, rfl, rfl, rfl⟩
      rw [htm] at ht
      intro p q r rest N
      have hg : t.getValue p [] = .error .keyError := by
        unfold Table.getValue
        rw [hpid.1, hpid.2]
        rfl
      unfold LogicSampler.getSamples
      simp only [LogicSampler.sampleLoop, hn, List.zip_cons_cons, LogicSampler.drawLoop]
      rw [Dict.getItem_of_get? ht]
      simp only [bind, Except.bind]
      rw [hg]

/-- non-vacuity: edges 0 → 2, 1 → 2, 2 → 5 inserted against the order of the ids; and a descending edge 4 → 3 -/
example : (Bbn.run [.addEdge (mkNode 2 "c" []) (mkNode 5 "d" []), .addEdge (mkNode 1 "b" []) (mkNode 2 "c" []),
    .addEdge (mkNode 0 "a" []) (mkNode 2 "c" [])]).Topological (LogicSampler.topologicalSort (cpython _)
      (Bbn.run [.addEdge (mkNode 2 "c" []) (mkNode 5 "d" []), .addEdge (mkNode 1 "b" []) (mkNode 2 "c" []),
        .addEdge (mkNode 0 "a" []) (mkNode 2 "c" [])])) := c34_ascending_edges _ _ (by decide +kernel)

example : (Bbn.run [.addNode (mkNode 3 "c" []), .addEdge (mkNode 4 "d" []) (mkNode 3 "c" [])]).Topological [4, 3] ∧
    LogicSampler.topologicalSort (cpython _) (Bbn.run [.addNode (mkNode 3 "c" []), .addEdge (mkNode 4 "d" []) (mkNode 3 "c" [])]) = [4, 3] := by
  have h : LogicSampler.topologicalSort (cpython _) (Bbn.run [.addNode (mkNode 3 "c" []), .addEdge (mkNode 4 "d" []) (mkNode 3 "c" [])]) = [4, 3] := by
    decide +kernel
  refine ⟨?_, h⟩
  rw [← h]
  refine c34_parents_first_partial _ _ ?_ (by decide +kernel)
  have e : BOp.edges [.addNode (mkNode 3 "c" []), .addEdge (mkNode 4 "d" []) (mkNode 3 "c" [])] = [(4, 3)] := by decide +kernel
  rw [e]
  intro a ha
  have key : ∀ x y, Relation.TransGen (fun p c : Int => (p, c) ∈ [((4 : Int), (3 : Int))]) x y → x = 4 ∧ y = 3 := by
    intro x y hxy
    induction hxy with
    | single h1 => simpa using h1
    | tail _ h1 ih => simp at h1; omega
  have := key a a ha
  omega

/-! ## C35 -/

/-- **C35**. Whatever the draws, every sample that `get_samples` returns lists every node exactly once, with one of its values,
and with the evidence value if there is one; the number of samples is the number asked for. The evidence gives nodes of the
network values of theirs. -/
theorem c35_samples (ps : PySort SortableNode) (ops : List BOp) (s : LogicSampler) (hmake : LogicSampler.make ps (Bbn.run ops) = .ok s)
    (evidence : Dict Int Str) (hnd : (Dict.keys evidence).Nodup)
    (hev : ∀ i x, Dict.get? evidence i = some x → ∃ n ∈ (Bbn.run ops).toGraph.getNodes, n.var.id = i ∧ x ∈ n.var.values)
    (nSamples : Nat) (draws : List (List ℚ)) (samples : List (Dict Int Str))
    (h : s.getSamples evidence nSamples draws = some (.ok samples)) :
    samples.length = nSamples ∧ ∀ r ∈ samples, (Dict.keys r).Perm (Bbn.run ops).ids ∧
      ∀ n ∈ (Bbn.run ops).toGraph.getNodes, ∃ x ∈ n.var.values, Dict.get? r n.var.id = some x ∧
        ∀ e, Dict.get? evidence n.var.id = some e → x = e := by
  have hinv := bbn_run_inv ops
  obtain ⟨hnodes, htab⟩ := make_tables ps hinv hmake
  have hperm : s.nodes.Perm (Bbn.run ops).ids := by rw [hnodes]; exact topologicalSort_perm ps
  refine sampleLoop_inv s evidence ?_ draws [] samples (by simp) h
  intro u r hr hlen
  obtain ⟨i1, i2, i3⟩ := drawLoop_inv s evidence _ _ r hnd hr
  have hsub : Dict.keys r ⊆ (Bbn.run ops).ids := by
    intro k hk
    rcases i2 k hk with hk | hk
    · obtain ⟨x, hx⟩ := Dict.exists_get?_of_mem_keys hk
      obtain ⟨n, hn, hid, _⟩ := hev k x hx
      exact mem_ids.2 ⟨n, hn, hid⟩
    · obtain ⟨q, hq, rfl⟩ := List.mem_map.1 hk
      exact hperm.mem_iff.1 (List.of_mem_zip hq).2
  have hkp : (Dict.keys r).Perm (Bbn.run ops).ids := by
    refine (List.subperm_of_subset i1 hsub).perm_of_length_le ?_
    rw [← hperm.length_eq, ← hlen]
    simp [Dict.keys]
  refine ⟨hkp, ?_⟩
  intro n hn
  have hk : n.var.id ∈ Dict.keys r := hkp.mem_iff.2 (mem_ids.2 ⟨n, hn, rfl⟩)
  obtain ⟨x, hx⟩ := Dict.exists_get?_of_mem_keys hk
  rcases i3 _ x hx with h1 | ⟨⟨t, ht, hxt⟩, h2⟩
  · obtain ⟨m, hm, hid, hxm⟩ := hev _ x h1
    have := node_of_id hinv hm hn hid
    subst this
    exact ⟨x, hxm, hx, fun e he => by rw [h1] at he; exact Option.some.inj he⟩
  · obtain ⟨t', ht', hmk⟩ := htab n hn
    rw [ht] at ht'
    cases ht'
    rw [make_node hmk] at hxt
    exact ⟨x, hxt, hx, h2⟩

/-- a node with a child that copies it: P(1 = on | 0 = on) = 1, P(1 = on | 0 = off) = 0 -/
def c36_ops : List BOp := [.addEdge (mkNode 0 "a" [1/2, 1/2]) (mkNode 1 "b" [1, 0, 0, 1])]

/-- build a network, make its sampler and draw (examples) -/
def sampleRun (ops : List BOp) (evidence : Dict Int Str) (nSamples : Nat) (draws : List (List ℚ)) : Option (List (List (Int × Str))) :=
  (LogicSampler.make (cpython _) (Bbn.run ops)).val?.bind (fun s => (s.getSamples evidence nSamples draws).bind Py.val?)

/-- non-vacuity: a run with evidence on the root; the first draw is rejected -/
example : sampleRun c36_ops [(0, "off".toList)] 2 [[1/4, 1/2], [3/4, 1/2], [1/2, 0]] =
    some [[(0, "off".toList), (1, "off".toList)], [(0, "off".toList), (1, "off".toList)]] := by decide +kernel

/-- evidence that is not a value of its node can be returned; evidence on an id that is not a node can take the place of one -/
example : sampleRun [.addNode (mkNode 0 "a" [1/2, 1/2])] [(0, "neither".toList)] 1 [[1/4]] = some [[(0, "neither".toList)]] ∧
    sampleRun c36_ops [(0, "on".toList), (7, "x".toList)] 1 [[3/4, 1/2]] = some [[(0, "on".toList), (7, "x".toList)]] := by decide +kernel

/-! ## C36 -/

/-- `get_samples` returns the first `nSamples` forward draws that match the evidence, in draw order -/
def KeepsMatching (b : Bbn) (s : LogicSampler) (evidence : Dict Int Str) (nSamples : Nat) (draws : List (List ℚ)) (σs : List Asg) : Prop :=
  let kept := σs.filter (fun σ => decide (Matches evidence σ))
  (kept.length < nSamples → s.getSamples evidence nSamples draws = none) ∧
  (nSamples ≤ kept.length → ∃ samples, s.getSamples evidence nSamples draws = some (.ok samples) ∧
    List.Forall₂ b.Sample samples (kept.take nSamples))

/-- **C36**, proved for evidence that does not include the node visited last. The draws `σs` are determined by the numbers drawn
(`c36_draws`). Missing: evidence on the last node, see `c36_false`; orders that are not topological, see `c34_false`. -/
theorem c36_rejection_partial (ps : PySort SortableNode) (ops : List BOp) (hs : (Bbn.run ops).Samplable) (s : LogicSampler)
    (hmake : LogicSampler.make ps (Bbn.run ops) = .ok s) (ht : (Bbn.run ops).Topological s.nodes)
    (evidence : Dict Int Str) (hnd : (Dict.keys evidence).Nodup) (hev : ∀ i ∈ Dict.keys evidence, i ∈ (Bbn.run ops).ids)
    (hlast : ∀ i, s.nodes.getLast? = some i → i ∉ Dict.keys evidence)
    (nSamples : Nat) (hN : 0 < nSamples) (draws : List (List ℚ)) (hu : ∀ u ∈ draws, Uniform s.nodes.length u) (σs : List Asg)
    (hσ : List.Forall₂ ((Bbn.run ops).Draws (Bbn.run ops).sortedParentVars s.nodes) draws σs) :
    KeepsMatching (Bbn.run ops) s evidence nSamples draws σs := by
  have := sampleLoop_run ps (bbn_run_inv ops) hs hmake ht hnd hev hlast (N := nSamples) (acc := []) hu hσ (by simpa using hN)
  simp only [List.length_nil, Nat.zero_add, List.nil_append, Nat.sub_zero] at this
  exact this

/-- **C36**. Without evidence every draw is returned. -/
theorem c36_no_evidence (ps : PySort SortableNode) (ops : List BOp) (hs : (Bbn.run ops).Samplable) (s : LogicSampler)
    (hmake : LogicSampler.make ps (Bbn.run ops) = .ok s) (ht : (Bbn.run ops).Topological s.nodes)
    (draws : List (List ℚ)) (hne : draws ≠ []) (hu : ∀ u ∈ draws, Uniform s.nodes.length u) :
    ∃ samples σs, s.getSamples [] draws.length draws = some (.ok samples) ∧ List.Forall₂ (Bbn.run ops).Sample samples σs ∧
      List.Forall₂ ((Bbn.run ops).Draws (Bbn.run ops).sortedParentVars s.nodes) draws σs := by
  have hinv := bbn_run_inv ops
  have hex : ∃ σs, List.Forall₂ ((Bbn.run ops).Draws (Bbn.run ops).sortedParentVars s.nodes) draws σs := by
    clear hne
    induction draws with
    | nil => exact ⟨[], .nil⟩
    | cons u draws ih =>
      obtain ⟨σs, h1⟩ := ih (fun u' hu' => hu u' (List.mem_cons_of_mem _ hu'))
      obtain ⟨σ, h2⟩ := draws_exists hinv (fun c v hv => (sortedParentVars_mem hinv hv).2) hs.wf.values hs.nonempty hs.wf.nonneg
        hs.normalized ht (hu u List.mem_cons_self)
      exact ⟨σ :: σs, .cons h2 h1⟩
  obtain ⟨σs, hσ⟩ := hex
  obtain ⟨_, h2⟩ := c36_rejection_partial ps ops hs s hmake ht [] (by simp [Dict.keys]) (by simp [Dict.keys]) (by simp [Dict.keys])
    draws.length (List.length_pos_iff.2 hne) draws hu σs hσ
  have hall : σs.filter (fun σ => decide (Matches [] σ)) = σs := by
    apply List.filter_eq_self.2
    intro σ _
    simp [Matches]
  rw [hall] at h2
  obtain ⟨samples, e1, e2⟩ := h2 (le_of_eq hσ.length_eq)
  refine ⟨samples, σs, e1, ?_, hσ⟩
  rw [hσ.length_eq, List.take_length] at e2
  exact e2

/-- **C36**. Every list of numbers in [0, 1) has one and only one forward draw. -/
theorem c36_draws (ops : List BOp) (hs : (Bbn.run ops).Samplable) (order : List Int) (ht : (Bbn.run ops).Topological order)
    (u : List ℚ) (hu : Uniform order.length u) :
    (∃ σ, (Bbn.run ops).Draws (Bbn.run ops).sortedParentVars order u σ) ∧
    ∀ σ τ, (Bbn.run ops).Draws (Bbn.run ops).sortedParentVars order u σ → (Bbn.run ops).Draws (Bbn.run ops).sortedParentVars order u τ →
      ∀ id ∈ (Bbn.run ops).ids, σ id = τ id := by
  have hinv := bbn_run_inv ops
  exact ⟨draws_exists hinv (fun c v hv => (sortedParentVars_mem hinv hv).2) hs.wf.values hs.nonempty hs.wf.nonneg hs.normalized ht hu,
    fun σ τ h1 h2 => draws_unique hinv (fun c v hv => (sortedParentVars_mem hinv hv).2) hs.wf.nonneg ht hu.1 h1 h2⟩

/-- `Bbn.WF` from the checks of its parts -/
theorem samplable_of_checks (ops : List BOp) (h1 : ∀ n ∈ (Bbn.run ops).toGraph.getNodes, n.var.id ∉ ddGet (Bbn.run ops).parents n.var.id)
    (h2 : ∀ n ∈ (Bbn.run ops).toGraph.getNodes, n.var.values.Nodup ∧ n.var.values ≠ [] ∧ (∀ x ∈ n.var.values, ',' ∉ x) ∧
      (∀ p ∈ n.probs, 0 ≤ p) ∧
      (((Bbn.run ops).parentVars n.var.id ++ [n.var]).map (fun v => v.values.length)).prod ≤ n.probs.length ∧
      ∀ k < rows ((Bbn.run ops).sortedParentVars n.var.id),
        ((List.range n.var.values.length).map (fun j => n.probs.getD (k * n.var.values.length + j) 0)).sum = 1) :
    (Bbn.run ops).Samplable where
  wf := {
    noLoop := by
      intro id hm
      obtain ⟨n, hn, rfl⟩ := mem_ids.1 (parent_mem_ids (bbn_run_inv ops) hm)
      exact h1 n hn hm
    values := fun n hn => (h2 n hn).1
    cpt := fun n hn => (h2 n hn).2.2.2.2.1
    nonneg := fun n hn => (h2 n hn).2.2.2.1 }
  nonempty := fun n hn => (h2 n hn).2.1
  comma := fun n hn => (h2 n hn).2.2.1
  normalized := normalized_of_rows (fun _ _ hv => (sortedParentVars_mem (bbn_run_inv ops) hv).1) (fun n hn => (h2 n hn).2.2.2.2.2)

theorem c36_samplable : (Bbn.run c36_ops).Samplable := samplable_of_checks _ (by decide +kernel) (by decide +kernel)

/-- **C36 is false of the code**: the numbers 3/4, 1/2 draw 0 = off, 1 = off. This contradicts the evidence 1 = on, but the sample
0 = off, 1 = on is returned: the copy of the evidence already holds a value for the rejected node, so the sample looks
complete. Its probability is 0. -/
theorem c36_false : ∃ s, LogicSampler.make (cpython _) (Bbn.run c36_ops) = .ok s ∧ (Bbn.run c36_ops).Topological s.nodes ∧
    Uniform s.nodes.length [3/4, 1/2] ∧ (Bbn.run c36_ops).Draws (Bbn.run c36_ops).sortedParentVars s.nodes [3/4, 1/2] (fun _ => "off".toList) ∧
    ¬ Matches [(1, "on".toList)] (fun _ => "off".toList) ∧
    s.getSamples [(1, "on".toList)] 1 [[3/4, 1/2]] = some (.ok [[(1, "on".toList), (0, "off".toList)]]) ∧
    (Bbn.run c36_ops).weight noEvidence (fun i => if i = 1 then "on".toList else "off".toList) = 0 ∧
    ¬ KeepsMatching (Bbn.run c36_ops) s [(1, "on".toList)] 1 [[3/4, 1/2]] [fun _ => "off".toList] := by
  have htop := c34_ascending_edges (cpython _) c36_ops (by decide +kernel)
  have hsort : LogicSampler.topologicalSort (cpython _) (Bbn.run c36_ops) = [0, 1] := by decide +kernel
  have hrun : sampleRun c36_ops [(1, "on".toList)] 1 [[3/4, 1/2]] = some [[(1, "on".toList), (0, "off".toList)]] := by decide +kernel
  unfold sampleRun at hrun
  cases hmk : LogicSampler.make (cpython _) (Bbn.run c36_ops) with
  | error e => rw [hmk] at hrun; cases hrun
  | ok s =>
    rw [hmk] at hrun
    have hn := (make_tables _ (bbn_run_inv c36_ops) hmk).1
    rw [← hn] at htop
    rw [hsort] at hn
    have hgs : s.getSamples [(1, "on".toList)] 1 [[3/4, 1/2]] = some (.ok [[(1, "on".toList), (0, "off".toList)]]) := by
      change (s.getSamples [(1, "on".toList)] 1 [[3/4, 1/2]]).bind Py.val? = _ at hrun
      cases hg : s.getSamples [(1, "on".toList)] 1 [[3/4, 1/2]] with
      | none => rw [hg] at hrun; cases hrun
      | some r =>
        rw [hg] at hrun
        cases r with
        | error e => cases hrun
        | ok r =>
          congr 2
          exact Option.some.inj hrun
    refine ⟨s, rfl, htop, ?_, ?_, by decide +kernel, hgs, by decide +kernel, ?_⟩
    · rw [hn]
      exact ⟨rfl, by decide +kernel⟩
    · rw [hn]
      refine ⟨by unfold InDom; decide +kernel, ?_⟩
      intro n hm p hp
      have hns : (Bbn.run c36_ops).toGraph.getNodes = [mkNode 0 "a" [1/2, 1/2], mkNode 1 "b" [1, 0, 0, 1]] := by decide +kernel
      rw [hns] at hm
      simp only [List.mem_cons, List.not_mem_nil, or_false] at hm
      rcases hm with rfl | rfl <;>
        simp only [mkNode, List.zip_cons_cons, List.zip_nil_right, List.mem_cons, Prod.mk.injEq, List.not_mem_nil, or_false] at hp
      · have : p = 3/4 := by simpa using hp
        subst this
        decide +kernel
      · have : p = 1/2 := by simpa using hp
        subst this
        decide +kernel
    · intro hk
      have := hk.1 (by decide +kernel)
      rw [hgs] at this
      cases this

/-- non-vacuity of the partial statement: evidence on the root; the draws off, off; on, on; off, off -/
example : ∃ s, LogicSampler.make (cpython _) (Bbn.run c36_ops) = .ok s ∧ (Bbn.run c36_ops).Topological s.nodes ∧
    (∀ i, s.nodes.getLast? = some i → i ∉ Dict.keys [((0 : Int), "off".toList)]) ∧
    sampleRun c36_ops [(0, "off".toList)] 2 [[3/4, 1/2], [1/4, 1/2], [1/2, 0]] =
      some [[(0, "off".toList), (1, "off".toList)], [(0, "off".toList), (1, "off".toList)]] := by
  have htop := c34_ascending_edges (cpython _) c36_ops (by decide +kernel)
  have hsort : LogicSampler.topologicalSort (cpython _) (Bbn.run c36_ops) = [0, 1] := by decide +kernel
  have hok : ((LogicSampler.make (cpython _) (Bbn.run c36_ops)).val?.isSome) = true := by decide +kernel
  cases hmk : LogicSampler.make (cpython _) (Bbn.run c36_ops) with
  | error e => rw [hmk] at hok; cases hok
  | ok s =>
    have hn := (make_tables _ (bbn_run_inv c36_ops) hmk).1
    refine ⟨s, rfl, hn ▸ htop, ?_, by decide +kernel⟩
    rw [hn, hsort]
    decide +kernel

/-- the sampler of that network, in which node 0 is visited before node 1 -/
theorem c36_runs : ∃ s, LogicSampler.make (cpython _) (Bbn.run c36_ops) = .ok s ∧ (Bbn.run c36_ops).Topological s.nodes ∧ s.nodes = [0, 1] := by
  obtain ⟨s, h1, h2, _⟩ := c36_false
  refine ⟨s, h1, h2, ?_⟩
  rw [(make_tables _ (bbn_run_inv c36_ops) h1).1]
  decide +kernel

noncomputable def c36_sampler : LogicSampler := Classical.choose c36_runs

theorem c36_make : LogicSampler.make (cpython _) (Bbn.run c36_ops) = .ok c36_sampler := (Classical.choose_spec c36_runs).1
theorem c36_topological : (Bbn.run c36_ops).Topological c36_sampler.nodes := (Classical.choose_spec c36_runs).2.1
theorem c36_order : c36_sampler.nodes = [0, 1] := (Classical.choose_spec c36_runs).2.2

theorem c36_uniform : ∀ u ∈ ([[3/4, 1/2], [1/4, 1/2], [1/2, 0]] : List (List ℚ)), Uniform c36_sampler.nodes.length u := by
  rw [c36_order]
  unfold Uniform
  decide +kernel

/-- C35 and C36 at this sampler, three draws and evidence on the root -/
example (samples : List (Dict Int Str))
    (h : c36_sampler.getSamples [(0, "off".toList)] 2 [[3/4, 1/2], [1/4, 1/2], [1/2, 0]] = some (.ok samples)) : samples.length = 2 :=
  (c35_samples _ c36_ops _ c36_make [(0, "off".toList)] (by decide +kernel)
    (by
      intro i x hx
      have hm := Dict.mem_of_get? hx
      simp only [List.mem_cons, List.not_mem_nil, or_false, Prod.mk.injEq] at hm
      rw [hm.1, hm.2]
      exact ⟨mkNode 0 "a" [1/2, 1/2], by decide +kernel, by decide +kernel, by decide +kernel⟩) 2 _ samples h).1

example := c36_no_evidence _ c36_ops c36_samplable _ c36_make c36_topological _ (by simp) c36_uniform
example := c36_draws c36_ops c36_samplable _ c36_topological _ (c36_uniform [3/4, 1/2] (by simp))

example : ∃ σs, KeepsMatching (Bbn.run c36_ops) c36_sampler [(0, "off".toList)] 2 [[3/4, 1/2], [1/4, 1/2], [1/2, 0]] σs := by
  obtain ⟨_, σs, _, _, h⟩ := c36_no_evidence _ c36_ops c36_samplable _ c36_make c36_topological _ (by simp) c36_uniform
  exact ⟨σs, c36_rejection_partial _ c36_ops c36_samplable _ c36_make c36_topological [(0, "off".toList)] (by decide +kernel)
    (by decide +kernel) (by rw [c36_order]; decide +kernel) 2 (by decide) _ c36_uniform σs h⟩

/-! ## C37 -/

/-- the sampler of `b` draws node `n` from the given conditional distributions: for all parent values and all numbers -/
def DrawsFrom (b : Bbn) (s : LogicSampler) (n : BbnNode) (parents : List Variable) : Prop :=
  ∃ t, Dict.get? s.tables n.var.id = some t ∧ ∀ σ, InDom b.vars σ → ∀ p, 0 ≤ p → p < 1 →
    ∀ sample, (∀ pa ∈ ddGet b.parents n.var.id, Dict.get? sample pa = some (σ pa)) →
      ∀ x ∈ n.var.values, t.getValue p sample = .ok x ↔ InInterval (cptRow n.probs parents n.var σ) (n.var.values.idxOf x) p

/-- **C37**. The sampler reads the CPT as if the parents were listed in ascending order of their ids. -/
theorem c37_sampler_rows (ps : PySort SortableNode) (ops : List BOp) (hs : (Bbn.run ops).Samplable) (s : LogicSampler)
    (hmake : LogicSampler.make ps (Bbn.run ops) = .ok s) (n : BbnNode) (hn : n ∈ (Bbn.run ops).toGraph.getNodes) :
    DrawsFrom (Bbn.run ops) s n ((Bbn.run ops).sortedParentVars n.var.id) :=
  getValue_of_interval ps (bbn_run_inv ops) hs hmake hn

/-- **C37**, proved for nodes whose parents were connected in ascending order of their ids. Inference reads the CPT with the
parents in the order of connection (`Bbn.parentVars`, see C10 and C16). Missing: other orders, see `c37_false`. -/
theorem c37_same_cpt_partial (ps : PySort SortableNode) (ops : List BOp) (hs : (Bbn.run ops).Samplable) (s : LogicSampler)
    (hmake : LogicSampler.make ps (Bbn.run ops) = .ok s) (n : BbnNode) (hn : n ∈ (Bbn.run ops).toGraph.getNodes)
    (hasc : (ddGet (Bbn.run ops).parents n.var.id).Pairwise (· < ·)) :
    DrawsFrom (Bbn.run ops) s n ((Bbn.run ops).parentVars n.var.id) := by
  have hinv := bbn_run_inv ops
  have e : (Bbn.run ops).sortedParentVars n.var.id = (Bbn.run ops).parentVars n.var.id := by
    unfold Bbn.sortedParentVars
    apply sortBy_of_sorted
    have h1 := vids_parentVars hinv n.var.id
    unfold vids at h1
    rw [← h1, List.pairwise_map] at hasc
    exact hasc.imp (fun h => by simpa using le_of_lt h)
  rw [← e]
  exact c37_sampler_rows ps ops hs s hmake n hn

/-- node 2 with parents 1 and 0, connected in this order; its value copies parent 1 -/
def c37_ops : List BOp := [.addNode (mkNode 0 "a" [1/2, 1/2]), .addNode (mkNode 1 "b" [1/2, 1/2]),
  .addEdge (mkNode 1 "b" [1/2, 1/2]) (mkNode 2 "c" [1, 0, 1, 0, 0, 1, 0, 1]),
  .addEdge (mkNode 0 "a" [1/2, 1/2]) (mkNode 2 "c" [1, 0, 1, 0, 0, 1, 0, 1])]

theorem c37_samplable : (Bbn.run c37_ops).Samplable := samplable_of_checks _ (by decide +kernel) (by decide +kernel)

/-- **C37 is false of the code**: for inference node 2 copies parent 1, in the sampler it copies parent 0. With 0 = off and
1 = on the probability of 2 = off is 0, but the sampler draws it from every number. -/
theorem c37_false : ∃ s, LogicSampler.make (cpython _) (Bbn.run c37_ops) = .ok s ∧
    ¬ DrawsFrom (Bbn.run c37_ops) s (mkNode 2 "c" [1, 0, 1, 0, 0, 1, 0, 1]) ((Bbn.run c37_ops).parentVars 2) ∧
    (Bbn.run c37_ops).weight noEvidence (fun i => if i = 1 then "on".toList else "off".toList) = 0 ∧
    s.getSamples [] 1 [[3/4, 1/4, 1/2]] = some (.ok [[(0, "off".toList), (1, "on".toList), (2, "off".toList)]]) := by
  have hrun : sampleRun c37_ops [] 1 [[3/4, 1/4, 1/2]] = some [[(0, "off".toList), (1, "on".toList), (2, "off".toList)]] := by decide +kernel
  have hval : ((LogicSampler.make (cpython _) (Bbn.run c37_ops)).val?.bind (fun s => (Dict.get? s.tables 2).bind
      (fun t => (t.getValue (1/2) [(0, "off".toList), (1, "on".toList)]).val?))) = some "off".toList := by decide +kernel
  unfold sampleRun at hrun
  cases hmk : LogicSampler.make (cpython _) (Bbn.run c37_ops) with
  | error e => rw [hmk] at hrun; cases hrun
  | ok s =>
    rw [hmk] at hrun hval
    refine ⟨s, rfl, ?_, by decide +kernel, ?_⟩
    · rintro ⟨t, h1, h2⟩
      have := h2 (fun i => if i = 1 then "on".toList else "off".toList) (by unfold InDom; decide +kernel) (1/2) (by norm_num)
        (by norm_num) [(0, "off".toList), (1, "on".toList)] (by decide +kernel) "on".toList (by decide +kernel)
      have hon := this.2 (by decide +kernel)
      change (Dict.get? s.tables 2).bind _ = _ at hval
      rw [show Dict.get? s.tables 2 = some t from h1] at hval
      change (t.getValue (1/2) [(0, "off".toList), (1, "on".toList)]).val? = _ at hval
      rw [hon] at hval
      revert hval
      decide +kernel
    · change (s.getSamples [] 1 [[3/4, 1/4, 1/2]]).bind Py.val? = _ at hrun
      cases hg : s.getSamples [] 1 [[3/4, 1/4, 1/2]] with
      | none => rw [hg] at hrun; cases hrun
      | some r =>
        rw [hg] at hrun
        cases r with
        | error e => cases hrun
        | ok r =>
          congr 2
          exact Option.some.inj hrun

/-- non-vacuity of the partial statement: the same network connected in the other order -/
example : (ddGet (Bbn.run [.addEdge (mkNode 0 "a" [1/2, 1/2]) (mkNode 2 "c" [1, 0, 1, 0, 0, 1, 0, 1]),
    .addEdge (mkNode 1 "b" [1/2, 1/2]) (mkNode 2 "c" [1, 0, 1, 0, 0, 1, 0, 1])]).parents 2).Pairwise (· < ·) ∧
    (Bbn.run [.addEdge (mkNode 0 "a" [1/2, 1/2]) (mkNode 2 "c" [1, 0, 1, 0, 0, 1, 0, 1]),
    .addEdge (mkNode 1 "b" [1/2, 1/2]) (mkNode 2 "c" [1, 0, 1, 0, 0, 1, 0, 1])]).Samplable :=
  ⟨by decide +kernel, samplable_of_checks _ (by decide +kernel) (by decide +kernel)⟩

example := c37_sampler_rows _ c36_ops c36_samplable _ c36_make (mkNode 1 "b" [1, 0, 0, 1]) (by decide +kernel)
example := c37_same_cpt_partial _ c36_ops c36_samplable _ c36_make (mkNode 1 "b" [1, 0, 0, 1]) (by decide +kernel) (by decide +kernel)

/-! ## C50 -/

/-- **C50, law of the sampler**. If the order is topological, a list of numbers is sampled as `σ` exactly when every number lies in an
interval that depends on `σ`, and the product of the widths of these intervals is the product of the CPT entries read with the parents in
ascending order of their ids. -/
theorem c50_sample_law (ps : PySort SortableNode) (ops : List BOp) (hs : (Bbn.run ops).Samplable) (s : LogicSampler)
    (hmake : LogicSampler.make ps (Bbn.run ops) = .ok s) (ht : (Bbn.run ops).Topological s.nodes)
    (σ : Asg) (hσ : InDom (Bbn.run ops).vars σ) :
    let row := fun n : BbnNode => cptRow n.probs ((Bbn.run ops).sortedParentVars n.var.id) n.var σ
    let lo := fun n : BbnNode => ((row n).take (n.var.values.idxOf (σ n.var.id))).sum
    let hi := fun n : BbnNode => ((row n).take (n.var.values.idxOf (σ n.var.id) + 1)).sum
    (∀ u, Uniform s.nodes.length u →
      ((∃ r, s.getSamples [] 1 [u] = some (.ok [r]) ∧ (Bbn.run ops).Sample r σ) ↔
        ∀ n ∈ (Bbn.run ops).toGraph.getNodes, ∀ p, (p, n.var.id) ∈ u.zip s.nodes → lo n ≤ p ∧ p < hi n)) ∧
    ((Bbn.run ops).toGraph.getNodes.map (fun n => hi n - lo n)).prod =
      ((Bbn.run ops).toGraph.getNodes.map (fun n => cptAt n.probs ((Bbn.run ops).sortedParentVars n.var.id) n.var σ)).prod := by
  intro row lo hi
  have hinv := bbn_run_inv ops
  constructor
  · intro u hu
    have hbox : (Bbn.run ops).Draws (Bbn.run ops).sortedParentVars s.nodes u σ ↔
        ∀ n ∈ (Bbn.run ops).toGraph.getNodes, ∀ p, (p, n.var.id) ∈ u.zip s.nodes → lo n ≤ p ∧ p < hi n :=
      ⟨fun h2 => h2.2, fun h2 => ⟨hσ, h2⟩⟩
    rw [← hbox]
    obtain ⟨samples, σs, h1, h2, h3⟩ := c36_no_evidence ps ops hs s hmake ht [u] (by simp) (by simpa using hu)
    cases h3 with
    | cons hd hnil =>
      rename_i τ τs
      cases hnil
      cases h2 with
      | cons hsam hnil2 =>
        rename_i r rs
        cases hnil2
        constructor
        · rintro ⟨r', hr', hsam'⟩
          have h1' : s.getSamples [] 1 [u] = some (.ok [r]) := h1
          rw [h1'] at hr'
          cases hr'
          have heq : ∀ id ∈ (Bbn.run ops).ids, σ id = τ id := by
            intro id hid
            exact Option.some.inj ((hsam'.2 id hid).symm.trans (hsam.2 id hid))
          refine ⟨hσ, ?_⟩
          intro n hn p hp
          have e1 : cptRow n.probs ((Bbn.run ops).sortedParentVars n.var.id) n.var σ =
              cptRow n.probs ((Bbn.run ops).sortedParentVars n.var.id) n.var τ := by
            apply cptRow_congr
            intro w hw
            exact heq _ (parent_mem_ids hinv (sortedParentVars_mem hinv hw).2)
          rw [e1, heq n.var.id (mem_ids.2 ⟨n, hn, rfl⟩)]
          exact hd.2 n hn p hp
        · intro hdr
          refine ⟨r, h1, hsam.1, ?_⟩
          intro id hid
          rw [hsam.2 id hid]
          congr 1
          exact (c36_draws ops hs s.nodes ht u hu).2 τ σ hd hdr id hid
  · congr 1
    apply List.map_congr_left
    intro n hn
    exact cptRow_width (hσ n.var (List.mem_map_of_mem hn))

/-- **C50**, proved when the parents of every node were connected in ascending order of their ids: the sample `σ` is drawn from a box of
numbers whose volume is the joint probability of `σ`. Missing: other orders of connection, see `c50_false`. -/
theorem c50_sample_probability_partial (ps : PySort SortableNode) (ops : List BOp) (hs : (Bbn.run ops).Samplable) (s : LogicSampler)
    (hmake : LogicSampler.make ps (Bbn.run ops) = .ok s) (ht : (Bbn.run ops).Topological s.nodes)
    (hasc : ∀ n ∈ (Bbn.run ops).toGraph.getNodes, (ddGet (Bbn.run ops).parents n.var.id).Pairwise (· < ·))
    (σ : Asg) (hσ : InDom (Bbn.run ops).vars σ) :
    ∃ lo hi : BbnNode → ℚ, (∀ u, Uniform s.nodes.length u →
      ((∃ r, s.getSamples [] 1 [u] = some (.ok [r]) ∧ (Bbn.run ops).Sample r σ) ↔
        ∀ n ∈ (Bbn.run ops).toGraph.getNodes, ∀ p, (p, n.var.id) ∈ u.zip s.nodes → lo n ≤ p ∧ p < hi n)) ∧
    ((Bbn.run ops).toGraph.getNodes.map (fun n => hi n - lo n)).prod = (Bbn.run ops).weight noEvidence σ := by
  have hinv := bbn_run_inv ops
  have epv : ∀ n ∈ (Bbn.run ops).toGraph.getNodes, (Bbn.run ops).sortedParentVars n.var.id = (Bbn.run ops).parentVars n.var.id := by
    intro n hn
    unfold Bbn.sortedParentVars
    apply sortBy_of_sorted
    have h1 := vids_parentVars hinv n.var.id
    have h2 := hasc n hn
    unfold vids at h1
    rw [← h1, List.pairwise_map] at h2
    exact h2.imp (fun h => by simpa using le_of_lt h)
  obtain ⟨h1, h2⟩ := c50_sample_law ps ops hs s hmake ht σ hσ
  refine ⟨_, _, h1, ?_⟩
  rw [h2]
  unfold Bbn.weight
  congr 1
  apply List.map_congr_left
  intro n hn
  rw [epv n hn]
  simp [noEvidence]

/-- **C50 is false of the code** for parents connected in descending order: the joint probability of 0 = off, 1 = on, 2 = off is 0, but it is
sampled from a box of volume 1/4 -/
theorem c50_false : ∃ s, LogicSampler.make (cpython _) (Bbn.run c37_ops) = .ok s ∧ (Bbn.run c37_ops).Topological s.nodes ∧
    ∃ σ, InDom (Bbn.run c37_ops).vars σ ∧ (Bbn.run c37_ops).weight noEvidence σ = 0 ∧
      ((Bbn.run c37_ops).toGraph.getNodes.map (fun n => cptAt n.probs ((Bbn.run c37_ops).sortedParentVars n.var.id) n.var σ)).prod = 1/4 ∧
      ∃ u r, Uniform s.nodes.length u ∧ s.getSamples [] 1 [u] = some (.ok [r]) ∧ (Bbn.run c37_ops).Sample r σ := by
  obtain ⟨s, h1, _, h3, h4⟩ := c37_false
  have hn : ((LogicSampler.make (cpython _) (Bbn.run c37_ops)).val?.map LogicSampler.nodes) = some [0, 1, 2] := by decide +kernel
  rw [h1] at hn
  have hnodes : s.nodes = [0, 1, 2] := Option.some.inj hn
  refine ⟨s, h1, ?_, fun i => if i = 1 then "on".toList else "off".toList, by unfold InDom; decide +kernel, h3, by decide +kernel,
    [3/4, 1/4, 1/2], _, ?_, h4, ?_⟩
  · rw [hnodes]
    exact ⟨by decide +kernel, by decide +kernel⟩
  · rw [hnodes]
    exact ⟨rfl, by decide +kernel⟩
  · exact ⟨by decide +kernel, by decide +kernel⟩

/-- non-vacuity: the copying network; 0 = on, 1 = on is sampled from a box of volume 1/2 -/
example : (Bbn.run c36_ops).Samplable ∧ (∃ s, LogicSampler.make (cpython _) (Bbn.run c36_ops) = .ok s ∧ (Bbn.run c36_ops).Topological s.nodes) ∧
    (∀ n ∈ (Bbn.run c36_ops).toGraph.getNodes, (ddGet (Bbn.run c36_ops).parents n.var.id).Pairwise (· < ·)) ∧
    InDom (Bbn.run c36_ops).vars (fun _ => "on".toList) ∧ (Bbn.run c36_ops).weight noEvidence (fun _ => "on".toList) = 1/2 := by
  obtain ⟨s, h1, h2, _⟩ := c36_false
  exact ⟨c36_samplable, ⟨s, h1, h2⟩, by decide +kernel, by unfold InDom; decide +kernel, by decide +kernel⟩

example := c50_sample_law _ c36_ops c36_samplable _ c36_make c36_topological (fun _ => "on".toList) (by unfold InDom; decide +kernel)
example := c50_sample_probability_partial _ c36_ops c36_samplable _ c36_make c36_topological (by decide +kernel) (fun _ => "on".toList)
  (by unfold InDom; decide +kernel)

end PyBBN
