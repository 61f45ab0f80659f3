import Verif.Proofs.SampleNear
import Verif.Proofs.BinRound
import Verif.Props.Sampling

/-! # C76: sampling with floats -/

namespace PyBBN

section
variable {u : ℚ} {inp : ℚ → ℚ} {add : ℚ → ℚ → ℚ} {F : ℚ → Prop}

/-- `s` and `s'` return the same (or raise the same, or both go on) for all evidence, sample sizes and random numbers in `P` -/
def SameSamples (P : ℚ → Prop) (s s' : LogicSampler) : Prop :=
  s.nodes = s'.nodes ∧ ∀ (evidence : Dict Int Str) (N : Nat) (draws : List (List ℚ)), (∀ d ∈ draws, ∀ p ∈ d, P p) →
    s.getSamples evidence N draws = s'.getSamples evidence N draws

/-- network `b'` is network `b` with other CPTs: rows still sum to one, and an entry of a node with `k` values differs by at most `ε k` -/
structure Nearby (ε : Nat → ℚ) (ops : List BOp) (cpts : Dict Int (List ℚ)) : Prop where
  wf : (Bbn.run (withCpts cpts ops)).WF
  rows : ∀ n ∈ (Bbn.run (withCpts cpts ops)).toGraph.getNodes, RowsSumToOne ((Bbn.run ops).parentVars n.var.id) n
  near : ∀ n ∈ (Bbn.run ops).toGraph.getNodes, ∀ k < (((Bbn.run ops).parentVars n.var.id).map (fun p => p.values.length)).prod,
    ∀ j < n.var.values.length, |(n.withCpt cpts).probs.getD (k * n.var.values.length + j) 0 - n.probs.getD (k * n.var.values.length + j) 0| ≤
      ε n.var.values.length

/-- **C76**, for random numbers below `(1 - u) ^ N`, where no node has more than `N` values: in floats the sampler does, with the same random
numbers, exactly what it would do without rounding for a network whose CPT entries differ by at most `2 ((1 + u) ^ k - 1)` (`k`: number of
values of the node). Missing: larger random numbers, see `c76_false`. -/
theorem c76_nearby_partial (hr : Adds u inp add F) (ops : List BOp) (wf : (Bbn.run ops).WF)
    (hne : ∀ n ∈ (Bbn.run ops).toGraph.getNodes, n.var.values ≠ [])
    (hrows : ∀ n ∈ (Bbn.run ops).toGraph.getNodes, RowsSumToOne ((Bbn.run ops).parentVars n.var.id) n)
    {N : Nat} (hN : ∀ n ∈ (Bbn.run ops).toGraph.getNodes, n.var.values.length ≤ N) :
    ∃ cpts, Nearby (fun k => 2 * ((1 + u) ^ k - 1)) ops cpts ∧ ∀ ps : PySort SortableNode,
      ∃ s s', LogicSampler.makeWith (cumsumF inp add) ps (Bbn.run ops) = .ok s ∧
        LogicSampler.make ps (Bbn.run (withCpts cpts ops)) = .ok s' ∧ SameSamples (fun p => 0 ≤ p ∧ p < (1 - u) ^ N) s s' := by
  have hi := bbn_run_inv ops
  refine ⟨(Bbn.run ops).pertCpts inp add, ?_, ?_⟩
  · have hc := recpt_run ((Bbn.run ops).pertCpts inp add) ops
    have hnodes : (Bbn.run (withCpts ((Bbn.run ops).pertCpts inp add) ops)).toGraph.getNodes =
        (Bbn.run ops).toGraph.getNodes.map (BbnNode.pert inp add) := by
      rw [hc.getNodes]
      exact List.map_congr_left (fun n hn => pertCpts_node hi hn)
    have hfit : ∀ n ∈ (Bbn.run ops).toGraph.getNodes, ∀ k < (((Bbn.run ops).parentVars n.var.id).map (fun p => p.values.length)).prod,
        (k + 1) * n.var.values.length ≤ n.probs.length := by
      intro n hn k hk
      refine le_trans (Nat.mul_le_mul_right _ hk) ?_
      have := wf.cpt n hn
      rw [List.map_append, List.prod_append] at this
      simpa using this
    have hlen : ∀ n : BbnNode, (n.pert inp add).probs.length = n.probs.length := fun n => pertProbs_length _ _
    have hpos : ∀ n ∈ (Bbn.run ops).toGraph.getNodes, 0 < n.var.values.length := fun n hn => List.length_pos_iff.2 (hne n hn)
    have hrow : ∀ n ∈ (Bbn.run ops).toGraph.getNodes, ∀ k, rowOf (n.pert inp add).probs n.var.values.length k =
        pertRow inp add (rowOf n.probs n.var.values.length k) := fun n hn k => rowOf_pert (hpos n hn) _ _
    refine ⟨⟨?_, ?_, ?_, ?_⟩, ?_, ?_⟩
    · intro i; rw [hc.parents]; exact wf.noLoop i
    · intro n hn
      rw [hnodes] at hn
      obtain ⟨m, hm, rfl⟩ := List.mem_map.1 hn
      exact wf.values m hm
    · intro n hn
      rw [hnodes] at hn
      obtain ⟨m, hm, rfl⟩ := List.mem_map.1 hn
      rw [hc.parentVars, hlen]
      exact wf.cpt m hm
    · intro n hn
      rw [hnodes] at hn
      obtain ⟨m, hm, rfl⟩ := List.mem_map.1 hn
      exact hr.pertProbs_nonneg (wf.nonneg m hm)
    · intro n hn k hk
      rw [hnodes] at hn
      obtain ⟨m, hm, rfl⟩ := List.mem_map.1 hn
      have h1 := hfit m hm k hk
      have e := rowOf_eq (probs := (m.pert inp add).probs) (n := m.var.values.length) (k := k) (by rw [hlen]; exact h1)
      show ((List.range m.var.values.length).map (fun j => (m.pert inp add).probs.getD (k * m.var.values.length + j) 0)).sum = 1
      rw [← e, hrow m hm]
      refine pertRow_sum ?_
      intro e2
      have h3 := congrArg List.length e2
      rw [rowOf_length h1, List.length_nil] at h3
      have := hpos m hm
      omega
    · intro n hn k hk j hj
      have h1 := hfit n hn k hk
      rw [pertCpts_node hi hn]
      have g : ∀ probs : List ℚ, (k + 1) * n.var.values.length ≤ probs.length →
          probs.getD (k * n.var.values.length + j) 0 = (rowOf probs n.var.values.length k).getD j 0 := by
        intro probs hp
        rw [rowOf_eq hp]
        rw [List.getD_eq_getElem (l := (List.range n.var.values.length).map _) _ (by simpa using hj), List.getElem_map, List.getElem_range]
      rw [g _ (by rw [hlen]; exact h1), g _ h1, hrow n hn]
      have hs : (rowOf n.probs n.var.values.length k).sum = 1 := by rw [rowOf_eq h1]; exact hrows n hn k hk
      have := hr.pertRow_near (row := rowOf n.probs n.var.values.length k) (fun y hy => wf.nonneg n hn y (List.mem_of_mem_drop (List.mem_of_mem_take hy))) hs j
      rwa [rowOf_length h1] at this
  · intro ps
    obtain ⟨s, s', h1, h2, h3, h4⟩ := hr.sampler_rel hi (bbn_run_inv _) (recpt_run ((Bbn.run ops).pertCpts inp add) ops) wf hne hrows hN ps
    exact ⟨s, s', h1, h2, h3, fun ev M draws hd => sampleLoop_rel h4 h3 ev M draws [] hd⟩

/-- one table, all random numbers: value number `i` is returned exactly when the random number lies between the cumulative sums of floats
before and after entry `i`; there is an `IndexError` exactly when it is not below the last one -/
theorem c76_table (hr : Adds u inp add F) {node : BbnNode} {parents : List BbnNode} (h : TableOk node parents) (full : FullCpt node parents) :
    ∃ t, Table.makeWith (cumsumF inp add) node parents = .ok t ∧
      ∀ σ, InDom (parents.map BbnNode.var) σ → ∀ sample, (∀ p ∈ parents, Dict.get? sample p.var.id = some (σ p.var.id)) → ∀ p, 0 ≤ p →
        (∀ i (hi : i < node.var.values.length), t.getValue p sample = .ok node.var.values[i] ↔
          InFInterval inp add (cptRow node.probs (parents.map BbnNode.var) node.var σ) i p) ∧
        (t.getValue p sample = .error .indexError ↔ fsum inp add (cptRow node.probs (parents.map BbnNode.var) node.var σ) ≤ p) := by
  have hn : 0 < node.var.values.length := List.length_pos_iff.2 h.nonempty
  -- the index found decides
  have key : ∀ (t : Table), t.node = node → ∀ (arr row : List ℚ), (∀ x ∈ arr, 0 ≤ x) → node.var.values.length ≤ arr.length →
      row = arr.take node.var.values.length → ∀ p, 0 ≤ p →
      (∀ i (hi : i < node.var.values.length), t.valueAt (bisect (cumsumF inp add arr) p) = .ok node.var.values[i] ↔ InFInterval inp add row i p) ∧
      (t.valueAt (bisect (cumsumF inp add arr) p) = .error .indexError ↔ fsum inp add row ≤ p) := by
    intro t ht arr row hnn hl hrow p h0
    obtain ⟨b1, b2, b3⟩ := hr.bisect hnn p
    have hlast : fsum inp add row ≤ p ↔ node.var.values.length ≤ bisect (cumsumF inp add arr) p := by
      rw [hrow]
      constructor
      · intro hle
        by_contra hlt
        have := b3 (node.var.values.length - 1) (by omega) (by omega)
        rw [Nat.sub_add_cancel hn] at this
        linarith
      · intro hle
        have := b2 (node.var.values.length - 1) (by omega)
        rwa [Nat.sub_add_cancel hn] at this
    constructor
    · intro i hi
      have hint : InFInterval inp add row i p ↔ bisect (cumsumF inp add arr) p = i := by
        rw [hr.bisect_iff hnn h0 (by omega), hrow]
        unfold InFInterval
        rw [List.take_take, List.take_take, min_eq_left (by omega), min_eq_left (by omega)]
      rw [hint]
      unfold Table.valueAt
      rw [ht]
      constructor
      · intro e
        split at e
        · rename_i v hv
          obtain ⟨hlt, hv⟩ := List.getElem?_eq_some_iff.1 hv
          have e' := Except.ok.inj e
          rw [← hv] at e'
          exact (h.vals.getElem_inj_iff (hi := hlt) (hj := hi)).1 e'
        · cases e
      · intro e
        rw [e, List.getElem?_eq_getElem hi]
    · rw [hlast]
      unfold Table.valueAt
      rw [ht]
      constructor
      · intro e
        split at e
        · cases e
        · rename_i hv
          exact List.getElem?_eq_none_iff.1 hv
      · intro e
        rw [List.getElem?_eq_none_iff.2 e]
  have hlenσ : ∀ σ, InDom (parents.map BbnNode.var) σ → (rowIdx (parents.map BbnNode.var) σ + 1) * node.var.values.length ≤ node.probs.length := by
    intro σ hσ
    refine le_trans ?_ full
    rw [List.map_append, List.prod_append]
    simp only [List.map_cons, List.map_nil, List.prod_cons, List.prod_nil, mul_one]
    exact Nat.mul_le_mul_right _ (rowIdx_lt σ _ hσ)
  by_cases hne : parents = []
  · subst hne
    refine ⟨_, by unfold Table.makeWith; rw [if_pos rfl], ?_⟩
    intro σ hσ sample _ p h0
    have hlen := hlenσ σ hσ
    have hrow := cptRow_eq hlen
    have hz : rowIdx (([] : List BbnNode).map BbnNode.var) σ = 0 := rfl
    rw [hz] at hlen hrow
    simp only [Nat.zero_mul, List.drop_zero, Nat.zero_add, Nat.one_mul] at hrow hlen
    exact key ⟨node, [], [], .inl (cumsumF inp add node.probs)⟩ rfl node.probs _ h.nonneg hlen hrow p h0
  · obtain ⟨d, hd, hget⟩ := table_rows (cumsumF inp add) hne h.asc h.pvals h.comma hn
    refine ⟨_, hd, ?_⟩
    intro σ hσ sample hread p h0
    have hlen := hlenσ σ hσ
    have hrow := cptRow_eq hlen
    have hnn := cptRow_nonneg h.nonneg (parents.map BbnNode.var) node.var σ
    have hg := hget σ hσ (by rw [Nat.add_mul, Nat.one_mul] at hlen; omega)
    rw [← hrow] at hg
    have hl := cptRow_length node.probs (parents.map BbnNode.var) node.var σ
    set row := cptRow node.probs (parents.map BbnNode.var) node.var σ with hrowdef
    have hm : (parents.map (fun p => p.var.id)).mapM (fun i => Dict.getItem sample i) =
        .ok ((parents.map (fun p => p.var.id)).map σ) := by
      apply mapM_ok
      intro i hi
      obtain ⟨p, hp, rfl⟩ := List.mem_map.1 hi
      exact Dict.getItem_of_get? (hread p hp)
    have hpar : (⟨node, parents, parents.map (fun p => p.var.id), .inr d⟩ : Table).hasParents = true := by
      simp [Table.hasParents, List.length_pos_iff, hne]
    have hval : (⟨node, parents, parents.map (fun p => p.var.id), .inr d⟩ : Table).getValue p sample =
        (⟨node, parents, parents.map (fun p => p.var.id), .inr d⟩ : Table).valueAt (bisect (cumsumF inp add row) p) := by
      unfold Table.getValue
      rw [hpar]
      simp only [Bool.not_true, Bool.false_eq_true, if_false]
      rw [hm]
      simp only [bind, Except.bind]
      rw [Dict.getItem_of_get? hg]
    rw [hval]
    exact key _ rfl row row hnn (le_of_eq hl.symm) (by rw [List.take_of_length_le (le_of_eq hl)]) p h0

/-- a value of probability 0 is never drawn -/
theorem c76_zero (hr : Adds u inp add F) {row : List ℚ} (h : ∀ x ∈ row, 0 ≤ x) {i : Nat} (hi : row.getD i 0 = 0) {p : ℚ} (hp : 0 ≤ p) :
    ¬ InFInterval inp add row i p := by
  rintro ⟨h1, h2⟩
  have hz : inp 0 = 0 := by
    have := hr.read 0
    simpa using this
  by_cases hl : i < row.length
  · rw [List.getD_eq_getElem _ _ hl] at hi
    rw [List.take_succ_eq_append_getElem hl, hi] at h2
    by_cases h0 : row.take i = []
    · rw [h0] at h2
      simp only [List.nil_append, fsum, List.foldl_nil, hz] at h2
      linarith
    · rw [fsum_append_one h0, hz, hr.zero _ ((hr.fsum_bounds _ (fun y hy => h y (List.mem_of_mem_take hy))).2.1 h0)] at h2
      linarith
  · rw [List.take_of_length_le (by omega)] at h1 h2
    linarith

end

/-! ## Doubles -/

/-- reading a number as a double and adding two doubles -/
def dblAdd (a b : ℚ) : ℚ := binRound 53 (a + b)

/-- doubles (53 significant bits, ties to even; bounds of the exponent not modelled) satisfy the hypothesis -/
theorem c76_double : Adds (1 / 2 ^ 53) (binRound 53) dblAdd (fun a => binRound 53 a = a) := binRound_adds 52

def c76_node : BbnNode := ⟨⟨0, "d".toList, (List.range 10).map (fun i => strInt i)⟩, List.replicate 10 (1/10)⟩
def c76_ops : List BOp := [.addNode c76_node]

theorem c76_samplable : (Bbn.run c76_ops).Samplable := samplable_of_checks _ (by decide +kernel) (by decide +kernel)

/-- **C76 is false of the code for the largest random numbers**: ten values of probability 0.1. In doubles the cumulative sums end with
0.9999999999999999 = 1 - 2^-53, which is a number that `np.random.uniform(0, 1)` can return, and then `get_samples` raises `IndexError`;
without rounding every number in [0, 1) gives a sample. -/
theorem c76_false : (Bbn.run c76_ops).Samplable ∧
    (∀ n ∈ (Bbn.run c76_ops).toGraph.getNodes, RowsSumToOne ((Bbn.run c76_ops).parentVars n.var.id) n) ∧
    ((LogicSampler.makeWith (cumsumF (binRound 53) dblAdd) (cpython _) (Bbn.run c76_ops)).val?.bind
      (fun s => (s.getSamples [] 1 [[1 - 1 / 2 ^ 53]]).bind Py.err?)) = some .indexError ∧
    binRound 53 (1 - 1 / 2 ^ 53) = 1 - 1 / 2 ^ 53 ∧
    ((LogicSampler.make (cpython _) (Bbn.run c76_ops)).val?.bind
      (fun s => (s.getSamples [] 1 [[1 - 1 / 2 ^ 53]]).bind Py.val?)) = some [[(0, "9".toList)]] := by
  refine ⟨c76_samplable, ?_, by decide +kernel, by decide +kernel, by decide +kernel⟩
  have : ∀ n ∈ (Bbn.run c76_ops).toGraph.getNodes, ∀ k < (((Bbn.run c76_ops).parentVars n.var.id).map (fun p => p.values.length)).prod,
    ((List.range n.var.values.length).map (fun j => n.probs.getD (k * n.var.values.length + j) 0)).sum = 1 := by decide +kernel
  exact this

/-! ## The claims are not vacuous -/

/-- the network of C36 (two nodes, evidence and rejection) sampled with doubles: both samplers exist and agree -/
example : ∃ cpts, Nearby (fun k => 2 * ((1 + 1 / 2 ^ 53) ^ k - 1)) c36_ops cpts ∧ ∀ ps : PySort SortableNode,
    ∃ s s', LogicSampler.makeWith (cumsumF (binRound 53) dblAdd) ps (Bbn.run c36_ops) = .ok s ∧
      LogicSampler.make ps (Bbn.run (withCpts cpts c36_ops)) = .ok s' ∧ SameSamples (fun p => 0 ≤ p ∧ p < (1 - 1 / 2 ^ 53) ^ 2) s s' := by
  refine c76_nearby_partial c76_double c36_ops c36_samplable.wf (by decide +kernel) ?_ (by decide +kernel)
  have : ∀ n ∈ (Bbn.run c36_ops).toGraph.getNodes, ∀ k < (((Bbn.run c36_ops).parentVars n.var.id).map (fun p => p.values.length)).prod,
    ((List.range n.var.values.length).map (fun j => n.probs.getD (k * n.var.values.length + j) 0)).sum = 1 := by decide +kernel
  exact this

/-- the interval of a value really moves: with ten values of probability 0.1 the random number 3/10 gives the third value in doubles and the
fourth without rounding -/
example : ((LogicSampler.makeWith (cumsumF (binRound 53) dblAdd) (cpython _) (Bbn.run c76_ops)).val?.bind
      (fun s => (s.getSamples [] 1 [[3/10]]).bind Py.val?)) = some [[(0, "2".toList)]] ∧
    ((LogicSampler.make (cpython _) (Bbn.run c76_ops)).val?.bind
      (fun s => (s.getSamples [] 1 [[3/10]]).bind Py.val?)) = some [[(0, "3".toList)]] := by decide +kernel

/-- a table with a parent, in doubles: the entry 0 is skipped, the last cumulative sum is 1 -/
example : [0, 1/10, 7/10, 99/100].map (fun p => ((Table.makeWith (cumsumF (binRound 53) dblAdd)
      ⟨⟨2, "c".toList, ["x".toList, "y".toList, "z".toList]⟩, [1/10, 0, 9/10, 1/3, 1/3, 1/3]⟩ [mkNode 1 "a" [1/2, 1/2]]).val?.bind
        (fun t => (t.getValue p [(1, "on".toList)]).val?))) =
    [some "x".toList, some "x".toList, some "z".toList, some "z".toList] := by decide +kernel

example : TableOk ⟨⟨2, "c".toList, ["x".toList, "y".toList, "z".toList]⟩, [1/10, 0, 9/10, 1/3, 1/3, 1/3]⟩ [mkNode 1 "a" [1/2, 1/2]] ∧
    FullCpt ⟨⟨2, "c".toList, ["x".toList, "y".toList, "z".toList]⟩, [1/10, 0, 9/10, 1/3, 1/3, 1/3]⟩ [mkNode 1 "a" [1/2, 1/2]] :=
  ⟨⟨by decide +kernel, by decide +kernel, by decide +kernel, by decide +kernel, by decide +kernel, by decide +kernel⟩,
    by unfold FullCpt; decide +kernel⟩

end PyBBN
