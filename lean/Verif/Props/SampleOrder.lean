import Verif.Proofs.SampleFail
import Verif.Props.Sampling

/-! # C34: the order decides whether anything can be sampled -/

namespace PyBBN

/-- **C34**, in terms of what `get_samples` does: for a network whose nodes have values and normalized CPTs, the order of the sampler lists parents
before children exactly if sampling works (for one draw, equivalently for all draws); otherwise every call raises `KeyError` -/
theorem c34_works_iff (ps : PySort SortableNode) (ops : List BOp) (hs : (Bbn.run ops).Samplable) (s : LogicSampler)
    (hmake : LogicSampler.make ps (Bbn.run ops) = .ok s) (u : List ℚ) (hu : Uniform s.nodes.length u) :
    ((∃ r, s.getSamples [] 1 [u] = some (.ok [r])) ↔ (Bbn.run ops).Topological s.nodes) ∧
    (s.getSamples [] 1 [u] = some (.error .keyError) ↔ ¬ (Bbn.run ops).Topological s.nodes) := by
  have h1 : (Bbn.run ops).Topological s.nodes → ∃ r, s.getSamples [] 1 [u] = some (.ok [r]) := by
    intro ht
    obtain ⟨samples, σs, hg, hf, hd⟩ := c36_no_evidence ps ops hs s hmake ht [u] (by simp) (by simpa using hu)
    have hl := hf.length_eq.trans hd.length_eq.symm
    match samples, hl with
    | [r], _ => exact ⟨r, by simpa using hg⟩
  have h2 : ¬ (Bbn.run ops).Topological s.nodes → s.getSamples [] 1 [u] = some (.error .keyError) :=
    fun ht => getSamples_raises ps (bbn_run_inv ops) hs hmake ht hu [] 1
  refine ⟨⟨?_, h1⟩, ⟨?_, h2⟩⟩
  · rintro ⟨r, hr⟩
    by_contra hc
    rw [h2 hc] at hr
    cases hr
  · intro he ht
    obtain ⟨r, hr⟩ := h1 ht
    rw [hr] at he
    cases he

/-- `c34_works_iff` applies to networks of both kinds: `0 → 1` is sampled, the network of `c34_false` (an arrow `2 → 0`) is not -/
example : (∃ s, LogicSampler.make (cpython _) (Bbn.run c36_ops) = .ok s ∧ (Bbn.run c36_ops).Samplable ∧ Uniform s.nodes.length [3/4, 1/2] ∧
      ∃ r, s.getSamples [] 1 [[3/4, 1/2]] = some (.ok [r])) ∧
    ∃ s, LogicSampler.make (cpython _) (Bbn.run c34_ops) = .ok s ∧ (Bbn.run c34_ops).Samplable ∧ Uniform s.nodes.length [3/4, 1/2, 1/4] ∧
      s.getSamples [] 1 [[3/4, 1/2, 1/4]] = some (.error .keyError) := by
  have hsamp : (Bbn.run c34_ops).Samplable := samplable_of_checks _ (by decide +kernel) (by decide +kernel)
  constructor
  · obtain ⟨s, hm, ht, hn⟩ := c36_runs
    have hu : Uniform s.nodes.length [3/4, 1/2] := by
      rw [hn]; exact ⟨rfl, by intro x hx; fin_cases hx <;> norm_num⟩
    exact ⟨s, hm, c36_samplable, hu, ((c34_works_iff _ _ c36_samplable s hm _ hu).1).2 ht⟩
  · obtain ⟨_, hsort, hno, s, hm, _⟩ := c34_false
    have hn : s.nodes = [0, 1, 2] := by rw [(make_tables _ (bbn_run_inv _) hm).1]; exact hsort
    have hu : Uniform s.nodes.length [3/4, 1/2, 1/4] := by
      rw [hn]; exact ⟨rfl, by intro x hx; fin_cases hx <;> norm_num⟩
    refine ⟨s, hm, hsamp, hu, ((c34_works_iff _ _ hsamp s hm _ hu).2).2 ?_⟩
    rw [(make_tables _ (bbn_run_inv _) hm).1]
    exact hno

end PyBBN
