import Verif.Spec.Sampling
import Verif.Spec.Chance
import Verif.Model.Sampling

/-!
# Probabilities of what `get_samples` returns

`np.random.uniform(0.0, 1.0)` returns one of the numbers `0, 1/M, 2/M, …`, all equally likely and independent (`M = 2^53` for doubles). The
probability of an event that depends on the first `L` passes of the loop is the share of the lists of `L` passes in which it happens. The loop
may need arbitrarily many passes, so a probability is the limit of the shares.
-/

namespace PyBBN
open Classical

/-- the numbers drawn in one pass of the loop -/
def gridPass {M n : Nat} (ω : Fin n → Fin M) : List ℚ := List.ofFn (fun k => ((ω k : Nat) : ℚ) / (M : ℚ))

/-- the share of the lists of `L` passes on which `get_samples` returns, and returns samples that satisfy `p` -/
noncomputable def LogicSampler.share (s : LogicSampler) (M : Nat) (evidence : Dict Int Str) (N : Nat) (p : List (Dict Int Str) → Prop) (L : Nat) : ℚ :=
  ((Finset.univ.filter (fun ds : Fin L → Fin s.nodes.length → Fin M =>
    ∃ samples, s.getSamples evidence N (List.ofFn (fun k => gridPass (ds k))) = some (.ok samples) ∧ p samples)).card : ℚ) /
    ((M : ℚ) ^ s.nodes.length) ^ L

/-- the probability that `get_samples(evidence, N)` returns samples that satisfy `p` -/
def LogicSampler.Prob (s : LogicSampler) (M : Nat) (evidence : Dict Int Str) (N : Nat) (p : List (Dict Int Str) → Prop) (r : ℚ) : Prop :=
  TendsTo (s.share M evidence N p) r

/-- every CPT entry is a multiple of `1/M` -/
def Bbn.Grid (b : Bbn) (M : Nat) : Prop := 0 < M ∧ ∀ n ∈ b.toGraph.getNodes, ∀ p ∈ n.probs, ∃ k : Nat, p * (M : ℚ) = k

/-- the relative frequency of `v = x` in `N` samples -/
def relFreq (N : Nat) (samples : List (Dict Int Str)) (v : Int) (x : Str) : ℚ :=
  ((samples.filter (fun r => decide (Dict.get? r v = some x))).length : ℚ) / N

/-- the observations of nodes that are followed, in the order, by a node that is not observed -/
def followed (order : List Int) (evs : List (Variable × Str)) : List (Variable × Str) :=
  evs.filter (fun e => decide (∃ j ∈ order, j ∉ evs.map (fun e => e.1.id) ∧ order.idxOf e.1.id < order.idxOf j))

end PyBBN
