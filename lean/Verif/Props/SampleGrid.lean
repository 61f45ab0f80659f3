import Verif.Proofs.SampleGrid
import Verif.Props.SampleChance

/-! # C101: sampling with random numbers of finite precision

`np.random.uniform` returns multiples of `2^-53`. CPT entries like 1/3 are not multiples of `2^-53`, so the joint values are not drawn with exactly their
probabilities. -/

namespace PyBBN
open Classical InferenceController Reject

variable {it : SetIter Int} {js : SetIter Str} {ops : List BOp} {jt : JoinTree} {M : Nat}

/-- the number of values of all nodes together -/
def Bbn.size (b : Bbn) : Nat := (b.vars.map (fun v => v.values.length)).sum

theorem sum_map_sub' {α : Type} (l : List α) (f g : α → ℚ) : (l.map (fun a => f a - g a)).sum = (l.map f).sum - (l.map g).sum := by
  induction l with
  | nil => simp
  | cons a l ih => simp only [List.map_cons, List.sum_cons, ih]; ring

theorem size_cast (b : Bbn) : ((b.vars.map (fun v => v.values.length)).sum : ℚ) = (b.size : ℚ) := by
  unfold Bbn.size
  generalize b.vars = l
  induction l with
  | nil => simp
  | cons v l ih => simp only [List.map_cons, List.sum_cons, Nat.cast_add, ih]

section
variable (ps : PySort SortableNode) (hs : (Bbn.run ops).Samplable) (hM : 0 < M) (s : LogicSampler)
    (hmake : LogicSampler.make ps (Bbn.run ops) = .ok s) (ht : (Bbn.run ops).Topological s.nodes)
    (hasc : ∀ n ∈ (Bbn.run ops).toGraph.getNodes, (ddGet (Bbn.run ops).parents n.var.id).Pairwise (· < ·))
include hs hM ht hasc

/-- the share of the passes that are kept and draw a joint value with a property is close to its probability -/
theorem kept_near {evs : List (Variable × Str)} (ho : Observations (Bbn.run ops) evs) (Q : Asg → Prop)
    (hQ : ∀ σ τ, (∀ v ∈ (Bbn.run ops).vars, σ v.id = τ v.id) → (Q σ ↔ Q τ)) :
    |frac (Fin s.nodes.length → Fin M) (fun ω => Kept (Bbn.run ops) s.nodes (obsDict evs) ω ∧ Q (drawn (Bbn.run ops) s.nodes ω)) -
      (((allAsg (Bbn.run ops).vars).filter (fun σ => decide (Matches (obsDict (followed s.nodes evs)) σ ∧ Q σ))).map
        ((Bbn.run ops).weight noEvidence)).sum| ≤ ((Bbn.run ops).size : ℚ) / M := by
  have hi := bbn_run_inv ops
  rw [frac_kept_sum hs s ht hM ho Q hQ, sum_map_filter, sum_map_filter, ← sum_map_sub']
  refine le_trans (abs_sum_le _) ?_
  rw [List.map_map]
  have h := network_near hi hs hM ht
  rw [size_cast] at h
  refine le_trans (sum_map_le ?_) h
  intro σ hσ
  have hd := allAsg_mem_dom _ (vars_nodup hi) σ hσ
  simp only [Function.comp]
  by_cases hc : Matches (obsDict (followed s.nodes evs)) σ ∧ Q σ
  · rw [if_pos (decide_eq_true hc), if_pos (decide_eq_true hc), frac_draws_grid hi hM ht hd, boxVolume_eq hi hasc hd, abs_sub_comm]
  · rw [if_neg (fun h => hc (of_decide_eq_true h)), if_neg (fun h => hc (of_decide_eq_true h)), sub_zero, abs_zero]
    exact abs_nonneg _

theorem obs_near {evs : List (Variable × Str)} (ho : Observations (Bbn.run ops) evs) :
    |frac (Fin s.nodes.length → Fin M) (Kept (Bbn.run ops) s.nodes (obsDict evs)) - (Bbn.run ops).obsProb (followed s.nodes evs)| ≤
      ((Bbn.run ops).size : ℚ) / M := by
  have h := kept_near hs hM s ht hasc ho (fun _ => True) (fun _ _ _ => Iff.rfl)
  have e : frac (Fin s.nodes.length → Fin M) (Kept (Bbn.run ops) s.nodes (obsDict evs)) =
      frac (Fin s.nodes.length → Fin M) (fun ω => Kept (Bbn.run ops) s.nodes (obsDict evs) ω ∧ True) := by
    congr 1; funext ω; simp
  rw [e]
  refine le_trans (le_of_eq ?_) h
  congr 2
  unfold Bbn.obsProb
  exact congrArg List.sum (congrArg _ (filter_same (fun σ => (and_iff_left trivial).symm)))

theorem kept_pos_near {evs : List (Variable × Str)} (ho : Observations (Bbn.run ops) evs)
    (hpos : ((Bbn.run ops).size : ℚ) / M < (Bbn.run ops).obsProb (followed s.nodes evs)) :
    0 < frac (Fin s.nodes.length → Fin M) (Kept (Bbn.run ops) s.nodes (obsDict evs)) ∧
    0 < Fintype.card {ω : Fin s.nodes.length → Fin M // Kept (Bbn.run ops) s.nodes (obsDict evs) ω} := by
  have h := abs_le.1 (obs_near hs hM s ht hasc ho)
  have hp : 0 < frac (Fin s.nodes.length → Fin M) (Kept (Bbn.run ops) s.nodes (obsDict evs)) := by linarith
  refine ⟨hp, ?_⟩
  rw [Nat.pos_iff_ne_zero]
  intro h0
  have : IsEmpty {ω : Fin s.nodes.length → Fin M // Kept (Bbn.run ops) s.nodes (obsDict evs) ω} := Fintype.card_eq_zero_iff.1 h0
  unfold frac at hp
  rw [Finset.sum_eq_zero (fun ω _ => if_neg (fun hc => this.elim ⟨ω, hc⟩)), zero_div] at hp
  exact lt_irrefl _ hp

end

theorem quot_near {a a' c c' δ : ℚ} (h0 : 0 ≤ a') (h1 : a' ≤ c') (hc' : 0 < c') (hc : 0 < c) (ha : |a' - a| ≤ δ) (hcc : |c' - c| ≤ δ) :
    |a' / c' - a / c| ≤ 2 * δ / c := by
  have e : a' / c' - a / c = (a' / c' * (c - c') + (a' - a)) / c := by
    field_simp
    ring
  rw [e, abs_div, abs_of_pos hc]
  apply div_le_div_of_nonneg_right _ hc.le
  refine le_trans (abs_add_le _ _) ?_
  have hq0 : 0 ≤ a' / c' := div_nonneg h0 hc'.le
  have hq1 : a' / c' ≤ 1 := (div_le_one hc').2 h1
  rw [abs_mul, abs_of_nonneg hq0]
  rw [abs_sub_comm] at hcc
  have := mul_le_mul hq1 hcc (abs_nonneg _) (by norm_num : (0 : ℚ) ≤ 1)
  linarith

theorem frac_mono {Ω : Type} [Fintype Ω] {p q : Ω → Prop} (h : ∀ d, p d → q d) : frac Ω p ≤ frac Ω q := by
  unfold frac
  apply div_le_div_of_nonneg_right _ (by positivity)
  apply Finset.sum_le_sum
  intro d _
  by_cases hp : p d
  · rw [if_pos hp, if_pos (h d hp)]
  · rw [if_neg hp]; split <;> norm_num

theorem frac_nonneg {Ω : Type} [Fintype Ω] (p : Ω → Prop) : 0 ≤ frac Ω p := by
  unfold frac
  exact div_nonneg (Finset.sum_nonneg (fun d _ => by split <;> norm_num)) (by positivity)

/-- the probability that one sample has some property, as a share of the passes -/
theorem one_sample (ps : PySort SortableNode) (hs : (Bbn.run ops).Samplable) (hM : 0 < M) (s : LogicSampler)
    (hmake : LogicSampler.make ps (Bbn.run ops) = .ok s) (ht : (Bbn.run ops).Topological s.nodes)
    (Q : Asg → Prop) (hQ : ∀ σ τ, (∀ v ∈ (Bbn.run ops).vars, σ v.id = τ v.id) → (Q σ ↔ Q τ)) :
    s.Prob M [] 1 (fun samples => ∃ d σ, samples = [d] ∧ (Bbn.run ops).Sample d σ ∧ Q σ)
      (frac (Fin s.nodes.length → Fin M) (fun ω => Kept (Bbn.run ops) s.nodes (obsDict []) ω ∧ Q (drawn (Bbn.run ops) s.nodes ω))) := by
  have ho : Observations (Bbn.run ops) [] := ⟨by simp, by simp, by simp⟩
  have hk : ∀ ω : Fin s.nodes.length → Fin M, Kept (Bbn.run ops) s.nodes (obsDict []) ω := by
    intro ω; unfold Kept; rw [checked_iff]; simp [followed, obsDict, Matches]
  have hcard : 0 < Fintype.card {ω : Fin s.nodes.length → Fin M // Kept (Bbn.run ops) s.nodes (obsDict []) ω} := by
    rw [Fintype.card_pos_iff]
    exact ⟨⟨fun _ => ⟨0, hM⟩, hk _⟩⟩
  have hlaw := sample_law ps hs hM s hmake ht (evidence := obsDict []) ho.keys ho.ids (N := 1) one_pos hcard
    (p := fun samples => ∃ d σ, samples = [d] ∧ (Bbn.run ops).Sample d σ ∧ Q σ) (p' := fun τs => ∃ τ, τs = [τ] ∧ Q τ) (by
      intro samples τs h
      constructor
      · rintro ⟨d, σ, rfl, hd, hq⟩
        obtain ⟨τ, l, hτ, hl, rfl⟩ := List.forall₂_cons_left_iff.1 h
        cases hl
        refine ⟨τ, rfl, (hQ σ τ ?_).1 hq⟩
        rw [agree_vars_iff]
        intro i hid
        exact Option.some.inj ((hd.2 i hid).symm.trans (hτ.2 i hid))
      · rintro ⟨τ, rfl, hq⟩
        obtain ⟨d, l, hd, hl, rfl⟩ := List.forall₂_cons_right_iff.1 h
        cases hl
        exact ⟨d, τ, rfl, hd, hq⟩)
  have hfs := frac_sub (Kept (Bbn.run ops) s.nodes (obsDict [])) (fun ω : Fin s.nodes.length → Fin M => Q (drawn (Bbn.run ops) s.nodes ω))
  have hone : frac (Fin s.nodes.length → Fin M) (Kept (Bbn.run ops) s.nodes (obsDict [])) = 1 := by
    unfold frac
    have : (Fintype.card (Fin s.nodes.length → Fin M) : ℚ) ≠ 0 := by
      have : Nonempty (Fin s.nodes.length → Fin M) := ⟨fun _ => ⟨0, hM⟩⟩
      exact_mod_cast Fintype.card_ne_zero
    rw [Finset.sum_congr rfl (fun ω _ => if_pos (hk ω))]
    simp only [Finset.sum_const, Finset.card_univ, nsmul_eq_mul, mul_one]
    exact div_self this
  rw [hone, div_one] at hfs
  have hpart : part {ω : Fin s.nodes.length → Fin M // Kept (Bbn.run ops) s.nodes (obsDict []) ω} 1
      (fun l => ∃ τ, l.map (fun ω => overlay (obsDict []) (drawn (Bbn.run ops) s.nodes ω.1)) = [τ] ∧ Q τ) =
      frac {ω : Fin s.nodes.length → Fin M // Kept (Bbn.run ops) s.nodes (obsDict []) ω} (fun ω => Q (drawn (Bbn.run ops) s.nodes ω.1)) := by
    rw [part_succ]
    unfold frac
    congr 1
    refine Finset.sum_congr rfl (fun ω _ => ?_)
    rw [part_zero]
    have : (∃ τ, ([ω].map (fun ω : {ω : Fin s.nodes.length → Fin M // Kept (Bbn.run ops) s.nodes (obsDict []) ω} =>
        overlay (obsDict []) (drawn (Bbn.run ops) s.nodes ω.1))) = [τ] ∧ Q τ) ↔ Q (drawn (Bbn.run ops) s.nodes ω.1) := by
      constructor
      · rintro ⟨τ, e, h⟩
        simp only [List.map_cons, List.map_nil, List.cons.injEq, and_true] at e
        rw [← e] at h
        exact h
      · intro h
        exact ⟨_, rfl, h⟩
    by_cases hc : Q (drawn (Bbn.run ops) s.nodes ω.1)
    · rw [if_pos hc, if_pos (this.2 hc)]
    · rw [if_neg hc, if_neg (fun h => hc (this.1 h))]
  rw [← hfs, ← hpart]
  exact hlaw

/-- **C101, the exact law**. With random numbers that are multiples of `1/M`, a sample is `σ` with probability `∏ (⌈M hi⌉ - ⌈M lo⌉) / M`, where `lo` and `hi` are the
ends of the interval of the value of a node. -/
theorem c101_law (ps : PySort SortableNode) (hs : (Bbn.run ops).Samplable) (hM : 0 < M) (s : LogicSampler)
    (hmake : LogicSampler.make ps (Bbn.run ops) = .ok s) (ht : (Bbn.run ops).Topological s.nodes) {σ : Asg} (hσ : InDom (Bbn.run ops).vars σ) :
    let row := fun n : BbnNode => cptRow n.probs ((Bbn.run ops).sortedParentVars n.var.id) n.var σ
    let lo := fun n : BbnNode => ((row n).take (n.var.values.idxOf (σ n.var.id))).sum
    let hi := fun n : BbnNode => ((row n).take (n.var.values.idxOf (σ n.var.id) + 1)).sum
    s.Prob M [] 1 (fun samples => ∃ d, samples = [d] ∧ (Bbn.run ops).Sample d σ)
      ((Bbn.run ops).toGraph.getNodes.map (fun n => ((⌈hi n * M⌉₊ : ℚ) - (⌈lo n * M⌉₊ : ℚ)) / M)).prod := by
  intro row lo hi
  have hi' := bbn_run_inv ops
  have h := one_sample ps hs hM s hmake ht (fun τ => ∀ v ∈ (Bbn.run ops).vars, σ v.id = τ v.id) (fun τ τ' h => by
    constructor
    · intro h1 v hv; rw [h1 v hv, h v hv]
    · intro h1 v hv; rw [h1 v hv, h v hv])
  have e1 : (fun samples : List (Dict Int Str) => ∃ d τ, samples = [d] ∧ (Bbn.run ops).Sample d τ ∧ ∀ v ∈ (Bbn.run ops).vars, σ v.id = τ v.id) =
      fun samples => ∃ d, samples = [d] ∧ (Bbn.run ops).Sample d σ := by
    funext samples
    apply propext
    constructor
    · rintro ⟨d, τ, rfl, hd, hq⟩
      rw [agree_vars_iff] at hq
      exact ⟨d, rfl, hd.1, fun i hid => by rw [hd.2 i hid, hq i hid]⟩
    · rintro ⟨d, rfl, hd⟩
      exact ⟨d, σ, rfl, hd, fun v _ => rfl⟩
  rw [e1] at h
  refine cast ?_ h
  congr 1
  have e2 : frac (Fin s.nodes.length → Fin M) (fun ω => Kept (Bbn.run ops) s.nodes (obsDict []) ω ∧ ∀ v ∈ (Bbn.run ops).vars, σ v.id = drawn (Bbn.run ops) s.nodes ω v.id) =
      frac (Fin s.nodes.length → Fin M) (fun ω => (Bbn.run ops).Draws (Bbn.run ops).sortedParentVars s.nodes (gridPass ω) σ) := by
    congr 1
    funext ω
    apply propext
    rw [draws_iff hs hM ht ω hσ]
    refine and_iff_right ?_
    unfold Kept; rw [checked_iff]; simp [followed, obsDict, Matches]
  rw [e2, frac_draws_grid hi' hM ht hσ, (ht.1.map _).prod_eq]
  unfold Bbn.ids
  rw [List.map_map]
  refine congrArg List.prod (List.map_congr_left (fun n hn => ?_))
  have hid : n.var.id ∈ (Bbn.run ops).ids := mem_ids.2 ⟨n, hn, rfl⟩
  simp only [Function.comp]
  rw [gridWidth_eq hi' hs hM hid hσ (by rw [nodeOf_of_mem hi' hn]; exact hσ n.var (List.mem_map_of_mem hn))]
  simp only [cumOf, gridRow, nodeOf_of_mem hi' hn]
  rfl

section
variable (ps : PySort SortableNode) (hs : (Bbn.run ops).Samplable) (hM : 0 < M) (s : LogicSampler)
    (hmake : LogicSampler.make ps (Bbn.run ops) = .ok s) (ht : (Bbn.run ops).Topological s.nodes)
    (hasc : ∀ n ∈ (Bbn.run ops).toGraph.getNodes, (ddGet (Bbn.run ops).parents n.var.id).Pairwise (· < ·))
include hs hM ht hasc hmake

/-- **C101, one sample** (partial: parents connected in ascending order, topological order). With random numbers that are multiples of `1/M`, the
probability that a sample has some property differs from its probability in the network by at most the number of values of all nodes, divided by `M`. No
condition on the CPT entries. -/
theorem c101_event_partial (Q : Asg → Prop) (hQ : ∀ σ τ, (∀ v ∈ (Bbn.run ops).vars, σ v.id = τ v.id) → (Q σ ↔ Q τ)) :
    ∃ r, s.Prob M [] 1 (fun samples => ∃ d σ, samples = [d] ∧ (Bbn.run ops).Sample d σ ∧ Q σ) r ∧
      |r - (((allAsg (Bbn.run ops).vars).filter (fun σ => decide (Q σ))).map ((Bbn.run ops).weight noEvidence)).sum| ≤ ((Bbn.run ops).size : ℚ) / M := by
  refine ⟨_, one_sample ps hs hM s hmake ht Q hQ, ?_⟩
  have ho : Observations (Bbn.run ops) [] := ⟨by simp, by simp, by simp⟩
  have h := kept_near hs hM s ht hasc ho Q hQ
  refine le_trans (le_of_eq ?_) h
  congr 2
  refine congrArg List.sum (congrArg _ (filter_same (fun σ => ?_)))
  simp [followed, obsDict, Matches]

/-- **C101** (partial: parents connected in ascending order, topological order, observations of nodes other than the one visited last). With random
numbers that are multiples of `1/M`, `δ` the number of values of all nodes divided by `M`, and observations of probability `P > δ`: the relative frequency of
`v = x` in `N` samples is off by `ε + 2δ/P` or more from the probability that the join tree reports after the same observations with probability at most
`1 / (4 N ε²)`. No condition on the CPT entries. -/
theorem c101_estimate_partial (hu : Net.Usable ops) (hj : apply it js (Bbn.run ops) = .ok jt) {evs : List (Variable × Str)}
    (ho : Observations (Bbn.run ops) evs) (hlast : ∀ i, s.nodes.getLast? = some i → ∀ e ∈ evs, e.1.id ≠ i)
    (hpos : ((Bbn.run ops).size : ℚ) / M < (Bbn.run ops).obsProb evs) (k : SetIter Str)
    {v : Variable} (hv : v ∈ (Bbn.run ops).vars) {x : Str} (hx : x ∈ v.values) :
    ∃ q, Reports (runHist jt [(k, .update (obsList evs))]) v x q ∧
      ∀ N : Nat, 0 < N → ∀ ε : ℚ, 0 < ε →
        ∃ r, s.Prob M (obsDict evs) N (fun samples =>
          ε + 2 * (((Bbn.run ops).size : ℚ) / M) / (Bbn.run ops).obsProb evs ≤ |relFreq N samples v.id x - q|) r ∧ r ≤ 1 / (4 * N * ε ^ 2) := by
  have hi := bbn_run_inv ops
  have hf := followed_eq ht.1 (nodup_order hi ht) ho hlast
  have hrep := (c84_frequency_partial ps hu hs s hmake ht hasc hj ho hlast k).2 v hv x hx
  obtain ⟨hfp, hK⟩ := kept_pos_near hs hM s ht hasc ho (by rw [hf]; exact hpos)
  refine ⟨_, hrep, fun N hN ε hε => freq_near ps hs hM s hmake ht ho hK hv (fun e he _ => by rw [hf]; exact he) hN hε (add_le_add le_rfl ?_)⟩
  have hfs := frac_sub (Kept (Bbn.run ops) s.nodes (obsDict evs)) (fun ω : Fin s.nodes.length → Fin M => drawn (Bbn.run ops) s.nodes ω v.id = x)
  rw [hfs]
  have ha := kept_near hs hM s ht hasc ho (fun σ => σ v.id = x) (fun σ τ h => by rw [h v hv])
  have hc := obs_near hs hM s ht hasc ho
  rw [hf] at hc
  have hP : 0 < (Bbn.run ops).obsProb evs := lt_of_le_of_lt (by positivity) hpos
  refine le_trans (le_of_eq ?_) (quot_near (frac_nonneg _) (frac_mono (fun ω h => h.1)) hfp hP ha hc)
  congr 3
  · rw [hf]
    refine congrArg List.sum ((congrArg _ (filter_same (fun σ => Iff.rfl))).trans (List.map_congr_left (fun σ hσ => ?_)))
    exact boxVolume_eq hi hasc (allAsg_mem_dom _ (vars_nodup hi) σ (List.mem_of_mem_filter hσ))
  · unfold Bbn.obsProb
    refine congrArg List.sum (List.map_congr_left (fun σ hσ => ?_))
    exact boxVolume_eq hi hasc (allAsg_mem_dom _ (vars_nodup hi) σ (List.mem_of_mem_filter hσ))

end

end PyBBN

namespace PyBBN
open InferenceController

/-! ## The claims are not vacuous -/

/-- node 0 is on with probability 2/3, node 1 copies it with probability 2/3, node 2 is fair -/
def c101_ops : List BOp :=
  [.addEdge (mkNode 0 "a" [2/3, 1/3]) (mkNode 1 "b" [2/3, 1/3, 1/3, 2/3]), .addEdge (mkNode 0 "a" [2/3, 1/3]) (mkNode 2 "c" [1/2, 1/2, 1/2, 1/2])]

theorem c101_usable : Net.Usable c101_ops :=
  ⟨⟨wf_of_check (by decide +kernel) (by decide +kernel), by decide +kernel⟩, connected_of_check 0 (by decide +kernel)⟩

theorem c101_samplable : (Bbn.run c101_ops).Samplable := samplable_of_checks _ (by decide +kernel) (by decide +kernel)

/-- all conditions hold for doubles; node 1 is observed to be on, which has probability 5/9; the error is less than `2^-47`. The CPT entries are not multiples of
`2^-53`, so C97 says nothing. -/
example : Net.Usable c101_ops ∧ (Bbn.run c101_ops).Samplable ∧ ¬ (Bbn.run c101_ops).Grid (2 ^ 53) ∧
    (∃ s, LogicSampler.make (cpython _) (Bbn.run c101_ops) = .ok s ∧ (Bbn.run c101_ops).Topological s.nodes ∧
      ∀ i, s.nodes.getLast? = some i → ∀ e ∈ [((mkNode 1 "b" []).var, "on".toList)], e.1.id ≠ i) ∧
    (∀ n ∈ (Bbn.run c101_ops).toGraph.getNodes, (ddGet (Bbn.run c101_ops).parents n.var.id).Pairwise (· < ·)) ∧
    Observations (Bbn.run c101_ops) [((mkNode 1 "b" []).var, "on".toList)] ∧
    (Bbn.run c101_ops).obsProb [((mkNode 1 "b" []).var, "on".toList)] = 5/9 ∧ (Bbn.run c101_ops).size = 6 ∧
    2 * (((Bbn.run c101_ops).size : ℚ) / ((2 ^ 53 : Nat) : ℚ)) / (5/9) < 1 / 2 ^ 47 := by
  have hsort : LogicSampler.topologicalSort (cpython _) (Bbn.run c101_ops) = [0, 1, 2] := by decide +kernel
  have htop := c34_ascending_edges (cpython _) c101_ops (by decide +kernel)
  have hmk : (LogicSampler.make (cpython _) (Bbn.run c101_ops)).val?.isSome = true := by decide +kernel
  have hsz : (Bbn.run c101_ops).size = 6 := by decide +kernel
  refine ⟨c101_usable, c101_samplable, ?_, ?_, by decide +kernel, ⟨by decide +kernel, by decide +kernel, by decide +kernel⟩, by decide +kernel, hsz,
    by rw [hsz]; norm_num⟩
  · rintro ⟨_, h⟩
    obtain ⟨k, hk⟩ := h (mkNode 0 "a" [2/3, 1/3]) (by decide +kernel) (1/3) (by decide +kernel)
    have h3 : (2 ^ 53 : Nat) = 3 * k := by
      have : ((2 ^ 53 : Nat) : ℚ) = 3 * (k : ℚ) := by rw [← hk]; push_cast; ring
      exact_mod_cast this
    omega
  · cases hm : LogicSampler.make (cpython _) (Bbn.run c101_ops) with
    | error e => rw [hm] at hmk; cases hmk
    | ok s =>
      have hn := (make_tables _ (bbn_run_inv c101_ops) hm).1
      refine ⟨s, rfl, by rw [hn]; exact htop, ?_⟩
      rw [hn, hsort]
      decide +kernel

theorem prod_grid {α : Type} (f g : α → Nat) {M : Nat} (hM : 0 < M) : ∀ l : List α, ∃ z : Int,
    (l.map (fun a => ((f a : ℚ) - (g a : ℚ)) / M)).prod * (M : ℚ) ^ l.length = z
  | [] => ⟨1, by simp⟩
  | a :: l => by
      obtain ⟨z, hz⟩ := prod_grid f g hM l
      have hM' : (M : ℚ) ≠ 0 := by positivity
      refine ⟨((f a : Int) - (g a : Int)) * z, ?_⟩
      rw [List.map_cons, List.prod_cons, List.length_cons, pow_succ]
      push_cast
      rw [← hz]
      field_simp

/-- **C101**: the bound cannot be improved to zero. The joint value on, on, on of this network has probability 2/9; with doubles it is drawn with
another probability. -/
theorem c101_exact_false : ∃ s r, LogicSampler.make (cpython _) (Bbn.run c101_ops) = .ok s ∧
    s.Prob (2 ^ 53) [] 1 (fun samples => ∃ d, samples = [d] ∧ (Bbn.run c101_ops).Sample d (fun _ => "on".toList)) r ∧
    (Bbn.run c101_ops).weight noEvidence (fun _ => "on".toList) = 2/9 ∧ r ≠ 2/9 := by
  have hmk : (LogicSampler.make (cpython _) (Bbn.run c101_ops)).val?.isSome = true := by decide +kernel
  have htop := c34_ascending_edges (cpython _) c101_ops (by decide +kernel)
  cases hm : LogicSampler.make (cpython _) (Bbn.run c101_ops) with
  | error e => rw [hm] at hmk; cases hmk
  | ok s =>
    have hn := (make_tables _ (bbn_run_inv c101_ops) hm).1
    refine ⟨s, _, rfl, c101_law (cpython _) c101_samplable (by positivity) s hm (by rw [hn]; exact htop) (σ := fun _ => "on".toList)
      (by unfold InDom; decide +kernel), by decide +kernel, ?_⟩
    intro h
    obtain ⟨z, hz⟩ := prod_grid (M := 2 ^ 53)
      (fun n : BbnNode => ⌈((cptRow n.probs ((Bbn.run c101_ops).sortedParentVars n.var.id) n.var (fun _ => "on".toList)).take
        (n.var.values.idxOf "on".toList + 1)).sum * ((2 ^ 53 : Nat) : ℚ)⌉₊)
      (fun n : BbnNode => ⌈((cptRow n.probs ((Bbn.run c101_ops).sortedParentVars n.var.id) n.var (fun _ => "on".toList)).take
        (n.var.values.idxOf "on".toList)).sum * ((2 ^ 53 : Nat) : ℚ)⌉₊) (by positivity) (Bbn.run c101_ops).toGraph.getNodes
    rw [h, show (Bbn.run c101_ops).toGraph.getNodes.length = 3 by decide +kernel] at hz
    have h9 : (2 * (2 ^ 53) ^ 3 : Int) = 9 * z := by
      have : (2 * (2 ^ 53) ^ 3 : ℚ) = 9 * (z : ℚ) := by rw [← hz]; push_cast; ring
      exact_mod_cast this
    omega

end PyBBN
