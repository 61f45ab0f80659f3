import Verif.Proofs.SampleLaw
import Verif.Proofs.LearnMath

/-! # C97: estimates from samples converge to what inference reports

The numbers drawn by `np.random.uniform` are independent and uniform on `0, 1/M, 2/M, …`, where the CPT entries are multiples of `1/M`. -/

namespace PyBBN
open Classical InferenceController Reject

variable {it : SetIter Int} {js : SetIter Str} {ops : List BOp} {jt : JoinTree} {M : Nat}

/-- the probability that the observations are made -/
def Bbn.obsProb (b : Bbn) (evs : List (Variable × Str)) : ℚ :=
  (((allAsg b.vars).filter (fun σ => decide (Matches (obsDict evs) σ))).map (b.weight noEvidence)).sum

theorem filter_same {α : Type} {l : List α} {p q : α → Prop} {_ : DecidablePred p} {_ : DecidablePred q} (h : ∀ a, p a ↔ q a) :
    l.filter (fun a => decide (p a)) = l.filter (fun a => decide (q a)) := List.filter_congr (fun a _ => decide_eq_decide.2 (h a))

theorem samples_iff {b : Bbn} {samples : List (Dict Int Str)} {τs : List Asg} (h : List.Forall₂ (fun r τ => b.Sample r τ) samples τs) :
    ∀ σs : List Asg, List.Forall₂ (fun r σ => b.Sample r σ) samples σs ↔ List.Forall₂ (fun τ σ => ∀ v ∈ b.vars, σ v.id = τ v.id) τs σs := by
  induction h with
  | nil => intro σs; cases σs <;> simp
  | @cons r τ rs τs hr h ih =>
    intro σs
    cases σs with
    | nil => simp
    | cons σ σs =>
      rw [List.forall₂_cons, List.forall₂_cons]
      refine and_congr ?_ (ih σs)
      rw [agree_vars_iff]
      constructor
      · intro h i hi
        exact Option.some.inj ((h.2 i hi).symm.trans (hr.2 i hi))
      · intro h
        exact ⟨hr.1, fun i hi => by rw [hr.2 i hi, h i hi]⟩

/-- the relative frequency of `v = x` is close to its share among the passes that are kept -/
theorem freq_near (ps : PySort SortableNode) (hs : (Bbn.run ops).Samplable) (hM : 0 < M) (s : LogicSampler)
    (hmake : LogicSampler.make ps (Bbn.run ops) = .ok s) (ht : (Bbn.run ops).Topological s.nodes) {evs : List (Variable × Str)}
    (ho : Observations (Bbn.run ops) evs)
    (hK : 0 < Fintype.card {ω : Fin s.nodes.length → Fin M // Kept (Bbn.run ops) s.nodes (obsDict evs) ω})
    {v : Variable} (hv : v ∈ (Bbn.run ops).vars) {x : Str} (hve : ∀ e ∈ evs, e.1.id = v.id → e ∈ followed s.nodes evs)
    {N : Nat} (hN : 0 < N) {ε q t : ℚ} (hε : 0 < ε) (hq : ε + |frac {ω : Fin s.nodes.length → Fin M // Kept (Bbn.run ops) s.nodes (obsDict evs) ω}
      (fun ω => drawn (Bbn.run ops) s.nodes ω.1 v.id = x) - q| ≤ t) :
    ∃ r, s.Prob M (obsDict evs) N (fun samples => t ≤ |relFreq N samples v.id x - q|) r ∧ r ≤ 1 / (4 * N * ε ^ 2) := by
  have hover : ∀ ω : Fin s.nodes.length → Fin M, Kept (Bbn.run ops) s.nodes (obsDict evs) ω →
      overlay (obsDict evs) (drawn (Bbn.run ops) s.nodes ω) v.id = drawn (Bbn.run ops) s.nodes ω v.id := by
    intro ω hω
    unfold overlay
    cases hgt : Dict.get? (obsDict evs) v.id with
    | none => rfl
    | some y =>
      have hm := Dict.mem_of_get? hgt
      obtain ⟨e, he, e1⟩ := List.mem_map.1 hm
      have h1 : e.1.id = v.id := congrArg Prod.fst e1
      have h2 : e.2 = y := congrArg Prod.snd e1
      have := (checked_iff _ _ _).1 hω (e.1.id, e.2) (List.mem_map_of_mem (hve e he h1))
      simp only [h1, h2] at this
      exact this.symm
  have hlaw := sample_law ps hs hM s hmake ht ho.keys ho.ids hN hK
    (p := fun samples => t ≤ |relFreq N samples v.id x - q|) (p' := fun τs => t ≤ |((τs.filter (fun τ => decide (τ v.id = x))).length : ℚ) / N - q|) (by
      intro samples τs h
      have hvid : v.id ∈ (Bbn.run ops).ids := by
        obtain ⟨n, hn, e1⟩ := List.mem_map.1 hv
        exact mem_ids.2 ⟨n, hn, by rw [e1]⟩
      have : (samples.filter (fun r => decide (Dict.get? r v.id = some x))).length = (τs.filter (fun τ => decide (τ v.id = x))).length := by
        induction h with
        | nil => rfl
        | cons hr _ ih =>
          rw [List.filter_cons, List.filter_cons, hr.2 v.id hvid]
          simp only [Option.some.injEq]
          split <;> simp [ih]
      unfold relFreq
      rw [this])
  refine ⟨_, hlaw, ?_⟩
  have hch := chebyshev hK (fun ω : {ω : Fin s.nodes.length → Fin M // Kept (Bbn.run ops) s.nodes (obsDict evs) ω} =>
    drawn (Bbn.run ops) s.nodes ω.1 v.id = x) hN hε
  refine le_trans (part_mono ?_) hch
  intro l _
  have : ((l.map (fun ω => overlay (obsDict evs) (drawn (Bbn.run ops) s.nodes ω.1))).filter (fun τ => decide (τ v.id = x))).length =
      (l.filter (fun ω => @decide (drawn (Bbn.run ops) s.nodes ω.1 v.id = x) (Classical.propDecidable _))).length := by
    rw [List.filter_map, List.length_map]
    refine congrArg List.length (List.filter_congr (fun ω _ => ?_))
    refine decide_eq_decide.2 ?_
    beta_reduce
    rw [hover ω.1 ω.2]
  rw [this]
  generalize frac {ω : Fin s.nodes.length → Fin M // Kept (Bbn.run ops) s.nodes (obsDict evs) ω} (fun ω => drawn (Bbn.run ops) s.nodes ω.1 v.id = x) = f at hq ⊢
  intro ht'
  have := abs_sub_le ((l.filter (fun ω => @decide (drawn (Bbn.run ops) s.nodes ω.1 v.id = x) (Classical.propDecidable _))).length / (N : ℚ)) f q
  linarith

/-- the relative frequency of `v = x` converges to its share among the passes that are kept -/
theorem freq_law (ps : PySort SortableNode) (hs : (Bbn.run ops).Samplable) (hM : 0 < M) (s : LogicSampler)
    (hmake : LogicSampler.make ps (Bbn.run ops) = .ok s) (ht : (Bbn.run ops).Topological s.nodes) {evs : List (Variable × Str)}
    (ho : Observations (Bbn.run ops) evs)
    (hK : 0 < Fintype.card {ω : Fin s.nodes.length → Fin M // Kept (Bbn.run ops) s.nodes (obsDict evs) ω})
    {v : Variable} (hv : v ∈ (Bbn.run ops).vars) {x : Str} (hve : ∀ e ∈ evs, e.1.id = v.id → e ∈ followed s.nodes evs)
    {N : Nat} (hN : 0 < N) {ε q : ℚ} (hε : 0 < ε) (hq : frac {ω : Fin s.nodes.length → Fin M // Kept (Bbn.run ops) s.nodes (obsDict evs) ω}
      (fun ω => drawn (Bbn.run ops) s.nodes ω.1 v.id = x) = q) :
    ∃ r, s.Prob M (obsDict evs) N (fun samples => ε ≤ |relFreq N samples v.id x - q|) r ∧ r ≤ 1 / (4 * N * ε ^ 2) := by
  refine freq_near ps hs hM s hmake ht ho hK hv hve hN hε ?_
  rw [hq, sub_self, abs_zero, add_zero]

section
variable (ps : PySort SortableNode) (hs : (Bbn.run ops).Samplable) (hg : (Bbn.run ops).Grid M) (s : LogicSampler)
    (hmake : LogicSampler.make ps (Bbn.run ops) = .ok s) (ht : (Bbn.run ops).Topological s.nodes)
    (hasc : ∀ n ∈ (Bbn.run ops).toGraph.getNodes, (ddGet (Bbn.run ops).parents n.var.id).Pairwise (· < ·))
include hs hg ht hasc

theorem frac_obs {evs : List (Variable × Str)} (ho : Observations (Bbn.run ops) evs) :
    frac (Fin s.nodes.length → Fin M) (Kept (Bbn.run ops) s.nodes (obsDict evs)) = (Bbn.run ops).obsProb (followed s.nodes evs) := by
  have h := frac_kept hs hg s ht ho (fun _ => True) (fun _ _ _ => Iff.rfl)
  have e : frac (Fin s.nodes.length → Fin M) (Kept (Bbn.run ops) s.nodes (obsDict evs)) =
      frac (Fin s.nodes.length → Fin M) (fun ω => Kept (Bbn.run ops) s.nodes (obsDict evs) ω ∧ True) := by
    congr 1; funext ω; simp
  rw [e, h]
  unfold Bbn.obsProb
  refine (congrArg List.sum (congrArg _ (filter_same (fun σ => and_iff_left trivial)))).trans (congrArg List.sum (List.map_congr_left (fun σ hσ => ?_)))
  exact boxVolume_eq (bbn_run_inv ops) hasc (allAsg_mem_dom _ (vars_nodup (bbn_run_inv ops)) σ (List.mem_of_mem_filter hσ))

theorem kept_pos {evs : List (Variable × Str)} (ho : Observations (Bbn.run ops) evs) (hpos : 0 < (Bbn.run ops).obsProb (followed s.nodes evs)) :
    0 < Fintype.card {ω : Fin s.nodes.length → Fin M // Kept (Bbn.run ops) s.nodes (obsDict evs) ω} := by
  rw [Nat.pos_iff_ne_zero]
  intro h0
  rw [← frac_obs hs hg s ht hasc ho] at hpos
  have : IsEmpty {ω : Fin s.nodes.length → Fin M // Kept (Bbn.run ops) s.nodes (obsDict evs) ω} := Fintype.card_eq_zero_iff.1 h0
  unfold frac at hpos
  rw [Finset.sum_eq_zero (fun ω _ => if_neg (fun hc => this.elim ⟨ω, hc⟩)), zero_div] at hpos
  exact lt_irrefl _ hpos

include hmake

/-- **C97, any observations**. `get_samples` ignores the observations of nodes that are followed, in the order in which the nodes are visited, by
observed nodes only. The relative frequency of `v = x` in `N` samples is off by `ε` or more from what the join tree reports **without** those
observations with probability at most `1 / (4 N ε²)`. -/
theorem c97_estimate_exact (hu : Net.Usable ops) (hj : apply it js (Bbn.run ops) = .ok jt) {evs : List (Variable × Str)}
    (ho : Observations (Bbn.run ops) evs) (hpos : 0 < (Bbn.run ops).obsProb (followed s.nodes evs)) (k : SetIter Str)
    {v : Variable} (hv : v ∈ (Bbn.run ops).vars) {x : Str} (hx : x ∈ v.values) (hve : ∀ e ∈ evs, e.1.id = v.id → e ∈ followed s.nodes evs) :
    ∃ q, Reports (runHist jt [(k, .update (obsList (followed s.nodes evs)))]) v x q ∧
      ∀ N : Nat, 0 < N → ∀ ε : ℚ, 0 < ε →
        ∃ r, s.Prob M (obsDict evs) N (fun samples => ε ≤ |relFreq N samples v.id x - q|) r ∧ r ≤ 1 / (4 * N * ε ^ 2) := by
  have hi := bbn_run_inv ops
  have hn := nodup_order hi ht
  have hfo := followed_observations ho s.nodes
  have hrep := (c84_frequency_partial ps hu hs s hmake ht hasc hj hfo (followed_last hn evs) k).2 v hv x hx
  refine ⟨_, hrep, fun N hN ε hε => freq_law ps hs hg.1 s hmake ht ho (kept_pos hs hg s ht hasc ho hpos) hv hve hN hε ?_⟩
  have hfr := frac_kept hs hg s ht ho (fun σ => σ v.id = x) (fun σ τ h => by rw [h v hv])
  have hfo' := frac_sub (Kept (Bbn.run ops) s.nodes (obsDict evs)) (fun ω : Fin s.nodes.length → Fin M => drawn (Bbn.run ops) s.nodes ω v.id = x)
  rw [hfr, frac_obs hs hg s ht hasc ho] at hfo'
  rw [hfo']
  congr 1
  · exact congrArg List.sum (congrArg _ (filter_same (fun σ => Iff.rfl)))
  · unfold Bbn.obsProb
    refine congrArg List.sum (List.map_congr_left (fun σ hσ => ?_))
    exact (boxVolume_eq hi hasc (allAsg_mem_dom _ (vars_nodup hi) σ (List.mem_of_mem_filter hσ))).symm

/-- **C97** (partial: parents connected in ascending order, topological order, observations of nodes other than the one visited last). The
relative frequency of `v = x` in `N` samples is off by `ε` or more from the probability that the join tree reports after the same
observations with probability at most `1 / (4 N ε²)`; so it converges in probability. Missing: `c97_false`, `c50_false`. -/
theorem c97_estimate_partial (hu : Net.Usable ops) (hj : apply it js (Bbn.run ops) = .ok jt) {evs : List (Variable × Str)}
    (ho : Observations (Bbn.run ops) evs) (hlast : ∀ i, s.nodes.getLast? = some i → ∀ e ∈ evs, e.1.id ≠ i)
    (hpos : 0 < (Bbn.run ops).obsProb evs) (k : SetIter Str)
    {v : Variable} (hv : v ∈ (Bbn.run ops).vars) {x : Str} (hx : x ∈ v.values) :
    ∃ q, Reports (runHist jt [(k, .update (obsList evs))]) v x q ∧
      ∀ N : Nat, 0 < N → ∀ ε : ℚ, 0 < ε →
        ∃ r, s.Prob M (obsDict evs) N (fun samples => ε ≤ |relFreq N samples v.id x - q|) r ∧ r ≤ 1 / (4 * N * ε ^ 2) := by
  have hf := followed_eq ht.1 (nodup_order (bbn_run_inv ops) ht) ho hlast
  have h := c97_estimate_exact ps hs hg s hmake ht hasc hu hj ho (by rw [hf]; exact hpos) k hv hx (fun e he _ => by rw [hf]; exact he)
  rw [hf] at h
  exact h

/-- **C97, the law of the samples** (partial, as above). The samples are independent draws from the conditional distribution given the
observations: the probability that `get_samples` returns `σs` is the product of their conditional probabilities. -/
theorem c97_law_partial {evs : List (Variable × Str)}
    (ho : Observations (Bbn.run ops) evs) (hlast : ∀ i, s.nodes.getLast? = some i → ∀ e ∈ evs, e.1.id ≠ i)
    (hpos : 0 < (Bbn.run ops).obsProb evs) {σs : List Asg} (hne : 0 < σs.length) (hσ : ∀ σ ∈ σs, InDom (Bbn.run ops).vars σ) :
    s.Prob M (obsDict evs) σs.length (fun samples => List.Forall₂ (fun r σ => (Bbn.run ops).Sample r σ) samples σs)
      (σs.map (fun σ => (if Matches (obsDict evs) σ then (Bbn.run ops).weight noEvidence σ else 0) / (Bbn.run ops).obsProb evs)).prod := by
  have hi := bbn_run_inv ops
  have hf := followed_eq ht.1 (nodup_order hi ht) ho hlast
  have hK := kept_pos hs hg s ht hasc ho (by rw [hf]; exact hpos)
  have hlaw := sample_law ps hs hg.1 s hmake ht ho.keys ho.ids hne hK
    (p := fun samples => List.Forall₂ (fun r σ => (Bbn.run ops).Sample r σ) samples σs)
    (p' := fun τs => List.Forall₂ (fun τ σ => ∀ v ∈ (Bbn.run ops).vars, σ v.id = τ v.id) τs σs) (fun samples τs h => samples_iff h σs)
  refine cast ?_ hlaw
  congr 1
  have hover : ∀ ω : Fin s.nodes.length → Fin M, Kept (Bbn.run ops) s.nodes (obsDict evs) ω →
      overlay (obsDict evs) (drawn (Bbn.run ops) s.nodes ω) = drawn (Bbn.run ops) s.nodes ω := by
    intro ω hω
    funext i
    unfold overlay
    cases hgt : Dict.get? (obsDict evs) i with
    | none => rfl
    | some y =>
      have hm := (checked_iff _ _ _).1 hω
      rw [hf] at hm
      exact (hm (i, y) (Dict.mem_of_get? hgt)).symm
  rw [part_congr (q := fun l => List.Forall₂ (fun (ω : {ω : Fin s.nodes.length → Fin M // Kept (Bbn.run ops) s.nodes (obsDict evs) ω}) σ =>
    ∀ v ∈ (Bbn.run ops).vars, σ v.id = drawn (Bbn.run ops) s.nodes ω.1 v.id) l σs) (fun l _ => by
      rw [List.forall₂_map_left_iff]
      refine iff_of_eq ?_
      congr 1
      funext ω σ
      rw [hover ω.1 ω.2])]
  rw [part_forall₂]
  refine congrArg List.prod (List.map_congr_left (fun σ hσm => ?_))
  have hfs := frac_sub (Kept (Bbn.run ops) s.nodes (obsDict evs))
    (fun ω : Fin s.nodes.length → Fin M => ∀ v ∈ (Bbn.run ops).vars, σ v.id = drawn (Bbn.run ops) s.nodes ω v.id)
  rw [frac_obs hs hg s ht hasc ho, hf] at hfs
  rw [hfs]
  congr 1
  have hk : ∀ ω : Fin s.nodes.length → Fin M, (Kept (Bbn.run ops) s.nodes (obsDict evs) ω ∧
      ∀ v ∈ (Bbn.run ops).vars, σ v.id = drawn (Bbn.run ops) s.nodes ω v.id) ↔
      Matches (obsDict evs) σ ∧ (Bbn.run ops).Draws (Bbn.run ops).sortedParentVars s.nodes (gridPass ω) σ := by
    intro ω
    rw [draws_iff hs hg.1 ht ω (hσ σ hσm)]
    refine and_congr_left (fun h => ?_)
    unfold Kept
    rw [checked_iff, hf, matches_dep ho h]
  simp only [hk]
  by_cases hm : Matches (obsDict evs) σ
  · simp only [hm, true_and, if_true]
    rw [frac_draws hi hs hg ht (hσ σ hσm), boxVolume_eq hi hasc (hσ σ hσm)]
  · simp only [hm, false_and, if_false]
    simp [frac]

/-- **C97**: `get_samples` returns with probability one if the observations it does not ignore have positive probability -/
theorem c97_returns_surely {evs : List (Variable × Str)} (ho : Observations (Bbn.run ops) evs)
    (hpos : 0 < (Bbn.run ops).obsProb (followed s.nodes evs)) {N : Nat} (hN : 0 < N) : s.Prob M (obsDict evs) N (fun _ => True) 1 := by
  have hK := kept_pos hs hg s ht hasc ho hpos
  have hlaw := sample_law ps hs hg.1 s hmake ht ho.keys ho.ids hN hK (p := fun _ => True) (p' := fun _ => True) (fun _ _ _ => Iff.rfl)
  refine cast ?_ hlaw
  congr 1
  unfold part
  have hK' : (0 : ℚ) < (Fintype.card {ω : Fin s.nodes.length → Fin M // Kept (Bbn.run ops) s.nodes (obsDict evs) ω} : ℚ) := by exact_mod_cast hK
  simp only [if_true, Finset.sum_const, Finset.card_univ, nsmul_eq_mul, mul_one, Fintype.card_fun, Fintype.card_fin, Nat.cast_pow]
  exact div_self (pow_ne_zero _ hK'.ne')

end
end PyBBN

namespace PyBBN
open InferenceController

/-! ## The claims are not vacuous -/

/-- every list of non-negative CPT entries has a common denominator -/
theorem exists_denominator : ∀ l : List ℚ, (∀ p ∈ l, 0 ≤ p) → ∃ M : Nat, 0 < M ∧ ∀ p ∈ l, ∃ k : Nat, p * (M : ℚ) = k
  | [], _ => ⟨1, one_pos, by simp⟩
  | p :: l, h => by
      obtain ⟨M, hM, hl⟩ := exists_denominator l (fun q hq => h q (List.mem_cons_of_mem _ hq))
      have hp := h p List.mem_cons_self
      refine ⟨p.den * M, Nat.mul_pos p.den_pos hM, ?_⟩
      intro q hq
      rcases List.mem_cons.1 hq with rfl | hq
      · refine ⟨q.num.toNat * M, ?_⟩
        push_cast
        rw [← mul_assoc, Rat.mul_den_eq_num]
        congr 1
        have : (0 : Int) ≤ q.num := Rat.num_nonneg.2 hp
        exact_mod_cast (Int.toNat_of_nonneg this).symm
      · obtain ⟨k, hk⟩ := hl q hq
        exact ⟨p.den * k, by push_cast; rw [← hk]; ring⟩

/-- there is a suitable `M` for every network -/
theorem exists_grid {b : Bbn} (h : ∀ n ∈ b.toGraph.getNodes, ∀ p ∈ n.probs, 0 ≤ p) : ∃ M, b.Grid M := by
  obtain ⟨M, hM, hl⟩ := exists_denominator (b.toGraph.getNodes.flatMap (fun n => n.probs)) (by
    intro p hp
    obtain ⟨n, hn, hp⟩ := List.mem_flatMap.1 hp
    exact h n hn p hp)
  exact ⟨M, hM, fun n hn p hp => hl p (List.mem_flatMap.2 ⟨n, hn, hp⟩)⟩

theorem grid_of_check {b : Bbn} {M : Nat} (hM : 0 < M)
    (h : ∀ n ∈ b.toGraph.getNodes, ∀ p ∈ n.probs, p * (M : ℚ) = (((p * (M : ℚ)).num.toNat : Nat) : ℚ)) : b.Grid M :=
  ⟨hM, fun n hn p hp => ⟨_, h n hn p hp⟩⟩

/-- a cause with two effects; node 1 is observed to be on and visited before node 2. The conditions hold with `M = 4`; the observation has probability
1/2, the join tree reports 3/4 for node 0 = on -/
example : Net.Usable c84_ops ∧ (Bbn.run c84_ops).Samplable ∧ (Bbn.run c84_ops).Grid 4 ∧
    (∃ s, LogicSampler.make (cpython _) (Bbn.run c84_ops) = .ok s ∧ (Bbn.run c84_ops).Topological s.nodes ∧
      ∀ i, s.nodes.getLast? = some i → ∀ e ∈ [(c16_node 1, "on".toList)], e.1.id ≠ i) ∧
    (∀ n ∈ (Bbn.run c84_ops).toGraph.getNodes, (ddGet (Bbn.run c84_ops).parents n.var.id).Pairwise (· < ·)) ∧
    Observations (Bbn.run c84_ops) [(c16_node 1, "on".toList)] ∧
    (Bbn.run c84_ops).obsProb [(c16_node 1, "on".toList)] = 1/2 ∧
    ((apply .same .same (Bbn.run c84_ops)).val?.map (fun jt =>
      reportOf (runHist jt [(.same, .update (obsList [(c16_node 1, "on".toList)]))]) (c16_node 0) "on".toList)) = some (some (3/4)) := by
  have hsort : LogicSampler.topologicalSort (cpython _) (Bbn.run c84_ops) = [0, 1, 2] := by decide +kernel
  have htop := c34_ascending_edges (cpython _) c84_ops (by decide +kernel)
  have hmk : (LogicSampler.make (cpython _) (Bbn.run c84_ops)).val?.isSome = true := by decide +kernel
  refine ⟨⟨⟨wf_of_check (by decide +kernel) (by decide +kernel), by decide +kernel⟩, connected_of_check 0 (by decide +kernel)⟩,
    samplable_of_checks _ (by decide +kernel) (by decide +kernel), grid_of_check (by decide) (by decide +kernel), ?_, by decide +kernel,
    ⟨by decide +kernel, by decide +kernel, by decide +kernel⟩, by decide +kernel, by decide +kernel⟩
  cases hm : LogicSampler.make (cpython _) (Bbn.run c84_ops) with
  | error e => rw [hm] at hmk; cases hmk
  | ok s =>
    have hn := (make_tables _ (bbn_run_inv c84_ops) hm).1
    refine ⟨s, rfl, by rw [hn]; exact htop, ?_⟩
    rw [hn, hsort]
    decide +kernel

/-- the theorem on the law at work: 0 is observed to be off, 1 copies it; ten samples are all (off, off) with probability one -/
example : c36_sampler.Prob 2 (obsDict [(c16_node 0, "off".toList)]) 10
    (fun samples => List.Forall₂ (fun r σ => (Bbn.run c36_ops).Sample r σ) samples (List.replicate 10 (fun _ => "off".toList))) 1 := by
  have h := c97_law_partial (cpython _) c36_samplable (M := 2) (grid_of_check (by decide) (by decide +kernel)) c36_sampler c36_make c36_topological
    (by decide +kernel) (evs := [(c16_node 0, "off".toList)]) ⟨by decide +kernel, by decide +kernel, by decide +kernel⟩
    (by rw [c36_order]; decide +kernel) (by decide +kernel) (σs := List.replicate 10 (fun _ => "off".toList)) (by decide) (by
      intro σ hσ
      rw [(List.mem_replicate.1 hσ).2]
      unfold InDom
      decide +kernel)
  have e : (((List.replicate 10 (fun _ => "off".toList : Asg)).map (fun σ => (if Matches (obsDict [(c16_node 0, "off".toList)]) σ then
      (Bbn.run c36_ops).weight noEvidence σ else 0) / (Bbn.run c36_ops).obsProb [(c16_node 0, "off".toList)])).prod) = 1 := by decide +kernel
  rw [e] at h
  exact h

/-- **C97 is false of the code** for observations of the node visited last: 1 copies 0 and is observed to be on. The join tree reports that 0 is
off with probability 0; the relative frequency of 0 = off among the samples converges to 1/2. -/
theorem c97_false : Net.Usable c36_ops ∧ (Bbn.run c36_ops).Samplable ∧ (Bbn.run c36_ops).Grid 2 ∧
    Observations (Bbn.run c36_ops) [(c16_node 1, "on".toList)] ∧
    (∀ n ∈ (Bbn.run c36_ops).toGraph.getNodes, (ddGet (Bbn.run c36_ops).parents n.var.id).Pairwise (· < ·)) ∧
    LogicSampler.make (cpython _) (Bbn.run c36_ops) = .ok c36_sampler ∧ (Bbn.run c36_ops).Topological c36_sampler.nodes ∧
    ∃ jt, apply .same .same (Bbn.run c36_ops) = .ok jt ∧
      Reports (runHist jt [(.same, .update (obsList [(c16_node 1, "on".toList)]))]) (c16_node 0) "off".toList 0 ∧
      ∀ N : Nat, 0 < N → ∀ ε : ℚ, 0 < ε → ∃ r, c36_sampler.Prob 2 (obsDict [(c16_node 1, "on".toList)]) N
        (fun samples => ε ≤ |relFreq N samples 0 "off".toList - 1/2|) r ∧ r ≤ 1 / (4 * N * ε ^ 2) := by
  have hg : (Bbn.run c36_ops).Grid 2 := grid_of_check (by decide) (by decide +kernel)
  have ho : Observations (Bbn.run c36_ops) [(c16_node 1, "on".toList)] := ⟨by decide +kernel, by decide +kernel, by decide +kernel⟩
  have hasc : ∀ n ∈ (Bbn.run c36_ops).toGraph.getNodes, (ddGet (Bbn.run c36_ops).parents n.var.id).Pairwise (· < ·) := by decide +kernel
  refine ⟨c36_usable, c36_samplable, hg, ho, hasc, c36_make, c36_topological, ?_⟩
  have key : ((apply .same .same (Bbn.run c36_ops)).val?.map (fun jt =>
      (reportOf (runHist jt [(.same, .update (obsList [(c16_node 1, "on".toList)]))]) (c16_node 0) "off".toList,
       reportOf (runHist jt [(.same, .update (obsList []))]) (c16_node 0) "off".toList))) = some (some 0, some (1/2)) := by
    decide +kernel
  cases hj : apply .same .same (Bbn.run c36_ops) with
  | error e => rw [hj] at key; cases key
  | ok jt =>
    rw [hj] at key
    have k1 := congrArg Prod.fst (Option.some.inj key)
    have k2 := congrArg Prod.snd (Option.some.inj key)
    refine ⟨jt, rfl, reports_of_eval k1, ?_⟩
    have hf : followed c36_sampler.nodes [(c16_node 1, "on".toList)] = [] := by rw [c36_order]; decide +kernel
    obtain ⟨q, hq, h⟩ := c97_estimate_exact (cpython _) c36_samplable hg c36_sampler c36_make c36_topological hasc c36_usable hj ho
      (by rw [hf]; decide +kernel) .same (v := c16_node 0) (by decide +kernel) (x := "off".toList) (by decide +kernel) (by
        intro e he h0
        rw [List.mem_singleton] at he
        subst he
        exact absurd h0 (by decide))
    rw [hf] at hq
    have hq2 : q = 1/2 := by
      obtain ⟨P, h1, h2⟩ := hq
      obtain ⟨P', h3, h4⟩ := reports_of_eval k2
      rw [h1] at h3
      cases h3
      rw [h2] at h4
      exact Option.some.inj h4
    rw [hq2] at h
    exact h

end PyBBN
