import Verif.Proofs.LearnClose
import Verif.Props.Ace

/-! # C98: a network learned from samples of a network -/

namespace PyBBN
open Relation InferenceController Reject
open Classical

variable {it : SetIter Int} {js : SetIter Str} {ops : List BOp} {jt : JoinTree} {M : Nat}

/-- what always holds has share one -/
theorem part_sure {Ω : Type} [Fintype Ω] (h0 : 0 < Fintype.card Ω) {L : Nat} {p : List Ω → Prop} (h : ∀ l, l.length = L → p l) : part Ω L p = 1 := by
  rw [part_congr (q := fun _ => True) (fun l hl => by simp [h l hl])]
  unfold part
  have hK' : (0 : ℚ) < (Fintype.card Ω : ℚ) := by exact_mod_cast h0
  simp only [if_true, Finset.sum_const, Finset.card_univ, nsmul_eq_mul, mul_one, Fintype.card_fun, Fintype.card_fin, Nat.cast_pow]
  exact div_self (pow_ne_zero _ hK'.ne')

section
variable (ps : PySort SortableNode) (hs : (Bbn.run ops).Samplable) (hg : (Bbn.run ops).Grid M) (s : LogicSampler)
    (hmake : LogicSampler.make ps (Bbn.run ops) = .ok s) (ht : (Bbn.run ops).Topological s.nodes)
    (hasc : ∀ n ∈ (Bbn.run ops).toGraph.getNodes, (ddGet (Bbn.run ops).parents n.var.id).Pairwise (· < ·))
include hs hg ht hasc

theorem kept_nil_pos : 0 < Fintype.card {ω : Fin s.nodes.length → Fin M // Kept (Bbn.run ops) s.nodes (obsDict []) ω} :=
  kept_pos hs hg s ht hasc (evs := []) ⟨by simp, by simp, by simp⟩ (by
    rw [show followed s.nodes [] = [] from rfl, obsProb_nil hs hg s ht hasc]; exact one_pos)

include hmake in
/-- what holds of all lists of `N` joint values that can be drawn holds with probability one -/
theorem sure_law {N : Nat} (hN : 0 < N) {p : List (Dict Int Str) → Prop}
    (h : ∀ l : List {ω : Fin s.nodes.length → Fin M // Kept (Bbn.run ops) s.nodes (obsDict []) ω}, l.length = N →
      p (l.map (fun ω => canon s.nodes (drawn (Bbn.run ops) s.nodes ω.1)))) : s.Prob M [] N p 1 := by
  have hlaw := canon_law ps hs hg s hmake ht hasc hN p
  rw [part_sure (kept_nil_pos hs hg s ht hasc) h] at hlaw
  exact hlaw

/-- an impossible event is never drawn -/
theorem never_drawn {E : Asg → Bool} (hE : ∀ σ τ, (∀ v ∈ (Bbn.run ops).vars, σ v.id = τ v.id) → E σ = E τ) (h0 : (Bbn.run ops).weightOf E = 0)
    (ω : {ω : Fin s.nodes.length → Fin M // Kept (Bbn.run ops) s.nodes (obsDict []) ω}) : ¬ E (drawn (Bbn.run ops) s.nodes ω.1) = true := by
  have hf := frac_event hs hg s ht hasc hE
  rw [h0] at hf
  exact frac_zero hf ω

omit hg in
theorem proper_sampled (hu : Net.Usable ops) : (Bbn.run ops).Proper := by
  have hi := bbn_run_inv ops
  refine ⟨hi, hu.wf, hs.nonempty, ?_, ?_⟩
  · intro n hn σ hσ
    rw [← sorted_eq_parentVars hi (hasc n hn)]
    exact hs.normalized n hn σ hσ
  · have hlt : ∀ a c, TransGen (Bbn.run ops).Par a c → s.nodes.idxOf a < s.nodes.idxOf c := by
      intro a c h
      induction h with
      | single h => exact topological_lt hi ht h
      | tail _ h ih => exact ih.trans (topological_lt hi ht h)
    intro a ha
    exact absurd (hlt a a ha) (lt_irrefl _)

/-- the events of the families are near their probabilities, except for few lists of passes -/
theorem families_near (hb : (Bbn.run ops).Proper) {N : Nat} (hN : 0 < N) {η : ℚ} (hη : 0 < η) :
    part {ω : Fin s.nodes.length → Fin M // Kept (Bbn.run ops) s.nodes (obsDict []) ω} N
      (fun l => ∃ E ∈ familyEvents (Bbn.run ops), ¬ NearFreq (Bbn.run ops) (l.map (fun ω => drawn (Bbn.run ops) s.nodes ω.1)) η E) ≤
        (familyEvents (Bbn.run ops)).length * (1 / (4 * N * η ^ 2)) := by
  apply part_exists
  intro E hE
  have hdep : ∀ σ τ, (∀ v ∈ (Bbn.run ops).vars, σ v.id = τ v.id) → E σ = E τ := by
    intro σ τ h
    obtain ⟨n, hn, hE⟩ := List.mem_flatMap.1 hE
    obtain ⟨ρ, hρ, hE⟩ := List.mem_flatMap.1 hE
    have hsub : ∀ Z : List Variable, (∀ v ∈ Z, v ∈ (Bbn.run ops).vars) → agree Z ρ σ = agree Z ρ τ := by
      intro Z hZ
      rw [Bool.eq_iff_iff, agree_iff, agree_iff]
      exact ⟨fun hh v hv => by rw [← h v (hZ v hv)]; exact hh v hv, fun hh v hv => by rw [h v (hZ v hv)]; exact hh v hv⟩
    have hp := parentVars_sub hb.inv n.var.id
    simp only [List.mem_cons, List.not_mem_nil, or_false] at hE
    rcases hE with rfl | rfl
    · exact hsub _ hp
    · refine hsub _ (fun v hv => ?_)
      rcases List.mem_cons.1 hv with rfl | hv
      · exact List.mem_map_of_mem hn
      · exact hp v hv
  have hf := frac_event hs hg s ht hasc hdep
  refine (part_mono ?_).trans (chebyshev (kept_nil_pos hs hg s ht hasc)
    (fun ω => E (drawn (Bbn.run ops) s.nodes ω.1) = true) hN hη)
  intro l hl hbad
  have hcnt : cnt (l.map (fun ω => drawn (Bbn.run ops) s.nodes ω.1)) E =
      (l.filter (fun ω => @decide (E (drawn (Bbn.run ops) s.nodes ω.1) = true) (Classical.propDecidable _))).length := by
    unfold cnt
    rw [List.filter_map, List.length_map]
    congr 1
    apply List.filter_congr
    intro ω _
    simp
  rw [hf, ← hcnt]
  by_contra hlt
  push Not at hlt
  refine hbad ⟨?_, ?_⟩
  · rw [List.length_map, hl]; exact hlt
  · intro h0
    rw [hcnt, List.length_eq_zero_iff, List.filter_eq_nil_iff]
    intro ω _
    simpa using frac_zero (hf.trans h0) ω

include hmake in
/-- **C98 (partial)**. Draw `N` samples from a network without evidence, put them into a data frame under the names of the nodes, and learn a network with
the same structure from it. For every `ε` the probability that this fails, or that some probability reported by the join tree of the learned network is off
by `ε` or more from the one reported by the join tree of the network, is at most `K / (N ε²)`, where `K` depends on the network only. So the workflow
recovers the reports as the number of samples grows. Partial: see `c98_false`; parents are required in ascending order of ids and of names, and no column
may name itself through the values of columns. -/
theorem c98_relearn_partial (hu : Net.Usable ops) (hname : ((Bbn.run ops).vars.map Variable.name).Nodup) (hj : apply it js (Bbn.run ops) = .ok jt)
    {st : Dict Str (List Str)} (hst : Describes st (Bbn.run ops))
    (hsort : ∀ v ∈ (Bbn.run ops).vars, (Factory.pa st v.name).Pairwise (fun a c => strLe a c = true))
    (hac : Acyclic (fun x n => ∃ v ∈ (Bbn.run ops).vars, v.name = n ∧ x ∈ v.values)) :
    ∃ d, jt.getPosteriors = .ok d ∧ ∃ K : ℚ, ∀ (it' : SetIter Int) (js' : SetIter Str) (N : Nat), 0 < N → ∀ ε : ℚ, 0 < ε → ε ≤ 1 →
      ∃ r, s.Prob M [] N (fun samples => ¬ ∃ b' jt' d', Factory.fromData st (sampleFrame (Bbn.run ops) samples) = .ok b' ∧
          apply it' js' b' = .ok jt' ∧ jt'.getPosteriors = .ok d' ∧ (Bbn.run ops).CloseReports ε d d') r ∧
        r ≤ K / (N * ε ^ 2) := by
  have hi := bbn_run_inv ops
  have hb := proper_sampled hs s ht hasc hu
  have hpar : (Bbn.run ops).Par = fun p c => (p, c) ∈ BOp.edges ops := by funext p c; exact propext (par_iff ops p c)
  have hacy : AcyclicOps ops := by
    unfold AcyclicOps; rw [← hpar]; exact hb.acyclic
  obtain ⟨d, hd, hd'⟩ := c52_prior hu hacy hb.normalized hname hj
  have hvne := vars_ne hu.wf hj
  obtain ⟨m, hm, hm1, hmin⟩ := exists_least ((familyEvents (Bbn.run ops)).map (Bbn.run ops).weightOf) (by
    intro q hq
    obtain ⟨E, _, rfl⟩ := List.mem_map.1 hq
    exact weightOf_nonneg hb.wf _)
  have hmin' : ∀ E ∈ familyEvents (Bbn.run ops), (Bbn.run ops).weightOf E = 0 ∨ m ≤ (Bbn.run ops).weightOf E :=
    fun E hE => hmin _ (List.mem_map_of_mem hE)
  obtain ⟨v0, hv0⟩ := List.exists_mem_of_ne_nil _ hvne
  obtain ⟨n0, hn0, _⟩ := List.mem_map.1 hv0
  have hn1 : (1 : ℚ) ≤ (Bbn.run ops).toGraph.getNodes.length := by exact_mod_cast List.length_pos_of_mem hn0
  have hD1 : (1 : ℚ) ≤ (allAsg (Bbn.run ops).vars).length := by
    have : (allAsg (Bbn.run ops).vars) ≠ [] := by
      intro h
      have := total_one hb
      unfold Bbn.total at this
      rw [h] at this
      norm_num at this
    exact_mod_cast List.length_pos_iff.2 this
  set n : ℚ := ((Bbn.run ops).toGraph.getNodes.length : ℚ) with hn
  set D : ℚ := ((allAsg (Bbn.run ops).vars).length : ℚ) with hD
  set C : ℚ := ((familyEvents (Bbn.run ops)).length : ℚ) with hC
  have hDn : 1 ≤ D * n := one_le_mul_of_one_le_of_one_le hD1 hn1
  refine ⟨d, hd, C * (64 * (D * n) ^ 2 / m ^ 2), ?_⟩
  intro it' js' N hN ε hε hε1
  have hNq : (0 : ℚ) < N := by exact_mod_cast hN
  set η : ℚ := ε * m / (16 * (D * n)) with hηdef
  have hη0 : 0 < η := by positivity
  have hη : η ≤ m / 2 := by
    rw [hηdef, div_le_div_iff₀ (by positivity) two_pos]
    nlinarith [mul_le_mul hε1 (le_refl m) hm.le zero_le_one, mul_le_mul_of_nonneg_left hDn hm.le]
  refine ⟨_, canon_law ps hs hg s hmake ht hasc hN _, ?_⟩
  have hle : C * (1 / (4 * N * η ^ 2)) = C * (64 * (D * n) ^ 2 / m ^ 2) / (N * ε ^ 2) := by
    rw [hηdef]; field_simp; ring
  rw [← hle]
  refine (part_mono ?_).trans (families_near hs hg s ht hasc hb hN hη0)
  intro l hl hbad
  by_contra hgood
  push Not at hgood
  apply hbad
  have e : l.map (fun ω => canon s.nodes (drawn (Bbn.run ops) s.nodes ω.1)) = (l.map (fun ω => drawn (Bbn.run ops) s.nodes ω.1)).map (canon s.nodes) := by
    rw [List.map_map]; rfl
  rw [e]
  refine learned_close hb hname ht.1 ?_ hst hac hsort hvne ?_ ?_ hd' hm hη hη0 hmin' hgood ?_ it' js'
  · intro h0
    have := congrArg List.length h0
    rw [List.length_map, hl, List.length_nil] at this
    omega
  · intro u hu' v hv
    have := hu.conn u hu' v hv
    rw [← hpar] at this
    exact this
  · intro τ hτ
    obtain ⟨ω, _, rfl⟩ := List.mem_map.1 hτ
    exact (drawn_spec hs hg.1 ht ω.1).1
  · change 2 * (D * (n * (4 * η / m))) < ε
    have : 2 * (D * (n * (4 * η / m))) = ε / 2 := by rw [hηdef]; field_simp; ring
    rw [this]
    linarith

end
end PyBBN

namespace PyBBN
open Relation InferenceController Reject

/-! ## The claim is not vacuous -/

/-- the structure of the cause with two effects -/
def c98_st : Dict Str (List Str) := [("a".toList, []), ("b".toList, ["a".toList]), ("c".toList, ["a".toList])]

theorem acyclic_of_apart {vs : List Variable} (h : ∀ v ∈ vs, ∀ x ∈ v.values, x ∉ vs.map Variable.name) :
    Acyclic (fun x n => ∃ v ∈ vs, v.name = n ∧ x ∈ v.values) := by
  have key : ∀ a c, TransGen (fun x n => ∃ v ∈ vs, v.name = n ∧ x ∈ v.values) a c → a ∉ vs.map Variable.name ∧ c ∈ vs.map Variable.name := by
    intro a c hac
    induction hac with
    | single h1 =>
      obtain ⟨v, hv, rfl, hx⟩ := h1
      exact ⟨h v hv _ hx, List.mem_map_of_mem hv⟩
    | tail _ h1 ih =>
      obtain ⟨v, hv, rfl, _⟩ := h1
      exact ⟨ih.1, List.mem_map_of_mem hv⟩
  intro a ha
  exact (key a a ha).1 (key a a ha).2

/-- the conditions of C98 hold of a cause with two effects whose first value makes the second effect certain; the network is sampled with `M = 4` -/
example : Net.Usable c84_ops ∧ (Bbn.run c84_ops).Samplable ∧ (Bbn.run c84_ops).Grid 4 ∧ ((Bbn.run c84_ops).vars.map Variable.name).Nodup ∧
    (∃ s, LogicSampler.make (cpython _) (Bbn.run c84_ops) = .ok s ∧ (Bbn.run c84_ops).Topological s.nodes) ∧
    (∀ n ∈ (Bbn.run c84_ops).toGraph.getNodes, (ddGet (Bbn.run c84_ops).parents n.var.id).Pairwise (· < ·)) ∧
    (∃ jt, apply .same .same (Bbn.run c84_ops) = .ok jt) ∧ Describes c98_st (Bbn.run c84_ops) ∧
    (∀ v ∈ (Bbn.run c84_ops).vars, (Factory.pa c98_st v.name).Pairwise (fun a c => strLe a c = true)) ∧
    Acyclic (fun x n => ∃ v ∈ (Bbn.run c84_ops).vars, v.name = n ∧ x ∈ v.values) := by
  have htop := c34_ascending_edges (cpython _) c84_ops (by decide +kernel)
  have hmk : (LogicSampler.make (cpython _) (Bbn.run c84_ops)).val?.isSome = true := by decide +kernel
  have hjt : (apply .same .same (Bbn.run c84_ops)).val?.isSome = true := by decide +kernel
  refine ⟨⟨⟨wf_of_check (by decide +kernel) (by decide +kernel), by decide +kernel⟩, connected_of_check 0 (by decide +kernel)⟩,
    samplable_of_checks _ (by decide +kernel) (by decide +kernel), grid_of_check (by decide) (by decide +kernel), by decide +kernel, ?_, by decide +kernel,
    ?_, ⟨by decide +kernel, ?_, ?_⟩, by decide +kernel, acyclic_of_apart (by decide +kernel)⟩
  · cases hm : LogicSampler.make (cpython _) (Bbn.run c84_ops) with
    | error e => rw [hm] at hmk; cases hmk
    | ok s =>
      have hn := (make_tables _ (bbn_run_inv c84_ops) hm).1
      exact ⟨s, rfl, by rw [hn]; exact htop⟩
  · cases hj : apply .same .same (Bbn.run c84_ops) with
    | error e => rw [hj] at hjt; cases hjt
    | ok jt => exact ⟨jt, rfl⟩
  · intro c
    have : Dict.keys c98_st = (Bbn.run c84_ops).vars.map Variable.name := by decide +kernel
    rw [this]
  · intro v hv p
    have : ∀ v ∈ (Bbn.run c84_ops).vars, Factory.pa c98_st v.name = ((Bbn.run c84_ops).parentVars v.id).map Variable.name := by decide +kernel
    rw [this v hv]

/-- the workflow at work: eight samples whose frequencies are the probabilities; the learned network reports what the network reports -/
def c98_samples : List (Dict Int Str) :=
  [("on", "on", "on"), ("on", "on", "on"), ("on", "on", "on"), ("on", "off", "on"),
   ("off", "on", "on"), ("off", "off", "on"), ("off", "off", "off"), ("off", "off", "off")].map
    (fun r => [(0, r.1.toList), (1, r.2.1.toList), (2, r.2.2.toList)])

example : ((Factory.fromData c98_st (sampleFrame (Bbn.run c84_ops) c98_samples)).val?.bind (fun b' =>
      (apply .same .same b').val?.bind (fun jt' => jt'.getPosteriors.val?))).map (fun d' =>
        (probIn d' "a".toList "on".toList, probIn d' "b".toList "on".toList, probIn d' "c".toList "on".toList)) = some (1/2, 1/2, 3/4) ∧
    ((apply .same .same (Bbn.run c84_ops)).val?.bind (fun jt => jt.getPosteriors.val?)).map (fun d =>
        (probIn d "a".toList "on".toList, probIn d "b".toList "on".toList, probIn d "c".toList "on".toList)) = some (1/2, 1/2, 3/4) := by
  decide +kernel

/-! ## What is missing -/

/-- a variable named `x` that always has the value `x` -/
def c98_ops : List BOp := [.addNode ⟨⟨0, "x".toList, ["x".toList, "y".toList]⟩, [1, 0]⟩]

/-- **C98 is false of the code** if the values of a variable include its name: `from_data` takes the cells of a column for its parents, and fails
with probability one for every number of samples. -/
theorem c98_false : Net.Usable c98_ops ∧ (Bbn.run c98_ops).Samplable ∧ (Bbn.run c98_ops).Grid 1 ∧
    ∃ s, LogicSampler.make (cpython _) (Bbn.run c98_ops) = .ok s ∧ (Bbn.run c98_ops).Topological s.nodes ∧
      Describes [("x".toList, [])] (Bbn.run c98_ops) ∧
      ∀ N : Nat, 0 < N → s.Prob 1 [] N (fun samples =>
        Factory.fromData [("x".toList, [])] (sampleFrame (Bbn.run c98_ops) samples) = .error .exception) 1 := by
  have htop := c34_ascending_edges (cpython _) c98_ops (by decide +kernel)
  have hmk : (LogicSampler.make (cpython _) (Bbn.run c98_ops)).val?.isSome = true := by decide +kernel
  have hu : Net.Usable c98_ops := ⟨⟨wf_of_check (by decide +kernel) (by decide +kernel), by decide +kernel⟩, connected_of_check 0 (by decide +kernel)⟩
  have hs : (Bbn.run c98_ops).Samplable := samplable_of_checks _ (by decide +kernel) (by decide +kernel)
  have hg : (Bbn.run c98_ops).Grid 1 := grid_of_check (by decide) (by decide +kernel)
  have hasc : ∀ n ∈ (Bbn.run c98_ops).toGraph.getNodes, (ddGet (Bbn.run c98_ops).parents n.var.id).Pairwise (· < ·) := by decide +kernel
  refine ⟨hu, hs, hg, ?_⟩
  cases hm : LogicSampler.make (cpython _) (Bbn.run c98_ops) with
  | error e => rw [hm] at hmk; cases hmk
  | ok s =>
    have hn := (make_tables _ (bbn_run_inv c98_ops) hm).1
    have ht : (Bbn.run c98_ops).Topological s.nodes := by rw [hn]; exact htop
    have hd : Describes [("x".toList, [])] (Bbn.run c98_ops) := by
      refine ⟨by decide +kernel, ?_, ?_⟩
      · intro c
        have : Dict.keys ([("x".toList, [])] : Dict Str (List Str)) = (Bbn.run c98_ops).vars.map Variable.name := by decide +kernel
        rw [this]
      · intro v hv p
        have : ∀ v ∈ (Bbn.run c98_ops).vars, Factory.pa [("x".toList, [])] v.name = ((Bbn.run c98_ops).parentVars v.id).map Variable.name := by
          decide +kernel
        rw [this v hv]
    refine ⟨s, rfl, ht, hd, ?_⟩
    intro N hN
    refine sure_law (cpython _) hs hg s hm ht hasc hN ?_
    intro l hl
    have hi := bbn_run_inv c98_ops
    have hname : ((Bbn.run c98_ops).vars.map Variable.name).Nodup := by decide +kernel
    have hv : (⟨0, "x".toList, ["x".toList, "y".toList]⟩ : Variable) ∈ (Bbn.run c98_ops).vars := by decide +kernel
    have e : l.map (fun ω => canon s.nodes (drawn (Bbn.run c98_ops) s.nodes ω.1)) =
        (l.map (fun ω => drawn (Bbn.run c98_ops) s.nodes ω.1)).map (canon s.nodes) := by
      rw [List.map_map]; rfl
    have hne : l.map (fun ω => drawn (Bbn.run c98_ops) s.nodes ω.1) ≠ [] := by
      intro h0
      have := congrArg List.length h0
      rw [List.length_map, hl, List.length_nil] at this
      omega
    rw [e]
    refine (c60_accepts_partial _ _ (frame_valid hi hname ht.1 hne hd)).2 ?_
    intro hac
    refine hac "x".toList (TransGen.single ⟨?_, ?_⟩)
    · rw [frame_columns hne, (order_label_perm hi ht.1).mem_iff]
      exact List.mem_map_of_mem hv
    · refine (frame_occurs hi hname ht.1 hne hv "x".toList).2 ?_
      obtain ⟨τ, hτ⟩ := List.exists_mem_of_ne_nil _ hne
      refine ⟨τ, hτ, ?_⟩
      obtain ⟨ω, _, rfl⟩ := List.mem_map.1 hτ
      have := never_drawn hs hg s ht hasc (E := fun σ => decide (σ 0 ≠ "x".toList)) (by
        intro σ τ h
        have := h _ hv
        simp only at this
        rw [this]) (by decide +kernel) ω
      simpa using this

end PyBBN
