import Verif.Spec.RoundBound
import Verif.Proofs.RoundRun
import Verif.Props.Underflow

/-! # C113: rounding errors do not add up over a session

`Props/Rounding.lean` (C70) counts the roundings behind each reported number by running the program over counts. Here the counts are bounded
in advance, by the size of the network alone. -/

namespace PyBBN
open Relation InferenceController

theorem readBound_count (N R : ℕ) : readBound 1 1 R N = (roundBound N R : ℕ) := by
  unfold readBound tableBound roundBound
  push_cast
  ring

theorem readBound_size (N R m : ℕ) : readBound 2 (m + 2) R N = (sizeBound N R m : ℕ) := by
  unfold readBound tableBound sizeBound
  push_cast
  ring

theorem Near.mono' {u : ℚ} (hu : 0 ≤ u ∧ u < 1) {n m : ℕ} (h : n ≤ m) {x y : ℚ} (hx : 0 ≤ x) (hy : 0 ≤ y) (hn : Near u n x y) : Near u m x y := by
  have hp : (1 - u) ^ m ≤ (1 - u) ^ n := pow_le_pow_of_le_one (by linarith [hu.2]) (by linarith [hu.1]) h
  exact ⟨(mul_le_mul_of_nonneg_right hp hx).trans hn.1, (mul_le_mul_of_nonneg_right hp hy).trans hn.2⟩

section
variable {u : ℚ} {inp : ℚ → ℚ} {mul div : ℚ → ℚ → ℚ} {sum : List ℚ → ℚ} {ops : List BOp} {it : SetIter Int} {js : SetIter Str} {jt : JoinTree} {R : ℕ}

/-- **C113**, counts: on every network, after `apply` and **any** history of evidence calls over its nodes, no reported number has gone through more
than `roundBound N R` roundings, where `N` is the number of nodes and no clique has more than `R` joint values. -/
theorem c113_counts (hu : Net.Sane ops) (hj : apply it js (Bbn.run ops) = .ok jt) (hR : ∀ c ∈ jt.getCliques, (c.nodes.map (fun v => v.values.length)).prod ≤ R)
    (h : List (SetIter Str × EvOp)) (hn : ∀ op ∈ h, op.2.Nodes (Bbn.run ops).vars) :
    ∃ jc, Arith.count.apply it js (Bbn.run ops) = .ok jc ∧ ∀ v ∈ (Bbn.run ops).vars, ∀ Q, Arith.count.getBbnPotential (Arith.count.runHist jc h) v = .ok Q →
      ∀ e ∈ Q, e.value ≤ roundBound (Bbn.run ops).vars.length R := by
  have hjt := (closed_any Arith.count).apply trivial it js (Bbn.run ops) (fun _ _ _ _ => trivial)
  rw [Arith.exact_apply, hj] at hjt
  generalize hc : Arith.count.apply it js (Bbn.run ops) = z at hjt
  cases hjt with
  | @ok _ jc _ _ =>
    refine ⟨jc, rfl, ?_⟩
    intro v hv Q hQ e he
    have := cost_count.session (w := 1) (Good := fun _ => True) (by norm_num) (fun _ _ => le_refl _) trivial hu hj h hn hR (fun _ _ _ _ => trivial)
      (fun _ _ _ _ _ _ _ => trivial) hc hv hQ e he
    rwa [readBound_count] at this

/-- **C113**: with floats of unit roundoff `u`, on a connected network, after any history of proper evidence **of any length**, each reported number
differs from the true posterior by at most the fraction `roundBound N R · u`: errors do not add up over a session. (`lawHist … |>.prop` are the
likelihoods last seen, `c18_law`.) -/
theorem c113_errors (hr : Rounds u inp mul div sum) (hu : Net.Usable ops) (hj : apply it js (Bbn.run ops) = .ok jt)
    (hR : ∀ c ∈ jt.getCliques, (c.nodes.map (fun v => v.values.length)).prod ≤ R)
    (h : List (SetIter Str × EvOp)) (hp : ∀ op ∈ h, op.2.Proper (Bbn.run ops).vars) :
    ∃ jf, (Arith.float inp mul div sum).apply it js (Bbn.run ops) = .ok jf ∧
      ∀ v ∈ (Bbn.run ops).vars, ∃ P, (Arith.float inp mul div sum).getBbnPotential ((Arith.float inp mul div sum).runHist jf h) v = .ok P ∧
        P.length = v.values.length ∧
        ∀ (i : ℕ) (x : Str), v.values[i]? = some x → ∃ y : ℚ, P[i]? = some (PEntry.mk [(v.id, x)] y) ∧ 0 ≤ y ∧
          (y = 0 ↔ (Bbn.run ops).posterior (lawHist (Bbn.run ops).vars h).prop v.id x = 0) ∧
          |y - (Bbn.run ops).posterior (lawHist (Bbn.run ops).vars h).prop v.id x| ≤
            roundBound (Bbn.run ops).vars.length R * u * max ((Bbn.run ops).posterior (lawHist (Bbn.run ops).vars h).prop v.id x) y := by
  have hd := doms hu.toSane
  have hn : ∀ op ∈ h, op.2.Nodes (Bbn.run ops).vars := fun op ho => (hp op ho).nodes hd
  obtain ⟨jf, jc, a1, a2, a3, _⟩ := c70_floats hr hu.toSane hj h hn
  obtain ⟨jc', b1, b2⟩ := c113_counts hu.toSane hj hR h hn
  rw [a2] at b1
  cases b1
  refine ⟨jf, a1, ?_⟩
  intro v hv
  obtain ⟨P, Q, c1, c2, c3, c4, c5⟩ := a3 v _ (c18_law hu hj h hp v hv).2
  refine ⟨P, c1, by rw [c3]; simp [posteriorTable], ?_⟩
  intro i x hx
  obtain ⟨y, n, d1, d2, d0, d3, d4⟩ := c5 i ⟨[(v.id, x)], (Bbn.run ops).posterior (lawHist (Bbn.run ops).vars h).prop v.id x⟩
    (by simp [posteriorTable, hx])
  have hle : n ≤ roundBound (Bbn.run ops).vars.length R := by
    have := b2 v hv Q c2 _ (List.mem_of_getElem? d2)
    simp only at this
    exact_mod_cast this
  obtain ⟨e1, e2⟩ := c70_near hr.unit d0 d3 (d4.mono' hr.unit hle d0 d3)
  exact ⟨y, d1, d3, e1, e2⟩

end

section
variable {u : ℚ} {E m R : ℕ} {inp : ℚ → ℚ} {mul div : ℚ → ℚ → ℚ} {sum : List ℚ → ℚ} {ops : List BOp} {it : SetIter Int} {js : SetIter Str} {jt : JoinTree}

theorem size_inp_le {x : ℚ} (h : InRange m x) : Arith.size.inp x ≤ m + 2 := by
  have hle : |(Int.log 2 (|x|))| ≤ (m : ℤ) := by
    rcases h with rfl | ⟨h1, h2⟩
    · simp
    · have hpos : 0 < |x| := lt_of_lt_of_le (by positivity) h1
      rw [abs_le]
      constructor
      · have e : ((2 : ℕ) : ℚ) ^ (-(m : ℤ)) ≤ |x| := by
          rw [zpow_neg, zpow_natCast, ← one_div]
          exact_mod_cast h1
        exact (Int.zpow_le_iff_le_log (by norm_num) hpos).1 e
      · have h3 := Int.log_mono_right (b := 2) hpos h2
        have e : Int.log 2 ((2 : ℚ) ^ m) = m := by
          have := Int.log_zpow (R := ℚ) (b := 2) (by norm_num) (m : ℤ)
          simpa using this
        rw [e] at h3
        exact h3
  show (((|(Int.log 2 (|x|))| + 2 : ℤ)) : ℚ) ≤ m + 2
  have : ((|(Int.log 2 (|x|))| + 2 : ℤ) : ℚ) ≤ ((m + 2 : ℤ) : ℚ) := by exact_mod_cast (by omega)
  simpa using this

/-- **C113**, no underflow: if the CPT entries and the likelihoods stored at any time are 0 or between `2^-m` and `2^m`, and `sizeBound N R m` is at
most `E`, then an arithmetic that rounds correctly only between `2^-E` and `2^E` reports every posterior up to that many roundings, after histories of
any length: the condition of C112 in terms of the network alone. -/
theorem c113_no_underflow (hr : RoundsIn u E inp mul div sum) (hu : Net.Usable ops) (hj : apply it js (Bbn.run ops) = .ok jt)
    (hR : ∀ c ∈ jt.getCliques, (c.nodes.map (fun v => v.values.length)).prod ≤ R)
    (h : List (SetIter Str × EvOp)) (hp : ∀ op ∈ h, op.2.Proper (Bbn.run ops).vars)
    (hcpt : ∀ n ∈ (Bbn.run ops).toGraph.getNodes, ∀ x ∈ n.probs, InRange m x)
    (hlik : ∀ n i d, Dict.get? (runHist jt (h.take n)).evidences i = some d → ∀ x q, Dict.get? d x = some q → InRange m q)
    (hE : sizeBound (Bbn.run ops).vars.length R m ≤ E) :
    ∃ jf, (Arith.float inp mul div sum).apply it js (Bbn.run ops) = .ok jf ∧
      ∀ v ∈ (Bbn.run ops).vars, ∃ P, (Arith.float inp mul div sum).getBbnPotential ((Arith.float inp mul div sum).runHist jf h) v = .ok P ∧
        P.length = v.values.length ∧
        ∀ (i : ℕ) (x : Str), v.values[i]? = some x → ∃ y : ℚ, P[i]? = some (PEntry.mk [(v.id, x)] y) ∧ 0 ≤ y ∧
          |y - (Bbn.run ops).posterior (lawHist (Bbn.run ops).vars h).prop v.id x| ≤
            sizeBound (Bbn.run ops).vars.length R m * u * max ((Bbn.run ops).posterior (lawHist (Bbn.run ops).vars h).prop v.id x) y := by
  have hd := doms hu.toSane
  have hn : ∀ op ∈ h, op.2.Nodes (Bbn.run ops).vars := fun op ho => (hp op ho).nodes hd
  obtain ⟨jf, jc, a1, a2, a3, _⟩ := c112_sizes_partial hr hu hj h hp
  refine ⟨jf, a1, ?_⟩
  intro v hv
  obtain ⟨P, Q, b1, b2, b3, b4⟩ := a3 v hv
  refine ⟨P, b1, b3, ?_⟩
  intro i x hx
  obtain ⟨y, n, c1, c2, c3⟩ := b4 i x hx
  have hle : n ≤ sizeBound (Bbn.run ops).vars.length R m := by
    have := cost_size.session (w := m + 2) (Good := InRange m) (by positivity) (fun x hx => size_inp_le hx)
      (Or.inr (by
        rw [abs_one]
        have : (1 : ℚ) ≤ 2 ^ m := one_le_pow₀ (by norm_num)
        exact ⟨(div_le_one (by positivity)).2 this, this⟩)) hu.toSane hj h hn hR hcpt hlik a2 hv b2 _ (List.mem_of_getElem? c2)
    rw [readBound_size] at this
    simp only at this
    exact_mod_cast this
  obtain ⟨d1, d2⟩ := c3 (hle.trans hE)
  have hu1 : 0 ≤ u ∧ u < 1 := ⟨hr.unit.1, by linarith [hr.unit.2]⟩
  have d0 : 0 ≤ (Bbn.run ops).posterior (lawHist (Bbn.run ops).vars h).prop v.id x := by
    obtain ⟨_, _, _, _, f3, _⟩ := c70_floats (c70_binary 53 (by norm_num)) hu.toSane hj h hn
    obtain ⟨_, _, _, _, _, _, f4⟩ := f3 v _ (c18_law hu hj h hp v hv).2
    obtain ⟨_, _, _, _, f5, _⟩ := f4 i ⟨[(v.id, x)], (Bbn.run ops).posterior (lawHist (Bbn.run ops).vars h).prop v.id x⟩ (by simp [posteriorTable, hx])
    exact f5
  exact ⟨y, c1, d1, (c70_near hu1 d0 d1 (d2.mono' hu1 hle d0 d1)).2⟩

end

/-- C113 is not vacuous: the example network (5 nodes, cliques with at most 8 joint values) and histories of any length. The bound is 1665 roundings,
an error of at most 2·10⁻¹³ in double precision; the counts on the history of C18 are 67 to 155. -/
example : Net.Usable c16_ops ∧ (∃ jt, apply .same .same (Bbn.run c16_ops) = .ok jt ∧
      ∀ c ∈ jt.getCliques, (c.nodes.map (fun v => v.values.length)).prod ≤ 8) ∧ (∀ k, ∀ op ∈ (List.replicate k c18_hist).flatten, op.2.Proper (Bbn.run c16_ops).vars) ∧
    roundBound (Bbn.run c16_ops).vars.length 8 = 1665 ∧ (1665 : ℚ) * (1 / 2 ^ 53) ≤ 2 / 10 ^ 13 ∧
    (arithReads .count .same .same c16_ops (c18_hist.map Prod.snd)).val? = some [[67, 67], [67, 67], [67, 67], [127, 127], [155, 155]] := by
  refine ⟨c16_usable, ?_, ?_, by decide +kernel, by norm_num, by decide +kernel⟩
  · obtain ⟨jt, hj, _⟩ := (c16_exact_priors .same .same c16_ops c16_wf c16_connected).1 (by decide +kernel)
    refine ⟨jt, hj, ?_⟩
    have h : ((apply .same .same (Bbn.run c16_ops)).val?.map (fun jt => jt.getCliques.all (fun c => decide ((c.nodes.map (fun v => v.values.length)).prod ≤ 8)))) =
      some true := by decide +kernel
    rw [hj] at h
    simpa [Py.val?] using h
  · intro k op hop
    obtain ⟨l, hl, hm⟩ := List.mem_flatten.1 hop
    rw [List.eq_of_mem_replicate hl] at hm
    exact (c18_hist_ok op hm).proper

theorem inRange_of_all {m : ℕ} {ev : Dict Int (Dict Str ℚ)}
    (h : (ev.all (fun d => d.2.all (fun q => decide (q.2 = 0 ∨ (1 / 2 ^ m ≤ |q.2| ∧ |q.2| ≤ 2 ^ m))))) = true) :
    ∀ i d, Dict.get? ev i = some d → ∀ x q, Dict.get? d x = some q → InRange m q := by
  intro i d hd x q hq
  have h1 := List.all_eq_true.1 h _ (Dict.mem_of_get? hd)
  have h2 := List.all_eq_true.1 h1 _ (Dict.mem_of_get? hq)
  have h3 := of_decide_eq_true h2
  exact h3

/-- `c113_no_underflow` is not vacuous: two symptoms with probability 1/2, in double precision (`E = 1022`) -/
example : Net.Usable (c112_ops (1 / 2)) ∧ (∀ op ∈ c112_obs, op.Proper (Bbn.run (c112_ops (1 / 2))).vars) ∧
    (∀ n ∈ (Bbn.run (c112_ops (1 / 2))).toGraph.getNodes, ∀ x ∈ n.probs, InRange 2 x) ∧
    (∃ jt, apply .same .same (Bbn.run (c112_ops (1 / 2))) = .ok jt ∧ (∀ c ∈ jt.getCliques, (c.nodes.map (fun v => v.values.length)).prod ≤ 4) ∧ ∀ n i d,
      Dict.get? (runHist jt ((c112_obs.map (fun o => (SetIter.same, o))).take n)).evidences i = some d → ∀ x q, Dict.get? d x = some q → InRange 2 q) ∧
    sizeBound (Bbn.run (c112_ops (1 / 2))).vars.length 4 2 = 925 := by
  have hu : Net.Usable (c112_ops (1 / 2)) :=
    ⟨⟨wf_of_check (by decide +kernel) (by decide +kernel), by decide +kernel⟩, connected_of_check 0 (by decide +kernel)⟩
  refine ⟨hu, ?_, ?_, ?_, by decide +kernel⟩
  · intro op hop
    simp only [c112_obs, List.mem_cons, List.not_mem_nil, or_false] at hop
    subst hop
    intro e he
    simp only [List.mem_cons, List.not_mem_nil, or_false] at he
    rcases he with rfl | rfl
    · exact by decide +kernel
    · exact by decide +kernel
  · have h : (Bbn.run (c112_ops (1 / 2))).toGraph.getNodes.all (fun n => n.probs.all (fun q => decide (q = 0 ∨ (1 / 2 ^ 2 ≤ |q| ∧ |q| ≤ 2 ^ 2)))) = true := by
      decide +kernel
    intro n hn x hx
    have h3 := of_decide_eq_true (List.all_eq_true.1 (List.all_eq_true.1 h n hn) x hx)
    exact h3
  · obtain ⟨jt, hj, _⟩ := (c16_exact_priors .same .same _ hu.wf hu.conn).1 (by decide +kernel)
    refine ⟨jt, hj, ?_, ?_⟩
    · have h : ((apply .same .same (Bbn.run (c112_ops (1 / 2)))).val?.map (fun jt => jt.getCliques.all (fun c => decide ((c.nodes.map (fun v => v.values.length)).prod ≤ 4)))) =
        some true := by decide +kernel
      rw [hj] at h
      simpa [Py.val?] using h
    · intro n
      have h : ((apply .same .same (Bbn.run (c112_ops (1 / 2)))).val?.map (fun jt => ([0, 1].all (fun n : ℕ =>
          (runHist jt ((c112_obs.map (fun o => (SetIter.same, o))).take n)).evidences.all (fun d => d.2.all (fun q => decide (q.2 = 0 ∨ (1 / 2 ^ 2 ≤ |q.2| ∧ |q.2| ≤ 2 ^ 2)))))))) =
          some true := by decide +kernel
      rw [hj] at h
      have h := Option.some.inj h
      rw [List.all_eq_true] at h
      match n with
      | 0 => exact inRange_of_all (h 0 (by simp))
      | n + 1 =>
        have e : (c112_obs.map (fun o => (SetIter.same, o))).take (n + 1) = (c112_obs.map (fun o => (SetIter.same (K := Str), o))).take 1 := by
          unfold c112_obs
          simp
        rw [e]
        exact inRange_of_all (h 1 (by simp))

end PyBBN
