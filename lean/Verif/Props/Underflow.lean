import Verif.Proofs.Underflow
import Verif.Props.Rounding
import Verif.Proofs.Coherence

/-! # C112: very small probabilities

`Props/Rounding.lean` (C70) leaves out that floats have a smallest positive number. Here rounding is correct only for results in a range. -/

namespace PyBBN
open Relation InferenceController

section
variable {u : ℚ} {E : ℕ} {inp : ℚ → ℚ} {mul div : ℚ → ℚ → ℚ} {sum : List ℚ → ℚ} {ops : List BOp} {it : SetIter Int} {js : SetIter Str} {jt : JoinTree}

/-- **C112** (partial: if the orders of magnitude stay in range). In an arithmetic that rounds correctly (unit roundoff `u`) results that are 0 or
between `2^-E` and `2^E` and does anything at all otherwise: `apply` and every later evidence call raise what exact arithmetic raises, and each number
reported for a node whose count `n` (`Arith.size`, from the orders of magnitude of the CPT entries and likelihoods alone) is at most `E` is the true
posterior up to `n` roundings. Missing: the other nodes, see `c112_false`. -/
theorem c112_sizes_partial (hr : RoundsIn u E inp mul div sum) (hu : Net.Usable ops) (hj : apply it js (Bbn.run ops) = .ok jt)
    (h : List (SetIter Str × EvOp)) (hp : ∀ op ∈ h, op.2.Proper (Bbn.run ops).vars) :
    ∃ jf jc, (Arith.float inp mul div sum).apply it js (Bbn.run ops) = .ok jf ∧ Arith.size.apply it js (Bbn.run ops) = .ok jc ∧
      (∀ v ∈ (Bbn.run ops).vars,
        ∃ P Q, (Arith.float inp mul div sum).getBbnPotential ((Arith.float inp mul div sum).runHist jf h) v = .ok P ∧
          Arith.size.getBbnPotential (Arith.size.runHist jc h) v = .ok Q ∧ P.length = v.values.length ∧
          ∀ (i : ℕ) (x : Str), v.values[i]? = some x → ∃ (y : ℚ) (n : ℕ),
            P[i]? = some (PEntry.mk [(v.id, x)] y) ∧ Q[i]? = some (PEntry.mk [(v.id, x)] (n : ℚ)) ∧
            (n ≤ E → 0 ≤ y ∧ Near u n ((Bbn.run ops).posterior (lawHist (Bbn.run ops).vars h).prop v.id x) y)) ∧
      (∀ k op, op.Nodes (Bbn.run ops).vars →
        ((Arith.float inp mul div sum).runOp k ((Arith.float inp mul div sum).runHist jf h) op).2 = (op.run k (runHist jt h)).2) := by
  have hd := doms hu.toSane
  have hn : ∀ op ∈ h, op.2.Nodes (Bbn.run ops).vars := fun op ho => (hp op ho).nodes hd
  have hC := closed112 hr
  have hi := bbn_run_inv ops
  have hN := Bbn.net_ok hi hu.wf
  obtain ⟨T, l1, l2, l3⟩ := live_apply hu.toSane hj
  have h1 := hC.apply (by norm_num) it js (Bbn.run ops) hu.wf.nonneg
  rw [Arith.exact_apply, hj] at h1
  generalize hf : (Arith.float inp mul div sum).apply it js (Bbn.run ops) = y at h1
  generalize hc : Arith.size.apply it js (Bbn.run ops) = z at h1
  cases h1 with
  | @ok _ jf jc h1 =>
    have h2 := hC.runHist (fun q h0 _ => h0) hN l3 hu.vals h l1 h1 hn
    rw [Arith.exact_runHist] at h2
    obtain ⟨a, _, _⟩ := Live.hist hN l3 hu.vals h (s := ⟨jt.evidences, noEvidence⟩) l1 (EvEq.refl _) hn
    refine ⟨jf, jc, rfl, rfl, ?_, ?_⟩
    · intro v hv
      have h3 := hC.getBbnPotential h2 v
      rw [Arith.exact_getBbnPotential, (c18_law hu hj h hp v hv).2] at h3
      generalize (Arith.float inp mul div sum).getBbnPotential ((Arith.float inp mul div sum).runHist jf h) v = y at h3
      generalize Arith.size.getBbnPotential (Arith.size.runHist jc h) v = z at h3
      cases h3 with
      | @ok _ P Q h3 =>
        refine ⟨P, Q, rfl, rfl, by rw [h3.lengths.1]; simp [posteriorTable], ?_⟩
        intro i x hx
        have h4 := h3.get i
        rw [show (posteriorTable (Bbn.run ops) (lawHist (Bbn.run ops).vars h).prop v)[i]? =
          some ⟨[(v.id, x)], (Bbn.run ops).posterior (lawHist (Bbn.run ops).vars h).prop v.id x⟩ by simp [posteriorTable, hx]] at h4
        generalize P[i]? = y at h4
        generalize Q[i]? = z at h4
        cases h4 with
        | @some _ p q h5 =>
          obtain ⟨h6, h7, n, h8, h9⟩ := h5
          refine ⟨p.value, n, ?_, ?_, fun hle => ⟨(h9 hle).2.1, (h9 hle).2.2.1⟩⟩
          · obtain ⟨pe, pv⟩ := p
            simp only at h6
            rw [h6]
          · obtain ⟨qe, qv⟩ := q
            simp only at h7 h8
            rw [h7, h8]
    · intro k op hop
      have h3 := hC.runOp (fun q h0 _ => h0) hN l3 hu.vals a h2 k op hop
      rw [Arith.exact_runOp] at h3
      exact h3.2.1

end

/-- **C112**, applicability: rounding to `p` significant bits with a last bit worth at least `2^-m` is correct for results down to
`2^(p-1-m)`, i.e. `2^-1022` for Python's floats (`p = 53`, `m = 1074`) -/
theorem c112_ieee (p m E : ℕ) (hp : 0 < p) (hE : E + p ≤ m + 1) :
    RoundsIn (1 / 2 ^ p) E (ieeeRound p m) (fun a b => ieeeRound p m (a * b)) (fun a b => ieeeRound p m (a / b)) (loopSum (ieeeRound p m)) := by
  obtain ⟨p, rfl⟩ : ∃ q, p = q + 1 := ⟨p - 1, by omega⟩
  have hu : (0 : ℚ) ≤ 1 / 2 ^ (p + 1) ∧ (1 : ℚ) / 2 ^ (p + 1) ≤ 1 / 2 := by
    refine ⟨by positivity, one_div_le_one_div_of_le (by norm_num) ?_⟩
    have := pow_le_pow_right₀ (a := (2 : ℚ)) (by norm_num) (Nat.le_add_left 1 p)
    simpa using this
  have hsmall : (2 : ℚ) ^ (p + 1) / 2 ^ (m + 1) ≤ 1 / 2 ^ E := by
    rw [div_le_div_iff₀ (by positivity) (by positivity), one_mul, ← pow_add]
    exact pow_le_pow_right₀ (by norm_num) (by omega)
  have hrnd : ∀ x, x = 0 ∨ 1 / 2 ^ E ≤ |x| → |ieeeRound (p + 1) m x - x| ≤ (1 / 2 ^ (p + 1)) * |x| :=
    fun x hx => ieeeRound_err p m (hx.imp id (fun h => hsmall.trans h))
  refine ⟨hu, fun x hx => hrnd x (hx.imp id And.left), fun a b h => hrnd _ (h.imp id And.left), fun a b _ h => hrnd _ (h.imp id And.left), ?_⟩
  intro l hl _
  have := loopSum_bounds_in hu (c := 1 / 2 ^ E) (by positivity) hrnd l 0 (le_refl _) (Or.inl rfl) (by
    intro x hx
    obtain ⟨h1, h2⟩ := hl x hx
    refine ⟨h1, h2.imp id ?_⟩
    intro h3
    rwa [mul_one_div])
  simpa [loopSum] using this

/-- a disease with two symptoms that occur with probability `t` whether or not it is present -/
def c112_ops (t : ℚ) : List BOp :=
  let a := mkNode 0 "a" [3/5, 2/5]
  let b := mkNode 1 "b" [t, 1 - t, t, 1 - t]
  let c := mkNode 2 "c" [t, 1 - t, t, 1 - t]
  [.addEdge a b, .addEdge a c]

/-- both symptoms observed -/
def c112_obs : List EvOp :=
  [.update [Evidence.build (mkNode 1 "b" []).var .observation [("on".toList, 1)],
    Evidence.build (mkNode 2 "c" []).var .observation [("on".toList, 1)]]]

/-- C112 is not vacuous: symptoms with probability `2^-100` are fine. All counts are below 1022, and the floats are right. -/
example : Net.Usable (c112_ops (1 / 2 ^ 100)) ∧ (∀ op ∈ c112_obs, op.Proper (Bbn.run (c112_ops (1 / 2 ^ 100))).vars) ∧
    (∃ jt, apply .same .same (Bbn.run (c112_ops (1 / 2 ^ 100))) = .ok jt) ∧
    (arithReads .size .same .same (c112_ops (1 / 2 ^ 100)) c112_obs).val? = some [[464, 465], [465, 366], [909, 810]] ∧
    (arithReads (ieeeArith 53 1074) .same .same (c112_ops (1 / 2 ^ 100)) c112_obs).val? =
      some [[5404319552844595 / 9007199254740992, 3602879701896397 / 9007199254740992], [1, 0], [1, 0]] := by
  have hu : Net.Usable (c112_ops (1 / 2 ^ 100)) :=
    ⟨⟨wf_of_check (by decide +kernel) (by decide +kernel), by decide +kernel⟩, connected_of_check 0 (by decide +kernel)⟩
  refine ⟨hu, ?_, ((c16_exact_priors .same .same _ hu.wf hu.conn).1 (by decide +kernel)).imp (fun _ h => h.1), by decide +kernel, by decide +kernel⟩
  intro op hop
  simp only [c112_obs, List.mem_cons, List.not_mem_nil, or_false] at hop
  subst hop
  intro e he
  simp only [List.mem_cons, List.not_mem_nil, or_false] at he
  rcases he with rfl | rfl
  · exact by decide +kernel
  · exact by decide +kernel

/-- **C112** is false in double precision: the symptoms tell nothing about the disease, which is reported correctly in exact arithmetic. But with
`t = 2^-537` (about 10^-162) the disease is reported as certain, and with `t = 2^-600` all reports consist of zeros. No exception is raised. -/
theorem c112_false : Net.Usable (c112_ops (1 / 2 ^ 537)) ∧ Net.Usable (c112_ops (1 / 2 ^ 600)) ∧
    (arithReads .exact .same .same (c112_ops (1 / 2 ^ 537)) c112_obs).val? = some [[3 / 5, 2 / 5], [1, 0], [1, 0]] ∧
    (arithReads (ieeeArith 53 1074) .same .same (c112_ops (1 / 2 ^ 537)) c112_obs).val? = some [[1, 0], [1, 0], [1, 0]] ∧
    (arithReads .exact .same .same (c112_ops (1 / 2 ^ 600)) c112_obs).val? = some [[3 / 5, 2 / 5], [1, 0], [1, 0]] ∧
    (arithReads (ieeeArith 53 1074) .same .same (c112_ops (1 / 2 ^ 600)) c112_obs).val? = some [[0, 0], [0, 0], [0, 0]] :=
  ⟨⟨⟨wf_of_check (by decide +kernel) (by decide +kernel), by decide +kernel⟩, connected_of_check 0 (by decide +kernel)⟩,
    ⟨⟨wf_of_check (by decide +kernel) (by decide +kernel), by decide +kernel⟩, connected_of_check 0 (by decide +kernel)⟩,
    by decide +kernel, by decide +kernel, by decide +kernel, by decide +kernel⟩

end PyBBN
