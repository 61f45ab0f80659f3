import Verif.Proofs.Rounding
import Verif.Props.Orders
import Mathlib.Algebra.Order.Ring.Pow

/-! # C70: rounding

All other claims are about exact arithmetic. Here the same programs run over floats (`Arith.float`, rounding after every
operation with unit roundoff `u`) and over rounding counts (`Arith.count`), next to the exact run. The counts do not look at any
number: they say how many roundings have gone into an entry. -/

namespace PyBBN
open Relation InferenceController

/-- the float table `P` is the exact table `E` up to rounding, `Q` giving the number of roundings row by row -/
def Within (u : ℚ) (E P Q : Potential) : Prop :=
  P.length = E.length ∧ Q.length = E.length ∧
  ∀ (i : ℕ) (e : PEntry), E[i]? = some e → ∃ (y : ℚ) (n : ℕ), P[i]? = some (PEntry.mk e.entries y) ∧ Q[i]? = some (PEntry.mk e.entries (n : ℚ)) ∧
    0 ≤ e.value ∧ 0 ≤ y ∧ Near u n e.value y

theorem L3.lengths {α : Type} {Q : α → α → α → Prop} {l m n : List α} (h : L3 Q l m n) : m.length = l.length ∧ n.length = l.length := by
  induction h with
  | nil => exact ⟨rfl, rfl⟩
  | cons _ _ ih => exact ⟨by simp [ih.1], by simp [ih.2]⟩

theorem within_of_tab {u : ℚ} {E P Q : Potential} (h : Tab3 (R70 u) E P Q) : Within u E P Q := by
  refine ⟨h.lengths.1, h.lengths.2, ?_⟩
  intro i e he
  have h1 := h.get i
  rw [he] at h1
  generalize P[i]? = y at h1
  generalize Q[i]? = z at h1
  cases h1 with
  | @some _ p q h2 =>
    obtain ⟨h3, h4, h5, h6, n, h7, h8⟩ := h2
    refine ⟨p.value, n, ?_, ?_, h5, h6, h8⟩
    · rw [← h3]
    · rw [← h4, ← h7]

section
variable {u : ℚ} {inp : ℚ → ℚ} {mul div : ℚ → ℚ → ℚ} {sum : List ℚ → ℚ} {ops : List BOp} {it : SetIter Int} {js : SetIter Str} {jt : JoinTree}

/-- **C70**, `apply`: on any network with non-negative CPT entries, well-formed or not, floats raise exactly the exception that exact
arithmetic raises. -/
theorem c70_apply_errors (hr : Rounds u inp mul div sum) (it : SetIter Int) (js : SetIter Str) (b : Bbn)
    (hb : ∀ n ∈ b.toGraph.getNodes, ∀ p ∈ n.probs, 0 ≤ p) :
    ((Arith.float inp mul div sum).apply it js b).err? = (apply it js b).err? := by
  have h := (closed70 hr).apply (by norm_num) it js b hb
  rw [Arith.exact_apply] at h
  generalize apply it js b = x at h
  generalize (Arith.float inp mul div sum).apply it js b = y at h
  generalize Arith.count.apply it js b = z at h
  cases h with
  | err e => rfl
  | ok h => rfl

/-- **C70**, histories: after `apply` and any history of evidence calls, connected network or not, each node's table computed in
floats is the table computed exactly, up to the counted roundings; and the next call raises the same exception. -/
theorem c70_floats (hr : Rounds u inp mul div sum) (hu : Net.Sane ops) (hj : apply it js (Bbn.run ops) = .ok jt)
    (h : List (SetIter Str × EvOp)) (hn : ∀ op ∈ h, op.2.Nodes (Bbn.run ops).vars) :
    ∃ jf jc, (Arith.float inp mul div sum).apply it js (Bbn.run ops) = .ok jf ∧ Arith.count.apply it js (Bbn.run ops) = .ok jc ∧
      (∀ v E, (runHist jt h).getBbnPotential v = .ok E →
        ∃ P Q, (Arith.float inp mul div sum).getBbnPotential ((Arith.float inp mul div sum).runHist jf h) v = .ok P ∧
          Arith.count.getBbnPotential (Arith.count.runHist jc h) v = .ok Q ∧ Within u E P Q) ∧
      (∀ k op, op.Nodes (Bbn.run ops).vars →
        ((Arith.float inp mul div sum).runOp k ((Arith.float inp mul div sum).runHist jf h) op).2 = (op.run k (runHist jt h)).2) := by
  have hC := closed70 hr
  have hi := bbn_run_inv ops
  have hN := Bbn.net_ok hi hu.wf
  obtain ⟨T, l1, l2, l3⟩ := live_apply hu hj
  have h1 := hC.apply (by norm_num) it js (Bbn.run ops) hu.wf.nonneg
  rw [Arith.exact_apply, hj] at h1
  generalize hf : (Arith.float inp mul div sum).apply it js (Bbn.run ops) = y at h1
  generalize hc : Arith.count.apply it js (Bbn.run ops) = z at h1
  cases h1 with
  | @ok _ jf jc h1 =>
    have h2 := hC.runHist (fun q h0 _ => h0) hN l3 hu.vals h l1 h1 hn
    rw [Arith.exact_runHist] at h2
    obtain ⟨a, _, _⟩ := Live.hist hN l3 hu.vals h (s := ⟨jt.evidences, noEvidence⟩) l1 (EvEq.refl _) hn
    refine ⟨jf, jc, rfl, rfl, ?_, ?_⟩
    · intro v E hE
      have h3 := hC.getBbnPotential h2 v
      rw [Arith.exact_getBbnPotential, hE] at h3
      generalize (Arith.float inp mul div sum).getBbnPotential ((Arith.float inp mul div sum).runHist jf h) v = y at h3
      generalize Arith.count.getBbnPotential (Arith.count.runHist jc h) v = z at h3
      cases h3 with
      | ok h3 => exact ⟨_, _, rfl, rfl, within_of_tab h3⟩
    · intro k op hop
      have h3 := hC.runOp (fun q h0 _ => h0) hN l3 hu.vals a h2 k op hop
      rw [Arith.exact_runOp] at h3
      exact h3.2.1

/-- **C70**, posteriors: on a connected network, after any history of proper evidence, the float table of each node is the table of
true posteriors up to the counted roundings. (`lawHist … |>.prop` are the likelihoods last seen, `c18_law`: the stored ones
unless evidence was ambiguous.) -/
theorem c70_posteriors (hr : Rounds u inp mul div sum) (hu : Net.Usable ops) (hj : apply it js (Bbn.run ops) = .ok jt)
    (h : List (SetIter Str × EvOp)) (hp : ∀ op ∈ h, op.2.Proper (Bbn.run ops).vars) :
    ∃ jf jc, (Arith.float inp mul div sum).apply it js (Bbn.run ops) = .ok jf ∧ Arith.count.apply it js (Bbn.run ops) = .ok jc ∧
      ∀ v ∈ (Bbn.run ops).vars,
        ∃ P Q, (Arith.float inp mul div sum).getBbnPotential ((Arith.float inp mul div sum).runHist jf h) v = .ok P ∧
          Arith.count.getBbnPotential (Arith.count.runHist jc h) v = .ok Q ∧ P.length = v.values.length ∧
          ∀ (i : ℕ) (x : Str), v.values[i]? = some x → ∃ (y : ℚ) (n : ℕ),
            P[i]? = some (PEntry.mk [(v.id, x)] y) ∧ Q[i]? = some (PEntry.mk [(v.id, x)] (n : ℚ)) ∧
            0 ≤ y ∧ Near u n ((Bbn.run ops).posterior (lawHist (Bbn.run ops).vars h).prop v.id x) y := by
  have hd := doms hu.toSane
  obtain ⟨jf, jc, a1, a2, a3, _⟩ := c70_floats hr hu.toSane hj h (fun op ho => (hp op ho).nodes hd)
  refine ⟨jf, jc, a1, a2, ?_⟩
  intro v hv
  obtain ⟨P, Q, b1, b2, b3, _, b4⟩ := a3 v _ (c18_law hu hj h hp v hv).2
  refine ⟨P, Q, b1, b2, by rw [b3]; simp [posteriorTable], ?_⟩
  intro i x hx
  obtain ⟨y, n, c1, c2, _, c3, c4⟩ := b4 i ⟨[(v.id, x)], (Bbn.run ops).posterior (lawHist (Bbn.run ops).vars h).prop v.id x⟩
    (by simp [posteriorTable, hx])
  exact ⟨y, n, c1, c2, c3, c4⟩

/-- **C70**, iteration orders: in floats, two runs of the same history with different set iteration orders need not agree to the last
bit (`c70_orders_differ`), but they agree up to the roundings of both. -/
theorem c70_orders (hr : Rounds u inp mul div sum) {it' : SetIter Int} {js' : SetIter Str} {jt' : JoinTree} (hu : Net.Sane ops)
    (hj : apply it js (Bbn.run ops) = .ok jt) (hj' : apply it' js' (Bbn.run ops) = .ok jt')
    (h h' : List (SetIter Str × EvOp)) (hn : ∀ op ∈ h, op.2.Nodes (Bbn.run ops).vars) (heq : h.map Prod.snd = h'.map Prod.snd) :
    ∃ jf jc jf' jc', (Arith.float inp mul div sum).apply it js (Bbn.run ops) = .ok jf ∧ Arith.count.apply it js (Bbn.run ops) = .ok jc ∧
      (Arith.float inp mul div sum).apply it' js' (Bbn.run ops) = .ok jf' ∧ Arith.count.apply it' js' (Bbn.run ops) = .ok jc' ∧
      ∀ v ∈ (Bbn.run ops).vars, ∃ P Q P' Q',
        (Arith.float inp mul div sum).getBbnPotential ((Arith.float inp mul div sum).runHist jf h) v = .ok P ∧
        Arith.count.getBbnPotential (Arith.count.runHist jc h) v = .ok Q ∧
        (Arith.float inp mul div sum).getBbnPotential ((Arith.float inp mul div sum).runHist jf' h') v = .ok P' ∧
        Arith.count.getBbnPotential (Arith.count.runHist jc' h') v = .ok Q' ∧ P'.length = P.length ∧
        ∀ (i : ℕ) (e : PEntry), P[i]? = some e → ∃ (y : ℚ) (n n' : ℕ), P'[i]? = some (PEntry.mk e.entries y) ∧
          Q[i]? = some (PEntry.mk e.entries (n : ℚ)) ∧ Q'[i]? = some (PEntry.mk e.entries (n' : ℚ)) ∧ Near u (n + n') e.value y := by
  have hn' : ∀ op ∈ h', op.2.Nodes (Bbn.run ops).vars := by
    intro op ho
    have : op.2 ∈ h.map Prod.snd := by rw [heq]; exact List.mem_map_of_mem ho
    obtain ⟨o, ho', e⟩ := List.mem_map.1 this
    rw [← e]
    exact hn o ho'
  obtain ⟨jf, jc, a1, a2, a3, _⟩ := c70_floats hr hu hj h hn
  obtain ⟨jf', jc', b1, b2, b3, _⟩ := c70_floats hr hu hj' h' hn'
  refine ⟨jf, jc, jf', jc', a1, a2, b1, b2, ?_⟩
  intro v hv
  have he := (c20_order_independent hu hj hj' h h' hn heq).1 v hv
  obtain ⟨T, s, _, _, _, l, _, _⟩ := live_hist hu hj h hn
  obtain ⟨E, hE⟩ : ∃ E, (runHist jt h).getBbnPotential v = .ok E := by
    obtain ⟨_, _, _, _, _, _, _, _, e⟩ := l.calib.reads (Bbn.net_ok (bbn_run_inv ops) hu.wf) hv
    rw [← Arith.exact_normalize] at e
    exact ⟨_, e⟩
  obtain ⟨P, Q, c1, c2, c3, c4, c5⟩ := a3 v E hE
  obtain ⟨P', Q', d1, d2, d3, d4, d5⟩ := b3 v E (by rw [← he]; exact hE)
  refine ⟨P, Q, P', Q', c1, c2, d1, d2, by rw [c3, d3], ?_⟩
  intro i e hi
  have hlt : i < E.length := by rw [← c3]; exact (List.getElem?_eq_some_iff.1 hi).1
  obtain ⟨y, n, x1, x2, x3, x4, x5⟩ := c5 i E[i] (List.getElem?_eq_getElem hlt)
  obtain ⟨y', n', z1, z2, z3, z4, z5⟩ := d5 i E[i] (List.getElem?_eq_getElem hlt)
  rw [x1] at hi
  cases hi
  refine ⟨y', n, n', z1, x2, z2, ?_⟩
  obtain ⟨p1, _⟩ := pow_one_sub hr.unit n
  obtain ⟨q1, _⟩ := pow_one_sub hr.unit n'
  constructor
  · calc (1 - u) ^ (n + n') * y = (1 - u) ^ n' * ((1 - u) ^ n * y) := by rw [pow_add]; ring
      _ ≤ (1 - u) ^ n' * E[i].value := mul_le_mul_of_nonneg_left x5.2 (le_of_lt q1)
      _ ≤ y' := z5.1
  · calc (1 - u) ^ (n + n') * y' = (1 - u) ^ n * ((1 - u) ^ n' * y') := by rw [pow_add]; ring
      _ ≤ (1 - u) ^ n * E[i].value := mul_le_mul_of_nonneg_left z5.2 (le_of_lt p1)
      _ ≤ y := x5.1

end

/-- **C70**, what `Near` means: `n` roundings keep zeros, and change a value by at most the fraction `n·u`. -/
theorem c70_near {u : ℚ} (hu : 0 ≤ u ∧ u < 1) {n : ℕ} {x y : ℚ} (hx : 0 ≤ x) (hy : 0 ≤ y) (h : Near u n x y) :
    (y = 0 ↔ x = 0) ∧ |y - x| ≤ n * u * max x y := by
  refine ⟨h.zero_iff hu hx hy, ?_⟩
  have hb : 1 + (n : ℚ) * (-u) ≤ (1 + -u) ^ n := one_add_mul_le_pow (by linarith [hu.2]) n
  have hb' : 1 - (n : ℚ) * u ≤ (1 - u) ^ n := by
    have e : (1 : ℚ) - u = 1 + -u := by ring
    rw [e]
    linarith
  have h1 := le_trans (mul_le_mul_of_nonneg_right hb' hx) h.1
  have h2 := le_trans (mul_le_mul_of_nonneg_right hb' hy) h.2
  have hnu : 0 ≤ (n : ℚ) * u := mul_nonneg (Nat.cast_nonneg n) hu.1
  have m1 := mul_le_mul_of_nonneg_left (le_max_left x y) hnu
  have m2 := mul_le_mul_of_nonneg_left (le_max_right x y) hnu
  rw [abs_le]
  constructor <;> linarith

/-- **C70**, applicability: rounding to `p` significant bits after every operation, with the plain summation loop, has unit roundoff
`2^-p` (`p = 53` for Python's floats). -/
theorem c70_binary (p : ℕ) (hp : 0 < p) :
    Rounds (1 / 2 ^ p) (binRound p) (fun a b => binRound p (a * b)) (fun a b => binRound p (a / b)) (loopSum (binRound p)) := by
  obtain ⟨p, rfl⟩ : ∃ q, p = q + 1 := ⟨p - 1, by omega⟩
  have hu : (0 : ℚ) ≤ 1 / 2 ^ (p + 1) ∧ (1 : ℚ) / 2 ^ (p + 1) < 1 := by
    refine ⟨by positivity, ?_⟩
    rw [div_lt_one (by positivity)]
    exact one_lt_pow₀ (by norm_num) (by omega)
  refine ⟨hu, fun x => binRound_err p x, fun a b => binRound_err p _, fun a b _ => binRound_err p _, ?_⟩
  intro l hl
  have := loopSum_bounds hu (fun x => binRound_err p x) l 0 (le_refl _) hl
  simpa [loopSum] using this

/-- the arithmetic with `p` significant bits -/
def binArith (p : ℕ) : Arith :=
  Arith.float (binRound p) (fun a b => binRound p (a * b)) (fun a b => binRound p (a / b)) (loopSum (binRound p))

/-- what a session reads: the tables of all nodes after `apply` and the operations `h`, with the iteration orders `it` and `js` -/
def arithReads (A : Arith) (it : SetIter Int) (js : SetIter Str) (ops : List BOp) (h : List EvOp) : Py (List (List ℚ)) := do
  let jt ← A.apply it js (Bbn.run ops)
  (Bbn.run ops).vars.mapM (fun v => do
    let p ← A.getBbnPotential (A.runHist jt (h.map (fun o => (js, o)))) v
    .ok (p.map PEntry.value))

/-- C70 is not vacuous: the example network with the history of C18 in exact arithmetic, in double precision, and with 6 bits;
the errors are real but below the counted roundings. -/
example : Net.Usable c16_ops ∧ (∀ op ∈ c18_hist, op.2.Proper (Bbn.run c16_ops).vars) ∧ (∃ jt, apply .same .same (Bbn.run c16_ops) = .ok jt) ∧
    (arithReads .exact .same .same c16_ops (c18_hist.map Prod.snd)).val? =
      some [[56 / 155, 99 / 155], [17 / 31, 14 / 31], [0, 1], [68 / 775, 707 / 775], [1, 0]] ∧
    (arithReads (binArith 53) .same .same c16_ops (c18_hist.map Prod.snd)).val? =
      some [[203388370268345 / 562949953421312, 5752985330447471 / 9007199254740992],
        [1234857962343523 / 2251799813685248, 8135534810733799 / 18014398509481984], [0, 1],
        [3161236383599419 / 36028797018963968, 4108445079420569 / 4503599627370496], [1, 0]] ∧
    (arithReads (binArith 6) .same .same c16_ops (c18_hist.map Prod.snd)).val? =
      some [[47 / 128, 41 / 64], [35 / 64, 29 / 64], [0, 1], [45 / 512, 59 / 64], [1, 0]] ∧
    (arithReads .count .same .same c16_ops (c18_hist.map Prod.snd)).val? =
      some [[67, 67], [67, 67], [67, 67], [127, 127], [155, 155]] :=
  ⟨c16_usable, fun op ho => (c18_hist_ok op ho).proper, ((c16_exact_priors .same .same c16_ops c16_wf c16_connected).1 (by decide +kernel)).imp (fun _ h => h.1), by decide +kernel, by decide +kernel, by decide +kernel, by decide +kernel⟩

/-- a network with a node that has four children -/
def c70_star : List BOp :=
  let a := mkNode 0 "a" [3/10, 7/10]
  let b := mkNode 1 "b" [1/10, 9/10, 1/10, 9/10]
  let c := mkNode 2 "c" [1/10, 9/10, 3/10, 7/10]
  let d := mkNode 3 "d" [1/10, 9/10, 1/10, 9/10]
  let e := mkNode 4 "e" [3/10, 7/10, 1/10, 9/10]
  [.addEdge a b, .addEdge a c, .addEdge a d, .addEdge a e]

/-- all four children observed -/
def c70_obs : List EvOp :=
  [.update [Evidence.build (mkNode 1 "b" []).var .observation [("on".toList, 1)],
    Evidence.build (mkNode 2 "c" []).var .observation [("on".toList, 1)],
    Evidence.build (mkNode 3 "d" []).var .observation [("on".toList, 1)],
    Evidence.build (mkNode 4 "e" []).var .observation [("on".toList, 1)]]]

/-- **C70**: in double precision the order in which Python iterates its sets shows in the last bits: C20 is a statement about exact
arithmetic only. -/
theorem c70_orders_differ :
    (arithReads (binArith 53) .same .same c70_star c70_obs).val? =
      some [[5404319552844595 / 18014398509481984, 3152519739159347 / 4503599627370496], [1, 0], [1, 0], [1, 0], [1, 0]] ∧
    (arithReads (binArith 53) .same .rev c70_star c70_obs).val? =
      some [[1351079888211149 / 4503599627370496, 3152519739159347 / 4503599627370496], [1, 0], [1, 0], [1, 0], [1, 0]] ∧
    (arithReads .exact .same .same c70_star c70_obs).val? = some [[3 / 10, 7 / 10], [1, 0], [1, 0], [1, 0], [1, 0]] ∧
    (arithReads .exact .same .rev c70_star c70_obs).val? = some [[3 / 10, 7 / 10], [1, 0], [1, 0], [1, 0], [1, 0]] :=
  ⟨by decide +kernel, by decide +kernel, by decide +kernel, by decide +kernel⟩

end PyBBN
