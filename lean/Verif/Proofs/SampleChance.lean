import Verif.Spec.SampleChance
import Verif.Proofs.Reject
import Verif.Props.SampleAgree
import Mathlib.Algebra.BigOperators.Ring.Finset

/-! The law of the samples returned by `get_samples`. -/

namespace PyBBN
open Classical Reject

/-! ## counting the passes that draw a joint value -/

theorem grid_sum {M : Nat} : ∀ {l : List ℚ}, (∀ p ∈ l, ∃ k : Nat, p * (M : ℚ) = k) → ∃ k : Nat, l.sum * (M : ℚ) = k
  | [], _ => ⟨0, by simp⟩
  | p :: l, h => by
      obtain ⟨a, ha⟩ := h p List.mem_cons_self
      obtain ⟨c, hc⟩ := grid_sum (l := l) (fun q hq => h q (List.mem_cons_of_mem _ hq))
      exact ⟨a + c, by rw [List.sum_cons, add_mul, ha, hc]; push_cast; ring⟩

theorem grid_row {b : Bbn} {M : Nat} (hg : b.Grid M) {n : BbnNode} (hn : n ∈ b.toGraph.getNodes) (pv : List Variable) (v : Variable) (σ : Asg) :
    ∀ p ∈ cptRow n.probs pv v σ, ∃ k : Nat, p * (M : ℚ) = k := by
  intro p hp
  obtain ⟨j, _, rfl⟩ := List.mem_map.1 hp
  rw [List.getD_eq_getElem?_getD]
  cases h : n.probs[rowIdx pv σ * v.values.length + j]? with
  | none => exact ⟨0, by simp⟩
  | some a => exact hg.2 n hn a (List.mem_of_getElem? h)

/-- the number of the numbers `0, 1/M, …` in an interval -/
theorem count_interval {M : Nat} (hM : 0 < M) {row : List ℚ} (h0 : ∀ p ∈ row, 0 ≤ p) (h1 : row.sum ≤ 1)
    (hg : ∀ p ∈ row, ∃ k : Nat, p * (M : ℚ) = k) (i : Nat) :
    ∑ d : Fin M, (if InInterval row i (((d : Nat) : ℚ) / (M : ℚ)) then (1 : ℚ) else 0) = (M : ℚ) * ((row.take (i + 1)).sum - (row.take i).sum) := by
  have hM' : (0 : ℚ) < M := by exact_mod_cast hM
  obtain ⟨a, ha⟩ := grid_sum (fun p hp => hg p (List.mem_of_mem_take hp)) (l := row.take i)
  obtain ⟨c, hc⟩ := grid_sum (fun p hp => hg p (List.mem_of_mem_take hp)) (l := row.take (i + 1))
  have hac : a ≤ c := by
    have : (row.take i).sum ≤ (row.take (i + 1)).sum := by
      rw [take_succ_sum]
      have : 0 ≤ row.getD i 0 := by
        rw [List.getD_eq_getElem?_getD]
        cases h : row[i]? with
        | none => simp
        | some q => exact h0 q (List.mem_of_getElem? h)
      linarith
    have := mul_le_mul_of_nonneg_right this hM'.le
    rw [ha, hc] at this
    exact_mod_cast this
  have hcM : c ≤ M := by
    have : (row.take (i + 1)).sum ≤ 1 := by
      refine le_trans ?_ h1
      conv_rhs => rw [← List.take_append_drop (i + 1) row, List.sum_append]
      have : 0 ≤ (row.drop (i + 1)).sum := List.sum_nonneg (fun q hq => h0 q (List.mem_of_mem_drop hq))
      linarith
    have := mul_le_mul_of_nonneg_right this hM'.le
    rw [hc, one_mul] at this
    exact_mod_cast this
  have hiff : ∀ d : Nat, InInterval row i ((d : ℚ) / (M : ℚ)) ↔ a ≤ d ∧ d < c := by
    intro d
    unfold InInterval
    rw [le_div_iff₀ hM', div_lt_iff₀ hM', ha, hc]
    exact_mod_cast Iff.rfl
  have e : ∀ d : Fin M, (if InInterval row i (((d : Nat) : ℚ) / (M : ℚ)) then (1 : ℚ) else 0) = if a ≤ (d : Nat) ∧ (d : Nat) < c then 1 else 0 := by
    intro d
    by_cases h : a ≤ (d : Nat) ∧ (d : Nat) < c
    · rw [if_pos h, if_pos ((hiff d).2 h)]
    · rw [if_neg h, if_neg (fun hc => h ((hiff d).1 hc))]
  rw [Finset.sum_congr rfl (fun d _ => e d), Fin.sum_univ_eq_sum_range (fun d => if a ≤ d ∧ d < c then (1 : ℚ) else 0), ← Finset.sum_filter]
  have : (Finset.range M).filter (fun d => a ≤ d ∧ d < c) = Finset.Ico a c := by
    ext d
    simp only [Finset.mem_filter, Finset.mem_range, Finset.mem_Ico]
    omega
  rw [this, Finset.sum_const, Nat.card_Ico, nsmul_eq_mul, mul_one, Nat.cast_sub hac, mul_sub, mul_comm (M : ℚ), mul_comm (M : ℚ), ha, hc]

variable {ops : List BOp} {b : Bbn} {M : Nat}

theorem find_node (hi : BbnInv b) {n : BbnNode} (hn : n ∈ b.toGraph.getNodes) :
    b.toGraph.getNodes.find? (fun m => decide (m.var.id = n.var.id)) = some n := by
  cases hf : b.toGraph.getNodes.find? (fun m => decide (m.var.id = n.var.id)) with
  | none =>
    rw [List.find?_eq_none] at hf
    exact absurd (decide_eq_true rfl) (hf n hn)
  | some m => rw [node_of_id hi (List.mem_of_find?_eq_some hf) hn (by simpa using List.find?_some hf)]

theorem nodup_order {order : List Int} (hi : BbnInv b) (ht : b.Topological order) : order.Nodup := by
  rw [ht.1.nodup_iff]
  have := vars_nodup hi
  unfold vids Bbn.vars at this
  rw [List.map_map] at this
  exact this

/-- the number lies in the interval of the value of the node -/
def boxHas (b : Bbn) (σ : Asg) (i : Int) (p : ℚ) : Prop :=
  match b.toGraph.getNodes.find? (fun n => decide (n.var.id = i)) with
  | none => True
  | some n => InInterval (cptRow n.probs (b.sortedParentVars n.var.id) n.var σ) (n.var.values.idxOf (σ n.var.id)) p

/-- the share of the numbers `0, 1/M, …` that lie in the interval of the value of the node -/
noncomputable def gridWidth (b : Bbn) (M : Nat) (σ : Asg) (i : Int) : ℚ :=
  (∑ d : Fin M, (if boxHas b σ i (((d : Nat) : ℚ) / (M : ℚ)) then (1 : ℚ) else 0)) / M

/-- the share of the passes that draw `σ` -/
theorem frac_draws_grid (hi : BbnInv b) (hM : 0 < M) {order : List Int} (ht : b.Topological order) {σ : Asg} (hσ : InDom b.vars σ) :
    frac (Fin order.length → Fin M) (fun ω => b.Draws b.sortedParentVars order (gridPass ω) σ) = (order.map (gridWidth b M σ)).prod := by
  have hM' : (M : ℚ) ≠ 0 := by positivity
  have hI : ∀ n ∈ b.toGraph.getNodes, ∀ p, boxHas b σ n.var.id p ↔ InInterval (cptRow n.probs (b.sortedParentVars n.var.id) n.var σ) (n.var.values.idxOf (σ n.var.id)) p := by
    intro n hn p
    simp only [boxHas, find_node hi hn]
  have hiff : ∀ ω : Fin order.length → Fin M, b.Draws b.sortedParentVars order (gridPass ω) σ ↔ ∀ k : Fin order.length, boxHas b σ order[(k : Nat)] (((ω k : Nat) : ℚ) / (M : ℚ)) := by
    intro ω
    have hmem : ∀ p i, (p, i) ∈ (gridPass ω).zip order ↔ ∃ k : Fin order.length, p = ((ω k : Nat) : ℚ) / (M : ℚ) ∧ i = order[(k : Nat)] := by
      intro p i
      rw [List.mem_iff_getElem]
      constructor
      · rintro ⟨k, hk, e⟩
        have hk' : k < order.length := by simp at hk; exact hk.2
        refine ⟨⟨k, hk'⟩, ?_⟩
        rw [List.getElem_zip] at e
        simp only [gridPass, List.getElem_ofFn, Prod.mk.injEq] at e
        exact ⟨e.1.symm, e.2.symm⟩
      · rintro ⟨k, rfl, rfl⟩
        refine ⟨k, by simp [gridPass], ?_⟩
        rw [List.getElem_zip]
        simp [gridPass]
    constructor
    · intro h k
      obtain ⟨n, hn, e⟩ := mem_ids.1 (ht.1.mem_iff.1 (List.getElem_mem k.2))
      change boxHas b σ order[(k : Nat)] _
      rw [← e, hI n hn]
      refine h.2 n hn _ ((hmem _ _).2 ⟨k, rfl, ?_⟩)
      rw [e]
    · intro h
      refine ⟨hσ, fun n hn p hp => ?_⟩
      obtain ⟨k, rfl, e⟩ := (hmem _ _).1 hp
      rw [← hI n hn, e]
      exact h k
  unfold frac
  have e1 : ∀ ω : Fin order.length → Fin M, (if b.Draws b.sortedParentVars order (gridPass ω) σ then (1 : ℚ) else 0) =
      ∏ k : Fin order.length, (if boxHas b σ order[(k : Nat)] (((ω k : Nat) : ℚ) / (M : ℚ)) then (1 : ℚ) else 0) := by
    intro ω
    rw [Finset.prod_ite_zero]
    by_cases h : b.Draws b.sortedParentVars order (gridPass ω) σ
    · rw [if_pos h, if_pos (fun k _ => (hiff ω).1 h k)]; simp
    · rw [if_neg h, if_neg (fun hc => h ((hiff ω).2 (fun k => hc k (Finset.mem_univ _))))]
  have e2 : ∏ k : Fin order.length, ∑ d : Fin M, (if boxHas b σ order[(k : Nat)] (((d : Nat) : ℚ) / (M : ℚ)) then (1 : ℚ) else 0) =
      ∑ ω : Fin order.length → Fin M, ∏ k : Fin order.length, (if boxHas b σ order[(k : Nat)] (((ω k : Nat) : ℚ) / (M : ℚ)) then (1 : ℚ) else 0) := by
    rw [Finset.prod_univ_sum, Fintype.piFinset_univ]
  rw [Finset.sum_congr rfl (fun ω _ => e1 ω), ← e2]
  have e4 : (List.ofFn fun k : Fin order.length => gridWidth b M σ order[(k : Nat)]) = order.map (gridWidth b M σ) := by
    apply List.ext_getElem <;> simp
  rw [← e4, List.prod_ofFn]
  unfold gridWidth
  rw [Finset.prod_div_distrib]
  simp only [Finset.prod_const, Finset.card_univ, Fintype.card_fin, Fintype.card_fun, Nat.cast_pow]

/-- the share of the passes that draw `σ` is the volume of the box of `σ` -/
theorem frac_draws (hi : BbnInv b) (hs : b.Samplable) (hg : b.Grid M) {order : List Int} (ht : b.Topological order) {σ : Asg}
    (hσ : InDom b.vars σ) :
    frac (Fin order.length → Fin M) (fun ω => b.Draws b.sortedParentVars order (gridPass ω) σ) = b.boxVolume b.sortedParentVars σ := by
  have hM' : (M : ℚ) ≠ 0 := by have := hg.1; positivity
  rw [frac_draws_grid hi hg.1 ht hσ, (ht.1.map _).prod_eq]
  unfold Bbn.boxVolume Bbn.ids
  rw [List.map_map]
  refine congrArg List.prod (List.map_congr_left (fun n hn => ?_))
  have hI : ∀ p, boxHas b σ n.var.id p ↔ InInterval (cptRow n.probs (b.sortedParentVars n.var.id) n.var σ) (n.var.values.idxOf (σ n.var.id)) p := by
    intro p
    simp only [boxHas, find_node hi hn]
  simp only [Function.comp, gridWidth, hI]
  rw [div_eq_iff hM', mul_comm, ← count_interval hg.1 (cptRow_nonneg (hs.wf.nonneg n hn) _ _ _) (hs.normalized n hn σ hσ).le (grid_row hg hn _ _ _)]

/-! ## joint values and passes -/

/-- every joint value is listed once -/
theorem allAsg_once {τ : Asg} : ∀ (ns : List Variable), (vids ns).Nodup → (∀ v ∈ ns, v.values.Nodup) → InDom ns τ →
    ((allAsg ns).map (fun σ => if ∀ v ∈ ns, σ v.id = τ v.id then (1 : ℚ) else 0)).sum = 1
  | [], _, _, _ => by simp [allAsg]
  | n :: ns, hn, hv, hd => by
      rw [vids_cons, List.nodup_cons] at hn
      have ih := allAsg_once (τ := τ) ns hn.2 (fun v h => hv v (List.mem_cons_of_mem _ h)) (fun v h => hd v (List.mem_cons_of_mem _ h))
      have hx : ∀ x, (((allAsg ns).map (fun σ => Function.update σ n.id x)).map
          (fun σ => if ∀ v ∈ n :: ns, σ v.id = τ v.id then (1 : ℚ) else 0)).sum = if x = τ n.id then 1 else 0 := by
        intro x
        rw [List.map_map]
        have : ∀ σ : Asg, (∀ v ∈ n :: ns, Function.update σ n.id x v.id = τ v.id) ↔ x = τ n.id ∧ ∀ v ∈ ns, σ v.id = τ v.id := by
          intro σ
          rw [List.forall_mem_cons, Function.update_self]
          refine and_congr_right (fun _ => forall₂_congr (fun v h => ?_))
          rw [Function.update_of_ne (fun e => hn.1 (by rw [← e]; exact List.mem_map_of_mem h))]
        by_cases h : x = τ n.id
        · rw [if_pos h]
          refine Eq.trans ?_ ih
          refine congrArg List.sum (List.map_congr_left (fun σ _ => ?_))
          simp only [Function.comp]
          by_cases h2 : ∀ v ∈ ns, σ v.id = τ v.id
          · rw [if_pos h2, if_pos ((this σ).2 ⟨h, h2⟩)]
          · rw [if_neg h2, if_neg (fun hc => h2 ((this σ).1 hc).2)]
        · rw [if_neg h]
          apply List.sum_eq_zero
          intro q hq
          obtain ⟨σ, _, rfl⟩ := List.mem_map.1 hq
          simp only [Function.comp]
          rw [if_neg (fun hc => h ((this σ).1 hc).1)]
      rw [allAsg, List.map_flatMap, sum_flatMap_map]
      simp only [hx]
      have hmem := hd n List.mem_cons_self
      have hnd := hv n List.mem_cons_self
      clear hx ih hd hv
      generalize n.values = vals at hmem hnd ⊢
      induction vals with
      | nil => cases hmem
      | cons x xs ih =>
        rw [List.nodup_cons] at hnd
        rw [List.map_cons, List.sum_cons]
        by_cases h : x = τ n.id
        · rw [if_pos h, List.sum_eq_zero, add_zero]
          intro q hq
          obtain ⟨y, hy, rfl⟩ := List.mem_map.1 hq
          rw [if_neg (fun e => hnd.1 (by rw [h, ← e]; exact hy))]
        · rw [if_neg h, zero_add]
          rcases List.mem_cons.1 hmem with e | e
          · exact absurd e.symm h
          · exact ih e hnd.2

theorem uniform_pass {n : Nat} (hM : 0 < M) (ω : Fin n → Fin M) : Uniform n (gridPass ω) := by
  have hM' : (0 : ℚ) < M := by exact_mod_cast hM
  refine ⟨by simp [gridPass], ?_⟩
  intro p hp
  obtain ⟨k, rfl⟩ := (List.mem_ofFn' _ _).1 hp
  refine ⟨by positivity, ?_⟩
  rw [div_lt_one hM']
  exact_mod_cast (ω k).2

/-- the joint value drawn by a pass -/
noncomputable def drawn (b : Bbn) (order : List Int) (ω : Fin order.length → Fin M) : Asg :=
  if h : ∃ σ, b.Draws b.sortedParentVars order (gridPass ω) σ then h.choose else fun _ => []

theorem drawn_spec (hs : (Bbn.run ops).Samplable) (hM : 0 < M) {order : List Int} (ht : (Bbn.run ops).Topological order) (ω : Fin order.length → Fin M) :
    (Bbn.run ops).Draws (Bbn.run ops).sortedParentVars order (gridPass ω) (drawn (Bbn.run ops) order ω) := by
  have h := (c36_draws ops hs order ht (gridPass ω) (uniform_pass hM ω)).1
  unfold drawn
  rw [dif_pos h]
  exact h.choose_spec

theorem agree_vars_iff {σ τ : Asg} : (∀ v ∈ b.vars, σ v.id = τ v.id) ↔ ∀ i ∈ b.ids, σ i = τ i := by
  constructor
  · intro h i hi
    obtain ⟨n, hn, rfl⟩ := mem_ids.1 hi
    exact h n.var (List.mem_map_of_mem hn)
  · intro h v hv
    obtain ⟨n, hn, rfl⟩ := List.mem_map.1 hv
    exact h n.var.id (mem_ids.2 ⟨n, hn, rfl⟩)

/-- a pass draws the joint value and those that give the nodes the same values -/
theorem draws_iff (hs : (Bbn.run ops).Samplable) (hM : 0 < M) {order : List Int} (ht : (Bbn.run ops).Topological order) (ω : Fin order.length → Fin M)
    {σ : Asg} (hσ : InDom (Bbn.run ops).vars σ) :
    (Bbn.run ops).Draws (Bbn.run ops).sortedParentVars order (gridPass ω) σ ↔ ∀ v ∈ (Bbn.run ops).vars, σ v.id = drawn (Bbn.run ops) order ω v.id := by
  have hd := drawn_spec hs hM ht ω
  rw [agree_vars_iff]
  constructor
  · intro h
    exact (c36_draws ops hs order ht (gridPass ω) (uniform_pass hM ω)).2 σ _ h hd
  · intro h
    exact draws_agree (bbn_run_inv ops) hσ h hd

/-- the share of the passes whose joint value has a property -/
theorem frac_drawn_sum (hs : (Bbn.run ops).Samplable) (hM : 0 < M) {order : List Int} (ht : (Bbn.run ops).Topological order)
    (Q : Asg → Prop) (hQ : ∀ σ τ, (∀ v ∈ (Bbn.run ops).vars, σ v.id = τ v.id) → (Q σ ↔ Q τ)) :
    frac (Fin order.length → Fin M) (fun ω => Q (drawn (Bbn.run ops) order ω)) =
      (((allAsg (Bbn.run ops).vars).filter (fun σ => decide (Q σ))).map (fun σ =>
        frac (Fin order.length → Fin M) (fun ω => (Bbn.run ops).Draws (Bbn.run ops).sortedParentVars order (gridPass ω) σ))).sum := by
  have hi := bbn_run_inv ops
  have e1 : ∀ ω : Fin order.length → Fin M, (if Q (drawn (Bbn.run ops) order ω) then (1 : ℚ) else 0) =
      (((allAsg (Bbn.run ops).vars).filter (fun σ => decide (Q σ))).map
        (fun σ => if (Bbn.run ops).Draws (Bbn.run ops).sortedParentVars order (gridPass ω) σ then (1 : ℚ) else 0)).sum := by
    intro ω
    rw [sum_map_filter]
    have h1 := allAsg_once (τ := drawn (Bbn.run ops) order ω) (Bbn.run ops).vars (vars_nodup hi) (by
      intro v hv
      obtain ⟨n, hn, rfl⟩ := List.mem_map.1 hv
      exact hs.wf.values n hn) (drawn_spec hs hM ht ω).1
    have h2 : ∀ σ ∈ allAsg (Bbn.run ops).vars, (if decide (Q σ) = true then
        (if (Bbn.run ops).Draws (Bbn.run ops).sortedParentVars order (gridPass ω) σ then (1 : ℚ) else 0) else 0) =
        (if Q (drawn (Bbn.run ops) order ω) then (1 : ℚ) else 0) * (if ∀ v ∈ (Bbn.run ops).vars, σ v.id = drawn (Bbn.run ops) order ω v.id then (1 : ℚ) else 0) := by
      intro σ hσ
      have hdi := draws_iff hs hM ht ω (allAsg_mem_dom _ (vars_nodup hi) σ hσ)
      by_cases hd : ∀ v ∈ (Bbn.run ops).vars, σ v.id = drawn (Bbn.run ops) order ω v.id
      · rw [if_pos hd, if_pos (hdi.2 hd), mul_one]
        by_cases hq : Q σ
        · rw [if_pos (decide_eq_true hq), if_pos ((hQ _ _ hd).1 hq)]
        · rw [if_neg (fun h => hq (of_decide_eq_true h)), if_neg (fun h => hq ((hQ _ _ hd).2 h))]
      · rw [if_neg hd, if_neg (fun h => hd (hdi.1 h)), mul_zero, ite_self]
    rw [List.map_congr_left h2, List.sum_map_mul_left, h1, mul_one]
  have hswap : ∀ l : List Asg, ∑ ω : Fin order.length → Fin M, (l.map
        (fun σ => if (Bbn.run ops).Draws (Bbn.run ops).sortedParentVars order (gridPass ω) σ then (1 : ℚ) else 0)).sum =
      (l.map (fun σ => ∑ ω : Fin order.length → Fin M,
        if (Bbn.run ops).Draws (Bbn.run ops).sortedParentVars order (gridPass ω) σ then (1 : ℚ) else 0)).sum := by
    intro l
    induction l with
    | nil => simp
    | cons σ l ih => simp only [List.map_cons, List.sum_cons, Finset.sum_add_distrib, ih]
  have hdiv : ∀ (l : List Asg) (f : Asg → ℚ) (c : ℚ), (l.map f).sum / c = (l.map (fun σ => f σ / c)).sum := by
    intro l f c
    induction l with
    | nil => simp
    | cons σ l ih => simp only [List.map_cons, List.sum_cons, add_div, ih]
  unfold frac
  rw [Finset.sum_congr rfl (fun ω _ => e1 ω), hswap, hdiv]

/-- the share of the passes whose joint value has a property is the volume of the boxes -/
theorem frac_drawn (hs : (Bbn.run ops).Samplable) (hg : (Bbn.run ops).Grid M) {order : List Int} (ht : (Bbn.run ops).Topological order)
    (Q : Asg → Prop) (hQ : ∀ σ τ, (∀ v ∈ (Bbn.run ops).vars, σ v.id = τ v.id) → (Q σ ↔ Q τ)) :
    frac (Fin order.length → Fin M) (fun ω => Q (drawn (Bbn.run ops) order ω)) =
      (((allAsg (Bbn.run ops).vars).filter (fun σ => decide (Q σ))).map ((Bbn.run ops).boxVolume (Bbn.run ops).sortedParentVars)).sum := by
  have hi := bbn_run_inv ops
  rw [frac_drawn_sum hs hg.1 ht Q hQ]
  refine congrArg List.sum (List.map_congr_left (fun σ hσ => ?_))
  exact frac_draws hi hs hg ht (allAsg_mem_dom _ (vars_nodup hi) σ (List.mem_filter.1 hσ).1)

/-- shares among the elements that are kept -/
theorem frac_sub {Ω : Type} [Fintype Ω] (keep q : Ω → Prop) : frac {ω // keep ω} (fun ω => q ω) = frac Ω (fun ω => keep ω ∧ q ω) / frac Ω keep := by
  unfold frac
  have h1 : ∀ r : Ω → ℚ, (∑ d : {ω // keep ω}, r d) = ∑ d : Ω, if keep d then r d else 0 := by
    intro r
    rw [sum_split_keep keep r 0]; simp
  have h2 : (Fintype.card {ω // keep ω} : ℚ) = ∑ d : Ω, if keep d then (1 : ℚ) else 0 := by
    rw [← h1 (fun _ => 1)]; simp
  have h3 : (∑ d : {ω // keep ω}, if q d then (1 : ℚ) else 0) = ∑ d : Ω, if keep d ∧ q d then (1 : ℚ) else 0 := by
    rw [h1 (fun d => if q d then (1 : ℚ) else 0)]
    refine Finset.sum_congr rfl (fun d _ => ?_)
    by_cases ha : keep d <;> by_cases hb : q d <;> simp [ha, hb]
  rw [h2, h3]
  rcases Nat.eq_zero_or_pos (Fintype.card Ω) with h0 | h0
  · have : IsEmpty Ω := Fintype.card_eq_zero_iff.1 h0
    simp
  · have : (Fintype.card Ω : ℚ) ≠ 0 := by positivity
    rw [div_div_div_cancel_right₀ this]
    congr 1
    refine Finset.sum_congr rfl (fun d _ => ?_)
    by_cases h : keep d ∧ q d
    · rw [if_pos h, if_pos h]
    · rw [if_neg h, if_neg h]

/-- the pass is kept -/
def Kept (b : Bbn) (order : List Int) (evidence : Dict Int Str) (ω : Fin order.length → Fin M) : Prop := Checked order evidence (drawn b order ω)

/-- the law of the samples, for any property that does not depend on the order of the entries of a sample -/
theorem sample_law (ps : PySort SortableNode) (hs : (Bbn.run ops).Samplable) (hM : 0 < M) (s : LogicSampler)
    (hmake : LogicSampler.make ps (Bbn.run ops) = .ok s) (ht : (Bbn.run ops).Topological s.nodes)
    {evidence : Dict Int Str} (hnd : (Dict.keys evidence).Nodup) (hev : ∀ i ∈ Dict.keys evidence, i ∈ (Bbn.run ops).ids)
    {N : Nat} (hN : 0 < N) (hpos : 0 < Fintype.card {ω : Fin s.nodes.length → Fin M // Kept (Bbn.run ops) s.nodes evidence ω})
    {p : List (Dict Int Str) → Prop} {p' : List Asg → Prop}
    (hp : ∀ samples τs, List.Forall₂ (fun r τ => (Bbn.run ops).Sample r τ) samples τs → (p samples ↔ p' τs)) :
    s.Prob M evidence N p (part {ω : Fin s.nodes.length → Fin M // Kept (Bbn.run ops) s.nodes evidence ω} N
      (fun l => p' (l.map (fun ω => overlay evidence (drawn (Bbn.run ops) s.nodes ω.1))))) := by
  have h := law (Ω := Fin s.nodes.length → Fin M) (keep := Kept (Bbn.run ops) s.nodes evidence) hpos N
    (fun l => p' (l.map (fun ω => overlay evidence (drawn (Bbn.run ops) s.nodes ω))))
  simp only [List.map_map] at h
  refine cast ?_ h
  unfold LogicSampler.Prob
  congr 1
  funext L
  have hev : ∀ ds : Fin L → Fin s.nodes.length → Fin M,
      (∃ samples, s.getSamples evidence N (List.ofFn (fun k => gridPass (ds k))) = some (.ok samples) ∧ p samples) ↔
      First (Kept (Bbn.run ops) s.nodes evidence) N
        (fun l => p' (l.map (fun ω => overlay evidence (drawn (Bbn.run ops) s.nodes ω)))) (List.ofFn ds) := by
    intro ds
    have e0 : (List.ofFn fun k => gridPass (ds k)) = (List.ofFn ds).map gridPass := by rw [List.map_ofFn]; rfl
    rw [e0]
    generalize List.ofFn ds = l
    have hσ : List.Forall₂ ((Bbn.run ops).Draws (Bbn.run ops).sortedParentVars s.nodes) (l.map gridPass) (l.map (drawn (Bbn.run ops) s.nodes)) := by
      rw [List.forall₂_map_left_iff, List.forall₂_map_right_iff, List.forall₂_same]
      exact fun ω _ => drawn_spec hs hM ht ω
    have hk : (l.map (drawn (Bbn.run ops) s.nodes)).filter (fun σ => decide (Checked s.nodes evidence σ)) =
        (l.filter (fun ω => decide (Kept (Bbn.run ops) s.nodes evidence ω))).map (drawn (Bbn.run ops) s.nodes) := by
      rw [List.filter_map]
      refine congrArg _ (List.filter_congr (fun ω _ => ?_))
      exact decide_eq_decide.2 Iff.rfl
    obtain ⟨h1, h2⟩ := c36_exact ps ops hs s hmake ht evidence hnd hev N hN (l.map gridPass)
      (by intro u hu; obtain ⟨ω, _, rfl⟩ := List.mem_map.1 hu; exact uniform_pass hM ω) _ hσ
    rw [hk, List.length_map] at h1 h2
    unfold First
    rcases Nat.lt_or_ge (l.filter (fun ω => decide (Kept (Bbn.run ops) s.nodes evidence ω))).length N with hlt | hge
    · have := h1 hlt
      constructor
      · rintro ⟨samples, e, _⟩; rw [this] at e; cases e
      · rintro ⟨e, _⟩; omega
    · obtain ⟨samples, e, hf⟩ := h2 hge
      rw [← List.map_take, List.forall₂_map_right_iff] at hf
      have hf' : List.Forall₂ (fun r τ => (Bbn.run ops).Sample r τ) samples
          ((List.take N (l.filter (fun ω => decide (Kept (Bbn.run ops) s.nodes evidence ω)))).map
            (fun ω => overlay evidence (drawn (Bbn.run ops) s.nodes ω))) := by
        rw [List.forall₂_map_right_iff]; exact hf
      have hpp := hp _ _ hf'
      constructor
      · rintro ⟨samples', e', hp1⟩
        rw [e] at e'
        cases e'
        exact ⟨hge, hpp.1 hp1⟩
      · rintro ⟨_, hp1⟩
        exact ⟨samples, e, hpp.2 hp1⟩
  unfold part LogicSampler.share
  rw [Finset.card_filter]
  push_cast
  simp only [Fintype.card_fun, Fintype.card_fin, Nat.cast_pow]
  congr 1
  exact Finset.sum_congr rfl (fun ds _ => by
    by_cases hc : ∃ samples, s.getSamples evidence N (List.ofFn (fun k => gridPass (ds k))) = some (.ok samples) ∧ p samples
    · rw [if_pos hc, if_pos ((hev ds).1 hc)]
    · rw [if_neg hc, if_neg (fun h => hc ((hev ds).2 h))])

end PyBBN
