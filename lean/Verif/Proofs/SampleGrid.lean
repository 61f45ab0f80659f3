import Verif.Proofs.SampleLaw
import Verif.Proofs.Markov
import Mathlib.Algebra.Order.Floor.Ring
import Mathlib.Algebra.Order.Floor.Semiring

/-! Random numbers of finite precision: the joint values are drawn from a distribution close to the one of the network. -/

namespace PyBBN
open Classical Reject

variable {ops : List BOp} {b : Bbn} {M : Nat}

/-! ## two products of conditional distributions -/

theorem abs_sum_le (l : List ℚ) : |l.sum| ≤ (l.map (fun q => |q|)).sum := by
  induction l with
  | nil => simp
  | cons a l ih => simp only [List.sum_cons, List.map_cons]; exact le_trans (abs_add_le _ _) (by linarith)

theorem sum_map_le {α : Type} {l : List α} {f g : α → ℚ} (h : ∀ a ∈ l, f a ≤ g a) : (l.map f).sum ≤ (l.map g).sum := by
  induction l with
  | nil => simp
  | cons a l ih =>
    simp only [List.map_cons, List.sum_cons]
    exact add_le_add (h a List.mem_cons_self) (ih (fun c hc => h c (List.mem_cons_of_mem _ hc)))

theorem sum_map_add' {α : Type} (l : List α) (f g : α → ℚ) : (l.map (fun a => f a + g a)).sum = (l.map f).sum + (l.map g).sum := by
  induction l with
  | nil => simp
  | cons a l ih => simp only [List.map_cons, List.sum_cons, ih]; ring

theorem sum_comm' {α β : Type} (l : List α) (m : List β) (f : α → β → ℚ) :
    (l.map (fun a => (m.map (f a)).sum)).sum = (m.map (fun c => (l.map (fun a => f a c)).sum)).sum := by
  induction l with
  | nil => simp
  | cons a l ih => simp only [List.map_cons, List.sum_cons, ih, sum_map_add']

/-- sums over joint values, the first variable summed first -/
theorem sum_allAsg_cons (n : Variable) (ns : List Variable) (f : Asg → ℚ) :
    ((allAsg (n :: ns)).map f).sum = ((allAsg ns).map (fun σ => (n.values.map (fun x => f (Function.update σ n.id x))).sum)).sum := by
  rw [allAsg, List.map_flatMap, sum_flatMap_map, sum_comm']
  simp only [List.map_map]
  rfl

/-- two products of conditional distributions differ by no more than the distributions do -/
theorem products_near {A B : Variable → Asg → ℚ} {δ : Variable → ℚ} : ∀ (ns : List Variable), (vids ns).Nodup →
    ns.Pairwise (fun n v => ∀ σ x, A v (Function.update σ n.id x) = A v σ ∧ B v (Function.update σ n.id x) = B v σ) →
    (∀ n ∈ ns, ∀ σ, 0 ≤ A n σ ∧ 0 ≤ B n σ) →
    (∀ n ns', (n :: ns') <:+ ns → ∀ σ, InDom ns' σ → (n.values.map (fun x => A n (Function.update σ n.id x))).sum = 1 ∧
      (n.values.map (fun x => B n (Function.update σ n.id x))).sum = 1 ∧
      (n.values.map (fun x => |A n (Function.update σ n.id x) - B n (Function.update σ n.id x)|)).sum ≤ δ n) →
    ((allAsg ns).map (fun σ => (ns.map (fun v => A v σ)).prod)).sum = 1 ∧
    ((allAsg ns).map (fun σ => |(ns.map (fun v => A v σ)).prod - (ns.map (fun v => B v σ)).prod|)).sum ≤ (ns.map δ).sum
  | [], _, _, _, _ => by simp [allAsg]
  | n :: ns, hn, hp, h0, hc => by
      rw [vids_cons, List.nodup_cons] at hn
      rw [List.pairwise_cons] at hp
      obtain ⟨ih1, ih2⟩ := products_near ns hn.2 hp.2 (fun m hm => h0 m (List.mem_cons_of_mem _ hm))
        (fun m ns' h => hc m ns' (h.trans (List.suffix_cons _ _)))
      have hd := hc n ns (List.suffix_refl _)
      have eA : ∀ σ x, (ns.map (fun v => A v (Function.update σ n.id x))).prod = (ns.map (fun v => A v σ)).prod :=
        fun σ x => congrArg List.prod (List.map_congr_left (fun v hv => (hp.1 v hv σ x).1))
      have eB : ∀ σ x, (ns.map (fun v => B v (Function.update σ n.id x))).prod = (ns.map (fun v => B v σ)).prod :=
        fun σ x => congrArg List.prod (List.map_congr_left (fun v hv => (hp.1 v hv σ x).2))
      have hdom : ∀ σ ∈ allAsg ns, InDom ns σ := fun σ hσ => allAsg_mem_dom ns hn.2 σ hσ
      refine ⟨?_, ?_⟩
      · rw [sum_allAsg_cons, ← ih1]
        refine congrArg List.sum (List.map_congr_left (fun σ hσ => ?_))
        simp only [List.map_cons, List.prod_cons, eA]
        rw [List.sum_map_mul_right, (hd σ (hdom σ hσ)).1, one_mul]
      · rw [sum_allAsg_cons, List.map_cons, List.sum_cons]
        have hstep : ∀ σ ∈ allAsg ns, (n.values.map (fun x => |((n :: ns).map (fun v => A v (Function.update σ n.id x))).prod -
              ((n :: ns).map (fun v => B v (Function.update σ n.id x))).prod|)).sum ≤
            (ns.map (fun v => A v σ)).prod * δ n + |(ns.map (fun v => A v σ)).prod - (ns.map (fun v => B v σ)).prod| := by
          intro σ hσ
          obtain ⟨d1, d2, d3⟩ := hd σ (hdom σ hσ)
          have hP : 0 ≤ (ns.map (fun v => A v σ)).prod := prod_nonneg' (fun v hv => (h0 v (List.mem_cons_of_mem _ hv) σ).1)
          have hone : ∀ x ∈ n.values, |((n :: ns).map (fun v => A v (Function.update σ n.id x))).prod -
              ((n :: ns).map (fun v => B v (Function.update σ n.id x))).prod| ≤
              (ns.map (fun v => A v σ)).prod * |A n (Function.update σ n.id x) - B n (Function.update σ n.id x)| +
              |(ns.map (fun v => A v σ)).prod - (ns.map (fun v => B v σ)).prod| * B n (Function.update σ n.id x) := by
            intro x _
            simp only [List.map_cons, List.prod_cons, eA, eB]
            have hB := (h0 n List.mem_cons_self (Function.update σ n.id x)).2
            generalize A n (Function.update σ n.id x) = a at *
            generalize B n (Function.update σ n.id x) = c at *
            generalize (ns.map (fun v => A v σ)).prod = P at *
            generalize (ns.map (fun v => B v σ)).prod = R at *
            have : a * P - c * R = P * (a - c) + (P - R) * c := by ring
            rw [this]
            refine le_trans (abs_add_le _ _) ?_
            rw [abs_mul, abs_mul, abs_of_nonneg hP, abs_of_nonneg hB]
          refine le_trans (sum_map_le hone) ?_
          rw [sum_map_add', List.sum_map_mul_left, List.sum_map_mul_left, d2, mul_one]
          have := mul_le_mul_of_nonneg_left d3 hP
          linarith
        refine le_trans (sum_map_le hstep) ?_
        rw [sum_map_add', List.sum_map_mul_right, ih1, one_mul]
        linarith

/-! ## the share of the grid in an interval -/

/-- the number of the numbers `0, 1/M, …` in an interval -/
theorem grid_count (hM : 0 < M) {lo hi : ℚ} (hle : lo ≤ hi) (h1 : hi ≤ 1) :
    ∑ d : Fin M, (if lo ≤ ((d : Nat) : ℚ) / (M : ℚ) ∧ ((d : Nat) : ℚ) / (M : ℚ) < hi then (1 : ℚ) else 0) = (⌈hi * M⌉₊ : ℚ) - (⌈lo * M⌉₊ : ℚ) := by
  have hM' : (0 : ℚ) < M := by exact_mod_cast hM
  have hiff : ∀ d : Nat, (lo ≤ (d : ℚ) / (M : ℚ) ∧ (d : ℚ) / (M : ℚ) < hi) ↔ ⌈lo * M⌉₊ ≤ d ∧ d < ⌈hi * M⌉₊ := by
    intro d
    rw [le_div_iff₀ hM', div_lt_iff₀ hM', Nat.ceil_le, Nat.lt_ceil]
  have hac : ⌈lo * M⌉₊ ≤ ⌈hi * M⌉₊ := Nat.ceil_le_ceil (mul_le_mul_of_nonneg_right hle hM'.le)
  have hcM : ⌈hi * M⌉₊ ≤ M := Nat.ceil_le.2 (by nlinarith)
  have e : ∀ d : Fin M, (if lo ≤ ((d : Nat) : ℚ) / (M : ℚ) ∧ ((d : Nat) : ℚ) / (M : ℚ) < hi then (1 : ℚ) else 0) =
      if ⌈lo * M⌉₊ ≤ (d : Nat) ∧ (d : Nat) < ⌈hi * M⌉₊ then 1 else 0 := by
    intro d
    by_cases h : ⌈lo * M⌉₊ ≤ (d : Nat) ∧ (d : Nat) < ⌈hi * M⌉₊
    · rw [if_pos h, if_pos ((hiff d).2 h)]
    · rw [if_neg h, if_neg (fun hc => h ((hiff d).1 hc))]
  rw [Finset.sum_congr rfl (fun d _ => e d), Fin.sum_univ_eq_sum_range (fun d => if ⌈lo * M⌉₊ ≤ d ∧ d < ⌈hi * M⌉₊ then (1 : ℚ) else 0), ← Finset.sum_filter]
  have : (Finset.range M).filter (fun d => ⌈lo * M⌉₊ ≤ d ∧ d < ⌈hi * M⌉₊) = Finset.Ico ⌈lo * M⌉₊ ⌈hi * M⌉₊ := by
    ext d
    simp only [Finset.mem_filter, Finset.mem_range, Finset.mem_Ico]
    omega
  rw [this, Finset.sum_const, Nat.card_Ico, nsmul_eq_mul, mul_one, Nat.cast_sub hac]

theorem ceil_near {a c : ℚ} (ha : 0 ≤ a) (hc : 0 ≤ c) : |((⌈c⌉₊ : ℚ) - (⌈a⌉₊ : ℚ)) - (c - a)| ≤ 1 := by
  have h1 := Nat.le_ceil a
  have h2 := Nat.ceil_lt_add_one ha
  have h3 := Nat.le_ceil c
  have h4 := Nat.ceil_lt_add_one hc
  rw [abs_le]
  constructor <;> linarith

theorem telescope (f : Nat → ℚ) : ∀ n, ((List.range n).map (fun j => f (j + 1) - f j)).sum = f n - f 0
  | 0 => by simp
  | n + 1 => by
      rw [List.range_succ, List.map_append, List.sum_append, telescope f n]
      simp

/-! ## the network -/

/-- the row of the CPT of node `i` -/
noncomputable def gridRow (b : Bbn) (i : Int) (σ : Asg) : List ℚ := cptRow (b.nodeOf i).probs (b.sortedParentVars i) (b.nodeOf i).var σ

/-- the cumulative probability before the `k`-th value of node `i` -/
noncomputable def cumOf (b : Bbn) (i : Int) (σ : Asg) (k : Nat) : ℚ := ((gridRow b i σ).take k).sum

/-- the width of the interval of the value of node `i` -/
noncomputable def widthOf (b : Bbn) (i : Int) (σ : Asg) : ℚ :=
  cumOf b i σ ((b.nodeOf i).var.values.idxOf (σ i) + 1) - cumOf b i σ ((b.nodeOf i).var.values.idxOf (σ i))

theorem nodeOf_of_mem (hi : BbnInv b) {n : BbnNode} (hn : n ∈ b.toGraph.getNodes) : b.nodeOf n.var.id = n := by
  have := (getNodes_eq hi n).1 hn
  unfold Bbn.nodeOf
  rw [this]; rfl

theorem nodeOf_mem_ids (hi : BbnInv b) {i : Int} (h : i ∈ b.ids) : b.nodeOf i ∈ b.toGraph.getNodes ∧ (b.nodeOf i).var.id = i := by
  obtain ⟨n, hn, rfl⟩ := mem_ids.1 h
  rw [nodeOf_of_mem hi hn]
  exact ⟨hn, rfl⟩

theorem cumOf_congr (hi : BbnInv b) {i : Int} {σ τ : Asg} (h : ∀ p ∈ ddGet b.parents i, σ p = τ p) (k : Nat) : cumOf b i σ k = cumOf b i τ k := by
  unfold cumOf gridRow
  rw [cptRow_congr (fun w hw => h w.id (sortedParentVars_mem hi hw).2)]

theorem cumOf_mono (hi : BbnInv b) (hs : b.Samplable) {i : Int} (h : i ∈ b.ids) (σ : Asg) (k : Nat) : cumOf b i σ k ≤ cumOf b i σ (k + 1) := by
  unfold cumOf
  rw [take_succ_sum]
  have : 0 ≤ (gridRow b i σ).getD k 0 := by
    rw [List.getD_eq_getElem?_getD]
    cases hk : (gridRow b i σ)[k]? with
    | none => simp
    | some q => exact cptRow_nonneg (hs.wf.nonneg _ (nodeOf_mem_ids hi h).1) _ _ _ q (List.mem_of_getElem? hk)
  linarith

theorem cumOf_nonneg (hi : BbnInv b) (hs : b.Samplable) {i : Int} (h : i ∈ b.ids) (σ : Asg) : ∀ k, 0 ≤ cumOf b i σ k
  | 0 => by simp [cumOf]
  | k + 1 => le_trans (cumOf_nonneg hi hs h σ k) (cumOf_mono hi hs h σ k)

theorem cumOf_all (hi : BbnInv b) (hs : b.Samplable) {i : Int} (h : i ∈ b.ids) {σ : Asg} (hσ : InDom b.vars σ) :
    cumOf b i σ (b.nodeOf i).var.values.length = 1 := by
  obtain ⟨h1, h2⟩ := nodeOf_mem_ids hi h
  have := hs.normalized _ h1 σ hσ
  rw [h2] at this
  unfold cumOf gridRow
  rw [List.take_of_length_le (by simp [cptRow])]
  exact this

theorem cumOf_le_one (hi : BbnInv b) (hs : b.Samplable) {i : Int} (h : i ∈ b.ids) {σ : Asg} (hσ : InDom b.vars σ) {k : Nat}
    (hk : k ≤ (b.nodeOf i).var.values.length) : cumOf b i σ k ≤ 1 := by
  rw [← cumOf_all hi hs h hσ]
  exact monotone_nat_of_le_succ (cumOf_mono hi hs h σ) hk

theorem boxHas_iff (hi : BbnInv b) {i : Int} (h : i ∈ b.ids) (σ : Asg) (p : ℚ) :
    boxHas b σ i p ↔ cumOf b i σ ((b.nodeOf i).var.values.idxOf (σ i)) ≤ p ∧ p < cumOf b i σ ((b.nodeOf i).var.values.idxOf (σ i) + 1) := by
  obtain ⟨n, hn, rfl⟩ := mem_ids.1 h
  simp only [boxHas, find_node hi hn, InInterval, cumOf, gridRow, nodeOf_of_mem hi hn]

theorem gridWidth_eq (hi : BbnInv b) (hs : b.Samplable) (hM : 0 < M) {i : Int} (h : i ∈ b.ids) {σ : Asg} (hσ : InDom b.vars σ)
    (hx : σ i ∈ (b.nodeOf i).var.values) : gridWidth b M σ i =
      ((⌈cumOf b i σ ((b.nodeOf i).var.values.idxOf (σ i) + 1) * M⌉₊ : ℚ) - (⌈cumOf b i σ ((b.nodeOf i).var.values.idxOf (σ i)) * M⌉₊ : ℚ)) / M := by
  unfold gridWidth
  simp only [boxHas_iff hi h]
  have hlt := List.idxOf_lt_length_of_mem hx
  rw [grid_count hM (cumOf_mono hi hs h σ _) (cumOf_le_one hi hs h hσ (by omega))]

/-- the intervals of the values of a node and their shares of the grid -/
theorem widths_near (hi : BbnInv b) (hs : b.Samplable) (hM : 0 < M) {n : Variable} (hid : n.id ∈ b.ids) (hnode : (b.nodeOf n.id).var = n)
    (hnp : n.id ∉ ddGet b.parents n.id) {σ τ : Asg} (hτ : InDom b.vars τ) (hag : ∀ p ∈ ddGet b.parents n.id, σ p = τ p) :
    (n.values.map (fun x => widthOf b n.id (Function.update σ n.id x))).sum = 1 ∧
    (n.values.map (fun x => gridWidth b M (Function.update σ n.id x) n.id)).sum = 1 ∧
    (n.values.map (fun x => |widthOf b n.id (Function.update σ n.id x) - gridWidth b M (Function.update σ n.id x) n.id|)).sum ≤ (n.values.length : ℚ) / M := by
  have hM' : (0 : ℚ) < M := by exact_mod_cast hM
  have hupd : ∀ x p, p ∈ ddGet b.parents n.id → Function.update σ n.id x p = τ p := by
    intro x p hp
    have hpn : p ≠ n.id := fun e => hnp (e ▸ hp)
    rw [Function.update_of_ne hpn]
    exact hag p hp
  have ecum : ∀ x k, cumOf b n.id (Function.update σ n.id x) k = cumOf b n.id τ k := fun x k => cumOf_congr hi (hupd x) k
  have eA : ∀ x, widthOf b n.id (Function.update σ n.id x) = cumOf b n.id τ (n.values.idxOf x + 1) - cumOf b n.id τ (n.values.idxOf x) := by
    intro x
    unfold widthOf
    rw [ecum, ecum, Function.update_self, hnode]
  have eB : ∀ x ∈ n.values, gridWidth b M (Function.update σ n.id x) n.id =
      ((⌈cumOf b n.id τ (n.values.idxOf x + 1) * M⌉₊ : ℚ) - (⌈cumOf b n.id τ (n.values.idxOf x) * M⌉₊ : ℚ)) / M := by
    intro x hx
    unfold gridWidth
    simp only [boxHas_iff hi hid, ecum, Function.update_self, hnode]
    have hlt := List.idxOf_lt_length_of_mem hx
    rw [grid_count hM (cumOf_mono hi hs hid τ _) (cumOf_le_one hi hs hid hτ (by rw [hnode]; omega))]
  have hvn : n.values.Nodup := by
    have := hs.wf.values _ (nodeOf_mem_ids hi hid).1
    rw [hnode] at this
    exact this
  have hall := cumOf_all hi hs hid hτ
  rw [hnode] at hall
  refine ⟨?_, ?_, ?_⟩
  · simp only [eA]
    rw [map_idxOf hvn (fun k => cumOf b n.id τ (k + 1) - cumOf b n.id τ k), telescope, hall]
    simp [cumOf]
  · rw [List.map_congr_left eB, map_idxOf hvn (fun k => ((⌈cumOf b n.id τ (k + 1) * M⌉₊ : ℚ) - (⌈cumOf b n.id τ k * M⌉₊ : ℚ)) / M)]
    have : ∀ k : Nat, ((⌈cumOf b n.id τ (k + 1) * M⌉₊ : ℚ) - (⌈cumOf b n.id τ k * M⌉₊ : ℚ)) / M =
        (⌈cumOf b n.id τ (k + 1) * M⌉₊ : ℚ) / M - (⌈cumOf b n.id τ k * M⌉₊ : ℚ) / M := fun k => sub_div _ _ _
    simp only [this]
    rw [telescope (fun k => (⌈cumOf b n.id τ k * M⌉₊ : ℚ) / M), hall]
    simp [cumOf, hM'.ne']
  · have hone : ∀ x ∈ n.values, |widthOf b n.id (Function.update σ n.id x) - gridWidth b M (Function.update σ n.id x) n.id| ≤ 1 / M := by
      intro x hx
      rw [eA, eB x hx, le_div_iff₀ hM']
      have h := ceil_near (mul_nonneg (cumOf_nonneg hi hs hid τ (n.values.idxOf x)) hM'.le) (mul_nonneg (cumOf_nonneg hi hs hid τ (n.values.idxOf x + 1)) hM'.le)
      rw [abs_sub_comm] at h
      refine le_trans (le_of_eq ?_) h
      rw [← abs_of_pos hM', ← abs_mul, abs_of_pos hM']
      congr 1
      field_simp
    refine le_trans (sum_map_le hone) ?_
    rw [List.map_const', List.sum_replicate, nsmul_eq_mul]
    apply le_of_eq; ring

/-- the joint values are drawn from a distribution close to the one of the network -/
theorem network_near (hi : BbnInv b) (hs : b.Samplable) (hM : 0 < M) {order : List Int} (ht : b.Topological order) :
    ((allAsg b.vars).map (fun σ => |b.boxVolume b.sortedParentVars σ - (order.map (gridWidth b M σ)).prod|)).sum ≤
      ((b.vars.map (fun v => v.values.length)).sum : ℚ) / M := by
  have hM' : (0 : ℚ) < M := by exact_mod_cast hM
  have hord := nodup_order hi ht
  obtain ⟨vs, hvs⟩ : ∃ vs : List Variable, vs = order.reverse.map (fun i => (b.nodeOf i).var) := ⟨_, rfl⟩
  have hmem : ∀ i ∈ order, i ∈ b.ids := fun i h => ht.1.mem_iff.1 h
  have hvids : vids vs = order.reverse := by
    unfold vids
    rw [hvs, List.map_map]
    conv_rhs => rw [← List.map_id order.reverse]
    exact List.map_congr_left (fun i h => (nodeOf_mem_ids hi (hmem i (List.mem_reverse.1 h))).2)
  have hperm : b.vars.Perm vs := by
    have e : b.vars = b.ids.map (fun i => (b.nodeOf i).var) := by
      unfold Bbn.vars Bbn.ids
      rw [List.map_map]
      exact List.map_congr_left (fun n hn => by simp only [Function.comp, nodeOf_of_mem hi hn])
    rw [e, hvs]
    exact (ht.1.symm.trans (List.reverse_perm order).symm).map _
  have hvar : ∀ v ∈ vs, v.id ∈ b.ids ∧ (b.nodeOf v.id).var = v := by
    intro v hv
    rw [hvs] at hv
    obtain ⟨i, h, rfl⟩ := List.mem_map.1 hv
    have h1 := hmem i (List.mem_reverse.1 h)
    rw [(nodeOf_mem_ids hi h1).2]
    exact ⟨h1, rfl⟩
  have hnv : (vids vs).Nodup := by rw [hvids, List.nodup_reverse]; exact hord
  -- nodes that come later are no parents
  have hpar : vs.Pairwise (fun n v => n.id ∉ ddGet b.parents v.id ∧ n.id ≠ v.id) := by
    have h1 : (order.reverse).Pairwise (fun n v => n ∉ ddGet b.parents v ∧ n ≠ v) := by
      rw [List.pairwise_reverse]
      exact (topological_pairwise hi ht).and (hord.imp (fun h => h.symm))
    rw [← hvids] at h1
    unfold vids at h1
    rw [List.pairwise_map] at h1
    exact h1
  have hloc : ∀ {v : Variable} {σ : Asg} {j : Int} {x : Str}, v.id ∈ b.ids → j ∉ ddGet b.parents v.id → j ≠ v.id →
      widthOf b v.id (Function.update σ j x) = widthOf b v.id σ ∧ gridWidth b M (Function.update σ j x) v.id = gridWidth b M σ v.id := by
    intro v σ j x hv hj hne
    have e1 : ∀ k, cumOf b v.id (Function.update σ j x) k = cumOf b v.id σ k := by
      intro k
      refine cumOf_congr hi ?_ k
      intro p hp
      have hpj : p ≠ j := fun e => hj (e ▸ hp)
      rw [Function.update_of_ne hpj]
    have e2 : Function.update σ j x v.id = σ v.id := by rw [Function.update_of_ne hne.symm]
    refine ⟨by unfold widthOf; rw [e1, e1, e2], ?_⟩
    unfold gridWidth
    simp only [boxHas_iff hi hv, e1, e2]
  have key := products_near (A := fun v σ => widthOf b v.id σ) (B := fun v σ => gridWidth b M σ v.id) (δ := fun v => (v.values.length : ℚ) / M) vs hnv
    (hpar.imp_of_mem (fun hn hv h σ x => hloc (hvar _ hv).1 h.1 h.2))
    (by
      intro v hv σ
      refine ⟨?_, ?_⟩
      · unfold widthOf
        have := cumOf_mono hi hs (hvar v hv).1 σ ((b.nodeOf v.id).var.values.idxOf (σ v.id))
        linarith
      · unfold gridWidth
        exact div_nonneg (Finset.sum_nonneg (fun d _ => by split <;> norm_num)) hM'.le)
    (by
      intro n ns' hsuf σ hσ
      have hn : n ∈ vs := hsuf.subset List.mem_cons_self
      obtain ⟨hid, hnode⟩ := hvar n hn
      -- extend to all nodes
      obtain ⟨τ0, hτ0⟩ := inDom_exists hs.nonempty hi
      obtain ⟨τ, hτe⟩ : ∃ τ : Asg, τ = fun i => if i ∈ vids ns' then σ i else τ0 i := ⟨_, rfl⟩
      have hτ : InDom b.vars τ := by
        intro v hv
        rw [hτe]
        change (if v.id ∈ vids ns' then σ v.id else τ0 v.id) ∈ v.values
        by_cases hc : v.id ∈ vids ns'
        · rw [if_pos hc]
          obtain ⟨w, hw, e⟩ := List.mem_map.1 hc
          have hw' : w ∈ vs := hsuf.subset (List.mem_cons_of_mem _ hw)
          have : w = v := by
            rw [← (hvar w hw').2, ← (hvar v (hperm.mem_iff.1 hv)).2, e]
          rw [← this]
          exact hσ w hw
        · rw [if_neg hc]; exact hτ0 v hv
      have hnp : n.id ∉ ddGet b.parents n.id := topological_noLoop hi ht n.id
      have hsub : ∀ p ∈ ddGet b.parents n.id, p ∈ vids ns' := by
        intro p hp
        obtain ⟨pre, e⟩ := hsuf
        have hp1 : p ∈ vids vs := by rw [hvids, List.mem_reverse]; exact ht.1.mem_iff.2 (parent_mem_ids hi hp)
        rw [← e] at hp1
        unfold vids at hp1
        rw [List.map_append, List.mem_append, List.map_cons, List.mem_cons] at hp1
        rcases hp1 with h1 | h1 | h1
        · obtain ⟨w, hw, ew⟩ := List.mem_map.1 h1
          rw [← e, List.pairwise_append] at hpar
          exact absurd (by rw [ew]; exact hp) (hpar.2.2 w hw n List.mem_cons_self).1
        · exact absurd (h1 ▸ hp) hnp
        · exact h1
      have hag : ∀ p ∈ ddGet b.parents n.id, σ p = τ p := fun p hp => by
        rw [hτe]
        exact (if_pos (hsub p hp)).symm
      exact widths_near hi hs hM hid hnode hnp hτ hag)
  have eA : ∀ σ, (vs.map (fun v => widthOf b v.id σ)).prod = b.boxVolume b.sortedParentVars σ := by
    intro σ
    rw [← (hperm.map _).prod_eq]
    unfold Bbn.boxVolume Bbn.vars
    rw [List.map_map]
    refine congrArg List.prod (List.map_congr_left (fun n hn => ?_))
    simp only [Function.comp, widthOf, cumOf, gridRow, nodeOf_of_mem hi hn]
  have eB : ∀ σ, (vs.map (fun v => gridWidth b M σ v.id)).prod = (order.map (gridWidth b M σ)).prod := by
    intro σ
    have : vs.map (fun v => gridWidth b M σ v.id) = (vids vs).map (gridWidth b M σ) := by unfold vids; rw [List.map_map]; rfl
    rw [this, hvids]
    exact ((List.reverse_perm order).map _).prod_eq
  have h2 := key.2
  simp only [eA, eB] at h2
  rw [← sum_allAsg_perm (vars_nodup hi) hperm] at h2
  refine le_trans h2 (le_of_eq ?_)
  have e3 : (vs.map (fun v => (v.values.length : ℚ) / M)).sum = (vs.map (fun v => (v.values.length : ℚ))).sum / M := by
    simp only [div_eq_mul_inv]
    rw [List.sum_map_mul_right]
  rw [e3, ← (hperm.map _).sum_eq]

end PyBBN
