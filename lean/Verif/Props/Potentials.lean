import Verif.Spec.Graph
import Verif.Props.Graphs
import Verif.Proofs.NetInit

/-!
# Potentials (C09 – C11)
-/

namespace PyBBN

/-! helpers relating the reading of a potential to tables -/

theorem tab_over {ns : List Variable} (hn : (vids ns).Nodup) (f : Asg → ℚ) : Potential.Over (tab ns f) ns := by
  unfold Potential.Over
  rw [fromNodes_eq_tab hn]
  simp [tab, Function.comp_def]

theorem reads_row {ns : List Variable} (hn : (vids ns).Nodup) {vals : List Str}
    (hv : vals ∈ product (ns.map Variable.values)) (a : ℚ) (σ : Asg) :
    PEntry.Reads ⟨(vids ns).zip vals, a⟩ ns σ ↔ vals = (vids ns).map σ := by
  unfold PEntry.Reads
  have hl := product_length hv
  constructor
  · intro h
    rw [vals_eq_map asg0 (vids ns) vals hn hl]
    apply List.map_congr_left
    intro i hi
    obtain ⟨v, hv', rfl⟩ := List.mem_map.1 hi
    have := h v hv'
    simp only at this
    rw [get?_zip_over asg0 (vids ns) vals hn hl v.id hi] at this
    exact Option.some.inj this
  · rintro rfl v hv'
    have hi : v.id ∈ vids ns := List.mem_map_of_mem hv'
    simp only
    rw [get?_zip_over asg0 (vids ns) _ hn hl v.id hi, over_map_self asg0 σ _ hn v.id hi]

theorem at_tab {ns : List Variable} (hn : (vids ns).Nodup) {f : Asg → ℚ} (hf : Dep (fun i => i ∈ vids ns) f)
    {σ : Asg} (hσ : InDom ns σ) : Potential.at (tab ns f) ns σ = some (f σ) := by
  unfold Potential.at
  have hm : (vids ns).map σ ∈ product (ns.map Variable.values) := map_mem_product σ ns hσ
  have hmem : (⟨(vids ns).zip ((vids ns).map σ), f (over asg0 (vids ns) ((vids ns).map σ))⟩ : PEntry) ∈ tab ns f :=
    List.mem_map.2 ⟨_, hm, rfl⟩
  cases h : (tab ns f).find? (fun e => decide (e.Reads ns σ)) with
  | none =>
    have := List.find?_eq_none.1 h _ hmem
    simp only [decide_eq_true_eq] at this
    exact absurd ((reads_row hn hm _ σ).2 rfl) this
  | some e =>
    have he := List.mem_of_find?_eq_some h
    have hr := List.find?_some h
    simp only [decide_eq_true_eq] at hr
    obtain ⟨vals, hv, rfl⟩ := List.mem_map.1 he
    rw [reads_row hn hv] at hr
    subst hr
    simp only [Option.map_some, Option.some.injEq]
    exact hf _ _ (fun i hi => over_map_self asg0 σ (vids ns) hn i hi)

/-! ## C09 -/

/-- **C09**. `get_potential_from_nodes` returns one entry per combination of values: as many entries as combinations, no
two equal, each with value 1 and listing a value for exactly the given nodes; the combination `σ` is found at its
row-major position and in no other entry. -/
theorem c09_potential_rows (ns : List Variable) (hn : (ns.map Variable.id).Nodup)
    (hD : ∀ v ∈ ns, v.values.Nodup) :
    (PotentialUtil.fromNodes ns).length = (ns.map (fun v => v.values.length)).prod ∧
    (PotentialUtil.fromNodes ns).Nodup ∧
    (∀ e ∈ PotentialUtil.fromNodes ns, e.value = 1 ∧ Dict.keys e.entries = ns.map Variable.id ∧
      ∀ v ∈ ns, ∃ x ∈ v.values, Dict.get? e.entries v.id = some x) ∧
    (∀ σ, InDom ns σ → ∃ e, (PotentialUtil.fromNodes ns)[rowIdx ns σ]? = some e ∧ e.Reads ns σ ∧
      ∀ e' ∈ PotentialUtil.fromNodes ns, e'.Reads ns σ → e' = e) := by
  have hn' : (vids ns).Nodup := hn
  rw [fromNodes_eq_tab hn']
  refine ⟨?_, ?_, ?_, ?_⟩
  · unfold tab; rw [List.length_map, product_vars_length]; rfl
  · unfold tab
    refine List.Nodup.map_on ?_ (nodup_product _ (by
      intro l hl; obtain ⟨v, hv, rfl⟩ := List.mem_map.1 hl; exact hD v hv))
    intro x hx y hy hxy
    simp only [PEntry.mk.injEq, and_true] at hxy
    have := congrArg (List.map Prod.snd) hxy
    rw [List.map_snd_zip (le_of_eq (product_length hx).symm), List.map_snd_zip (le_of_eq (product_length hy).symm)] at this
    exact this
  · intro e he
    obtain ⟨vals, hv, rfl⟩ := List.mem_map.1 he
    refine ⟨rfl, ?_, ?_⟩
    · unfold Dict.keys
      simp only
      rw [List.map_fst_zip (le_of_eq (product_length hv))]
    · intro v hvm
      exact ⟨_, over_mem_dom asg0 ns vals hn' hv v hvm,
        get?_zip_over asg0 (vids ns) vals hn' (product_length hv) v.id (List.mem_map_of_mem hvm)⟩
  · intro σ hσ
    have hm := map_mem_product σ ns hσ
    refine ⟨⟨(vids ns).zip ((vids ns).map σ), 1⟩, ?_, (reads_row hn' hm 1 σ).2 rfl, ?_⟩
    · unfold tab
      rw [List.getElem?_map, product_rowIdx σ ns hσ]
      rfl
    · intro e' he' hr
      obtain ⟨vals, hv, rfl⟩ := List.mem_map.1 he'
      rw [reads_row hn' hv] at hr
      subst hr
      rfl

/-- two variables used in the examples: three and two values -/
def pv0 : Variable := ⟨0, "a".toList, ["x".toList, "y".toList, "z".toList]⟩
def pv1 : Variable := ⟨1, "b".toList, ["on".toList, "off".toList]⟩

/-- C09 is not vacuous: two nodes with six joint values; (z, on) sits at position 4 -/
example : ([pv0, pv1].map Variable.id).Nodup ∧ (∀ v ∈ [pv0, pv1], v.values.Nodup) ∧
    (PotentialUtil.fromNodes [pv0, pv1]).length = 6 ∧
    rowIdx [pv0, pv1] (fun i => if i = 0 then "z".toList else "on".toList) = 4 := by decide +kernel

example := c09_potential_rows [pv0, pv1] (by decide +kernel) (by decide +kernel)

/-! ## C10 -/

/-- **C10** (one node). With enough probabilities, the local table gives every combination `σ` of parent and node values
the probability at the mixed-radix position of `σ`; with too few, `IndexError` is raised. -/
theorem c10_cpt_row_major (v : Variable) (probs : List ℚ) (parents : List Variable)
    (hn : ((parents ++ [v]).map Variable.id).Nodup) (hD : ∀ u ∈ parents ++ [v], u.values.Nodup) :
    (((parents ++ [v]).map (fun u => u.values.length)).prod ≤ probs.length →
      ∃ P, PotentialUtil.getPotential v probs parents = .ok P ∧ P.Over (parents ++ [v]) ∧
        ∀ σ, InDom (parents ++ [v]) σ →
          P.at (parents ++ [v]) σ = probs[rowIdx parents σ * v.values.length + v.values.idxOf (σ v.id)]?) ∧
    (probs.length < ((parents ++ [v]).map (fun u => u.values.length)).prod →
      PotentialUtil.getPotential v probs parents = .error .indexError) := by
  refine ⟨fun hlen => ⟨_, getPotential_ok hn hD hlen, tab_over hn _, ?_⟩, fun h => getPotential_short h⟩
  intro σ hσ
  rw [at_tab hn _ hσ]
  · unfold cptAt
    have hlt : cptIndex parents v σ < probs.length := by
      rw [cptIndex_eq]
      exact lt_of_lt_of_le (rowIdx_lt σ _ hσ) hlen
    change some (probs.getD (cptIndex parents v σ) 0) = probs[cptIndex parents v σ]?
    rw [List.getElem?_eq_getElem hlt]
    simp [List.getElem?_eq_getElem hlt]
  · intro σ τ h
    unfold cptAt
    have : cptIndex parents v σ = cptIndex parents v τ := by
      rw [cptIndex_eq, cptIndex_eq]
      unfold rowIdx
      apply List.foldl_ext
      intro a u hu
      rw [h u.id (List.mem_map_of_mem hu)]
    rw [this]

/-- C10 is not vacuous: one ternary parent, binary node, six probabilities -/
example : (([pv0] ++ [pv1]).map Variable.id).Nodup ∧ (([pv0] ++ [pv1]).map (fun u => u.values.length)).prod = 6 ∧
    (PotentialUtil.getPotential pv1 [1/10, 9/10, 2/10, 8/10, 3/10, 7/10] [pv0]).val?.bind
      (fun P => P.at [pv0, pv1] (fun i => if i = 0 then "y".toList else "off".toList)) = some (8/10) ∧
    (PotentialUtil.getPotential pv1 [1/10, 9/10, 2/10] [pv0]).err? = some .indexError := by decide +kernel

example := (c10_cpt_row_major pv1 [1/10, 9/10, 2/10, 8/10, 3/10, 7/10] [pv0] (by decide +kernel) (by decide +kernel)).1 (by decide +kernel)
example := (c10_cpt_row_major pv1 [1/10, 9/10, 2/10] [pv0] (by decide +kernel) (by decide +kernel)).2 (by decide +kernel)

/-- **C10** (network). For every network built by node and edge insertions, the first stage of `apply` gives each node the
table just described, its parents taken in the order of their first edge. -/
theorem c10_network_tables (ops : List BOp) (wf : (Bbn.run ops).WF) :
    ∃ heap, potentialInit (Bbn.run ops) (InferenceController.initialHeap (Bbn.run ops) []) = .ok heap ∧
      ∀ n ∈ (Bbn.run ops).toGraph.getNodes, ∃ o P, Dict.get? heap n.var.id = some o ∧ o.potential = some P ∧
        (((Bbn.run ops).parentVars n.var.id).map Variable.id =
          firsts (((BOp.edges ops).filter (fun pc => decide (pc.2 = n.var.id))).map Prod.fst)) ∧
        ∀ σ, InDom ((Bbn.run ops).parentVars n.var.id ++ [n.var]) σ →
          P.at ((Bbn.run ops).parentVars n.var.id ++ [n.var]) σ =
            n.probs[rowIdx ((Bbn.run ops).parentVars n.var.id) σ * n.var.values.length
              + n.var.values.idxOf (σ n.var.id)]? := by
  have h := bbn_run_inv ops
  obtain ⟨heap, h1, _, h3⟩ := potentialInit_spec h wf (InferenceController.initialHeap (Bbn.run ops) [])
    (fun n hn => by rw [initialHeap_keys h]; exact List.mem_map_of_mem hn)
  refine ⟨heap, h1, ?_⟩
  intro n hn
  have hv : n.var ∈ (Bbn.run ops).vars := List.mem_map_of_mem hn
  have hfam := family_nodup h wf n.var
  have hD : ∀ u ∈ (Bbn.run ops).parentVars n.var.id ++ [n.var], u.values.Nodup :=
    fun u hu => values_nodup wf (family_sub h hv u hu)
  obtain ⟨P, hP, _, hat⟩ := (c10_cpt_row_major n.var n.probs ((Bbn.run ops).parentVars n.var.id) hfam hD).1 (wf.cpt n hn)
  rw [local_ok h wf hn] at hP
  refine ⟨_, P, by rw [h3 n hn, initialHeap_get h [] hn]; rfl, by simp only; rw [Except.ok.inj hP], ?_, hat⟩
  rw [← (c07_parents_first_insertion ops n.var.id).1]
  exact vids_parentVars h n.var.id

/-- a network used in the examples: 0 → 1 ← 2, the edge from 2 inserted first -/
def exNodes : List BbnNode :=
  [⟨⟨0, "a".toList, ["x".toList, "y".toList]⟩, [1/4, 3/4]⟩,
   ⟨⟨1, "b".toList, ["on".toList, "off".toList]⟩, [1/10, 9/10, 2/10, 8/10, 3/10, 7/10, 4/10, 6/10]⟩,
   ⟨⟨2, "c".toList, ["u".toList, "v".toList]⟩, [1/2, 1/2]⟩]

def exOps : List BOp :=
  match exNodes with
  | [a, b, c] => [.addNode a, .addEdge c b, .addEdge a b]
  | _ => []

/-- a checkable form of the network conditions (for examples) -/
theorem wf_of_check {b : Bbn} (h1 : ∀ kv ∈ b.parents, kv.1 ∉ kv.2)
    (h2 : ∀ n ∈ b.toGraph.getNodes, n.var.values.Nodup ∧
      ((b.parentVars n.var.id ++ [n.var]).map (fun v => v.values.length)).prod ≤ n.probs.length ∧
      ∀ p ∈ n.probs, 0 ≤ p) : b.WF := by
  refine ⟨?_, fun n hn => (h2 n hn).1, fun n hn => (h2 n hn).2.1, fun n hn => (h2 n hn).2.2⟩
  intro id hid
  unfold ddGet at hid
  cases h : Dict.get? b.parents id with
  | none => rw [h] at hid; simp at hid
  | some l =>
    rw [h] at hid
    exact h1 _ (Dict.mem_of_get? h) hid

theorem exOps_wf : (Bbn.run exOps).WF := wf_of_check (by decide +kernel) (by decide +kernel)

/-- C10 (network) is not vacuous: parents of 1 are [2, 0]; the local table reads P(off | c=v, a=x) at position 5 -/
example : (Bbn.run exOps).WF ∧ ((Bbn.run exOps).parentVars 1).map Variable.id = [2, 0] ∧
    ((potentialInit (Bbn.run exOps) (InferenceController.initialHeap (Bbn.run exOps) [])).val?.bind
      (fun h => (Dict.get? h 1).bind (fun o => o.potential.bind (fun P => P.at ((Bbn.run exOps).parentVars 1 ++
        [⟨1, "b".toList, ["on".toList, "off".toList]⟩])
          (fun i => if i = 0 then "x".toList else if i = 1 then "off".toList else "v".toList))))) = some (7/10) :=
  ⟨exOps_wf, by decide +kernel, by decide +kernel⟩

example := c10_network_tables exOps exOps_wf

/-! ## C11 -/

/-- **C11** (multiply). -/
theorem c11_multiply (cs ns : List Variable) (P Q : Potential)
    (hcs : (cs.map Variable.id).Nodup) (hns : (ns.map Variable.id).Nodup) (hsub : ∀ v ∈ ns, v ∈ cs)
    (hD : ∀ v ∈ cs, v.values.Nodup) (hP : P.Over cs) (hQ : Q.Over ns) :
    (PotentialUtil.multiply P Q).Over cs ∧
    ∀ σ, InDom cs σ → ∃ p q, P.at cs σ = some p ∧ Q.at ns σ = some q ∧
      (PotentialUtil.multiply P Q).at cs σ = some (p * q) := by
  obtain ⟨f, hf, rfl⟩ := exists_tab hcs hD hP
  obtain ⟨g, hg, rfl⟩ := exists_tab hns (fun v hv => hD v (hsub v hv)) hQ
  rw [multiply_tab hcs hns hsub (fun v hv => hD v (hsub v hv)) hg]
  refine ⟨tab_over hcs _, fun σ hσ => ⟨f σ, g σ, at_tab hcs hf hσ, at_tab hns hg (fun v hv => hσ v (hsub v hv)), ?_⟩⟩
  refine at_tab hcs ?_ hσ
  refine hf.mul (hg.mono ?_)
  intro i hi
  obtain ⟨v, hv, rfl⟩ := List.mem_map.1 hi
  exact List.mem_map_of_mem (hsub v hv)

/-- **C11** (marginalize). Each entry of the result is the sum of the values over all joint assignments of the clique's
variables that agree with it. -/
theorem c11_marginalize (cs ns : List Variable) (P : Potential)
    (hcs : (cs.map Variable.id).Nodup) (hns : (ns.map Variable.id).Nodup) (hsub : ∀ v ∈ ns, v ∈ cs)
    (hD : ∀ v ∈ cs, v.values.Nodup) (hP : P.Over cs) :
    (PotentialUtil.marginalize P ns).Over ns ∧
    ∀ σ, InDom ns σ → (PotentialUtil.marginalize P ns).at ns σ =
      some (((allAsg cs).filter (fun τ => decide (∀ v ∈ ns, τ v.id = σ v.id))).map
        (fun τ => (P.at cs τ).getD 0)).sum := by
  obtain ⟨f, hf, rfl⟩ := exists_tab hcs hD hP
  have hdom := domOf_ok hcs
  have hidsub : ∀ i ∈ vids ns, i ∈ vids cs := by
    intro i hi
    obtain ⟨v, hv, rfl⟩ := List.mem_map.1 hi
    exact List.mem_map_of_mem (hsub v hv)
  have hm := marginalize_tab hcs hns hdom (hdom.sub hsub) hidsub (domOf_nodup hD) hf
  refine ⟨by rw [hm]; exact tab_over hns _, ?_⟩
  intro σ hσ
  rw [hm, at_tab hns _ hσ]
  · congr 1
    have e : ((allAsg cs).filter (fun τ => decide (∀ v ∈ ns, τ v.id = σ v.id))).map
        (fun τ => ((tab cs f).at cs τ).getD 0) =
        ((allAsg cs).filter (fun τ => decide (∀ v ∈ ns, τ v.id = σ v.id))).map f := by
      apply List.map_congr_left
      intro τ hτ
      rw [at_tab hcs hf (allAsg_mem_dom cs hcs τ (List.mem_filter.1 hτ).1)]
      rfl
    rw [e, sum_filter_map]
    have e2 : (allAsg cs).map (fun a => if decide (∀ v ∈ ns, a v.id = σ v.id) = true then f a else 0) =
        (allAsg cs).map (fun a => ind (vids ns) σ a * f a) := by
      apply List.map_congr_left
      intro τ _
      unfold ind
      have : (∀ v ∈ ns, τ v.id = σ v.id) ↔ (∀ i ∈ vids ns, τ i = σ i) := by simp [vids]
      by_cases h : ∀ i ∈ vids ns, τ i = σ i
      · rw [if_pos h, if_pos (by simpa using this.2 h), one_mul]
      · rw [if_neg h, if_neg (by simpa using fun h' => h (this.1 h')), zero_mul]
    rw [e2, sum_allAsg cs hcs hdom]
    have hperm : elim (domOf cs) (vids cs) (fun τ => ind (vids ns) σ τ * f τ) =
        elim (domOf cs) (vids ns ++ (vids cs).filter (fun i => decide (i ∉ vids ns)))
          (fun τ => ind (vids ns) σ τ * f τ) := by
      apply elim_congr_mem hcs
      · refine List.Nodup.append hns (List.Nodup.filter _ hcs) ?_
        intro a ha hb
        simp only [List.mem_filter, decide_eq_true_eq] at hb
        exact hb.2 ha
      · intro x
        simp only [List.mem_append, List.mem_filter, decide_eq_true_eq]
        constructor
        · intro hx
          by_cases h : x ∈ vids ns
          · exact Or.inl h
          · exact Or.inr ⟨hx, h⟩
        · rintro (h | h)
          · exact hidsub x h
          · exact h.1
    rw [hperm, elim_append, elim_mul_left (ind_dep _ _) (by
      intro i hi; simp only [List.mem_filter, decide_eq_true_eq] at hi; exact hi.2)]
    symm
    refine elim_ind σ (domOf_nodup hD) (vids ns) hns ?_ asg0 (hf.elim _) ?_
    · intro i hi
      obtain ⟨v, hv, rfl⟩ := List.mem_map.1 hi
      rw [hdom v (hsub v hv)]
      exact hσ v hv
    · intro i hi hni
      exfalso
      apply hi.2
      simp only [List.mem_filter, decide_eq_true_eq]
      exact ⟨hi.1, hni⟩
  · refine (hf.elim _).mono ?_
    rintro i ⟨h1, h2⟩
    by_contra h3
    apply h2
    simp only [List.mem_filter, decide_eq_true_eq]
    exact ⟨h1, h3⟩

/-- **C11** (divide). Over the same variables the division is pointwise, with 0 as soon as one operand is 0; if the
denominator has fewer entries `IndexError` is raised. -/
theorem c11_divide (ns : List Variable) (P Q : Potential) :
    ((ns.map Variable.id).Nodup → (∀ v ∈ ns, v.values.Nodup) → P.Over ns → Q.Over ns →
      ∃ R, PotentialUtil.divide P Q = .ok R ∧ R.Over ns ∧
        ∀ σ, InDom ns σ → ∃ p q, P.at ns σ = some p ∧ Q.at ns σ = some q ∧
          R.at ns σ = some (if p = 0 ∨ q = 0 then 0 else p / q)) ∧
    (Q.length < P.length → PotentialUtil.divide P Q = .error .indexError) := by
  constructor
  · intro hn hD hP hQ
    obtain ⟨f, hf, rfl⟩ := exists_tab hn hD hP
    obtain ⟨g, hg, rfl⟩ := exists_tab hn hD hQ
    refine ⟨_, divide_tab ns f g, tab_over hn _, fun σ hσ => ⟨f σ, g σ, at_tab hn hf hσ, at_tab hn hg hσ, ?_⟩⟩
    rw [at_tab hn (hf.div hg) hσ]
    by_cases h1 : f σ = 0
    · simp [h1]
    · by_cases h2 : g σ = 0
      · simp [h2]
      · simp [h1, h2]
  · intro hlt
    unfold PotentialUtil.divide
    apply mapM_error
    · rintro ⟨e, i⟩ _
      cases h : Q[i]? with
      | none => left; simp
      | some p =>
        right
        simp only [quotient_eq]
        exact ⟨_, rfl⟩
    · refine ⟨(P[Q.length], Q.length), ?_, ?_⟩
      · rw [List.mem_zipIdx_iff_getElem?]
        exact List.getElem?_eq_getElem hlt
      · simp

/-- **C11** (normalize). Keys never change; with a non-zero total every value is divided by it, so that the values sum to
1; with total zero nothing changes. -/
theorem c11_normalize (P : Potential) :
    ∃ R, PotentialUtil.normalize P = .ok R ∧ R.map PEntry.entries = P.map PEntry.entries ∧
    ((P.map PEntry.value).sum ≠ 0 →
      (R.map PEntry.value).sum = 1 ∧
      R.map PEntry.value = P.map (fun e => e.value / (P.map PEntry.value).sum)) ∧
    ((P.map PEntry.value).sum = 0 → R = P) := by
  refine ⟨_, normalize_eq P, ?_⟩
  by_cases h : (P.map PEntry.value).sum = 0
  · simp [h]
  · simp only [h, ne_eq, not_false_eq_true, if_true, List.map_map, false_implies, and_true, true_implies]
    refine ⟨rfl, ?_, rfl⟩
    have : P.map (PEntry.value ∘ fun e => { e with value := e.value / (P.map PEntry.value).sum }) =
        P.map (fun e => e.value * (P.map PEntry.value).sum⁻¹) := by
      apply List.map_congr_left
      intro e _
      simp [div_eq_mul_inv]
    rw [this, List.sum_map_mul_right]
    exact mul_inv_cancel₀ h

/-- a table over (a, b), and one over b with a zero entry -/
def c11_P : Potential := (PotentialUtil.fromNodes [pv0, pv1]).zipIdx.map (fun ei => { ei.1 with value := (ei.2 : ℚ) })
def c11_Q : Potential := (PotentialUtil.fromNodes [pv1]).zipIdx.map (fun ei => { ei.1 with value := if ei.2 = 0 then 1/2 else 0 })

theorem c11_P_over : c11_P.Over [pv0, pv1] := by unfold Potential.Over; decide +kernel
theorem c11_Q_over : c11_Q.Over [pv1] := by unfold Potential.Over; decide +kernel

example := c11_multiply [pv0, pv1] [pv1] c11_P c11_Q (by decide +kernel) (by decide +kernel) (by decide +kernel) (by decide +kernel)
  c11_P_over c11_Q_over
example := c11_marginalize [pv0, pv1] [pv1] c11_P (by decide +kernel) (by decide +kernel) (by decide +kernel) (by decide +kernel)
  c11_P_over
example := (c11_divide [pv1] c11_Q c11_Q).1 (by decide +kernel) (by decide +kernel) c11_Q_over c11_Q_over
example := (c11_divide [pv1] c11_P c11_Q).2 (by decide +kernel)
example := c11_normalize c11_P

/-- C11 is not vacuous: what is computed for these tables -/
example : ∃ P Q : Potential, P.Over [pv0, pv1] ∧ Q.Over [pv1] ∧
    (P.map PEntry.value) = [0, 1, 2, 3, 4, 5] ∧ (Q.map PEntry.value) = [1/2, 0] ∧
    (PotentialUtil.multiply P Q).map PEntry.value = [0, 0, 1, 0, 2, 0] ∧
    (PotentialUtil.marginalize P [pv1]).map PEntry.value = [6, 9] ∧
    ((PotentialUtil.divide (PotentialUtil.marginalize P [pv1]) Q).val?.map (fun R => R.map PEntry.value)) = some [12, 0] ∧
    (PotentialUtil.divide P Q).err? = some .indexError ∧
    (PotentialUtil.normalize P).val?.map (fun R => R.map PEntry.value) = some [0, 1/15, 2/15, 3/15, 4/15, 5/15] := by
  refine ⟨c11_P, c11_Q, ?_⟩
  unfold Potential.Over
  decide +kernel

end PyBBN
