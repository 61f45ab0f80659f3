import Verif.Proofs.PotDict
import Verif.Props.Evidence

/-! # Potentials as dictionaries: C67 -/

namespace PyBBN
open Relation InferenceController

/-- two rows give the same values to the same ids -/
def PEntry.Agree (e f : PEntry) : Prop := ∀ i, Dict.get? e.entries i = Dict.get? f.entries i

/-- a row as the code builds it: a dictionary, no value contains a bar -/
structure PEntry.Plain (e : PEntry) : Prop where
  nodup : (Dict.keys e.entries).Nodup
  bar : ∀ kv ∈ e.entries, '|' ∉ kv.2

/-- the documented key: `id=value`, ids ascending, separated by bars -/
def barKey (ids : List Int) (σ : Asg) : Str := joinStr "|".toList ((sortInts ids).map (fun i => strInt i ++ "=".toList ++ σ i))

/-- **C67**, keys: the order in which a row was filled never matters, and without bars in the values two rows have the same key only
if they give the same values to the same ids. -/
theorem c67_key {e f : PEntry} (he : (Dict.keys e.entries).Nodup) (hf : (Dict.keys f.entries).Nodup) :
    (e.Agree f → e.getKv.1 = f.getKv.1) ∧ (e.Plain → f.Plain → e.getKv.1 = f.getKv.1 → e.Agree f) := by
  constructor
  · intro h
    rw [getKv_fst, getKv_fst, getEntryKeys_congr he (perm_of_get? he hf h)]
  · intro h1 h2 h i
    rw [getKv_fst, getKv_fst] at h
    have := barText_inj (fun p hp => h1.bar p ((getEntryKeys_perm e).mem_iff.1 hp))
      (fun p hp => h2.bar p ((getEntryKeys_perm f).mem_iff.1 hp)) h
    refine get?_perm he ?_ i
    exact (getEntryKeys_perm e).symm.trans (this ▸ getEntryKeys_perm f)

/-- **C67**, partial: when no value contains a bar and no two rows agree, `to_dict` has exactly one item per row, and every row's
value is found under its key. Missing: values with bars, for which the claim fails (`c67_false`). -/
theorem c67_to_dict_partial {ps : List Potential} (hp : ∀ p ∈ ps, ∀ e ∈ p, e.Plain) (hd : ps.flatten.Pairwise (fun e f => ¬ e.Agree f)) :
    (Potential.toDict ps).length = ps.flatten.length ∧
      ∀ p ∈ ps, ∀ e ∈ p, Dict.get? (Potential.toDict ps) e.getKv.1 = some e.value := by
  have hm : (ps.flatMap (fun p => p.map PEntry.getKv)).map Prod.fst = ps.flatten.map (fun e => e.getKv.1) := by
    rw [List.flatMap_def, ← List.map_flatten (f := PEntry.getKv), List.map_map]; rfl
  have hn : (ps.flatten.map (fun e => e.getKv.1)).Nodup := by
    rw [List.Nodup, List.pairwise_map]
    refine hd.imp_of_mem ?_
    intro e f he hf h heq
    obtain ⟨p, hp1, hp2⟩ := List.mem_flatten.1 he
    obtain ⟨q, hq1, hq2⟩ := List.mem_flatten.1 hf
    have h1 := hp p hp1 e hp2
    have h2 := hp q hq1 f hq2
    exact h ((c67_key h1.nodup h2.nodup).2 h1 h2 heq)
  rw [← hm] at hn
  obtain ⟨a, b⟩ := toDict_get hn
  exact ⟨by rw [a, List.length_flatten], b⟩

theorem sorted_zip {ids : List Int} (hn : ids.Nodup) (σ : Asg) (a : ℚ) :
    PEntry.getEntryKeys ⟨ids.zip (ids.map σ), a⟩ = (sortInts ids).map (fun i => (i, σ i)) := by
  have e1 : ids.zip (ids.map σ) = ids.map (fun i => (i, σ i)) := by
    clear hn
    induction ids with
    | nil => rfl
    | cons i l ih => simp [ih]
  unfold PEntry.getEntryKeys
  simp only [e1]
  exact sortBy_map (le := fun a b : Int => decide (a ≤ b)) ids (fun _ _ _ _ => rfl)

/-- the rows of a table over `ns` -/
theorem over_rows {P : Potential} {ns : List Variable} (hn : (vids ns).Nodup) (hP : P.Over ns) :
    P.map PEntry.entries = (product (ns.map Variable.values)).map (fun vals => (vids ns).zip vals) := by
  rw [hP, fromNodes_eq_tab hn, tab, List.map_map]; rfl

theorem plain_zip {ns : List Variable} (hn : (vids ns).Nodup) (hb : ∀ v ∈ ns, ∀ x ∈ v.values, '|' ∉ x) {vals : List Str}
    (hv : vals ∈ product (ns.map Variable.values)) {a : ℚ} : PEntry.Plain ⟨(vids ns).zip vals, a⟩ := by
  have hl := product_length hv
  constructor
  · show (Dict.keys ((vids ns).zip vals)).Nodup
    unfold Dict.keys
    rw [List.map_fst_zip (by omega)]
    exact hn
  · intro kv hk
    obtain ⟨i, x⟩ := kv
    show '|' ∉ x
    obtain ⟨v, hv', rfl⟩ := List.mem_map.1 (List.of_mem_zip hk).1
    have h1 := get?_zip_over asg0 (vids ns) vals hn hl v.id (List.mem_map_of_mem hv')
    have hk' : (Dict.keys ((vids ns).zip vals)).Nodup := by
      unfold Dict.keys
      rw [List.map_fst_zip (by omega)]
      exact hn
    rw [Dict.get?_of_mem hk' hk] at h1
    have h2 := over_mem_dom asg0 ns vals hn hv v hv'
    rw [← Option.some.inj h1] at h2
    exact hb v hv' x h2

/-- the table of a clique as a dictionary: one item per row, and the item of the joint value `σ` is the value of the table there -/
theorem toDict_over {P : Potential} {ns : List Variable} (hn : (vids ns).Nodup) (hval : ∀ v ∈ ns, v.values.Nodup)
    (hb : ∀ v ∈ ns, ∀ x ∈ v.values, '|' ∉ x) (hP : P.Over ns) :
    (Potential.toDict [P]).length = (ns.map (fun v => v.values.length)).prod ∧
      ∀ σ, InDom ns σ → (P.at ns σ).isSome ∧ Dict.get? (Potential.toDict [P]) (barKey (vids ns) σ) = P.at ns σ := by
  have hrows := over_rows hn hP
  have hplain : ∀ e ∈ P, e.Plain := by
    intro e he
    have := List.mem_map_of_mem (f := PEntry.entries) he
    rw [hrows] at this
    obtain ⟨vals, hv, hz⟩ := List.mem_map.1 this
    obtain ⟨en, a⟩ := e
    simp only at hz
    subst hz
    exact plain_zip hn hb hv
  have hdis : P.Pairwise (fun e f => ¬ e.Agree f) := by
    have hnd : (P.map PEntry.entries).Pairwise (fun d d' => ¬ ∀ i, Dict.get? d i = Dict.get? d' i) := by
      rw [hrows, List.pairwise_map]
      have := nodup_product (ns.map Variable.values) (by simpa using hval)
      refine List.Pairwise.imp_of_mem ?_ this
      intro vals vals' hv hv' hne h
      apply hne
      have hl := product_length hv
      have hl' := product_length hv'
      rw [vals_eq_map asg0 (vids ns) vals hn hl, vals_eq_map asg0 (vids ns) vals' hn hl']
      apply List.map_congr_left
      intro i hi
      have := h i
      rw [get?_zip_over asg0 _ _ hn hl i hi, get?_zip_over asg0 _ _ hn hl' i hi] at this
      exact Option.some.inj this
    rw [List.pairwise_map] at hnd
    exact hnd
  obtain ⟨h1, h2⟩ := c67_to_dict_partial (ps := [P]) (by simpa using hplain) (by simpa using hdis)
  constructor
  · have hl : P.length = (product (ns.map Variable.values)).length := by
      have := congrArg List.length hrows
      simpa using this
    rw [h1]
    simp only [List.flatten_cons, List.flatten_nil, List.append_nil]
    rw [hl, product_length_eq, List.map_map]; rfl
  · intro σ hσ
    have hm := map_mem_product σ ns hσ
    have : (vids ns).zip ((vids ns).map σ) ∈ P.map PEntry.entries := by
      rw [hrows]; exact List.mem_map_of_mem (f := fun vals => (vids ns).zip vals) hm
    obtain ⟨e0, he0, hz0⟩ := List.mem_map.1 this
    unfold Potential.at
    cases hf : P.find? (fun e => decide (e.Reads ns σ)) with
    | none =>
      have := List.find?_eq_none.1 hf e0 he0
      simp only [decide_eq_true_eq] at this
      exact absurd ((reads_row hn hm e0.value σ).2 rfl) (by
        obtain ⟨en, a⟩ := e0
        simp only at hz0
        subst hz0
        exact this)
    | some e =>
      refine ⟨rfl, ?_⟩
      have he := List.mem_of_find?_eq_some hf
      have hr := List.find?_some hf
      simp only [decide_eq_true_eq] at hr
      have hmem := List.mem_map_of_mem (f := PEntry.entries) he
      rw [hrows] at hmem
      obtain ⟨vals, hv, hz⟩ := List.mem_map.1 hmem
      obtain ⟨en, a⟩ := e
      simp only at hz
      subst hz
      rw [reads_row hn hv] at hr
      subst hr
      have hkey : (PEntry.getKv ⟨(vids ns).zip ((vids ns).map σ), a⟩).1 = barKey (vids ns) σ := by
        rw [getKv_fst, sorted_zip hn, barText, List.map_map]; rfl
      rw [← hkey]
      exact h2 P (by simp) _ he

/-- **C67** for clique and separation-set tables, partial: after any evidence history on a connected network without bars in its
values, `to_dict([potential])` of a clique or separation set has one item per joint value of its nodes, and
`to_dict([potential])["i=x|j=y|…"]` is the exact joint weight of these values. Missing: values with bars (`c67_false`). -/
theorem c67_tables_partial {it : SetIter Int} {js : SetIter Str} {ops : List BOp} {jt : JoinTree} (hu : Net.Usable ops)
    (hj : apply it js (Bbn.run ops) = .ok jt) (h : List (SetIter Str × EvOp)) (hp : ∀ op ∈ h, op.2.Ok (Bbn.run ops).vars)
    (hb : ∀ v ∈ (Bbn.run ops).vars, ∀ x ∈ v.values, '|' ∉ x) :
    ∀ k n, Dict.get? (runHist jt h).nodes k = some n → ∃ P, Dict.get? (runHist jt h).potentials k = some P ∧
      (Potential.toDict [P]).length = (n.vars.map (fun v => v.values.length)).prod ∧
      ∀ σ, InDom n.vars σ → Dict.get? (Potential.toDict [P]) (barKey (vids n.vars) σ) =
        some ((Bbn.run ops).joint (specHist (Bbn.run ops).vars h) n.vars σ) := by
  intro k n hk
  have hi := bbn_run_inv ops
  obtain ⟨T, h1, _⟩ := live_law hu.toSane hj h (fun op ho => (hp op ho).proper)
  obtain ⟨ℓ, _, hℓ, hT, _⟩ := c19_calibrated hu hj h (fun op ho => (hp op ho).proper.nodes (doms hu.toSane))
  obtain ⟨P, p1, p2, p3⟩ := hT k n hk
  have hsc : (runHist jt h).scope k = n.vars := by
    unfold JoinTree.scope; rw [hk]; rfl
  have hnd : (vids n.vars).Nodup := by
    have := h1.calib.ctx.spec.scope_nodup k
    rwa [hsc] at this
  have hsub : ∀ v ∈ n.vars, v ∈ (Bbn.run ops).vars := by
    intro v hv
    exact h1.calib.ctx.scope_sub k v (hsc ▸ hv)
  obtain ⟨t1, t2⟩ := toDict_over hnd (fun v hv => values_nodup hu.wf (hsub v hv)) (fun v hv => hb v (hsub v hv)) p2
  refine ⟨P, p1, t1, ?_⟩
  intro σ hσ
  rw [(t2 σ hσ).2, p3 σ hσ, hℓ hp]

/-! ### node potentials -/

/-- the rows of the potential of a node -/
theorem getBbnPotential_rows {jt : JoinTree} {v : Variable} {P : Potential} (h : jt.getBbnPotential v = .ok P) :
    P.map PEntry.entries = v.values.map (fun x => [(v.id, x)]) := by
  have hm : ∀ Q : Potential, (PotentialUtil.marginalize Q [v]).map PEntry.entries = v.values.map (fun x => [(v.id, x)]) := by
    intro Q
    unfold PotentialUtil.marginalize
    rw [List.map_map, fromNodes_eq_tab (by simp), tab, List.map_map]
    have : product ([v].map Variable.values) = v.values.map (fun x => [x]) := by
      simp [product, List.flatMap_singleton']
      induction v.values with
      | nil => rfl
      | cons x l ih => simp [ih]
    rw [this, List.map_map]
    rfl
  unfold JoinTree.getBbnPotential at h
  obtain ⟨o, _, h⟩ := bind_ok h
  cases hc : o.parentClique with
  | none => rw [hc] at h; cases h
  | some cid =>
    rw [hc] at h
    obtain ⟨p, hp, h⟩ := bind_ok h
    have hrows : p.map PEntry.entries = v.values.map (fun x => [(v.id, x)]) := by
      unfold Propagator.marginalizeFor at hp
      cases hq : Dict.get? jt.potentials cid with
      | some Q =>
        rw [hq] at hp
        cases hp
        exact hm Q
      | none =>
        rw [hq] at hp
        simp only at hp
        split at hp
        · rename_i h0
          cases hp
          have := hm []
          unfold PotentialUtil.marginalize at this
          rw [h0] at this
          exact this
        · cases hp
    rw [normalize_eq] at h
    cases h
    split
    · rw [List.map_map]
      exact hrows
    · exact hrows

/-- **C67** for node potentials: for the potentials of any nodes of any join tree, `to_dict` has one item per node and value, and
`to_dict(ps)["i=x"]` is the probability the potential of node `i` gives to `x`. Bars in the values do no harm here. -/
theorem c67_node_potentials {jt : JoinTree} {nodes : List Variable} (hids : (nodes.map Variable.id).Nodup)
    (hval : ∀ v ∈ nodes, v.values.Nodup) {ps : List Potential} (h : nodes.mapM jt.getBbnPotential = .ok ps) :
    (Potential.toDict ps).length = (nodes.map (fun v => v.values.length)).sum ∧
      ∀ v ∈ nodes, ∃ P, jt.getBbnPotential v = .ok P ∧ ∀ x ∈ v.values,
        Dict.get? (Potential.toDict ps) (strInt v.id ++ "=".toList ++ x) = P.at [v] (fun _ => x) ∧ (P.at [v] (fun _ => x)).isSome := by
  have hkey : ∀ {v : Variable} {P : Potential}, jt.getBbnPotential v = .ok P →
      (P.map PEntry.getKv).map Prod.fst = v.values.map (fun x => kvText v.id x) := by
    intro v P hP
    have := congrArg (List.map (fun d => barText (sortBy (fun a b : Int × Str => decide (a.1 ≤ b.1)) d))) (getBbnPotential_rows hP)
    rw [List.map_map, List.map_map] at this
    rw [List.map_map]
    exact this
  have hall : ∀ (nodes : List Variable) (ps : List Potential), nodes.mapM jt.getBbnPotential = .ok ps →
      (ps.flatMap (fun p => p.map PEntry.getKv)).map Prod.fst = nodes.flatMap (fun v => v.values.map (fun x => kvText v.id x)) := by
    intro nodes
    induction nodes with
    | nil =>
      intro ps h
      simp [pure, Except.pure] at h
      subst h
      rfl
    | cons v l ih =>
      intro ps h
      rw [List.mapM_cons] at h
      obtain ⟨P, h1, h2⟩ := bind_ok h
      obtain ⟨qs, h3, h4⟩ := bind_ok h2
      cases h4
      rw [List.flatMap_cons, List.map_append, List.flatMap_cons, hkey h1, ih qs h3]
  have hnd : ((ps.flatMap (fun p => p.map PEntry.getKv)).map Prod.fst).Nodup := by
    rw [hall nodes ps h, List.nodup_flatMap]
    constructor
    · intro v hv
      exact (hval v hv).map_on (fun x _ y _ e => (kvText_inj e).2)
    · rw [List.Nodup, List.pairwise_map] at hids
      refine hids.imp ?_
      intro v w hne
      intro k hk hk'
      obtain ⟨x, _, rfl⟩ := List.mem_map.1 hk
      obtain ⟨y, _, e⟩ := List.mem_map.1 hk'
      exact hne (kvText_inj e).1.symm
  obtain ⟨t1, t2⟩ := toDict_get hnd
  constructor
  · have := congrArg List.length (hall nodes ps h)
    rw [List.length_map, List.length_flatMap, List.length_flatMap] at this
    rw [t1]
    simpa using this
  · intro v hv
    obtain ⟨P, hP, hPv⟩ := mapM_ok_of_mem h v hv
    refine ⟨P, hPv, ?_⟩
    intro x hx
    have hrows := getBbnPotential_rows hPv
    have hmem : [(v.id, x)] ∈ P.map PEntry.entries := by
      rw [hrows]; exact List.mem_map.2 ⟨x, hx, rfl⟩
    obtain ⟨e0, he0, hz0⟩ := List.mem_map.1 hmem
    unfold Potential.at
    cases hf : P.find? (fun e => decide (e.Reads [v] (fun _ => x))) with
    | none =>
      have := List.find?_eq_none.1 hf e0 he0
      simp only [decide_eq_true_eq, PEntry.Reads, hz0] at this
      simp [Dict.get?] at this
    | some e =>
      refine ⟨?_, rfl⟩
      have he := List.mem_of_find?_eq_some hf
      have hr := List.find?_some hf
      simp only [decide_eq_true_eq] at hr
      have hr' := hr v (by simp)
      have hem := List.mem_map_of_mem (f := PEntry.entries) he
      rw [hrows] at hem
      obtain ⟨y, hy, hz⟩ := List.mem_map.1 hem
      rw [← hz] at hr'
      have : y = x := by simpa [Dict.get?] using hr'
      subst this
      have hk : e.getKv.1 = strInt v.id ++ "=".toList ++ y := by
        rw [getKv_fst, PEntry.getEntryKeys, ← hz]; rfl
      rw [← hk]
      exact t2 P hP e he

/-- **C67** for posteriors, partial: after any evidence history on a connected network, the dictionary of the potentials of all nodes
maps `id=value` to the exact posterior, for every node and value. Missing: ambiguous virtual evidence (`c18_false`). -/
theorem c67_posteriors_partial {it : SetIter Int} {js : SetIter Str} {ops : List BOp} {jt : JoinTree} (hu : Net.Usable ops)
    (hj : apply it js (Bbn.run ops) = .ok jt) (h : List (SetIter Str × EvOp)) (hp : ∀ op ∈ h, op.2.Ok (Bbn.run ops).vars) :
    ∃ ps, (runHist jt h).getBbnNodes.mapM (runHist jt h).getBbnPotential = .ok ps ∧
      (Potential.toDict ps).length = ((Bbn.run ops).vars.map (fun v => v.values.length)).sum ∧
      ∀ v ∈ (Bbn.run ops).vars, ∀ x ∈ v.values, Dict.get? (Potential.toDict ps) (strInt v.id ++ "=".toList ++ x) =
        some ((Bbn.run ops).posterior (specHist (Bbn.run ops).vars h) v.id x) := by
  obtain ⟨T, h1, _⟩ := live_law hu.toSane hj h (fun op ho => (hp op ho).proper)
  have hperm : (runHist jt h).getBbnNodes.Perm (Bbn.run ops).vars := h1.calib.ctx.bbnNodes_perm
  have hpost := fun v hv => (c18_posteriors_exact_partial hu hj h hp v hv).2
  have hm := mapM_ok (runHist jt h).getBbnPotential (posteriorTable (Bbn.run ops) (specHist (Bbn.run ops).vars h))
    (runHist jt h).getBbnNodes (fun v hv => hpost v (hperm.mem_iff.1 hv))
  refine ⟨_, hm, ?_⟩
  obtain ⟨t1, t2⟩ := c67_node_potentials ((hperm.map _).nodup_iff.2 h1.calib.ctx.vn)
    (fun v hv => values_nodup hu.wf (hperm.mem_iff.1 hv)) hm
  refine ⟨by rw [t1]; exact (hperm.map _).sum_eq, ?_⟩
  intro v hv x hx
  obtain ⟨P, hP, hPx⟩ := t2 v (hperm.mem_iff.2 hv)
  rw [(hPx x hx).1]
  rw [hpost v hv] at hP
  cases hP
  have hnd := values_nodup hu.wf hv
  unfold Potential.at
  have hmem : (⟨[(v.id, x)], (Bbn.run ops).posterior (specHist (Bbn.run ops).vars h) v.id x⟩ : PEntry) ∈
      posteriorTable (Bbn.run ops) (specHist (Bbn.run ops).vars h) v := List.mem_map.2 ⟨x, hx, rfl⟩
  cases hf : (posteriorTable (Bbn.run ops) (specHist (Bbn.run ops).vars h) v).find? (fun e => decide (e.Reads [v] (fun _ => x))) with
  | none =>
    have := List.find?_eq_none.1 hf _ hmem
    simp [PEntry.Reads, Dict.get?] at this
  | some e =>
    have he := List.mem_of_find?_eq_some hf
    have hr := List.find?_some hf
    simp only [decide_eq_true_eq] at hr
    obtain ⟨y, hy, rfl⟩ := List.mem_map.1 he
    have hr' := hr v (by simp)
    have : y = x := by simpa [Dict.get?] using hr'
    subst this
    rfl

/-! ### examples -/

theorem c67_c16_bars : ∀ v ∈ (Bbn.run c16_ops).vars, ∀ x ∈ v.values, '|' ∉ x := by decide +kernel

/-- C67 is not vacuous: the dictionary of the node potentials after the history of C18, and an item of a clique table -/
example : Net.Usable c16_ops ∧ (∀ op ∈ c18_hist, op.2.Ok (Bbn.run c16_ops).vars) ∧
    (∀ v ∈ (Bbn.run c16_ops).vars, ∀ x ∈ v.values, '|' ∉ x) ∧
    (apply .same .rev (Bbn.run c16_ops)).val?.bind (fun jt =>
        ((runHist jt c18_hist).getBbnNodes.mapM (runHist jt c18_hist).getBbnPotential).val?.map Potential.toDict) =
      some [("3=on".toList, 68 / 775), ("3=off".toList, 707 / 775), ("4=on".toList, 1), ("4=off".toList, 0),
        ("1=on".toList, 17 / 31), ("1=off".toList, 14 / 31), ("2=on".toList, 0), ("2=off".toList, 1),
        ("0=on".toList, 56 / 155), ("0=off".toList, 99 / 155)] ∧
    (apply .same .rev (Bbn.run c16_ops)).val?.bind (fun jt =>
        (Dict.get? jt.potentials "0-1-2".toList).bind (fun P => Dict.get? (Potential.toDict [P]) "0=on|1=off|2=on".toList)) =
      some (1 / 40) :=
  ⟨c16_usable, c18_hist_ok, c67_c16_bars, by decide +kernel, by decide +kernel⟩

/-- two values of node 0 and two of node 1, some with bars -/
def c67_ops : List BOp :=
  [.addEdge ⟨⟨0, "a".toList, ["a|1=b".toList, "a".toList]⟩, [1/4, 3/4]⟩
    ⟨⟨1, "b".toList, ["c".toList, "b|1=c".toList]⟩, [1/2, 1/2, 1/4, 3/4]⟩]

theorem c67_usable : Net.Usable c67_ops := by
  refine ⟨⟨wf_of_check (by decide +kernel) (by decide +kernel), by decide +kernel⟩, ?_⟩
  have e := EqvGen.rel (r := fun p c => (p, c) ∈ BOp.edges c67_ops) 0 1 (by decide +kernel)
  have hv : ∀ u ∈ (Bbn.run c67_ops).vars, EqvGen (fun p c => (p, c) ∈ BOp.edges c67_ops) 0 u.id := by
    have hid : (Bbn.run c67_ops).vars.map Variable.id = [0, 1] := by decide +kernel
    intro u hu
    have : u.id ∈ (Bbn.run c67_ops).vars.map Variable.id := List.mem_map.2 ⟨u, hu, rfl⟩
    rw [hid] at this
    simp only [List.mem_cons, List.not_mem_nil, or_false] at this
    rcases this with h | h
    · rw [h]; exact EqvGen.refl _
    · rw [h]; exact e
  intro u hu w hw
  exact EqvGen.trans _ _ _ (EqvGen.symm _ _ (hv u hu)) (hv w hw)

/-- the table of the only clique -/
def c67_table : Potential :=
  [⟨[(1, "c".toList), (0, "a|1=b".toList)], 1 / 8⟩, ⟨[(1, "c".toList), (0, "a".toList)], 3 / 16⟩,
   ⟨[(1, "b|1=c".toList), (0, "a|1=b".toList)], 1 / 8⟩, ⟨[(1, "b|1=c".toList), (0, "a".toList)], 9 / 16⟩]

/-- **C67 is false of the code** for tables when values contain bars: the table of the only clique has four rows, its dictionary three
items; under the key of the first row, with value 1/8, the dictionary has the value 9/16 of the last. -/
theorem c67_false : Net.Usable c67_ops ∧ ∃ jt, apply .same .same (Bbn.run c67_ops) = .ok jt ∧
    Dict.get? jt.potentials "0-1".toList = some c67_table ∧
    Potential.toDict [c67_table] = [("0=a|1=b|1=c".toList, 9 / 16), ("0=a|1=c".toList, 3 / 16), ("0=a|1=b|1=b|1=c".toList, 1 / 8)] ∧
    ∃ e ∈ c67_table, e.value = 1 / 8 ∧ Dict.get? (Potential.toDict [c67_table]) e.getKv.1 = some (9 / 16) := by
  refine ⟨c67_usable, ?_⟩
  have h : (apply .same .same (Bbn.run c67_ops)).val?.bind (fun jt => Dict.get? jt.potentials "0-1".toList) = some c67_table := by
    decide +kernel
  cases hj : apply .same .same (Bbn.run c67_ops) with
  | error e => rw [hj] at h; cases h
  | ok jt =>
    rw [hj] at h
    exact ⟨jt, rfl, h, by decide +kernel, ⟨[(1, "c".toList), (0, "a|1=b".toList)], 1 / 8⟩, by decide +kernel, rfl, by decide +kernel⟩

end PyBBN
