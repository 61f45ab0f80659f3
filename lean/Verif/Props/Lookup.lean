import Verif.Props.Reapply
import Verif.Props.Certain
import Verif.Proofs.Orders

/-! # C83: nodes and posteriors by id and by name -/

namespace PyBBN
open Relation InferenceController

section
variable {ops : List BOp} {jt : JoinTree}

/-- **C83**, lookup by id. On every join tree of a session, `get_bbn_nodes` lists every node of the network once, and
`get_bbn_node(id)` is the node with that id, and `None` if there is none. -/
theorem c83_by_id (hs : Session ops jt) : jt.getBbnNodes.Nodup ∧ (∀ v, v ∈ jt.getBbnNodes ↔ v ∈ (Bbn.run ops).vars) ∧
    (∀ i v, jt.getBbnNode i = some v ↔ v ∈ (Bbn.run ops).vars ∧ v.id = i) ∧
    ∀ i, jt.getBbnNode i = none ↔ ∀ v ∈ (Bbn.run ops).vars, v.id ≠ i := by
  obtain ⟨ℓ, cs, T, h⟩ := hs.held
  have hc := h.live.calib.ctx
  refine ⟨hc.bbnNodes_perm.nodup_iff.2 (List.Nodup.of_map _ hc.vn), fun v => hc.bbnNodes_perm.mem_iff, hc.get_bbnNodeDict, fun i => ?_⟩
  constructor
  · intro hn v hv e
    have := (hc.get_bbnNodeDict i v).2 ⟨hv, e⟩
    unfold JoinTree.getBbnNode at hn
    rw [this] at hn
    cases hn
  · intro hn
    cases e : jt.getBbnNode i with
    | none => rfl
    | some v => exact absurd ((hc.get_bbnNodeDict i v).1 e).2 (hn v ((hc.get_bbnNodeDict i v).1 e).1)

/-- **C83**, lookup by name, partial. `get_bbn_node_by_name(name)` is a node with that name, `None` exactly if there is none; if only one
node has the name, it is that node. Missing: with two nodes of the same name, only one of them can be found (`c83_false`). -/
theorem c83_by_name_partial (hs : Session ops jt) : (∀ k, jt.getBbnNodeByName k = none ↔ ∀ v ∈ (Bbn.run ops).vars, v.name ≠ k) ∧
    (∀ k v, jt.getBbnNodeByName k = some v → v ∈ (Bbn.run ops).vars ∧ v.name = k) ∧
    ∀ v ∈ (Bbn.run ops).vars, (∀ w ∈ (Bbn.run ops).vars, w.name = v.name → w = v) → jt.getBbnNodeByName v.name = some v := by
  obtain ⟨ℓ, cs, T, h⟩ := hs.held
  have hc := h.live.calib.ctx
  have hm : ∀ v, v ∈ jt.getCliques.flatMap Clique.nodes ↔ v ∈ (Bbn.run ops).vars := by
    intro v
    rw [List.mem_flatMap]
    constructor
    · rintro ⟨c, hc', hv⟩
      exact hc.sub c ((hc.spec.shape.mem_getCliques _).1 hc') v hv
    · intro hv
      obtain ⟨c, hc', hvc⟩ := hc.cover v hv
      exact ⟨c, (hc.spec.shape.mem_getCliques _).2 hc', hvc⟩
  have h2 : ∀ k v, jt.getBbnNodeByName k = some v → v ∈ (Bbn.run ops).vars ∧ v.name = k := by
    intro k v e
    unfold JoinTree.getBbnNodeByName at e
    rw [get?_foldl_last (f := Variable.name) (g := fun v => v)] at e
    cases hf : (jt.getCliques.flatMap Clique.nodes).reverse.find? (fun a => decide (a.name = k)) with
    | none => rw [hf] at e; simp [Dict.get?] at e
    | some a =>
      rw [hf] at e
      have h1 := List.find?_some hf
      have h3 := List.mem_of_find?_eq_some hf
      simp only [decide_eq_true_eq] at h1
      simp only [Option.some.injEq] at e
      subst e
      exact ⟨(hm a).1 (List.mem_reverse.1 h3), h1⟩
  refine ⟨fun k => ?_, h2, fun v hv hu => ?_⟩
  · constructor
    · intro hn v hv e
      unfold JoinTree.getBbnNodeByName at hn
      rw [get?_foldl_last (f := Variable.name) (g := fun v => v)] at hn
      cases hf : (jt.getCliques.flatMap Clique.nodes).reverse.find? (fun a => decide (a.name = k)) with
      | none =>
        have := List.find?_eq_none.1 hf v (List.mem_reverse.2 ((hm v).2 hv))
        simp [e] at this
      | some a => rw [hf] at hn; simp at hn
    · intro hn
      cases e : jt.getBbnNodeByName k with
      | none => rfl
      | some v => exact absurd (h2 k v e).2 (hn v (h2 k v e).1)
  · unfold JoinTree.getBbnNodeByName
    exact get?_foldl_of (f := Variable.name) (g := fun v => v) ⟨v, (hm v).2 hv, rfl⟩ (fun a ha e => hu a ((hm a).1 ha) e)

/-- a table over one node -/
def rowsOf (v : Variable) (f : Str → ℚ) : Potential := v.values.map (fun x => ⟨[(v.id, x)], f x⟩)

theorem tab_single (v : Variable) (f : Asg → ℚ) : tab [v] f = rowsOf v (fun x => f (over asg0 [v.id] [x])) := by
  unfold tab rowsOf
  have : product ([v].map Variable.values) = v.values.map (fun x => [x]) := by
    simp only [product, List.map_cons, List.map_nil]
    exact List.map_eq_flatMap.symm
  rw [this, List.map_map]
  rfl

theorem at_rowsOf (v : Variable) (f : Str → ℚ) {x : Str} (hx : x ∈ v.values) : (rowsOf v f).at [v] (fun _ => x) = some (f x) := by
  unfold Potential.at rowsOf
  have : ∀ l : List Str, x ∈ l → ((l.map (fun y => (⟨[(v.id, y)], f y⟩ : PEntry))).find?
      (fun e => decide (e.Reads [v] (fun _ => x)))).map PEntry.value = some (f x) := by
    intro l
    induction l with
    | nil => simp
    | cons y l ih =>
      intro h
      rw [List.map_cons]
      by_cases e : y = x
      · subst e
        rw [List.find?_cons_of_pos]
        · rfl
        · simp [PEntry.Reads, Dict.get?]
      · rw [List.find?_cons_of_neg]
        · exact ih ((List.mem_cons.1 h).resolve_left (fun e' => e e'.symm))
        · simp [PEntry.Reads, Dict.get?, e]
  exact this v.values hx

/-- on every join tree of a session, `get_bbn_potential` returns a table with one row per value -/
theorem Held.rows {ℓ : Liks} {cs : List Clique} {T : List SepSet} (h : Held ops ℓ jt cs T) :
    ∃ F : Variable → Str → ℚ, ∀ v ∈ (Bbn.run ops).vars, jt.getBbnPotential v = .ok (rowsOf v (F v)) := by
  have hN := Bbn.net_ok (bbn_run_inv ops) h.sane.wf
  have key : ∀ v ∈ (Bbn.run ops).vars, ∃ f, jt.getBbnPotential v = .ok (rowsOf v f) := by
    intro v hv
    obtain ⟨R, ks, vs, c, _, _, _, _, e⟩ := h.live.calib.reads hN hv
    have hD : DomOk (domOf (Bbn.run ops).vars) [v] :=
      (domOf_ok h.live.calib.ctx.vn).sub (by intro u hu; simp at hu; subst hu; exact hv)
    rw [normalize_tab hD, tab_single] at e
    exact ⟨_, e⟩
  choose! F hF using key
  exact ⟨F, hF⟩

theorem getPosteriors_eq {vars : List Variable} {F : Variable → Str → ℚ} (hval : ∀ v ∈ vars, v.values.Nodup) :
    ∀ (l : List Variable) (d : Dict Str (Dict Str ℚ)), (∀ v ∈ l, v ∈ vars ∧ jt.getBbnPotential v = .ok (rowsOf v (F v))) →
    l.foldlM (fun (d : Dict Str (Dict Str ℚ)) (node : Variable) => (do
        let p ← jt.getBbnPotential node
        let m := p.foldl (fun m (e : PEntry) => Dict.set m ((e.entries.map Prod.snd).flatten) e.value) []
        .ok (Dict.set d node.name m) : Py (Dict Str (Dict Str ℚ)))) d =
      .ok (l.foldl (fun d v => Dict.set d v.name (v.values.map (fun x => (x, F v x)))) d) := by
  intro l
  induction l with
  | nil => intro d _; rfl
  | cons v l ih =>
    intro d h
    obtain ⟨h1, h2⟩ := h v List.mem_cons_self
    rw [List.foldlM_cons, h2, List.foldl_cons]
    have := ih (Dict.set d v.name (v.values.map (fun x => (x, F v x)))) (fun u hu => h u (List.mem_cons_of_mem _ hu))
    simp only [bind, Except.bind] at this ⊢
    unfold rowsOf
    rw [foldl_set_values v.id (F v) v.values [] (hval v h1) (by simp [Dict.keys]), List.nil_append]
    exact this

/-- **C83**, `get_posteriors`, partial. On every join tree of a session (on any network, connected or not), `get_posteriors` returns a dictionary with
the names of the nodes as keys; the entry for a name lists the values of a node with that name, with the probabilities that
`get_bbn_potential` gives. If only one node has the name, this is the node. Missing: nodes that share a name (`c83_false`). -/
theorem c83_posteriors_partial (hs : Session ops jt) : ∃ d, jt.getPosteriors = .ok d ∧
    (∀ k, k ∈ Dict.keys d ↔ k ∈ (Bbn.run ops).vars.map Variable.name) ∧
    (∀ k m, Dict.get? d k = some m → ∃ v ∈ (Bbn.run ops).vars, v.name = k ∧ Dict.keys m = v.values ∧
      ∀ x p, Dict.get? m x = some p → Reports jt v x p) ∧
    ∀ v ∈ (Bbn.run ops).vars, (∀ w ∈ (Bbn.run ops).vars, w.name = v.name → w = v) →
      ∃ m, Dict.get? d v.name = some m ∧ Dict.keys m = v.values ∧ ∀ x p, Dict.get? m x = some p → Reports jt v x p := by
  obtain ⟨ℓ, cs, T, h⟩ := hs.held
  have hc := h.live.calib.ctx
  obtain ⟨F, hF⟩ := h.rows
  have hp : ∀ v ∈ jt.getBbnNodes, v ∈ (Bbn.run ops).vars ∧ jt.getBbnPotential v = .ok (rowsOf v (F v)) := by
    intro v hv
    have hv' := hc.bbnNodes_perm.mem_iff.1 hv
    exact ⟨hv', hF v hv'⟩
  have hval : ∀ v ∈ (Bbn.run ops).vars, v.values.Nodup := fun v hv => values_nodup h.sane.wf hv
  have hg := getPosteriors_eq hval jt.getBbnNodes [] hp
  have hkeys : ∀ v : Variable, Dict.keys (v.values.map (fun x => (x, F v x))) = v.values := by
    intro v; unfold Dict.keys; rw [List.map_map]; simp [Function.comp_def]
  have hrep : ∀ v ∈ (Bbn.run ops).vars, ∀ x p, Dict.get? (v.values.map (fun x => (x, F v x))) x = some p →
      Reports jt v x p := by
    intro v hv x p e
    have := Dict.mem_of_get? e
    obtain ⟨y, hy, e'⟩ := List.mem_map.1 this
    cases e'
    exact ⟨_, hF v hv, at_rowsOf _ _ hy⟩
  have key : ∀ k m, Dict.get? (jt.getBbnNodes.foldl (fun d v => Dict.set d v.name
      (v.values.map (fun x => (x, F v x)))) []) k = some m → ∃ v ∈ (Bbn.run ops).vars, v.name = k ∧
        m = v.values.map (fun x => (x, F v x)) := by
    intro k m e
    rw [get?_foldl_last (f := Variable.name) (g := fun v => v.values.map (fun x => (x, F v x)))] at e
    cases hf : jt.getBbnNodes.reverse.find? (fun a => decide (a.name = k)) with
    | none => rw [hf] at e; simp [Dict.get?] at e
    | some a =>
      rw [hf] at e
      have h1 := List.find?_some hf
      have h3 := List.mem_of_find?_eq_some hf
      simp only [decide_eq_true_eq] at h1
      simp only [Option.some.injEq] at e
      exact ⟨a, hc.bbnNodes_perm.mem_iff.1 (List.mem_reverse.1 h3), h1, e.symm⟩
  have hex : ∀ v ∈ (Bbn.run ops).vars, ∃ m, Dict.get? (jt.getBbnNodes.foldl (fun d v => Dict.set d v.name
      (v.values.map (fun x => (x, F v x)))) []) v.name = some m := by
    intro v hv
    rw [get?_foldl_last (f := Variable.name) (g := fun v => v.values.map (fun x => (x, F v x)))]
    cases hf : jt.getBbnNodes.reverse.find? (fun a => decide (a.name = v.name)) with
    | none =>
      have := List.find?_eq_none.1 hf v (List.mem_reverse.2 (hc.bbnNodes_perm.mem_iff.2 hv))
      simp at this
    | some a => exact ⟨_, rfl⟩
  refine ⟨_, hg, fun k => ?_, fun k m e => ?_, fun v hv hu => ?_⟩
  · constructor
    · intro hk
      obtain ⟨m, e⟩ := Dict.exists_get?_of_mem_keys hk
      obtain ⟨v, hv, e', _⟩ := key k m e
      exact List.mem_map.2 ⟨v, hv, e'⟩
    · intro hk
      obtain ⟨v, hv, rfl⟩ := List.mem_map.1 hk
      obtain ⟨m, e⟩ := hex v hv
      exact Dict.mem_keys_of_get? e
  · obtain ⟨v, hv, e', rfl⟩ := key k m e
    exact ⟨v, hv, e', hkeys v, hrep v hv⟩
  · obtain ⟨m, e⟩ := hex v hv
    obtain ⟨w, hw, e', rfl⟩ := key _ m e
    have := hu w hw e'
    subst this
    exact ⟨_, e, hkeys w, hrep w hw⟩

end

/-! ## The full claim fails -/

/-- two nodes with the same name -/
def c83_ops : List BOp := [.addEdge (mkNode 0 "a" [1/4, 3/4]) (mkNode 1 "a" [1/2, 1/2, 1/4, 3/4])]

theorem c83_usable : Net.Usable c83_ops :=
  ⟨⟨wf_of_check (by decide +kernel) (by decide +kernel), by decide +kernel⟩, connected_of_check 0 (by decide +kernel)⟩

/-- With two nodes of the same name, `get_posteriors` has one entry, that of node 0 (1/4), and nothing about node 1 (5/16);
`get_bbn_node_by_name` cannot find node 1. -/
theorem c83_false : Net.Usable c83_ops ∧ ∃ jt d m, apply .same .same (Bbn.run c83_ops) = .ok jt ∧ Session c83_ops jt ∧ jt.getPosteriors = .ok d ∧
    d = [("a".toList, m)] ∧ Dict.get? m "on".toList = some (1/4) ∧ Reports jt (mkNode 1 "a" [1/2, 1/2, 1/4, 3/4]).var "on".toList (5/16) ∧
    jt.getBbnNodeByName "a".toList = some (mkNode 0 "a" [1/4, 3/4]).var ∧
    (mkNode 1 "a" [1/2, 1/2, 1/4, 3/4]).var ∈ (Bbn.run c83_ops).vars := by
  refine ⟨c83_usable, ?_⟩
  have k1 : ((apply .same .same (Bbn.run c83_ops)).val?.bind (fun jt => (jt.getPosteriors.val?.map (fun d => (d : List (Str × List (Str × ℚ))))))) =
      some ([("a".toList, [("on".toList, 1/4), ("off".toList, 3/4)])] : List (Str × List (Str × ℚ))) := by decide +kernel
  have k2 : ((apply .same .same (Bbn.run c83_ops)).val?.map (fun jt => reportOf jt (mkNode 1 "a" [1/2, 1/2, 1/4, 3/4]).var "on".toList)) =
      some (some (5/16)) := by decide +kernel
  have k3 : ((apply .same .same (Bbn.run c83_ops)).val?.map (fun jt => jt.getBbnNodeByName "a".toList)) =
      some (some (mkNode 0 "a" [1/4, 3/4]).var) := by decide +kernel
  cases hj : apply .same .same (Bbn.run c83_ops) with
  | error e => rw [hj] at k1; cases k1
  | ok jt =>
    rw [hj] at k1 k2 k3
    simp only [Py.val?, Option.map_some, Option.some.injEq, Option.bind_some] at k1 k2 k3
    cases hd : jt.getPosteriors with
    | error e => rw [hd] at k1; cases k1
    | ok d =>
      rw [hd] at k1
      simp only [Option.map_some, Option.some.injEq] at k1
      refine ⟨jt, d, _, rfl, .start .same .same c83_usable.toSane hj, hd, k1, by decide +kernel, ?_, k3, by decide +kernel⟩
      exact reports_of_eval k2

/-! ## The claims are not vacuous -/

/-- a session on the example network with evidence about four nodes: all five nodes are found, by id and by name, and all five are listed
by `get_posteriors`; no node has id 7 or name z -/
example : (∃ jt, apply .rev .same (Bbn.run c16_ops) = .ok jt ∧ Session c16_ops (runHist jt c18_hist)) ∧
    (∀ v ∈ (Bbn.run c16_ops).vars, ∀ w ∈ (Bbn.run c16_ops).vars, w.name = v.name → w = v) ∧
    ((apply .rev .same (Bbn.run c16_ops)).val?.map (fun jt => [0, 1, 2, 3, 4, 7].map (fun i => ((runHist jt c18_hist).getBbnNode i).map Variable.name))) =
      some [some "a".toList, some "b".toList, some "c".toList, some "d".toList, some "e".toList, none] ∧
    ((apply .rev .same (Bbn.run c16_ops)).val?.map (fun jt => [['a'], ['b'], ['c'], ['d'], ['e'], ['z']].map (fun k =>
      ((runHist jt c18_hist).getBbnNodeByName k).map Variable.id))) = some [some 0, some 1, some 2, some 3, some 4, none] ∧
    ((apply .rev .same (Bbn.run c16_ops)).val?.bind (fun jt => (runHist jt c18_hist).getPosteriors.val?.map (fun d =>
      [['a'], ['b'], ['c'], ['d'], ['e'], ['z']].map (fun k => (Dict.get? d k).isSome)))) = some [true, true, true, true, true, false] := by
  refine ⟨?_, by decide +kernel, by decide +kernel, by decide +kernel, by decide +kernel⟩
  obtain ⟨jt, hj, _⟩ := (c16_exact_priors .rev .same c16_ops c16_wf c16_connected).1 (by decide +kernel)
  exact ⟨jt, hj, session_hist (.start .rev .same c16_usable.toSane hj) _
    (fun op ho => (c18_hist_ok op ho).proper.nodes (doms c16_usable.toSane))⟩

end PyBBN
