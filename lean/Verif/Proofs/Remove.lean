import Verif.Proofs.Orders

/-! What `apply` does with a network from which a node was removed. -/

namespace PyBBN

open InferenceController

/-! ### `moralize` and `triangulate` when edges refer to nodes that are not listed -/

theorem UInv.addNode {g : Graph Variable} (h : UInv g) (n : Variable) : UInv (g.addNode n) :=
  ⟨h.ginv.addNode n, h.sym, h.irr⟩

theorem UEdges.addNode {g : Graph Variable} (h : UEdges g) (n : Variable) : UEdges (g.addNode n) :=
  ⟨⟨h.einv.nodup, h.einv.key, h.einv.em⟩, h.und, h.listed⟩

theorem addNode_has (g : Graph Variable) (n : Variable) : n.id ∈ Dict.keys (g.addNode n).nodes := (addNode_keys g n _).2 (Or.inl rfl)

theorem addEdge_nodes_first (g : Graph Variable) (e : Edge Variable) : g.addEdge e = ((g.addNode e.i).addNode e.j).addEdge e := by
  have h1 : ((g.addNode e.i).addNode e.j).addNode e.i = (g.addNode e.i).addNode e.j :=
    addNode_same ((addNode_keys _ _ _).2 (Or.inr (addNode_has g e.i)))
  have h2 : ((g.addNode e.i).addNode e.j).addNode e.j = (g.addNode e.i).addNode e.j := addNode_same (addNode_has _ _)
  conv_rhs => rw [Graph.addEdge, Graph.addEdgeWith, h1, h2]
  rfl

theorem ufold_any : ∀ (es : List (Edge Variable)) (g : Graph Variable), UInv g → UEdges g → (∀ e ∈ es, e.type = .undirected) →
    UInv (es.foldl (fun g e => g.addEdge e) g) ∧ UEdges (es.foldl (fun g e => g.addEdge e) g) ∧
      (∀ k ∈ Dict.keys g.nodes, k ∈ Dict.keys (es.foldl (fun g e => g.addEdge e) g).nodes) ∧
      ∀ e ∈ es, e.i.id ∈ Dict.keys (es.foldl (fun g e => g.addEdge e) g).nodes ∧ e.j.id ∈ Dict.keys (es.foldl (fun g e => g.addEdge e) g).nodes
  | [], g, h, hu, _ => ⟨h, hu, fun _ h => h, by simp⟩
  | e :: es, g, h, hu, ht => by
      have ht0 := ht e List.mem_cons_self
      have hi : e.i.id ∈ Dict.keys ((g.addNode e.i).addNode e.j).nodes := (addNode_keys _ _ _).2 (Or.inr (addNode_has g e.i))
      have hj : e.j.id ∈ Dict.keys ((g.addNode e.i).addNode e.j).nodes := addNode_has _ _
      have e1 := addEdge_nodes_first g e
      have hn : (g.addEdge e).nodes = ((g.addNode e.i).addNode e.j).nodes := by rw [e1]; exact uadd_nodes hi hj
      have h1 : UInv (g.addEdge e) := by rw [e1]; exact ((h.addNode _).addNode _).addEdge ht0 hi hj
      have h2 : UEdges (g.addEdge e) := by rw [e1]; exact UEdges.addEdge ((h.addNode _).addNode _) ((hu.addNode _).addNode _) ht0 hi hj
      obtain ⟨a, b, c, d⟩ := ufold_any es (g.addEdge e) h1 h2 (fun f hf => ht f (List.mem_cons_of_mem _ hf))
      refine ⟨a, b, ?_, ?_⟩
      · intro k hk
        apply c
        rw [hn]
        exact (addNode_keys _ _ _).2 (Or.inr ((addNode_keys _ _ _).2 (Or.inr hk)))
      · intro f hf
        rcases List.mem_cons.1 hf with rfl | hf
        · exact ⟨c _ (by rw [hn]; exact hi), c _ (by rw [hn]; exact hj)⟩
        · exact d f hf

theorem addNodes_inv : ∀ (ns : List BbnNode) (g : Graph Variable), UInv g → UEdges g →
    UInv (ns.foldl (fun g n => g.addNode n.var) g) ∧ UEdges (ns.foldl (fun g n => g.addNode n.var) g)
  | [], _, h, hu => ⟨h, hu⟩
  | n :: ns, g, h, hu => addNodes_inv ns (g.addNode n.var) (h.addNode _) (hu.addNode _)

/-- every end of an edge, listed as a node or not, is in the moral graph -/
theorem moralize_any (b : Bbn) : UInv (moralize b) ∧ UEdges (moralize b) ∧
    ∀ e ∈ b.toGraph.getEdges, e.i.var.id ∈ Dict.keys (moralize b).nodes ∧ e.j.var.id ∈ Dict.keys (moralize b).nodes := by
  have heq : moralize b = (moralEdges b).foldl (fun g e => g.addEdge e)
      (b.toGraph.getNodes.foldl (fun g n => g.addNode n.var) Graph.empty) := by
    unfold moralize moralEdges
    rw [List.foldl_append, List.foldl_map, List.foldl_flatMap]
    simp only [List.foldl_map]
  obtain ⟨e1, e2⟩ := empty_nodes_inv (vs := []) (by simp)
  obtain ⟨a1, a2⟩ := addNodes_inv b.toGraph.getNodes Graph.empty e1 e2
  obtain ⟨b1, b2, _, b4⟩ := ufold_any (moralEdges b) _ a1 a2 (by
    intro e he
    unfold moralEdges at he
    rcases List.mem_append.1 he with he | he
    · obtain ⟨f, _, rfl⟩ := List.mem_map.1 he; rfl
    · obtain ⟨n, _, he⟩ := List.mem_flatMap.1 he
      obtain ⟨pq, _, rfl⟩ := List.mem_map.1 he; rfl)
  rw [← heq] at b1 b2 b4
  refine ⟨b1, b2, ?_⟩
  intro e he
  exact b4 (uedge e.i.var e.j.var) (List.mem_append_left _ (List.mem_map.2 ⟨e, he, rfl⟩))

theorem nodes_eq_nodeDict {g : Graph Variable} (h : GInv g) : g.nodes = nodeDict g.getNodes ∧ (vids g.getNodes).Nodup := by
  have h1 : g.nodes = nodeDict g.getNodes := by
    unfold nodeDict Graph.getNodes Dict.values
    rw [List.map_map]
    conv_lhs => rw [← List.map_id g.nodes]
    apply List.map_congr_left
    rintro ⟨k, v⟩ hkv
    have := h.key k v (Dict.get?_of_mem h.nodup hkv)
    simp only [id, Function.comp]
    rw [← this]; rfl
  refine ⟨h1, ?_⟩
  rw [← nodeDict_keys, ← h1]
  exact h.nodup

/-- every node of the graph is in a clique -/
theorem triangulate_any (it : SetIter Int) {g : Graph Variable} (h : UInv g) (hu : UEdges g) :
    CFam (Triangulator.triangulate it g).1 ∧ ∀ k ∈ Dict.keys g.nodes, ∃ c ∈ (Triangulator.triangulate it g).1, k ∈ c.nodeIds := by
  obtain ⟨n1, n2⟩ := nodes_eq_nodeDict h.ginv
  obtain ⟨d1, d2, d3⟩ := duplicate_spec h hu n2 n1
  have hlen : g.getNodes.length = (Triangulator.duplicate g).nodes.length := by rw [d2]; simp [nodeDict]
  obtain ⟨cs, k1, k2, _⟩ := loop_spec it _ [] g (Triangulator.duplicate g) g.getNodes
    h d1 d2 n2 hlen (fun x y hxy => (d3 x y).1 hxy) (by rw [n1, nodeDict_keys]; exact fun i hi => hi)
  obtain ⟨r1, _, r3, r4⟩ := k1.record [] (by simp [Antichain]) (by simp)
  have htri : Triangulator.triangulate it g =
      Triangulator.loop it (Triangulator.duplicate g).nodes.length [] g (Triangulator.duplicate g) := rfl
  rw [htri, k2]
  refine ⟨⟨?_, r1⟩, ?_⟩
  · intro c hc
    rcases r3 c hc with h | h
    · simp at h
    · exact (k1.sub c h).2.1
  · intro k hk
    obtain ⟨c, hc, hQ⟩ := k1.covers {k} ⟨k, by simp⟩ (by
      intro i hi
      simp at hi
      subst hi
      rw [n1, nodeDict_keys] at hk
      exact hk) (by
      intro x hx y hy hxy
      simp at hx hy
      exact absurd (hx.trans hy.symm) hxy)
    obtain ⟨d, hd, hcd⟩ := r4 c hc
    exact ⟨d, hd, (d.mem_fs _).1 (hcd (hQ (by simp)))⟩

/-- the ids of a join tree's node dictionary -/
theorem foldl_set_id_mem : ∀ (l : List Variable) (d : Dict Int Variable), (∀ k v, (k, v) ∈ d → v.id = k) →
    (∀ k v, (k, v) ∈ l.foldl (fun d v => Dict.set d v.id v) d → v.id = k) ∧
      ∀ k, k ∈ Dict.keys d ∨ k ∈ vids l → k ∈ Dict.keys (l.foldl (fun d v => Dict.set d v.id v) d)
  | [], d, h => ⟨h, by simp⟩
  | u :: l, d, h => by
      obtain ⟨a, b⟩ := foldl_set_id_mem l (Dict.set d u.id u) (by
        intro k v hkv
        rcases mem_set_iff hkv with e | e
        · simp only [Prod.mk.injEq] at e
          rw [e.1, e.2]
        · exact h k v e)
      refine ⟨a, ?_⟩
      intro k hk
      apply b
      rw [vids_cons, List.mem_cons] at hk
      rw [Dict.mem_keys_set]
      tauto

/-- a node of a clique is among the join tree's nodes -/
theorem transform_has (js : SetIter Str) {cs : List Clique} (hf : CFam cs) {c : Clique} (hc : c ∈ cs) {x : Int} (hx : x ∈ c.nodeIds) :
    ∃ v ∈ (Transformer.transform js cs).getBbnNodes, v.id = x := by
  obtain ⟨T, h1⟩ := transform_shape js hf
  obtain ⟨u, hu, rfl⟩ := List.mem_map.1 hx
  obtain ⟨a, b⟩ := foldl_set_id_mem ((Transformer.transform js cs).getCliques.flatMap Clique.nodes) [] (by simp)
  have := b u.id (Or.inr (List.mem_map_of_mem (List.mem_flatMap.2 ⟨c, (h1.mem_getCliques c).2 hc, hu⟩)))
  obtain ⟨⟨k, v⟩, hm, hk⟩ := List.mem_map.1 this
  exact ⟨v, List.mem_map.2 ⟨_, hm, rfl⟩, (a k v hm).trans hk⟩

/-! ### the loops that fail -/

theorem foldlM_err {α β : Type} {f : β → α → Py β} (P : β → Prop) {l : List α} {a : β} {x : α} (hx : x ∈ l) (ha : P a)
    (hs : ∀ y ∈ l, ∀ a b, P a → f a y = .ok b → P b) (he : ∀ a, P a → ∃ e, f a x = .error e) : ∃ e, l.foldlM f a = .error e := by
  induction l generalizing a with
  | nil => simp at hx
  | cons y l ih =>
    rw [List.foldlM_cons]
    cases hy : f a y with
    | error e => exact ⟨e, rfl⟩
    | ok b =>
      rcases List.mem_cons.1 hx with rfl | hx
      · obtain ⟨e, he⟩ := he a ha
        rw [he] at hy; cases hy
      · exact ih hx (hs y List.mem_cons_self a b ha hy) (fun z hz => hs z (List.mem_cons_of_mem _ hz))

/-- the node object has no potential -/
def NoPot (x : Int) (heap : Dict Int NodeObj) : Prop := ∀ o, Dict.get? heap x = some o → o.potential = none

theorem NoPot.set {x : Int} {heap : Dict Int NodeObj} (h : NoPot x heap) {k : Int} {o o' : NodeObj} (ho : Dict.get? heap k = some o)
    (hp : k = x → o'.potential = o.potential) : NoPot x (Dict.set heap k o') := by
  intro q hq
  by_cases hk : k = x
  · subst hk
    rw [Dict.get?_set_self] at hq
    cases hq
    rw [hp rfl]
    exact h o ho
  · rw [Dict.get?_set_ne _ _ hk] at hq
    exact h q hq

theorem getClique_noPot {x : Int} {jt jt' : JoinTree} {v : Variable} {cid : Str} (h : Initializer.getClique jt v = .ok (cid, jt'))
    (hn : NoPot x jt.heap) : NoPot x jt'.heap := by
  unfold Initializer.getClique at h
  obtain ⟨o, ho, h⟩ := bind_ok h
  split at h
  · cases h; exact hn
  · obtain ⟨cs, _, h⟩ := bind_ok h
    split at h
    · cases h
    · cases h
      exact hn.set ((Dict.getItem_ok_iff _ _ _).1 ho) (fun _ => rfl)

theorem assignNode_noPot {x : Int} {jt jt' : JoinTree} {v : Variable} (h : Initializer.assignNode jt v = .ok jt')
    (hn : NoPot x jt.heap) : NoPot x jt'.heap := by
  unfold Initializer.assignNode at h
  obtain ⟨⟨cid, j1⟩, h1, h⟩ := bind_ok h
  obtain ⟨p1, _, h⟩ := bind_ok h
  obtain ⟨o, _, h⟩ := bind_ok h
  split at h
  · cases h
  · cases h
    have := getClique_noPot h1 hn
    exact this

theorem assignNode_fails {jt : JoinTree} {v : Variable} (hn : NoPot v.id jt.heap) : ∃ e, Initializer.assignNode jt v = .error e := by
  cases h : Initializer.assignNode jt v with
  | error e => exact ⟨e, rfl⟩
  | ok jt' =>
    unfold Initializer.assignNode at h
    obtain ⟨⟨cid, j1⟩, h1, h⟩ := bind_ok h
    obtain ⟨p1, _, h⟩ := bind_ok h
    obtain ⟨o, ho, h⟩ := bind_ok h
    rw [getClique_noPot h1 hn o ((Dict.getItem_ok_iff _ _ _).1 ho)] at h
    cases h

theorem potentialInit_noPot {b : Bbn} {x : Int} (hx : ∀ n ∈ b.toGraph.getNodes, n.var.id ≠ x) {heap heap' : Dict Int NodeObj}
    (h : potentialInit b heap = .ok heap') (hn : NoPot x heap) : NoPot x heap' := by
  refine foldlM_inv (NoPot x) h hn ?_
  intro n hm a c ha hc
  obtain ⟨ps, _, hc⟩ := bind_ok hc
  obtain ⟨pot, _, hc⟩ := bind_ok hc
  obtain ⟨o, ho, hc⟩ := bind_ok hc
  cases hc
  exact ha.set ((Dict.getItem_ok_iff _ _ _).1 ho) (fun e => absurd e (hx n hm))

theorem moralParents_noPot {b : Bbn} {x : Int} {heap heap' : Dict Int NodeObj}
    (h : moralParents b heap = .ok heap') (hn : NoPot x heap) : NoPot x heap' := by
  refine foldlM_inv (NoPot x) h hn ?_
  intro n hm a c ha hc
  obtain ⟨o, ho, hc⟩ := bind_ok hc
  cases hc
  exact ha.set ((Dict.getItem_ok_iff _ _ _).1 ho) (fun _ => rfl)

theorem initializeJt_fails {jt : JoinTree} {v : Variable} (hv : v ∈ jt.getBbnNodes) (hn : NoPot v.id jt.heap) :
    ∃ e, Initializer.initializeJt jt = .error e := by
  obtain ⟨err, h⟩ := foldlM_err (f := Initializer.assignNode) (l := jt.getBbnNodes)
    (a := { jt with potentials := Initializer.freshTables jt }) (fun j => NoPot v.id j.heap) (x := v) hv hn
    (fun y _ a b ha hb => assignNode_noPot hb ha) (fun a ha => assignNode_fails ha)
  refine ⟨err, ?_⟩
  have e0 : JoinTree.getBbnNodes { jt with potentials := Initializer.freshTables jt } = jt.getBbnNodes := rfl
  unfold Initializer.initializeJt
  simp only [e0]
  rw [h]
  rfl

theorem mem_ofList {K V : Type} [DecidableEq K] {l : List (K × V)} {x : K × V} (h : x ∈ Dict.ofList l) : x ∈ l := by
  have key : ∀ (l : List (K × V)) (d : Dict K V), x ∈ l.foldl (fun d kv => Dict.set d kv.1 kv.2) d → x ∈ d ∨ x ∈ l := by
    intro l
    induction l with
    | nil => exact fun d h => Or.inl h
    | cons y l ih =>
      intro d h
      rcases ih _ h with h | h
      · rcases mem_set_iff h with h | h
        · exact Or.inr (by rw [h]; exact List.mem_cons_self)
        · exact Or.inl h
      · exact Or.inr (List.mem_cons_of_mem _ h)
  rcases key l [] h with h | h
  · simp at h
  · exact h

/-- an edge with an end that is not listed as a node makes `apply` fail -/
theorem apply_stray_fails (it : SetIter Int) (js : SetIter Str) {b : Bbn} {e : Edge BbnNode} {x : Int}
    (he : e ∈ b.toGraph.getEdges) (hx : e.i.var.id = x ∨ e.j.var.id = x) (hn : ∀ n ∈ b.toGraph.getNodes, n.var.id ≠ x) :
    ∃ err, apply it js b = .error err := by
  obtain ⟨m1, m2, m3⟩ := moralize_any b
  obtain ⟨t1, t2⟩ := triangulate_any it m1 m2
  have hk : x ∈ Dict.keys (moralize b).nodes := by
    rcases hx with rfl | rfl
    · exact (m3 e he).1
    · exact (m3 e he).2
  obtain ⟨c, hc, hxc⟩ := t2 x hk
  obtain ⟨v, hv, rfl⟩ := transform_has js t1 hc hxc
  have h0 : NoPot v.id (initialHeap b []) := by
    intro o ho
    have hm := Dict.mem_of_get? ho
    rcases List.mem_append.1 hm with hm | hm
    · obtain ⟨n, _, e⟩ := List.mem_map.1 hm
      rw [startObj, Prod.mk.injEq] at e
      rw [← e.2]; rfl
    · obtain ⟨n, _, e⟩ := List.mem_map.1 (mem_ofList hm)
      rw [startObj, Prod.mk.injEq] at e
      rw [← e.2]; rfl
  cases h : applyWith it js [] b with
  | error e => exact ⟨e, h⟩
  | ok jt =>
    exfalso
    unfold applyWith at h
    obtain ⟨heap1, h1, h⟩ := bind_ok h
    obtain ⟨heap2, h2, h⟩ := bind_ok h
    obtain ⟨j1, h3, _⟩ := bind_ok h
    have hp := moralParents_noPot h2 (potentialInit_noPot hn h1 h0)
    obtain ⟨err, h5⟩ := initializeJt_fails (jt := { Transformer.transform js (Triangulator.triangulate it (moralize b)).1 with
      parentInfo := parentInfoOf b, heap := heap2 }) hv hp
    rw [h5] at h3
    cases h3

/-! ### removing a node without edges -/

section
variable {V : Type}

theorem pop_set_ne [DecidableEq K] (d : Dict K V) {k i : K} (v : V) (h : k ≠ i) : Dict.pop (Dict.set d k v) i = Dict.set (Dict.pop d i) k v := by
  induction d with
  | nil => simp [Dict.set, Dict.pop, h]
  | cons x d ih =>
    obtain ⟨a, w⟩ := x
    unfold Dict.pop at ih ⊢
    by_cases ha : a = k
    · subst ha
      simp [Dict.set, h]
    · by_cases hi : a = i
      · subst hi
        simp only [Dict.set, if_neg ha]
        simpa using ih
      · simp only [Dict.set, if_neg ha, List.filter_cons, ne_eq, hi, not_false_eq_true, decide_true, if_true]
        simpa using ih

theorem pop_set_self [DecidableEq K] (d : Dict K V) (i : K) (v : V) : Dict.pop (Dict.set d i v) i = Dict.pop d i := by
  induction d with
  | nil => simp [Dict.set, Dict.pop]
  | cons x d ih =>
    obtain ⟨a, w⟩ := x
    unfold Dict.pop at ih ⊢
    by_cases ha : a = i
    · subst ha
      simp [Dict.set]
    · rw [Dict.set, if_neg ha, List.filter_cons_of_pos (by simpa using ha), List.filter_cons_of_pos (by simpa using ha), ih]

theorem get_pop_ne [DecidableEq K] (d : Dict K V) {k i : K} (h : k ≠ i) : Dict.get? (Dict.pop d i) k = Dict.get? d k := by
  induction d with
  | nil => rfl
  | cons x d ih =>
    obtain ⟨a, w⟩ := x
    unfold Dict.pop at ih ⊢
    by_cases hi : a = i
    · subst hi
      simp only [List.filter_cons, ne_eq, not_true, decide_false, Dict.get?, if_neg (fun e : a = k => h e.symm)]
      simpa using ih
    · simp only [List.filter_cons, ne_eq, hi, not_false_eq_true, decide_true, if_true, Dict.get?]
      split
      · rfl
      · simpa using ih

theorem pop_setDefault_ne [DecidableEq K] (d : Dict K V) {k i : K} (v : V) (h : k ≠ i) :
    Dict.pop (Dict.setDefault d k v) i = Dict.setDefault (Dict.pop d i) k v := by
  unfold Dict.setDefault Dict.has
  rw [get_pop_ne d h]
  split
  · rfl
  · exact pop_set_ne d v h

theorem pop_setDefault_self [DecidableEq K] (d : Dict K V) (i : K) (v : V) : Dict.pop (Dict.setDefault d i v) i = Dict.pop d i := by
  unfold Dict.setDefault
  split
  · rfl
  · exact pop_set_self d i v

end

/-- what `remove_node` does to `edge_map` and to `neighbors` -/
def dropId (id : Int) (em : Dict Int (List Int)) : Dict Int (List Int) :=
  (Dict.pop em id).map (fun kv => (kv.1, kv.2.filter (fun x => decide (x ≠ id))))

theorem map_set_val (f : List Int → List Int) (d : Dict Int (List Int)) (k : Int) (v : List Int) :
    (Dict.set d k v).map (fun kv => (kv.1, f kv.2)) = Dict.set (d.map (fun kv => (kv.1, f kv.2))) k (f v) := by
  induction d with
  | nil => rfl
  | cons x d ih =>
    obtain ⟨a, w⟩ := x
    simp only [Dict.set, List.map_cons]
    split
    · rfl
    · simp only [List.map_cons]; rw [ih]

theorem get_map_val (f : List Int → List Int) (d : Dict Int (List Int)) (k : Int) :
    Dict.get? (d.map (fun kv => (kv.1, f kv.2))) k = (Dict.get? d k).map f := by
  induction d with
  | nil => rfl
  | cons x d ih =>
    obtain ⟨a, w⟩ := x
    simp only [Dict.get?, List.map_cons]
    split
    · rfl
    · exact ih

theorem dropId_ddAdd (em : Dict Int (List Int)) {id a c : Int} (ha : a ≠ id) (hc : c ≠ id) :
    dropId id (ddAdd em a c) = ddAdd (dropId id em) a c := by
  unfold dropId ddAdd
  rw [pop_set_ne _ _ ha, map_set_val (fun l => l.filter (fun x => decide (x ≠ id)))]
  congr 1
  unfold ddGet setAdd
  rw [get_map_val (fun l => l.filter (fun x => decide (x ≠ id))), get_pop_ne _ ha]
  cases Dict.get? em a with
  | none => simp [hc]
  | some l =>
    simp only [Option.getD_some, Option.map_some]
    by_cases hm : c ∈ l
    · rw [if_pos hm, if_pos (List.mem_filter.2 ⟨hm, by simpa using hc⟩)]
    · rw [if_neg hm, if_neg (fun h => hm (List.mem_filter.1 h).1), List.filter_append]
      simp [hc]

theorem removeNode_graph (g : Graph BbnNode) (id : Int) :
    g.removeNode id = { nodes := Dict.pop g.nodes id, edges := g.edges, edgeMap := dropId id g.edgeMap, neighbors := dropId id g.neighbors } := rfl

theorem remove_addNode_ne (g : Graph BbnNode) {n : BbnNode} {id : Int} (h : n.var.id ≠ id) :
    (g.addNode n).removeNode id = (g.removeNode id).addNode n := by
  simp only [removeNode_graph, Graph.addNode]
  rw [pop_setDefault_ne _ _ (show nid n ≠ id from h)]

theorem remove_addNode_self (g : Graph BbnNode) {n : BbnNode} {id : Int} (h : n.var.id = id) :
    (g.addNode n).removeNode id = g.removeNode id := by
  simp only [removeNode_graph, Graph.addNode]
  rw [show nid n = id from h, pop_setDefault_self]

theorem remove_insertEdge (g : Graph BbnNode) {i j : BbnNode} {id : Int} (hi : i.var.id ≠ id) (hj : j.var.id ≠ id) :
    (g.insertEdge ⟨i, j, .directed⟩).removeNode id = (g.removeNode id).insertEdge ⟨i, j, .directed⟩ := by
  simp only [removeNode_graph, Graph.insertEdge]
  have hi' : nid i ≠ id := hi
  have hj' : nid j ≠ id := hj
  rw [dropId_ddAdd _ hi' hj', dropId_ddAdd _ hj' hi', dropId_ddAdd _ hi' hj']

theorem remove_addEdge (b : Bbn) {i j : BbnNode} {id : Int} (hi : i.var.id ≠ id) (hj : j.var.id ≠ id) :
    (b.addEdge ⟨i, j, .directed⟩).removeNode id = (b.removeNode id).addEdge ⟨i, j, .directed⟩ := by
  simp only [Bbn.addEdge, Bbn.removeNode, Bbn.shouldAdd, if_true]
  rw [remove_insertEdge _ hi hj, remove_addNode_ne _ hj, remove_addNode_ne _ hi]

/-! ### which exception -/

/-- a loop in which one element always raises `err` and nothing else is ever raised -/
theorem foldlM_error {α β : Type} {f : β → α → Py β} (err : PyErr) {l : List α} {a : β} {x : α} (hx : x ∈ l)
    (hs : ∀ y ∈ l, ∀ a e, f a y = .error e → e = err) (he : ∀ a, f a x = .error err) : l.foldlM f a = .error err := by
  induction l generalizing a with
  | nil => simp at hx
  | cons y l ih =>
    rw [List.foldlM_cons]
    cases hy : f a y with
    | error e => rw [hs y List.mem_cons_self a e hy]; rfl
    | ok b =>
      rcases List.mem_cons.1 hx with rfl | hx
      · rw [he a] at hy; cases hy
      · exact ih hx (fun z hz => hs z (List.mem_cons_of_mem _ hz))

theorem bind_error {α β : Type} {x : Py α} {f : α → Py β} {e : PyErr} (h : (x >>= f) = .error e) :
    x = .error e ∨ ∃ a, x = .ok a ∧ f a = .error e := by
  cases x with
  | error e' => cases h; exact Or.inl rfl
  | ok a => exact Or.inr ⟨a, rfl, h⟩

theorem getItem_error {K V : Type} [DecidableEq K] {d : Dict K V} {k : K} {e : PyErr} (h : Dict.getItem d k = .error e) : e = .keyError := by
  unfold Dict.getItem at h
  split at h <;> cases h
  rfl

theorem getItem_missing {K V : Type} [DecidableEq K] {d : Dict K V} {k : K} (h : k ∉ Dict.keys d) : Dict.getItem d k = .error .keyError := by
  unfold Dict.getItem
  rw [(Dict.get?_eq_none_iff _ _).2 h]

theorem mapM_getItem_error {K V : Type} [DecidableEq K] {d : Dict K V} : ∀ {l : List K} {e : PyErr},
    l.mapM (fun k => Dict.getItem d k) = .error e → e = .keyError
  | [], _, h => by simp [pure, Except.pure] at h
  | k :: l, e, h => by
      rw [List.mapM_cons] at h
      rcases bind_error h with h | ⟨a, _, h⟩
      · exact getItem_error h
      · rcases bind_error h with h | ⟨r, _, h⟩
        · exact mapM_getItem_error h
        · cases h

theorem mapM_getItem_missing {K V : Type} [DecidableEq K] {d : Dict K V} {k : K} (hk : k ∉ Dict.keys d) {l : List K} (hl : k ∈ l) :
    l.mapM (fun k => Dict.getItem d k) = .error .keyError :=
  mapM_error _ _ l (fun j _ => by
    cases h : Dict.getItem d j with
    | error e => rw [getItem_error h]; exact Or.inl rfl
    | ok v => exact Or.inr ⟨v, rfl⟩) ⟨k, hl, getItem_missing hk⟩

theorem mem_pop [DecidableEq K] {V : Type} {d : Dict K V} {i : K} {x : K × V} : x ∈ Dict.pop d i ↔ x ∈ d ∧ x.1 ≠ i := by
  simp [Dict.pop]

theorem get_pop_self [DecidableEq K] {V : Type} (d : Dict K V) (i : K) : i ∉ Dict.keys (Dict.pop d i) := by
  simp [Dict.pop, Dict.keys]

theorem mem_removed_nodes {b : Bbn} (h : BbnInv b) {id : Int} {n : BbnNode} :
    n ∈ (b.removeNode id).toGraph.getNodes ↔ n ∈ b.toGraph.getNodes ∧ n.var.id ≠ id := by
  constructor
  · intro hn
    obtain ⟨⟨k, v⟩, hm, rfl⟩ := List.mem_map.1 hn
    obtain ⟨h1, h2⟩ := mem_pop.1 hm
    refine ⟨List.mem_map.2 ⟨_, h1, rfl⟩, ?_⟩
    have : v.var.id = k := h.ginv.key k v (Dict.get?_of_mem h.ginv.nodup h1)
    rw [this]; exact h2
  · rintro ⟨hn, hne⟩
    obtain ⟨⟨k, v⟩, hm, rfl⟩ := List.mem_map.1 hn
    have : v.var.id = k := h.ginv.key k v (Dict.get?_of_mem h.ginv.nodup hm)
    exact List.mem_map.2 ⟨(k, v), mem_pop.2 ⟨hm, by rw [← this]; exact hne⟩, rfl⟩

theorem getItem_removed {b : Bbn} {id pa : Int} {n : BbnNode} (h : Dict.getItem (b.removeNode id).nodes pa = .ok n) :
    Dict.getItem b.nodes pa = .ok n := by
  have h1 := (Dict.getItem_ok_iff _ _ _).1 h
  rw [Dict.getItem_ok_iff]
  by_cases e : pa = id
  · subst e
    have := Dict.mem_keys_of_get? h1
    exact absurd this (get_pop_self _ _)
  · rwa [show (b.removeNode id).nodes = Dict.pop b.nodes id from rfl, get_pop_ne _ e] at h1

theorem mapM_removed {b : Bbn} {id : Int} : ∀ {l : List Int} {r : List BbnNode},
    l.mapM (fun pa => Dict.getItem (b.removeNode id).nodes pa) = .ok r → l.mapM (fun pa => Dict.getItem b.nodes pa) = .ok r
  | [], r, h => h
  | pa :: l, r, h => by
      rw [List.mapM_cons] at h
      obtain ⟨n, h1, h⟩ := bind_ok h
      obtain ⟨ns, h2, h⟩ := bind_ok h
      rw [List.mapM_cons, getItem_removed h1]
      show ((l.mapM _ >>= _ : Py _)) = _
      rw [mapM_removed h2]
      exact h

/-- removing a node that has a child: the child's potential cannot be built -/
theorem potentialInit_removed {b : Bbn} (h : BbnInv b) (wf : b.WF) {id c : Int} (hpa : id ∈ ddGet b.parents c) (hne : c ≠ id)
    (heap : Dict Int NodeObj) : potentialInit (b.removeNode id) heap = .error .keyError := by
  have hc := (h.ginv.emNodes _ _ ((h.par _ _).1 hpa)).2
  obtain ⟨⟨k, n⟩, hm, hk⟩ := List.mem_map.1 hc
  simp only at hk
  subst hk
  have hid : n.var.id = k := h.ginv.key k n (Dict.get?_of_mem h.ginv.nodup hm)
  have hn : n ∈ (b.removeNode id).toGraph.getNodes := (mem_removed_nodes h).2 ⟨List.mem_map.2 ⟨_, hm, rfl⟩, by rw [hid]; exact hne⟩
  refine foldlM_error .keyError hn ?_ ?_
  · intro m hm a e he
    have hm' := (mem_removed_nodes h).1 hm
    rcases bind_error he with he | ⟨ps, hps, he⟩
    · exact mapM_getItem_error he
    · obtain ⟨ps', hp1, hp2⟩ := parents_mapM h m.var.id
      have : ps = ps' := by
        have h1 := mapM_removed hps
        change (ddGet b.parents m.var.id).mapM _ = _ at h1
        rw [hp1] at h1
        cases h1; rfl
      subst this
      rw [hp2, local_ok h wf hm'.1] at he
      rcases bind_error he with he | ⟨pot, hpot, he⟩
      · cases he
      · rcases bind_error he with he | ⟨o, _, he⟩
        · exact getItem_error he
        · cases he
  · intro a
    have : (ddGet (b.removeNode id).parents n.var.id).mapM (fun pa => Dict.getItem (b.removeNode id).nodes pa) = .error .keyError :=
      mapM_getItem_missing (get_pop_self _ _) (by rw [hid]; exact hpa)
    rw [this]
    rfl

end PyBBN
