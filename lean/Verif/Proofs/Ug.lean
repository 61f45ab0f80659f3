import Verif.Proofs.NetInit

/-! Undirected graphs, moralization. -/

namespace PyBBN

/-- invariant of an undirected graph -/
structure UInv (g : Graph Variable) : Prop where
  ginv : GInv g
  sym : ∀ a b, emRel g a b → emRel g b a
  irr : ∀ a, ¬ emRel g a a

/-- the edge list of an undirected graph is complete -/
structure UEdges (g : Graph Variable) : Prop where
  einv : EdgesInv g
  und : ∀ e ∈ g.getEdges, e.type = .undirected
  listed : ∀ a b, emRel g a b → ∃ e ∈ g.getEdges, (e.i.id = a ∧ e.j.id = b) ∨ (e.i.id = b ∧ e.j.id = a)

theorem UInv.nb {g : Graph Variable} (h : UInv g) (a b : Int) : b ∈ g.getNeighbors a ↔ emRel g a b := by
  rw [h.ginv.nb]
  constructor
  · rintro (h1 | h1)
    · exact h1
    · exact h.sym _ _ h1
  · exact Or.inl

theorem UInv.edgeExists {g : Graph Variable} (h : UInv g) (a b : Int) : g.edgeExists a b = true ↔ emRel g a b := by
  unfold Graph.edgeExists
  simp only [Bool.or_eq_true, decide_eq_true_eq]
  constructor
  · rintro (h1 | h1)
    · exact h1
    · exact h.sym _ _ h1
  · exact Or.inl

/-- the relation added by an undirected edge -/
def eRel (e : Edge Variable) (x y : Int) : Prop :=
  e.i.id ≠ e.j.id ∧ ((x = e.i.id ∧ y = e.j.id) ∨ (x = e.j.id ∧ y = e.i.id))

theorem addNode_same {g : Graph Variable} {n : Variable} (hn : n.id ∈ Dict.keys g.nodes) : g.addNode n = g := by
  unfold Graph.addNode
  have : Dict.setDefault g.nodes (nid n) n = g.nodes := Dict.setDefault_of_mem hn n
  rw [this]

theorem uadd_eq {g : Graph Variable} {e : Edge Variable} (hi : e.i.id ∈ Dict.keys g.nodes)
    (hj : e.j.id ∈ Dict.keys g.nodes) :
    g.addEdge e = if Graph.shouldAdd g e then g.insertEdge e else g := by
  unfold Graph.addEdge Graph.addEdgeWith
  simp only [addNode_same hi, addNode_same hj]

theorem uadd_rel {g : Graph Variable} (_h : UInv g) {e : Edge Variable} (ht : e.type = .undirected)
    (hi : e.i.id ∈ Dict.keys g.nodes) (hj : e.j.id ∈ Dict.keys g.nodes) (x y : Int) :
    emRel (g.addEdge e) x y ↔ emRel g x y ∨ eRel e x y := by
  rw [uadd_eq hi hj]
  unfold Graph.shouldAdd eRel
  have hnid : ∀ v : Variable, nid v = v.id := fun _ => rfl
  simp only [hnid, ht]
  by_cases hij : e.i.id = e.j.id
  · simp [hij]
  · simp only [hij, if_false, Bool.or_eq_true, decide_eq_true_eq, ne_eq, not_false_eq_true, true_and]
    split
    · unfold emRel
      rw [insertEdge_em]
      simp only [hnid, ht, true_and]
      tauto
    · rename_i hc
      have hc' : emRel g e.j.id e.i.id ∧ emRel g e.i.id e.j.id := by
        unfold emRel; tauto
      constructor
      · exact Or.inl
      · rintro (h1 | ⟨rfl, rfl⟩ | ⟨rfl, rfl⟩)
        · exact h1
        · exact hc'.2
        · exact hc'.1

theorem uadd_nodes {g : Graph Variable} {e : Edge Variable}
    (hi : e.i.id ∈ Dict.keys g.nodes) (hj : e.j.id ∈ Dict.keys g.nodes) : (g.addEdge e).nodes = g.nodes := by
  rw [uadd_eq hi hj]
  split <;> rfl

theorem UInv.addEdge {g : Graph Variable} (h : UInv g) {e : Edge Variable} (ht : e.type = .undirected)
    (hi : e.i.id ∈ Dict.keys g.nodes) (hj : e.j.id ∈ Dict.keys g.nodes) : UInv (g.addEdge e) := by
  refine ⟨h.ginv.addEdgeWith _ e, ?_, ?_⟩
  · intro a b
    rw [uadd_rel h ht hi hj, uadd_rel h ht hi hj]
    unfold eRel
    rintro (h1 | h1)
    · exact Or.inl (h.sym _ _ h1)
    · exact Or.inr ⟨h1.1, by tauto⟩
  · intro a
    rw [uadd_rel h ht hi hj]
    unfold eRel
    rintro (h1 | ⟨hne, h1⟩)
    · exact h.irr _ h1
    · rcases h1 with ⟨h2, h3⟩ | ⟨h2, h3⟩
      · exact hne (h2.symm.trans h3)
      · exact hne (h3.symm.trans h2)

theorem UEdges.addEdge {g : Graph Variable} (h : UInv g) (hu : UEdges g) {e : Edge Variable}
    (ht : e.type = .undirected) (hi : e.i.id ∈ Dict.keys g.nodes) (hj : e.j.id ∈ Dict.keys g.nodes) :
    UEdges (g.addEdge e) := by
  refine ⟨hu.einv.addEdgeWith _ e, ?_, ?_⟩
  · rw [uadd_eq hi hj]
    split
    · intro f hf
      rcases mem_getEdges_insert hf with rfl | hf
      · exact ht
      · exact hu.und f hf
    · exact hu.und
  · intro a b hab
    rw [uadd_rel h ht hi hj] at hab
    rw [uadd_eq hi hj]
    split
    · rcases hab with hab | hab
      · obtain ⟨f, hf, hff⟩ := hu.listed a b hab
        rcases mem_getEdges_old hu.einv e hf with h1 | h1
        · exact ⟨f, h1, hff⟩
        · refine ⟨e, mem_getEdges_self g e, ?_⟩
          have := (key_samePair h1).2
          unfold samePair at this
          simp only [nid] at this
          rcases this with ⟨h2, h3⟩ | ⟨h2, h3⟩ <;> rw [h2, h3] at hff <;> tauto
      · refine ⟨e, mem_getEdges_self g e, ?_⟩
        unfold eRel at hab
        have := hab.2
        tauto
    · rename_i hc
      rcases hab with hab | hab
      · exact hu.listed a b hab
      · have hr : emRel g a b := by
          unfold Graph.shouldAdd at hc
          unfold eRel at hab
          have hnid : ∀ v : Variable, nid v = v.id := fun _ => rfl
          simp only [hnid, ht, if_neg hab.1, Bool.or_eq_true, decide_eq_true_eq] at hc
          unfold emRel
          rcases hab.2 with ⟨rfl, rfl⟩ | ⟨rfl, rfl⟩ <;> tauto
        exact hu.listed a b hr

/-- adding a list of undirected edges between existing nodes -/
theorem ufold : ∀ (es : List (Edge Variable)) (g : Graph Variable), UInv g →
    (∀ e ∈ es, e.type = .undirected ∧ e.i.id ∈ Dict.keys g.nodes ∧ e.j.id ∈ Dict.keys g.nodes) →
    UInv (es.foldl (fun g e => g.addEdge e) g) ∧
    (es.foldl (fun g e => g.addEdge e) g).nodes = g.nodes ∧
    (∀ x y, emRel (es.foldl (fun g e => g.addEdge e) g) x y ↔ emRel g x y ∨ ∃ e ∈ es, eRel e x y) ∧
    (UEdges g → UEdges (es.foldl (fun g e => g.addEdge e) g))
  | [], g, h, _ => ⟨h, rfl, by simp, fun h => h⟩
  | e :: es, g, h, hes => by
      obtain ⟨ht, hi, hj⟩ := hes e List.mem_cons_self
      have hn := uadd_nodes hi hj
      obtain ⟨h1, h2, h3, h4⟩ := ufold es (g.addEdge e) (h.addEdge ht hi hj)
        (fun f hf => by rw [hn]; exact hes f (List.mem_cons_of_mem _ hf))
      refine ⟨h1, h2.trans hn, ?_, fun hu => h4 (UEdges.addEdge h hu ht hi hj)⟩
      intro x y
      rw [List.foldl_cons, h3, uadd_rel h ht hi hj]
      simp only [List.mem_cons, exists_eq_or_imp]
      tauto

theorem foldl_addNode : ∀ (vs : List Variable) (g : Graph Variable), (vids vs).Nodup →
    (∀ v ∈ vs, v.id ∉ Dict.keys g.nodes) →
    vs.foldl (fun g v => g.addNode v) g = { g with nodes := g.nodes ++ vs.map (fun v => (v.id, v)) }
  | [], g, _, _ => by simp
  | v :: vs, g, hn, hd => by
      rw [vids_cons, List.nodup_cons] at hn
      have hv := hd v List.mem_cons_self
      have e1 : g.addNode v = { g with nodes := g.nodes ++ [(v.id, v)] } := by
        unfold Graph.addNode
        rw [show Dict.setDefault g.nodes (nid v) v = g.nodes ++ [(v.id, v)] from
          Dict.setDefault_of_not_mem hv v]
      rw [List.foldl_cons, e1, foldl_addNode vs _ hn.2]
      · simp
      · intro u hu
        simp only [Dict.keys, List.map_append, List.mem_append, not_or]
        refine ⟨hd u (List.mem_cons_of_mem _ hu), ?_⟩
        simp
        intro e
        exact hn.1 (e ▸ List.mem_map_of_mem hu)

/-- node dictionary of a list of variables -/
def nodeDict (vs : List Variable) : Dict Int Variable := vs.map (fun v => (v.id, v))

theorem nodeDict_keys (vs : List Variable) : Dict.keys (nodeDict vs) = vids vs := by
  simp [nodeDict, Dict.keys]

theorem nodeDict_get {vs : List Variable} (hn : (vids vs).Nodup) (i : Int) (v : Variable) :
    Dict.get? (nodeDict vs) i = some v ↔ v ∈ vs ∧ v.id = i := by
  rw [Dict.get?_eq_some_iff (by rw [nodeDict_keys]; exact hn)]
  unfold nodeDict
  simp only [List.mem_map, Prod.mk.injEq]
  constructor
  · rintro ⟨u, hu, h1, rfl⟩; exact ⟨hu, h1⟩
  · rintro ⟨hv, rfl⟩; exact ⟨v, hv, rfl, rfl⟩

/-- the graph with the given nodes and no edges -/
theorem empty_nodes_inv {vs : List Variable} (hn : (vids vs).Nodup) :
    UInv ({ nodes := nodeDict vs } : Graph Variable) ∧ UEdges ({ nodes := nodeDict vs } : Graph Variable) := by
  refine ⟨⟨⟨?_, ?_, ?_, ?_, ?_⟩, ?_, ?_⟩, ⟨⟨?_, ?_, ?_⟩, ?_, ?_⟩⟩
  · rw [nodeDict_keys]; exact hn
  · intro k v hk
    exact ((nodeDict_get hn k v).1 hk).2
  all_goals simp [ddGet, Dict.get?, emRel, Graph.getNeighbors, Dict.keys, Graph.getEdges, Dict.values]

/-! ### pairs -/

theorem mem_pairs {α : Type} {l : List α} {x y : α} (h : (x, y) ∈ pairs l) : x ∈ l ∧ y ∈ l := by
  induction l with
  | nil => simp [pairs] at h
  | cons a l ih =>
    simp only [pairs, List.mem_append, List.mem_map, Prod.mk.injEq] at h
    rcases h with ⟨b, hb, rfl, rfl⟩ | h
    · exact ⟨List.mem_cons_self, List.mem_cons_of_mem _ hb⟩
    · exact ⟨List.mem_cons_of_mem _ (ih h).1, List.mem_cons_of_mem _ (ih h).2⟩

theorem pairs_of_mem {α : Type} {l : List α} {x y : α} (hx : x ∈ l) (hy : y ∈ l) (hne : x ≠ y) :
    (x, y) ∈ pairs l ∨ (y, x) ∈ pairs l := by
  induction l with
  | nil => simp at hx
  | cons a l ih =>
    simp only [pairs, List.mem_append, List.mem_map, Prod.mk.injEq]
    rcases List.mem_cons.1 hx with rfl | hx'
    · rcases List.mem_cons.1 hy with rfl | hy'
      · exact absurd rfl hne
      · left; left; exact ⟨y, hy', rfl, rfl⟩
    · rcases List.mem_cons.1 hy with rfl | hy'
      · right; left; exact ⟨x, hx', rfl, rfl⟩
      · rcases ih hx' hy' with h | h
        · exact Or.inl (Or.inr h)
        · exact Or.inr (Or.inr h)

/-! ### the moral graph -/

/-- adjacency in the moral graph -/
def MoralAdj (b : Bbn) (x y : Int) : Prop :=
  x ≠ y ∧ (x ∈ ddGet b.parents y ∨ y ∈ ddGet b.parents x ∨
    ∃ c, x ∈ ddGet b.parents c ∧ y ∈ ddGet b.parents c)

/-- all edges inserted by the moralizer -/
def moralEdges (b : Bbn) : List (Edge Variable) :=
  b.toGraph.getEdges.map (fun e => uedge e.i.var e.j.var) ++
  b.toGraph.getNodes.flatMap (fun n => (pairs (parentNodes b n.var.id)).map (fun pq => uedge pq.1.var pq.2.var))

theorem moralize_eq {b : Bbn} (h : BbnInv b) :
    moralize b = (moralEdges b).foldl (fun g e => g.addEdge e) { nodes := nodeDict b.vars } := by
  unfold moralize moralEdges
  rw [List.foldl_append, List.foldl_map, List.foldl_flatMap]
  simp only [List.foldl_map]
  congr 2
  have := foldl_addNode b.vars Graph.empty (vars_nodup h) (by simp [Graph.empty, Dict.keys])
  unfold Bbn.vars at this
  rw [List.foldl_map] at this
  rw [this]
  simp [Graph.empty, nodeDict, Bbn.vars]

theorem mem_parentNodes {b : Bbn} (h : BbnInv b) (c : Int) (n : BbnNode) :
    n ∈ parentNodes b c ↔ n ∈ b.toGraph.getNodes ∧ n.var.id ∈ ddGet b.parents c := by
  unfold parentNodes
  rw [List.mem_filterMap]
  constructor
  · rintro ⟨p, hp, hn⟩
    rw [mem_getParents _ h.emNodup, ← h.par] at hp
    have hk := h.ginv.key p n hn
    change n.var.id = p at hk
    rw [getNodes_eq h, hk]
    exact ⟨hn, hp⟩
  · rintro ⟨hn, hp⟩
    refine ⟨n.var.id, ?_, (getNodes_eq h n).1 hn⟩
    rw [mem_getParents _ h.emNodup, ← h.par]
    exact hp

theorem moralEdges_ok {b : Bbn} (h : BbnInv b) : ∀ e ∈ moralEdges b,
    e.type = .undirected ∧ e.i.id ∈ vids b.vars ∧ e.j.id ∈ vids b.vars := by
  intro e he
  rw [vids_vars h]
  unfold moralEdges at he
  rcases List.mem_append.1 he with he | he
  · obtain ⟨f, hf, rfl⟩ := List.mem_map.1 he
    have := h.ginv.emNodes _ _ (h.einv.em f hf)
    exact ⟨rfl, this.1, this.2⟩
  · obtain ⟨n, _, he⟩ := List.mem_flatMap.1 he
    obtain ⟨⟨p, q⟩, hpq, rfl⟩ := List.mem_map.1 he
    obtain ⟨hp, hq⟩ := mem_pairs hpq
    have hp' := (getNodes_eq h p).1 ((mem_parentNodes h _ p).1 hp).1
    have hq' := (getNodes_eq h q).1 ((mem_parentNodes h _ q).1 hq).1
    exact ⟨rfl, Dict.mem_keys_of_get? hp', Dict.mem_keys_of_get? hq'⟩

theorem moralEdges_rel {b : Bbn} (h : BbnInv b) (x y : Int) :
    (∃ e ∈ moralEdges b, eRel e x y) ↔ MoralAdj b x y := by
  unfold moralEdges MoralAdj
  constructor
  · rintro ⟨e, he, hr⟩
    unfold eRel at hr
    obtain ⟨hne, hr⟩ := hr
    refine ⟨by rcases hr with ⟨rfl, rfl⟩ | ⟨rfl, rfl⟩; exacts [hne, fun e => hne e.symm], ?_⟩
    rcases List.mem_append.1 he with he | he
    · obtain ⟨f, hf, rfl⟩ := List.mem_map.1 he
      have := (h.par _ _).2 (h.einv.em f hf)
      rcases hr with ⟨rfl, rfl⟩ | ⟨rfl, rfl⟩
      · exact Or.inl this
      · exact Or.inr (Or.inl this)
    · obtain ⟨n, _, he⟩ := List.mem_flatMap.1 he
      obtain ⟨⟨p, q⟩, hpq, rfl⟩ := List.mem_map.1 he
      obtain ⟨hp, hq⟩ := mem_pairs hpq
      have hp' := ((mem_parentNodes h _ p).1 hp).2
      have hq' := ((mem_parentNodes h _ q).1 hq).2
      right; right
      rcases hr with ⟨rfl, rfl⟩ | ⟨rfl, rfl⟩
      · exact ⟨n.var.id, hp', hq'⟩
      · exact ⟨n.var.id, hq', hp'⟩
  · have key : ∀ x y, x ≠ y → x ∈ ddGet b.parents y → ∃ e ∈ moralEdges b, eRel e x y ∧ eRel e y x := by
      intro x y hne hp
      obtain ⟨e, he, h1, h2⟩ := h.listed x y ((h.par _ _).1 hp)
      refine ⟨uedge e.i.var e.j.var, List.mem_append.2 (Or.inl (List.mem_map.2 ⟨e, he, rfl⟩)), ?_⟩
      change e.i.var.id = x at h1
      change e.j.var.id = y at h2
      unfold eRel uedge
      simp only [h1, h2]
      tauto
    rintro ⟨hne, h1 | h1 | ⟨c, hx, hy⟩⟩
    · obtain ⟨e, he, h2, _⟩ := key x y hne h1; exact ⟨e, he, h2⟩
    · obtain ⟨e, he, _, h2⟩ := key y x (fun e => hne e.symm) h1; exact ⟨e, he, h2⟩
    · obtain ⟨n, hn, hnx⟩ := parent_node h hx
      obtain ⟨m, hm, hmy⟩ := parent_node h hy
      have hc := (h.ginv.emNodes x c ((h.par x c).1 hx)).2
      obtain ⟨k, hk⟩ := Dict.exists_get?_of_mem_keys hc
      have hkc := h.ginv.key c k hk
      change k.var.id = c at hkc
      have hnp : n ∈ parentNodes b c := by
        rw [mem_parentNodes h, getNodes_eq h, hnx]; exact ⟨hn, hx⟩
      have hmp : m ∈ parentNodes b c := by
        rw [mem_parentNodes h, getNodes_eq h, hmy]; exact ⟨hm, hy⟩
      have hnm : n ≠ m := by rintro rfl; exact hne (hnx.symm.trans hmy)
      have hkn : k ∈ b.toGraph.getNodes := by rw [getNodes_eq h, hkc]; exact hk
      rcases pairs_of_mem hnp hmp hnm with hp | hp
      · refine ⟨uedge n.var m.var, List.mem_append.2 (Or.inr (List.mem_flatMap.2 ⟨k, hkn, List.mem_map.2 ⟨(n, m),
          by rw [hkc]; exact hp, rfl⟩⟩)), ?_⟩
        unfold eRel uedge
        simp only [hnx, hmy]
        tauto
      · refine ⟨uedge m.var n.var, List.mem_append.2 (Or.inr (List.mem_flatMap.2 ⟨k, hkn, List.mem_map.2 ⟨(m, n),
          by rw [hkc]; exact hp, rfl⟩⟩)), ?_⟩
        unfold eRel uedge
        simp only [hnx, hmy]
        exact ⟨fun e => hne e.symm, by tauto⟩

theorem moralize_spec {b : Bbn} (h : BbnInv b) :
    UInv (moralize b) ∧ UEdges (moralize b) ∧ (moralize b).nodes = nodeDict b.vars ∧
      ∀ x y, emRel (moralize b) x y ↔ MoralAdj b x y := by
  obtain ⟨h0, hu0⟩ := empty_nodes_inv (vars_nodup h)
  obtain ⟨h1, h2, h3, h4⟩ := ufold (moralEdges b) _ h0 (by
    intro e he
    simp only [nodeDict_keys]
    exact moralEdges_ok h e he)
  rw [moralize_eq h]
  refine ⟨h1, h4 hu0, h2, ?_⟩
  intro x y
  rw [h3, moralEdges_rel h]
  simp [emRel, ddGet, Dict.get?]

/-! ### `duplicate` -/

theorem duplicate_spec {g : Graph Variable} {vs : List Variable} (h : UInv g) (hu : UEdges g)
    (hn : (vids vs).Nodup) (hg : g.nodes = nodeDict vs) :
    UInv (Triangulator.duplicate g) ∧ (Triangulator.duplicate g).nodes = nodeDict vs ∧
      ∀ x y, emRel (Triangulator.duplicate g) x y ↔ emRel g x y := by
  unfold Triangulator.duplicate
  have hgn : g.getNodes = vs := by
    unfold Graph.getNodes
    rw [hg]
    simp [nodeDict, Dict.values, Function.comp_def]
  have e1 : g.getNodes.foldl (fun u n => u.addNode n) Graph.empty =
      ({ nodes := nodeDict vs } : Graph Variable) := by
    rw [hgn, foldl_addNode vs Graph.empty hn (by simp [Graph.empty, Dict.keys])]
    simp [Graph.empty, nodeDict]
  rw [e1]
  obtain ⟨h0, _⟩ := empty_nodes_inv hn
  obtain ⟨h1, h2, h3, _⟩ := ufold g.getEdges _ h0 (by
    intro e he
    have := h.ginv.emNodes _ _ (hu.einv.em e he)
    rw [hg] at this
    exact ⟨hu.und e he, this.1, this.2⟩)
  refine ⟨h1, h2, ?_⟩
  intro x y
  rw [h3]
  constructor
  · rintro (h4 | ⟨e, he, hr⟩)
    · simp [emRel, ddGet, Dict.get?] at h4
    · have := hu.einv.em e he
      unfold eRel at hr
      rcases hr.2 with ⟨rfl, rfl⟩ | ⟨rfl, rfl⟩
      · exact this
      · exact h.sym _ _ this
  · intro hr
    right
    obtain ⟨e, he, hh⟩ := hu.listed x y hr
    refine ⟨e, he, ?_, ?_⟩
    · intro hc
      have : x = y := by rcases hh with ⟨rfl, rfl⟩ | ⟨rfl, rfl⟩; exacts [hc, hc.symm]
      subst this
      exact h.irr _ hr
    · tauto

end PyBBN
