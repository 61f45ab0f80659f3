import Verif.Proofs.GraphInv

/-!
# C01–C08: graph classes and identifiers
-/

namespace PyBBN
open Relation

variable {N : Type} [HasId N]

/-! ## C01 -/

/-- **C01**. Whatever calls built the `Dag` (and whatever iteration order is used to read the children), following
children never comes back. -/
theorem c01_dag_acyclic (ops : List (GOp N)) (it : SetIter Int) :
    Acyclic (fun a b => b ∈ Dag.getChildren it (Dag.run ops) a) := by
  refine acyclic_mono (dag_run_inv ops).acyclic ?_
  intro a b h
  exact (dag_children_rel it _ a b).1 h

/-- **C01**, read through `edge_exists` and `get_parents`: they describe the same acyclic relation. -/
theorem c01_dag_api_agrees (ops : List (GOp N)) (it : SetIter Int) (a b : Int) :
    (Dag.edgeExists (Dag.run ops) a b = true ↔ b ∈ Dag.getChildren it (Dag.run ops) a) ∧
    (a ∈ (Dag.run ops).getParents b ↔ b ∈ Dag.getChildren it (Dag.run ops) a) := by
  have h := dag_run_inv ops
  constructor
  · rw [dag_children_rel]
    unfold Dag.edgeExists
    simp only [Bool.and_eq_true, decide_eq_true_eq]
    constructor
    · exact fun h => h.1
    · intro h1
      refine ⟨h1, fun h2 => h.acyclic a ?_⟩
      exact TransGen.tail (TransGen.single h1) h2
  · rw [dag_children_rel]
    exact mem_getParents _ (emNodup_run _ (fun it g e => ⟨_, rfl⟩) ops) a b

/-- a call sequence in which edges are accepted, rejected (cycle, self loop, undirected) and a node is removed -/
def c01_ops : List (GOp Node) :=
  [.addEdge .same ⟨⟨0⟩, ⟨1⟩, .directed⟩, .addEdge .rev ⟨⟨1⟩, ⟨2⟩, .directed⟩,
   .addEdge .same ⟨⟨2⟩, ⟨0⟩, .directed⟩, .addEdge .same ⟨⟨3⟩, ⟨3⟩, .directed⟩,
   .addEdge .same ⟨⟨0⟩, ⟨2⟩, .undirected⟩, .removeNode 1, .addEdge .same ⟨⟨2⟩, ⟨0⟩, .directed⟩]

example : Dag.getChildren .same (Dag.run c01_ops) 2 = [0] ∧
    Dag.getChildren .same (Dag.run (c01_ops.take 5)) 0 = [1] ∧
    Dag.getChildren .same (Dag.run (c01_ops.take 5)) 2 = [] := by decide +kernel

/-- C01 on these calls: from 0 the children lead to 1 and 2 but never back -/
example : Acyclic (fun a b => b ∈ Dag.getChildren .rev (Dag.run c01_ops) a) ∧
    (0 ∈ (Dag.run c01_ops).getParents 2 ↔ 2 ∈ Dag.getChildren .rev (Dag.run c01_ops) 0) :=
  ⟨c01_dag_acyclic c01_ops .rev, (c01_dag_api_agrees c01_ops .rev 0 2).2⟩

/-! ## C02 -/

/-- when the documentation says an edge belongs in the DAG whose child relation is `R` -/
def DagAccepts (R : Int → Int → Prop) (e : Edge N) : Prop :=
  e.type = .directed ∧ nid e.i ≠ nid e.j ∧ ¬ R (nid e.i) (nid e.j) ∧ ¬ R (nid e.j) (nid e.i) ∧
    ¬ ReflTransGen R (nid e.j) (nid e.i)

/-- **C02**. `add_edge` inserts exactly the acceptable edges: an acceptable edge is listed afterwards and is the only new
parent/child pair; any other edge leaves edges and children as they were. Both end nodes are in the graph afterwards in
either case. (The search inside is the fuel-bounded model of `PathDetector`; that this equivalence holds without any
bound shows that the fuel never runs out.) -/
theorem c02_dag_add_edge_exact (ops : List (GOp N)) (it it' : SetIter Int) (e : Edge N) :
    let g := Dag.run ops
    let g' := Dag.addEdge it g e
    let R := fun a b => b ∈ Dag.getChildren it' g a
    (DagAccepts R e → e ∈ g'.getEdges ∧
      ∀ a b, b ∈ Dag.getChildren it' g' a ↔ (a = nid e.i ∧ b = nid e.j) ∨ R a b) ∧
    (¬ DagAccepts R e → g'.getEdges = g.getEdges ∧ ∀ a, Dag.getChildren it' g' a = Dag.getChildren it' g a) ∧
    (nid e.i ∈ Dict.keys g'.nodes ∧ nid e.j ∈ Dict.keys g'.nodes) := by
  intro g g' R
  have hR : R = emRel g := by funext a b; exact propext (dag_children_rel it' g a b)
  have h := (dag_run_inv ops).toGInv
  have h2 := (h.addNode e.i).addNode e.j
  have hj : nid e.j ∈ Dict.keys ((g.addNode e.i).addNode e.j).nodes := by
    rw [addNode_keys]; exact Or.inl rfl
  have hi : nid e.i ∈ Dict.keys ((g.addNode e.i).addNode e.j).nodes := by
    rw [addNode_keys, addNode_keys]; exact Or.inr (Or.inl rfl)
  have hs := dag_should_iff it h2 e hj
  have hs : Dag.shouldAdd it ((g.addNode e.i).addNode e.j) e = true ↔ DagAccepts R e := by
    rw [hs, hR]; exact Iff.rfl
  refine ⟨?_, ?_, ?_⟩
  · intro hacc
    have hg' : g' = ((g.addNode e.i).addNode e.j).insertEdge e := by
      simp only [g', Dag.addEdge, Graph.addEdgeWith, hs.2 hacc, if_true]
    rw [hg']
    refine ⟨mem_getEdges_self _ _, ?_⟩
    intro a b
    rw [dag_children_rel, emRel, insertEdge_em, hR]
    have : e.type ≠ .undirected := by rw [hacc.1]; decide
    simp only [this, false_and, false_or]
    exact Iff.rfl
  · intro hacc
    have hg' : g' = ((g.addNode e.i).addNode e.j) := by
      simp only [g', Dag.addEdge, Graph.addEdgeWith]
      rw [if_neg (fun hh => hacc (hs.1 hh))]
    rw [hg']
    exact ⟨rfl, fun a => rfl⟩
  · have : g'.nodes = ((g.addNode e.i).addNode e.j).nodes := by
      simp only [g', Dag.addEdge, Graph.addEdgeWith]
      split <;> rfl
    rw [this]
    exact ⟨hi, hj⟩

/-- both branches of C02 occur -/
example : let g := Dag.run (c01_ops.take 2)
    (Dag.addEdge .same g ⟨⟨0⟩, ⟨2⟩, .directed⟩).getEdges.length = 3 ∧
    (Dag.addEdge .same g ⟨⟨2⟩, ⟨0⟩, .directed⟩).getEdges.length = 2 := by decide +kernel

/-- C02 at the edge 2 → 0, which would close a cycle -/
example := c02_dag_add_edge_exact (c01_ops.take 2) .same .rev ⟨⟨2⟩, ⟨0⟩, .directed⟩

/-! ## C03 -/

/-- the network relation of a `Bbn`: `p` is an immediate parent of `c` -/
def BbnEdge (b : Bbn) (p c : Int) : Prop := ∃ e ∈ b.toGraph.getEdges, e.i.var.id = p ∧ e.j.var.id = c

/-- a `Bbn` contains exactly the edges that were requested -/
theorem c03_bbn_edges_requested (ops : List BOp) (p c : Int) :
    BbnEdge (Bbn.run ops) p c ↔ (p, c) ∈ BOp.edges ops := by
  have key : ∀ (l : List BOp) (b : Bbn), BbnInv b → ∀ p c, (emRel (l.foldl BOp.step b).toGraph p c ↔
      emRel b.toGraph p c ∨ (p, c) ∈ BOp.edges l) := by
    intro l
    induction l with
    | nil => intro b _ p c; simp [BOp.edges]
    | cons op l ih =>
      intro b hb p c
      rw [List.foldl_cons, ih _ (hb.step op)]
      cases op with
      | addNode n => simp [BOp.step, Bbn.addNode, emRel, Graph.addNode, BOp.edges]
      | addEdge i j =>
        simp only [BOp.step, bbn_addEdge_em]
        simp only [BOp.edges, List.filterMap_cons, List.mem_cons, Prod.mk.injEq]
        tauto
  have h := bbn_run_inv ops
  have e : BbnEdge (Bbn.run ops) p c ↔ emRel (Bbn.run ops).toGraph p c := by
    constructor
    · rintro ⟨e, he, rfl, rfl⟩; exact h.einv.em e he
    · intro h2; exact h.listed p c h2
  rw [e]
  have := key ops Bbn.empty BbnInv.empty p c
  simp only [Bbn.run]
  rw [this]
  simp [emRel, Bbn.empty, ddGet, Dict.get?]

/-- **C03, partial**. Full statement (false of the code, see `c03_false`): every `Bbn.run ops` is acyclic. What holds: the
network is acyclic exactly when the edges requested by the caller are. -/
theorem c03_bbn_acyclic_partial (ops : List BOp) :
    Acyclic (BbnEdge (Bbn.run ops)) ↔ Acyclic (fun p c => (p, c) ∈ BOp.edges ops) := by
  have : BbnEdge (Bbn.run ops) = fun p c => (p, c) ∈ BOp.edges ops := by
    funext p c; exact propext (c03_bbn_edges_requested ops p c)
  rw [this]

/-- a two-valued node -/
def mkNode (id : Int) (name : String) (probs : List ℚ) : BbnNode :=
  ⟨⟨id, name.toList, ["on".toList, "off".toList]⟩, probs⟩

def n0 : BbnNode := mkNode 0 "a" [1/2, 1/2]
def n1 : BbnNode := mkNode 1 "b" [1/2, 1/2, 1/4, 3/4]
def n2 : BbnNode := mkNode 2 "c" [1/2, 1/2, 1/4, 3/4]

/-- **C03 is false of the code**: `Bbn` accepts a two-node cycle, and a self loop. -/
theorem c03_false :
    (¬ Acyclic (BbnEdge (Bbn.run [.addEdge n0 n1, .addEdge n1 n0]))) ∧
    (¬ Acyclic (BbnEdge (Bbn.run [.addEdge n0 n0]))) := by
  constructor
  · intro h
    refine h 0 ?_
    refine TransGen.tail (TransGen.single (b := 1) ?_) ?_
    · rw [c03_bbn_edges_requested]; decide +kernel
    · rw [c03_bbn_edges_requested]; decide +kernel
  · intro h
    refine h 0 (TransGen.single ?_)
    rw [c03_bbn_edges_requested]; decide +kernel

/-- non-vacuity of the partial statement: an acyclic network -/
example : Acyclic (BbnEdge (Bbn.run [.addEdge n0 n1, .addEdge n1 n2, .addNode n0])) := by
  rw [c03_bbn_acyclic_partial]
  have : ∀ a b : Int, TransGen (fun p c => (p, c) ∈ BOp.edges [.addEdge n0 n1, .addEdge n1 n2, .addNode n0]) a b →
      a < b := by
    intro a b h
    have hs : ∀ p c : Int, (p, c) ∈ BOp.edges [.addEdge n0 n1, .addEdge n1 n2, .addNode n0] → p < c := by
      intro p c hm
      simp [BOp.edges, n0, n1, n2, mkNode] at hm
      omega
    induction h with
    | single h => exact hs _ _ h
    | tail _ h ih => exact lt_trans ih (hs _ _ h)
  intro a h
  exact lt_irrefl _ (this a a h)

/-! ## C04 -/

/-- **C04**. Bookkeeping of `Graph`/`Ug` after any call sequence. -/
theorem c04_graph_consistent (ops : List (GOp N)) (a b : Int) :
    let g := Graph.run ops
    (b ∈ g.getNeighbors a ↔ a ∈ g.getNeighbors b) ∧
    a ∉ g.getNeighbors a ∧
    (b ∈ g.getNeighbors a → a ∈ g.getNodes.map nid ∧ b ∈ g.getNodes.map nid) ∧
    (g.edgeExists a b = true ↔ b ∈ g.getNeighbors a) := by
  intro g
  have h := graph_run_inv ops
  have hirr := graph_run_irrefl ops
  have hnodes : ∀ k, k ∈ Dict.keys g.nodes → k ∈ g.getNodes.map nid := by
    intro k hk
    obtain ⟨n, hn⟩ := Dict.exists_get?_of_mem_keys hk
    simp only [Graph.getNodes, Dict.values, List.map_map, List.mem_map]
    exact ⟨_, Dict.mem_of_get? hn, h.key _ _ hn⟩
  refine ⟨?_, ?_, ?_, ?_⟩
  · rw [h.nb, h.nb]; tauto
  · rw [h.nb]
    have := hirr a
    unfold emRel at this
    tauto
  · intro hb
    rw [h.nb] at hb
    rcases hb with hb | hb
    · have := h.emNodes _ _ hb
      exact ⟨hnodes _ this.1, hnodes _ this.2⟩
    · have := h.emNodes _ _ hb
      exact ⟨hnodes _ this.2, hnodes _ this.1⟩
  · rw [h.nb]
    simp [Graph.edgeExists, g]

/-- only undirected edges are requested -/
def UndirectedOps (ops : List (GOp N)) : Prop := ∀ it e, GOp.addEdge it e ∈ ops → e.type = .undirected

theorem ug_symm (ops : List (GOp N)) (hu : UndirectedOps ops) :
    ∀ a b, emRel (Graph.run ops) a b → emRel (Graph.run ops) b a := by
  have : ∀ (l : List (GOp N)) (g : Graph N), UndirectedOps l → (∀ a b, emRel g a b → emRel g b a) →
      ∀ a b, emRel (l.foldl (GOp.step (fun _ => Graph.addEdge)) g) a b →
        emRel (l.foldl (GOp.step (fun _ => Graph.addEdge)) g) b a := by
    intro l
    induction l with
    | nil => intro g _ h; exact h
    | cons op l ih =>
      intro g hl h
      rw [List.foldl_cons]
      refine ih _ (fun it e he => hl it e (List.mem_cons_of_mem _ he)) ?_
      cases op with
      | addNode n => exact h
      | addEdge it e =>
        have ht := hl it e List.mem_cons_self
        intro a b
        simp only [GOp.step, Graph.addEdge, Graph.addEdgeWith]
        split
        · unfold emRel
          rw [insertEdge_em, insertEdge_em]
          have := h a b
          unfold emRel at this
          simp only [ht, true_and]
          rintro (⟨h1, h2⟩ | ⟨h1, h2⟩ | h1)
          · exact Or.inr (Or.inl ⟨h2, h1⟩)
          · exact Or.inl ⟨h2, h1⟩
          · exact Or.inr (Or.inr (this h1))
        · exact h a b
      | removeNode id =>
        intro a b hab
        have := (removeNode_em g id a b).1 hab
        exact (removeNode_em g id b a).2 ⟨this.2.1, this.1, h a b this.2.2⟩
  exact this ops _ hu (by intro a b h; simp [emRel, Graph.empty, ddGet, Dict.get?] at h)

/-- **C04**, second part: in an undirected graph, adding an edge between neighbors (in either direction) changes
nothing at all. -/
theorem c04_ug_readd_idempotent (ops : List (GOp N)) (hu : UndirectedOps ops) (e : Edge N)
    (ht : e.type = .undirected) (hn : nid e.j ∈ (Graph.run ops).getNeighbors (nid e.i)) :
    (Graph.run ops).addEdge e = Graph.run ops := by
  have h := graph_run_inv ops
  have hs := ug_symm ops hu
  rw [h.nb] at hn
  have h1 : emRel (Graph.run ops) (nid e.i) (nid e.j) := hn.elim id (hs _ _)
  have h2 : emRel (Graph.run ops) (nid e.j) (nid e.i) := hs _ _ h1
  have hk := h.emNodes _ _ h1
  have e1 : ((Graph.run ops).addNode e.i) = Graph.run ops := by
    simp only [Graph.addNode, Dict.setDefault_of_mem hk.1]
  have e2 : ((Graph.run ops).addNode e.j) = Graph.run ops := by
    simp only [Graph.addNode, Dict.setDefault_of_mem hk.2]
  unfold Graph.addEdge Graph.addEdgeWith
  simp only [e1, e2]
  rw [if_neg]
  unfold emRel at h1 h2
  simp [Graph.shouldAdd, ht, h1, h2]

def c04_ops : List (GOp Node) :=
  [.addEdge .same ⟨⟨0⟩, ⟨1⟩, .undirected⟩, .addEdge .same ⟨⟨1⟩, ⟨2⟩, .undirected⟩, .addNode ⟨5⟩,
   .addEdge .same ⟨⟨2⟩, ⟨0⟩, .undirected⟩, .removeNode 0]

example : UndirectedOps c04_ops ∧ (2 : Int) ∈ (Graph.run c04_ops).getNeighbors 1 := by
  constructor
  · intro it e h
    simp [c04_ops] at h
    rcases h with h | h | h <;> simp [h.2]
  · decide +kernel

/-- the bookkeeping of C04 for the neighbors 1, 2 of this graph; adding the edge 2 – 1 again changes nothing -/
example : ((2 : Int) ∈ (Graph.run c04_ops).getNeighbors 1 ↔ (1 : Int) ∈ (Graph.run c04_ops).getNeighbors 2) ∧
    (Graph.run c04_ops).addEdge ⟨⟨2⟩, ⟨1⟩, .undirected⟩ = Graph.run c04_ops :=
  ⟨(c04_graph_consistent c04_ops 1 2).1,
    c04_ug_readd_idempotent c04_ops
      (by intro it e h; simp [c04_ops] at h; rcases h with h | h | h <;> simp [h.2]) ⟨⟨2⟩, ⟨1⟩, .undirected⟩ rfl (by decide +kernel)⟩

/-! ## C05 -/

/-- **C05, partial**. Full statement: additionally `get_edges()` contains no edge touching `id` (false, see
`c05_false`). -/
theorem c05_remove_node_partial (ops : List (GOp N)) (id : Int) :
    let g := (Graph.run ops).removeNode id
    id ∉ g.getNodes.map nid ∧ (∀ a, id ∉ g.getNeighbors a) ∧ g.getNeighbors id = [] ∧
      (∀ a, g.edgeExists a id = false ∧ g.edgeExists id a = false) ∧
      (∀ k, k ≠ id → (k ∈ g.getNodes.map nid ↔ k ∈ (Graph.run ops).getNodes.map nid)) ∧
      (∀ a b, a ≠ id → b ≠ id → (b ∈ g.getNeighbors a ↔ b ∈ (Graph.run ops).getNeighbors a)) := by
  intro g
  have h := graph_run_inv ops
  have hg : GInv g := h.removeNode id
  have hkeys : ∀ {g : Graph N}, GInv g → ∀ k, k ∈ g.getNodes.map nid ↔ k ∈ Dict.keys g.nodes := by
    intro g hg k
    simp only [Graph.getNodes, Dict.values, List.map_map, List.mem_map]
    constructor
    · rintro ⟨⟨k', n⟩, hm, rfl⟩
      have h1 := Dict.get?_of_mem hg.nodup hm
      have := hg.key _ _ h1
      simp only [Function.comp]
      rw [this]
      exact Dict.mem_keys_of_get? h1
    · intro hk
      obtain ⟨n, hn⟩ := Dict.exists_get?_of_mem_keys hk
      exact ⟨_, Dict.mem_of_get? hn, hg.key _ _ hn⟩
  have hem : ∀ a, a ∉ ddGet g.edgeMap id ∧ id ∉ ddGet g.edgeMap a := by
    intro a
    constructor
    · intro h2; exact ((removeNode_em _ id id a).1 h2).1 rfl
    · intro h2; exact ((removeNode_em _ id a id).1 h2).2.1 rfl
  refine ⟨?_, ?_, ?_, ?_, ?_, ?_⟩
  · rw [hkeys hg, removeNode_keys]; tauto
  · intro a h2; exact ((removeNode_nb _ id a id).1 h2).2.1 rfl
  · apply List.eq_nil_iff_forall_not_mem.2
    intro a h2; exact ((removeNode_nb _ id id a).1 h2).1 rfl
  · intro a
    have := hem a
    simp [Graph.edgeExists, this.1, this.2]
  · intro k hk
    rw [hkeys hg, hkeys h, removeNode_keys]; tauto
  · intro a b ha hb
    rw [removeNode_nb]; tauto

/-- **C05 is false of the code** for `get_edges()`: the edge of a removed node stays listed. -/
theorem c05_false : ∃ (ops : List (GOp Node)) (id : Int) (e : Edge Node),
    e ∈ ((Graph.run ops).removeNode id).getEdges ∧ (nid e.i = id ∨ nid e.j = id) :=
  ⟨[.addEdge .same ⟨⟨0⟩, ⟨1⟩, .undirected⟩], 0, ⟨⟨0⟩, ⟨1⟩, .undirected⟩, by decide +kernel, Or.inl rfl⟩

example : (Graph.run c04_ops).getNodes.map nid = [1, 2, 5] ∧
    (Graph.run (c04_ops.take 4)).getNeighbors 1 = [0, 2] := by decide +kernel

/-- C05 for the triangle 0, 1, 2: removing 0 keeps the neighbors 1 and 2 -/
example : ((Graph.run (c04_ops.take 4)).removeNode 0).getNeighbors 0 = [] ∧
    ((2 : Int) ∈ ((Graph.run (c04_ops.take 4)).removeNode 0).getNeighbors 1 ↔
      (2 : Int) ∈ (Graph.run (c04_ops.take 4)).getNeighbors 1) :=
  have h := c05_remove_node_partial (c04_ops.take 4) 0
  ⟨h.2.2.1, h.2.2.2.2.2 1 2 (by decide) (by decide)⟩

/-! ## C06 -/

/-- **C06**, first part. No cycle of one-way edges as reported by `directed_edge_exists`. -/
theorem c06_pdag_acyclic (ops : List (GOp N)) :
    Acyclic (fun a b => Pdag.directedEdgeExists (Pdag.run ops) a b = true) := by
  refine acyclic_mono (pdag_run_inv ops).1.acyclic ?_
  intro a b h
  simp only [Pdag.directedEdgeExists, Bool.and_eq_true, decide_eq_true_eq] at h
  exact h

/-- **C06**, second part. Without removals, the listed edges join pairwise different pairs of nodes, and the listed
directed edges form no cycle. -/
theorem c06_pdag_edges (ops : List (GOp N)) (hops : ∀ id, GOp.removeNode id ∉ ops) :
    let g := Pdag.run ops
    g.getEdges.Pairwise (fun e f => ¬ ((nid e.i = nid f.i ∧ nid e.j = nid f.j) ∨
      (nid e.i = nid f.j ∧ nid e.j = nid f.i))) ∧
    Acyclic (fun a b => ∃ e ∈ g.getEdges, e.type = .directed ∧ nid e.i = a ∧ nid e.j = b) := by
  intro g
  refine ⟨(pdag_run_simple ops hops).2, ?_⟩
  refine acyclic_mono (pdag_run_inv ops).1.acyclic ?_
  have key : ∀ (l : List (GOp N)) (g : Graph N), (∀ id, GOp.removeNode id ∉ l) →
      ((∀ e ∈ g.getEdges, emRel g (nid e.i) (nid e.j) ∧ (e.type = .directed → ¬ emRel g (nid e.j) (nid e.i)))) →
      (let g' := l.foldl (GOp.step Pdag.addEdge) g
       ∀ e ∈ g'.getEdges, emRel g' (nid e.i) (nid e.j) ∧ (e.type = .directed → ¬ emRel g' (nid e.j) (nid e.i))) := by
    intro l
    induction l with
    | nil => intro g _ h; exact h
    | cons op l ih =>
      intro g hl h
      rw [List.foldl_cons]
      refine ih _ (fun id hid => hl id (List.mem_cons_of_mem _ hid)) ?_
      cases op with
      | removeNode id => exact absurd List.mem_cons_self (hl id)
      | addNode n => exact h
      | addEdge it e =>
        intro f hf
        simp only [GOp.step, Pdag.addEdge, Graph.addEdgeWith] at hf ⊢
        split
        · rename_i hs
          rw [if_pos hs] at hf
          have hnew : nid e.i ≠ nid e.j ∧ ¬ emRel g (nid e.i) (nid e.j) ∧ ¬ emRel g (nid e.j) (nid e.i) := by
            unfold Pdag.shouldAdd at hs
            split at hs
            · simp at hs
            · rename_i hne
              split at hs
              · rename_i hh; exact ⟨hne, hh⟩
              · simp at hs
          have hem : ∀ a b, emRel (((g.addNode e.i).addNode e.j).insertEdge e) a b ↔
              (a = nid e.i ∧ b = nid e.j) ∨ (e.type = .undirected ∧ a = nid e.j ∧ b = nid e.i) ∨ emRel g a b := by
            intro a b; unfold emRel; rw [insertEdge_em]; exact Iff.rfl
          rw [hem, hem]
          rcases mem_getEdges_insert hf with rfl | hf
          · refine ⟨Or.inl ⟨rfl, rfl⟩, ?_⟩
            rintro ht (⟨h1, _⟩ | ⟨h1, _⟩ | h1)
            · exact hnew.1 h1.symm
            · rw [ht] at h1; exact absurd h1 (by decide)
            · exact hnew.2.2 h1
          · obtain ⟨h1, h2⟩ := h f hf
            refine ⟨Or.inr (Or.inr h1), ?_⟩
            rintro ht (⟨h3, h4⟩ | ⟨_, h3, h4⟩ | h3)
            · rw [h3, h4] at h1; exact hnew.2.2 h1
            · rw [h3, h4] at h1; exact hnew.2.1 h1
            · exact h2 ht h3
        · rename_i hs
          rw [if_neg hs] at hf
          exact h f hf
  have := key ops Graph.empty hops (by simp [Graph.empty, Graph.getEdges, Dict.values])
  rintro a b ⟨e, he, ht, rfl, rfl⟩
  exact ⟨(this e he).1, (this e he).2 ht⟩

/-- directed and undirected edges; the third and the last call are refused -/
def c06_ops : List (GOp Node) :=
  [.addEdge .same ⟨⟨0⟩, ⟨1⟩, .directed⟩, .addEdge .same ⟨⟨1⟩, ⟨2⟩, .directed⟩,
   .addEdge .same ⟨⟨2⟩, ⟨0⟩, .directed⟩, .addEdge .rev ⟨⟨3⟩, ⟨2⟩, .undirected⟩, .addEdge .rev ⟨⟨2⟩, ⟨3⟩, .directed⟩]

example : (Pdag.run c06_ops).getEdges.map (fun e => (e.i.id, e.j.id)) = [(0, 1), (1, 2), (3, 2)] := by decide +kernel

/-- both parts of C06 for these calls, which remove no node -/
example := c06_pdag_acyclic c06_ops
example := c06_pdag_edges c06_ops (by intro id h; simp [c06_ops] at h)

/-! ## C07 -/

theorem firsts_append {α : Type} [DecidableEq α] (l : List α) (x : α) :
    firsts (l ++ [x]) = if x ∈ l then firsts l else firsts l ++ [x] := by
  induction l with
  | nil => simp [firsts]
  | cons y l ih =>
    simp only [List.cons_append, firsts, ih]
    by_cases h1 : x ∈ l
    · simp [h1]
    · by_cases h2 : x = y
      · subst h2; simp [h1]
      · simp [h1, h2]

theorem mem_firsts {α : Type} [DecidableEq α] (l : List α) (x : α) : x ∈ firsts l ↔ x ∈ l := by
  induction l with
  | nil => simp [firsts]
  | cons y l ih =>
    simp only [firsts, List.mem_cons, List.mem_filter, ih, decide_eq_true_eq]
    tauto

/-- **C07**. The parent list kept for a node is the list of the requested parents in the order of their first
edge, each once; `get_parents` lists the same parents, and `get_parents_ordered` is that list sorted. -/
theorem c07_parents_first_insertion (ops : List BOp) (c : Int) :
    let requested := ((BOp.edges ops).filter (fun pc => decide (pc.2 = c))).map Prod.fst
    ddGet (Bbn.run ops).parents c = firsts requested ∧
    (ddGet (Bbn.run ops).parents c).Nodup ∧
    (∀ p, p ∈ (Bbn.run ops).toGraph.getParents c ↔ p ∈ requested) ∧
    ((Bbn.run ops).toGraph.getParents c).Nodup ∧
    ((Bbn.run ops).getParentsOrdered c).Perm (firsts requested) ∧
    ((Bbn.run ops).getParentsOrdered c).Pairwise (· < ·) := by
  intro requested
  have h := bbn_run_inv ops
  have key : ∀ (l : List BOp), ddGet (Bbn.run l).parents c =
      firsts (((BOp.edges l).filter (fun pc => decide (pc.2 = c))).map Prod.fst) := by
    intro l
    induction l using List.reverseRecOn with
    | nil => simp [Bbn.run, Bbn.empty, ddGet, Dict.get?, BOp.edges, firsts]
    | append_singleton l op ih =>
      simp only [Bbn.run, List.foldl_append, List.foldl_cons, List.foldl_nil] at ih ⊢
      cases op with
      | addNode n =>
        have : BOp.edges (l ++ [BOp.addNode n]) = BOp.edges l := by simp [BOp.edges]
        rw [this]
        exact ih
      | addEdge i j =>
        have he : BOp.edges (l ++ [BOp.addEdge i j]) = BOp.edges l ++ [(i.var.id, j.var.id)] := by
          simp [BOp.edges]
        rw [he]
        simp only [BOp.step, bbn_addEdge_parents, ddGet_edgeAdded, ih]
        simp only [nid, List.filter_append, List.map_append]
        by_cases hc : c = j.var.id
        · subst hc
          simp only [if_true, List.filter_cons, decide_true, List.filter_nil, List.map_cons, List.map_nil,
            firsts_append, setAdd, mem_firsts]
        · have : ¬ j.var.id = c := fun e => hc e.symm
          simp [hc, this]
  have hmem : ∀ p, p ∈ (Bbn.run ops).toGraph.getParents c ↔ p ∈ requested := by
    intro p
    rw [mem_getParents _ h.emNodup, ← h.par, key ops, mem_firsts]
  have hperm : ((Bbn.run ops).getParentsOrdered c).Perm (firsts requested) := by
    unfold Bbn.getParentsOrdered
    rw [key ops]
    exact sortBy_perm _ _
  refine ⟨key ops, h.parNodup c, hmem, ?_, hperm, ?_⟩
  · unfold Graph.getParents
    exact List.Nodup.sublist (List.Sublist.map _ List.filter_sublist) h.emNodup
  · exact sortInts_strict (l := ddGet (Bbn.run ops).parents c) (h.parNodup c)

example : ddGet (Bbn.run [.addEdge n2 n1, .addEdge n0 n1, .addEdge n2 n1]).parents 1 = [2, 0] ∧
    (Bbn.run [.addEdge n2 n1, .addEdge n0 n1, .addEdge n2 n1]).getParentsOrdered 1 = [0, 2] := by decide +kernel

/-- C07 for node 1 of this network -/
example := c07_parents_first_insertion [.addEdge n2 n1, .addEdge n0 n1, .addEdge n2 n1] 1

/-! ## C08 -/

/-- **C08**, cliques: equal ids only for equal id sets. -/
theorem c08_clique_id_injective (c d : Clique) (hc : (c.nodes.map Variable.id).Nodup)
    (hd : (d.nodes.map Variable.id).Nodup) :
    c.id = d.id ↔ ∀ x, x ∈ c.nodes.map Variable.id ↔ x ∈ d.nodes.map Variable.id := by
  unfold Clique.id
  constructor
  · intro h
    exact (sortInts_eq_iff hc hd).1 (joinInts_inj h)
  · intro h
    have e : sortInts c.nodeIds = sortInts d.nodeIds := (sortInts_eq_iff hc hd).2 h
    rw [e]

/-- **C08**, separation sets: equal ids only for the same ordered pair of cliques (as id sets). -/
theorem c08_sepset_id_injective (c d c' d' : Clique)
    (hc : (c.nodes.map Variable.id).Nodup) (hd : (d.nodes.map Variable.id).Nodup)
    (hc' : (c'.nodes.map Variable.id).Nodup) (hd' : (d'.nodes.map Variable.id).Nodup)
    (hne : ∃ x, x ∈ c.nodes.map Variable.id ∧ x ∈ d.nodes.map Variable.id)
    (hne' : ∃ x, x ∈ c'.nodes.map Variable.id ∧ x ∈ d'.nodes.map Variable.id) :
    (SepSet.mk' c d).id = (SepSet.mk' c' d').id ↔ (c.id = c'.id ∧ d.id = d'.id) := by
  have hn : ∀ c d : Clique, (∃ x, x ∈ c.nodes.map Variable.id ∧ x ∈ d.nodes.map Variable.id) →
      c.nodeIds.filter (fun x => decide (x ∈ d.nodeIds)) ≠ [] := by
    rintro c d ⟨x, h1, h2⟩ h3
    have : x ∈ c.nodeIds.filter (fun x => decide (x ∈ d.nodeIds)) := by
      rw [List.mem_filter]; exact ⟨h1, by simpa [Clique.nodeIds] using h2⟩
    rw [h3] at this; simp at this
  have hid : ∀ c d : Clique, (∃ x, x ∈ c.nodes.map Variable.id ∧ x ∈ d.nodes.map Variable.id) →
      (SepSet.mk' c d).id = joinStr "-".toList ((sortInts c.nodeIds ++
        sortInts (c.nodeIds.filter (fun x => decide (x ∈ d.nodeIds))) ++ sortInts d.nodeIds).map strInt) := by
    intro c d h
    simp only [SepSet.mk', Clique.intersects, hn c d h, if_false]
  rw [hid c d hne, hid c' d' hne']
  have hss : ∀ c d : Clique, ∀ x ∈ sortInts (c.nodeIds.filter (fun x => decide (x ∈ d.nodeIds))),
      x ∈ sortInts c.nodeIds ∧ x ∈ sortInts d.nodeIds := by
    intro c d x hx
    rw [(sortInts_perm _).mem_iff, List.mem_filter] at hx
    rw [(sortInts_perm _).mem_iff, (sortInts_perm _).mem_iff]
    exact ⟨hx.1, by simpa using hx.2⟩
  have hnn : ∀ c d : Clique, (∃ x, x ∈ c.nodes.map Variable.id ∧ x ∈ d.nodes.map Variable.id) →
      sortInts (c.nodeIds.filter (fun x => decide (x ∈ d.nodeIds))) ≠ [] :=
    fun c d h => sortBy_ne_nil _ (hn c d h)
  constructor
  · intro h
    have h := joinInts_inj h
    have := sepList_inj (sortInts_strict hc) (sortInts_strict (List.Nodup.filter _ hc)) (sortInts_strict hd)
      (sortInts_strict hc') (sortInts_strict (List.Nodup.filter _ hc')) (sortInts_strict hd')
      (hnn c d hne) (hnn c' d' hne')
      (fun x hx => (hss c d x hx).1) (fun x hx => (hss c d x hx).2)
      (fun x hx => (hss c' d' x hx).1) (fun x hx => (hss c' d' x hx).2) h
    have h1 : sortInts c.nodeIds = sortInts c'.nodeIds := this.1
    have h2 : sortInts d.nodeIds = sortInts d'.nodeIds := this.2.2
    unfold Clique.id
    rw [h1, h2]
    exact ⟨rfl, rfl⟩
  · rintro ⟨h1, h2⟩
    have e1 := joinInts_inj h1
    have e2 := joinInts_inj h2
    have m1 := (sortInts_eq_iff hc hc').1 e1
    have m2 := (sortInts_eq_iff hd hd').1 e2
    have e3 : sortInts (c.nodeIds.filter (fun x => decide (x ∈ d.nodeIds))) =
        sortInts (c'.nodeIds.filter (fun x => decide (x ∈ d'.nodeIds))) := by
      refine (sortInts_eq_iff (List.Nodup.filter _ hc) (List.Nodup.filter _ hc')).2 ?_
      intro x
      simp only [List.mem_filter, decide_eq_true_eq]
      exact and_congr (m1 x) (m2 x)
    rw [e1, e2, e3]

/-- **C08**, a clique and a separation set never share an id. -/
theorem c08_clique_sepset_disjoint (k c d : Clique) (hk : (k.nodes.map Variable.id).Nodup)
    (hne : ∃ x, x ∈ c.nodes.map Variable.id ∧ x ∈ d.nodes.map Variable.id) :
    k.id ≠ (SepSet.mk' c d).id := by
  have hn : c.nodeIds.filter (fun x => decide (x ∈ d.nodeIds)) ≠ [] := by
    obtain ⟨x, h1, h2⟩ := hne
    intro h3
    have : x ∈ c.nodeIds.filter (fun x => decide (x ∈ d.nodeIds)) := by
      rw [List.mem_filter]; exact ⟨h1, by simpa [Clique.nodeIds] using h2⟩
    rw [h3] at this; simp at this
  intro h
  simp only [SepSet.mk', Clique.intersects, hn, if_false] at h
  unfold Clique.id at h
  refine sepList_ne_strict (sortInts_strict hk) (sortBy_ne_nil _ hn) ?_ (joinInts_inj h)
  intro x hx
  have hx := (sortInts_perm _).mem_iff.1 hx
  rw [List.mem_filter] at hx
  exact (sortInts_perm _).mem_iff.2 hx.1

/-- ids with negative numbers: the separators and signs do not get confused -/
example : let v := fun i : Int => (⟨i, [], []⟩ : Variable)
    (Clique.mk [v 2, v (-1)]).id = "-1-2".toList ∧ (Clique.mk [v 12, v 1]).id = "1-12".toList ∧
    (SepSet.mk' ⟨[v 1, v (-2)]⟩ ⟨[v 3, v 1]⟩).id = "-2-1-1-1-3".toList := by decide +kernel

/-- the hypotheses of C08 for cliques that overlap, one of them with a negative id -/
example : let v := fun i : Int => (⟨i, [], []⟩ : Variable)
    let c : Clique := ⟨[v 1, v (-2)]⟩
    let d : Clique := ⟨[v 3, v 1]⟩
    let k : Clique := ⟨[v 3, v 1, v (-2)]⟩
    c.id ≠ d.id ∧ (SepSet.mk' c d).id ≠ (SepSet.mk' d c).id ∧ k.id ≠ (SepSet.mk' c d).id := by
  intro v c d k
  have hc : (c.nodes.map Variable.id).Nodup := by decide +kernel
  have hd : (d.nodes.map Variable.id).Nodup := by decide +kernel
  refine ⟨?_, ?_, ?_⟩
  · rw [ne_eq, c08_clique_id_injective c d hc hd]
    intro h
    exact absurd ((h 3).2 (by decide +kernel)) (by decide +kernel)
  · rw [ne_eq, c08_sepset_id_injective c d d c hc hd hd hc ⟨1, by decide +kernel, by decide +kernel⟩
      ⟨1, by decide +kernel, by decide +kernel⟩]
    decide +kernel
  · exact c08_clique_sepset_disjoint k c d (by decide +kernel) ⟨1, by decide +kernel, by decide +kernel⟩

/-! ## C51 -/

/-- **C51**, `get_i2n`: every node id is mapped to the name of its node, and nothing else is mapped. -/
theorem c51_i2n (ops : List BOp) (i : Int) (s : Str) :
    Dict.get? (Bbn.run ops).getI2n i = some s ↔ ∃ n ∈ (Bbn.run ops).toGraph.getNodes, n.var.id = i ∧ n.var.name = s := by
  have h := bbn_run_inv ops
  unfold Bbn.getI2n
  constructor
  · intro hg
    rw [get?_foldl_last] at hg
    cases hf : (Bbn.run ops).nodes.reverse.find? (fun kv => decide (kv.1 = i)) with
    | none => rw [hf] at hg; simp [Dict.get?] at hg
    | some kv =>
      rw [hf] at hg
      have h1 := List.find?_some hf
      simp only [decide_eq_true_eq] at h1
      have h2 := List.mem_reverse.1 (List.mem_of_find?_eq_some hf)
      have h3 : Dict.get? (Bbn.run ops).nodes kv.1 = some kv.2 := Dict.get?_of_mem h.ginv.nodup h2
      have h4 := h.ginv.key _ _ h3
      refine ⟨kv.2, (Dict.mem_values_iff h.ginv.nodup _).2 ⟨kv.1, h3⟩, ?_, Option.some.inj hg⟩
      rw [← h1]; exact h4
  · rintro ⟨n, hn, rfl, rfl⟩
    obtain ⟨k, hk⟩ := (Dict.mem_values_iff h.ginv.nodup n).1 hn
    have hid : n.var.id = k := h.ginv.key _ _ hk
    refine get?_foldl_of (f := Prod.fst) (g := fun kv : Int × BbnNode => kv.2.var.name) ?_ ?_
    · exact ⟨(k, n), Dict.mem_of_get? hk, hid.symm⟩
    · intro kv hkv e
      have h3 : Dict.get? (Bbn.run ops).nodes kv.1 = some kv.2 := Dict.get?_of_mem h.ginv.nodup hkv
      rw [e, hid, hk] at h3
      rw [Option.some.inj h3]

/-- **C51**, `get_n2i`: a name is mapped to the id of the node with that name that was added last, and names of no node are not
mapped. -/
theorem c51_n2i (ops : List BOp) (s : Str) :
    Dict.get? (Bbn.run ops).getN2i s =
      (((Bbn.run ops).toGraph.getNodes.filter (fun n => decide (n.var.name = s))).getLast?).map (fun n => n.var.id) := by
  have h := bbn_run_inv ops
  unfold Bbn.getN2i
  rw [get?_foldl_last]
  have hl : (Bbn.run ops).toGraph.getNodes = (Bbn.run ops).nodes.map Prod.snd := rfl
  rw [hl, List.filter_map, List.getLast?_map, Option.map_map, ← List.head?_reverse, ← List.filter_reverse, List.head?_filter]
  have hcomp : ((fun n : BbnNode => decide (n.var.name = s)) ∘ Prod.snd) = fun kv : Int × BbnNode => decide (kv.2.var.name = s) := rfl
  rw [hcomp]
  cases hf : (Bbn.run ops).nodes.reverse.find? (fun kv => decide (kv.2.var.name = s)) with
  | none => simp [Dict.get?]
  | some kv =>
    have h2 := List.mem_reverse.1 (List.mem_of_find?_eq_some hf)
    have h3 : Dict.get? (Bbn.run ops).nodes kv.1 = some kv.2 := Dict.get?_of_mem h.ginv.nodup h2
    have h4 : kv.2.var.id = kv.1 := h.ginv.key _ _ h3
    simp [h4]

/-- **C51**: when names are distinct the two maps are inverse to each other. -/
theorem c51_inverse (ops : List BOp) (hn : ((Bbn.run ops).toGraph.getNodes.map (fun n => n.var.name)).Nodup) (i : Int) (s : Str) :
    Dict.get? (Bbn.run ops).getN2i s = some i ↔ Dict.get? (Bbn.run ops).getI2n i = some s := by
  rw [c51_i2n, c51_n2i]
  constructor
  · intro h
    rw [Option.map_eq_some_iff] at h
    obtain ⟨n, h1, h2⟩ := h
    have := List.mem_of_getLast? h1
    rw [List.mem_filter, decide_eq_true_eq] at this
    exact ⟨n, this.1, h2, this.2⟩
  · rintro ⟨n, h1, rfl, rfl⟩
    have : (Bbn.run ops).toGraph.getNodes.filter (fun m => decide (m.var.name = n.var.name)) = [n] := by
      revert h1 hn
      generalize (Bbn.run ops).toGraph.getNodes = l
      intro hn h1
      induction l with
      | nil => simp at h1
      | cons m l ih =>
        rw [List.map_cons, List.nodup_cons] at hn
        rcases List.mem_cons.1 h1 with rfl | h1
        · rw [List.filter_cons_of_pos (by simp), List.filter_eq_nil_iff.2]
          intro k hk he
          rw [decide_eq_true_eq] at he
          exact hn.1 (he ▸ List.mem_map_of_mem hk)
        · rw [List.filter_cons_of_neg, ih hn.2 h1]
          rw [decide_eq_true_eq]
          intro he
          apply hn.1
          rw [he]
          exact List.mem_map.2 ⟨n, h1, rfl⟩
    rw [this]
    rfl

/-- C51 is not vacuous: three nodes, two of them with the same name -/
example : (Bbn.run [.addNode (mkNode 5 "a" []), .addEdge (mkNode 7 "b" []) (mkNode 3 "a" [])]).getN2i =
      [("a".toList, 3), ("b".toList, 7)] ∧
    (Bbn.run [.addNode (mkNode 5 "a" []), .addEdge (mkNode 7 "b" []) (mkNode 3 "a" [])]).getI2n =
      [(5, "a".toList), (7, "b".toList), (3, "a".toList)] := by decide +kernel

/-- with three different names the maps are inverse to each other -/
example : Dict.get? (Bbn.run [.addEdge n2 n1, .addEdge n0 n1]).getN2i "c".toList = some 2 ∧
    Dict.get? (Bbn.run [.addEdge n2 n1, .addEdge n0 n1]).getI2n 2 = some "c".toList :=
  have h : Dict.get? (Bbn.run [.addEdge n2 n1, .addEdge n0 n1]).getN2i "c".toList = some 2 := by decide +kernel
  ⟨h, (c51_inverse _ (by decide +kernel) 2 _).1 h⟩

end PyBBN
