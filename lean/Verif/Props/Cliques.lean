import Verif.Proofs.Cliques
import Verif.Props.Graphs

/-! # Moralization and triangulation: C12, C13

Networks are the results of arbitrary call sequences `ops` on a fresh `Bbn`; edges are described by the calls
(`BOp.edges ops`), cliques by the node ids they contain. -/

namespace PyBBN

/-- the moral graph of a set of edges: joined by an edge, or parents of a common child -/
def Moral (E : Int → Int → Prop) (x y : Int) : Prop :=
  x ≠ y ∧ (E x y ∨ E y x ∨ ∃ c, E x c ∧ E y c)

theorem parents_requested (ops : List BOp) (p c : Int) :
    p ∈ ddGet (Bbn.run ops).parents c ↔ (p, c) ∈ BOp.edges ops := by
  have h := (c07_parents_first_insertion ops c).1
  rw [h, mem_firsts]
  simp

theorem moralAdj_iff (ops : List BOp) (x y : Int) :
    MoralAdj (Bbn.run ops) x y ↔ Moral (fun p c => (p, c) ∈ BOp.edges ops) x y := by
  unfold MoralAdj Moral
  simp only [parents_requested]

/-- **C12**. The moralized graph has the nodes of the network (same ids, names and values, same order), and two nodes are
neighbors in it exactly when they are distinct and joined by an inserted edge or parents of a common child. -/
theorem c12_moral_graph (ops : List BOp) :
    (moralize (Bbn.run ops)).getNodes = (Bbn.run ops).toGraph.getNodes.map BbnNode.var ∧
    (∀ x y, y ∈ (moralize (Bbn.run ops)).getNeighbors x ↔ Moral (fun p c => (p, c) ∈ BOp.edges ops) x y) ∧
    (∀ x y, (moralize (Bbn.run ops)).edgeExists x y = true ↔ Moral (fun p c => (p, c) ∈ BOp.edges ops) x y) ∧
    (∀ e ∈ (moralize (Bbn.run ops)).getEdges, e.type = .undirected ∧
      Moral (fun p c => (p, c) ∈ BOp.edges ops) e.i.id e.j.id) := by
  obtain ⟨h1, h2, h3, h4⟩ := moralize_spec (bbn_run_inv ops)
  refine ⟨getNodes_nodeDict h3, ?_, ?_, ?_⟩
  · intro x y
    rw [h1.nb, h4, moralAdj_iff]
  · intro x y
    rw [h1.edgeExists, h4, moralAdj_iff]
  · intro e he
    refine ⟨h2.und e he, ?_⟩
    rw [← moralAdj_iff, ← h4]
    exact h2.einv.em e he

/-- five nodes: 0→2←1, 2→3, 1→4, 3→4 -/
def c12_ops : List BOp :=
  [.addEdge (mkNode 0 "a" []) (mkNode 2 "c" []), .addEdge (mkNode 1 "b" []) (mkNode 2 "c" []),
   .addEdge (mkNode 2 "c" []) (mkNode 3 "d" []), .addEdge (mkNode 1 "b" []) (mkNode 4 "e" []),
   .addEdge (mkNode 3 "d" []) (mkNode 4 "e" [])]

example : (moralize (Bbn.run c12_ops)).edgeExists 0 1 = true ∧ (moralize (Bbn.run c12_ops)).edgeExists 3 1 = true ∧
    (moralize (Bbn.run c12_ops)).edgeExists 0 3 = false ∧ (moralize (Bbn.run c12_ops)).getNeighbors 1 = [2, 4, 0, 3] := by
  decide +kernel

/-- C12 for this network -/
example := c12_moral_graph c12_ops

/-- **C13**. The triangulator is total (a terminating loop), and for every iteration order of the neighbor sets:
every clique consists of network nodes, without repetition and not empty; every node lies in a clique together with all its
parents; every edge of the moral graph (indeed every set of pairwise moral-adjacent nodes) lies in a clique; no clique is
contained in another one; and two nodes are adjacent in the filled-in graph exactly when some clique contains both, so every
clique is complete there and every fill-in edge is accounted for. -/
theorem c13_triangulation (it : SetIter Int) (ops : List BOp) :
    let r := Triangulator.triangulate it (moralize (Bbn.run ops))
    let E := fun p c => (p, c) ∈ BOp.edges ops
    (∀ c ∈ r.1, c.nodes ≠ [] ∧ (c.nodes.map Variable.id).Nodup ∧ ∀ u ∈ c.nodes, u ∈ (Bbn.run ops).vars) ∧
    (∀ v ∈ (Bbn.run ops).vars, ∃ c ∈ r.1, v ∈ c.nodes ∧ ∀ p, E p v.id → p ∈ c.nodes.map Variable.id) ∧
    (∀ Q : List Int, Q ≠ [] → (∀ i ∈ Q, i ∈ (Bbn.run ops).vars.map Variable.id) →
      (∀ x ∈ Q, ∀ y ∈ Q, x ≠ y → Moral E x y) → ∃ c ∈ r.1, ∀ i ∈ Q, i ∈ c.nodes.map Variable.id) ∧
    (r.1.Pairwise (fun c d => (∃ i ∈ c.nodes.map Variable.id, i ∉ d.nodes.map Variable.id) ∧
      ∃ i ∈ d.nodes.map Variable.id, i ∉ c.nodes.map Variable.id)) ∧
    (∀ x y, r.2.edgeExists x y = true ↔
      x ≠ y ∧ ∃ c ∈ r.1, x ∈ c.nodes.map Variable.id ∧ y ∈ c.nodes.map Variable.id) ∧
    (∀ x y, Moral E x y → r.2.edgeExists x y = true) ∧
    r.2.getNodes = (Bbn.run ops).vars := by
  intro r E
  have hinv := bbn_run_inv ops
  obtain ⟨hs, hf, hn, hu⟩ := triangulate_spec it hinv
  have hedge : ∀ x y, r.2.edgeExists x y = true ↔
      x ≠ y ∧ ∃ c ∈ r.1, x ∈ c.nodes.map Variable.id ∧ y ∈ c.nodes.map Variable.id := by
    intro x y
    rw [hu.edgeExists, hf]
    rfl
  have hcov : ∀ Q : List Int, Q ≠ [] → (∀ i ∈ Q, i ∈ (Bbn.run ops).vars.map Variable.id) →
      (∀ x ∈ Q, ∀ y ∈ Q, x ≠ y → Moral E x y) → ∃ c ∈ r.1, ∀ i ∈ Q, i ∈ c.nodes.map Variable.id := by
    intro Q h1 h2 h3
    obtain ⟨c, hc, hQ⟩ := hs.covers Q.toFinset (by
      cases Q with
      | nil => exact absurd rfl h1
      | cons i Q => exact ⟨i, by simp⟩) (by intro i hi; exact h2 i (by simpa using hi)) (by
      intro x hx y hy hxy
      rw [moralAdj_iff]
      exact h3 x (by simpa using hx) y (by simpa using hy) hxy)
    exact ⟨c, hc, fun i hi => (c.mem_fs i).1 (hQ (by simpa using hi))⟩
  refine ⟨?_, ?_, hcov, ?_, hedge, ?_, ?_⟩
  · intro c hc
    refine ⟨?_, hs.nodup c hc, hs.sub c hc⟩
    intro e
    exact hs.ne c hc (by simp [Clique.nodeIds, e])
  · intro v hv
    obtain ⟨c, hc, hfam⟩ := family_covered hinv hs hv
    refine ⟨c, hc, ?_, ?_⟩
    · obtain ⟨u, hu, he⟩ := List.mem_map.1 (hfam v.id (by simp))
      have hnd := vars_nodup hinv
      have := List.inj_on_of_nodup_map hnd (hs.sub c hc u hu) hv he
      exact this ▸ hu
    · intro p hp
      apply hfam p
      rw [List.mem_cons]
      right
      exact (parents_requested ops p v.id).2 hp
  · refine List.Pairwise.imp ?_ hs.anti
    intro c d hcd
    constructor
    · by_contra hc
      push Not at hc
      exact hcd.1 (fun i hi => (d.mem_fs i).2 (hc i ((c.mem_fs i).1 hi)))
    · by_contra hc
      push Not at hc
      exact hcd.2 (fun i hi => (c.mem_fs i).2 (hc i ((d.mem_fs i).1 hi)))
  · intro x y hxy
    rw [hedge]
    refine ⟨hxy.1, ?_⟩
    have hmem : ∀ a b, Moral E a b → a ∈ (Bbn.run ops).vars.map Variable.id := by
      intro a b hab
      exact (moralAdj_relOn hinv).mem a b ((moralAdj_iff ops a b).2 hab)
    have hsym : ∀ a b, Moral E a b → Moral E b a := by
      intro a b hab
      rw [← moralAdj_iff] at hab ⊢
      exact (moralAdj_relOn hinv).sym _ _ hab
    obtain ⟨c, hc, hQ⟩ := hcov [x, y] (by simp) (by
      intro i hi
      simp only [List.mem_cons, List.not_mem_nil, or_false] at hi
      rcases hi with rfl | rfl
      · exact hmem _ _ hxy
      · exact hmem _ _ (hsym _ _ hxy)) (by
      intro a ha b hb hab
      simp only [List.mem_cons, List.not_mem_nil, or_false] at ha hb
      rcases ha with rfl | rfl <;> rcases hb with rfl | rfl
      · exact absurd rfl hab
      · exact hxy
      · exact hsym _ _ hxy
      · exact absurd rfl hab)
    exact ⟨c, hc, hQ x (by simp), hQ y (by simp)⟩
  · have : r.2.nodes = nodeDict (Bbn.run ops).vars := hn.trans (moralize_spec hinv).2.2.1
    exact getNodes_nodeDict this

/-- a four-cycle in the moral graph, so that a fill-in edge is needed: 0→1, 0→2, 1→3, 2→4, 3→5, 4→5 -/
def c13_ops : List BOp :=
  [.addEdge (mkNode 0 "a" []) (mkNode 1 "b" []), .addEdge (mkNode 0 "a" []) (mkNode 2 "c" []),
   .addEdge (mkNode 1 "b" []) (mkNode 3 "d" []), .addEdge (mkNode 2 "c" []) (mkNode 4 "e" []),
   .addEdge (mkNode 3 "d" []) (mkNode 5 "f" []), .addEdge (mkNode 4 "e" []) (mkNode 5 "f" [])]

example : ((Triangulator.triangulate .same (moralize (Bbn.run c13_ops))).1.map
      (fun c => c.nodes.map Variable.id)) = [[3, 4, 5], [1, 2, 0], [3, 2, 1], [4, 3, 2]] ∧
    (Triangulator.triangulate .same (moralize (Bbn.run c13_ops))).2.edgeExists 2 3 = true ∧
    (moralize (Bbn.run c13_ops)).edgeExists 2 3 = false := by
  decide +kernel

/-- C13 for this network; {3, 4, 5} are pairwise adjacent in the moral graph -/
example := c13_triangulation .rev c13_ops

end PyBBN
