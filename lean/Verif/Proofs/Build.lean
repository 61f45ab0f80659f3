import Verif.Props.Graphs
import Verif.Spec.Joint

/-! Networks built by adding all nodes and then edges between them. -/

namespace PyBBN

/-- the calls: first all nodes, then all edges -/
def buildOps (ns : List BbnNode) (es : List (BbnNode × BbnNode)) : List BOp := ns.map .addNode ++ es.map (fun e => .addEdge e.1 e.2)

theorem run_append (a b : List BOp) : Bbn.run (a ++ b) = b.foldl BOp.step (Bbn.run a) := by
  unfold Bbn.run; rw [List.foldl_append]

theorem build_nodes_aux : ∀ (ns : List BbnNode) (b : Bbn), (ns.map (fun n => n.var.id)).Nodup → (∀ n ∈ ns, n.var.id ∉ Dict.keys b.nodes) →
    ((ns.map BOp.addNode).foldl BOp.step b).nodes = b.nodes ++ ns.map (fun n => (n.var.id, n))
  | [], b, _, _ => by simp
  | n :: ns, b, hn, hb => by
      rw [List.map_cons, List.nodup_cons] at hn
      rw [List.map_cons, List.foldl_cons, build_nodes_aux ns _ hn.2]
      · have : (BOp.step b (.addNode n)).nodes = b.nodes ++ [(n.var.id, n)] := by
          change Dict.setDefault b.nodes (nid n) n = _
          exact Dict.setDefault_of_not_mem (hb n List.mem_cons_self) n
        rw [this]; simp
      · intro m hm
        have : (BOp.step b (.addNode n)).nodes = b.nodes ++ [(n.var.id, n)] := by
          change Dict.setDefault b.nodes (nid n) n = _
          exact Dict.setDefault_of_not_mem (hb n List.mem_cons_self) n
        rw [this]
        simp only [Dict.keys, List.map_append, List.map_cons, List.map_nil, List.mem_append, List.mem_singleton, not_or]
        refine ⟨hb m (List.mem_cons_of_mem _ hm), ?_⟩
        intro e
        exact hn.1 (e ▸ List.mem_map_of_mem (f := fun n : BbnNode => n.var.id) hm)

theorem build_edges_aux : ∀ (es : List (BbnNode × BbnNode)) (b : Bbn), (∀ e ∈ es, e.1.var.id ∈ Dict.keys b.nodes ∧ e.2.var.id ∈ Dict.keys b.nodes) →
    ((es.map (fun e => BOp.addEdge e.1 e.2)).foldl BOp.step b).nodes = b.nodes
  | [], _, _ => rfl
  | e :: es, b, h => by
      obtain ⟨h1, h2⟩ := h e List.mem_cons_self
      have : (BOp.step b (.addEdge e.1 e.2)).nodes = b.nodes := by
        change Dict.setDefault (Dict.setDefault b.nodes (nid e.1) e.1) (nid e.2) e.2 = _
        rw [Dict.setDefault_of_mem (k := nid e.1) h1, Dict.setDefault_of_mem (k := nid e.2) h2]
      rw [List.map_cons, List.foldl_cons, build_edges_aux es, this]
      intro e' he'
      rw [this]
      exact h e' (List.mem_cons_of_mem _ he')

variable {ns : List BbnNode} {es : List (BbnNode × BbnNode)}

/-- the nodes of the network are the nodes added -/
theorem build_nodes (hid : (ns.map (fun n => n.var.id)).Nodup) (he : ∀ e ∈ es, e.1 ∈ ns ∧ e.2 ∈ ns) :
    (Bbn.run (buildOps ns es)).nodes = ns.map (fun n => (n.var.id, n)) := by
  have h0 : (Bbn.run (ns.map BOp.addNode)).nodes = ns.map (fun n => (n.var.id, n)) := by
    unfold Bbn.run
    rw [build_nodes_aux ns _ hid]
    · rfl
    · intro n _; simp [Bbn.empty, Dict.keys]
  unfold buildOps
  rw [run_append, build_edges_aux, h0]
  rw [h0]
  intro e hee
  obtain ⟨h1, h2⟩ := he e hee
  have hk : Dict.keys (ns.map (fun n => (n.var.id, n))) = ns.map (fun n => n.var.id) := by simp [Dict.keys]
  rw [hk]
  exact ⟨List.mem_map_of_mem h1, List.mem_map_of_mem h2⟩

theorem build_getNodes (hid : (ns.map (fun n => n.var.id)).Nodup) (he : ∀ e ∈ es, e.1 ∈ ns ∧ e.2 ∈ ns) :
    (Bbn.run (buildOps ns es)).toGraph.getNodes = ns := by
  unfold Graph.getNodes
  rw [build_nodes hid he]
  unfold Dict.values
  rw [List.map_map]
  exact List.map_id ns

theorem build_vars (hid : (ns.map (fun n => n.var.id)).Nodup) (he : ∀ e ∈ es, e.1 ∈ ns ∧ e.2 ∈ ns) :
    (Bbn.run (buildOps ns es)).vars = ns.map BbnNode.var := by
  unfold Bbn.vars; rw [build_getNodes hid he]

theorem build_edges (ns : List BbnNode) (es : List (BbnNode × BbnNode)) :
    BOp.edges (buildOps ns es) = es.map (fun e => (e.1.var.id, e.2.var.id)) := by
  have key : ∀ es : List (BbnNode × BbnNode), BOp.edges (es.map (fun e => BOp.addEdge e.1 e.2)) = es.map (fun e => (e.1.var.id, e.2.var.id)) := by
    intro es
    induction es with
    | nil => rfl
    | cons e es ih =>
      rw [List.map_cons, List.map_cons, ← ih]
      rfl
  unfold buildOps
  rw [← key]
  induction ns with
  | nil => rfl
  | cons n ns ih => rw [← ih]; rfl

/-- the parents of a node, in the order in which the network keeps them -/
theorem build_parents (ns : List BbnNode) (es : List (BbnNode × BbnNode)) (c : Int) :
    ddGet (Bbn.run (buildOps ns es)).parents c = firsts ((es.filter (fun e => decide (e.2.var.id = c))).map (fun e => e.1.var.id)) := by
  have := (c07_parents_first_insertion (buildOps ns es) c).1
  rw [build_edges] at this
  rw [this]
  congr 1
  rw [List.filter_map, List.map_map]
  rfl

theorem get?_build (hid : (ns.map (fun n => n.var.id)).Nodup) (he : ∀ e ∈ es, e.1 ∈ ns ∧ e.2 ∈ ns) {n : BbnNode} (hn : n ∈ ns) :
    Dict.get? (Bbn.run (buildOps ns es)).nodes n.var.id = some n := by
  rw [build_nodes hid he]
  refine Dict.get?_of_mem ?_ ?_
  · unfold Dict.keys; rw [List.map_map]; exact hid
  · exact List.mem_map_of_mem hn

/-- … as variables: `node` names the node object of every id -/
theorem build_parentVars (hid : (ns.map (fun n => n.var.id)).Nodup) (he : ∀ e ∈ es, e.1 ∈ ns ∧ e.2 ∈ ns) (node : Int → BbnNode)
    (hnode : ∀ n ∈ ns, node n.var.id = n) (c : Int) :
    (Bbn.run (buildOps ns es)).parentVars c =
      (firsts ((es.filter (fun e => decide (e.2.var.id = c))).map (fun e => e.1.var.id))).map (fun i => (node i).var) := by
  unfold Bbn.parentVars
  have hm : ∀ p ∈ ddGet (Bbn.run (buildOps ns es)).parents c, (Dict.get? (Bbn.run (buildOps ns es)).nodes p).map BbnNode.var = some (node p).var := by
    intro p hp
    rw [build_parents] at hp
    have hp' : p ∈ (es.filter (fun e => decide (e.2.var.id = c))).map (fun e => e.1.var.id) := (mem_firsts _ p).1 hp
    obtain ⟨e, hee, rfl⟩ := List.mem_map.1 hp'
    have h1 := (he e (List.mem_of_mem_filter hee)).1
    rw [get?_build hid he h1, hnode _ h1]
    rfl
  rw [← build_parents ns es c]
  generalize ddGet (Bbn.run (buildOps ns es)).parents c = l at hm
  induction l with
  | nil => rfl
  | cons a l ih =>
    rw [List.filterMap_cons, hm a List.mem_cons_self, List.map_cons]
    simp only
    rw [ih (fun p hp => hm p (List.mem_cons_of_mem _ hp))]

theorem firsts_of_nodup {α : Type} [DecidableEq α] : ∀ l : List α, l.Nodup → firsts l = l
  | [], _ => rfl
  | x :: l, h => by
      rw [List.nodup_cons] at h
      rw [firsts, firsts_of_nodup l h.2, List.filter_eq_self.2]
      intro y hy
      rw [decide_eq_true_eq]
      rintro rfl
      exact h.1 hy

end PyBBN
