import Verif.Proofs.Remove
import Verif.Props.Evidence
import Verif.Props.Serde

/-! # C66: a network after `remove_node` -/

namespace PyBBN
open InferenceController

/-- the calls that do not mention the node -/
def BOp.without (id : Int) (ops : List BOp) : List BOp :=
  ops.filter (fun o => match o with
    | .addNode n => decide (n.var.id ≠ id)
    | .addEdge i j => decide (i.var.id ≠ id) && decide (j.var.id ≠ id))

/-- no requested edge begins or ends at the node -/
def BOp.Isolated (id : Int) (ops : List BOp) : Prop := ∀ e ∈ BOp.edges ops, e.1 ≠ id ∧ e.2 ≠ id

/-- **C66**, the part that holds: removing a node without edges leaves exactly the network that was never given the node, so
everything computed from it agrees. -/
theorem c66_remove_isolated_partial (ops : List BOp) (id : Int) (h : BOp.Isolated id ops) :
    (Bbn.run ops).removeNode id = Bbn.run (BOp.without id ops) := by
  have key : ∀ (ops : List BOp) (b : Bbn), BOp.Isolated id ops →
      (ops.foldl BOp.step b).removeNode id = (BOp.without id ops).foldl BOp.step (b.removeNode id) := by
    intro ops
    induction ops with
    | nil => intro b _; rfl
    | cons o ops ih =>
      intro b h
      have h' : BOp.Isolated id ops := by
        intro e he
        apply h
        unfold BOp.edges at he ⊢
        cases o <;> simp_all
      rw [List.foldl_cons, ih _ h']
      cases o with
      | addNode n =>
        by_cases hn : n.var.id = id
        · have e1 : (BOp.step b (.addNode n)).removeNode id = b.removeNode id := by
            simp only [BOp.step, Bbn.addNode, Bbn.removeNode]
            rw [remove_addNode_self _ hn]
          rw [e1]
          simp [BOp.without, hn]
        · have e1 : (BOp.step b (.addNode n)).removeNode id = BOp.step (b.removeNode id) (.addNode n) := by
            simp only [BOp.step, Bbn.addNode, Bbn.removeNode]
            rw [remove_addNode_ne _ hn]
          rw [e1]
          simp [BOp.without, hn]
      | addEdge i j =>
        obtain ⟨hi, hj⟩ := h (i.var.id, j.var.id) (by simp [BOp.edges])
        have e1 : (BOp.step b (.addEdge i j)).removeNode id = BOp.step (b.removeNode id) (.addEdge i j) := remove_addEdge b hi hj
        rw [e1]
        have hi' : i.var.id ≠ id := hi
        have hj' : j.var.id ≠ id := hj
        simp [BOp.without, hi', hj']
  exact key ops Bbn.empty h

/-- **C66** fails for every other node: the edges are kept, `moralize` puts the node back, and `apply` raises. -/
theorem c66_remove_connected_fails (it : SetIter Int) (js : SetIter Str) (ops : List BOp) (id : Int) (h : ¬ BOp.Isolated id ops) :
    ∃ err, apply it js ((Bbn.run ops).removeNode id) = .error err := by
  have hi := bbn_run_inv ops
  unfold BOp.Isolated at h
  push Not at h
  obtain ⟨⟨p, c⟩, he, hne⟩ := h
  obtain ⟨e, he, h1, h2⟩ := (c03_bbn_edges_requested ops p c).2 he
  refine apply_stray_fails it js (b := (Bbn.run ops).removeNode id) (e := e) (x := id) he ?_ ?_
  · by_cases hp : p = id
    · exact Or.inl (h1.trans hp)
    · exact Or.inr (h2.trans (hne hp))
  · intro n hn
    exact ((mem_removed_nodes hi).1 hn).2

/-- … with `KeyError` if the node has a child. -/
theorem c66_remove_parent_fails (it : SetIter Int) (js : SetIter Str) (ops : List BOp) (id c : Int) (wf : (Bbn.run ops).WF)
    (h : (id, c) ∈ BOp.edges ops) (hne : c ≠ id) :
    apply it js ((Bbn.run ops).removeNode id) = .error .keyError := by
  have hi := bbn_run_inv ops
  have : emRel (Bbn.run ops).toGraph id c := by
    obtain ⟨e, he, h1, h2⟩ := (c03_bbn_edges_requested ops id c).2 h
    rw [← h1, ← h2]; exact hi.einv.em e he
  have := potentialInit_removed hi wf ((hi.par _ _).2 this) hne (initialHeap ((Bbn.run ops).removeNode id) [])
  unfold apply applyWith
  rw [this]
  rfl

/-- **C66**: nor can such a network be written and read back. -/
theorem c66_remove_connected_unreadable (ops : List BOp) (id : Int) (json : Bool) (h : ¬ BOp.Isolated id ops) :
    Bbn.fromDict (if json then ((Bbn.run ops).removeNode id).toDict.json else ((Bbn.run ops).removeNode id).toDict) = .error .keyError := by
  have hi := bbn_run_inv ops
  unfold BOp.Isolated at h
  push Not at h
  obtain ⟨⟨p, c⟩, he, hne⟩ := h
  have hpar : p ∈ ddGet (Bbn.run ops).parents c := by
    obtain ⟨e, he, h1, h2⟩ := (c03_bbn_edges_requested ops p c).2 he
    rw [hi.par, ← h1, ← h2]; exact hi.einv.em e he
  have hedge : (⟨p, c⟩ : EdgeDict) ∈ ((Bbn.run ops).removeNode id).toDict.edges := (mem_toDict_edges (parInv_run ops) p c).2 hpar
  have hids : ∀ n ∈ ((Bbn.run ops).removeNode id).toGraph.getNodes, n.var.id ≠ id := fun n hn => ((mem_removed_nodes hi).1 hn).2
  have hedges : (if json then ((Bbn.run ops).removeNode id).toDict.json else ((Bbn.run ops).removeNode id).toDict).edges =
      ((Bbn.run ops).removeNode id).toDict.edges := by cases json <;> rfl
  have hkey : ∀ kv ∈ (if json then ((Bbn.run ops).removeNode id).toDict.json else ((Bbn.run ops).removeNode id).toDict).nodes,
      kv.1 ≠ .int id ∧ kv.1 ≠ .str (strInt id) := by
    have h0 : ∀ kv ∈ ((Bbn.run ops).removeNode id).toDict.nodes, ∃ i, i ≠ id ∧ kv.1 = .int i := by
      intro kv hkv
      obtain ⟨n, hn, rfl⟩ := List.mem_map.1 (mem_ofList hkv)
      exact ⟨_, hids n hn, rfl⟩
    cases json with
    | false =>
      intro kv hkv
      obtain ⟨i, h1, h2⟩ := h0 kv hkv
      rw [h2]
      simp [h1]
    | true =>
      intro kv hkv
      obtain ⟨kv', h3, rfl⟩ := List.mem_map.1 (mem_ofList hkv)
      obtain ⟨i, h1, h2⟩ := h0 kv' h3
      simp only [h2, PyKey.json]
      refine ⟨by simp, ?_⟩
      simp only [ne_eq, PyKey.str.injEq]
      exact fun e => h1 (strInt_inj e)
  unfold Bbn.fromDict
  rw [hedges]
  generalize hN : Dict.ofList ((if json then ((Bbn.run ops).removeNode id).toDict.json else ((Bbn.run ops).removeNode id).toDict).nodes.map
    (fun kv => (kv.1, kv.2.toNode))) = N
  have hN' : ∀ kv ∈ N, kv.1 ≠ .int id ∧ kv.1 ≠ .str (strInt id) := by
    intro kv hkv
    rw [← hN] at hkv
    obtain ⟨kv', h3, rfl⟩ := List.mem_map.1 (mem_ofList hkv)
    exact hkey kv' h3
  have hlook : ∀ i e, lookupNode N i = .error e → e = .keyError := by
    intro i e h
    unfold lookupNode at h
    split at h <;> exact getItem_error h
  have hmiss : lookupNode N id = .error .keyError := by
    have h1 : (PyKey.int id) ∉ Dict.keys N := by
      intro hm
      obtain ⟨kv, hkv, e⟩ := List.mem_map.1 hm
      exact (hN' kv hkv).1 e
    have h2 : (PyKey.str (strInt id)) ∉ Dict.keys N := by
      intro hm
      obtain ⟨kv, hkv, e⟩ := List.mem_map.1 hm
      exact (hN' kv hkv).2 e
    unfold lookupNode
    rw [if_neg (by rw [Dict.has_iff]; exact h1)]
    exact getItem_missing h2
  refine foldlM_error .keyError hedge ?_ ?_
  · intro y _ a e he
    rcases bind_error he with he | ⟨_, _, he⟩
    · exact hlook _ _ he
    · rcases bind_error he with he | ⟨_, _, he⟩
      · exact hlook _ _ he
      · cases he
  · intro a
    by_cases hp : p = id
    · simp only [hp, hmiss]
      rfl
    · have hc : c = id := hne hp
      simp only [hc, hmiss]
      cases hl : lookupNode N p with
      | error e => rw [hlook _ _ hl]; rfl
      | ok n => rfl

/-- **C66** is false: removing the last node of the network leaves a network that would answer queries if it had been built
without the node, but inference raises. -/
theorem c66_false : ∃ (ops : List BOp) (id : Int), (∃ jt, apply .same .same (Bbn.run (BOp.without id ops)) = .ok jt) ∧
    apply .same .same ((Bbn.run ops).removeNode id) = .error .attributeError :=
  ⟨c16_ops, 4, by
    have h : ((apply .same .same (Bbn.run (BOp.without 4 c16_ops))).val?).isSome = true := by decide +kernel
    obtain ⟨jt, h⟩ := Option.isSome_iff_exists.1 h
    exact ⟨jt, ok_of_val? h⟩, by
    have h : (apply .same .same ((Bbn.run c16_ops).removeNode 4)).err? = some .attributeError := by decide +kernel
    exact error_of_err? h⟩

/-- a network with two isolated nodes and an edge -/
def c66_ops : List BOp :=
  [.addNode (mkNode 7 "g" [1/5, 4/5]), .addEdge (mkNode 0 "a" [1/4, 3/4]) (mkNode 1 "b" [1/2, 1/2, 1/4, 3/4]), .addNode (mkNode 7 "g" [1/5, 4/5]),
   .addNode (mkNode 8 "h" [1, 0])]

instance (id : Int) (ops : List BOp) : Decidable (BOp.Isolated id ops) := inferInstanceAs (Decidable (∀ e ∈ BOp.edges ops, e.1 ≠ id ∧ e.2 ≠ id))

/-- C66 is not vacuous: node 7 is isolated and was added; of `c16_ops` no node is isolated, 3 is a child and a parent, 4 has no child -/
example : BOp.Isolated 7 c66_ops ∧ (Bbn.run c66_ops).toGraph.getNodes.map nid = [7, 0, 1, 8] ∧
    ((Bbn.run c66_ops).removeNode 7).toGraph.getNodes.map nid = [0, 1, 8] ∧ ¬ BOp.Isolated 1 c66_ops ∧ ¬ BOp.Isolated 4 c16_ops ∧
    (3, 4) ∈ BOp.edges c16_ops ∧ (apply .same .same ((Bbn.run c16_ops).removeNode 3)).err? = some .keyError ∧
    (Bbn.fromDict ((Bbn.run c66_ops).removeNode 1).toDict.json).err? = some .keyError := by decide +kernel

/-- if inference ran before, the removed node's object still has its potential: inference then succeeds and still reports the node -/
example : ((apply .same .same (Bbn.run c16_ops)).val?.bind (fun j =>
    (applyWith .same .same j.heap ((Bbn.run c16_ops).removeNode 4)).val?.map (fun jt => jt.getBbnNodes.map Variable.id))) = some [3, 4, 1, 2, 0] := by
  decide +kernel

end PyBBN
