import Verif.Spec.Graph
import Verif.Proofs.Dfs
import Verif.Proofs.Strings

/-! Invariants of the graph classes. -/

set_option linter.unusedSectionVars false

namespace PyBBN
open Relation

variable {N : Type} [HasId N]

/-- bookkeeping invariant shared by all graph classes -/
structure GInv (g : Graph N) : Prop where
  nodup : (Dict.keys g.nodes).Nodup
  key : ∀ k n, Dict.get? g.nodes k = some n → nid n = k
  emNodes : ∀ a b, b ∈ ddGet g.edgeMap a → a ∈ Dict.keys g.nodes ∧ b ∈ Dict.keys g.nodes
  nb : ∀ a b, b ∈ g.getNeighbors a ↔ (b ∈ ddGet g.edgeMap a ∨ a ∈ ddGet g.edgeMap b)
  nbNodup : ∀ a, (g.getNeighbors a).Nodup

theorem GInv.empty : GInv (Graph.empty : Graph N) := by
  refine ⟨?_, ?_, ?_, ?_, ?_⟩ <;> simp [Graph.empty, Dict.keys, Dict.get?, ddGet, Graph.getNeighbors]

theorem addNode_keys (g : Graph N) (n : N) (k : Int) :
    k ∈ Dict.keys (g.addNode n).nodes ↔ k = nid n ∨ k ∈ Dict.keys g.nodes := by
  simp [Graph.addNode, Dict.mem_keys_setDefault]

theorem GInv.addNode {g : Graph N} (h : GInv g) (n : N) : GInv (g.addNode n) := by
  refine ⟨Dict.nodup_keys_setDefault h.nodup _ _, ?_, ?_, h.nb, h.nbNodup⟩
  · intro k m hk
    simp only [Graph.addNode, Dict.get?_setDefault] at hk
    split at hk
    · rename_i e
      cases hg : Dict.get? g.nodes (nid n) with
      | none => rw [hg] at hk; simp at hk; rw [← hk]; exact e
      | some m' =>
        rw [hg] at hk; simp at hk; subst hk
        exact (h.key _ _ hg).trans e
    · exact h.key _ _ hk
  · intro a b hab
    have := h.emNodes a b hab
    exact ⟨(addNode_keys g n a).2 (Or.inr this.1), (addNode_keys g n b).2 (Or.inr this.2)⟩

/-- edges recorded in `edge_map` after inserting an edge -/
theorem insertEdge_em (g : Graph N) (e : Edge N) (a b : Int) :
    b ∈ ddGet (g.insertEdge e).edgeMap a ↔
      (a = nid e.i ∧ b = nid e.j) ∨ (e.type = .undirected ∧ a = nid e.j ∧ b = nid e.i) ∨
        b ∈ ddGet g.edgeMap a := by
  unfold Graph.insertEdge
  cases ht : e.type with
  | undirected =>
    simp only [mem_ddGet_ddAdd, true_and]
    tauto
  | directed =>
    simp only [mem_ddGet_ddAdd]
    simp

theorem insertEdge_nb (g : Graph N) (e : Edge N) (a b : Int) :
    b ∈ (g.insertEdge e).getNeighbors a ↔
      (a = nid e.i ∧ b = nid e.j) ∨ (a = nid e.j ∧ b = nid e.i) ∨ b ∈ g.getNeighbors a := by
  unfold Graph.insertEdge Graph.getNeighbors
  simp only [mem_ddGet_ddAdd]
  tauto

theorem insertEdge_nodes (g : Graph N) (e : Edge N) : (g.insertEdge e).nodes = g.nodes := rfl

theorem ddAdd_nodup {K : Type} [DecidableEq K] {d : Dict K (List K)} (h : ∀ a, (ddGet d a).Nodup) (k x a : K) :
    (ddGet (ddAdd d k x) a).Nodup := by
  rw [ddGet_ddAdd]
  split
  · exact nodup_setAdd (h k) x
  · exact h a

theorem GInv.insertEdge {g : Graph N} (h : GInv g) (e : Edge N)
    (hi : nid e.i ∈ Dict.keys g.nodes) (hj : nid e.j ∈ Dict.keys g.nodes) : GInv (g.insertEdge e) := by
  refine ⟨h.nodup, h.key, ?_, ?_, ?_⟩
  · intro a b hab
    rw [insertEdge_em] at hab
    rw [insertEdge_nodes]
    rcases hab with ⟨rfl, rfl⟩ | ⟨_, rfl, rfl⟩ | hab
    · exact ⟨hi, hj⟩
    · exact ⟨hj, hi⟩
    · exact h.emNodes a b hab
  · intro a b
    rw [insertEdge_nb, insertEdge_em, insertEdge_em, h.nb]
    tauto
  · intro a
    exact ddAdd_nodup (fun a => ddAdd_nodup h.nbNodup _ _ a) _ _ a

theorem ddGet_remove (d : Dict Int (List Int)) (id k : Int) :
    ddGet ((Dict.pop d id).map (fun kv => (kv.1, kv.2.filter (fun x => decide (x ≠ id))))) k =
      if k = id then [] else (ddGet d k).filter (fun x => decide (x ≠ id)) := by
  unfold ddGet
  rw [Dict.get?_mapVal, Dict.get?_pop]
  by_cases h : k = id
  · subst h; simp
  · have h' : ¬ id = k := fun e => h e.symm
    simp only [h, h', if_false]
    cases Dict.get? d k <;> simp

theorem removeNode_em (g : Graph N) (id a b : Int) :
    b ∈ ddGet (g.removeNode id).edgeMap a ↔ a ≠ id ∧ b ≠ id ∧ b ∈ ddGet g.edgeMap a := by
  unfold Graph.removeNode
  simp only [ddGet_remove]
  split
  · subst_vars; simp
  · rename_i h
    simp only [List.mem_filter, decide_eq_true_eq]
    tauto

theorem removeNode_nb (g : Graph N) (id a b : Int) :
    b ∈ (g.removeNode id).getNeighbors a ↔ a ≠ id ∧ b ≠ id ∧ b ∈ g.getNeighbors a := by
  unfold Graph.removeNode Graph.getNeighbors
  simp only [ddGet_remove]
  split
  · subst_vars; simp
  · rename_i h
    simp only [List.mem_filter, decide_eq_true_eq]
    tauto

theorem removeNode_keys (g : Graph N) (id k : Int) :
    k ∈ Dict.keys (g.removeNode id).nodes ↔ k ≠ id ∧ k ∈ Dict.keys g.nodes := by
  simp [Graph.removeNode, Dict.mem_keys_pop]

theorem GInv.removeNode {g : Graph N} (h : GInv g) (id : Int) : GInv (g.removeNode id) := by
  refine ⟨Dict.nodup_keys_pop h.nodup id, ?_, ?_, ?_, ?_⟩
  · intro k n hk
    simp only [Graph.removeNode, Dict.get?_pop] at hk
    split at hk
    · simp at hk
    · exact h.key _ _ hk
  · intro a b hab
    rw [removeNode_em] at hab
    rw [removeNode_keys, removeNode_keys]
    exact ⟨⟨hab.1, (h.emNodes a b hab.2.2).1⟩, ⟨hab.2.1, (h.emNodes a b hab.2.2).2⟩⟩
  · intro a b
    rw [removeNode_nb, removeNode_em, removeNode_em, h.nb]
    tauto
  · intro a
    simp only [Graph.removeNode, Graph.getNeighbors, ddGet_remove]
    split
    · simp
    · exact List.Nodup.filter _ (h.nbNodup a)

theorem GInv.addEdgeWith {g : Graph N} (h : GInv g) (should : Graph N → Edge N → Bool) (e : Edge N) :
    GInv (Graph.addEdgeWith should g e) := by
  unfold Graph.addEdgeWith
  have h2 := (h.addNode e.i).addNode e.j
  simp only
  split
  · refine h2.insertEdge e ?_ ?_
    · rw [addNode_keys, addNode_keys]; exact Or.inr (Or.inl rfl)
    · rw [addNode_keys]; exact Or.inl rfl
  · exact h2

theorem addNode_em (g : Graph N) (n : N) : (g.addNode n).edgeMap = g.edgeMap := rfl
theorem addNode_nbrs (g : Graph N) (n : N) : (g.addNode n).neighbors = g.neighbors := rfl

/-- the edge relation stored in `edge_map` -/
def emRel (g : Graph N) (a b : Int) : Prop := b ∈ ddGet g.edgeMap a

/-! ### Dag -/

theorem dag_children_rel (it : SetIter Int) (g : Graph N) (a b : Int) :
    b ∈ Dag.getChildren it g a ↔ emRel g a b := it.mem 0 a _ b

theorem dag_path_iff (it : SetIter Int) {g : Graph N} (h : GInv g) (a b : Int)
    (ha : a ∈ Dict.keys g.nodes) :
    pathExists (Dag.getChildren it g) (g.nodes.length + 1) a b = true ↔ ReflTransGen (emRel g) a b := by
  have := pathExists_iff' (Dag.getChildren it g) b (Dict.keys g.nodes)
    (fun u _ v hv => (h.emNodes u v ((dag_children_rel it g u v).1 hv)).2) (g.nodes.length + 1) a ha
    (by simp [Dict.keys])
  rw [this]
  have e : (fun a b => b ∈ Dag.getChildren it g a) = emRel g := by
    funext x y; exact propext (dag_children_rel it g x y)
  rw [e]

/-- adding one edge to an acyclic relation -/
theorem acyclic_add {α : Type} {R S : α → α → Prop} {p q : α} (hR : Acyclic R)
    (hS : ∀ a b, S a b → (a = p ∧ b = q) ∨ R a b) (hpq : ¬ ReflTransGen R q p) : Acyclic S := by
  have key : ∀ a b, TransGen S a b → TransGen R a b ∨ (ReflTransGen R a p ∧ ReflTransGen R q b) := by
    intro a b hab
    induction hab with
    | single hab =>
      rcases hS _ _ hab with ⟨rfl, rfl⟩ | h
      · exact Or.inr ⟨ReflTransGen.refl, ReflTransGen.refl⟩
      · exact Or.inl (TransGen.single h)
    | tail hab hbc ih =>
      rcases hS _ _ hbc with ⟨rfl, rfl⟩ | h
      · rcases ih with ih | ih
        · exact Or.inr ⟨ih.to_reflTransGen, ReflTransGen.refl⟩
        · exact absurd ih.2 hpq
      · rcases ih with ih | ih
        · exact Or.inl (ih.tail h)
        · exact Or.inr ⟨ih.1, ih.2.tail h⟩
  intro a ha
  rcases key a a ha with h | ⟨h1, h2⟩
  · exact hR a h
  · exact hpq (h2.trans h1)

theorem acyclic_mono {α : Type} {R S : α → α → Prop} (hR : Acyclic R) (h : ∀ a b, S a b → R a b) :
    Acyclic S := fun a ha => hR a (TransGen.lift id h _ _ ha)

structure DagInv (g : Graph N) : Prop extends GInv g where
  acyclic : Acyclic (emRel g)

theorem DagInv.empty : DagInv (Graph.empty : Graph N) := by
  refine ⟨GInv.empty, ?_⟩
  intro a h
  rcases TransGen.head'_iff.1 h with ⟨c, hc, _⟩
  simp [emRel, Graph.empty, ddGet, Dict.get?] at hc

theorem dag_should_iff (it : SetIter Int) {g : Graph N} (h : GInv g) (e : Edge N)
    (hj : nid e.j ∈ Dict.keys g.nodes) :
    Dag.shouldAdd it g e = true ↔ e.type = .directed ∧ nid e.i ≠ nid e.j ∧
      ¬ emRel g (nid e.i) (nid e.j) ∧ ¬ emRel g (nid e.j) (nid e.i) ∧
      ¬ ReflTransGen (emRel g) (nid e.j) (nid e.i) := by
  unfold Dag.shouldAdd
  cases e.type with
  | undirected => simp
  | directed =>
    simp only [true_and]
    by_cases h1 : nid e.i = nid e.j
    · simp [h1]
    · simp only [h1, if_false, ne_eq, not_false_eq_true, true_and]
      by_cases h2 : nid e.j ∉ ddGet g.edgeMap (nid e.i) ∧ nid e.i ∉ ddGet g.edgeMap (nid e.j)
      · simp only [h2, not_false_eq_true, and_self, if_true]
        have := dag_path_iff it h (nid e.j) (nid e.i) hj
        simp only [Bool.not_eq_true', Bool.eq_false_iff, ne_eq, this]
        simp [emRel, h2.1, h2.2]
      · rw [if_neg h2]
        simp only [emRel]
        constructor
        · simp
        · rintro ⟨a, b, _⟩; exact absurd ⟨a, b⟩ h2

theorem DagInv.addEdge (it : SetIter Int) {g : Graph N} (h : DagInv g) (e : Edge N) :
    DagInv (Dag.addEdge it g e) := by
  refine ⟨h.toGInv.addEdgeWith _ e, ?_⟩
  unfold Dag.addEdge Graph.addEdgeWith
  have h2 := (h.toGInv.addNode e.i).addNode e.j
  have hac : Acyclic (emRel ((g.addNode e.i).addNode e.j)) := h.acyclic
  simp only
  split
  · rename_i hs
    rw [dag_should_iff it h2 e (by rw [addNode_keys]; exact Or.inl rfl)] at hs
    refine acyclic_add (p := nid e.i) (q := nid e.j) hac ?_ hs.2.2.2.2
    intro a b hab
    rw [emRel, insertEdge_em] at hab
    rcases hab with hab | ⟨ht, _⟩ | hab
    · exact Or.inl hab
    · rw [hs.1] at ht; exact absurd ht (by decide)
    · exact Or.inr hab
  · exact hac

theorem DagInv.step {g : Graph N} (h : DagInv g) (op : GOp N) : DagInv (op.step Dag.addEdge g) := by
  cases op with
  | addNode n => exact ⟨h.toGInv.addNode n, h.acyclic⟩
  | addEdge it e => exact h.addEdge it e
  | removeNode id =>
    refine ⟨h.toGInv.removeNode id, acyclic_mono h.acyclic ?_⟩
    intro a b hab
    exact ((removeNode_em g id a b).1 hab).2.2

theorem foldl_inv {α β : Type} (P : β → Prop) (f : β → α → β) (hstep : ∀ b a, P b → P (f b a))
    (l : List α) (b : β) (hb : P b) : P (l.foldl f b) := by
  induction l generalizing b with
  | nil => exact hb
  | cons a l ih => exact ih _ (hstep b a hb)

theorem dag_run_inv (ops : List (GOp N)) : DagInv (Dag.run ops) :=
  foldl_inv DagInv _ (fun _ op h => h.step op) ops _ DagInv.empty

/-! ### Graph / Ug -/

theorem graph_run_inv (ops : List (GOp N)) : GInv (Graph.run ops) := by
  refine foldl_inv GInv _ ?_ ops _ GInv.empty
  intro g op h
  cases op with
  | addNode n => exact h.addNode n
  | addEdge it e => exact h.addEdgeWith _ e
  | removeNode id => exact h.removeNode id

theorem graph_run_irrefl (ops : List (GOp N)) : ∀ a, ¬ emRel (Graph.run ops) a a := by
  refine foldl_inv (fun g : Graph N => ∀ a, ¬ emRel g a a) _ ?_ ops _ ?_
  · intro g op h a
    cases op with
    | addNode n => exact h a
    | addEdge it e =>
      simp only [GOp.step, Graph.addEdge, Graph.addEdgeWith]
      split
      · rename_i hs
        rw [emRel, insertEdge_em]
        have hne : nid e.i ≠ nid e.j := by
          intro e2
          simp [Graph.shouldAdd, e2] at hs
        rintro (⟨rfl, h2⟩ | ⟨_, rfl, h2⟩ | h2)
        · exact hne h2
        · exact hne h2.symm
        · exact h a h2
      · exact h a
    | removeNode id =>
      intro h2
      exact h a ((removeNode_em g id a a).1 h2).2.2
  · intro a; simp [emRel, Graph.empty, ddGet, Dict.get?]

/-! ### Pdag -/

structure PdagInv (g : Graph N) : Prop extends GInv g where
  /-- no cycle through edges that are stored in one direction only -/
  acyclic : Acyclic (fun a b => emRel g a b ∧ ¬ emRel g b a)

theorem mem_getParents (g : Graph N) (hk : (Dict.keys g.edgeMap).Nodup) (a b : Int) :
    a ∈ g.getParents b ↔ emRel g a b := by
  unfold Graph.getParents emRel ddGet
  simp only [List.mem_map, List.mem_filter, decide_eq_true_eq]
  constructor
  · rintro ⟨⟨k, l⟩, ⟨hm, hb⟩, rfl⟩
    rw [Dict.get?_of_mem hk hm]; simpa using hb
  · intro h
    cases hg : Dict.get? g.edgeMap a with
    | none => rw [hg] at h; simp at h
    | some l =>
      rw [hg] at h
      exact ⟨(a, l), ⟨Dict.mem_of_get? hg, by simpa using h⟩, rfl⟩

/-- keys of `edge_map` are distinct -/
def EmNodup (g : Graph N) : Prop := (Dict.keys g.edgeMap).Nodup

theorem nodup_keys_ddAdd {d : Dict Int (List Int)} (h : (Dict.keys d).Nodup) (k x : Int) :
    (Dict.keys (ddAdd d k x)).Nodup := Dict.nodup_keys_set h _ _

theorem EmNodup.insertEdge {g : Graph N} (h : EmNodup g) (e : Edge N) : EmNodup (g.insertEdge e) := by
  unfold EmNodup Graph.insertEdge
  cases e.type with
  | undirected => exact nodup_keys_ddAdd (nodup_keys_ddAdd h _ _) _ _
  | directed => exact nodup_keys_ddAdd h _ _

theorem EmNodup.removeNode {g : Graph N} (h : EmNodup g) (id : Int) : EmNodup (g.removeNode id) := by
  unfold EmNodup Graph.removeNode
  simp only [Dict.keys, List.map_map]
  have : (Prod.fst ∘ fun kv : Int × List Int => (kv.1, kv.2.filter (fun x => decide (x ≠ id)))) = Prod.fst := by
    funext kv; rfl
  rw [this]
  exact Dict.nodup_keys_pop h id

theorem emNodup_addEdgeWith {g : Graph N} (h : EmNodup g) (should) (e : Edge N) :
    EmNodup (Graph.addEdgeWith should g e) := by
  unfold Graph.addEdgeWith
  simp only
  split
  · exact EmNodup.insertEdge (g := (g.addNode e.i).addNode e.j) h e
  · exact h

theorem emNodup_run (addEdge : SetIter Int → Graph N → Edge N → Graph N)
    (hadd : ∀ it g e, ∃ s, addEdge it g e = Graph.addEdgeWith s g e) (ops : List (GOp N)) :
    EmNodup (ops.foldl (GOp.step addEdge) Graph.empty) := by
  refine foldl_inv EmNodup _ ?_ ops _ ?_
  · intro g op h
    cases op with
    | addNode n => exact h
    | addEdge it e =>
      obtain ⟨s, hs⟩ := hadd it g e
      simp only [GOp.step, hs]
      exact emNodup_addEdgeWith h s e
    | removeNode id => exact h.removeNode id
  · simp [EmNodup, Graph.empty, Dict.keys]

theorem pdag_path_iff (it : SetIter Int) {g : Graph N} (h : GInv g) (hk : EmNodup g) (a b : Int)
    (ha : a ∈ Dict.keys g.nodes) :
    pathExists (Pdag.getOutNodes it g) (g.nodes.length + 1) a b = true ↔
      ReflTransGen (fun a b => emRel g a b ∧ ¬ emRel g b a) a b := by
  have hrel : ∀ u v, v ∈ Pdag.getOutNodes it g u ↔ (emRel g u v ∧ ¬ emRel g v u) := by
    intro u v
    unfold Pdag.getOutNodes
    simp only [List.mem_filter, decide_eq_true_eq, it.mem, h.nb, mem_getParents g hk]
    unfold emRel
    tauto
  have := pathExists_iff' (Pdag.getOutNodes it g) b (Dict.keys g.nodes)
    (fun u _ v hv => (h.emNodes u v ((hrel u v).1 hv).1).2) (g.nodes.length + 1) a ha
    (by simp [Dict.keys])
  rw [this]
  have e : (fun a b => b ∈ Pdag.getOutNodes it g a) = (fun a b => emRel g a b ∧ ¬ emRel g b a) := by
    funext x y; exact propext (hrel x y)
  rw [e]

theorem PdagInv.addEdge (it : SetIter Int) {g : Graph N} (h : PdagInv g) (hk : EmNodup g) (e : Edge N) :
    PdagInv (Pdag.addEdge it g e) := by
  refine ⟨h.toGInv.addEdgeWith _ e, ?_⟩
  unfold Pdag.addEdge Graph.addEdgeWith
  have h2 := (h.toGInv.addNode e.i).addNode e.j
  have hk2 : EmNodup ((g.addNode e.i).addNode e.j) := hk
  have hac := h.acyclic
  change Acyclic (fun a b => emRel ((g.addNode e.i).addNode e.j) a b ∧
    ¬ emRel ((g.addNode e.i).addNode e.j) b a) at hac
  simp only
  generalize hg2 : (g.addNode e.i).addNode e.j = g2 at *
  have hj : nid e.j ∈ Dict.keys g2.nodes := by rw [← hg2, addNode_keys]; exact Or.inl rfl
  split
  · rename_i hs
    unfold Pdag.shouldAdd at hs
    split at hs
    · simp at hs
    · rename_i hne
      split at hs
      · rename_i hnew
        rw [Bool.not_eq_true', Bool.eq_false_iff, ne_eq, pdag_path_iff it h2 hk2 _ _ hj] at hs
        refine acyclic_add (p := nid e.i) (q := nid e.j) hac ?_ hs
        intro a b hab
        obtain ⟨hab, hba⟩ := hab
        rw [emRel, insertEdge_em] at hab hba
        rcases hab with hab | ⟨ht, ha, hb⟩ | hab
        · exact Or.inl hab
        · exact absurd (Or.inl ⟨hb, ha⟩) hba
        · right
          refine ⟨hab, ?_⟩
          intro h3
          exact hba (Or.inr (Or.inr h3))
      · simp at hs
  · exact hac

theorem pdag_run_inv (ops : List (GOp N)) : PdagInv (Pdag.run ops) ∧ EmNodup (Pdag.run ops) := by
  refine foldl_inv (fun g : Graph N => PdagInv g ∧ EmNodup g) _ ?_ ops _ ?_
  · rintro g op ⟨h, hk⟩
    cases op with
    | addNode n => exact ⟨⟨h.toGInv.addNode n, h.acyclic⟩, hk⟩
    | addEdge it e => exact ⟨h.addEdge it hk e, emNodup_addEdgeWith hk _ e⟩
    | removeNode id =>
      refine ⟨⟨h.toGInv.removeNode id, acyclic_mono h.acyclic ?_⟩, hk.removeNode id⟩
      rintro a b ⟨hab, hba⟩
      have h1 := (removeNode_em g id a b).1 hab
      exact ⟨h1.2.2, fun h3 => hba ((removeNode_em g id b a).2 ⟨h1.2.1, h1.1, h3⟩)⟩
  · refine ⟨⟨GInv.empty, ?_⟩, by simp [EmNodup, Graph.empty, Dict.keys]⟩
    intro a h
    rcases TransGen.head'_iff.1 h with ⟨c, hc, _⟩
    simp [emRel, Graph.empty, ddGet, Dict.get?] at hc

/-! ### the `edges` dictionary -/

/-- unordered equality of endpoints -/
def samePair (e f : Edge N) : Prop :=
  (nid e.i = nid f.i ∧ nid e.j = nid f.j) ∨ (nid e.i = nid f.j ∧ nid e.j = nid f.i)

theorem key_samePair {e f : Edge N} (h : e.key = f.key) : e.type = f.type ∧ samePair e f := by
  unfold Edge.key at h
  cases he : e.type <;> cases hf : f.type <;> rw [he, hf] at h <;> simp only at h
  · have := edgeKey_undirected_inj h
    refine ⟨rfl, ?_⟩
    unfold samePair
    omega
  · exact absurd h.symm edgeKey_mixed_ne
  · exact absurd h edgeKey_mixed_ne
  · have := edgeKey_directed_inj h
    exact ⟨rfl, Or.inl this⟩

/-- `edges` is keyed by `Edge.key`, and its edges are recorded in `edge_map` -/
structure EdgesInv (g : Graph N) : Prop where
  nodup : (Dict.keys g.edges).Nodup
  key : ∀ k e, (k, e) ∈ g.edges → k = e.key
  em : ∀ e ∈ g.getEdges, emRel g (nid e.i) (nid e.j)

theorem mem_set_iff {K V : Type} [DecidableEq K] {d : Dict K V} {k : K} {v : V} {x : K × V}
    (h : x ∈ Dict.set d k v) : x = (k, v) ∨ x ∈ d := by
  induction d with
  | nil => simp [Dict.set] at h; exact Or.inl h
  | cons y d ih =>
    obtain ⟨a, b⟩ := y
    unfold Dict.set at h
    split at h
    · rename_i e
      rcases List.mem_cons.1 h with h | h
      · left; rw [h, e]
      · right; exact List.mem_cons_of_mem _ h
    · rcases List.mem_cons.1 h with h | h
      · right; rw [h]; exact List.mem_cons_self
      · rcases ih h with h | h
        · exact Or.inl h
        · exact Or.inr (List.mem_cons_of_mem _ h)

theorem mem_getEdges_insert {g : Graph N} {e f : Edge N} (h : f ∈ (g.insertEdge e).getEdges) :
    f = e ∨ f ∈ g.getEdges := by
  simp only [Graph.getEdges, Dict.values, List.mem_map, Graph.insertEdge] at h
  obtain ⟨x, hx, rfl⟩ := h
  rcases mem_set_iff hx with h | h
  · left; rw [h]
  · right; simp only [Graph.getEdges, Dict.values, List.mem_map]; exact ⟨x, h, rfl⟩

theorem EdgesInv.insertEdge {g : Graph N} (h : EdgesInv g) (e : Edge N) : EdgesInv (g.insertEdge e) := by
  refine ⟨Dict.nodup_keys_set h.nodup _ _, ?_, ?_⟩
  · intro k f hf
    rcases mem_set_iff hf with h2 | h2
    · simp only [Prod.mk.injEq] at h2; rw [h2.1, h2.2]
    · exact h.key k f h2
  · intro f hf
    rw [emRel, insertEdge_em]
    rcases mem_getEdges_insert hf with rfl | h2
    · exact Or.inl ⟨rfl, rfl⟩
    · exact Or.inr (Or.inr (h.em f h2))

theorem EdgesInv.empty : EdgesInv (Graph.empty : Graph N) := by
  refine ⟨?_, ?_, ?_⟩ <;> simp [Graph.empty, Dict.keys, Graph.getEdges, Dict.values]

theorem EdgesInv.addEdgeWith {g : Graph N} (h : EdgesInv g) (should) (e : Edge N) :
    EdgesInv (Graph.addEdgeWith should g e) := by
  have h2 : EdgesInv ((g.addNode e.i).addNode e.j) := ⟨h.nodup, h.key, h.em⟩
  unfold Graph.addEdgeWith
  simp only
  split
  · exact h2.insertEdge e
  · exact h2

theorem mem_getEdges_self (g : Graph N) (e : Edge N) : e ∈ (g.insertEdge e).getEdges := by
  have : Dict.get? (g.insertEdge e).edges e.key = some e := by
    simp [Graph.insertEdge]
  simp only [Graph.getEdges, Dict.values, List.mem_map]
  exact ⟨_, Dict.mem_of_get? this, rfl⟩

/-- edges stay listed, except those overwritten under the same key -/
theorem mem_getEdges_old {g : Graph N} (h : EdgesInv g) (e : Edge N) {f : Edge N} (hf : f ∈ g.getEdges) :
    f ∈ (g.insertEdge e).getEdges ∨ f.key = e.key := by
  simp only [Graph.getEdges, Dict.values, List.mem_map] at hf
  obtain ⟨⟨k, f'⟩, hx, rfl⟩ := hf
  have hk := h.key k f' hx
  by_cases hc : f'.key = e.key
  · exact Or.inr hc
  · left
    have h1 : Dict.get? g.edges k = some f' := Dict.get?_of_mem h.nodup hx
    have h2 : Dict.get? (g.insertEdge e).edges k = some f' := by
      simp only [Graph.insertEdge]
      rw [Dict.get?_set_ne _ _ (by rw [hk]; exact fun e2 => hc e2.symm)]
      exact h1
    simp only [Graph.getEdges, Dict.values, List.mem_map]
    exact ⟨_, Dict.mem_of_get? h2, rfl⟩

/-- `Pdag`: the listed edges have pairwise different endpoint pairs -/
theorem pdag_run_simple (ops : List (GOp N)) (hops : ∀ id, GOp.removeNode id ∉ ops) :
    EdgesInv (Pdag.run ops) ∧ (Pdag.run ops).getEdges.Pairwise (fun e f => ¬ samePair e f) := by
  have : ∀ (l : List (GOp N)) (g : Graph N), (∀ id, GOp.removeNode id ∉ l) →
      (EdgesInv g ∧ g.getEdges.Pairwise (fun e f => ¬ samePair e f)) →
      (EdgesInv (l.foldl (GOp.step Pdag.addEdge) g) ∧
        (l.foldl (GOp.step Pdag.addEdge) g).getEdges.Pairwise (fun e f => ¬ samePair e f)) := by
    intro l
    induction l with
    | nil => intro g _ h; exact h
    | cons op l ih =>
      intro g hl h
      rw [List.foldl_cons]
      refine ih _ (fun id hid => hl id (List.mem_cons_of_mem _ hid)) ?_
      cases op with
      | removeNode id => exact absurd List.mem_cons_self (hl id)
      | addNode n => exact ⟨⟨h.1.nodup, h.1.key, h.1.em⟩, h.2⟩
      | addEdge it e =>
        refine ⟨h.1.addEdgeWith _ e, ?_⟩
        simp only [GOp.step, Pdag.addEdge, Graph.addEdgeWith]
        split
        · rename_i hs
          have hnew : ¬ emRel g (nid e.i) (nid e.j) ∧ ¬ emRel g (nid e.j) (nid e.i) := by
            unfold Pdag.shouldAdd at hs
            split at hs
            · simp at hs
            · split at hs
              · rename_i hh; exact hh
              · simp at hs
          have hns : ∀ f ∈ g.getEdges, ¬ samePair f e := by
            intro f hf hsame
            have := h.1.em f hf
            rcases hsame with ⟨h1, h2⟩ | ⟨h1, h2⟩
            · rw [h1, h2] at this; exact hnew.1 this
            · rw [h1, h2] at this; exact hnew.2 this
          have hk : e.key ∉ Dict.keys g.edges := by
            intro hk
            obtain ⟨f, hf⟩ := Dict.exists_get?_of_mem_keys hk
            have hm := Dict.mem_of_get? hf
            have := key_samePair (h.1.key _ _ hm)
            refine hns f (by simp only [Graph.getEdges, Dict.values, List.mem_map]; exact ⟨_, hm, rfl⟩) ?_
            rcases this.2 with ⟨h1, h2⟩ | ⟨h1, h2⟩
            · exact Or.inl ⟨h1.symm, h2.symm⟩
            · exact Or.inr ⟨h2.symm, h1.symm⟩
          have he : (Graph.insertEdge ((g.addNode e.i).addNode e.j) e).getEdges = g.getEdges ++ [e] := by
            simp only [Graph.getEdges, Graph.insertEdge, Graph.addNode, Dict.set_of_not_mem hk, Dict.values,
              List.map_append, List.map_cons, List.map_nil]
          rw [he, List.pairwise_append]
          refine ⟨h.2, by simp, ?_⟩
          intro f hf f' hf'
          simp only [List.mem_singleton] at hf'
          subst hf'
          exact hns f hf
        · exact h.2
  exact this ops _ hops ⟨EdgesInv.empty, by simp [Graph.empty, Graph.getEdges, Dict.values]⟩

/-! ### Bbn -/

theorem bbn_addEdge_graph (b : Bbn) (e : Edge BbnNode) :
    (b.addEdge e).toGraph = Graph.addEdgeWith (fun _ _ => true) b.toGraph e := rfl

theorem bbn_addEdge_parents (b : Bbn) (e : Edge BbnNode) :
    (b.addEdge e).parents = Bbn.edgeAdded b.parents e := rfl

theorem ddGet_edgeAdded (p : Dict Int (List Int)) (e : Edge BbnNode) (k : Int) :
    ddGet (Bbn.edgeAdded p e) k = if k = nid e.j then setAdd (ddGet p k) (nid e.i) else ddGet p k := by
  have h0 : ∀ k, ddGet (Dict.setDefault p (nid e.j) []) k = ddGet p k := by
    intro k
    unfold ddGet
    rw [Dict.get?_setDefault]
    split
    · rename_i e2; subst e2; cases Dict.get? p (nid e.j) <;> simp
    · rfl
  unfold Bbn.edgeAdded
  simp only [h0]
  by_cases hk : k = nid e.j
  · subst hk
    simp only [if_true, setAdd]
    split
    · exact h0 _
    · simp [ddGet]
  · have hk' : ¬ nid e.j = k := fun e2 => hk e2.symm
    simp only [hk, if_false]
    split
    · exact h0 _
    · unfold ddGet
      rw [Dict.get?_set_ne _ _ hk']
      exact h0 k

/-- invariant of networks built with `add_node` and directed `add_edge` -/
structure BbnInv (b : Bbn) : Prop where
  ginv : GInv b.toGraph
  emNodup : EmNodup b.toGraph
  einv : EdgesInv b.toGraph
  directed : ∀ e ∈ b.toGraph.getEdges, e.type = .directed
  listed : ∀ p c, emRel b.toGraph p c → ∃ e ∈ b.toGraph.getEdges, nid e.i = p ∧ nid e.j = c
  par : ∀ p c, p ∈ ddGet b.parents c ↔ emRel b.toGraph p c
  parNodup : ∀ c, (ddGet b.parents c).Nodup

theorem BbnInv.empty : BbnInv Bbn.empty := by
  refine ⟨GInv.empty, ?_, EdgesInv.empty, ?_, ?_, ?_, ?_⟩ <;>
    simp [Bbn.empty, EmNodup, Dict.keys, Graph.getEdges, Dict.values, emRel, ddGet, Dict.get?]

theorem BbnInv.addNode {b : Bbn} (h : BbnInv b) (n : BbnNode) : BbnInv (b.addNode n) :=
  ⟨h.ginv.addNode n, h.emNodup, ⟨h.einv.nodup, h.einv.key, h.einv.em⟩, h.directed, h.listed, h.par, h.parNodup⟩

theorem bbn_addEdge_em (b : Bbn) (i j : BbnNode) (p c : Int) :
    emRel (b.addEdge ⟨i, j, .directed⟩).toGraph p c ↔
      (p = i.var.id ∧ c = j.var.id) ∨ emRel b.toGraph p c := by
  unfold emRel
  rw [bbn_addEdge_graph]
  simp only [Graph.addEdgeWith, if_true, insertEdge_em]
  simp [nid, Graph.addNode]

theorem BbnInv.addEdge {b : Bbn} (h : BbnInv b) (i j : BbnNode) :
    BbnInv (b.addEdge ⟨i, j, .directed⟩) := by
  have hE : EdgesInv ((b.toGraph.addNode i).addNode j) := ⟨h.einv.nodup, h.einv.key, h.einv.em⟩
  have hG : (b.addEdge ⟨i, j, .directed⟩).toGraph =
      ((b.toGraph.addNode i).addNode j).insertEdge ⟨i, j, .directed⟩ := rfl
  refine ⟨?_, ?_, ?_, ?_, ?_, ?_, ?_⟩
  · rw [bbn_addEdge_graph]; exact h.ginv.addEdgeWith _ _
  · rw [bbn_addEdge_graph]; exact emNodup_addEdgeWith h.emNodup _ _
  · rw [bbn_addEdge_graph]; exact h.einv.addEdgeWith _ _
  · intro e he
    rw [hG] at he
    rcases mem_getEdges_insert he with rfl | he
    · rfl
    · exact h.directed e he
  · intro p c hpc
    rw [bbn_addEdge_em] at hpc
    rw [hG]
    rcases hpc with ⟨rfl, rfl⟩ | hpc
    · exact ⟨_, mem_getEdges_self _ _, rfl, rfl⟩
    · obtain ⟨e, he, h1, h2⟩ := h.listed p c hpc
      rcases mem_getEdges_old hE ⟨i, j, .directed⟩ (f := e) he with h3 | h3
      · exact ⟨e, h3, h1, h2⟩
      · have ht := h.directed e he
        unfold Edge.key at h3
        rw [ht] at h3
        have := edgeKey_directed_inj h3
        exact ⟨_, mem_getEdges_self _ _, this.1.symm.trans h1, this.2.symm.trans h2⟩
  · intro p c
    rw [bbn_addEdge_em, bbn_addEdge_parents, ddGet_edgeAdded]
    simp only [nid]
    split
    · rename_i hc; rw [mem_setAdd, h.par]; tauto
    · rename_i hc; rw [h.par]; tauto
  · intro c
    rw [bbn_addEdge_parents, ddGet_edgeAdded]
    split
    · exact nodup_setAdd (h.parNodup c) _
    · exact h.parNodup c

theorem BbnInv.step {b : Bbn} (h : BbnInv b) (op : BOp) : BbnInv (op.step b) := by
  cases op with
  | addNode n => exact h.addNode n
  | addEdge i j => exact h.addEdge i j

theorem bbn_run_inv (ops : List BOp) : BbnInv (Bbn.run ops) :=
  foldl_inv BbnInv _ (fun _ op h => h.step op) ops _ BbnInv.empty

end PyBBN
