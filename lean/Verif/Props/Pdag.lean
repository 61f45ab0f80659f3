import Verif.Spec.Mixed
import Verif.Props.Graphs

/-! # C100: partially directed graphs -/

namespace PyBBN
open Relation

variable {N : Type} [HasId N]

/-- the stored graph and the mixed graph have the same edges -/
structure MixedInv (g : Graph N) (L : Mixed) : Prop where
  em : ∀ a b, emRel g a b ↔ L.Arrow a b ∨ L.Line a b
  anti : ∀ a b, L.Arrow a b → ¬ L.Arrow b a ∧ ¬ L.Line a b

namespace Mixed

theorem line_comm {L : Mixed} {a b : Int} : L.Line a b ↔ L.Line b a := or_comm

theorem arrow_append {L : Mixed} {i j : Int} {t : EdgeType} {a b : Int} :
    Arrow (L ++ [(i, j, t)]) a b ↔ L.Arrow a b ∨ (t = .directed ∧ a = i ∧ b = j) := by
  simp only [Arrow, List.mem_append, List.mem_singleton, Prod.mk.injEq]
  constructor
  · rintro (h | ⟨h1, h2, h3⟩)
    · exact Or.inl h
    · exact Or.inr ⟨h3.symm, h1, h2⟩
  · rintro (h | ⟨h1, h2, h3⟩)
    · exact Or.inl h
    · exact Or.inr ⟨h2, h3, h1.symm⟩

theorem line_append {L : Mixed} {i j : Int} {t : EdgeType} {a b : Int} :
    Line (L ++ [(i, j, t)]) a b ↔ L.Line a b ∨ (t = .undirected ∧ ((a = i ∧ b = j) ∨ (a = j ∧ b = i))) := by
  simp only [Line, List.mem_append, List.mem_singleton, Prod.mk.injEq]
  constructor
  · rintro ((h | ⟨h1, h2, h3⟩) | (h | ⟨h1, h2, h3⟩))
    · exact Or.inl (Or.inl h)
    · exact Or.inr ⟨h3.symm, Or.inl ⟨h1, h2⟩⟩
    · exact Or.inl (Or.inr h)
    · exact Or.inr ⟨h3.symm, Or.inr ⟨h2, h1⟩⟩
  · rintro ((h | h) | ⟨h1, ⟨h2, h3⟩ | ⟨h2, h3⟩⟩)
    · exact Or.inl (Or.inl h)
    · exact Or.inr (Or.inl h)
    · exact Or.inl (Or.inr ⟨h2, h3, h1.symm⟩)
    · exact Or.inr (Or.inr ⟨h3, h2, h1.symm⟩)

end Mixed
open Mixed

theorem MixedInv.directed {g : Graph N} {L : Mixed} (h : MixedInv g L) (a b : Int) : (emRel g a b ∧ ¬ emRel g b a) ↔ L.Arrow a b := by
  rw [h.em, h.em]
  constructor
  · rintro ⟨h1 | h1, h2⟩
    · exact h1
    · exact absurd (Or.inr (line_comm.1 h1)) h2
  · intro h1
    refine ⟨Or.inl h1, ?_⟩
    rintro (h2 | h2)
    · exact (h.anti a b h1).1 h2
    · exact (h.anti a b h1).2 (line_comm.1 h2)

theorem MixedInv.step (ops : List (GOp N)) {L : Mixed} (h : MixedInv (Pdag.run ops) L) (op : GOp N) :
    MixedInv (GOp.step Pdag.addEdge (Pdag.run ops) op) (Mixed.step L op) := by
  classical
  cases op with
  | addNode n => exact ⟨h.em, h.anti⟩
  | removeNode id =>
    have ha : ∀ a b, Arrow (Mixed.step L (GOp.removeNode (N := N) id)) a b ↔ a ≠ id ∧ b ≠ id ∧ L.Arrow a b := by
      intro a b; simp only [Mixed.step, Arrow, List.mem_filter, decide_eq_true_eq]; tauto
    have hl : ∀ a b, Line (Mixed.step L (GOp.removeNode (N := N) id)) a b ↔ a ≠ id ∧ b ≠ id ∧ L.Line a b := by
      intro a b; simp only [Mixed.step, Line, List.mem_filter, decide_eq_true_eq]; tauto
    refine ⟨?_, ?_⟩
    · intro a b
      have := removeNode_em (Pdag.run ops) id a b
      change emRel ((Pdag.run ops).removeNode id) a b ↔ _ at this
      have e := h.em a b
      unfold emRel at e
      rw [e] at this
      rw [ha, hl]
      change emRel ((Pdag.run ops).removeNode id) a b ↔ _
      rw [this]; tauto
    · intro a b hab
      rw [ha] at hab
      have := h.anti a b hab.2.2
      rw [ha, hl]; tauto
  | addEdge it e =>
    obtain ⟨hi, hk⟩ := pdag_run_inv ops
    have h2 := (hi.toGInv.addNode e.i).addNode e.j
    have hk2 : EmNodup (((Pdag.run ops).addNode e.i).addNode e.j) := hk
    have hem2 : ∀ a b, emRel (((Pdag.run ops).addNode e.i).addNode e.j) a b ↔ emRel (Pdag.run ops) a b := fun _ _ => Iff.rfl
    have hj : nid e.j ∈ Dict.keys (((Pdag.run ops).addNode e.i).addNode e.j).nodes := by rw [addNode_keys]; exact Or.inl rfl
    have hdir : (fun a b => emRel (((Pdag.run ops).addNode e.i).addNode e.j) a b ∧ ¬ emRel (((Pdag.run ops).addNode e.i).addNode e.j) b a) = L.Arrow := by
      funext a b; rw [hem2, hem2]; exact propext (h.directed a b)
    have hsa : Pdag.shouldAdd it (((Pdag.run ops).addNode e.i).addNode e.j) e = true ↔ L.Accepts (nid e.i) (nid e.j) := by
      unfold Pdag.shouldAdd Mixed.Accepts
      by_cases hne : nid e.i = nid e.j
      · simp [hne]
      · rw [if_neg hne]
        have hjn : (nid e.j ∉ ddGet (((Pdag.run ops).addNode e.i).addNode e.j).edgeMap (nid e.i) ∧
            nid e.i ∉ ddGet (((Pdag.run ops).addNode e.i).addNode e.j).edgeMap (nid e.j)) ↔ ¬ L.Joined (nid e.i) (nid e.j) := by
          have e1 := h.em (nid e.i) (nid e.j)
          have e2 := h.em (nid e.j) (nid e.i)
          unfold emRel at e1 e2
          change (¬ nid e.j ∈ ddGet (Pdag.run ops).edgeMap (nid e.i) ∧ ¬ nid e.i ∈ ddGet (Pdag.run ops).edgeMap (nid e.j)) ↔ _
          rw [e1, e2, Mixed.Joined, line_comm (a := nid e.j)]
          tauto
        by_cases hjo : L.Joined (nid e.i) (nid e.j)
        · rw [if_neg (fun hc => (hjn.1 hc) hjo)]
          simp [hjo]
        · rw [if_pos (hjn.2 hjo), Bool.not_eq_true', Bool.eq_false_iff, ne_eq, pdag_path_iff it h2 hk2 _ _ hj, hdir]
          rw [reflTransGen_iff_eq_or_transGen]
          constructor
          · exact fun hn => ⟨hne, hjo, fun ht => hn (Or.inr ht)⟩
          · rintro ⟨_, _, hn⟩ (hc | hc)
            · exact hne hc
            · exact hn hc
    change MixedInv (Pdag.addEdge it (Pdag.run ops) e) _
    unfold Pdag.addEdge Graph.addEdgeWith Mixed.step
    simp only
    by_cases hacc : L.Accepts (nid e.i) (nid e.j)
    · rw [if_pos (hsa.2 hacc), if_pos hacc]
      obtain ⟨hne, hjo, _⟩ := hacc
      refine ⟨?_, ?_⟩
      · intro a b
        have := insertEdge_em (((Pdag.run ops).addNode e.i).addNode e.j) e a b
        change emRel _ a b ↔ _ ∨ _ ∨ emRel (Pdag.run ops) a b at this
        rw [this, h.em, arrow_append, line_append]
        generalize Arrow L a b = A
        generalize Line L a b = B
        cases ht : e.type with
        | directed =>
          constructor
          · rintro (⟨rfl, rfl⟩ | ⟨hc, _⟩ | hc)
            · exact Or.inl (Or.inr ⟨rfl, rfl, rfl⟩)
            · cases hc
            · exact hc.elim (fun x => Or.inl (Or.inl x)) (fun x => Or.inr (Or.inl x))
          · rintro ((hc | ⟨_, rfl, rfl⟩) | (hc | ⟨hc, _⟩))
            · exact Or.inr (Or.inr (Or.inl hc))
            · exact Or.inl ⟨rfl, rfl⟩
            · exact Or.inr (Or.inr (Or.inr hc))
            · cases hc
        | undirected =>
          constructor
          · rintro (⟨rfl, rfl⟩ | ⟨_, rfl, rfl⟩ | hc)
            · exact Or.inr (Or.inr ⟨rfl, Or.inl ⟨rfl, rfl⟩⟩)
            · exact Or.inr (Or.inr ⟨rfl, Or.inr ⟨rfl, rfl⟩⟩)
            · exact hc.elim (fun x => Or.inl (Or.inl x)) (fun x => Or.inr (Or.inl x))
          · rintro ((hc | ⟨hc, _⟩) | (hc | ⟨_, ⟨rfl, rfl⟩ | ⟨rfl, rfl⟩⟩))
            · exact Or.inr (Or.inr (Or.inl hc))
            · cases hc
            · exact Or.inr (Or.inr (Or.inr hc))
            · exact Or.inl ⟨rfl, rfl⟩
            · exact Or.inr (Or.inl ⟨rfl, rfl, rfl⟩)
      · intro a b hab
        rw [arrow_append] at hab
        rw [arrow_append, line_append]
        unfold Mixed.Joined at hjo
        push Not at hjo
        obtain ⟨j1, j2, j3⟩ := hjo
        rcases hab with hab | ⟨ht, rfl, rfl⟩
        · have hn := h.anti a b hab
          constructor
          · rintro (hc | ⟨_, rfl, rfl⟩)
            · exact hn.1 hc
            · exact j2 hab
          · rintro (hc | ⟨_, ⟨rfl, rfl⟩ | ⟨rfl, rfl⟩⟩)
            · exact hn.2 hc
            · exact j1 hab
            · exact j2 hab
        · constructor
          · rintro (hc | ⟨_, hc, _⟩)
            · exact j2 hc
            · exact hne hc.symm
          · rintro (hc | ⟨hc, _⟩)
            · exact j3 hc
            · rw [ht] at hc; cases hc
    · rw [if_neg (fun hc => hacc (hsa.1 hc)), if_neg hacc]
      exact ⟨fun a b => (hem2 a b).trans (h.em a b), h.anti⟩

theorem mixedInv_run (ops : List (GOp N)) : MixedInv (Pdag.run ops) (Mixed.run ops) := by
  induction ops using List.reverseRecOn with
  | nil => exact ⟨by intro a b; simp [Pdag.run, Mixed.run, emRel, Graph.empty, ddGet, Dict.get?, Arrow, Line], by intro a b h; simp [Mixed.run, Arrow] at h⟩
  | append_singleton ops op ih =>
    have := ih.step ops op
    unfold Pdag.run Mixed.run at *
    rw [List.foldl_append, List.foldl_append]
    exact this

/-- **C100 (partial)**. A `Pdag` is the mixed graph of the edges that were accepted and whose ends have not been removed since: a new edge is accepted iff its
ends differ and are not joined and no directed edges lead from its second to its first end; `edge_exists`, `directed_edge_exists` and `get_neighbors` tell the edges
as documented. `get_parents` also returns the nodes joined by an undirected edge, and `get_out_nodes` leaves them out. Partial: the documentation
says otherwise (`c100_parents_false`), and the rule for undirected edges depends on the order of their ends (`c100_order_false`). -/
theorem c100_mixed_partial (ops : List (GOp N)) (it : SetIter Int) (a b : Int) :
    (Pdag.edgeExists (Pdag.run ops) a b = true ↔ (Mixed.run ops).Joined a b) ∧
    (Pdag.directedEdgeExists (Pdag.run ops) a b = true ↔ (Mixed.run ops).Arrow a b) ∧
    (b ∈ (Pdag.run ops).getNeighbors a ↔ (Mixed.run ops).Joined a b) ∧
    (a ∈ (Pdag.run ops).getParents b ↔ (Mixed.run ops).Arrow a b ∨ (Mixed.run ops).Line a b) ∧
    (b ∈ Pdag.getOutNodes it (Pdag.run ops) a ↔ (Mixed.run ops).Arrow a b) := by
  obtain ⟨hi, hk⟩ := pdag_run_inv ops
  have h := mixedInv_run ops
  have hj : (emRel (Pdag.run ops) a b ∨ emRel (Pdag.run ops) b a) ↔ (Mixed.run ops).Joined a b := by
    rw [h.em, h.em, Mixed.Joined, line_comm (a := b)]; tauto
  refine ⟨?_, ?_, ?_, ?_, ?_⟩
  · unfold Pdag.edgeExists
    rw [Bool.or_eq_true, decide_eq_true_eq, decide_eq_true_eq]
    exact hj
  · unfold Pdag.directedEdgeExists
    rw [Bool.and_eq_true, decide_eq_true_eq, decide_eq_true_eq]
    exact h.directed a b
  · rw [hi.toGInv.nb]; exact hj
  · rw [mem_getParents _ hk]; exact h.em a b
  · unfold Pdag.getOutNodes
    rw [List.mem_filter, decide_eq_true_eq, it.mem, mem_getParents _ hk, hi.toGInv.nb, ← h.directed]
    unfold emRel
    tauto

/-- **C100**: as long as no undirected edge is added, `get_parents` and `get_out_nodes` are as documented: the nodes with a directed edge into the node, and all
other neighbours -/
theorem c100_directed (ops : List (GOp N)) (hd : ∀ it e, GOp.addEdge it e ∈ ops → e.type = .directed) (it : SetIter Int) (a b : Int) :
    (a ∈ (Pdag.run ops).getParents b ↔ Pdag.directedEdgeExists (Pdag.run ops) a b = true) ∧
    (b ∈ Pdag.getOutNodes it (Pdag.run ops) a ↔ b ∈ (Pdag.run ops).getNeighbors a ∧ ¬ Pdag.directedEdgeExists (Pdag.run ops) b a = true) := by
  have hl : ∀ e ∈ Mixed.run ops, e.2.2 = .directed := by
    unfold Mixed.run
    have key : ∀ (l : List (GOp N)) (L : Mixed), (∀ it e, GOp.addEdge it e ∈ l → e.type = .directed) → (∀ e ∈ L, e.2.2 = .directed) →
        ∀ e ∈ l.foldl Mixed.step L, e.2.2 = .directed := by
      intro l
      induction l with
      | nil => intro L _ h; exact h
      | cons op l ih =>
        intro L hl h
        rw [List.foldl_cons]
        refine ih _ (fun it e he => hl it e (List.mem_cons_of_mem _ he)) ?_
        intro e he
        cases op with
        | addNode n => exact h e he
        | removeNode id => exact h e (List.mem_filter.1 he).1
        | addEdge it' e' =>
          simp only [Mixed.step] at he
          split at he
          · rcases List.mem_append.1 he with he | he
            · exact h e he
            · rw [List.mem_singleton.1 he]; exact hl it' e' List.mem_cons_self
          · exact h e he
    exact key ops [] hd (by simp)
  have hn : ∀ x y, ¬ (Mixed.run ops).Line x y := by
    rintro x y (h | h) <;> cases hl _ h
  obtain ⟨_, h2, h3, h4, h5⟩ := c100_mixed_partial ops it a b
  obtain ⟨_, h2', _, _, _⟩ := c100_mixed_partial ops it b a
  have ha := (mixedInv_run ops).anti
  rw [h2, h3, h4, h5, h2']
  unfold Mixed.Joined
  have n1 := hn a b
  have a1 := ha a b
  generalize Arrow (Mixed.run ops) a b = A at *
  generalize Arrow (Mixed.run ops) b a = B at *
  generalize Line (Mixed.run ops) a b = C at *
  clear h2 h3 h4 h5 h2' ha hn hl
  tauto

/-- **C100**: an edge is accepted at most once, and the directed edges form no cycle -/
theorem c100_simple (ops : List (GOp N)) : (∀ a b, (Mixed.run ops).Arrow a b → ¬ (Mixed.run ops).Arrow b a ∧ ¬ (Mixed.run ops).Line a b) ∧
    Acyclic (Mixed.run ops).Arrow := by
  have h := mixedInv_run ops
  refine ⟨h.anti, ?_⟩
  have := (pdag_run_inv ops).1.acyclic
  have e : (fun a b => emRel (Pdag.run ops) a b ∧ ¬ emRel (Pdag.run ops) b a) = (Mixed.run ops).Arrow := by
    funext a b; exact propext (h.directed a b)
  rw [← e]
  exact this

/-! ## The claims are not vacuous, and what the documentation says is false -/

/-- 0 → 1, 1 — 2, 2 → 3 and an attempt to join 2 and 1 again; node 3 is removed -/
def c100_ops : List (GOp Node) :=
  [.addEdge .same ⟨⟨0⟩, ⟨1⟩, .directed⟩, .addEdge .same ⟨⟨1⟩, ⟨2⟩, .undirected⟩, .addEdge .rev ⟨⟨2⟩, ⟨3⟩, .directed⟩,
   .addEdge .rev ⟨⟨2⟩, ⟨1⟩, .directed⟩, .removeNode 3]

example : Pdag.directedEdgeExists (Pdag.run c100_ops) 0 1 = true ∧ Pdag.directedEdgeExists (Pdag.run c100_ops) 1 2 = false ∧
    Pdag.edgeExists (Pdag.run c100_ops) 2 1 = true ∧ (Pdag.run c100_ops).getNeighbors 1 = [0, 2] ∧ (Pdag.run c100_ops).getNeighbors 2 = [1] := by
  decide +kernel

example := c100_directed (N := Node) [.addEdge .same ⟨⟨0⟩, ⟨1⟩, .directed⟩, .addEdge .same ⟨⟨1⟩, ⟨2⟩, .directed⟩] (by
  intro it e he
  simp only [List.mem_cons, List.not_mem_nil, or_false, GOp.addEdge.injEq] at he
  rcases he with ⟨_, rfl⟩ | ⟨_, rfl⟩ <;> rfl) .same 0 1

/-- **C100 is false of the code**: 2 is joined to 1 by an undirected edge. `get_parents` says that 2 is a parent of 1, and that 1 is a parent of 2;
`get_out_nodes` does not list 2, which has no directed edge into 1. -/
theorem c100_parents_false : (Pdag.run c100_ops).getParents 1 = [0, 2] ∧ (Pdag.run c100_ops).getParents 2 = [1] ∧
    Pdag.directedEdgeExists (Pdag.run c100_ops) 2 1 = false ∧ 2 ∈ (Pdag.run c100_ops).getNeighbors 1 ∧
    Pdag.getOutNodes .same (Pdag.run c100_ops) 1 = [] := by decide +kernel

/-- **C100 is false of the code**: after 0 → 1 → 2 the undirected edge 0 — 2 is accepted, and the same edge written 2 — 0 is not -/
theorem c100_order_false :
    let ops : List (GOp Node) := [.addEdge .same ⟨⟨0⟩, ⟨1⟩, .directed⟩, .addEdge .same ⟨⟨1⟩, ⟨2⟩, .directed⟩]
    Pdag.edgeExists (Pdag.run (ops ++ [.addEdge .same ⟨⟨0⟩, ⟨2⟩, .undirected⟩])) 0 2 = true ∧
    Pdag.edgeExists (Pdag.run (ops ++ [.addEdge .same ⟨⟨2⟩, ⟨0⟩, .undirected⟩])) 0 2 = false := by decide +kernel

/-- **C100 is false of the code**: 0 → 1, 1 — 2, 2 → 0 are all accepted although they form a cycle in which no directed edge is walked against its direction -/
theorem c100_semi_false :
    let ops : List (GOp Node) := [.addEdge .same ⟨⟨0⟩, ⟨1⟩, .directed⟩, .addEdge .same ⟨⟨1⟩, ⟨2⟩, .undirected⟩, .addEdge .same ⟨⟨2⟩, ⟨0⟩, .directed⟩]
    Pdag.directedEdgeExists (Pdag.run ops) 2 0 = true ∧ (Mixed.run ops).Semi 0 0 := by
  intro ops
  refine ⟨by decide +kernel, ?_⟩
  have h01 := ((c100_mixed_partial ops .same 0 1).2.2.2.1).1 (by decide +kernel)
  have h12 := ((c100_mixed_partial ops .same 1 2).2.2.2.1).1 (by decide +kernel)
  have h20 := ((c100_mixed_partial ops .same 2 0).2.2.2.1).1 (by decide +kernel)
  unfold Mixed.Semi
  exact TransGen.tail (TransGen.tail (TransGen.single (r := fun a b => Arrow (Mixed.run ops) a b ∨ Line (Mixed.run ops) a b) h01) h12) h20

end PyBBN
