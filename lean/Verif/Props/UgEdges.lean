import Verif.Props.Graphs
import Verif.Proofs.FromData

/-! # C118: the edges of an undirected graph -/

namespace PyBBN
open Relation

variable {N : Type} [HasId N]

/-- the edges passed to `add_edge`, in call order -/
def GOp.passed (ops : List (GOp N)) : List (Edge N) :=
  ops.filterMap (fun o => match o with
    | .addEdge _ e => some e
    | _ => none)

/-- the ends of an edge, the smaller id first -/
def Edge.pair (e : Edge N) : Int × Int := (min (nid e.i) (nid e.j), max (nid e.i) (nid e.j))

/-- the pairs of different nodes that `add_edge` was asked to join, in call order -/
def GOp.pairs (ops : List (GOp N)) : List (Int × Int) := ((GOp.passed ops).filter (fun e => decide (nid e.i ≠ nid e.j))).map Edge.pair

/-- how a line between two nodes is written -/
def lineText (p : Int × Int) : Str := strInt p.1 ++ "--".toList ++ strInt p.2

theorem lineText_inj {p q : Int × Int} (h : lineText p = lineText q) : p = q := by
  have := edgeKey_undirected_inj h
  exact Prod.ext this.1 this.2

/-- no node is removed -/
def NoRemoval (ops : List (GOp N)) : Prop := ∀ id, GOp.removeNode id ∉ ops

structure UgInv (l : List (GOp N)) (g : Graph N) : Prop where
  keys : Dict.keys g.edges = (firsts (GOp.pairs l)).map lineText
  key : ∀ k e, (k, e) ∈ g.edges → k = lineText e.pair
  own : ∀ k e, (k, e) ∈ g.edges → e ∈ GOp.passed l
  em : ∀ a b, emRel g a b → (min a b, max a b) ∈ GOp.pairs l

theorem passed_append (l : List (GOp N)) (op : GOp N) : GOp.passed (l ++ [op]) = GOp.passed l ++ GOp.passed [op] := by
  unfold GOp.passed; rw [List.filterMap_append]

theorem pairs_append (l : List (GOp N)) (op : GOp N) : GOp.pairs (l ++ [op]) = GOp.pairs l ++ GOp.pairs [op] := by
  unfold GOp.pairs; rw [passed_append, List.filter_append, List.map_append]

theorem key_line {e : Edge N} (h : e.type = .undirected) : e.key = lineText e.pair := by
  unfold Edge.key; rw [h]; rfl

theorem graph_run_append (l : List (GOp N)) (op : GOp N) : Graph.run (l ++ [op]) = GOp.step (fun _ => Graph.addEdge) (Graph.run l) op := by
  unfold Graph.run; rw [List.foldl_append]; rfl

theorem ug_inv (ops : List (GOp N)) (hu : UndirectedOps ops) : UgInv ops (Graph.run ops) := by
  induction ops using List.reverseRecOn with
  | nil =>
    refine ⟨rfl, ?_, ?_, ?_⟩
    · intro k e h; simp [Graph.run, Graph.empty] at h
    · intro k e h; simp [Graph.run, Graph.empty] at h
    · intro a b h; simp [emRel, Graph.run, Graph.empty, ddGet, Dict.get?] at h
  | append_singleton l op ih =>
    have hul : UndirectedOps l := fun it e h => hu it e (List.mem_append_left _ h)
    have h := ih hul
    have hsym := ug_symm l hul
    rw [graph_run_append]
    cases op with
    | addNode n =>
      have e1 : GOp.passed (l ++ [GOp.addNode n]) = GOp.passed l := by rw [passed_append]; simp [GOp.passed]
      have e2 : GOp.pairs (l ++ [GOp.addNode n]) = GOp.pairs l := by unfold GOp.pairs; rw [e1]
      exact ⟨by rw [e2]; exact h.keys, h.key, by rw [e1]; exact h.own, by rw [e2]; exact h.em⟩
    | removeNode id =>
      have e1 : GOp.passed (l ++ [GOp.removeNode id]) = GOp.passed l := by rw [passed_append]; simp [GOp.passed]
      have e2 : GOp.pairs (l ++ [GOp.removeNode id]) = GOp.pairs l := by unfold GOp.pairs; rw [e1]
      exact ⟨by rw [e2]; exact h.keys, h.key, by rw [e1]; exact h.own, by
        rw [e2]; intro a b hab; exact h.em a b ((removeNode_em _ id a b).1 hab).2.2⟩
    | addEdge it e =>
      have ht : e.type = .undirected := hu it e (by simp)
      have e1 : GOp.passed (l ++ [GOp.addEdge it e]) = GOp.passed l ++ [e] := by rw [passed_append]; rfl
      change UgInv _ (Graph.addEdgeWith Graph.shouldAdd (Graph.run l) e)
      by_cases hl : nid e.i = nid e.j
      · have e2 : GOp.pairs (l ++ [GOp.addEdge it e]) = GOp.pairs l := by
          unfold GOp.pairs; rw [e1, List.filter_append, List.filter_cons_of_neg (by simpa using hl)]; simp
        have hs : Graph.shouldAdd (((Graph.run l).addNode e.i).addNode e.j) e = false := by unfold Graph.shouldAdd; rw [if_pos hl]
        unfold Graph.addEdgeWith
        simp only [hs]
        exact ⟨by rw [e2]; exact h.keys, h.key, by rw [e1]; exact fun k f hf => List.mem_append_left _ (h.own k f hf), by rw [e2]; exact h.em⟩
      · have e2 : GOp.pairs (l ++ [GOp.addEdge it e]) = GOp.pairs l ++ [e.pair] := by
          unfold GOp.pairs; rw [e1, List.filter_append, List.filter_cons_of_pos (by simpa using hl)]; simp
        unfold Graph.addEdgeWith
        simp only
        split
        · have ek : (Graph.insertEdge (((Graph.run l).addNode e.i).addNode e.j) e).edges = Dict.set (Graph.run l).edges e.key e := rfl
          have hm : e.key ∈ Dict.keys (Graph.run l).edges ↔ e.pair ∈ GOp.pairs l := by
            rw [h.keys, key_line ht, List.mem_map]
            constructor
            · rintro ⟨p, hp, e3⟩
              rw [← lineText_inj e3]
              exact (mem_firsts _ _).1 hp
            · exact fun h3 => ⟨_, (mem_firsts _ _).2 h3, rfl⟩
          refine ⟨?_, ?_, ?_, ?_⟩
          · rw [ek, Dict.keys_set, e2, firsts_append]
            by_cases h3 : e.pair ∈ GOp.pairs l
            · rw [if_pos (hm.2 h3), if_pos h3, h.keys]
            · rw [if_neg (fun h4 => h3 (hm.1 h4)), if_neg h3, h.keys, List.map_append, key_line ht]; rfl
          · intro k f hf
            rw [ek] at hf
            rcases mem_set_iff hf with h3 | h3
            · cases h3; exact key_line ht
            · exact h.key k f h3
          · intro k f hf
            rw [ek] at hf
            rw [e1]
            rcases mem_set_iff hf with h3 | h3
            · cases h3; simp
            · exact List.mem_append_left _ (h.own k f h3)
          · intro a b hab
            unfold emRel at hab
            rw [insertEdge_em] at hab
            rw [e2]
            rcases hab with ⟨h3, h4⟩ | ⟨_, h3, h4⟩ | h3
            · subst h3; subst h4; simp [Edge.pair]
            · subst h3; subst h4; simp [Edge.pair, min_comm, max_comm]
            · exact List.mem_append_left _ (h.em a b h3)
        · rename_i hs
          have hin : e.pair ∈ GOp.pairs l := by
            have : emRel (Graph.run l) (nid e.i) (nid e.j) := by
              by_contra h3
              apply hs
              unfold Graph.shouldAdd
              rw [if_neg hl, ht]
              simp only [Bool.or_eq_true, decide_eq_true_eq]
              exact Or.inr h3
            exact h.em _ _ this
          refine ⟨?_, h.key, ?_, ?_⟩
          · rw [e2, firsts_append, if_pos hin]; exact h.keys
          · rw [e1]; exact fun k f hf => List.mem_append_left _ (h.own k f hf)
          · rw [e2]; exact fun a b hab => List.mem_append_left _ (h.em a b hab)

theorem ug_lines (ops : List (GOp N)) (hu : UndirectedOps ops) :
    (Graph.run ops).getEdges.map (fun e => lineText e.pair) = (firsts (GOp.pairs ops)).map lineText := by
  have h := ug_inv ops hu
  rw [← h.keys]
  unfold Graph.getEdges Dict.values Dict.keys
  rw [List.map_map]
  refine List.map_congr_left ?_
  rintro ⟨k, e⟩ hk
  exact (h.key k e hk).symm

/-- **C118**. After any calls of `add_node`, `add_edge` and `remove_node` on an undirected graph, `get_edges` lists one edge for each pair of
different nodes that `add_edge` was ever asked to join, in either direction, in the order of the first request; each edge listed was
passed by the caller; it prints as the smaller id, two dashes, and the larger id. -/
theorem c118_edges (ops : List (GOp N)) (hu : UndirectedOps ops) :
    (Graph.run ops).getEdges.map Edge.pair = firsts (GOp.pairs ops) ∧
      (∀ e ∈ (Graph.run ops).getEdges, e ∈ GOp.passed ops) ∧
      (Graph.run ops).getEdges.map Edge.key = (firsts (GOp.pairs ops)).map lineText := by
  have h := ug_inv ops hu
  have hown : ∀ e ∈ (Graph.run ops).getEdges, e ∈ GOp.passed ops := by
    intro e he
    obtain ⟨⟨k, f⟩, hk, rfl⟩ := List.mem_map.1 he
    exact h.own k f hk
  refine ⟨?_, hown, ?_⟩
  · have := ug_lines ops hu
    rw [show (fun e : Edge N => lineText e.pair) = lineText ∘ Edge.pair from rfl, ← List.map_map] at this
    exact List.map_injective_iff.2 (fun _ _ => lineText_inj) this
  · rw [← ug_lines ops hu]
    refine List.map_congr_left ?_
    intro e he
    refine key_line ?_
    obtain ⟨op, hop, e1⟩ := List.mem_filterMap.1 (hown e he)
    cases op with
    | addNode n => simp at e1
    | removeNode id => simp at e1
    | addEdge it f =>
      simp only [Option.some.injEq] at e1
      subst e1
      exact hu it f hop

/-- **C118**, neighbors: two nodes that are neighbors are listed, by exactly one edge. -/
theorem c118_neighbors (ops : List (GOp N)) (hu : UndirectedOps ops) {a b : Int} (hn : b ∈ (Graph.run ops).getNeighbors a) :
    ((Graph.run ops).getEdges.filter (fun e => decide (e.pair = (min a b, max a b)))).length = 1 := by
  have h := ug_inv ops hu
  have hp : (min a b, max a b) ∈ GOp.pairs ops := by
    rw [(graph_run_inv ops).nb] at hn
    rcases hn with hn | hn
    · exact h.em a b hn
    · rw [min_comm, max_comm]; exact h.em b a hn
  have hnd : ((Graph.run ops).getEdges.map Edge.pair).Nodup := by
    rw [(c118_edges ops hu).1]
    exact Factory.nodup_firsts _
  have hmem : (min a b, max a b) ∈ (Graph.run ops).getEdges.map Edge.pair := by
    rw [(c118_edges ops hu).1]
    exact (mem_firsts _ _).2 hp
  have e : (((Graph.run ops).getEdges.filter (fun e => decide (e.pair = (min a b, max a b)))).map Edge.pair) =
      ((Graph.run ops).getEdges.map Edge.pair).filter (fun p => decide (p = (min a b, max a b))) := by
    rw [List.filter_map]; rfl
  rw [← List.length_map (f := Edge.pair), e]
  have := List.count_eq_one_of_mem hnd hmem
  rw [List.count_eq_length_filter] at this
  rw [← this]
  congr 1
  refine List.filter_congr ?_
  intro p _
  by_cases e : p = (min a b, max a b) <;> simp [e]

/-- **C118, partial**. Full statement: `get_edges` lists exactly the pairs of neighbors. Proved when no node was removed; `remove_node`
leaves the edges of the removed node in the list (`c05_false`), so two nodes that are no longer neighbors may be listed. -/
theorem c118_exact_partial (ops : List (GOp N)) (hu : UndirectedOps ops) (hr : NoRemoval ops) (a b : Int) :
    b ∈ (Graph.run ops).getNeighbors a ↔ a ≠ b ∧ (min a b, max a b) ∈ (Graph.run ops).getEdges.map Edge.pair := by
  constructor
  · intro hn
    refine ⟨?_, ?_⟩
    · rintro rfl
      exact (c04_graph_consistent ops a a).2.1 hn
    · have := c118_neighbors ops hu hn
      obtain ⟨e, he⟩ := List.exists_mem_of_length_pos (by rw [this]; exact Nat.one_pos)
      obtain ⟨h1, h2⟩ := List.mem_filter.1 he
      rw [decide_eq_true_eq] at h2
      exact List.mem_map.2 ⟨e, h1, h2⟩
  · rintro ⟨hab, hm⟩
    rw [(c118_edges ops hu).1, mem_firsts] at hm
    rw [(graph_run_inv ops).nb]
    have key : ∀ l : List (GOp N), NoRemoval l → ∀ p ∈ GOp.pairs l, emRel (Graph.run l) p.1 p.2 ∨ emRel (Graph.run l) p.2 p.1 := by
      intro l
      induction l using List.reverseRecOn with
      | nil => intro _ p hp; simp [GOp.pairs, GOp.passed] at hp
      | append_singleton l op ih =>
        intro hr p hp
        have ih := ih (fun id h => hr id (List.mem_append_left _ h))
        rw [pairs_append] at hp
        rw [graph_run_append]
        cases op with
        | removeNode id => exact absurd (by simp) (hr id)
        | addNode n =>
          simp only [GOp.pairs, GOp.passed, List.filterMap_cons, List.filterMap_nil, List.filter_nil, List.map_nil, List.append_nil] at hp
          exact ih p hp
        | addEdge it e =>
          have hold : ∀ c d, emRel (Graph.run l) c d → emRel (GOp.step (fun _ => Graph.addEdge) (Graph.run l) (.addEdge it e)) c d := by
            intro c d hcd
            change emRel (Graph.addEdgeWith Graph.shouldAdd (Graph.run l) e) c d
            unfold Graph.addEdgeWith
            simp only
            split
            · unfold emRel; rw [insertEdge_em]; exact Or.inr (Or.inr hcd)
            · exact hcd
          rcases List.mem_append.1 hp with hp | hp
          · exact (ih p hp).imp (hold _ _) (hold _ _)
          · simp only [GOp.pairs, GOp.passed, List.filterMap_cons, List.filterMap_nil, List.mem_map, List.mem_filter, List.mem_singleton,
              decide_eq_true_eq] at hp
            obtain ⟨f, ⟨rfl, hne⟩, rfl⟩ := hp
            have hin : emRel (GOp.step (fun _ => Graph.addEdge) (Graph.run l) (.addEdge it f)) (nid f.i) (nid f.j) ∨
                emRel (GOp.step (fun _ => Graph.addEdge) (Graph.run l) (.addEdge it f)) (nid f.j) (nid f.i) := by
              change emRel (Graph.addEdgeWith Graph.shouldAdd (Graph.run l) f) _ _ ∨ emRel (Graph.addEdgeWith Graph.shouldAdd (Graph.run l) f) _ _
              unfold Graph.addEdgeWith
              simp only
              split
              · left; unfold emRel; rw [insertEdge_em]; exact Or.inl ⟨rfl, rfl⟩
              · rename_i hs
                left
                by_contra h3
                apply hs
                unfold Graph.shouldAdd
                rw [if_neg hne]
                cases f.type with
                | undirected =>
                  simp only [Bool.or_eq_true, decide_eq_true_eq]
                  exact Or.inr h3
                | directed =>
                  simp only [decide_eq_true_eq]
                  exact h3
            unfold Edge.pair
            rcases le_total (nid f.i) (nid f.j) with h4 | h4
            · simpa [min_eq_left h4, max_eq_right h4] using hin
            · simpa [min_eq_right h4, max_eq_left h4] using hin.symm
    have := key ops hr _ hm
    rcases le_total a b with h4 | h4
    · simpa [min_eq_left h4, max_eq_right h4, emRel] using this
    · simpa [min_eq_right h4, max_eq_left h4, emRel] using this.symm

/-- **C118 is false of the code** once a node was removed: the line between 0 and 1 is listed though 0 has no neighbor. -/
theorem c118_false : ∃ ops : List (GOp Node), UndirectedOps ops ∧
    (0, 1) ∈ (Graph.run ops).getEdges.map Edge.pair ∧ (1 : Int) ∉ (Graph.run ops).getNeighbors 0 :=
  ⟨[.addEdge .same ⟨⟨0⟩, ⟨1⟩, .undirected⟩, .removeNode 0], by
    intro it e h
    simp at h
    simp [h.2], by decide +kernel, by decide +kernel⟩

/-- three lines, one of them asked for in the other direction, one removed with its node and then asked for in the other direction, and
a loop -/
def c118_ops : List (GOp Node) :=
  [.addEdge .same ⟨⟨7⟩, ⟨2⟩, .undirected⟩, .addEdge .same ⟨⟨2⟩, ⟨10⟩, .undirected⟩, .addEdge .same ⟨⟨2⟩, ⟨7⟩, .undirected⟩, .addNode ⟨5⟩,
   .addEdge .same ⟨⟨5⟩, ⟨5⟩, .undirected⟩, .addEdge .same ⟨⟨10⟩, ⟨7⟩, .undirected⟩, .removeNode 10,
   .addEdge .same ⟨⟨10⟩, ⟨2⟩, .undirected⟩]

theorem c118_ops_undirected : UndirectedOps c118_ops := by
  intro it e h
  simp [c118_ops] at h
  rcases h with h | h | h | h | h | h <;> simp [h.2]

example : (Graph.run c118_ops).getEdges.map Edge.pair = [(2, 7), (2, 10), (7, 10)] := by
  rw [(c118_edges c118_ops c118_ops_undirected).1]
  decide +kernel

example : (Graph.run c118_ops).getEdges.map Edge.key = ["2--7".toList, "2--10".toList, "7--10".toList] := by
  rw [(c118_edges c118_ops c118_ops_undirected).2.2]
  decide +kernel

/-- the edge between 2 and 10 is now the one of the last call -/
example : (Graph.run c118_ops).getEdges.map (fun e => (nid e.i, nid e.j)) = [(7, 2), (10, 2), (10, 7)] := by decide +kernel

example : ((Graph.run c118_ops).getEdges.filter (fun e => decide (e.pair = (2, 10)))).length = 1 :=
  c118_neighbors c118_ops c118_ops_undirected (a := 10) (b := 2) (by decide +kernel)

example : (2 : Int) ∈ (Graph.run (c118_ops.take 6)).getNeighbors 10 :=
  (c118_exact_partial (c118_ops.take 6) (fun it e h => c118_ops_undirected it e (List.mem_of_mem_take h))
    (by intro id; simp [c118_ops]) 10 2).2 ⟨by decide, by decide +kernel⟩

end PyBBN
