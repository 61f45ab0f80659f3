import Verif.Model.Limit
import Verif.Proofs.Limit
import Verif.Proofs.Coherence
import Verif.Props.Chordal
import Verif.Props.Evidence
import Verif.Props.Reapply

/-! # C93: networks of any size, and Python's recursion limit -/

namespace PyBBN
open Relation InferenceController Chord Propagator

/-! ## a chain of nodes -/

/-- node `i` of the chain -/
def chainNode (i : Nat) : BbnNode :=
  ⟨⟨i, strInt i, ["on".toList, "off".toList]⟩, if i = 0 then [1/2, 1/2] else [3/4, 1/4, 1/4, 3/4]⟩

/-- the network 0 → 1 → … → n -/
def chainOps (n : Nat) : List BOp := (List.range n).map (fun i => .addEdge (chainNode i) (chainNode (i + 1)))

theorem chain_edges (n : Nat) (p c : Int) : (p, c) ∈ BOp.edges (chainOps n) ↔ 0 ≤ p ∧ p < n ∧ c = p + 1 := by
  unfold BOp.edges chainOps
  rw [List.filterMap_map]
  simp only [List.mem_filterMap, List.mem_range, Function.comp, Option.some.injEq, Prod.mk.injEq]
  constructor
  · rintro ⟨i, hi, rfl, rfl⟩
    simp only [chainNode]
    omega
  · rintro ⟨h1, h2, rfl⟩
    refine ⟨p.toNat, by omega, ?_, ?_⟩ <;> simp only [chainNode] <;> omega

theorem chain_nodes (n : Nat) (x : BbnNode) (h : x ∈ BOp.nodes (chainOps n)) : ∃ i ≤ n, x = chainNode i := by
  unfold BOp.nodes chainOps at h
  rw [List.flatMap_map] at h
  obtain ⟨i, hi, h⟩ := List.mem_flatMap.1 h
  rw [List.mem_range] at hi
  simp only [List.mem_cons, List.not_mem_nil, or_false] at h
  rcases h with rfl | rfl
  · exact ⟨i, by omega, rfl⟩
  · exact ⟨i + 1, by omega, rfl⟩

theorem chain_getNodes (n : Nat) (x : BbnNode) (h : x ∈ (Bbn.run (chainOps n)).toGraph.getNodes) : ∃ i ≤ n, x = chainNode i := by
  have := (getNodes_eq (bbn_run_inv _) x).1 h
  rw [get?_run] at this
  exact chain_nodes n x (List.mem_of_find?_eq_some this)

theorem chain_mem (n i : Nat) (hn : 0 < n) (hi : i ≤ n) : (chainNode i).var ∈ (Bbn.run (chainOps n)).vars := by
  have hmem : chainNode i ∈ BOp.nodes (chainOps n) := by
    unfold BOp.nodes chainOps
    rw [List.flatMap_map]
    rw [List.mem_flatMap]
    by_cases h : i < n
    · exact ⟨i, List.mem_range.2 h, by simp⟩
    · refine ⟨i - 1, List.mem_range.2 (by omega), ?_⟩
      have : i - 1 + 1 = i := by omega
      simp [this]
  rw [mem_vars (bbn_run_inv _), get?_run]
  cases hf : (BOp.nodes (chainOps n)).find? (fun n => decide (n.var.id = (chainNode i).var.id)) with
  | none =>
    rw [List.find?_eq_none] at hf
    exact absurd (decide_eq_true rfl) (hf _ hmem)
  | some x =>
    obtain ⟨j, _, rfl⟩ := chain_nodes n x (List.mem_of_find?_eq_some hf)
    have := List.find?_some hf
    have this : ((j : Nat) : Int) = (i : Nat) := of_decide_eq_true this
    have e : j = i := by omega
    subst e
    exact ⟨_, rfl, rfl⟩

theorem chain_wf (n : Nat) : (Bbn.run (chainOps n)).WF := by
  refine ⟨?_, ?_, ?_, ?_⟩
  · intro id h
    rw [parents_requested, chain_edges] at h
    omega
  · intro x hx
    obtain ⟨i, _, rfl⟩ := chain_getNodes n x hx
    simp [chainNode]
  · intro x hx
    obtain ⟨i, _, rfl⟩ := chain_getNodes n x hx
    have hinv := bbn_run_inv (chainOps n)
    have h1 := vids_parentVars hinv (chainNode i).var.id
    have hpar : ∀ p ∈ ddGet (Bbn.run (chainOps n)).parents (chainNode i).var.id, p + 1 = (i : Int) ∧ 0 ≤ p := by
      intro p hp
      rw [parents_requested, chain_edges] at hp
      simp only [chainNode] at hp
      omega
    have hnd := hinv.parNodup (chainNode i).var.id
    have hval : ∀ v ∈ (Bbn.run (chainOps n)).parentVars (chainNode i).var.id, v.values.length = 2 := by
      intro v hv
      have := parentVars_sub hinv _ v hv
      obtain ⟨x, hx, rfl⟩ := List.mem_map.1 this
      obtain ⟨j, _, rfl⟩ := chain_getNodes n x hx
      rfl
    have hlen : ((Bbn.run (chainOps n)).parentVars (chainNode i).var.id).length =
        (ddGet (Bbn.run (chainOps n)).parents (chainNode i).var.id).length := by
      rw [← h1]; simp [vids]
    generalize hP : (Bbn.run (chainOps n)).parentVars (chainNode i).var.id = P at *
    generalize hD : ddGet (Bbn.run (chainOps n)).parents (chainNode i).var.id = D at *
    by_cases hi : i = 0
    · have : D = [] := by
        cases D with
        | nil => rfl
        | cons a l => have := hpar a (by simp); omega
      subst this
      have : P = [] := List.eq_nil_of_length_eq_zero (by simpa using hlen)
      subst this
      simp [chainNode, hi]
    · have hD1 : D.length ≤ 1 := by
        match D, hnd, hpar with
        | [], _, _ => simp
        | [_], _, _ => simp
        | a :: b :: l, hnd, hpar =>
          have ha := hpar a (by simp)
          have hb := hpar b (by simp)
          have : a = b := by omega
          subst this
          simp at hnd
      match P, hlen, hval with
      | [], _, _ => simp [chainNode, hi]
      | [v], _, hval =>
        have := hval v (by simp)
        simp [chainNode, hi, this]
      | a :: b :: l, hlen, _ => simp at hlen; omega
  · intro x hx
    obtain ⟨i, _, rfl⟩ := chain_getNodes n x hx
    intro p hp
    simp only [chainNode] at hp
    split at hp <;> simp at hp
    · subst hp; norm_num
    · rcases hp with rfl | rfl | rfl | rfl <;> norm_num

theorem chain_usable (n : Nat) : Net.Usable (chainOps n) := by
  refine ⟨⟨chain_wf n, ?_⟩, ?_⟩
  · intro v hv
    obtain ⟨x, hx, rfl⟩ := List.mem_map.1 hv
    obtain ⟨j, _, rfl⟩ := chain_getNodes n x hx
    simp [chainNode]
  · have key : ∀ i : Nat, i ≤ n → EqvGen (fun p c => (p, c) ∈ BOp.edges (chainOps n)) 0 (i : Int) := by
      intro i
      induction i with
      | zero => intro _; exact EqvGen.refl _
      | succ i ih =>
        intro hi
        refine EqvGen.trans _ _ _ (ih (by omega)) (EqvGen.rel _ _ ?_)
        rw [chain_edges]
        omega
    intro u hu v hv
    obtain ⟨x, hx, rfl⟩ := List.mem_map.1 hu
    obtain ⟨y, hy, rfl⟩ := List.mem_map.1 hv
    obtain ⟨i, hi, rfl⟩ := chain_getNodes n x hx
    obtain ⟨j, hj, rfl⟩ := chain_getNodes n y hy
    exact EqvGen.trans _ _ _ (EqvGen.symm _ _ (key i hi)) (key j hj)

theorem chain_moral (n : Nat) (x y : Int) (h : Moral (fun p c => (p, c) ∈ BOp.edges (chainOps n)) x y) : x = y + 1 ∨ y = x + 1 := by
  obtain ⟨hne, h | h | ⟨c, h1, h2⟩⟩ := h
  · rw [chain_edges] at h; omega
  · rw [chain_edges] at h; omega
  · rw [chain_edges] at h1 h2; omega

theorem chain_chordal (n : Nat) : Chordal (Moral (fun p c => (p, c) ∈ BOp.edges (chainOps n))) := by
  intro m c hm hc
  exfalso
  obtain ⟨hinj, hstep, hlast⟩ := hc
  obtain ⟨i, hi, hmax⟩ := Finset.exists_max_image (Finset.range m) c ⟨0, by simp; omega⟩
  rw [Finset.mem_range] at hi
  have hmax' : ∀ j < m, c j ≤ c i := fun j hj => hmax j (Finset.mem_range.2 hj)
  have nb : ∀ j k, j < m → k < m → Moral (fun p c => (p, c) ∈ BOp.edges (chainOps n)) (c j) (c i) ∨
      Moral (fun p c => (p, c) ∈ BOp.edges (chainOps n)) (c i) (c j) → 
      Moral (fun p c => (p, c) ∈ BOp.edges (chainOps n)) (c k) (c i) ∨
      Moral (fun p c => (p, c) ∈ BOp.edges (chainOps n)) (c i) (c k) → j = k := by
    intro j k hj hk h1 h2
    apply hinj j hj k hk
    have a1 := hmax' j hj
    have a2 := hmax' k hk
    have b1 : c j + 1 = c i := by
      rcases h1 with h | h <;> have := chain_moral n _ _ h <;> omega
    have b2 : c k + 1 = c i := by
      rcases h2 with h | h <;> have := chain_moral n _ _ h <;> omega
    omega
  by_cases h0 : i = 0
  · subst h0
    have := nb 1 (m - 1) (by omega) (by omega) (Or.inr (hstep 0 (by omega))) (Or.inl hlast)
    omega
  · have hp : Moral (fun p c => (p, c) ∈ BOp.edges (chainOps n)) (c (i - 1)) (c i) := by
      have := hstep (i - 1) (by omega)
      rwa [show i - 1 + 1 = i by omega] at this
    by_cases h1 : i + 1 = m
    · have e : m - 1 = i := by omega
      rw [e] at hlast
      have := nb (i - 1) 0 (by omega) (by omega) (Or.inl hp) (Or.inr hlast)
      omega
    · have := nb (i - 1) (i + 1) (by omega) (by omega) (Or.inl hp) (Or.inr (hstep i (by omega)))
      omega

/-- nodes of a clique of the chain are next to each other -/
theorem chain_clique (it : SetIter Int) (n : Nat) : ∀ c ∈ (Triangulator.triangulate it (moralize (Bbn.run (chainOps n)))).1,
    ∀ x ∈ c.nodeIds, ∀ y ∈ c.nodeIds, x ≤ y + 1 := by
  intro c hc x hx y hy
  by_cases e : x = y
  · omega
  · have h5 := ((c13_triangulation it (chainOps n)).2.2.2.2.1 x y).2 ⟨e, c, hc, hx, hy⟩
    rw [(c88_no_fill it (chainOps n)).2 (chain_chordal n) x y, (c12_moral_graph (chainOps n)).2.2.1] at h5
    have := chain_moral n x y h5
    omega

theorem chain_near (it : SetIter Int) (n : Nat) {T : List SepSet} {jt : JoinTree} (js : SetIter Str)
    (ht : JTSpec (Triangulator.triangulate it (moralize (Bbn.run (chainOps n)))).1 T jt) {k : Nat} {a b : Str}
    (h : WithinSteps (neighboringCliques js jt) k a b) : ∀ A ∈ (Triangulator.triangulate it (moralize (Bbn.run (chainOps n)))).1, A.id = a →
    ∀ B ∈ (Triangulator.triangulate it (moralize (Bbn.run (chainOps n)))).1, B.id = b →
    ∀ x ∈ A.nodeIds, ∀ y ∈ B.nodeIds, x ≤ y + k + 1 ∧ y ≤ x + k + 1 := by
  induction h with
  | refl m a =>
    intro A hA ha B hB hb x hx y hy
    have : A = B := (ht.fam.id_iff hA hB).1 (ha.trans hb.symm)
    subst this
    have h1 := chain_clique it n A hA x hx y hy
    have h2 := chain_clique it n A hA y hy x hx
    omega
  | @step m a b c s hs hn ih =>
    rintro A hA rfl B hB hb x hx y hy
    obtain ⟨t, ht', C, hC, e, hj⟩ := (ht.nb_spec js hA _).1 hs
    cases e
    obtain ⟨w, hw1, hw2⟩ := (ht.shape.good t ht').common
    have hw : w ∈ A.nodeIds ∧ w ∈ C.nodeIds := by
      rcases hj with ⟨e1, e2⟩ | ⟨e1, e2⟩
      · rw [e1] at hw1; rw [e2] at hw2; exact ⟨hw1, hw2⟩
      · rw [e1] at hw1; rw [e2] at hw2; exact ⟨hw2, hw1⟩
    have h1 := chain_clique it n A hA x hx w hw.1
    have h2 := chain_clique it n A hA w hw.1 x hx
    have h3 := ih C hC rfl B hB hb w hw.2 y hy
    push_cast
    omega

theorem chain_all (it : SetIter Int) (n : Nat) {T : List SepSet} {jt : JoinTree} (js : SetIter Str)
    (ht : JTSpec (Triangulator.triangulate it (moralize (Bbn.run (chainOps n)))).1 T jt) {x : Clique} {m : List Str}
    (hx : x ∈ (Triangulator.triangulate it (moralize (Bbn.run (chainOps n)))).1) (hxm : x.id ∈ m)
    (hm : ∀ k ∈ m, ∀ z ∈ neighboringCliques js jt k, z.2 ∈ m) :
    ∀ d ∈ (Triangulator.triangulate it (moralize (Bbn.run (chainOps n)))).1, d.id ∈ m := by
  intro d hd
  have hconn := connected_cliques (chain_usable n).conn (triangulate_spec it (bbn_run_inv _)).1 ht x hx d hd
  set cs := (Triangulator.triangulate it (moralize (Bbn.run (chainOps n)))).1 with hcs
  have := Conn.elim (R := fun F G => (∃ C ∈ cs, C.fs = F ∧ C.id ∈ m) ↔ (∃ C ∈ cs, C.fs = G ∧ C.id ∈ m)) (fun _ => Iff.rfl)
    (fun _ _ h => h.symm) (fun _ _ _ h h' => h.trans h') (by
      intro s hs
      have hg := ht.shape.good s hs
      constructor
      · rintro ⟨C, hC, e, hCm⟩
        have : C = s.left := ht.fam.fs_inj hC hg.left e
        subst this
        exact ⟨s.right, hg.right, rfl, hm _ hCm (s.id, s.right.id) ((ht.nb_spec js hC _).2 ⟨s, hs, s.right, hg.right, rfl, Or.inl ⟨rfl, rfl⟩⟩)⟩
      · rintro ⟨C, hC, e, hCm⟩
        have : C = s.right := ht.fam.fs_inj hC hg.right e
        subst this
        exact ⟨s.left, hg.left, rfl, hm _ hCm (s.id, s.left.id) ((ht.nb_spec js hC _).2 ⟨s, hs, s.left, hg.left, rfl, Or.inr ⟨rfl, rfl⟩⟩)⟩) hconn
  obtain ⟨C, hC, e, hCm⟩ := this.1 ⟨x, hx, rfl, hxm⟩
  have : C = d := ht.fam.fs_inj hC hd e
  exact this ▸ hCm

/-- **C93**, the part that holds. If `apply` works at all (that is, if recursion is not limited), then under any limits it either raises
`RecursionError` or returns the very same join tree; and it returns the tree if twice as many nested calls fit as the network has nodes. -/
theorem c93_enough_partial (lim : Limits) (it : SetIter Int) (js : SetIter Str) (ops : List BOp) {jt : JoinTree}
    (hj : apply it js (Bbn.run ops) = .ok jt) :
    (applyL lim it js (Bbn.run ops) = .error .recursionError ∨ applyL lim it js (Bbn.run ops) = .ok jt) ∧
    (2 * (Bbn.run ops).vars.length < lim.find → 2 * (Bbn.run ops).vars.length ≤ lim.collect →
      2 * (Bbn.run ops).vars.length ≤ lim.distribute → applyL lim it js (Bbn.run ops) = .ok jt) := by
  obtain ⟨h1, h2, _⟩ := applyL_cut lim it js (bbn_run_inv ops) hj
  exact ⟨h1, fun a b c => h2 a b c⟩

/-- **C93** is false of the code: whatever the recursion limit is, exact inference fails with `RecursionError` on every long enough chain
0 → 1 → … → n of two-valued nodes with full tables, for every order in which sets are iterated, although it would work without the limit -/
theorem c93_chain (lim : Limits) (n : Nat) (hn : 2 * lim.collect + 4 < n) (it : SetIter Int) (js : SetIter Str) :
    Net.Usable (chainOps n) ∧ (∃ jt, apply it js (Bbn.run (chainOps n)) = .ok jt) ∧
      applyL lim it js (Bbn.run (chainOps n)) = .error .recursionError := by
  have hu := chain_usable n
  have h0 := chain_mem n 0 (by omega) (by omega)
  have hN := chain_mem n n (by omega) (le_refl _)
  obtain ⟨jt, hj⟩ := apply_ok it js hu.toSane (List.ne_nil_of_mem h0)
  refine ⟨hu, ⟨jt, hj⟩, ?_⟩
  obtain ⟨h1, _, h3⟩ := applyL_cut lim it js (bbn_run_inv (chainOps n)) hj
  rcases h1 with h1 | h1
  · exact h1
  · exfalso
    obtain ⟨x, hx, m, hxm, hnear, hcl⟩ := h3 h1
    have hs := (triangulate_spec it (bbn_run_inv (chainOps n))).1
    obtain ⟨T, ht⟩ := transform_spec js hs
    have hall := chain_all it n js ht hx hxm hcl
    obtain ⟨k1, k2, _⟩ := c13_triangulation it (chainOps n)
    obtain ⟨A, hA, hA0, _⟩ := k2 _ h0
    obtain ⟨B, hB, hBn, _⟩ := k2 _ hN
    obtain ⟨w, hw⟩ := List.exists_mem_of_ne_nil _ (hs.ne x hx)
    have e1 := chain_near it n js ht (hnear _ (hall A hA)) x hx rfl A hA rfl w hw _ (List.mem_map_of_mem hA0)
    have e2 := chain_near it n js ht (hnear _ (hall B hB)) x hx rfl B hB rfl w hw _ (List.mem_map_of_mem hBn)
    simp only [chainNode] at e1 e2
    omega

theorem c93_false : ¬ ∃ lim : Limits, ∀ (it : SetIter Int) (js : SetIter Str) (ops : List BOp), Net.Usable ops → (Bbn.run ops).vars ≠ [] →
    ∃ jt, applyL lim it js (Bbn.run ops) = .ok jt := by
  rintro ⟨lim, h⟩
  obtain ⟨hu, _, he⟩ := c93_chain lim (2 * lim.collect + 5) (by omega) .same .same
  obtain ⟨jt, hj⟩ := h .same .same _ hu (List.ne_nil_of_mem (chain_mem _ 0 (by omega) (by omega)))
  rw [hj] at he
  cases he

/-- not vacuous: with ten nested calls the example network of C16 (five nodes) works, with none it does not; the chain 0 → 1 → 2 → 3 → 4 needs three
nested calls -/
example : (applyL ⟨11, 10, 10⟩ .same .same (Bbn.run c16_ops)).val?.isSome = true ∧
    (applyL ⟨11, 0, 10⟩ .same .same (Bbn.run c16_ops)).err? = some .recursionError ∧
    (applyL ⟨100, 2, 100⟩ .same .rev (Bbn.run (chainOps 4))).err? = some .recursionError ∧
    (applyL ⟨100, 100, 2⟩ .same .rev (Bbn.run (chainOps 4))).err? = some .recursionError ∧
    (applyL ⟨100, 3, 3⟩ .same .rev (Bbn.run (chainOps 4))).val?.isSome = true := by decide +kernel

/-! ## `Dag.add_edge` -/

section
variable {N : Type} [HasId N]

/-- **C93** for `Dag.add_edge`, the part that holds: it raises `RecursionError` or does what it does without a limit, and the latter if one nested
call fits for every node of the graph -/
theorem c93_dag_partial (lim : Nat) (it : SetIter Int) (ops : List (GOp N)) (e : Edge N) :
    (Dag.addEdgeL lim it (Dag.run ops) e = .error .recursionError ∨ Dag.addEdgeL lim it (Dag.run ops) e = .ok (Dag.addEdge it (Dag.run ops) e)) ∧
    ((Dag.addEdge it (Dag.run ops) e).nodes.length ≤ lim → Dag.addEdgeL lim it (Dag.run ops) e = .ok (Dag.addEdge it (Dag.run ops) e)) := by
  have h2 := ((dag_run_inv ops).toGInv.addNode e.i).addNode e.j
  have hj : nid e.j ∈ Dict.keys (((Dag.run ops).addNode e.i).addNode e.j).nodes := by
    rw [addNode_keys]; exact Or.inl rfl
  have hlen : (Dag.addEdge it (Dag.run ops) e).nodes = (((Dag.run ops).addNode e.i).addNode e.j).nodes := by
    simp only [Dag.addEdge, Graph.addEdgeWith]
    split <;> rfl
  rw [hlen]
  unfold Dag.addEdgeL Dag.addEdge Graph.addEdgeWith
  simp only
  generalize ((Dag.run ops).addNode e.i).addNode e.j = g at *
  have hcl : ∀ u ∈ Dict.keys g.nodes, ∀ v ∈ Dag.getChildren it g u, v ∈ Dict.keys g.nodes :=
    fun u _ v hv => (h2.emNodes u v ((dag_children_rel it g u v).1 hv)).2
  have hcut : Cut (Dag.shouldAddL lim it g e) (.ok (Dag.shouldAdd it g e)) ∧
      (g.nodes.length ≤ lim → Dag.shouldAddL lim it g e = .ok (Dag.shouldAdd it g e)) := by
    unfold Dag.shouldAddL Dag.shouldAdd
    cases e.type
    · exact ⟨Or.inr rfl, fun _ => rfl⟩
    · simp only
      split
      · exact ⟨Or.inr rfl, fun _ => rfl⟩
      · split
        · have hp := pathExistsL_cut (Dag.getChildren it g) (nid e.i) _ hcl lim (g.nodes.length + 1) (nid e.j) hj (by simp [Dict.keys])
          have hc : Cut (pathExistsL (Dag.getChildren it g) lim (nid e.j) (nid e.i) >>= fun r => Except.ok (!r))
              (.ok (!pathExists (Dag.getChildren it g) (g.nodes.length + 1) (nid e.j) (nid e.i))) := hp.bind (fun a ha => by cases ha; exact Or.inr rfl)
          refine ⟨hc, ?_⟩
          intro hl
          obtain ⟨r, hr⟩ := pathExistsL_enough (Dag.getChildren it g) (nid e.i) _ hcl lim (nid e.j) hj (by simpa [Dict.keys] using hl)
          rcases hc with h | h
          · rw [hr] at h; cases h
          · exact h
        · exact ⟨Or.inr rfl, fun _ => rfl⟩
  constructor
  · rcases hcut.1 with h | h
    · left; rw [h]; rfl
    · right; rw [h]; rfl
  · intro hl
    rw [hcut.2 hl]; rfl

end

/-- the calls that build the graph 0 → 1 → … → n -/
def dagChain (n : Nat) : List (GOp Node) := (List.range n).map (fun i : Nat => .addEdge .same ⟨⟨(i : Int)⟩, ⟨(i : Int) + 1⟩, .directed⟩)

theorem dagChain_rel (n : Nat) : ∀ a b, emRel (Dag.run (dagChain n)) a b ↔ 0 ≤ a ∧ a < n ∧ b = a + 1 := by
  induction n with
  | zero =>
    intro a b
    have : ¬ emRel (Dag.run (dagChain 0)) a b := by simp [Dag.run, dagChain, emRel, Graph.empty, ddGet, Dict.get?]
    constructor
    · intro h; exact absurd h this
    · intro h; omega
  | succ n ih =>
    intro a b
    have e : Dag.run (dagChain (n + 1)) = Dag.addEdge .same (Dag.run (dagChain n)) ⟨⟨n⟩, ⟨n + 1⟩, .directed⟩ := by
      unfold Dag.run dagChain
      rw [List.range_succ, List.map_append, List.foldl_append]
      rfl
    have hR : (fun a b => b ∈ Dag.getChildren .same (Dag.run (dagChain n)) a) = fun a b : Int => 0 ≤ a ∧ a < n ∧ b = a + 1 := by
      funext a b
      exact propext ((dag_children_rel .same _ a b).trans (ih a b))
    have hadd := (c02_dag_add_edge_exact (dagChain n) .same .same ⟨⟨(n : Int)⟩, ⟨(n : Int) + 1⟩, .directed⟩).1
    simp only at hadd
    rw [hR] at hadd
    have := (hadd ⟨rfl, by simp [nid], by simp [nid], by simp [nid], by
      intro h
      rcases ReflTransGen.cases_head h with h | ⟨c, hc, _⟩
      · simp [nid] at h
      · simp [nid] at hc⟩).2 a b
    rw [e, ← dag_children_rel .same, this]
    simp only [nid, Nat.cast_add, Nat.cast_one]
    constructor
    · rintro (⟨rfl, rfl⟩ | h)
      · omega
      · have := (ih a b).1 ((dag_children_rel .same _ a b).1 h); omega
    · intro h
      by_cases ha : a = n
      · left; omega
      · right; exact (dag_children_rel .same _ a b).2 ((ih a b).2 (by omega))

theorem dfsL_chain {succ : Int → List Int} {n : Nat} (hs : ∀ a b, b ∈ succ a ↔ 0 ≤ a ∧ a < n ∧ b = a + 1) {stop : Int} (hst : n < stop) :
    ∀ (lim : Nat) (seen : List Int) (i : Int), (∀ x ∈ seen, x < i) → 0 ≤ i → i + lim ≤ n →
      dfsFindL succ stop lim seen i = .error .recursionError := by
  intro lim
  induction lim with
  | zero => intro seen i _ _ _; rfl
  | succ lim ih =>
    intro seen i hseen hi hl
    rw [dfsFindL_succ, if_neg (by rw [hs]; omega)]
    cases hc : succ i with
    | nil =>
      have : i + 1 ∈ succ i := (hs i (i + 1)).2 (by omega)
      rw [hc] at this
      simp at this
    | cons c l =>
      have hci : c = i + 1 := ((hs i c).1 (by rw [hc]; simp)).2.2
      have h1 : dfsStepL succ stop lim (false, seen ++ [i]) c = .error .recursionError := by
        unfold dfsStepL
        simp only [Bool.false_eq_true, if_false]
        rw [if_neg (by
          intro h
          rcases List.mem_append.1 h with h | h
          · have := hseen c h; omega
          · simp at h; omega), hci]
        refine ih _ _ ?_ (by omega) (by push_cast at hl; omega)
        intro x hx
        rcases List.mem_append.1 hx with h | h
        · have := hseen x h; omega
        · simp at h; omega
      rw [List.foldlM_cons, h1]
      rfl

/-- **C93** is false for `Dag.add_edge` too: putting a new node before the chain 0 → 1 → … → n raises `RecursionError` when at most `n` nested calls
fit, in every iteration order, although the edge is acceptable and is added without a limit -/
theorem c93_dag_false (lim n : Nat) (h : lim ≤ n) (it : SetIter Int) :
    (⟨⟨n + 1⟩, ⟨0⟩, .directed⟩ : Edge Node) ∈ (Dag.addEdge it (Dag.run (dagChain n)) ⟨⟨n + 1⟩, ⟨0⟩, .directed⟩).getEdges ∧
    Dag.addEdgeL lim it (Dag.run (dagChain n)) ⟨⟨n + 1⟩, ⟨0⟩, .directed⟩ = .error .recursionError := by
  have hrel := dagChain_rel n
  have hch : ∀ a b, b ∈ Dag.getChildren it (Dag.run (dagChain n)) a ↔ 0 ≤ a ∧ a < n ∧ b = a + 1 :=
    fun a b => (dag_children_rel it _ a b).trans (hrel a b)
  constructor
  · refine ((c02_dag_add_edge_exact (dagChain n) it it ⟨⟨(n : Int) + 1⟩, ⟨0⟩, .directed⟩).1 ⟨rfl, ?_, ?_, ?_, ?_⟩).1
    · simp only [nid]; omega
    · intro h'; have := (hch _ _).1 h'; simp only [nid] at this; omega
    · intro h'; have := (hch _ _).1 h'; simp only [nid] at this; omega
    · intro hp
      have key : ∀ x, ReflTransGen (fun a b => b ∈ Dag.getChildren it (Dag.run (dagChain n)) a) 0 x → 0 ≤ x ∧ x ≤ n := by
        intro x hx
        induction hx with
        | refl => omega
        | tail _ h ih => have := (hch _ _).1 h; omega
      have := key _ hp
      simp only [nid] at this
      omega
  · have hch2 : ∀ a b, b ∈ Dag.getChildren it (((Dag.run (dagChain n)).addNode (⟨n + 1⟩ : Node)).addNode ⟨0⟩) a ↔ 0 ≤ a ∧ a < n ∧ b = a + 1 := hch
    have hem : ∀ a b, b ∈ ddGet (((Dag.run (dagChain n)).addNode (⟨n + 1⟩ : Node)).addNode ⟨0⟩).edgeMap a ↔ 0 ≤ a ∧ a < n ∧ b = a + 1 := hrel
    have hfind := dfsL_chain hch2 (stop := (n : Int) + 1) (by omega) lim [] 0 (by simp) (by omega) (by omega)
    unfold Dag.addEdgeL Dag.shouldAddL pathExistsL
    simp only
    rw [if_neg (by simp only [nid]; omega), if_pos (by constructor <;> rw [hem] <;> simp only [nid] <;> omega),
      if_neg (by simp only [nid]; omega)]
    simp only [nid] at hfind ⊢
    rw [hfind]
    rfl

/-- not vacuous: the chain 0 → 1 → 2 → 3 needs four nested calls -/
example : (Dag.addEdgeL 3 .same (Dag.run (dagChain 3)) ⟨⟨4⟩, ⟨0⟩, .directed⟩).err? = some .recursionError ∧
    (Dag.addEdgeL 4 .same (Dag.run (dagChain 3)) ⟨⟨4⟩, ⟨0⟩, .directed⟩).val?.isSome = true ∧
    (Dag.run (dagChain 3)).nodes.length = 4 := by decide +kernel

example := c93_dag_false 1000 1000 (le_refl _) .rev

example := c93_chain ⟨1000, 1000, 1000⟩ 2005 (by decide) .same .rev

end PyBBN
