import Verif.Proofs.GenConvert
import Verif.Proofs.GenLive

/-! # Generated networks: C46, C47, C48, C57, C58 -/

namespace PyBBN
open Relation InferenceController
open DSep (Adj IsPath)

/-! ## C46: multi-connected structures -/

/-- **C46**. For `n ≥ 1` the structure generator never raises, and whatever is drawn, the structure it returns has the nodes `0 … n-1`, joins
nodes by distinct edges, has no directed cycle and is connected. -/
theorem c46_multi {n : Int} (hn : 0 < n) (maxIter : Int) : (Gen.multiStructure n maxIter).Always (fun g =>
    (∀ x, x ∈ g.nodes ↔ 0 ≤ x ∧ x < n) ∧ g.nodes.Nodup ∧ g.edges.Nodup ∧ (∀ a b, g.E a b → a ∈ g.nodes ∧ b ∈ g.nodes) ∧
    (∀ x, ¬ TransGen g.E x x) ∧ ∀ x ∈ g.nodes, ∀ y ∈ g.nodes, ReflTransGen (Adj g.E) x y) := by
  refine (Gen.always_multi hn maxIter).mono ?_
  rintro g ⟨hg, hac⟩
  refine ⟨fun x => by rw [hg.nodes, Gen.mem_range], ?_, hg.nodup, fun a b h => hg.wf _ h, hac, hg.conn⟩
  rw [hg.nodes]; exact Gen.nodup_range n

/-- **C46**: for `n ≥ 2` a run can always be finished: whatever has been drawn, there are draws that end it -/
theorem c46_finishes {n : Int} (hn : 2 ≤ n) (maxIter : Int) (ds : List Nat) :
    ∃ ext g rest, Gen.multiStructure n maxIter (ds ++ ext) = .done g rest :=
  Gen.finishes (Gen.always_multi (by omega) maxIter) (Gen.loop_mono_live (Gen.multiStep_mono_live hn) _ _).2 ds

/-- **C46**: for one node (and at least one iteration) no draws end it; for none it raises `ValueError` -/
theorem c46_one_never_ends {maxIter : Int} (hk : 0 < maxIter) (ds : List Nat) :
    Gen.multiStructure 1 maxIter ds = .waiting ∧ Gen.singlyStructure 1 maxIter ds = .waiting ∧
    ∀ n ≤ 0, Gen.multiStructure n maxIter ds = .raised .valueError ∧ Gen.singlyStructure n maxIter ds = .raised .valueError := by
  obtain ⟨k, hk⟩ : ∃ k, maxIter.toNat = k + 1 := ⟨maxIter.toNat - 1, by omega⟩
  unfold Gen.multiStructure Gen.singlyStructure
  rw [hk]
  have e1 : ∀ n g, Gen.multiStep n g = Rnd.bind (Gen.randomNodePair n) (fun p => if Do.hasEdge g p.1 p.2 then Rnd.lift (Gen.delEdge p.1 p.2 g)
      else Rnd.lift (Gen.addEdge p.1 p.2 g)) := fun _ _ => rfl
  have e2 : ∀ n g, ∃ f, Gen.singlyStep n g = Rnd.bind (Gen.randomNodePair n) f := fun _ _ => ⟨_, rfl⟩
  refine ⟨?_, ?_, ?_⟩
  · unfold Gen.loop Rnd.bind
    rw [e1]
    simp only [Rnd.bind, Gen.pair_one]
  · obtain ⟨f, hf⟩ := e2 1 (Gen.simpleOrderedTree 1)
    unfold Gen.loop Rnd.bind
    rw [hf]
    simp only [Rnd.bind, Gen.pair_one]
  · intro n hn
    constructor
    · unfold Gen.loop Rnd.bind
      rw [e1]
      simp only [Rnd.bind, Gen.pair_none hn]
    · obtain ⟨f, hf⟩ := e2 n (Gen.simpleOrderedTree n)
      unfold Gen.loop Rnd.bind
      rw [hf]
      simp only [Rnd.bind, Gen.pair_none hn]

/-- the structure, if the run is finished -/
def Run.result {α : Type} : Run α → Option α
  | .done a _ => some a
  | _ => none

/-- not vacuous: a run in which an edge is added (0 → 2), one is refused (2 → 0 would close a cycle) and one is deleted (1 → 2) -/
example : ((Gen.multiStructure 4 3 [0, 2, 2, 2, 0, 1, 2]).result.map DiG.edges) = some [(0, 1), (2, 3), (0, 2)] := by decide +kernel

/-! ## C47: singly-connected structures -/

/-- **C47**. For `n ≥ 1` the generator never raises, and whatever is drawn the structure is a polytree over the nodes `0 … n-1`: exactly one
undirected path between any two nodes, no directed cycle, `n - 1` edges. -/
theorem c47_singly {n : Int} (hn : 0 < n) (maxIter : Int) : (Gen.singlyStructure n maxIter).Always (fun g =>
    (∀ x, x ∈ g.nodes ↔ 0 ≤ x ∧ x < n) ∧ g.nodes.Nodup ∧ (∀ a b, g.E a b → a ∈ g.nodes ∧ b ∈ g.nodes) ∧
    (∀ x ∈ g.nodes, ∀ y ∈ g.nodes, ∃! p, IsPath g.E x y p) ∧ (∀ x, ¬ TransGen g.E x x) ∧ g.edges.Nodup ∧ (g.edges.length : Int) = n - 1) := by
  refine (Gen.always_singly hn maxIter).mono ?_
  intro g hg
  have hnd : g.nodes.Nodup := by rw [hg.nodes]; exact Gen.nodup_range n
  have hu : ∀ x ∈ g.nodes, ∀ y ∈ g.nodes, ∃! p, IsPath g.E x y p := fun x hx y hy =>
    DiG.existsUnique_path hg.wf hg.anti hnd hg.conn hg.len hx hy
  refine ⟨fun x => by rw [hg.nodes, Gen.mem_range], hnd, fun a b h => hg.wf _ h, hu, DiG.acyclic_of_path hg.wf hg.anti hu, hg.nodup, ?_⟩
  have := hg.len
  rw [hg.nodes, Gen.length_range] at this
  omega

/-- **C47**: for `n ≥ 2` a run can always be finished -/
theorem c47_finishes {n : Int} (hn : 2 ≤ n) (maxIter : Int) (ds : List Nat) :
    ∃ ext g rest, Gen.singlyStructure n maxIter (ds ++ ext) = .done g rest :=
  Gen.finishes (Gen.always_singly (by omega) maxIter) (Gen.loop_mono_live (Gen.singlyStep_mono_live hn) _ _).2 ds

/-- not vacuous: an exchange that is kept (1 → 2 becomes 2 → 0), one that is taken back, and an odd draw (the edge into the second node) -/
example : ((Gen.singlyStructure 4 1 [0, 2, 0]).result.map DiG.edges) = some [(0, 1), (2, 3), (2, 0)] ∧
    ((Gen.singlyStructure 4 1 [2, 0, 0]).result.map DiG.edges) = some [(0, 1), (1, 2), (2, 3)] ∧
    ((Gen.singlyStructure 4 2 [0, 2, 1, 0, 3, 1]).result.map DiG.edges) = some [(0, 1), (0, 2), (0, 3)] ∧
    ((Gen.singlyStructure 4 1 [3, 1, 0]).result.map DiG.edges) = some [(1, 2), (2, 3), (0, 1)] := by decide +kernel

/-! ## C48: parameters -/

/-- every node has at least two values and one CPT entry per combination of the values of its parents and itself -/
def Bbn.Fit (b : Bbn) : Prop := ∀ n ∈ b.toGraph.getNodes, 2 ≤ n.var.values.length ∧
  n.probs.length = ((b.parentVars n.var.id).map (fun v => v.values.length)).prod * n.var.values.length

/-- what exact inference needs, and what it gives -/
structure Bbn.Ready (b : Bbn) (n : Int) (E : Int → Int → Prop) : Prop where
  ids : ∀ x, x ∈ b.vars.map Variable.id ↔ 0 ≤ x ∧ x < n
  parents : ∀ p c, p ∈ ddGet b.parents c ↔ E p c
  fit : b.Fit
  pos : ∀ m ∈ b.toGraph.getNodes, ∀ p ∈ m.probs, 0 < p
  total : b.total noEvidence = 1
  apply : ∀ (it : SetIter Int) (js : SetIter Str), ∃ jt, InferenceController.apply it js b = .ok jt ∧
    ∀ v ∈ b.vars, jt.getBbnPotential v = .ok (posteriorTable b noEvidence v)

theorem ready_of {n : Int} (hn : 0 < n) {g : DiG Int} (hg : Gen.Inv n g) (hac : g.Acyclic) {ps : Dict Int Gen.Params} {card : Int → Nat}
    (hf : Gen.Fits g ps card) : ∃ b, Gen.convert g ps = .ok b ∧ b.Ready n g.E := by
  have hnd : g.nodes.Nodup := by rw [hg.nodes]; exact Gen.nodup_range n
  have hgood := Gen.convert_good hg hac hf
  have hgn := Gen.convert_getNodes (ps := ps) hnd hg.wf
  have hvars := Gen.convert_vars (ps := ps) hnd hg.wf
  refine ⟨_, Gen.convert_ok hnd hg.wf hf, ?_, ?_, ?_, ?_, ?_, ?_⟩
  · intro x
    rw [hvars, List.map_map, ← Gen.mem_range, ← hg.nodes]
    have : (Variable.id ∘ fun i => (Gen.nodeOf ps i).var) = id := by
      funext i; exact Gen.nodeOf_id ps i
    rw [this, List.map_id]
  · intro p c
    rw [parents_requested, Gen.convert_edges]
    exact Gen.mem_edges hg.wf p c
  · intro m hm
    rw [hgn] at hm
    obtain ⟨i, hi, rfl⟩ := List.mem_map.1 hm
    have hlen : ∀ i ∈ g.nodes, (Gen.nodeOf ps i).var.values.length = card i := by
      intro i hi
      obtain ⟨q, _, e⟩ := Gen.nodeOf_eq hf hi
      rw [e]
      exact Gen.states_length _
    refine ⟨by rw [hlen i hi]; exact hf.two i hi, ?_⟩
    obtain ⟨l, hl, e⟩ := Gen.convert_parents (ps := ps) hnd hg.wf hg.nodup i
    rw [hlen i hi, Gen.nodeOf_id, e, List.map_map]
    have : (l.map ((fun v : Variable => v.values.length) ∘ fun i => (Gen.nodeOf ps i).var)).prod = ((Gen.predecessors g i).map card).prod := by
      rw [← (hl.map card).prod_eq]
      congr 1
      refine List.map_congr_left ?_
      intro j hj
      exact hlen j (hg.wf _ ((Gen.mem_predecessors g j i).1 (hl.mem_iff.1 hj))).1
    rw [this]
    obtain ⟨q, hq, e⟩ := Gen.nodeOf_eq hf hi
    rw [e]
    simp only
    rw [Gen.flatten_length q.params (fun r hr => (hq.row r hr).1), hq.rows]
  · intro m hm p hp
    rw [hgn] at hm
    obtain ⟨i, hi, rfl⟩ := List.mem_map.1 hm
    obtain ⟨q, hq, e⟩ := Gen.nodeOf_eq hf hi
    rw [e] at hp
    obtain ⟨r, hr, hpr⟩ := List.mem_flatten.1 hp
    exact (hq.row r hr).2.1 p hpr
  · exact c52_total_one hgood.usable.toSane hgood.acyclic hgood.normalized
  · intro it js
    refine (c16_exact_priors it js _ hgood.usable.wf hgood.usable.conn).1 ?_
    rw [hvars]
    intro e
    rw [List.map_eq_nil_iff, hg.nodes] at e
    have : (0 : Int) ∈ Gen.range n := Gen.mem_range.2 ⟨le_refl _, hn⟩
    rw [e] at this
    simp at this

/-- **C48**. `generate_multi_bbn` and `generate_singly_bbn` (for `n`, `max_values`, `max_alpha` at least 1) never raise, and whatever is drawn the
conversion of their result is a network with the generated edges in which every node has at least two values and a CPT of the right size with
positive entries; the joint weights sum to one and exact inference succeeds with exact priors. -/
theorem c48_multi (D : Dirichlet) {n maxValues maxAlpha : Int} (hn : 0 < n) (hv : 0 < maxValues) (ha : 0 < maxAlpha) (maxIter : Int) :
    (Gen.generateMulti D n maxIter maxValues maxAlpha).Always (fun r => ∃ b, Gen.convert r.1 r.2 = .ok b ∧ b.Ready n r.1.E) := by
  unfold Gen.generateMulti
  refine (Gen.always_multi hn maxIter).bind ?_
  rintro g ⟨hg, hac⟩
  refine (Gen.always_parameters D hg hv ha).bind ?_
  rintro ps ⟨card, hf, _⟩
  exact Rnd.always_pure (ready_of hn hg hac hf)

theorem c48_singly (D : Dirichlet) {n maxValues maxAlpha : Int} (hn : 0 < n) (hv : 0 < maxValues) (ha : 0 < maxAlpha) (maxIter : Int) :
    (Gen.generateSingly D n maxIter maxValues maxAlpha).Always (fun r => ∃ b, Gen.convert r.1 r.2 = .ok b ∧ b.Ready n r.1.E) := by
  unfold Gen.generateSingly
  refine (Gen.always_singly hn maxIter).bind ?_
  intro g hg
  refine (Gen.always_parameters D hg.toInv hv ha).bind ?_
  rintro ps ⟨card, hf, _⟩
  have hnd : g.nodes.Nodup := by rw [hg.nodes]; exact Gen.nodup_range n
  exact Rnd.always_pure (ready_of hn hg.toInv (DiG.acyclic_of_path hg.wf hg.anti (fun x hx y hy =>
    DiG.existsUnique_path hg.wf hg.anti hnd hg.conn hg.len hx hy)) hf)

/-! ## C57: `to_json` of the generator -/

/-- **C57** is false: on every generated network (with a node) `to_json` raises `TypeError`, because the cardinalities in `shape` are
`numpy.int64` numbers -/
theorem c57_false (D : Dirichlet) {n maxValues maxAlpha : Int} (hn : 0 < n) (hv : 0 < maxValues) (ha : 0 < maxAlpha) (maxIter : Int) :
    (Gen.generateMulti D n maxIter maxValues maxAlpha).Always (fun r => Gen.toJson r.1 r.2 = .error .typeError) ∧
    (Gen.generateSingly D n maxIter maxValues maxAlpha).Always (fun r => Gen.toJson r.1 r.2 = .error .typeError) := by
  have key : ∀ g ps, Gen.Inv n g → (∃ card : Int → Nat, Gen.Fits g ps card ∧ ∀ i ∈ g.nodes, (card i : Int) ≤ max maxValues 2) →
      Gen.toJson g ps = .error .typeError := by
    rintro g ps hg ⟨card, hf, _⟩
    have h0 : (0 : Int) ∈ g.nodes := by rw [hg.nodes]; exact Gen.mem_range.2 ⟨le_refl _, hn⟩
    cases ps with
    | nil =>
      have := hf.keys
      rw [← this] at h0
      simp [Dict.keys] at h0
    | cons kv ps =>
      have hk : kv.1 ∈ g.nodes := by rw [← hf.keys]; exact List.mem_cons_self
      obtain ⟨q, h1, h2⟩ := hf.node kv.1 hk
      have hq : kv.2 = q := by
        simp [Dict.get?] at h1
        exact h1
      have hs : kv.2.shape.2 = .np (card kv.1) := by rw [hq]; exact h2.shape2
      have hbad : (do
          let a ← Gen.dumpNum kv.2.shape.1
          let b ← Gen.dumpNum kv.2.shape.2
          .ok (kv.1, kv.2.params.flatten, [a, b]) : Py (Int × List ℚ × List Int)) = .error .typeError := by
        rw [hs]
        cases kv.2.shape.1 <;> rfl
      unfold Gen.toJson
      rw [List.mapM_cons]
      simp only [hbad]
      rfl
  constructor
  · unfold Gen.generateMulti
    refine (Gen.always_multi hn maxIter).bind ?_
    rintro g ⟨hg, hac⟩
    exact (Gen.always_parameters D hg hv ha).bind (fun ps h => Rnd.always_pure (key g ps hg h))
  · unfold Gen.generateSingly
    refine (Gen.always_singly hn maxIter).bind ?_
    intro g hg
    exact (Gen.always_parameters D hg.toInv hv ha).bind (fun ps h => Rnd.always_pure (key g ps hg.toInv h))

/-! ## C58: `convert_for_drawing` -/

/-- **C58**. The graph for drawing has the ids of the nodes as nodes, in order and without repetition, and its edges, without repetition, are the
edges requested when the network was built. -/
theorem c58_drawing (ops : List BOp) :
    let g := Gen.convertForDrawing (Bbn.run ops)
    g.nodes = (Bbn.run ops).vars.map Variable.id ∧ g.nodes.Nodup ∧ g.edges.Nodup ∧ ∀ p c, g.E p c ↔ (p, c) ∈ BOp.edges ops := by
  have h := bbn_run_inv ops
  generalize hb : Bbn.run ops = b at h
  have hn : (Dict.values b.toGraph.nodes).foldl (fun g (n : BbnNode) => Gen.addNode g (n.var.id)) ⟨[], []⟩ = ⟨b.vars.map Variable.id, []⟩ := by
    have : ∀ (l : List BbnNode) (g : DiG Int), l.foldl (fun g (n : BbnNode) => Gen.addNode g (n.var.id)) g =
        (l.map (fun n => n.var.id)).foldl Gen.addNode g := by
      intro l g; rw [List.foldl_map]
    rw [this, Gen.foldl_addNode]
    change DiG.mk ((b.toGraph.getNodes.map (fun n => n.var.id)).foldl setAdd []) [] = _
    rw [Gen.foldl_setAdd_nodup (b.toGraph.getNodes.map (fun n => n.var.id)) [] (node_ids_nodup h) (by simp), List.nil_append]
    simp only [Bbn.vars, List.map_map]
    rfl
  have hin : ∀ e ∈ b.toGraph.getEdges, e.i.var.id ∈ b.vars.map Variable.id ∧ e.j.var.id ∈ b.vars.map Variable.id := by
    intro e he
    have h1 := h.einv.em e he
    have h2 : b.vars.map Variable.id = Dict.keys b.nodes := vids_vars h
    rw [h2]
    exact h.ginv.emNodes _ _ h1
  have key : ∀ (l : List (Edge BbnNode)) (g : DiG Int), g.edges.Nodup →
      (∀ e ∈ l, e.i.var.id ∈ g.nodes ∧ e.j.var.id ∈ g.nodes) →
      let g' := l.foldl (fun g (e : Edge BbnNode) => Gen.addEdgeRaw g (e.i.var.id) (e.j.var.id)) g
      g'.nodes = g.nodes ∧ g'.edges.Nodup ∧ ∀ p c, (p, c) ∈ g'.edges ↔ (p, c) ∈ g.edges ∨ ∃ e ∈ l, e.i.var.id = p ∧ e.j.var.id = c := by
    intro l
    induction l with
    | nil => intro g hg _; simp [hg]
    | cons e l ih =>
      intro g hg hl
      have he := hl e List.mem_cons_self
      have hnodes : (Gen.addEdgeRaw g (e.i.var.id) (e.j.var.id)).nodes = g.nodes := by
        unfold Gen.addEdgeRaw
        simp only
        rw [Gen.setAdd_of_mem he.1, Gen.setAdd_of_mem he.2]
      obtain ⟨i1, i2, i3⟩ := ih (Gen.addEdgeRaw g (e.i.var.id) (e.j.var.id)) (Gen.nodup_addEdgeRaw _ _ hg) (by
        rw [hnodes]; exact fun f hf => hl f (List.mem_cons_of_mem _ hf))
      refine ⟨by rw [← hnodes]; exact i1, i2, ?_⟩
      intro p c
      rw [List.foldl_cons, i3]
      have : (p, c) ∈ (Gen.addEdgeRaw g (e.i.var.id) (e.j.var.id)).edges ↔ (p, c) = (e.i.var.id, e.j.var.id) ∨ (p, c) ∈ g.edges :=
        mem_setAdd _ _ _
      rw [this, Prod.mk.injEq]
      simp only [List.mem_cons, exists_eq_or_imp]
      grind
  obtain ⟨k1, k2, k3⟩ := key b.toGraph.getEdges ⟨b.vars.map Variable.id, []⟩ List.nodup_nil hin
  have e : Gen.convertForDrawing b =
      b.toGraph.getEdges.foldl (fun g (e : Edge BbnNode) => Gen.addEdgeRaw g (e.i.var.id) (e.j.var.id)) ⟨b.vars.map Variable.id, []⟩ := by
    unfold Gen.convertForDrawing
    rw [hn]; rfl
  intro g
  change (Gen.convertForDrawing b).nodes = _ ∧ (Gen.convertForDrawing b).nodes.Nodup ∧ (Gen.convertForDrawing b).edges.Nodup ∧
    ∀ p c, (p, c) ∈ (Gen.convertForDrawing b).edges ↔ _
  rw [e]
  refine ⟨k1, ?_, k2, ?_⟩
  · rw [k1]; exact vars_nodup h
  · intro p c
    rw [k3 p c, ← c03_bbn_edges_requested, hb]
    simp [BbnEdge]

theorem drawing_converted {n : Int} {g : DiG Int} (hg : Gen.Inv n g) {ps : Dict Int Gen.Params} (hk : Dict.keys ps = g.nodes) :
    ∃ b, Gen.convert g ps = .ok b ∧ (Gen.convertForDrawing b).nodes = g.nodes ∧ ∀ p c, (Gen.convertForDrawing b).E p c ↔ g.E p c := by
  have hnd : g.nodes.Nodup := by rw [hg.nodes]; exact Gen.nodup_range n
  refine ⟨_, Gen.convert_ok_keys hnd hg.wf hk, ?_⟩
  obtain ⟨h1, _, _, h2⟩ := c58_drawing (Gen.convertOps g ps)
  refine ⟨?_, fun p c => ?_⟩
  · rw [h1, Gen.convert_vars hnd hg.wf, List.map_map]
    have : (Variable.id ∘ fun i => (Gen.nodeOf ps i).var) = id := by
      funext i; exact Gen.nodeOf_id ps i
    rw [this, List.map_id]
  · rw [h2, Gen.convert_edges]
    exact Gen.mem_edges hg.wf p c

/-- **C58**: drawing the network converted from a generated structure gives the nodes of the structure, in order, and its edges back -/
theorem c58_generated (D : Dirichlet) {n maxValues maxAlpha : Int} (hn : 0 < n) (hv : 0 < maxValues) (ha : 0 < maxAlpha) (maxIter : Int) :
    let P := fun r : DiG Int × Dict Int Gen.Params => ∃ b, Gen.convert r.1 r.2 = .ok b ∧ (Gen.convertForDrawing b).nodes = r.1.nodes ∧
      ∀ p c, (Gen.convertForDrawing b).E p c ↔ r.1.E p c
    (Gen.generateMulti D n maxIter maxValues maxAlpha).Always P ∧ (Gen.generateSingly D n maxIter maxValues maxAlpha).Always P := by
  constructor
  · unfold Gen.generateMulti
    refine (Gen.always_multi hn maxIter).bind ?_
    rintro g ⟨hg, hac⟩
    exact (Gen.always_parameters D hg hv ha).bind (fun ps ⟨_, h, _⟩ => Rnd.always_pure (drawing_converted hg h.keys))
  · unfold Gen.generateSingly
    refine (Gen.always_singly hn maxIter).bind ?_
    intro g hg
    exact (Gen.always_parameters D hg.toInv hv ha).bind (fun ps ⟨_, h, _⟩ => Rnd.always_pure (drawing_converted hg.toInv h.keys))

/-! ## a concrete run -/

/-- draws that give every value the same probability -/
def uniformDirichlet : Dirichlet where
  rvs := fun _ as => as.map (fun _ => 1 / (as.length : ℚ))
  length_rvs := by intro s as; simp
  pos_rvs := by
    intro s as q hq
    obtain ⟨a, ha, rfl⟩ := List.mem_map.1 hq
    have : 0 < as.length := List.length_pos_of_mem ha
    simp only [one_div, inv_pos]; exact_mod_cast this
  sum_rvs := by
    intro s as h
    have : (as.length : ℚ) ≠ 0 := by
      have := List.length_pos_iff.2 h
      positivity
    rw [List.map_const', List.sum_replicate]
    simp [this]

/-- three nodes, one added edge, two or three values: a node with two parents and six rows of three entries -/
example : ((Gen.generateMulti uniformDirichlet 3 1 3 2 [0, 2, 0, 2, 2, 0, 0, 0, 0, 0, 0, 0, 0, 0, 0, 0, 0, 0, 0, 0, 0, 0, 0, 0, 0, 0, 0, 0, 0, 0, 0, 0, 0, 0, 0]).result.map
    (fun r => (r.1.edges, r.2.map (fun kv => (kv.1, kv.2.shape.1.val, kv.2.shape.2.val, kv.2.params.length))))) =
    some ([(0, 1), (1, 2), (0, 2)], [(0, 1, 2, 1), (1, 2, 3, 2), (2, 6, 3, 6)]) := by decide +kernel

end PyBBN
