import Verif.Proofs.TreeShape
import Verif.Props.Cliques

/-! # The join tree: C14, C15

`joinTreeOf it js ops` is the structural part of `InferenceController.apply` (moralize, triangulate, transform) on the network
built by the calls `ops`, with the iteration orders `it`, `js` of the Python sets involved. -/

namespace PyBBN
open Relation

/-- moralize, triangulate, transform (`pybbn/pptc/inferencecontroller.py:24-28`) -/
def joinTreeOf (it : SetIter Int) (js : SetIter Str) (ops : List BOp) : JoinTree :=
  Transformer.transform js (Triangulator.triangulate it (moralize (Bbn.run ops))).1

/-- a (weakly) connected network: inserted edges, in either direction, join any two nodes -/
def ConnectedOps (ops : List BOp) : Prop :=
  ∀ u ∈ (Bbn.run ops).vars, ∀ v ∈ (Bbn.run ops).vars, EqvGen (fun p c => (p, c) ∈ BOp.edges ops) u.id v.id

/-- the node with id `k` of the join tree is a clique or separation set containing variable `v` -/
def JoinTree.Holds (jt : JoinTree) (k : Str) (v : Int) : Prop :=
  ∃ n, Dict.get? jt.nodes k = some n ∧ v ∈ n.vars.map Variable.id

theorem joinTree_spec (it : SetIter Int) (js : SetIter Str) (ops : List BOp) :
    ∃ T, JTSpec (Triangulator.triangulate it (moralize (Bbn.run ops))).1 T (joinTreeOf it js ops) :=
  transform_spec js (triangulate_spec it (bbn_run_inv ops)).1

/-- **C14**. The join tree has the cliques of the triangulation, with distinct ids; every separation set has exactly two
neighbors, two different cliques, whose common variables are its variables (at least one); cliques are only adjacent to
separation sets; the neighbor relation has no cycle; and for a connected network any two nodes of the join tree are joined
by a path and there is one separation set less than cliques. -/
theorem c14_join_tree (it : SetIter Int) (js : SetIter Str) (ops : List BOp) :
    let cs := (Triangulator.triangulate it (moralize (Bbn.run ops))).1
    let jt := joinTreeOf it js ops
    jt.getCliques.Perm cs ∧ (jt.getCliques.map Clique.id).Nodup ∧ (jt.getSepSets.map SepSet.id).Nodup ∧
    (∀ s ∈ jt.getSepSets, ∃ c ∈ jt.getCliques, ∃ d ∈ jt.getCliques, c.id ≠ d.id ∧ s.nodes ≠ [] ∧
      (∀ k, k ∈ ddGet jt.neighbors s.id ↔ k = c.id ∨ k = d.id) ∧
      ∀ v, v ∈ s.nodes.map Variable.id ↔ v ∈ c.nodes.map Variable.id ∧ v ∈ d.nodes.map Variable.id) ∧
    (∀ a b, b ∈ ddGet jt.neighbors a → a ∈ ddGet jt.neighbors b) ∧
    (∀ c ∈ jt.getCliques, ∀ k ∈ ddGet jt.neighbors c.id, ∃ s ∈ jt.getSepSets, s.id = k) ∧
    (SimpleGraph.fromRel (fun a b => b ∈ ddGet jt.neighbors a)).IsAcyclic ∧
    (ConnectedOps ops →
      (∀ a ∈ Dict.keys jt.nodes, ∀ b ∈ Dict.keys jt.nodes,
        ReflTransGen (fun a b => b ∈ ddGet jt.neighbors a) a b) ∧
      ((Bbn.run ops).vars ≠ [] → jt.getSepSets.length + 1 = jt.getCliques.length)) := by
  intro cs jt
  have hb := bbn_run_inv ops
  have hs : CliqueSpec (Bbn.run ops) cs := (triangulate_spec it hb).1
  obtain ⟨T, h⟩ : ∃ T, JTSpec cs T jt := joinTree_spec it js ops
  refine ⟨h.getCliques_perm, h.shape.cliques_nodup, h.shape.sepSets_nodup, ?_, h.shape.nb_symm, ?_, h.acyclic, ?_⟩
  · intro s hsT
    rw [h.shape.mem_getSepSets] at hsT
    have hg := h.shape.good s hsT
    refine ⟨s.left, (h.shape.mem_getCliques _).2 hg.left, s.right, (h.shape.mem_getCliques _).2 hg.right, ?_, ?_, ?_, ?_⟩
    · exact fun e => hg.ne ((h.fam.id_iff hg.left hg.right).1 e)
    · intro e
      obtain ⟨i, hi⟩ := hg.common
      have := (hg.mem_nodes i).2 hi
      rw [e] at this
      simp at this
    · exact h.sep_nbrs hsT
    · exact hg.mem_nodes
  · intro c hc k hk
    rw [h.shape.mem_getCliques] at hc
    obtain ⟨s, hsT, h1⟩ := (h.shape.nb _ _).1 hk
    have hg := h.shape.good s hsT
    refine ⟨s, (h.shape.mem_getSepSets _).2 hsT, ?_⟩
    rcases h1 with ⟨_, e⟩ | ⟨_, e⟩ | ⟨e, _⟩ | ⟨e, _⟩
    · exact e.symm
    · exact e.symm
    · exact absurd e (hg.ne_clique h.fam hc)
    · exact absurd e (hg.ne_clique h.fam hc)
  · intro hconn
    have hcc : ∀ c ∈ cs, ∀ d ∈ cs, Conn sl sr T c.fs d.fs := by
      intro c hc d hd
      obtain ⟨x, hx⟩ := List.exists_mem_of_ne_nil _ (hs.ne c hc)
      obtain ⟨y, hy⟩ := List.exists_mem_of_ne_nil _ (hs.ne d hd)
      obtain ⟨u, hu, rfl⟩ := List.mem_map.1 hx
      obtain ⟨w, hw, rfl⟩ := List.mem_map.1 hy
      have := hconn u (hs.sub c hc u hu) w (hs.sub d hd w hw)
      refine h.conn_vars hs hb (x := u.id) (y := w.id) ?_ c hc d hd hx hy
      have hE : (fun p c => p ∈ ddGet (Bbn.run ops).parents c) = fun p c => (p, c) ∈ BOp.edges ops := by
        funext p c
        exact propext (parents_requested ops p c)
      rw [hE]
      exact this
    have hpath : ∀ c ∈ cs, ∀ d ∈ cs, ReflTransGen (fun a b => b ∈ ddGet jt.neighbors a) c.id d.id := by
      intro c hc d hd
      exact (h.shape.path_iff h.fam hc hd).2 (hcc c hc d hd)
    have hsym : ∀ a b, b ∈ ddGet jt.neighbors a → a ∈ ddGet jt.neighbors b := h.shape.nb_symm
    have hto : ∀ a ∈ Dict.keys jt.nodes, ∃ c ∈ cs, ReflTransGen (fun a b => b ∈ ddGet jt.neighbors a) a c.id := by
      intro a ha
      obtain ⟨⟨k, n⟩, hkn, rfl⟩ := List.mem_map.1 ha
      rcases (h.shape.mem_nodes _ _).1 hkn with ⟨c, hc, e, _⟩ | ⟨s, hsT, e, _⟩
      · exact ⟨c, hc, by rw [← e]⟩
      · refine ⟨s.left, (h.shape.good s hsT).left, ReflTransGen.single ?_⟩
        rw [← e]
        exact (h.sep_nbrs hsT _).2 (Or.inl rfl)
    refine ⟨?_, ?_⟩
    · intro a ha b hb'
      obtain ⟨c, hc, h1⟩ := hto a ha
      obtain ⟨d, hd, h2⟩ := hto b hb'
      exact (h1.trans (hpath c hc d hd)).trans (rtg_symm hsym h2)
    · intro hne
      have hcs : cs ≠ [] := by
        obtain ⟨v, hv⟩ := List.exists_mem_of_ne_nil _ hne
        obtain ⟨c, hc, _⟩ := family_covered hb hs hv
        exact List.ne_nil_of_mem hc
      have h1 := h.getCliques_perm.length_eq
      have h2 := h.getSepSets_perm.length_eq
      rw [h1, h2]
      have hcount := Forest.count (l := sl) (r := sr) (S := (cs.map Clique.fs).toFinset) h.forest (by
        intro s hsT
        have hg := h.shape.good s hsT
        exact ⟨List.mem_toFinset.2 (List.mem_map.2 ⟨_, hg.left, rfl⟩), List.mem_toFinset.2 (List.mem_map.2 ⟨_, hg.right, rfl⟩)⟩)
      have hcard : (cs.map Clique.fs).toFinset.card = cs.length := by
        rw [List.toFinset_card_of_nodup, List.length_map]
        exact List.Nodup.map_on (fun c hc d hd e => h.fam.fs_inj hc hd e) h.fam.nodup_list
      have hone : comp sl sr (cs.map Clique.fs).toFinset T = 1 := by
        unfold comp
        rw [Finset.card_eq_one]
        obtain ⟨c, hc⟩ := List.exists_mem_of_ne_nil _ hcs
        refine ⟨labs sl sr T c.fs, ?_⟩
        ext z
        simp only [Finset.mem_image, List.mem_toFinset, List.mem_map, Finset.mem_singleton]
        constructor
        · rintro ⟨_, ⟨d, hd, rfl⟩, rfl⟩
          exact (labs_iff T _ _).2 (hcc d hd c hc)
        · rintro rfl
          exact ⟨_, ⟨c, hc, rfl⟩, rfl⟩
      omega

/-- **C15**. Running intersection: two cliques containing a variable are joined by a path in the join tree all of whose nodes
(cliques and separation sets) contain that variable; and every variable is in some clique. -/
theorem c15_running_intersection (it : SetIter Int) (js : SetIter Str) (ops : List BOp) :
    let jt := joinTreeOf it js ops
    (∀ v : Int, ∀ c ∈ jt.getCliques, ∀ d ∈ jt.getCliques,
      v ∈ c.nodes.map Variable.id → v ∈ d.nodes.map Variable.id →
      ReflTransGen (fun a b => b ∈ ddGet jt.neighbors a ∧ jt.Holds a v ∧ jt.Holds b v) c.id d.id) ∧
    (∀ v ∈ (Bbn.run ops).vars, ∃ c ∈ jt.getCliques, v ∈ c.nodes) := by
  intro jt
  obtain ⟨T, h⟩ : ∃ T, JTSpec _ T jt := joinTree_spec it js ops
  refine ⟨?_, ?_⟩
  · intro v c hc d hd hvc hvd
    exact h.rip_path v ((h.shape.mem_getCliques _).1 hc) ((h.shape.mem_getCliques _).1 hd) hvc hvd
  · intro v hv
    obtain ⟨c, hc, hvc, _⟩ := (c13_triangulation it ops).2.1 v hv
    exact ⟨c, (h.shape.mem_getCliques _).2 hc, hvc⟩

/-! The network `c13_ops` (six nodes, a four-cycle in the moral graph) is connected; its join tree has four cliques and three
separation sets, and the cliques `1-2-3` and `3-4-5` sharing variable 3 are joined through the clique `2-3-4`. -/

theorem c14_connected : ConnectedOps c13_ops := by
  have hv : ∀ u ∈ (Bbn.run c13_ops).vars, EqvGen (fun p c => (p, c) ∈ BOp.edges c13_ops) 0 u.id := by
    have e : ∀ p c, (p, c) ∈ BOp.edges c13_ops → EqvGen (fun p c => (p, c) ∈ BOp.edges c13_ops) p c :=
      fun p c h => EqvGen.rel _ _ h
    have h1 := e 0 1 (by decide +kernel)
    have h2 := e 0 2 (by decide +kernel)
    have h3 := EqvGen.trans _ _ _ h1 (e 1 3 (by decide +kernel))
    have h4 := EqvGen.trans _ _ _ h2 (e 2 4 (by decide +kernel))
    have h5 := EqvGen.trans _ _ _ h3 (e 3 5 (by decide +kernel))
    have hid : (Bbn.run c13_ops).vars.map Variable.id = [0, 1, 2, 3, 4, 5] := by decide +kernel
    intro u hu
    have : u.id ∈ (Bbn.run c13_ops).vars.map Variable.id := List.mem_map.2 ⟨u, hu, rfl⟩
    rw [hid] at this
    simp only [List.mem_cons, List.not_mem_nil, or_false] at this
    rcases this with h | h | h | h | h | h <;> rw [h]
    · exact EqvGen.refl _
    all_goals assumption
  intro u hu v hv'
  exact EqvGen.trans _ _ _ (EqvGen.symm _ _ (hv u hu)) (hv v hv')

example : (joinTreeOf .same .same c13_ops).getSepSets.map (fun s => (s.nodes.map Variable.id, s.left.nodeIds, s.right.nodeIds)) =
    [([1, 2], [1, 2, 0], [3, 2, 1]), ([3, 2], [3, 2, 1], [4, 3, 2]), ([3, 4], [3, 4, 5], [4, 3, 2])] := by
  decide +kernel

/-- C14 and C15 for this network: the connected case applies -/
example : (joinTreeOf .same .same c13_ops).getSepSets.length + 1 = (joinTreeOf .same .same c13_ops).getCliques.length :=
  ((c14_join_tree .same .same c13_ops).2.2.2.2.2.2.2 c14_connected).2 (by decide +kernel)
example := c15_running_intersection .rev .same c13_ops

end PyBBN
