import Verif.Model.Flatten
import Verif.Props.Serde

/-! # C92: the flattened edges of a join tree -/

namespace PyBBN
open Relation InferenceController

theorem flattened_eq (jt : JoinTree) : jt.getFlattenedEdges = (Dict.values jt.edges).flatMap (fun s => [s.lhsEdge, s.rhsEdge]) := by
  have : ∀ (l : List SepSet) (acc : List SepSetEdge),
      l.foldl (fun edges e => (edges ++ [e.lhsEdge]) ++ [e.rhsEdge]) acc = acc ++ l.flatMap (fun s => [s.lhsEdge, s.rhsEdge]) := by
    intro l
    induction l with
    | nil => intro acc; simp
    | cons s l ih => intro acc; rw [List.foldl_cons, ih]; simp
  unfold JoinTree.getFlattenedEdges
  rw [this]
  simp

section
variable {ops : List BOp} {jt : JoinTree}

theorem mem_flattened {e : SepSetEdge} : e ∈ jt.getFlattenedEdges ↔ ∃ s ∈ Dict.values jt.edges, e = s.lhsEdge ∨ e = s.rhsEdge := by
  rw [flattened_eq, List.mem_flatMap]
  simp

/-- **C92**. For every join tree of a session (after `apply`, evidence, `reapply`, or reading it back), `get_flattened_edges` lists every
edge between a clique and a separation set exactly once, the clique first: both ends are nodes of the tree; the pairs are exactly the
neighbour relation; there are two for every separation set, to two different cliques whose common nodes it holds; they form no cycle;
and for a connected network they join any two nodes of the tree, so that there is one edge less than there are nodes. -/
theorem c92_flattened (hs : Session ops jt) :
    (∀ e ∈ jt.getFlattenedEdges, ∃ c ∈ jt.getCliques, ∃ s ∈ jt.getSepSets, e = ⟨.clique c, .sepset s⟩ ∧
      (∀ v ∈ s.nodes, v ∈ c.nodes)) ∧
    (jt.getFlattenedEdges.map (fun e => (e.i.id, e.j.id))).Nodup ∧
    (∀ a b, b ∈ ddGet jt.neighbors a ↔ (a, b) ∈ jt.getFlattenedEdges.map (fun e => (e.i.id, e.j.id)) ∨
      (b, a) ∈ jt.getFlattenedEdges.map (fun e => (e.i.id, e.j.id))) ∧
    (∀ s ∈ jt.getSepSets, ∃ c ∈ jt.getCliques, ∃ d ∈ jt.getCliques, c.id ≠ d.id ∧
      jt.getFlattenedEdges.filter (fun e => decide (e.j.id = s.id)) = [⟨.clique c, .sepset s⟩, ⟨.clique d, .sepset s⟩] ∧
      ∀ v, v ∈ s.nodes.map Variable.id ↔ v ∈ c.nodes.map Variable.id ∧ v ∈ d.nodes.map Variable.id) ∧
    jt.getFlattenedEdges.length = 2 * jt.getSepSets.length ∧
    (SimpleGraph.fromRel (fun a b => (a, b) ∈ jt.getFlattenedEdges.map (fun e => (e.i.id, e.j.id)))).IsAcyclic ∧
    (ConnectedOps ops → jt.getFlattenedEdges.length + 1 = jt.getCliques.length + jt.getSepSets.length ∧
      ∀ a ∈ Dict.keys jt.nodes, ∀ b ∈ Dict.keys jt.nodes,
        EqvGen (fun a b => (a, b) ∈ jt.getFlattenedEdges.map (fun e => (e.i.id, e.j.id))) a b) := by
  obtain ⟨ℓ, cs, T, hh⟩ := hs.held
  have h := hh.live.calib.ctx.spec
  have hperm := hh.edges.perm
  have hmemC := h.shape.mem_getCliques
  have hmemS := h.shape.mem_getSepSets
  have hE : ∀ s, s ∈ Dict.values jt.edges ↔ s ∈ T := fun s => hperm.mem_iff
  have hids : ∀ a b, (a, b) ∈ jt.getFlattenedEdges.map (fun e => (e.i.id, e.j.id)) ↔
      ∃ s ∈ T, (a = s.left.id ∧ b = s.id) ∨ (a = s.right.id ∧ b = s.id) := by
    intro a b
    rw [List.mem_map]
    constructor
    · rintro ⟨e, he, e1⟩
      obtain ⟨s, hs', rfl | rfl⟩ := mem_flattened.1 he
      · cases e1; exact ⟨s, (hE s).1 hs', Or.inl ⟨rfl, rfl⟩⟩
      · cases e1; exact ⟨s, (hE s).1 hs', Or.inr ⟨rfl, rfl⟩⟩
    · rintro ⟨s, hs', ⟨rfl, rfl⟩ | ⟨rfl, rfl⟩⟩
      · exact ⟨s.lhsEdge, mem_flattened.2 ⟨s, (hE s).2 hs', Or.inl rfl⟩, rfl⟩
      · exact ⟨s.rhsEdge, mem_flattened.2 ⟨s, (hE s).2 hs', Or.inr rfl⟩, rfl⟩
  have hnb : ∀ a b, b ∈ ddGet jt.neighbors a ↔ (a, b) ∈ jt.getFlattenedEdges.map (fun e => (e.i.id, e.j.id)) ∨
      (b, a) ∈ jt.getFlattenedEdges.map (fun e => (e.i.id, e.j.id)) := by
    intro a b
    rw [h.shape.nb, hids, hids]
    constructor
    · rintro ⟨s, hs', e | e | ⟨e1, e2⟩ | ⟨e1, e2⟩⟩
      · exact Or.inl ⟨s, hs', Or.inl e⟩
      · exact Or.inl ⟨s, hs', Or.inr e⟩
      · exact Or.inr ⟨s, hs', Or.inl ⟨e2, e1⟩⟩
      · exact Or.inr ⟨s, hs', Or.inr ⟨e2, e1⟩⟩
    · rintro (⟨s, hs', e | e⟩ | ⟨s, hs', ⟨e1, e2⟩ | ⟨e1, e2⟩⟩)
      · exact ⟨s, hs', Or.inl e⟩
      · exact ⟨s, hs', Or.inr (Or.inl e)⟩
      · exact ⟨s, hs', Or.inr (Or.inr (Or.inl ⟨e2, e1⟩))⟩
      · exact ⟨s, hs', Or.inr (Or.inr (Or.inr ⟨e2, e1⟩))⟩
  have hsid : (T.map SepSet.id).Nodup := (h.getSepSets_perm.map SepSet.id).nodup_iff.1 h.shape.sepSets_nodup
  have hEid : ((Dict.values jt.edges).map SepSet.id).Nodup := (hperm.map SepSet.id).nodup_iff.2 hsid
  have hlr : ∀ s ∈ Dict.values jt.edges, s.left.id ≠ s.right.id := by
    intro s hs'
    have hg := h.shape.good s ((hE s).1 hs')
    exact fun e => hg.ne ((h.fam.id_iff hg.left hg.right).1 e)
  have hlen : jt.getFlattenedEdges.length = 2 * jt.getSepSets.length := by
    rw [flattened_eq, h.getSepSets_perm.length_eq, ← hperm.length_eq]
    generalize Dict.values jt.edges = l
    induction l with
    | nil => rfl
    | cons s l ih => simp only [List.flatMap_cons, List.length_append, ih, List.length_cons, List.length_nil]; omega
  refine ⟨?_, ?_, hnb, ?_, hlen, ?_, ?_⟩
  · intro e he
    obtain ⟨s, hs', e1⟩ := mem_flattened.1 he
    have hsT := (hE s).1 hs'
    have hg := h.shape.good s hsT
    have hn : ∀ v ∈ s.nodes, v ∈ s.left.nodes ∧ v ∈ s.right.nodes := by
      intro v hv
      have h1 := (hg.mem_nodes v.id).1 (List.mem_map_of_mem hv)
      have hin : ∀ c ∈ cs, v.id ∈ c.nodes.map Variable.id → v ∈ c.nodes := by
        intro c hc hvc
        obtain ⟨w, hw, e⟩ := List.mem_map.1 hvc
        have hvl : v ∈ s.left.nodes := by
          rw [hg.eq] at hv
          exact (List.mem_filter.1 hv).1
        have := hh.live.calib.ctx.inj (hh.live.calib.ctx.sub _ hc w hw) (hh.live.calib.ctx.sub _ hg.left v hvl) e
        rw [← this]; exact hw
      exact ⟨hin _ hg.left h1.1, hin _ hg.right h1.2⟩
    rcases e1 with rfl | rfl
    · exact ⟨s.left, (hmemC _).2 hg.left, s, (hmemS _).2 hsT, rfl, fun v hv => (hn v hv).1⟩
    · exact ⟨s.right, (hmemC _).2 hg.right, s, (hmemS _).2 hsT, rfl, fun v hv => (hn v hv).2⟩
  · rw [flattened_eq]
    revert hEid hlr
    generalize Dict.values jt.edges = l
    intro hEid hlr
    induction l with
    | nil => simp
    | cons s l ih =>
      rw [List.map_cons, List.nodup_cons] at hEid
      rw [List.flatMap_cons, List.map_append, List.nodup_append]
      refine ⟨?_, ih hEid.2 (fun t ht => hlr t (List.mem_cons_of_mem _ ht)), ?_⟩
      · have := hlr s List.mem_cons_self
        simp [SepSet.lhsEdge, SepSet.rhsEdge, JNode.id, this]
      · intro x hx y hy e
        subst e
        apply hEid.1
        obtain ⟨e1, he1, rfl⟩ := List.mem_map.1 hy
        obtain ⟨t, ht, he1⟩ := List.mem_flatMap.1 he1
        have h1 : e1.j.id = t.id := by
          simp only [List.mem_cons, List.not_mem_nil, or_false] at he1
          rcases he1 with rfl | rfl <;> rfl
        have h2 : e1.j.id = s.id := by
          obtain ⟨e2, he2, e3⟩ := List.mem_map.1 hx
          simp only [Prod.mk.injEq] at e3
          rw [← e3.2]
          simp only [List.mem_cons, List.not_mem_nil, or_false] at he2
          rcases he2 with rfl | rfl <;> rfl
        rw [← h2, h1]
        exact List.mem_map_of_mem ht
  · intro s hsm
    have hsT := (hmemS s).1 hsm
    have hg := h.shape.good s hsT
    refine ⟨s.left, (hmemC _).2 hg.left, s.right, (hmemC _).2 hg.right, hlr s ((hE s).2 hsT), ?_, hg.mem_nodes⟩
    have hsE := (hE s).2 hsT
    rw [flattened_eq]
    revert hEid hsE
    generalize Dict.values jt.edges = l
    intro hEid hsE
    have hnone : ∀ l : List SepSet, s.id ∉ l.map SepSet.id →
        (l.flatMap (fun s => [s.lhsEdge, s.rhsEdge])).filter (fun e => decide (e.j.id = s.id)) = [] := by
      intro l hl
      rw [List.filter_eq_nil_iff]
      intro e he
      obtain ⟨t, ht, he⟩ := List.mem_flatMap.1 he
      have h1 : e.j.id = t.id := by
        simp only [List.mem_cons, List.not_mem_nil, or_false] at he
        rcases he with rfl | rfl <;> rfl
      rw [decide_eq_true_eq, h1]
      intro e2
      exact hl (e2 ▸ List.mem_map_of_mem ht)
    induction l with
    | nil => simp at hsE
    | cons t l ih =>
      rw [List.map_cons, List.nodup_cons] at hEid
      rw [List.flatMap_cons, List.filter_append]
      rcases List.mem_cons.1 hsE with rfl | hsl
      · rw [hnone l hEid.1]
        simp [SepSet.lhsEdge, SepSet.rhsEdge, JNode.id]
      · have hne : t.id ≠ s.id := by
          intro e
          exact hEid.1 (e ▸ List.mem_map_of_mem hsl)
        rw [ih hEid.2 hsl]
        simp [SepSet.lhsEdge, SepSet.rhsEdge, JNode.id, hne]
  · have e : SimpleGraph.fromRel (fun a b => (a, b) ∈ jt.getFlattenedEdges.map (fun e => (e.i.id, e.j.id))) = jt.graph := by
      ext a b
      rw [h.graph_adj, SimpleGraph.fromRel_adj, hnb]
      constructor
      · exact fun h => h.2
      · intro h1
        refine ⟨?_, h1⟩
        have : jt.graph.Adj a b := (h.graph_adj a b).2 ((hnb a b).2 h1)
        exact this.ne
    rw [e]
    exact h.acyclic
  · intro hc
    have hcc := hh.conn hc
    refine ⟨?_, ?_⟩
    · have h1 : jt.getSepSets.length + 1 = jt.getCliques.length := by
        rw [h.getCliques_perm.length_eq, h.getSepSets_perm.length_eq]
        have hcount := Forest.count (l := sl) (r := sr) (S := (cs.map Clique.fs).toFinset) h.forest (by
          intro s hsT
          have hg := h.shape.good s hsT
          exact ⟨List.mem_toFinset.2 (List.mem_map.2 ⟨_, hg.left, rfl⟩), List.mem_toFinset.2 (List.mem_map.2 ⟨_, hg.right, rfl⟩)⟩)
        have hcard : (cs.map Clique.fs).toFinset.card = cs.length := by
          rw [List.toFinset_card_of_nodup, List.length_map]
          exact List.Nodup.map_on (fun c hc d hd e => h.fam.fs_inj hc hd e) h.fam.nodup_list
        have hone : comp sl sr (cs.map Clique.fs).toFinset T = 1 := by
          unfold comp
          rw [Finset.card_eq_one]
          obtain ⟨c, hc⟩ := List.exists_mem_of_ne_nil _ hh.ne
          refine ⟨labs sl sr T c.fs, ?_⟩
          ext z
          simp only [Finset.mem_image, List.mem_toFinset, List.mem_map, Finset.mem_singleton]
          constructor
          · rintro ⟨_, ⟨d, hd, rfl⟩, rfl⟩
            exact (labs_iff T _ _).2 (hcc d hd c hc)
          · rintro rfl
            exact ⟨_, ⟨c, hc, rfl⟩, rfl⟩
        omega
      omega
    · have hstep : ∀ a b, ReflTransGen (fun a b => b ∈ ddGet jt.neighbors a) a b →
          EqvGen (fun a b => (a, b) ∈ jt.getFlattenedEdges.map (fun e => (e.i.id, e.j.id))) a b := by
        intro a b hab
        induction hab with
        | refl => exact EqvGen.refl _
        | tail _ h1 ih =>
          refine ih.trans _ _ _ ?_
          rcases (hnb _ _).1 h1 with h1 | h1
          · exact EqvGen.rel _ _ h1
          · exact (EqvGen.rel _ _ h1).symm
      have hto : ∀ a ∈ Dict.keys jt.nodes, ∃ c ∈ cs, ReflTransGen (fun a b => b ∈ ddGet jt.neighbors a) a c.id := by
        intro a ha
        obtain ⟨⟨k, n⟩, hkn, rfl⟩ := List.mem_map.1 ha
        rcases (h.shape.mem_nodes _ _).1 hkn with ⟨c, hc, e, _⟩ | ⟨s, hsT, e, _⟩
        · exact ⟨c, hc, by rw [← e]⟩
        · refine ⟨s.left, (h.shape.good s hsT).left, ReflTransGen.single ?_⟩
          rw [← e]
          exact (h.sep_nbrs hsT _).2 (Or.inl rfl)
      intro a ha b hb
      obtain ⟨c, hc', h1⟩ := hto a ha
      obtain ⟨d, hd, h2⟩ := hto b hb
      exact ((hstep _ _ h1).trans _ _ _ (hstep _ _ ((h.shape.path_iff h.fam hc' hd).2 (hcc c hc' d hd)))).trans _ _ _ (hstep _ _ h2).symm

end

/-- C92 on the example network with evidence: three cliques, two separation sets, four edges -/
example : ∃ jt, apply .rev .same (Bbn.run c16_ops) = .ok jt ∧ Session c16_ops (runHist jt c18_hist) ∧ ConnectedOps c16_ops ∧
    (runHist jt c18_hist).getFlattenedEdges.map (fun e => (e.i.vars.map Variable.id, e.j.vars.map Variable.id)) =
      [([2, 1, 0], [2, 1]), ([2, 3, 1], [2, 1]), ([3, 4], [3]), ([2, 3, 1], [3])] := by
  obtain ⟨jt, hj, _⟩ := (c16_exact_priors .rev .same c16_ops c16_wf c16_connected).1 (by decide +kernel)
  refine ⟨jt, hj, session_hist (.start .rev .same c16_usable.toSane hj) _
    (fun op ho => (c18_hist_ok op ho).proper.nodes (doms c16_usable.toSane)), c16_connected, ?_⟩
  have h : ((apply .rev .same (Bbn.run c16_ops)).val?.map (fun jt => (runHist jt c18_hist).getFlattenedEdges.map
      (fun e => (e.i.vars.map Variable.id, e.j.vars.map Variable.id)))) =
      some [([2, 1, 0], [2, 1]), ([2, 3, 1], [2, 1]), ([3, 4], [3]), ([2, 3, 1], [3])] := by decide +kernel
  rw [hj] at h
  exact Option.some.inj h

end PyBBN
