import Verif.Proofs.Serde
import Verif.Props.Reapply

/-! # Serialization: C30, C31 -/

namespace PyBBN
open Relation InferenceController

/-! ## C31 -/

/-- **C31**. For every network built with `add_node` / `add_edge`, `from_dict(to_dict(bbn))`, directly or through JSON (which turns
the integer keys into strings), succeeds and gives a network with the same nodes in the same order (ids, names, values, CPTs), the
same directed edges between the registered node objects, the same neighbours, and the same ordered parent lists; writing it again
gives the same dictionary. -/
theorem c31_dict_round_trip (ops : List BOp) (json : Bool) :
    let b := Bbn.run ops
    ∃ b', Bbn.fromDict (if json then b.toDict.json else b.toDict) = .ok b' ∧
      b'.toGraph.getNodes = b.toGraph.getNodes ∧
      (∀ i, Dict.get? b'.nodes i = Dict.get? b.nodes i) ∧
      (∀ p c, (∃ e ∈ b'.toGraph.getEdges, nid e.i = p ∧ nid e.j = c) ↔ ∃ e ∈ b.toGraph.getEdges, nid e.i = p ∧ nid e.j = c) ∧
      (b'.toGraph.getEdges.map (fun e => (nid e.i, nid e.j))).Nodup ∧
      (∀ e ∈ b'.toGraph.getEdges, e.type = .directed ∧ Dict.get? b'.nodes (nid e.i) = some e.i ∧
        Dict.get? b'.nodes (nid e.j) = some e.j) ∧
      (∀ a x, x ∈ b'.toGraph.getNeighbors a ↔ x ∈ b.toGraph.getNeighbors a) ∧
      (∀ c, ddGet b'.parents c = ddGet b.parents c) ∧
      b'.toDict = b.toDict := by
  intro b
  have h : BbnInv b := bbn_run_inv ops
  have hp : ParInv b.parents := parInv_run ops
  have h' := bbn_run_inv b.reload
  have hn := reload_nodes h hp
  have hpar := reload_parents h hp
  have hrel : ∀ p c, emRel (Bbn.run b.reload).toGraph p c ↔ emRel b.toGraph p c := by
    intro p c
    rw [← h'.par, hpar, h.par]
  have hedge : ∀ (b : Bbn), BbnInv b → ∀ p c, (∃ e ∈ b.toGraph.getEdges, nid e.i = p ∧ nid e.j = c) ↔ emRel b.toGraph p c := by
    intro b h p c
    constructor
    · rintro ⟨e, he, rfl, rfl⟩
      exact h.einv.em e he
    · exact h.listed p c
  refine ⟨Bbn.run b.reload, fromDict_toDict h hp json, ?_, ?_, ?_, ?_, ?_, ?_, ?_, ?_⟩
  · unfold Graph.getNodes; rw [hn]
  · intro i; rw [hn]
  · intro p c
    rw [hedge _ h', hedge _ h, hrel]
  · have hk : (Bbn.run b.reload).toGraph.getEdges.map Edge.key = Dict.keys (Bbn.run b.reload).edges := by
      unfold Graph.getEdges Dict.values Dict.keys
      rw [List.map_map]
      apply List.map_congr_left
      rintro ⟨k, e⟩ hke
      exact (h'.einv.key k e hke).symm
    have hnd : ((Bbn.run b.reload).toGraph.getEdges.map Edge.key).Nodup := by rw [hk]; exact h'.einv.nodup
    have : ((Bbn.run b.reload).toGraph.getEdges.map Edge.key) =
        ((Bbn.run b.reload).toGraph.getEdges.map (fun e => (nid e.i, nid e.j))).map
          (fun pc => strInt pc.1 ++ "->".toList ++ strInt pc.2) := by
      rw [List.map_map]
      apply List.map_congr_left
      intro e he
      simp only [Edge.key, h'.directed e he, Function.comp_apply]
    rw [this] at hnd
    exact List.Nodup.of_map _ hnd
  · intro e he
    refine ⟨h'.directed e he, ?_⟩
    obtain ⟨i, j, ho, rfl⟩ := edges_from_ops b.reload e he
    unfold Bbn.reload at ho
    rcases List.mem_append.1 ho with ho | ho
    · obtain ⟨n, _, e⟩ := List.mem_map.1 ho
      cases e
    · obtain ⟨⟨p, c⟩, hpc, e⟩ := List.mem_map.1 ho
      cases e
      have hmem := h.ginv.emNodes p c ((h.par p c).1 ((mem_toDict_edges hp p c).1 hpc))
      have hid : ∀ i, i ∈ Dict.keys b.nodes → Dict.get? b.nodes (b.nodeOf i).var.id = some (b.nodeOf i) := by
        intro i hi
        obtain ⟨n, hn⟩ := Dict.exists_get?_of_mem_keys hi
        have e1 : b.nodeOf i = n := by unfold Bbn.nodeOf; rw [hn]; rfl
        have e2 : n.var.id = i := h.ginv.key i n hn
        rw [e1, e2, hn]
      rw [hn]
      exact ⟨hid p hmem.1, hid c hmem.2⟩
  · intro a x
    rw [h'.ginv.nb, h.ginv.nb]
    exact or_congr (hrel a x) (hrel x a)
  · intro c; rw [hpar]
  · unfold Bbn.toDict Graph.getNodes
    rw [hn, hpar]

/-- a network with negative ids, an isolated node and a child whose parents are not in ascending order -/
def c31_ops : List BOp :=
  [.addNode (mkNode 7 "g" [1/2, 1/2]),
   .addEdge (mkNode 5 "c" [1/4, 3/4]) (mkNode (-1) "x" [1/4, 3/4, 1/2, 1/2, 1, 0, 0, 1]),
   .addEdge (mkNode (-3) "b" [1/5, 4/5]) (mkNode (-1) "x" []),
   .addEdge (mkNode (-1) "x" []) (mkNode 2 "d" [1/3, 2/3, 0, 1])]

/-- C31 on the example, through JSON -/
example : ((Bbn.fromDict (Bbn.run c31_ops).toDict.json).val?.map (fun b =>
      ([-1, 2].map (ddGet b.parents), b.toGraph.getNodes.map (fun n => (n.var.id, n.probs)), b.toGraph.getEdges.map (fun e => (nid e.i, nid e.j))))) =
    some ([[5, -3], [-1]],
      [(7, [1/2, 1/2]), (5, [1/4, 3/4]), (-1, [1/4, 3/4, 1/2, 1/2, 1, 0, 0, 1]), (-3, [1/5, 4/5]), (2, [1/3, 2/3, 0, 1])],
      [(5, -1), (-3, -1), (-1, 2)]) := by decide +kernel

example := c31_dict_round_trip c31_ops true

/-! ## C30 -/

/-- a join tree of a session, written with `to_dict` (perhaps through JSON), read with `from_dict` and run with
`apply_from_serde` -/
def Roundtrip (it : SetIter Int) (js js' : SetIter Str) (json : Bool) (ops : List BOp) (jt jt' : JoinTree) : Prop :=
  ∃ jt1, JoinTree.fromDict js (if json then (jt.toDict it (Bbn.run ops)).json else jt.toDict it (Bbn.run ops)) = .ok jt1 ∧
    applyFromSerde js' jt1 = .ok jt'

theorem Held.same_tree {ops : List BOp} {jt jt' : JoinTree} {ℓ ℓ' : Liks} {cs : List Clique} {T T' : List SepSet} {φ : Clique → Clique}
    (h : Held ops ℓ jt cs T) (h' : Held ops ℓ' jt' (cs.map φ) T') (hre : Reorder cs φ) (hT : T'.Perm (T.map (reSep φ))) :
    (jt'.getCliques.map Clique.id).Perm (jt.getCliques.map Clique.id) ∧
      (∀ c ∈ jt.getCliques, ∃ c' ∈ jt'.getCliques, c'.id = c.id ∧ c'.nodes.Perm c.nodes) ∧
      (jt'.getSepSets.map SepSet.id).Perm (jt.getSepSets.map SepSet.id) ∧
      (∀ s ∈ jt.getSepSets, ∃ s' ∈ jt'.getSepSets, s'.id = s.id ∧ s'.left.id = s.left.id ∧ s'.right.id = s.right.id ∧
        s'.nodes.Perm s.nodes) ∧
      (∀ x y, y ∈ ddGet jt'.neighbors x ↔ y ∈ ddGet jt.neighbors x) := by
  have hs := h.live.calib.ctx.spec
  have hs' := h'.live.calib.ctx.spec
  have hsep : ∀ s ∈ T, (reSep φ s).id = s.id ∧ (reSep φ s).left.id = s.left.id ∧ (reSep φ s).right.id = s.right.id := fun s hsT =>
    ⟨hre.sepId (hs.shape.good s hsT), hre.id (hs.shape.good s hsT).left, hre.id (hs.shape.good s hsT).right⟩
  refine ⟨?_, ?_, ?_, ?_, ?_⟩
  · have h1 := hs'.getCliques_perm.map Clique.id
    rw [List.map_map] at h1
    have e : cs.map (Clique.id ∘ φ) = cs.map Clique.id := List.map_congr_left (fun c hc => hre.id hc)
    rw [e] at h1
    exact h1.trans (hs.getCliques_perm.map Clique.id).symm
  · intro c hc
    have hcs := (hs.shape.mem_getCliques c).1 hc
    exact ⟨φ c, (hs'.shape.mem_getCliques _).2 (List.mem_map_of_mem hcs), hre.id hcs, hre.perm c hcs⟩
  · have h1 := (hs'.getSepSets_perm.trans hT).map SepSet.id
    rw [List.map_map] at h1
    have e : T.map (SepSet.id ∘ reSep φ) = T.map SepSet.id := List.map_congr_left (fun s hsT => (hsep s hsT).1)
    rw [e] at h1
    exact h1.trans (hs.getSepSets_perm.map SepSet.id).symm
  · intro s hsm
    have hsT := (hs.shape.mem_getSepSets s).1 hsm
    have hg := hs.shape.good s hsT
    refine ⟨reSep φ s, (hs'.shape.mem_getSepSets _).2 (hT.mem_iff.2 (List.mem_map_of_mem hsT)), (hsep s hsT).1, (hsep s hsT).2.1,
      (hsep s hsT).2.2, ?_⟩
    have e1 : (reSep φ s).nodes = (φ s.left).nodes.filter (fun v => decide (v.id ∈ ((φ s.left).intersects (φ s.right)).2.2)) := rfl
    have e2 : s.nodes = s.left.nodes.filter (fun v => decide (v.id ∈ (s.left.intersects s.right).2.2)) := by
      conv_lhs => rw [hg.eq]
      rfl
    rw [e1, e2]
    have e3 : (fun v : Variable => decide (v.id ∈ ((φ s.left).intersects (φ s.right)).2.2)) =
        (fun v => decide (v.id ∈ (s.left.intersects s.right).2.2)) := by
      funext v
      rw [Bool.eq_iff_iff, decide_eq_true_eq, decide_eq_true_eq, intersects_mem, intersects_mem, (hre.ids hg.left).mem_iff,
        (hre.ids hg.right).mem_iff]
    rw [e3]
    exact (hre.perm s.left hg.left).filter _
  · intro x y
    rw [hs'.shape.nb, hs.shape.nb]
    constructor
    · rintro ⟨s', hs1, e⟩
      obtain ⟨s, hsT, rfl⟩ := List.mem_map.1 (hT.mem_iff.1 hs1)
      rw [(hsep s hsT).1, (hsep s hsT).2.1, (hsep s hsT).2.2] at e
      exact ⟨s, hsT, e⟩
    · rintro ⟨s, hsT, e⟩
      refine ⟨reSep φ s, hT.mem_iff.2 (List.mem_map_of_mem hsT), ?_⟩
      rw [(hsep s hsT).1, (hsep s hsT).2.1, (hsep s hsT).2.2]
      exact e

/-- **C30**, partial, connected networks: every join tree of a session (fresh, or after evidence, `reapply` or an earlier round
trip) survives `to_dict`/`from_dict`/`apply_from_serde`, directly or through JSON, whatever the iteration orders: the same clique
ids with the same nodes, the same separation sets between the same cliques, the same neighbours, no evidence, the exact priors of
the network (hence the answers of a freshly built tree), and evidence entered later is answered exactly. Missing: disconnected
networks, where a clique without edges is lost if there are other edges (`c30_false`). -/
theorem c30_connected_partial {ops : List BOp} {jt : JoinTree} (hs : Session ops jt) (hconn : ConnectedOps ops) (it : SetIter Int)
    (js js' : SetIter Str) (json : Bool) :
    ∃ jt', Roundtrip it js js' json ops jt jt' ∧
      (jt'.getCliques.map Clique.id).Perm (jt.getCliques.map Clique.id) ∧
      (∀ c ∈ jt.getCliques, ∃ c' ∈ jt'.getCliques, c'.id = c.id ∧ c'.nodes.Perm c.nodes) ∧
      (jt'.getSepSets.map SepSet.id).Perm (jt.getSepSets.map SepSet.id) ∧
      (∀ s ∈ jt.getSepSets, ∃ s' ∈ jt'.getSepSets, s'.id = s.id ∧ s'.left.id = s.left.id ∧ s'.right.id = s.right.id ∧
        s'.nodes.Perm s.nodes) ∧
      (∀ x y, y ∈ ddGet jt'.neighbors x ↔ y ∈ ddGet jt.neighbors x) ∧
      (∀ v ∈ (Bbn.run ops).vars, Dict.get? jt'.evidences v.id = some (v.values.map (fun x => (x, 1)))) ∧
      (∀ v ∈ (Bbn.run ops).vars, jt'.getBbnPotential v = .ok (posteriorTable (Bbn.run ops) noEvidence v)) ∧
      (∀ it2 js2 jt2, apply it2 js2 (Bbn.run ops) = .ok jt2 → ∀ v ∈ (Bbn.run ops).vars, jt'.getBbnPotential v = jt2.getBbnPotential v) ∧
      (∀ h, (∀ op ∈ h, op.2.Ok (Bbn.run ops).vars) → ∀ v ∈ (Bbn.run ops).vars,
        (runHist jt' h).getBbnPotential v = .ok (posteriorTable (Bbn.run ops) (specHist (Bbn.run ops).vars h) v)) := by
  obtain ⟨ℓ, cs, T, h⟩ := hs.held
  have hr : Reloadable jt := h.live.calib.ctx.reloadable h.edges (h.conn hconn)
  obtain ⟨T', jt1, jt', h1, h2, h3, h4, h5⟩ := h.load hr it js js' json
  obtain ⟨a, b, c, d, e⟩ := h.same_tree h3 (h.live.calib.ctx.reorder it) h5
  refine ⟨jt', ⟨jt1, h1, h2⟩, a, b, c, d, e, ?_, ?_, ?_, ?_⟩
  · intro v hv
    rw [(h3.live.good.get (doms h3.sane) hv).1, h4]
    rfl
  · intro v hv
    exact h3.posterior hconn hv
  · intro it2 js2 jt2 hj2 v hv
    obtain ⟨cs2, T2, g, _⟩ := held_apply h3.sane hj2
    rw [h3.posterior hconn hv, g.posterior hconn hv]
  · intro hist hp v hv
    obtain ⟨g, _⟩ := h3.hist h4 hist (fun op ho => (hp op ho).proper)
    rw [g.posterior hconn hv, (lawHist_ok (doms h3.sane) hist hp).1]

/-- **C30**, partial, disconnected networks: if the tree has no edges, or every clique is at the end of an edge, the structure
survives. Missing: trees with both edges and isolated cliques (false, `c30_false`). For the posteriors see `c30_reloaded_partial`. -/
theorem c30_structure_partial {ops : List BOp} {jt : JoinTree} (hs : Session ops jt)
    (hr : Dict.values jt.edges = [] ∨ ∀ c ∈ jt.getCliques, ∃ s ∈ Dict.values jt.edges, c = s.left ∨ c = s.right)
    (it : SetIter Int) (js js' : SetIter Str) (json : Bool) :
    ∃ jt', Roundtrip it js js' json ops jt jt' ∧
      (jt'.getCliques.map Clique.id).Perm (jt.getCliques.map Clique.id) ∧
      (∀ c ∈ jt.getCliques, ∃ c' ∈ jt'.getCliques, c'.id = c.id ∧ c'.nodes.Perm c.nodes) ∧
      (jt'.getSepSets.map SepSet.id).Perm (jt.getSepSets.map SepSet.id) ∧
      (∀ s ∈ jt.getSepSets, ∃ s' ∈ jt'.getSepSets, s'.id = s.id ∧ s'.left.id = s.left.id ∧ s'.right.id = s.right.id ∧
        s'.nodes.Perm s.nodes) ∧
      (∀ x y, y ∈ ddGet jt'.neighbors x ↔ y ∈ ddGet jt.neighbors x) := by
  obtain ⟨ℓ, cs, T, h⟩ := hs.held
  obtain ⟨T', jt1, jt', h1, h2, h3, h4, h5⟩ := h.load hr it js js' json
  obtain ⟨a, b, c, d, e⟩ := h.same_tree h3 (h.live.calib.ctx.reorder it) h5
  exact ⟨jt', ⟨jt1, h1, h2⟩, a, b, c, d, e⟩

/-- the whole round trip as a function -/
def roundtrip (it : SetIter Int) (js js' : SetIter Str) (json : Bool) (ops : List BOp) (jt : JoinTree) : Option JoinTree :=
  (JoinTree.fromDict js (if json then (jt.toDict it (Bbn.run ops)).json else jt.toDict it (Bbn.run ops))).val?.bind
    (fun jt1 => (applyFromSerde js' jt1).val?)

theorem roundtrip_iff {it : SetIter Int} {js js' : SetIter Str} {json : Bool} {ops : List BOp} {jt jt' : JoinTree} :
    roundtrip it js js' json ops jt = some jt' ↔ Roundtrip it js js' json ops jt jt' := by
  unfold roundtrip Roundtrip
  cases hf : JoinTree.fromDict js (if json then (jt.toDict it (Bbn.run ops)).json else jt.toDict it (Bbn.run ops)) with
  | error e => simp [Py.val?]
  | ok jt1 =>
    simp only [Py.val?, Option.bind_some]
    cases ha : applyFromSerde js' jt1 with
    | error e => simp [Py.val?, ha]
    | ok j => simp [Py.val?, ha]

/-- C30 is not vacuous: the example network with evidence, through JSON; the cliques and the prior of node 4 come back -/
example : (∃ jt, apply .rev .same (Bbn.run c16_ops) = .ok jt ∧ Session c16_ops (runHist jt c18_hist)) ∧ ConnectedOps c16_ops ∧
    ((apply .rev .same (Bbn.run c16_ops)).val?.map (fun jt => ((runHist jt c18_hist).getCliques.map Clique.nodeIds))) =
      some [[3, 4], [2, 1, 0], [2, 3, 1]] ∧
    ((apply .rev .same (Bbn.run c16_ops)).val?.bind (fun jt => (roundtrip .rev .rev .same true c16_ops (runHist jt c18_hist)).bind
      (fun j => (j.getBbnPotential (c16_node 4)).val?.map (fun P => (j.getCliques.map Clique.nodeIds, P.map PEntry.value))))) =
      some ([[0, 1, 2], [1, 3, 2], [4, 3]], [447 / 640, 193 / 640]) := by
  refine ⟨?_, c16_connected, by decide +kernel, by decide +kernel⟩
  obtain ⟨jt, hj, _⟩ := (c16_exact_priors .rev .same c16_ops c16_wf c16_connected).1 (by decide +kernel)
  exact ⟨jt, hj, session_hist (.start .rev .same c16_usable.toSane hj) _
    (fun op ho => (c18_hist_ok op ho).proper.nodes (doms c16_usable.toSane))⟩

example := c30_connected_partial c28_session c16_connected .rev .rev .same true

/-- two components of two cliques each: 0 → 1 → 2 and 3 → 4 → 5 -/
def c30_ops : List BOp :=
  [.addEdge (mkNode 0 "a" [1/4, 3/4]) (mkNode 1 "b" [1/2, 1/2, 1/4, 3/4]),
   .addEdge (mkNode 1 "b" []) (mkNode 2 "c" [1/5, 4/5, 1/2, 1/2]),
   .addEdge (mkNode 3 "d" [1/4, 3/4]) (mkNode 4 "e" [1/2, 1/2, 1/4, 3/4]),
   .addEdge (mkNode 4 "e" []) (mkNode 5 "f" [1/5, 4/5, 1/2, 1/2])]

theorem c30_sane : Net.Sane c30_ops := ⟨wf_of_check (by decide +kernel) (by decide +kernel), by decide +kernel⟩

/-- the structure theorem is not vacuous on a disconnected network -/
example : ∃ jt, apply .same .same (Bbn.run c30_ops) = .ok jt ∧ Session c30_ops jt ∧
    (∀ c ∈ jt.getCliques, ∃ s ∈ Dict.values jt.edges, c = s.left ∨ c = s.right) ∧ (Dict.values jt.edges).length = 2 := by
  have h : ((apply .same .same (Bbn.run c30_ops)).val?.map (fun jt =>
      decide ((∀ c ∈ jt.getCliques, ∃ s ∈ Dict.values jt.edges, c = s.left ∨ c = s.right) ∧ (Dict.values jt.edges).length = 2))) =
      some true := by decide +kernel
  cases hj : apply .same .same (Bbn.run c30_ops) with
  | error e => rw [hj] at h; cases h
  | ok jt =>
    rw [hj] at h
    simp only [Py.val?, Option.map_some, Option.some.injEq, decide_eq_true_eq] at h
    exact ⟨jt, rfl, .start .same .same c30_sane hj, h⟩

/-- **C30 is false of the code**: 0 → 1 and, apart from it, 2 → 3 → 4. The clique of 0 and 1 has no edge, and `from_dict` adds
cliques only with their edges: after the round trip the clique and the nodes 0 and 1 are gone. -/
theorem c30_false : (Bbn.run c17_ops).WF ∧
    ∃ jt jt', apply .same .same (Bbn.run c17_ops) = .ok jt ∧ Roundtrip .same .same .same true c17_ops jt jt' ∧
      jt.getCliques.map Clique.nodeIds = [[1, 0], [3, 2], [4, 3]] ∧ jt'.getCliques.map Clique.nodeIds = [[3, 2], [4, 3]] ∧
      (jt.getBbnNode 0).isSome = true ∧ jt'.getBbnNode 0 = none := by
  refine ⟨c17_wf, ?_⟩
  have h : ((apply .same .same (Bbn.run c17_ops)).val?.bind (fun jt => (roundtrip .same .same .same true c17_ops jt).map (fun jt' =>
      decide (jt.getCliques.map Clique.nodeIds = [[1, 0], [3, 2], [4, 3]] ∧ jt'.getCliques.map Clique.nodeIds = [[3, 2], [4, 3]] ∧
        (jt.getBbnNode 0).isSome = true ∧ jt'.getBbnNode 0 = none)))) = some true := by decide +kernel
  cases hj : apply .same .same (Bbn.run c17_ops) with
  | error e => rw [hj] at h; cases h
  | ok jt =>
    rw [hj] at h
    simp only [Py.val?, Option.bind_some] at h
    cases hr : roundtrip .same .same .same true c17_ops jt with
    | none => rw [hr] at h; cases h
    | some jt' =>
      rw [hr] at h
      simp only [Option.map_some, Option.some.injEq, decide_eq_true_eq] at h
      exact ⟨jt, jt', rfl, roundtrip_iff.1 hr, h⟩

end PyBBN
