import Verif.Proofs.SameDoc
import Verif.Props.Json
import Verif.Props.Coherence
import Verif.Props.Reapply

/-! # C134: JSON files whose items come in another order -/

namespace PyBBN
open Json InferenceController

theorem mem_edges_ops (ops : List BOp) (p c : Int) : (p, c) ∈ BOp.edges ops ↔ p ∈ ddGet (Bbn.run ops).parents c := by
  have h1 := (c07_parents_first_insertion ops c).2.2.1 p
  rw [(bbn_run_inv ops).par, ← mem_getParents _ (bbn_run_inv ops).emNodup, h1]
  simp

theorem SameNodes.parentVars {b b' : Bbn} (h : SameNodes b b') (i : Int) : b'.parentVars i = b.parentVars i := by
  unfold Bbn.parentVars
  rw [h.parents]
  congr 1
  funext p
  rw [h.get]

theorem SameNodes.vars {b b' : Bbn} (h : SameNodes b b') (v : Variable) : v ∈ b'.vars ↔ v ∈ b.vars := (h.nodes.map BbnNode.var).mem_iff

theorem SameNodes.usable {ops ops' : List BOp} (h : SameNodes (Bbn.run ops) (Bbn.run ops')) (hu : Net.Usable ops) : Net.Usable ops' := by
  refine ⟨⟨⟨?_, ?_, ?_, ?_⟩, ?_⟩, ?_⟩
  · intro i
    rw [h.parents]
    exact hu.wf.noLoop i
  · exact fun n hn => hu.wf.values n (h.nodes.mem_iff.1 hn)
  · intro n hn
    rw [h.parentVars]
    exact hu.wf.cpt n (h.nodes.mem_iff.1 hn)
  · exact fun n hn => hu.wf.nonneg n (h.nodes.mem_iff.1 hn)
  · exact fun v hv => hu.vals v ((h.vars v).1 hv)
  · intro u hu1 v hv1
    refine (hu.conn u ((h.vars u).1 hu1) v ((h.vars v).1 hv1)).mono ?_
    intro p c hpc
    rw [mem_edges_ops] at hpc ⊢
    rwa [h.parents]

theorem SameNodes.sameNet {ops ops' : List BOp} (h : SameNodes (Bbn.run ops) (Bbn.run ops')) :
    SameNet (fun i => i) (Bbn.run ops).nameOf (Bbn.run ops) (Bbn.run ops') := by
  have hi := bbn_run_inv ops
  constructor
  · have e : (Bbn.run ops).toGraph.getNodes.map (fun n => (⟨n.var.ren (fun i => i) (Bbn.run ops).nameOf, n.probs⟩ : BbnNode)) =
        (Bbn.run ops).toGraph.getNodes :=
      (List.map_congr_left (fun n hn => by rw [ren_self hi (List.mem_map_of_mem hn)])).trans (List.map_id' _)
    rw [e]
    exact h.nodes
  · intro n _
    rw [h.parentVars]
    exact ((List.map_congr_left (fun v hv => ren_self hi (parentVars_sub hi _ v hv))).trans (List.map_id' _)).symm

/-- the network that is read, as a sequence of calls -/
theorem fromJson_same (jf : JsonFloat) (ops : List BOp) {t : Str} {v w : JVal} (hv : loads jf ((Bbn.run ops).toJson jf) = .ok v)
    (hw : loads jf (univNewlines t) = .ok w) (hs : SameDoc v w) :
    ∃ ops', Bbn.fromJson jf t = .ok (Bbn.run ops') ∧ SameNodes (Bbn.run ops) (Bbn.run ops') := by
  have h := bbn_run_inv ops
  have hp := parInv_run ops
  have ev : v = (Bbn.run ops).toDict.json.toJ := by
    unfold Bbn.toJson at hv
    rw [loads_dumps, BbnDict.toJ_json] at hv
    injection hv with hv
    exact hv.symm
  subst ev
  obtain ⟨l, hl, he⟩ := fromDict_same h hp hs
  obtain ⟨hi, hg⟩ := h.reorder hl
  have hp' : ParInv (Bbn.parents { Bbn.run ops with nodes := l }) := hp
  refine ⟨Bbn.reload { Bbn.run ops with nodes := l }, ?_, ?_⟩
  · unfold Bbn.fromJson
    rw [hw]
    exact he
  · have h' := bbn_run_inv (Bbn.reload { Bbn.run ops with nodes := l })
    have hn := reload_nodes hi hp'
    have hpar := reload_parents hi hp'
    have hrel : ∀ p c, emRel (Bbn.run (Bbn.reload { Bbn.run ops with nodes := l })).toGraph p c ↔ emRel (Bbn.run ops).toGraph p c := by
      intro p c
      rw [← h'.par, hpar, ← h.par]
    have hedge : ∀ (b : Bbn), BbnInv b → ∀ p c, (∃ e ∈ b.toGraph.getEdges, nid e.i = p ∧ nid e.j = c) ↔ emRel b.toGraph p c := by
      intro b h p c
      constructor
      · rintro ⟨e, he, rfl, rfl⟩
        exact h.einv.em e he
      · exact h.listed p c
    refine ⟨?_, ?_, ?_, h'.directed, ?_, ?_⟩
    · unfold Graph.getNodes Dict.values
      rw [hn]
      exact hl.map _
    · intro i; rw [hn]; exact hg i
    · intro p c
      rw [hedge _ h', hedge _ h, hrel]
    · intro a x
      rw [h'.ginv.nb, h.ginv.nb]
      exact or_congr (hrel a x) (hrel x a)
    · intro c; rw [hpar]

/-- **C134**. Let `t` be any text that `json.loads` reads as the document that `to_json` writes for a network, up to the order of the items of
its dictionaries, the layout and the spelling of its numbers (as a text editor, a database or JavaScript may leave it). Then `from_json` reads
from it a network with the same nodes, the same edges and the same ordered parents. -/
theorem c134_file (jf : JsonFloat) (ops : List BOp) {t : Str} {v w : JVal} (hv : loads jf ((Bbn.run ops).toJson jf) = .ok v)
    (hw : loads jf (univNewlines t) = .ok w) (hs : SameDoc v w) : ∃ b', Bbn.fromJson jf t = .ok b' ∧ SameNodes (Bbn.run ops) b' := by
  obtain ⟨ops', h1, h2⟩ := fromJson_same jf ops hv hw hs
  exact ⟨_, h1, h2⟩

/-- **C134**. Inference runs on the network that is read, and join trees of the two networks give the same answers to every history of evidence. -/
theorem c134_reports (jf : JsonFloat) {ops : List BOp} (hu : Net.Usable ops) {t : Str} {v w : JVal}
    (hv : loads jf ((Bbn.run ops).toJson jf) = .ok v) (hw : loads jf (univNewlines t) = .ok w) (hs : SameDoc v w) :
    ∃ b', Bbn.fromJson jf t = .ok b' ∧ ∀ (it it' : SetIter Int) (js js' : SetIter Str) (jt : JoinTree),
      apply it js (Bbn.run ops) = .ok jt → ∃ jt', apply it' js' b' = .ok jt' ∧
      ∀ h h' : List (SetIter Str × EvOp), (∀ op ∈ h, op.2.Proper (Bbn.run ops).vars) → h'.map Prod.snd = h.map Prod.snd →
      ∀ u ∈ (Bbn.run ops).vars, ∀ x ∈ u.values, ∃ p, Reports (runHist jt h) u x p ∧ Reports (runHist jt' h') u x p := by
  obtain ⟨ops', h1, h2⟩ := fromJson_same jf ops hv hw hs
  refine ⟨_, h1, ?_⟩
  intro it it' js js' jt hj
  obtain ⟨jt', hj'⟩ := apply_ok it' js' (h2.usable hu).toSane (by
    obtain ⟨u, hu'⟩ := List.exists_mem_of_ne_nil _ (vars_ne hu.wf hj)
    exact List.ne_nil_of_mem ((h2.vars u).2 hu'))
  refine ⟨jt', hj', ?_⟩
  intro h h' hp he u hu' x hx
  have hi := bbn_run_inv ops
  have := c72_same_network hu (h2.usable hu) h2.sameNet hj hj' h h' hp (hist_ren_self hi hp he) hu' hx
  rwa [ren_self hi hu'] at this

/-- **C134**. In particular for `json.dumps(Bbn.to_dict(bbn), sort_keys=True)`, with or without indentation, which sorts the nodes by id. -/
theorem c134_sorted (jf : JsonFloat) (ind : Option Nat) (ops : List BOp) :
    ∃ v w, loads jf ((Bbn.run ops).toJson jf) = .ok v ∧ loads jf (univNewlines ((Bbn.run ops).toSortedJson jf ind)) = .ok w ∧ SameDoc v w := by
  refine ⟨_, _, loads_dumps jf _ _, ?_, sameDoc_sort _ (Bbn.distinct (bbn_run_inv ops))⟩
  unfold Bbn.toSortedJson
  rw [univNewlines_id (printable_cr (printable_dumps jf _ _ _)), loads_dumps]

/-! ## The claims are not vacuous -/

/-- C134 on a network whose nodes were not added in the order of their ids -/
example : ∃ b', Bbn.fromJson pointFloat ((Bbn.run c72_reorder).toSortedJson pointFloat (some 2)) = .ok b' ∧ SameNodes (Bbn.run c72_reorder) b' := by
  obtain ⟨v, w, hv, hw, hs⟩ := c134_sorted pointFloat (some 2) c72_reorder
  exact c134_file pointFloat c72_reorder hv hw hs

example := fun v w hv hw hs => c134_reports pointFloat (ops := c72_reorder) (c72_sameCalls.usable c16_usable)
  (t := (Bbn.run c72_reorder).toSortedJson pointFloat (some 2)) (v := v) (w := w) hv hw hs

/-- the sorted file: the nodes come in another order, the parents do not; -3 comes before -1, as keys are compared before they are turned into
strings -/
example : (Bbn.fromJson pointFloat ((Bbn.run c31_ops).toSortedJson pointFloat none)).val?.map (fun b =>
      (b.toGraph.getNodes.map (fun n => n.var.id), [-1, 2].map (ddGet b.parents))) = some ([-3, -1, 2, 5, 7], [[5, -3], [-1]]) ∧
    (Bbn.run c31_ops).toGraph.getNodes.map (fun n => n.var.id) = [7, 5, -1, -3, 2] := by
  decide +kernel

/-- a network as another program might have written it: items in another order, `1` for `1.0` -/
def c134_doc : JVal :=
  .obj [(.str "edges".toList, .arr []), (.str "nodes".toList, .obj [(.str "0".toList, .obj [
    (.str "variable".toList, .obj [(.str "values".toList, .arr [.str "on".toList, .str "off".toList]), (.str "name".toList, .str "a".toList),
      (.str "id".toList, .int 0)]), (.str "probs".toList, .arr [.int 1, .flt 0])])])]

theorem c134_doc_json : c134_doc.json = c134_doc := by
  simp only [c134_doc, JVal.json, JVal.jsonPairs, JVal.jsonList, PyKey.json]
  rfl

theorem c134_doc_same : SameDoc (Bbn.run [.addNode (mkNode 0 "a" [1, 0])]).toDict.json.toJ c134_doc := by
  have h1 : SameDoc (.flt 1) (.int 1) := by exact_mod_cast SameDoc.whole 1
  have hv : SameDoc (.obj [(.str "id".toList, .int 0), (.str "name".toList, .str "a".toList), (.str "values".toList, .arr [.str "on".toList, .str "off".toList])])
      (.obj [(.str "values".toList, .arr [.str "on".toList, .str "off".toList]), (.str "name".toList, .str "a".toList), (.str "id".toList, .int 0)]) :=
    .obj (mid := [(.str "id".toList, .int 0), (.str "name".toList, .str "a".toList), (.str "values".toList, .arr [.str "on".toList, .str "off".toList])])
      rfl (.cons (.int 0) (.cons (.str _) (.cons (.arr (.cons (.str _) (.cons (.str _) .nil))) .nil))) (List.reverse_perm _).symm
  have hn : SameDoc (.obj [(.str "probs".toList, .arr [.flt 1, .flt 0]), (.str "variable".toList, .obj [(.str "id".toList, .int 0),
      (.str "name".toList, .str "a".toList), (.str "values".toList, .arr [.str "on".toList, .str "off".toList])])]) (.obj [(.str "variable".toList,
        .obj [(.str "values".toList, .arr [.str "on".toList, .str "off".toList]), (.str "name".toList, .str "a".toList), (.str "id".toList, .int 0)]),
      (.str "probs".toList, .arr [.int 1, .flt 0])]) :=
    .obj (mid := [(.str "probs".toList, .arr [.int 1, .flt 0]), (.str "variable".toList, .obj [(.str "values".toList, .arr [.str "on".toList,
      .str "off".toList]), (.str "name".toList, .str "a".toList), (.str "id".toList, .int 0)])]) rfl (.cons (.arr (.cons h1 (.cons (.flt 0) .nil)))
        (.cons hv .nil)) (List.reverse_perm _).symm
  exact .obj (mid := [(.str "nodes".toList, .obj [(.str "0".toList, .obj [(.str "variable".toList,
        .obj [(.str "values".toList, .arr [.str "on".toList, .str "off".toList]), (.str "name".toList, .str "a".toList), (.str "id".toList, .int 0)]),
      (.str "probs".toList, .arr [.int 1, .flt 0])])]), (.str "edges".toList, .arr [])]) rfl
    (.cons (.obj (mid := [(.str "0".toList, .obj [(.str "variable".toList,
        .obj [(.str "values".toList, .arr [.str "on".toList, .str "off".toList]), (.str "name".toList, .str "a".toList), (.str "id".toList, .int 0)]),
      (.str "probs".toList, .arr [.int 1, .flt 0])])]) rfl (.cons hn .nil) (.refl _)) (.cons (.arr .nil) .nil)) (List.reverse_perm _).symm

/-- C134 on this document, written without indentation -/
example : ∃ b', Bbn.fromJson pointFloat (dumps pointFloat none 0 c134_doc) = .ok b' ∧ SameNodes (Bbn.run [.addNode (mkNode 0 "a" [1, 0])]) b' := by
  refine c134_file pointFloat [.addNode (mkNode 0 "a" [1, 0])] (loads_dumps _ _ _) (w := c134_doc) ?_ ?_
  · rw [univNewlines_id (printable_cr (printable_dumps _ _ _ _)), loads_dumps, c134_doc_json]
  · rw [BbnDict.toJ_json]
    exact c134_doc_same

/-- a text without blanks -/
example : (Bbn.fromJson pointFloat
      "{\"edges\":[],\"nodes\":{\"0\":{\"variable\":{\"values\":[\"on\",\"off\"],\"name\":\"a\",\"id\":0},\"probs\":[1,0.1]}}}".toList).val?.map
      (fun b => b.toGraph.getNodes) = some [mkNode 0 "a" [1, 0]] := by
  decide +kernel

end PyBBN
