import Verif.Proofs.SameTree
import Verif.Props.SameDoc
import Verif.Props.JsonTree
import Verif.Props.Serde

/-! # C135: join trees in JSON files whose items come in another order -/

namespace PyBBN
open Json InferenceController

/-- the same tree with its nodes in another order -/
theorem Ctx.reorderNodes {vars : List Variable} {cs : List Clique} {T : List SepSet} {jt : JoinTree} (h : Ctx vars cs T jt) {N : Dict Str JNode}
    (hN : List.Perm N jt.nodes) : Ctx vars cs T { jt with nodes := N } := by
  have hk := h.spec.shape.keys
  refine ⟨⟨h.spec.fam, ⟨h.spec.shape.sub, h.spec.shape.good, h.spec.shape.touched, ?_, ?_, h.spec.shape.nb, h.spec.shape.nbNodup⟩, h.spec.forest,
    h.spec.rip⟩, h.vn, h.vals, h.sub, h.cover, h.ne⟩
  · exact (hN.map Prod.fst).nodup_iff.2 hk
  · intro k n
    have : Dict.get? N k = Dict.get? jt.nodes k := Dict.get?_perm hk hN k
    show Dict.get? N k = some n ↔ _
    rw [this]
    exact h.spec.shape.node k n

theorem Ctx.bbnNodeDict_perm {vars : List Variable} {cs : List Clique} {T : List SepSet} {jt jt2 : JoinTree} (h : Ctx vars cs T jt) (h2 : Ctx vars cs T jt2) :
    List.Perm jt2.bbnNodeDict jt.bbnNodeDict := by
  have hk : (Dict.keys jt.bbnNodeDict).Nodup := nodup_foldl_set_id _ _ (by simp [Dict.keys])
  have hk2 : (Dict.keys jt2.bbnNodeDict).Nodup := nodup_foldl_set_id _ _ (by simp [Dict.keys])
  refine (List.perm_ext_iff_of_nodup (List.Nodup.of_map _ hk2) (List.Nodup.of_map _ hk)).2 ?_
  rintro ⟨k, v⟩
  rw [← Dict.get?_eq_some_iff hk2, ← Dict.get?_eq_some_iff hk, h.get_bbnNodeDict, h2.get_bbnNodeDict]

/-- the parents written to a document -/
theorem toDict_parentInfo (it : SetIter Int) (jt : JoinTree) (ops : List BOp) :
    (jt.toDict it (Bbn.run ops)).parentInfo = (Bbn.run ops).parents.map (fun kv => (strInt kv.1, kv.2)) := by
  have hpk := (parInv_run ops).keys
  show Dict.ofList _ = _
  apply Dict.ofList_nodup
  rw [List.map_map]
  have e : (Bbn.run ops).parents.map (Prod.fst ∘ fun kv : Int × List Int => (strInt kv.1, kv.2)) = (Dict.keys (Bbn.run ops).parents).map strInt := by
    unfold Dict.keys; rw [List.map_map]; rfl
  rw [e]
  exact List.Nodup.map (fun _ _ => strInt_inj) hpk

/-- reading parents in any order, with empty lists for nodes without parents -/
theorem parentInfo_read {par : Dict Int (List Int)} (hpk : (Dict.keys par).Nodup) {ids : List Int} (hids : ids.Nodup)
    (hnone : ∀ i ∈ ids, Dict.get? par i = none) {P : List (Str × List Int)}
    (hP : P.Perm (par.map (fun kv => (strInt kv.1, kv.2)) ++ ids.map (fun i => (strInt i, [])))) :
    ∃ info', P.mapM (fun kv => do let k ← parseInt kv.1; (.ok (k, kv.2) : Py (Int × List Int))) = .ok info' ∧
      ∀ i, ddGet (Dict.ofList info') i = ddGet par i := by
  have hm : (par.map (fun kv => (strInt kv.1, kv.2)) ++ ids.map (fun i => (strInt i, ([] : List Int)))).mapM
      (fun kv => do let k ← parseInt kv.1; (.ok (k, kv.2) : Py (Int × List Int))) = .ok (par ++ ids.map (fun i => (i, []))) := by
    have e : par.map (fun kv => (strInt kv.1, kv.2)) ++ ids.map (fun i => (strInt i, ([] : List Int))) =
        (par ++ ids.map (fun i => (i, ([] : List Int)))).map (fun kv : Int × List Int => (strInt kv.1, kv.2)) := by
      rw [List.map_append, List.map_map]; rfl
    rw [e, List.mapM_map, mapM_ok _ (fun kv => kv), List.map_id']
    rintro ⟨k, l⟩ _
    simp only [bind, Except.bind, Function.comp_apply, parseInt_strInt]
  obtain ⟨info', h1, h2⟩ := mapM_perm hP hm
  refine ⟨info', h1, ?_⟩
  have hn : (Dict.keys (par ++ ids.map (fun i => (i, ([] : List Int))))).Nodup := by
    unfold Dict.keys
    rw [List.map_append, List.map_map]
    have e : ids.map (Prod.fst ∘ fun i => (i, ([] : List Int))) = ids := List.map_id' _
    rw [e, List.nodup_append]
    refine ⟨hpk, hids, ?_⟩
    rintro x hx y hy rfl
    exact (Dict.get?_eq_none_iff _ _).1 (hnone x hy) hx
  intro i
  rw [Dict.ofList_nodup ((h2.map Prod.fst).nodup_iff.2 hn)]
  unfold ddGet
  rw [Dict.get?_perm hn h2 i]
  cases hx : Dict.get? par i with
  | some l =>
      have : Dict.get? (par ++ ids.map (fun i => (i, ([] : List Int)))) i = some l :=
        Dict.get?_of_mem hn (List.mem_append_left _ (Dict.mem_of_get? hx))
      rw [this]
  | none =>
      cases hy : Dict.get? (par ++ ids.map (fun i => (i, ([] : List Int)))) i with
      | none => rfl
      | some l =>
          rcases List.mem_append.1 (Dict.mem_of_get? hy) with h | h
          · rw [Dict.get?_of_mem hpk h] at hx
            cases hx
          · obtain ⟨k, _, e⟩ := List.mem_map.1 h
            cases e
            rfl

/-- reading a document that says the same and running it -/
theorem Held.load_same {ops : List BOp} {jt : JoinTree} {ℓ : Liks} {cs : List Clique} {T : List SepSet} (h : Held ops ℓ jt cs T)
    (hconn : ConnectedOps ops) (it : SetIter Int) (js js' : SetIter Str) {d' : JtDict}
    (hB : List.Perm d'.bbnNodes (jt.toDict it (Bbn.run ops)).json.bbnNodes) (hN : List.Perm d'.nodes (jt.toDict it (Bbn.run ops)).json.nodes)
    (hE : d'.edges = (jt.toDict it (Bbn.run ops)).json.edges) {info' : List (Int × List Int)}
    (hi' : d'.parentInfo.mapM (fun kv => do let k ← parseInt kv.1; (.ok (k, kv.2) : Py (Int × List Int))) = .ok info')
    (hP : ∀ i, ddGet (Dict.ofList info') i = ddGet (Bbn.run ops).parents i) :
    ∃ φ T' jt1 jt', JoinTree.fromDict js d' = .ok jt1 ∧ applyFromSerde js' jt1 = .ok jt' ∧ Held ops noEvidence jt' (cs.map φ) T' ∧
      lik jt'.evidences = noEvidence ∧ T'.Perm (T.map (reSep φ)) ∧ Reorder cs φ := by
  have hctx := h.live.calib.ctx
  have en := hctx.spec.shape.toDict_nodes it (Bbn.run ops) true
  simp only [if_true] at en
  rw [en] at hN
  obtain ⟨N, hNp, hNe⟩ : ∃ N : Dict Str JNode, List.Perm N jt.nodes ∧ d'.nodes = N.map (fun kn => (kn.1, kn.2.toDict it)) := by
    have := congrFun (congrFun (List.eq_map_comp_perm (fun kn : Str × JNode => (kn.1, kn.2.toDict it))) d'.nodes) jt.nodes
    obtain ⟨l, h1, h2⟩ := this.symm.mp hN
    exact ⟨l, h2, h1⟩
  have hctx2 := hctx.reorderNodes hNp
  have hed2 : EdgesOk T { jt with nodes := N } := h.edges.frame rfl
  have hr2 := hctx2.reloadable hed2 (h.conn hconn)
  have hre := hctx2.reorder it
  have hpk := (parInv_run ops).keys
  obtain ⟨T', j, a1, a2, a3, a4, a5, a6⟩ := hctx2.reload hed2 hr2 it js hpk true
  simp only [if_true] at a1
  have en2 := hctx2.spec.shape.toDict_nodes it (Bbn.run ops) true
  have eb := hctx.toDict_bbnNodes it (Bbn.run ops) true
  have eb2 := hctx2.toDict_bbnNodes it (Bbn.run ops) true
  simp only [if_true] at en2 eb eb2
  have hk2 : (Dict.keys (JoinTree.bbnNodeDict { jt with nodes := N })).Nodup := nodup_foldl_set_id _ _ (by simp [Dict.keys])
  obtain ⟨hp, c1, c3⟩ := JoinTree.fromDict_congr js (d' := d') (d := (JoinTree.toDict it { jt with nodes := N } (Bbn.run ops)).json)
    (by
      rw [eb2]
      rw [eb] at hB
      exact hB.trans ((hctx2.bbnNodeDict_perm hctx).map _))
    (by rw [eb2]; exact keyOf_nodup hk2 (fun _ v => (JoinTree.nodeObj { jt with nodes := N } v).toDict))
    (by
      rw [eb2, List.map_map]
      have : (JoinTree.bbnNodeDict { jt with nodes := N }).map ((fun kv : PyKey × NodeDict => kv.2.variable_.id) ∘
          fun kv : Int × Variable => (keyOf true kv.1, (JoinTree.nodeObj { jt with nodes := N } kv.2).toDict)) =
          Dict.keys (JoinTree.bbnNodeDict { jt with nodes := N }) := by
        unfold Dict.keys
        apply List.map_congr_left
        rintro ⟨k, v⟩ hkv
        exact ((hctx2.get_bbnNodeDict k v).1 (Dict.get?_of_mem hk2 hkv)).2
      rw [this]
      exact hk2)
    (by rw [en2, hNe]) hE hi'
    a1
  have hserde : SerdeHeap (Bbn.run ops) (cs.map (reClique it { jt with nodes := N })) hp := by
    intro n hn
    have hv : n.var ∈ (Bbn.run ops).vars := List.mem_map_of_mem hn
    obtain ⟨o, ho, e⟩ := h.probs n hn
    refine ⟨_, (c3 n.var.id).trans (a6 n.var hv), ?_, Or.inr ⟨rfl, ?_⟩⟩
    · show (jt.nodeObj n.var).probs = _
      unfold JoinTree.nodeObj
      rw [ho, ← e]
      rfl
    · obtain ⟨o2, _, _, c, f3, _, f5⟩ := h.live.calib.done n.var hv
      exact ⟨_, List.mem_map_of_mem f3, fun u hu => (hre.perm c f3).mem_iff.2 (f5 u hu)⟩
  have hinfo : ∀ v : Variable, ddGet (Dict.ofList info') v.id = ddGet (Bbn.run ops).parents v.id := fun v => hP v.id
  obtain ⟨jt', b1, b2, b3, b4, b5, b6, b7, b8⟩ := serde_run (jt := { j with parentInfo := Dict.ofList info', heap := hp }) (bbn_run_inv ops) h.sane.wf (a2.frame rfl rfl)
    (by simpa using h.ne) (fun v _ => hinfo v) hserde js'
  refine ⟨reClique it { jt with nodes := N }, T', _, jt', c1, b1, ⟨h.sane, b2, by simpa using h.ne, ?_, ?_, b8, (a4.frame (jt' := { j with parentInfo := Dict.ofList info', heap := hp }) rfl).frame b5⟩, b3, a3, hre⟩
  · intro hc c hcm d hdm
    obtain ⟨c', hc', rfl⟩ := List.mem_map.1 hcm
    obtain ⟨d', hd', rfl⟩ := List.mem_map.1 hdm
    rw [hre.fs hc', hre.fs hd']
    refine (h.conn hc c' hc' d' hd').lift' ?_
    intro s hs
    have hg := hctx.spec.shape.good s hs
    have : reSep (reClique it { jt with nodes := N }) s ∈ T' := a3.mem_iff.2 (List.mem_map_of_mem hs)
    have hcn := Conn.edge (l := sl) (r := sr) this
    have e1 : sl (reSep (reClique it { jt with nodes := N }) s) = sl s := hre.fs hg.left
    have e2 : sr (reSep (reClique it { jt with nodes := N }) s) = sr s := hre.fs hg.right
    rw [e1, e2] at hcn
    exact hcn
  · intro v _
    rw [b7]
    exact hinfo v

/-- what loading a join tree has to give: the same cliques and separation sets, no evidence, and exact answers to every history of evidence -/
def LoadsAs (ops : List BOp) (jt jt' : JoinTree) : Prop :=
  (jt'.getCliques.map Clique.id).Perm (jt.getCliques.map Clique.id) ∧
  (∀ c ∈ jt.getCliques, ∃ c' ∈ jt'.getCliques, c'.id = c.id ∧ c'.nodes.Perm c.nodes) ∧
  (jt'.getSepSets.map SepSet.id).Perm (jt.getSepSets.map SepSet.id) ∧
  (∀ s ∈ jt.getSepSets, ∃ s' ∈ jt'.getSepSets, s'.id = s.id ∧ s'.left.id = s.left.id ∧ s'.right.id = s.right.id ∧ s'.nodes.Perm s.nodes) ∧
  (∀ x y, y ∈ ddGet jt'.neighbors x ↔ y ∈ ddGet jt.neighbors x) ∧
  (∀ v ∈ (Bbn.run ops).vars, Dict.get? jt'.evidences v.id = some (v.values.map (fun x => (x, 1)))) ∧
  ∀ h, (∀ op ∈ h, op.2.Ok (Bbn.run ops).vars) → ∀ v ∈ (Bbn.run ops).vars,
    (runHist jt' h).getBbnPotential v = .ok (posteriorTable (Bbn.run ops) (specHist (Bbn.run ops).vars h) v)

theorem Session.load_same {ops : List BOp} {jt : JoinTree} (hs : Session ops jt) (hconn : ConnectedOps ops) (it : SetIter Int) (js js' : SetIter Str)
    (jf : JsonFloat) {t : Str} {w : JVal} {ids : List Int} (hids : ids.Nodup) (hnone : ∀ i ∈ ids, Dict.get? (Bbn.run ops).parents i = none)
    (hw : loads jf t = .ok w) (hd : SameDoc (JtDict.toJ { (jt.toDict it (Bbn.run ops)).json with
      parentInfo := (jt.toDict it (Bbn.run ops)).json.parentInfo ++ ids.map (fun i => (strInt i, [])) }) w) :
    ∃ jt1 jt', JoinTree.fromJson jf js t = .ok jt1 ∧ applyFromSerde js' jt1 = .ok jt' ∧ LoadsAs ops jt jt' := by
  obtain ⟨d', e1, e2, e3, e4, e5⟩ := JtDict.ofJ_same hd
  obtain ⟨ℓ, cs, T, h⟩ := hs.held
  have e6 : (jt.toDict it (Bbn.run ops)).json.parentInfo = (Bbn.run ops).parents.map (fun kv => (strInt kv.1, kv.2)) := toDict_parentInfo it jt ops
  simp only [e6] at e5
  obtain ⟨info', i1, i2⟩ := parentInfo_read (parInv_run ops).keys hids hnone e5
  obtain ⟨φ, T', jt1, jt', h1, h2, h3, h4, h5, h6⟩ := h.load_same hconn it js js' e2 e3 e4 i1 i2
  obtain ⟨a, b, c, d, e⟩ := h.same_tree h3 h6 h5
  refine ⟨jt1, jt', ?_, h2, a, b, c, d, e, ?_, ?_⟩
  · unfold JoinTree.fromJson
    rw [hw]
    show (do let d ← JtDict.ofJ w; JoinTree.fromDict js d) = _
    rw [e1]
    exact h1
  · intro v hv
    rw [(h3.live.good.get (doms h3.sane) hv).1, h4]
    rfl
  · intro hist hp v hv
    obtain ⟨g, _⟩ := h3.hist h4 hist (fun op ho => (hp op ho).proper)
    rw [g.posterior hconn hv, (lawHist_ok (doms h3.sane) hist hp).1]

theorem loads_toJson {jf : JsonFloat} {ind : Option Nat} {it : SetIter Int} {jt : JoinTree} {b : Bbn} {v : JVal}
    (hv : loads jf (jt.toJson jf ind it b) = .ok v) : v = (jt.toDict it b).json.toJ := by
  unfold JoinTree.toJson at hv
  rw [loads_dumps, JtDict.toJ_json _ (Dict.nodup_fst_ofList _) (Dict.nodup_fst_ofList _)] at hv
  injection hv with hv
  exact hv.symm

/-- **C135**. Let `t` be any text that `json.loads` reads as the document of a join tree of a session on a connected network, up to the order of
the items of its dictionaries, the layout and the spelling of its numbers. Loaded with `JoinTree.from_dict(json.loads(t))` and run with
`apply_from_serde` it gives the same cliques and separation sets, no evidence, and from then on exact answers to every history of evidence. -/
theorem c135_text (jf : JsonFloat) (ind : Option Nat) {ops : List BOp} {jt : JoinTree} (hs : Session ops jt) (hconn : ConnectedOps ops)
    (it : SetIter Int) (js js' : SetIter Str) {t : Str} {v w : JVal} (hv : loads jf (jt.toJson jf ind it (Bbn.run ops)) = .ok v)
    (hw : loads jf t = .ok w) (hd : SameDoc v w) :
    ∃ jt1 jt', JoinTree.fromJson jf js t = .ok jt1 ∧ applyFromSerde js' jt1 = .ok jt' ∧ LoadsAs ops jt jt' := by
  have ev := loads_toJson hv
  subst ev
  refine hs.load_same hconn it js js' jf (ids := []) List.nodup_nil (by simp) hw ?_
  rw [List.map_nil, List.append_nil]
  exact hd

/-- **C137**. Earlier versions also wrote an empty list of parents for nodes without parents (`docs/source/code/simple-join-tree.json`). Such files,
in any order and layout, load as the same tree. -/
theorem c137_empty_parents (jf : JsonFloat) {ops : List BOp} {jt : JoinTree} (hs : Session ops jt) (hconn : ConnectedOps ops)
    (it : SetIter Int) (js js' : SetIter Str) {ids : List Int} (hids : ids.Nodup) (hnone : ∀ i ∈ ids, ∀ p, (p, i) ∉ BOp.edges ops)
    {t : Str} {w : JVal} (hw : loads jf t = .ok w) (hd : SameDoc (JtDict.toJ { (jt.toDict it (Bbn.run ops)).json with
      parentInfo := (jt.toDict it (Bbn.run ops)).json.parentInfo ++ ids.map (fun i => (strInt i, [])) }) w) :
    ∃ jt1 jt', JoinTree.fromJson jf js t = .ok jt1 ∧ applyFromSerde js' jt1 = .ok jt' ∧ LoadsAs ops jt jt' := by
  refine hs.load_same hconn it js js' jf hids ?_ hw hd
  intro i hi
  cases hx : Dict.get? (Bbn.run ops).parents i with
  | none => rfl
  | some l =>
      have hl := ((parInv_run ops).vals i l (Dict.mem_of_get? hx)).1
      obtain ⟨p, hp⟩ := List.exists_mem_of_ne_nil l hl
      refine absurd ((mem_edges_ops ops p i).2 ?_) (hnone i hi p)
      unfold ddGet
      rw [hx]
      exact hp

/-- **C135**. In particular for `json.dumps(JoinTree.to_dict(jt, bbn), sort_keys=True, indent=2)`, as the documentation does. -/
theorem c135_sorted (jf : JsonFloat) (ind : Option Nat) {ops : List BOp} {jt : JoinTree} (hs : Session ops jt) (it : SetIter Int) :
    ∃ v w, loads jf (jt.toJson jf ind it (Bbn.run ops)) = .ok v ∧ loads jf (jt.toSortedJson jf ind it (Bbn.run ops)) = .ok w ∧ SameDoc v w := by
  refine ⟨_, _, loads_dumps jf _ _, loads_dumps jf _ _, sameDoc_sort _ (JtDict.distinct _ ?_ (Dict.nodup_fst_ofList _) (Dict.nodup_fst_ofList _))⟩
  obtain ⟨ℓ, cs, T, h⟩ := hs.held
  have hk : (Dict.keys jt.bbnNodeDict).Nodup := nodup_foldl_set_id _ _ (by simp [Dict.keys])
  have h0 := h.live.calib.ctx.toDict_bbnNodes it (Bbn.run ops) false
  have h1 := keyOf_nodup (json := true) hk (fun _ n => n)
  simp only [Bool.false_eq_true, if_false] at h0
  rw [h0, List.map_map]
  rw [List.map_map] at h1
  exact h1

/-! ## The claims are not vacuous -/

/-- C135 on the sorted text of a join tree with evidence -/
example : ∃ jt1 jt', JoinTree.fromJson pointFloat .rev ((runHist (c16_jt .rev .same) c18_hist).toSortedJson pointFloat (some 2) .rev (Bbn.run c16_ops)) = .ok jt1 ∧
    applyFromSerde .same jt1 = .ok jt' ∧ (jt'.getCliques.map Clique.id).Perm ((runHist (c16_jt .rev .same) c18_hist).getCliques.map Clique.id) := by
  obtain ⟨v, w, hv, hw, hd⟩ := c135_sorted pointFloat (some 2) c28_session .rev
  obtain ⟨jt1, jt', h1, h2, h3, _⟩ := c135_text pointFloat (some 2) c28_session c16_connected .rev .rev .same hv hw hd
  exact ⟨jt1, jt', h1, h2, h3⟩

/-- the sorted text of a join tree with evidence; read back, the cliques and the priors of node 4 -/
example :
    ((apply .rev .same (Bbn.run c16_ops)).val?.bind (fun jt =>
      let jt := runHist jt c18_hist
      let text := jt.toSortedJson pointFloat none .rev (Bbn.run c16_ops)
      (JoinTree.fromJson pointFloat .rev text).val?.bind (fun j1 => (applyFromSerde .same j1).val?.bind (fun j =>
        (j.getBbnPotential (c16_node 4)).val?.map (fun P => (decide (text = jt.toJson pointFloat none .rev (Bbn.run c16_ops)),
          j.getCliques.map Clique.nodeIds, P.map PEntry.value)))))) =
      some (false, [[0, 1, 2], [1, 3, 2], [4, 3]], [447 / 640, 193 / 640]) := by
  decide +kernel

end PyBBN
