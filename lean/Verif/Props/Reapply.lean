import Verif.Proofs.SerdeTree
import Verif.Proofs.Shared
import Verif.Props.Evidence

/-! # `InferenceController.reapply` and repeated `apply`: C28, C29 -/

namespace PyBBN
open Relation InferenceController

/-- the join trees a user can hold for the network built by `ops`: the result of `apply`, any evidence operation on such a tree
(also one that raises), the result of `reapply`, which moves on to the network with the new CPTs, and a tree written to a
dictionary (or JSON), read back and run with `apply_from_serde` -/
inductive Session : List BOp → JoinTree → Prop
  | start {ops : List BOp} {jt : JoinTree} (it : SetIter Int) (js : SetIter Str) (hu : Net.Sane ops)
      (hj : apply it js (Bbn.run ops) = .ok jt) : Session ops jt
  | evidence {ops : List BOp} {jt : JoinTree} (js : SetIter Str) (op : EvOp) (hs : Session ops jt)
      (hn : op.Nodes (Bbn.run ops).vars) : Session ops (op.run js jt).1
  | recpt {ops : List BOp} {jt jt' : JoinTree} (js : SetIter Str) (cpts : Dict Int (List ℚ)) (hs : Session ops jt)
      (hk : (Dict.keys cpts).Nodup) (wf : (Bbn.run (withCpts cpts ops)).WF) (hj : reapply js jt cpts = .ok jt') :
      Session (withCpts cpts ops) jt'
  | loaded {ops : List BOp} {jt jt1 jt' : JoinTree} (it : SetIter Int) (js js' : SetIter Str) (json : Bool) (hs : Session ops jt)
      (hr : Reloadable jt)
      (hl : JoinTree.fromDict js (if json then (jt.toDict it (Bbn.run ops)).json else jt.toDict it (Bbn.run ops)) = .ok jt1)
      (hj : applyFromSerde js' jt1 = .ok jt') : Session ops jt'

/-- the invariant of a session -/
structure Held (ops : List BOp) (ℓ : Liks) (jt : JoinTree) (cs : List Clique) (T : List SepSet) : Prop where
  sane : Net.Sane ops
  live : Live (Bbn.run ops).vars cs T (Bbn.run ops).net ℓ jt
  ne : cs ≠ []
  conn : ConnectedOps ops → ∀ c ∈ cs, ∀ d ∈ cs, Conn sl sr T c.fs d.fs
  info : ∀ v ∈ (Bbn.run ops).vars, ddGet jt.parentInfo v.id = ddGet (Bbn.run ops).parents v.id
  probs : ∀ n ∈ (Bbn.run ops).toGraph.getNodes, ∃ o, Dict.get? jt.heap n.var.id = some o ∧ o.probs = n.probs
  edges : EdgesOk T jt

section
variable {ops : List BOp} {jt : JoinTree}

theorem connectedOps_withCpts (cpts : Dict Int (List ℚ)) : ConnectedOps (withCpts cpts ops) ↔ ConnectedOps ops := by
  unfold ConnectedOps
  rw [(recpt_run cpts ops).vars, edges_withCpts]

theorem Net.Sane.withCpts (hu : Net.Sane ops) {cpts : Dict Int (List ℚ)} (wf : (Bbn.run (withCpts cpts ops)).WF) :
    Net.Sane (PyBBN.withCpts cpts ops) := ⟨wf, by rw [(recpt_run cpts ops).vars]; exact hu.vals⟩

theorem held_apply_cliques {it : SetIter Int} {js : SetIter Str} (hu : Net.Sane ops) (hj : apply it js (Bbn.run ops) = .ok jt) :
    ∃ T, Held ops noEvidence jt (Triangulator.triangulate it (moralize (Bbn.run ops))).1 T ∧ lik jt.evidences = noEvidence := by
  have h := bbn_run_inv ops
  obtain ⟨T, h1, h2, h3⟩ := live_apply hu hj
  obtain ⟨T', jt', a1, a2, a3, a4, a5, a6, a7, a8, a9, a10⟩ := applyWith_spec it js h hu.wf (vars_ne hu.wf hj) (leftover_nil _ _)
  have : jt' = jt := by
    have e : apply it js (Bbn.run ops) = .ok jt' := a1
    rw [hj] at e
    cases e
    rfl
  subst this
  have hcs := (triangulate_spec it h).1
  have htr : JTSpec _ T (Transformer.transform js (Triangulator.triangulate it (moralize (Bbn.run ops))).1) :=
    h1.calib.ctx.spec.frame a8.symm a10.symm
  refine ⟨T, ⟨hu, h1, h3, ?_, ?_, a7, (transform_edges js hcs htr).frame a9⟩, h2⟩
  · intro hc
    exact connected_cliques hc hcs h1.calib.ctx.spec
  · intro v hv
    rw [a6, ddGet_parentInfoOf h hv]

theorem held_apply {it : SetIter Int} {js : SetIter Str} (hu : Net.Sane ops) (hj : apply it js (Bbn.run ops) = .ok jt) :
    ∃ cs T, Held ops noEvidence jt cs T ∧ lik jt.evidences = noEvidence := ⟨_, held_apply_cliques hu hj⟩

theorem Held.frame {ℓ ℓ' : Liks} {jt' : JoinTree} {cs : List Clique} {T : List SepSet} (h : Held ops ℓ jt cs T)
    (hl : Live (Bbn.run ops).vars cs T (Bbn.run ops).net ℓ' jt') (hs : SameTree jt' jt) : Held ops ℓ' jt' cs T :=
  ⟨h.sane, hl, h.ne, h.conn, by rw [hs.parentInfo]; exact h.info, by rw [hs.heap]; exact h.probs,
    h.edges.frame hs.edges⟩

/-- what `reapply` starts from -/
theorem Held.reapply_heap {ℓ : Liks} {cs : List Clique} {T : List SepSet} (h : Held ops ℓ jt cs T)
    {cpts : Dict Int (List ℚ)} (hk : (Dict.keys cpts).Nodup) {v : Variable} (hv : v ∈ (Bbn.run ops).vars) {o : NodeObj}
    (ho : Dict.get? jt.heap v.id = some o) :
    ∃ o', Dict.get? (updateBbnCpts jt cpts).heap v.id = some o' ∧ o'.probs = (Dict.get? cpts v.id).getD o.probs ∧
      o'.parentClique = o.parentClique := by
  have hctx := h.live.calib.ctx
  have hhas : Dict.has jt.bbnNodeDict v.id = true := by
    rw [Dict.has_iff]
    exact Dict.mem_keys_of_get? ((hctx.get_bbnNodeDict v.id v).2 ⟨hv, rfl⟩)
  exact updateBbnCpts_get cpts hk hhas ho

theorem Held.reapply_serde {ℓ : Liks} {cs : List Clique} {T : List SepSet} (h : Held ops ℓ jt cs T)
    {cpts : Dict Int (List ℚ)} (hk : (Dict.keys cpts).Nodup) :
    Ctx (Bbn.run (withCpts cpts ops)).vars cs T (updateBbnCpts jt cpts) ∧
      (∀ v ∈ (Bbn.run (withCpts cpts ops)).vars,
        ddGet (updateBbnCpts jt cpts).parentInfo v.id = ddGet (Bbn.run (withCpts cpts ops)).parents v.id) ∧
      SerdeHeap (Bbn.run (withCpts cpts ops)) cs (updateBbnCpts jt cpts).heap := by
  have hr := recpt_run cpts ops
  have hctx := h.live.calib.ctx
  have hc : Ctx (Bbn.run (withCpts cpts ops)).vars cs T (updateBbnCpts jt cpts) := by
    rw [hr.vars]; exact hctx.frame rfl rfl
  refine ⟨hc, ?_, ?_⟩
  · rw [hr.vars, hr.parents]; exact h.info
  · intro n' hn'
    rw [hr.getNodes] at hn'
    obtain ⟨n, hn, rfl⟩ := List.mem_map.1 hn'
    have hv : n.var ∈ (Bbn.run ops).vars := List.mem_map_of_mem hn
    obtain ⟨o, ho, e⟩ := h.probs n hn
    obtain ⟨o', d1, d2, d3⟩ := h.reapply_heap hk hv ho
    refine ⟨o', d1, ?_, Or.inl ?_⟩
    · rw [d2, e]; rfl
    · obtain ⟨o2, f1, _, c, f3, f4, f5⟩ := h.live.calib.done n.var hv
      rw [ho] at f1
      cases f1
      rw [hr.family]
      exact ⟨c, f3, by rw [d3]; exact f4, f5⟩

/-- `reapply` on a held tree -/
theorem Held.reapply {ℓ : Liks} {cs : List Clique} {T : List SepSet} (h : Held ops ℓ jt cs T) (js : SetIter Str)
    {cpts : Dict Int (List ℚ)} (hk : (Dict.keys cpts).Nodup) (wf : (Bbn.run (withCpts cpts ops)).WF) :
    ∃ jt', InferenceController.reapply js jt cpts = .ok jt' ∧ Held (withCpts cpts ops) noEvidence jt' cs T ∧
      lik jt'.evidences = noEvidence := by
  have hr := recpt_run cpts ops
  have hb' := bbn_run_inv (withCpts cpts ops)
  obtain ⟨hc, hi, hh⟩ := h.reapply_serde hk
  obtain ⟨jt', b1, b2, b3, b4, b5, b6, b7, b8⟩ := serde_run hb' wf hc h.ne hi hh js
  refine ⟨jt', b1, ⟨h.sane.withCpts wf, b2, h.ne, ?_, ?_, b8, h.edges.frame b5⟩, b3⟩
  · rw [connectedOps_withCpts]; exact h.conn
  · rw [b7, hr.vars, hr.parents]; exact h.info

/-- what `apply_from_serde` starts from -/
theorem Held.load_serde {ℓ : Liks} {cs : List Clique} {T : List SepSet} (h : Held ops ℓ jt cs T) (it : SetIter Int) {jt1 : JoinTree}
    (a6 : ∀ v ∈ (Bbn.run ops).vars, Dict.get? jt1.heap v.id = some { probs := (jt.nodeObj v).probs }) :
    SerdeHeap (Bbn.run ops) (cs.map (reClique it jt)) jt1.heap := by
  have hre := h.live.calib.ctx.reorder it
  intro n hn
  have hv : n.var ∈ (Bbn.run ops).vars := List.mem_map_of_mem hn
  obtain ⟨o, ho, e⟩ := h.probs n hn
  refine ⟨_, a6 n.var hv, ?_, Or.inr ⟨rfl, ?_⟩⟩
  · show (jt.nodeObj n.var).probs = _
    unfold JoinTree.nodeObj
    rw [ho, ← e]
    rfl
  · obtain ⟨o2, _, _, c, f3, _, f5⟩ := h.live.calib.done n.var hv
    exact ⟨_, List.mem_map_of_mem f3, fun u hu => (hre.perm c f3).mem_iff.2 (f5 u hu)⟩

/-- reading back a held tree and running it -/
theorem Held.load {ℓ : Liks} {cs : List Clique} {T : List SepSet} (h : Held ops ℓ jt cs T) (hr : Reloadable jt) (it : SetIter Int)
    (js js' : SetIter Str) (json : Bool) :
    ∃ T' jt1 jt', JoinTree.fromDict js (if json then (jt.toDict it (Bbn.run ops)).json else jt.toDict it (Bbn.run ops)) = .ok jt1 ∧
      applyFromSerde js' jt1 = .ok jt' ∧ Held ops noEvidence jt' (cs.map (reClique it jt)) T' ∧
      lik jt'.evidences = noEvidence ∧ T'.Perm (T.map (reSep (reClique it jt))) := by
  have hctx := h.live.calib.ctx
  have hre := hctx.reorder it
  obtain ⟨T', jt1, a1, a2, a3, a4, a5, a6⟩ := hctx.reload h.edges hr it js (parInv_run ops).keys json
  obtain ⟨jt', b1, b2, b3, b4, b5, b6, b7, b8⟩ := serde_run (bbn_run_inv ops) h.sane.wf a2 (by simpa using h.ne)
    (by intro v _; rw [a5]) (h.load_serde it a6) js'
  refine ⟨T', jt1, jt', a1, b1, ⟨h.sane, b2, by simpa using h.ne, ?_, ?_, b8, a4.frame b5⟩, b3, a3⟩
  · intro hc c hcm d hdm
    obtain ⟨c', hc', rfl⟩ := List.mem_map.1 hcm
    obtain ⟨d', hd', rfl⟩ := List.mem_map.1 hdm
    rw [hre.fs hc', hre.fs hd']
    refine (h.conn hc c' hc' d' hd').lift' ?_
    intro s hs
    have hg := hctx.spec.shape.good s hs
    have : reSep (reClique it jt) s ∈ T' := a3.mem_iff.2 (List.mem_map_of_mem hs)
    have hcn := Conn.edge (l := sl) (r := sr) this
    have e1 : sl (reSep (reClique it jt) s) = sl s := hre.fs hg.left
    have e2 : sr (reSep (reClique it jt) s) = sr s := hre.fs hg.right
    rw [e1, e2] at hcn
    exact hcn
  · intro v hv
    rw [b7, a5]

theorem Session.held (hs : Session ops jt) : ∃ ℓ cs T, Held ops ℓ jt cs T := by
  induction hs with
  | start it js hu hj =>
    obtain ⟨cs, T, h, _⟩ := held_apply hu hj
    exact ⟨_, cs, T, h⟩
  | evidence js op hs hn ih =>
    obtain ⟨ℓ, cs, T, h⟩ := ih
    obtain ⟨jt', h1, h2, _, h4⟩ := h.live.step (Bbn.net_ok (bbn_run_inv _) h.sane.wf) h.ne h.sane.vals js op hn
    rw [h1]
    exact ⟨_, cs, T, h.frame h2 h4⟩
  | recpt js cpts hs hk wf hj ih =>
    obtain ⟨ℓ, cs, T, h⟩ := ih
    obtain ⟨jt', h1, h2, _⟩ := h.reapply js hk wf
    rw [hj] at h1
    cases h1
    exact ⟨_, cs, T, h2⟩
  | loaded it js js' json hs hr hl hj ih =>
    obtain ⟨ℓ, cs, T, h⟩ := ih
    obtain ⟨T', jt1, jt', h1, h2, h3, _⟩ := h.load hr it js js' json
    rw [hl] at h1
    cases h1
    rw [hj] at h2
    cases h2
    exact ⟨_, _, T', h3⟩

theorem Held.posterior {ℓ : Liks} {cs : List Clique} {T : List SepSet} (h : Held ops ℓ jt cs T) (hc : ConnectedOps ops)
    {v : Variable} (hv : v ∈ (Bbn.run ops).vars) : jt.getBbnPotential v = .ok (posteriorTable (Bbn.run ops) ℓ v) := by
  have hi := bbn_run_inv ops
  rw [h.live.calib.posterior_conn (Bbn.net_ok hi h.sane.wf) (h.conn hc) hv, exactAnswer_eq hi]

theorem Held.hist {cs : List Clique} {T : List SepSet} (hh : Held ops noEvidence jt cs T) (hl : lik jt.evidences = noEvidence)
    (h : List (SetIter Str × EvOp)) (hp : ∀ op ∈ h, op.2.Proper (Bbn.run ops).vars) :
    Held ops (lawHist (Bbn.run ops).vars h).prop (runHist jt h) cs T ∧
      lik (runHist jt h).evidences = specHist (Bbn.run ops).vars h := by
  have hd := doms hh.sane
  obtain ⟨a, b, c⟩ := Live.hist (Bbn.net_ok (bbn_run_inv ops) hh.sane.wf) hh.ne hh.sane.vals h
    (s := ⟨jt.evidences, noEvidence⟩) hh.live (EvEq.refl _) (fun op ho => (hp op ho).nodes hd)
  obtain ⟨b1, b2, b3⟩ := evHist_law hd h (s := ⟨jt.evidences, noEvidence⟩) hh.live.good (l := ⟨noEvidence, noEvidence⟩) hl rfl hp
  refine ⟨?_, ?_⟩
  · have := hh.frame a c
    rw [b3] at this
    exact this
  · rw [b.lik, b2]; exact lawHist_stored _ h

end

/-! ## C28 -/

/-- **C28**. In any session on a connected network — after any evidence operations, earlier `reapply` calls and saving and
loading —
`reapply(join_tree, cpts)` with usable CPTs succeeds; its result carries no evidence, answers exactly as the network with the new
CPTs, hence as `apply` on that network does, and evidence entered afterwards is answered for that network. Ids that are not in
the network make no difference. (That the tree passed in is not modified is the value semantics of the model; in the code it is
`copy.deepcopy`.) -/
theorem c28_reapply {ops : List BOp} {jt : JoinTree} (hs : Session ops jt) (hconn : ConnectedOps ops) (js : SetIter Str)
    (cpts : Dict Int (List ℚ)) (hk : (Dict.keys cpts).Nodup) (wf : (Bbn.run (withCpts cpts ops)).WF) :
    ∃ jt', reapply js jt cpts = .ok jt' ∧
      (∀ v ∈ (Bbn.run ops).vars, Dict.get? jt'.evidences v.id = some (v.values.map (fun x => (x, 1)))) ∧
      (∀ v ∈ (Bbn.run ops).vars, jt'.getBbnPotential v = .ok (posteriorTable (Bbn.run (withCpts cpts ops)) noEvidence v)) ∧
      (∀ it js2 jt2, apply it js2 (Bbn.run (withCpts cpts ops)) = .ok jt2 →
        ∀ v ∈ (Bbn.run ops).vars, jt'.getBbnPotential v = jt2.getBbnPotential v) ∧
      (∀ h, (∀ op ∈ h, op.2.Ok (Bbn.run ops).vars) → ∀ v ∈ (Bbn.run ops).vars,
        (runHist jt' h).getBbnPotential v =
          .ok (posteriorTable (Bbn.run (withCpts cpts ops)) (specHist (Bbn.run ops).vars h) v)) ∧
      reapply js jt (cpts.filter (fun kc => decide (kc.1 ∈ (Bbn.run ops).vars.map Variable.id))) = .ok jt' := by
  obtain ⟨ℓ, cs, T, h⟩ := hs.held
  obtain ⟨jt', h1, h2, h3⟩ := h.reapply js hk wf
  have hr := recpt_run cpts ops
  have hconn' := (connectedOps_withCpts cpts).2 hconn
  refine ⟨jt', h1, ?_, ?_, ?_, ?_, ?_⟩
  · intro v hv
    rw [← hr.vars] at hv
    rw [(h2.live.good.get (doms h2.sane) hv).1, h3]
    rfl
  · intro v hv
    exact h2.posterior hconn' (by rw [hr.vars]; exact hv)
  · intro it js2 jt2 hj2 v hv
    obtain ⟨cs2, T2, g, _⟩ := held_apply h2.sane hj2
    rw [h2.posterior hconn' (by rw [hr.vars]; exact hv), g.posterior hconn' (by rw [hr.vars]; exact hv)]
  · intro hist hp v hv
    rw [← hr.vars] at hp hv ⊢
    obtain ⟨g, _⟩ := h2.hist h3 hist (fun op ho => (hp op ho).proper)
    rw [g.posterior hconn' hv, (lawHist_ok (doms h2.sane) hist hp).1]
  · rw [← h1]
    unfold reapply
    congr 1
    unfold updateBbnCpts
    congr 1
    have hhas : ∀ i, Dict.has jt.bbnNodeDict i = decide (i ∈ (Bbn.run ops).vars.map Variable.id) := by
      intro i
      rw [Bool.eq_iff_iff, Dict.has_iff, decide_eq_true_eq]
      constructor
      · intro hi
        obtain ⟨v, hv⟩ := Dict.exists_get?_of_mem_keys hi
        obtain ⟨h4, rfl⟩ := (h.live.calib.ctx.get_bbnNodeDict i v).1 hv
        exact List.mem_map_of_mem h4
      · intro hi
        obtain ⟨v, hv, rfl⟩ := List.mem_map.1 hi
        exact Dict.mem_keys_of_get? ((h.live.calib.ctx.get_bbnNodeDict v.id v).2 ⟨hv, rfl⟩)
    simp only [hhas]
    rw [List.foldl_filter]
    congr 1
    funext heap kc
    by_cases hd : kc.1 ∈ (Bbn.run ops).vars.map Variable.id
    · simp only [hd, decide_true, if_true]
    · simp only [hd, decide_false, Bool.false_eq_true, if_false]

/-- new CPTs for nodes 0 and 4 of the example network, and one for an id that is not in it -/
def c28_cpts : Dict Int (List ℚ) := [(0, [2/3, 1/3]), (99, [1]), (4, [1/2, 1/2, 1/5, 4/5])]

theorem session_hist {ops : List BOp} {jt : JoinTree} (hs : Session ops jt) : ∀ (h : List (SetIter Str × EvOp)),
    (∀ op ∈ h, op.2.Nodes (Bbn.run ops).vars) → Session ops (runHist jt h) := by
  intro h
  induction h generalizing jt with
  | nil => intro _; exact hs
  | cons op h ih =>
    intro hn
    exact ih (Session.evidence op.1 op.2 hs (hn op List.mem_cons_self)) (fun o ho => hn o (List.mem_cons_of_mem _ ho))

/-- C28 is not vacuous: with evidence about four nodes of the example network, `reapply` with two new CPTs; the table of node 4
is 483/2000, 1517/2000 (it was 447/640, 193/640 before) -/
example : (∃ jt, apply .rev .same (Bbn.run c16_ops) = .ok jt ∧ Session c16_ops (runHist jt c18_hist)) ∧ ConnectedOps c16_ops ∧
    (Dict.keys c28_cpts).Nodup ∧ (Bbn.run (withCpts c28_cpts c16_ops)).WF ∧
    ((apply .rev .same (Bbn.run c16_ops)).val?.bind (fun jt => (reapply .same (runHist jt c18_hist) c28_cpts).val?.bind
      (fun j => (j.getBbnPotential (c16_node 4)).val?))).map (fun P => P.map PEntry.value) = some [483 / 2000, 1517 / 2000] ∧
    (posteriorTable (Bbn.run (withCpts c28_cpts c16_ops)) noEvidence (c16_node 4)).map PEntry.value = [483 / 2000, 1517 / 2000] ∧
    (posteriorTable (Bbn.run c16_ops) noEvidence (c16_node 4)).map PEntry.value = [447 / 640, 193 / 640] := by
  refine ⟨?_, c16_connected, by decide +kernel, wf_of_check (by decide +kernel) (by decide +kernel), by decide +kernel,
    by decide +kernel, by decide +kernel⟩
  obtain ⟨jt, hj, _⟩ := (c16_exact_priors .rev .same c16_ops c16_wf c16_connected).1 (by decide +kernel)
  exact ⟨jt, hj, session_hist (.start .rev .same c16_usable.toSane hj) _
    (fun op ho => (c18_hist_ok op ho).proper.nodes (doms c16_usable.toSane))⟩

/-- a session with evidence on the example network -/
theorem c28_session : Session c16_ops (runHist (c16_jt .rev .same) c18_hist) :=
  session_hist (.start .rev .same c16_usable.toSane (c16_jt_ok .rev .same)) _ c18_hist_nodes

example := c28_reapply c28_session c16_connected .rev c28_cpts (by decide +kernel) (wf_of_check (by decide +kernel) (by decide +kernel))

/-! ## C29 -/

/-- the node objects of a network after any number of `apply` calls on it, with evidence operations in between -/
inductive Reused (ops : List BOp) : Dict Int NodeObj → Prop
  | fresh : Reused ops []
  | again {L : Dict Int NodeObj} {jt : JoinTree} (it : SetIter Int) (js : SetIter Str) (h : List (SetIter Str × EvOp))
      (hr : Reused ops L) (hj : applyWith it js L (Bbn.run ops) = .ok jt) (hn : ∀ op ∈ h, op.2.Nodes (Bbn.run ops).vars) :
      Reused ops (runHist jt h).heap

theorem apply_ok (it : SetIter Int) (js : SetIter Str) {ops : List BOp} (hu : Net.Sane ops) (hne : (Bbn.run ops).vars ≠ []) :
    ∃ jt, apply it js (Bbn.run ops) = .ok jt := by
  obtain ⟨_, jt, e, _⟩ := applyWith_spec it js (bbn_run_inv ops) hu.wf hne (leftover_nil _ _)
  exact ⟨jt, e⟩

theorem reused_left {ops : List BOp} {L : Dict Int NodeObj} (hu : Net.Sane ops) (hne : (Bbn.run ops).vars ≠ [])
    (hr : Reused ops L) : PcLeft (Bbn.run ops) L := by
  induction hr with
  | fresh => intro n _; exact Or.inl rfl
  | again it js h hr hj hn ih =>
    obtain ⟨jt, hj'⟩ := apply_ok it js hu hne
    rw [applyWith_left hu hj' ih] at hj
    cases hj
    obtain ⟨_, _, _, _, _, _, _, hs⟩ := live_hist hu hj' h hn
    rw [hs.heap]
    exact apply_pcLeft hu hj'

/-- **C29**, partial. On one network, connected or not, `apply` can be called again and again, with any evidence operations in
between and whatever the iteration orders of sets: it always succeeds and returns exactly the join tree it returns on unused node
objects. Missing: networks that were edited between the calls; there the claim fails (`c29_false`). -/
theorem c29_same_partial {ops : List BOp} {L : Dict Int NodeObj} (hu : Net.Sane ops) (hne : (Bbn.run ops).vars ≠ [])
    (hr : Reused ops L) (it : SetIter Int) (js : SetIter Str) :
    ∃ jt, applyWith it js L (Bbn.run ops) = .ok jt ∧ apply it js (Bbn.run ops) = .ok jt := by
  obtain ⟨jt, hj⟩ := apply_ok it js hu hne
  exact ⟨jt, applyWith_left hu hj (reused_left hu hne hr), hj⟩

/-- **C29**, partial. So on a connected network it always returns the exact priors, and evidence entered into the new tree is
answered exactly. -/
theorem c29_apply_again_partial {ops : List BOp} {L : Dict Int NodeObj} (hu : Net.Usable ops)
    (hne : (Bbn.run ops).vars ≠ []) (hr : Reused ops L) (it : SetIter Int) (js : SetIter Str) :
    ∃ jt, applyWith it js L (Bbn.run ops) = .ok jt ∧
      (∀ v ∈ (Bbn.run ops).vars, jt.getBbnPotential v = .ok (posteriorTable (Bbn.run ops) noEvidence v)) ∧
      ∀ h, (∀ op ∈ h, op.2.Ok (Bbn.run ops).vars) → ∀ v ∈ (Bbn.run ops).vars,
        (runHist jt h).getBbnPotential v = .ok (posteriorTable (Bbn.run ops) (specHist (Bbn.run ops).vars h) v) := by
  obtain ⟨jt, h1, h2⟩ := c29_same_partial hu.toSane hne hr it js
  refine ⟨jt, h1, ?_, fun h hp v hv => (c18_posteriors_exact_partial hu h2 h hp v hv).2⟩
  intro v hv
  exact (c18_posteriors_exact_partial hu h2 [] (by simp) v hv).2

/-- **C29**, partial, edited networks: whatever was done with the node objects before, `apply` is exact if the parent clique that
each node object still carries (if any) is a clique of the present join tree that holds the node and its present parents. -/
theorem c29_leftover_partial {it : SetIter Int} {js : SetIter Str} {ops : List BOp} {L : Dict Int NodeObj} (hu : Net.Usable ops)
    (hne : (Bbn.run ops).vars ≠ [])
    (hl : ∀ v ∈ (Bbn.run ops).vars, ∀ k, (Dict.get? L v.id).bind NodeObj.parentClique = some k →
      ∃ c ∈ (Triangulator.triangulate it (moralize (Bbn.run ops))).1, c.id = k ∧ v ∈ c.nodes ∧
        ∀ u ∈ (Bbn.run ops).parentVars v.id, u ∈ c.nodes) :
    ∃ jt, applyWith it js L (Bbn.run ops) = .ok jt ∧
      ∀ v ∈ (Bbn.run ops).vars, jt.getBbnPotential v = .ok (posteriorTable (Bbn.run ops) noEvidence v) := by
  have h := bbn_run_inv ops
  obtain ⟨T, jt, a1, a2, _⟩ := applyWith_spec it js h hu.wf hne (leftover := L) (by
    intro v hv
    cases hk : (Dict.get? L v.id).bind NodeObj.parentClique with
    | none => exact Or.inl rfl
    | some k =>
      obtain ⟨c, hc, rfl, h1, h2⟩ := hl v hv k hk
      refine Or.inr ⟨c, hc, rfl, ?_⟩
      intro u hu
      rcases List.mem_append.1 hu with hu | hu
      · exact h2 u hu
      · simp at hu; subst hu; exact h1)
  refine ⟨jt, a1, ?_⟩
  intro v hv
  rw [a2.posterior_conn (Bbn.net_ok h hu.wf) (connected_cliques hu.conn (triangulate_spec it h).1 a2.ctx.spec) hv, exactAnswer_eq h]

/-- C29 is not vacuous: a second `apply` on the example network after a first one and evidence -/
example : Net.Usable c16_ops ∧ (∃ jt, apply .rev .same (Bbn.run c16_ops) = .ok jt ∧ Reused c16_ops (runHist jt c18_hist).heap) ∧
    ((apply .rev .same (Bbn.run c16_ops)).val?.bind (fun jt =>
      (applyWith .same .rev (runHist jt c18_hist).heap (Bbn.run c16_ops)).val?.bind
      (fun j => (j.getBbnPotential (c16_node 4)).val?))).map (fun P => P.map PEntry.value) = some [447 / 640, 193 / 640] := by
  refine ⟨c16_usable, ?_, by decide +kernel⟩
  obtain ⟨jt, hj, _⟩ := (c16_exact_priors .rev .same c16_ops c16_wf c16_connected).1 (by decide +kernel)
  exact ⟨jt, hj, .again .rev .same c18_hist .fresh hj (fun op ho => (c18_hist_ok op ho).proper.nodes (doms c16_usable.toSane))⟩

theorem c29_reused : Reused c16_ops (runHist (c16_jt .rev .same) c18_hist).heap :=
  .again .rev .same c18_hist .fresh (c16_jt_ok .rev .same) c18_hist_nodes

example := c29_same_partial c16_usable.toSane (by decide +kernel) c29_reused .same .rev
example := c29_apply_again_partial c16_usable (by decide +kernel) c29_reused .same .rev

/-- a network before an edit … -/
def c29_before : List BOp := [.addEdge (mkNode 0 "a" [1/4, 3/4, 1/2, 1/2]) (mkNode 1 "b" [1/2, 1/2, 1/4, 3/4])]

/-- … and after: node 0 has got a parent -/
def c29_after : List BOp := c29_before ++ [.addEdge (mkNode 2 "c" [1/5, 4/5]) (mkNode 0 "a" [1/4, 3/4, 1/2, 1/2])]

/-- … or after: an isolated node has got a child -/
def c29_before' : List BOp := c29_before ++ [.addNode (mkNode 2 "c" [1/5, 4/5])]

/-- … or after: node 1 has got a child -/
def c29_child : List BOp := c29_before ++ [.addEdge (mkNode 1 "b" [1/2, 1/2, 1/4, 3/4]) (mkNode 2 "c" [1/5, 4/5, 1/2, 1/2])]

/-- the node objects left behind by `apply` on the network before the edit -/
def c29_heap : Dict Int NodeObj := ((apply .same .same (Bbn.run c29_before)).val?.map JoinTree.heap).getD []

theorem c29_child_usable : Net.Usable c29_child := by
  refine ⟨⟨wf_of_check (by decide +kernel) (by decide +kernel), by decide +kernel⟩, ?_⟩
  have h01 : EqvGen (fun p c => (p, c) ∈ BOp.edges c29_child) 1 0 := .symm _ _ (.rel _ _ (by decide +kernel))
  have h12 : EqvGen (fun p c => (p, c) ∈ BOp.edges c29_child) 1 2 := .rel _ _ (by decide +kernel)
  have hv : ∀ v ∈ (Bbn.run c29_child).vars, EqvGen (fun p c => (p, c) ∈ BOp.edges c29_child) 1 v.id := by
    intro v hv
    have : v.id ∈ (Bbn.run c29_child).vars.map Variable.id := List.mem_map_of_mem hv
    rw [show (Bbn.run c29_child).vars.map Variable.id = [0, 1, 2] by decide +kernel] at this
    simp only [List.mem_cons, List.not_mem_nil, or_false] at this
    rcases this with e | e | e <;> rw [e]
    · exact h01
    · exact .refl _
    · exact h12
  exact fun u hu v hv' => .trans _ _ _ (.symm _ _ (hv u hu)) (hv v hv')

/-- C29 with leftovers is not vacuous for an edited network: nodes 0 and 1 still carry the parent clique `0-1`, which is a clique
of the network with the child and holds their parents -/
example : (c29_heap.map (fun kv => (kv.1, kv.2.parentClique))) = [(0, some "0-1".toList), (1, some "0-1".toList)] ∧
    ∃ jt, applyWith .same .rev c29_heap (Bbn.run c29_child) = .ok jt ∧
      ∀ v ∈ (Bbn.run c29_child).vars, jt.getBbnPotential v = .ok (posteriorTable (Bbn.run c29_child) noEvidence v) := by
  refine ⟨by decide +kernel, c29_leftover_partial c29_child_usable (by decide +kernel) ?_⟩
  have h : ((Bbn.run c29_child).vars.all (fun v =>
      match (Dict.get? c29_heap v.id).bind NodeObj.parentClique with
      | none => true
      | some k => (Triangulator.triangulate .same (moralize (Bbn.run c29_child))).1.any (fun c =>
            decide (c.id = k ∧ v ∈ c.nodes ∧ ∀ u ∈ (Bbn.run c29_child).parentVars v.id, u ∈ c.nodes)))) = true := by decide +kernel
  intro v hv k hk
  have h1 := List.all_eq_true.1 h v hv
  rw [hk] at h1
  obtain ⟨c, hc, h2⟩ := List.any_eq_true.1 h1
  exact ⟨c, hc, of_decide_eq_true h2⟩

/-- **C29 is false of the code**: `apply` on a network, then `add_edge`, then `apply` again on the same objects. The stale
`parent.clique` makes the second call return wrong marginals (first witness, node 1: 3/8, 5/8 instead of 29/80, 51/80) or raise
`KeyError` (second witness). -/
theorem c29_false :
    ((Bbn.run c29_after).WF ∧
      ∃ j L jt P, apply .same .same (Bbn.run c29_before) = .ok j ∧ j.heap = L ∧
        applyWith .same .same L (Bbn.run c29_after) = .ok jt ∧ jt.getBbnPotential (mkNode 1 "b" []).var = .ok P ∧
        P.map PEntry.value = [3/8, 5/8] ∧
        (posteriorTable (Bbn.run c29_after) noEvidence (mkNode 1 "b" []).var).map PEntry.value = [29/80, 51/80]) ∧
    (∃ j, apply .same .same (Bbn.run c29_before') = .ok j ∧
      (applyWith .same .same j.heap (Bbn.run (c29_before' ++ c29_after))).err? = some .keyError) := by
  refine ⟨⟨wf_of_check (by decide +kernel) (by decide +kernel), ?_⟩, ?_⟩
  · have h1 : ((apply .same .same (Bbn.run c29_before)).val?.bind (fun j =>
        (applyWith .same .same j.heap (Bbn.run c29_after)).val?.bind (fun jt =>
          (jt.getBbnPotential (mkNode 1 "b" []).var).val?))).map (fun P => P.map PEntry.value) = some [3/8, 5/8] := by decide +kernel
    have h2 : (posteriorTable (Bbn.run c29_after) noEvidence (mkNode 1 "b" []).var).map PEntry.value = [29/80, 51/80] := by
      decide +kernel
    cases hj : apply .same .same (Bbn.run c29_before) with
    | error e => rw [hj] at h1; cases h1
    | ok j =>
      rw [hj] at h1
      simp only [Py.val?, Option.bind_some] at h1
      cases hjt : applyWith .same .same j.heap (Bbn.run c29_after) with
      | error e => rw [hjt] at h1; cases h1
      | ok jt =>
        rw [hjt] at h1
        simp only [Option.bind_some] at h1
        cases hP : jt.getBbnPotential (mkNode 1 "b" []).var with
        | error e => rw [hP] at h1; cases h1
        | ok P =>
          rw [hP] at h1
          simp only [Option.map_some, Option.some.injEq] at h1
          exact ⟨j, _, jt, P, rfl, rfl, hjt, hP, h1, h2⟩
  · have h1 : ((apply .same .same (Bbn.run c29_before')).val?.bind (fun j =>
        (applyWith .same .same j.heap (Bbn.run (c29_before' ++ c29_after))).err?)) = some .keyError := by decide +kernel
    cases hj : apply .same .same (Bbn.run c29_before') with
    | error e => rw [hj] at h1; cases h1
    | ok j =>
      rw [hj] at h1
      exact ⟨j, rfl, h1⟩

end PyBBN
