import Verif.Proofs.Apply
import Verif.Proofs.HistoryRun
import Verif.Spec.Session

/-! Replaced CPTs, `update_bbn_cpts`, `apply_from_serde`. -/

namespace PyBBN
open InferenceController

/-! ### the network with replaced CPTs -/

theorem Dict.setDefault_mapVal {K V W : Type} [DecidableEq K] (d : Dict K V) (f : V → W) (k : K) (v : V) :
    Dict.setDefault (d.map (fun kv => (kv.1, f kv.2))) k (f v) = (Dict.setDefault d k v).map (fun kv => (kv.1, f kv.2)) := by
  have hk : Dict.keys (d.map (fun kv => (kv.1, f kv.2))) = Dict.keys d := by
    unfold Dict.keys; rw [List.map_map]; rfl
  by_cases h : k ∈ Dict.keys d
  · rw [Dict.setDefault_of_mem h, Dict.setDefault_of_mem (by rw [hk]; exact h)]
  · rw [Dict.setDefault_of_not_mem h, Dict.setDefault_of_not_mem (by rw [hk]; exact h), List.map_append]
    rfl

/-- `b'` is `b` with other CPTs -/
structure Recpt (cpts : Dict Int (List ℚ)) (b b' : Bbn) : Prop where
  nodes : b'.nodes = b.nodes.map (fun kv => (kv.1, kv.2.withCpt cpts))
  parents : b'.parents = b.parents

theorem Recpt.step {cpts : Dict Int (List ℚ)} {b b' : Bbn} (h : Recpt cpts b b') (op : BOp) :
    Recpt cpts (op.step b) ((op.withCpts cpts).step b') := by
  cases op with
  | addNode n =>
    refine ⟨?_, h.parents⟩
    show Dict.setDefault b'.nodes (n.withCpt cpts).var.id (n.withCpt cpts) = _
    rw [h.nodes]
    exact Dict.setDefault_mapVal b.nodes (BbnNode.withCpt cpts) n.var.id n
  | addEdge i j =>
    constructor
    · show Dict.setDefault (Dict.setDefault b'.nodes (i.withCpt cpts).var.id (i.withCpt cpts)) (j.withCpt cpts).var.id
        (j.withCpt cpts) = _
      rw [h.nodes]
      rw [show (i.withCpt cpts).var.id = i.var.id from rfl, show (j.withCpt cpts).var.id = j.var.id from rfl,
        Dict.setDefault_mapVal b.nodes (BbnNode.withCpt cpts) i.var.id i,
        Dict.setDefault_mapVal _ (BbnNode.withCpt cpts) j.var.id j]
      rfl
    · show Bbn.edgeAdded b'.parents _ = Bbn.edgeAdded b.parents _
      rw [h.parents]
      rfl

theorem Recpt.foldl {cpts : Dict Int (List ℚ)} : ∀ (ops : List BOp) {b b' : Bbn}, Recpt cpts b b' →
    Recpt cpts (ops.foldl BOp.step b) ((withCpts cpts ops).foldl BOp.step b')
  | [], _, _, h => h
  | op :: ops, _, _, h => Recpt.foldl ops (h.step op)

theorem recpt_run (cpts : Dict Int (List ℚ)) (ops : List BOp) : Recpt cpts (Bbn.run ops) (Bbn.run (withCpts cpts ops)) :=
  Recpt.foldl ops ⟨rfl, rfl⟩

section
variable {cpts : Dict Int (List ℚ)} {b b' : Bbn}

theorem Recpt.getNodes (h : Recpt cpts b b') : b'.toGraph.getNodes = b.toGraph.getNodes.map (BbnNode.withCpt cpts) := by
  unfold Graph.getNodes Dict.values
  rw [h.nodes, List.map_map, List.map_map]
  rfl

theorem Recpt.vars (h : Recpt cpts b b') : b'.vars = b.vars := by
  unfold Bbn.vars
  rw [h.getNodes, List.map_map]
  rfl

theorem Recpt.parentVars (h : Recpt cpts b b') (i : Int) : b'.parentVars i = b.parentVars i := by
  unfold Bbn.parentVars
  rw [h.parents, h.nodes]
  congr 1
  funext p
  rw [Dict.get?_mapVal, Option.map_map]
  rfl

theorem Recpt.family (h : Recpt cpts b b') : b'.family = b.family := by
  funext v
  unfold Bbn.family
  rw [h.parentVars]

end

theorem edges_withCpts (cpts : Dict Int (List ℚ)) (ops : List BOp) : BOp.edges (withCpts cpts ops) = BOp.edges ops := by
  unfold BOp.edges withCpts
  rw [List.filterMap_map]
  congr 1
  funext o
  cases o <;> rfl

/-! ### `update_bbn_cpts` -/

theorem updateBbnCpts_get {jt : JoinTree} (cpts : Dict Int (List ℚ)) (hk : (Dict.keys cpts).Nodup) {i : Int} {o : NodeObj}
    (hi : Dict.has jt.bbnNodeDict i = true) (ho : Dict.get? jt.heap i = some o) :
    ∃ o', Dict.get? (updateBbnCpts jt cpts).heap i = some o' ∧ o'.probs = (Dict.get? cpts i).getD o.probs ∧
      o'.parentClique = o.parentClique := by
  have key : ∀ (l : Dict Int (List ℚ)) (heap : Dict Int NodeObj) (o : NodeObj), (Dict.keys l).Nodup → Dict.get? heap i = some o →
      ∃ o', Dict.get? (l.foldl (fun heap kc =>
        if Dict.has jt.bbnNodeDict kc.1 then
          match Dict.get? heap kc.1 with
          | some o => Dict.set heap kc.1 { o with probs := kc.2, potential := none }
          | none => heap
        else heap) heap) i = some o' ∧ o'.probs = (Dict.get? l i).getD o.probs ∧ o'.parentClique = o.parentClique := by
    intro l
    induction l with
    | nil => intro heap o _ ho; exact ⟨o, ho, rfl, rfl⟩
    | cons kc l ih =>
      intro heap o hn ho
      have hn' : kc.1 ∉ Dict.keys l ∧ (Dict.keys l).Nodup := by
        simpa [Dict.keys] using hn
      rw [List.foldl_cons]
      by_cases e : kc.1 = i
      · subst e
        rw [if_pos hi, ho]
        obtain ⟨o', h1, h2, h3⟩ := ih (Dict.set heap kc.1 { o with probs := kc.2, potential := none }) _ hn'.2
          (Dict.get?_set_self _ _ _)
        refine ⟨o', h1, ?_, h3⟩
        rw [h2, (Dict.get?_eq_none_iff l kc.1).2 hn'.1]
        simp [Dict.get?]
      · have hg : Dict.get? (kc :: l) i = Dict.get? l i := by
          simp [Dict.get?, e]
        rw [hg]
        apply ih _ o hn'.2
        split
        · split
          · rw [Dict.get?_set_ne _ _ e]; exact ho
          · exact ho
        · exact ho
  exact key cpts jt.heap o hk ho

/-! ### `apply_from_serde` -/

theorem foldlM_updG {α : Type} (key : α → Int) (F : α → NodeObj → NodeObj) (step : Dict Int NodeObj → α → Py (Dict Int NodeObj))
    (P : α → NodeObj → Prop) :
    ∀ (l : List α), (l.map key).Nodup →
      (∀ n ∈ l, ∀ heap o, Dict.get? heap (key n) = some o → P n o →
        step heap n = .ok (Dict.set heap (key n) (F n o))) →
      ∀ heap : Dict Int NodeObj, (∀ n ∈ l, ∃ o, Dict.get? heap (key n) = some o ∧ P n o) →
      ∃ heap', l.foldlM step heap = .ok heap' ∧ Dict.keys heap' = Dict.keys heap ∧
        (∀ n ∈ l, Dict.get? heap' (key n) = (Dict.get? heap (key n)).map (F n)) ∧
        (∀ k, k ∉ l.map key → Dict.get? heap' k = Dict.get? heap k)
  | [], _, _, heap, _ => ⟨heap, rfl, rfl, by simp, by simp⟩
  | n :: l, hnd, hstep, heap, hk => by
      rw [List.map_cons, List.nodup_cons] at hnd
      obtain ⟨o, ho, hP⟩ := hk n List.mem_cons_self
      have hkeys : Dict.keys (Dict.set heap (key n) (F n o)) = Dict.keys heap := by
        rw [Dict.keys_set, if_pos (Dict.mem_keys_of_get? ho)]
      obtain ⟨heap', h1, h2, h3, h4⟩ := foldlM_updG key F step P l hnd.2
        (fun m hm => hstep m (List.mem_cons_of_mem _ hm)) (Dict.set heap (key n) (F n o))
        (fun m hm => by
          have hne : key n ≠ key m := fun e => hnd.1 (e ▸ List.mem_map_of_mem hm)
          rw [Dict.get?_set_ne _ _ hne]
          exact hk m (List.mem_cons_of_mem _ hm))
      refine ⟨heap', ?_, by rw [h2, hkeys], ?_, ?_⟩
      · rw [List.foldlM_cons, hstep n List.mem_cons_self heap o ho hP]
        exact h1
      · intro m hm
        rcases List.mem_cons.1 hm with rfl | hm
        · rw [h4 _ hnd.1, Dict.get?_set_self, ho]; rfl
        · have hne : key n ≠ key m := fun e => hnd.1 (e ▸ List.mem_map_of_mem hm)
          rw [h3 m hm, Dict.get?_set_ne _ _ hne]
      · intro k hk'
        simp only [List.map_cons, List.mem_cons, not_or] at hk'
        rw [h4 k hk'.2, Dict.get?_set_ne _ _ (fun e => hk'.1 e.symm)]

section
variable {b : Bbn} {cs : List Clique} {T : List SepSet} {jt : JoinTree}

theorem ddGet_parentInfoOf (h : BbnInv b) {v : Variable} (hv : v ∈ b.vars) :
    ddGet (parentInfoOf b) v.id = ddGet b.parents v.id := by
  have hnd : (b.toGraph.getNodes.map (fun n => n.var.id)).Nodup := node_ids_nodup h
  have key : ∀ l : List BbnNode, (∃ n ∈ l, n.var.id = v.id) →
      ddGet (l.filterMap (fun n => (Dict.get? b.parents n.var.id).map (fun ps => (n.var.id, ps)))) v.id = ddGet b.parents v.id := by
    intro l
    induction l with
    | nil => rintro ⟨n, hn, _⟩; cases hn
    | cons m l ih =>
      intro hex
      rw [List.filterMap_cons]
      by_cases e : m.var.id = v.id
      · cases hp : Dict.get? b.parents m.var.id with
        | some ps =>
          rw [e] at hp
          simp [ddGet, Dict.get?, e, hp]
        | none =>
          simp only [Option.map_none]
          have hno : Dict.get? b.parents v.id = none := by rw [← e]; exact hp
          have : Dict.get? (l.filterMap (fun n => (Dict.get? b.parents n.var.id).map (fun ps => (n.var.id, ps)))) v.id = none := by
            rw [Dict.get?_eq_none_iff]
            intro hmem
            obtain ⟨kv, hkv, e2⟩ := List.mem_map.1 hmem
            obtain ⟨n, hn, h3⟩ := List.mem_filterMap.1 hkv
            cases hps : Dict.get? b.parents n.var.id with
            | none => rw [hps] at h3; cases h3
            | some ps =>
              rw [hps] at h3
              cases h3
              rw [show n.var.id = v.id from e2, hno] at hps
              cases hps
          unfold ddGet
          rw [this, hno]
      · have hex' : ∃ n ∈ l, n.var.id = v.id := by
          obtain ⟨n, hn, h2⟩ := hex
          rcases List.mem_cons.1 hn with rfl | hn
          · exact absurd h2 e
          · exact ⟨n, hn, h2⟩
        cases hp : Dict.get? b.parents m.var.id with
        | none => exact ih hex'
        | some ps =>
          simp only [Option.map_some]
          rw [← ih hex']
          simp [ddGet, Dict.get?, e]
  unfold parentInfoOf
  apply key
  obtain ⟨n, hn, rfl⟩ := List.mem_map.1 hv
  exact ⟨n, hn, rfl⟩

/-- the parents found through `parent_info` are those of the network -/
theorem nodeAndParents_ok (h : BbnInv b) (hc : Ctx b.vars cs T jt)
    (hpi : ∀ v ∈ b.vars, ddGet jt.parentInfo v.id = ddGet b.parents v.id) :
    bbnNodeAndParents jt = .ok (jt.getBbnNodes.map (fun v => (v, b.parentVars v.id))) := by
  unfold bbnNodeAndParents
  apply mapM_ok
  intro v hv
  have hv' := hc.bbnNodes_perm.mem_iff.1 hv
  rw [hpi v hv']
  have key : ∀ l : List Int, (∀ p ∈ l, ∃ n, Dict.get? b.nodes p = some n ∧ n.var.id = p) →
      l.mapM (fun pa => Dict.getItem jt.bbnNodeDict pa) = .ok (l.filterMap (fun p => (Dict.get? b.nodes p).map BbnNode.var)) := by
    intro l
    induction l with
    | nil => intro _; rfl
    | cons p l ih =>
      intro hl
      obtain ⟨n, hn, he⟩ := hl p List.mem_cons_self
      have hg : Dict.get? jt.bbnNodeDict p = some n.var := by
        rw [hc.get_bbnNodeDict]
        exact ⟨List.mem_map_of_mem ((getNodes_eq h n).2 (by rw [he]; exact hn)), he⟩
      rw [List.mapM_cons, Dict.getItem_of_get? hg, ih (fun q hq => hl q (List.mem_cons_of_mem _ hq)), List.filterMap_cons, hn]
      rfl
  simp only [bind, Except.bind]
  rw [key _ (fun p hp => parent_node h hp)]
  rfl

/-- what the node objects must carry for `apply_from_serde` -/
def SerdeHeap (b : Bbn) (cs : List Clique) (heap : Dict Int NodeObj) : Prop :=
  ∀ n ∈ b.toGraph.getNodes, ∃ o, Dict.get? heap n.var.id = some o ∧ o.probs = n.probs ∧
    ((∃ c ∈ cs, o.parentClique = some c.id ∧ ∀ u ∈ b.family n.var, u ∈ c.nodes) ∨
     (o.parentClique = none ∧ ∃ c ∈ cs, ∀ u ∈ b.family n.var, u ∈ c.nodes))

theorem reinit_ok (h : BbnInv b) (wf : b.WF) (hc : Ctx b.vars cs T jt)
    (hpi : ∀ v ∈ b.vars, ddGet jt.parentInfo v.id = ddGet b.parents v.id) (hh : SerdeHeap b cs jt.heap) :
    ∃ heap, potentialReinit jt = .ok { jt with heap := heap } ∧ HeapOk b.vars cs b.net heap ∧
      ∀ n ∈ b.toGraph.getNodes, ∃ o, Dict.get? heap n.var.id = some o ∧ o.probs = n.probs ∧
        o.parents = some (vids (b.parentVars n.var.id)) ∧
        o.parentClique = (Dict.get? jt.heap n.var.id).bind NodeObj.parentClique := by
  have hperm := hc.bbnNodes_perm
  have hmem : ∀ np ∈ jt.getBbnNodes.map (fun v => (v, b.parentVars v.id)), ∃ n ∈ b.toGraph.getNodes,
      np = (n.var, b.parentVars n.var.id) := by
    intro np hnp
    obtain ⟨v, hv, rfl⟩ := List.mem_map.1 hnp
    obtain ⟨n, hn, rfl⟩ := List.mem_map.1 (hperm.mem_iff.1 hv)
    exact ⟨n, hn, rfl⟩
  obtain ⟨heap, h1, _, h3, _⟩ := foldlM_updG (fun np : Variable × List Variable => np.1.id)
    (fun np o => { o with potential := some (tab (np.2 ++ [np.1]) (cptAt o.probs np.2 np.1)), parents := some (np.2.map Variable.id) })
    (fun heap np => do
      let o ← Dict.getItem heap np.1.id
      let pot ← PotentialUtil.getPotential np.1 o.probs np.2
      .ok (Dict.set heap np.1.id { o with potential := some pot, parents := some (np.2.map Variable.id) }))
    (fun np o => ∃ n ∈ b.toGraph.getNodes, np = (n.var, b.parentVars n.var.id) ∧ o.probs = n.probs)
    (jt.getBbnNodes.map (fun v => (v, b.parentVars v.id)))
    (by
      rw [List.map_map]
      exact (hperm.map Variable.id).nodup_iff.2 (vars_nodup h))
    (by
      intro np _ heap o ho hP
      obtain ⟨n, hn, rfl, e⟩ := hP
      simp only [bind, Except.bind, Dict.getItem_of_get? ho]
      rw [e, local_ok h wf hn]
      rfl)
    jt.heap
    (by
      intro np hnp
      obtain ⟨n, hn, rfl⟩ := hmem np hnp
      obtain ⟨o, ho, e, _⟩ := hh n hn
      exact ⟨o, ho, n, hn, rfl, e⟩)
  have hget : ∀ n ∈ b.toGraph.getNodes, ∃ o, Dict.get? jt.heap n.var.id = some o ∧ o.probs = n.probs ∧
      ((∃ c ∈ cs, o.parentClique = some c.id ∧ ∀ u ∈ b.family n.var, u ∈ c.nodes) ∨
        (o.parentClique = none ∧ ∃ c ∈ cs, ∀ u ∈ b.family n.var, u ∈ c.nodes)) ∧
      Dict.get? heap n.var.id = some { o with potential := some (b.localTab n), parents := some (vids (b.parentVars n.var.id)) } := by
    intro n hn
    obtain ⟨o, ho, e, hpc⟩ := hh n hn
    refine ⟨o, ho, e, hpc, ?_⟩
    have := h3 (n.var, b.parentVars n.var.id) (List.mem_map.2 ⟨n.var, hperm.mem_iff.2 (List.mem_map_of_mem hn), rfl⟩)
    rw [this, ho]
    simp only [Option.map_some]
    rw [e]
    rfl
  refine ⟨heap, ?_, ?_, ?_⟩
  · unfold potentialReinit
    rw [nodeAndParents_ok h hc hpi]
    simp only [bind, Except.bind]
    have h1' := h1
    simp only [bind, Except.bind] at h1'
    rw [h1']
  · intro v hv
    obtain ⟨n, hn, rfl⟩ := List.mem_map.1 hv
    obtain ⟨o, _, e, hpc, hg⟩ := hget n hn
    refine ⟨_, hg, ?_, ?_⟩
    · show some (b.localTab n) = some (tab (b.family n.var) (b.net.loc n.var))
      rw [Bbn.net_loc h hn]; rfl
    · rcases hpc with hpc | ⟨hnone, c, hc', hf⟩
      · exact Or.inl hpc
      · refine Or.inr ⟨hnone, ?_, c, hc', ?_⟩
        · intro d hd hi u hu
          have hid : u.id ∈ d.nodeIds := by
            apply hi
            rcases List.mem_append.1 hu with hu | hu
            · exact List.mem_append_left _ (List.mem_map_of_mem hu)
            · simp at hu; subst hu; simp
          obtain ⟨w, hw, ew⟩ := List.mem_map.1 hid
          have := List.inj_on_of_nodup_map (vars_nodup h) (hc.sub d hd w hw) (family_sub h hv u hu) ew
          exact this ▸ hw
        · intro i hi
          have hfam : i ∈ vids (b.family n.var) := by
            unfold Bbn.family
            rw [vids, List.map_append]
            exact hi
          obtain ⟨u, hu, rfl⟩ := List.mem_map.1 hfam
          exact List.mem_map_of_mem (hf u hu)
  · intro n hn
    obtain ⟨o, ho, e, _, hg⟩ := hget n hn
    exact ⟨_, hg, e, rfl, by rw [ho]; rfl⟩

/-- `apply_from_serde` on a join tree that fits network `b` -/
theorem serde_run (h : BbnInv b) (wf : b.WF) (hc : Ctx b.vars cs T jt) (hne : cs ≠ [])
    (hpi : ∀ v ∈ b.vars, ddGet jt.parentInfo v.id = ddGet b.parents v.id) (hh : SerdeHeap b cs jt.heap) (js : SetIter Str) :
    ∃ jt', applyFromSerde js jt = .ok jt' ∧ Live b.vars cs T b.net noEvidence jt' ∧ lik jt'.evidences = noEvidence ∧
      jt'.nodes = jt.nodes ∧ jt'.edges = jt.edges ∧ jt'.neighbors = jt.neighbors ∧ jt'.parentInfo = jt.parentInfo ∧
      (∀ n ∈ b.toGraph.getNodes, ∃ o, Dict.get? jt'.heap n.var.id = some o ∧ o.probs = n.probs) := by
  set jt0 : JoinTree := { jt with listener := false, evidences := [] } with hjt0
  have hc0 : Ctx b.vars cs T jt0 := hc.frame rfl rfl
  obtain ⟨heap, a1, a2, a3⟩ := reinit_ok (jt := jt0) h wf hc0 hpi hh
  set jt1 : JoinTree := { jt0 with heap := heap } with hjt1
  have hc1 : Ctx b.vars cs T jt1 := hc.frame rfl rfl
  have hpre : EvPre b.vars jt1.evidences := by
    intro v _ m hm
    simp [jt1, jt0, Dict.get?] at hm
  have hlik : lik jt1.evidences = noEvidence := rfl
  obtain ⟨p, heap', ev, c1, c2, _, c4, _, c7, c6⟩ := hc1.run (Bbn.net_ok h wf) a2 hpre (by
    intro i x; rw [hlik]; exact zero_le_one) hne js
  rw [hlik] at c4 c6
  refine ⟨{ { jt1 with potentials := p, heap := heap', evidences := ev } with listener := true }, ?_,
    ⟨c6.listen true, ?_, ?_, rfl⟩, c4, rfl, rfl, rfl, rfl, ?_⟩
  · obtain ⟨j1, d1, d2⟩ := bind_ok c1
    unfold applyFromSerde
    simp only [bind, Except.bind]
    rw [a1]
    simp only [d1, d2]
  · intro i hi
    rw [c7 i hi]; rfl
  · intro v hv m hm x q hq
    have : lik ev v.id x = q := by
      unfold lik
      rw [show Dict.get? ev v.id = some m from hm]
      simp [hq]
    rw [c4] at this
    have hq1 : q = 1 := this.symm
    subst hq1
    norm_num
  · intro n hn
    obtain ⟨o, ho, e, _⟩ := a3 n hn
    obtain ⟨q, hq, _⟩ := c2.2 _ _ ho
    exact ⟨_, hq, e⟩

end

end PyBBN
