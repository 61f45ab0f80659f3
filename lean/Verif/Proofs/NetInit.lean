import Verif.Model.Pptc
import Verif.Proofs.GraphInv
import Verif.Proofs.Table

/-! The network's variables and the local tables created from the CPTs. -/

namespace PyBBN

set_option linter.unusedSectionVars false

section Net
variable {b : Bbn}

theorem getNodes_eq (h : BbnInv b) (n : BbnNode) :
    n ∈ b.toGraph.getNodes ↔ Dict.get? b.nodes n.var.id = some n := by
  unfold Graph.getNodes
  rw [Dict.mem_values_iff h.ginv.nodup]
  constructor
  · rintro ⟨k, hk⟩
    have := h.ginv.key k n hk
    change n.var.id = k at this
    rw [this]; exact hk
  · intro hk; exact ⟨_, hk⟩

theorem vids_vars (h : BbnInv b) : vids b.vars = Dict.keys b.nodes := by
  unfold Bbn.vars Graph.getNodes Dict.values Dict.keys vids
  rw [List.map_map, List.map_map]
  apply List.map_congr_left
  rintro ⟨k, n⟩ hkn
  exact h.ginv.key k n (Dict.get?_of_mem h.ginv.nodup hkn)

theorem vars_nodup (h : BbnInv b) : (vids b.vars).Nodup := by
  rw [vids_vars h]; exact h.ginv.nodup

theorem mem_vars (h : BbnInv b) (v : Variable) :
    v ∈ b.vars ↔ ∃ n, Dict.get? b.nodes v.id = some n ∧ n.var = v := by
  unfold Bbn.vars
  rw [List.mem_map]
  constructor
  · rintro ⟨n, hn, rfl⟩
    exact ⟨n, (getNodes_eq h n).1 hn, rfl⟩
  · rintro ⟨n, hn, rfl⟩
    exact ⟨n, (getNodes_eq h n).2 hn, rfl⟩

/-- a parent id is a node -/
theorem parent_node (h : BbnInv b) {p c : Int} (hp : p ∈ ddGet b.parents c) :
    ∃ n, Dict.get? b.nodes p = some n ∧ n.var.id = p := by
  have hr := (h.par p c).1 hp
  have hk := (h.ginv.emNodes p c hr).1
  obtain ⟨n, hn⟩ := Dict.exists_get?_of_mem_keys hk
  exact ⟨n, hn, h.ginv.key p n hn⟩

theorem vids_parentVars (h : BbnInv b) (c : Int) : vids (b.parentVars c) = ddGet b.parents c := by
  unfold Bbn.parentVars vids
  have : ∀ l : List Int, (∀ p ∈ l, ∃ n, Dict.get? b.nodes p = some n ∧ n.var.id = p) →
      (l.filterMap (fun p => (Dict.get? b.nodes p).map BbnNode.var)).map Variable.id = l := by
    intro l
    induction l with
    | nil => simp
    | cons p l ih =>
      intro hl
      obtain ⟨n, hn, he⟩ := hl p List.mem_cons_self
      rw [List.filterMap_cons, hn]
      simp only [Option.map_some, List.map_cons, he]
      rw [ih (fun q hq => hl q (List.mem_cons_of_mem _ hq))]
  exact this _ (fun p hp => parent_node h hp)

theorem parentVars_sub (h : BbnInv b) (c : Int) : ∀ v ∈ b.parentVars c, v ∈ b.vars := by
  intro v hv
  unfold Bbn.parentVars at hv
  obtain ⟨p, hp, hpv⟩ := List.mem_filterMap.1 hv
  cases hn : Dict.get? b.nodes p with
  | none => rw [hn] at hpv; simp at hpv
  | some n =>
    rw [hn] at hpv
    simp only [Option.map_some, Option.some.injEq] at hpv
    unfold Bbn.vars
    refine List.mem_map.2 ⟨n, ?_, hpv⟩
    rw [getNodes_eq h]
    have := h.ginv.key p n hn
    change n.var.id = p at this
    rw [this]; exact hn

theorem parents_mapM (h : BbnInv b) (c : Int) :
    ∃ ps, (ddGet b.parents c).mapM (fun pa => Dict.getItem b.nodes pa) = .ok ps ∧
      ps.map BbnNode.var = b.parentVars c := by
  unfold Bbn.parentVars
  have : ∀ l : List Int, (∀ p ∈ l, ∃ n, Dict.get? b.nodes p = some n ∧ n.var.id = p) →
      ∃ ps, l.mapM (fun pa => Dict.getItem b.nodes pa) = .ok ps ∧
        ps.map BbnNode.var = l.filterMap (fun p => (Dict.get? b.nodes p).map BbnNode.var) := by
    intro l
    induction l with
    | nil => intro _; exact ⟨[], rfl, rfl⟩
    | cons p l ih =>
      intro hl
      obtain ⟨n, hn, he⟩ := hl p List.mem_cons_self
      obtain ⟨ps, h1, h2⟩ := ih (fun q hq => hl q (List.mem_cons_of_mem _ hq))
      refine ⟨n :: ps, ?_, ?_⟩
      · rw [List.mapM_cons, Dict.getItem_of_get? hn, h1]; rfl
      · rw [List.filterMap_cons, hn]
        simp [h2]
  exact this _ (fun p hp => parent_node h hp)

/-- the variables of a family: parents in insertion order, then the node -/
def Bbn.family (b : Bbn) (v : Variable) : List Variable := b.parentVars v.id ++ [v]

theorem family_sub (h : BbnInv b) {v : Variable} (hv : v ∈ b.vars) : ∀ u ∈ b.family v, u ∈ b.vars := by
  intro u hu
  rcases List.mem_append.1 hu with hu | hu
  · exact parentVars_sub h _ u hu
  · simp at hu; subst hu; exact hv

theorem family_nodup (h : BbnInv b) (wf : b.WF) (v : Variable) : (vids (b.family v)).Nodup := by
  unfold Bbn.family
  rw [show vids (b.parentVars v.id ++ [v]) = vids (b.parentVars v.id) ++ [v.id] by simp, vids_parentVars h]
  refine List.Nodup.append (h.parNodup _) (by simp) ?_
  intro a ha hb
  simp at hb
  subst hb
  exact wf.noLoop _ ha

theorem values_nodup (wf : b.WF) {v : Variable} (hv : v ∈ b.vars) : v.values.Nodup := by
  obtain ⟨n, hn, rfl⟩ := List.mem_map.1 hv
  exact wf.values n hn

/-- the local table of a node of the network -/
def Bbn.localTab (b : Bbn) (n : BbnNode) : Potential :=
  tab (b.family n.var) (cptAt n.probs (b.parentVars n.var.id) n.var)

theorem local_ok (h : BbnInv b) (wf : b.WF) {n : BbnNode} (hn : n ∈ b.toGraph.getNodes) :
    PotentialUtil.getPotential n.var n.probs (b.parentVars n.var.id) = .ok (b.localTab n) := by
  have hv : n.var ∈ b.vars := List.mem_map_of_mem hn
  exact getPotential_ok (family_nodup h wf n.var) (fun u hu => values_nodup wf (family_sub h hv u hu)) (wf.cpt n hn)

end Net

/-! ### updating the attributes of the node objects one after the other -/

theorem foldlM_upd (F : BbnNode → NodeObj → NodeObj) (step : Dict Int NodeObj → BbnNode → Py (Dict Int NodeObj)) :
    ∀ (l : List BbnNode), (l.map (fun n => n.var.id)).Nodup →
      (∀ n ∈ l, ∀ heap o, Dict.get? heap n.var.id = some o →
        step heap n = .ok (Dict.set heap n.var.id (F n o))) →
      ∀ heap : Dict Int NodeObj, (∀ n ∈ l, n.var.id ∈ Dict.keys heap) →
      ∃ heap', l.foldlM step heap = .ok heap' ∧ Dict.keys heap' = Dict.keys heap ∧
        (∀ n ∈ l, Dict.get? heap' n.var.id = (Dict.get? heap n.var.id).map (F n)) ∧
        (∀ k, k ∉ l.map (fun n => n.var.id) → Dict.get? heap' k = Dict.get? heap k)
  | [], _, _, heap, _ => ⟨heap, rfl, rfl, by simp, by simp⟩
  | n :: l, hnd, hstep, heap, hk => by
      rw [List.map_cons, List.nodup_cons] at hnd
      obtain ⟨o, ho⟩ := Dict.exists_get?_of_mem_keys (hk n List.mem_cons_self)
      have hkeys : Dict.keys (Dict.set heap n.var.id (F n o)) = Dict.keys heap := by
        rw [Dict.keys_set, if_pos (Dict.mem_keys_of_get? ho)]
      obtain ⟨heap', h1, h2, h3, h4⟩ := foldlM_upd F step l hnd.2
        (fun m hm => hstep m (List.mem_cons_of_mem _ hm)) (Dict.set heap n.var.id (F n o))
        (fun m hm => by rw [hkeys]; exact hk m (List.mem_cons_of_mem _ hm))
      refine ⟨heap', ?_, by rw [h2, hkeys], ?_, ?_⟩
      · rw [List.foldlM_cons, hstep n List.mem_cons_self heap o ho]
        exact h1
      · intro m hm
        rcases List.mem_cons.1 hm with rfl | hm
        · rw [h4 _ hnd.1, Dict.get?_set_self, ho]; rfl
        · have hne : n.var.id ≠ m.var.id := fun e => hnd.1 (e ▸ List.mem_map_of_mem hm)
          rw [h3 m hm, Dict.get?_set_ne _ _ hne]
      · intro k hk'
        simp only [List.map_cons, List.mem_cons, not_or] at hk'
        rw [h4 k hk'.2, Dict.get?_set_ne _ _ (fun e => hk'.1 e.symm)]

section Net
variable {b : Bbn}

theorem node_ids_nodup (h : BbnInv b) : (b.toGraph.getNodes.map (fun n => n.var.id)).Nodup := by
  have := vars_nodup h
  unfold Bbn.vars vids at this
  rw [List.map_map] at this
  exact this

/-- all local tables are created -/
theorem potentialInit_spec (h : BbnInv b) (wf : b.WF) (heap : Dict Int NodeObj)
    (hk : ∀ n ∈ b.toGraph.getNodes, n.var.id ∈ Dict.keys heap) :
    ∃ heap', potentialInit b heap = .ok heap' ∧ Dict.keys heap' = Dict.keys heap ∧
      ∀ n ∈ b.toGraph.getNodes, Dict.get? heap' n.var.id =
        (Dict.get? heap n.var.id).map (fun o => { o with potential := some (b.localTab n) }) := by
  obtain ⟨heap', h1, h2, h3, _⟩ := foldlM_upd (fun n o => { o with potential := some (b.localTab n) })
    (fun heap n => do
      let parents ← (ddGet b.parents n.var.id).mapM (fun pa => Dict.getItem b.nodes pa)
      let pot ← PotentialUtil.getPotential n.var n.probs (parents.map BbnNode.var)
      let o ← Dict.getItem heap n.var.id
      .ok (Dict.set heap n.var.id { o with potential := some pot }))
    b.toGraph.getNodes (node_ids_nodup h) (by
      intro n hn heap o ho
      obtain ⟨ps, hp1, hp2⟩ := parents_mapM h n.var.id
      simp only [hp1, bind, Except.bind, hp2, local_ok h wf hn, Dict.getItem_of_get? ho])
    heap hk
  exact ⟨heap', h1, h2, h3⟩

/-- no edge refers to a node object outside the network -/
theorem strays_nil (h : BbnInv b) : InferenceController.strays b = [] := by
  rw [InferenceController.strays, List.filter_eq_nil_iff]
  intro n hn
  obtain ⟨e, he, hn⟩ := List.mem_flatMap.1 hn
  have hm := h.ginv.emNodes _ _ (h.einv.em e he)
  simp only [List.mem_cons, List.not_mem_nil, or_false] at hn
  rcases hn with rfl | rfl
  · simpa using (show e.i.var.id ∈ _ from hm.1)
  · simpa using (show e.j.var.id ∈ _ from hm.2)

theorem initialHeap_eq (h : BbnInv b) (leftover : Dict Int NodeObj) :
    InferenceController.initialHeap b leftover = b.toGraph.getNodes.map (InferenceController.startObj leftover) := by
  rw [InferenceController.initialHeap, strays_nil h]
  simp [Dict.ofList]

theorem initialHeap_keys (h : BbnInv b) (leftover : Dict Int NodeObj) :
    Dict.keys (InferenceController.initialHeap b leftover) = b.toGraph.getNodes.map (fun n => n.var.id) := by
  rw [initialHeap_eq h, Dict.keys, List.map_map]
  rfl

theorem initialHeap_get (h : BbnInv b) (leftover : Dict Int NodeObj) {n : BbnNode} (hn : n ∈ b.toGraph.getNodes) :
    Dict.get? (InferenceController.initialHeap b leftover) n.var.id =
      some { probs := n.probs
             potential := (Dict.get? leftover n.var.id).bind NodeObj.potential
             parents := (Dict.get? leftover n.var.id).bind NodeObj.parents
             parentClique := (Dict.get? leftover n.var.id).bind NodeObj.parentClique } := by
  apply Dict.get?_of_mem
  · rw [initialHeap_keys h]; exact node_ids_nodup h
  · rw [initialHeap_eq h]; exact List.mem_map.2 ⟨n, hn, rfl⟩

end Net

end PyBBN
