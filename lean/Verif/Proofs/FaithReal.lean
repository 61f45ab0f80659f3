import Verif.Spec.Faithful
import Verif.Proofs.FaithPath
import Verif.Props.DSep
import Verif.Proofs.SampleGrid
import Verif.Proofs.Reapply

/-! Networks of the same shape, and the network that realises given conditional distributions. -/

namespace PyBBN
open Relation InferenceController DSep

/-! ## Networks of the same shape -/

section
variable {K V W : Type} [DecidableEq K]

theorem Dict.set_mapVal (f : V → W) : ∀ (d : Dict K V) (k : K) (v : V),
    Dict.set (d.map (fun kv => (kv.1, f kv.2))) k (f v) = (Dict.set d k v).map (fun kv => (kv.1, f kv.2))
  | [], k, v => rfl
  | (a, c) :: d, k, v => by
      rw [List.map_cons]
      by_cases h : a = k
      · simp [Dict.set, h]
      · simp [Dict.set, h, Dict.set_mapVal f d k v]

end

/-- the network with node objects replaced -/
def Bbn.refit (F : BbnNode → BbnNode) (b : Bbn) : Bbn :=
  { nodes := b.nodes.map (fun kv => (kv.1, F kv.2))
    edges := b.edges.map (fun kv => (kv.1, ⟨F kv.2.i, F kv.2.j, kv.2.type⟩))
    edgeMap := b.edgeMap
    neighbors := b.neighbors
    parents := b.parents }

theorem step_refit {F : BbnNode → BbnNode} (hF : ∀ n, (F n).var.id = n.var.id) (b : Bbn) (o : BOp) :
    BOp.step (b.refit F) (o.refit F) = (BOp.step b o).refit F := by
  have hn : ∀ n, nid (F n) = nid n := hF
  cases o with
  | addNode n =>
    simp only [BOp.refit, BOp.step, Bbn.addNode, Graph.addNode, Bbn.refit, hn]
    rw [Dict.setDefault_mapVal]
  | addEdge i j =>
    simp only [BOp.refit, BOp.step, Bbn.addEdge, Bbn.shouldAdd, if_true, Graph.addNode, Graph.insertEdge, Bbn.refit, hn, Bbn.edgeAdded, Edge.key]
    rw [Dict.setDefault_mapVal, Dict.setDefault_mapVal]
    congr 2
    exact Dict.set_mapVal (fun e : Edge BbnNode => (⟨F e.i, F e.j, e.type⟩ : Edge BbnNode)) b.edges _ ⟨i, j, .directed⟩

theorem run_refit {F : BbnNode → BbnNode} (hF : ∀ n, (F n).var.id = n.var.id) (ops : List BOp) :
    Bbn.run (ops.map (BOp.refit F)) = (Bbn.run ops).refit F := by
  unfold Bbn.run
  have key : ∀ (l : List BOp) (b : Bbn), (l.map (BOp.refit F)).foldl BOp.step (b.refit F) = (l.foldl BOp.step b).refit F := by
    intro l
    induction l with
    | nil => intro b; rfl
    | cons o l ih => intro b; rw [List.map_cons, List.foldl_cons, List.foldl_cons, step_refit hF, ih]
  exact key ops Bbn.empty

section
variable {F : BbnNode → BbnNode} {b : Bbn}

theorem refit_getNodes : (b.refit F).toGraph.getNodes = b.toGraph.getNodes.map F := by
  simp [Bbn.refit, Graph.getNodes, Dict.values, List.map_map, Function.comp_def]

theorem refit_par : (b.refit F).Par = b.Par := rfl

theorem refit_nx (hF : ∀ n, (F n).var.id = n.var.id) : (b.refit F).toNxGraph.1 = b.toNxGraph.1 := by
  simp only [Bbn.toNxGraph, Bbn.refit, Dict.values, List.map_map, Function.comp_def, List.foldl_map, hF]

end

theorem edges_refit {F : BbnNode → BbnNode} (hF : ∀ n, (F n).var.id = n.var.id) (ops : List BOp) :
    BOp.edges (ops.map (BOp.refit F)) = BOp.edges ops := by
  induction ops with
  | nil => rfl
  | cons o ops ih =>
    unfold BOp.edges at ih ⊢
    rw [List.map_cons]
    cases o with
    | addNode n => simpa [BOp.refit] using ih
    | addEdge i j => simpa [BOp.refit, hF] using ih

namespace SameStructure
variable {ops ops' : List BOp}

theorem nx (h : SameStructure ops ops') : (Bbn.run ops').toNxGraph.1 = (Bbn.run ops).toNxGraph.1 := by
  obtain ⟨F, hF, rfl⟩ := h
  rw [run_refit (fun n => (hF n).1), refit_nx (fun n => (hF n).1)]

theorem acyclic (h : SameStructure ops ops') (hac : AcyclicOps ops) : AcyclicOps ops' := by
  obtain ⟨F, hF, rfl⟩ := h
  unfold AcyclicOps
  rw [edges_refit (fun n => (hF n).1)]
  exact hac

theorem names (h : SameStructure ops ops') : (Bbn.run ops').vars.map Variable.name = (Bbn.run ops).vars.map Variable.name := by
  obtain ⟨F, hF, rfl⟩ := h
  rw [run_refit (fun n => (hF n).1)]
  unfold Bbn.vars
  rw [refit_getNodes]
  simp only [List.map_map]
  exact List.map_congr_left fun n _ => (hF n).2

theorem ids (h : SameStructure ops ops') : (Bbn.run ops').vars.map Variable.id = (Bbn.run ops).vars.map Variable.id := by
  obtain ⟨F, hF, rfl⟩ := h
  rw [run_refit (fun n => (hF n).1)]
  unfold Bbn.vars
  rw [refit_getNodes]
  simp only [List.map_map]
  exact List.map_congr_left fun n _ => (hF n).1

theorem connected (h : SameStructure ops ops') (hc : ConnectedOps ops) : ConnectedOps ops' := by
  have hid := h.ids
  obtain ⟨F, hF, rfl⟩ := h
  unfold ConnectedOps at hc ⊢
  rw [edges_refit (fun n => (hF n).1)]
  intro u hu v hv
  have hu' : u.id ∈ (Bbn.run ops).vars.map Variable.id := by rw [← hid]; exact List.mem_map_of_mem hu
  have hv' : v.id ∈ (Bbn.run ops).vars.map Variable.id := by rw [← hid]; exact List.mem_map_of_mem hv
  obtain ⟨u0, h1, h2⟩ := List.mem_map.1 hu'
  obtain ⟨v0, h3, h4⟩ := List.mem_map.1 hv'
  rw [← h2, ← h4]
  exact hc u0 h1 v0 h3

theorem name_eq (h : SameStructure ops ops') {x v : Variable} (hx : x ∈ (Bbn.run ops).vars) (hv : v ∈ (Bbn.run ops').vars) (e : v.id = x.id) :
    v.name = x.name := by
  obtain ⟨F, hF, rfl⟩ := h
  rw [run_refit (fun n => (hF n).1)] at hv
  unfold Bbn.vars at hv hx
  rw [refit_getNodes, List.map_map] at hv
  obtain ⟨n, hn, rfl⟩ := List.mem_map.1 hv
  obtain ⟨m, hm, rfl⟩ := List.mem_map.1 hx
  have := node_of_id (bbn_run_inv ops) hn hm ((hF n).1.symm.trans e)
  subst this
  exact (hF n).2

end SameStructure

/-! ## The network with given conditional distributions -/

namespace Faith
variable {α : Type} [Fintype α] [DecidableEq α]

/-- the name of a value -/
noncomputable def enc (a : α) : Str := List.replicate ((Fintype.equivFin α) a) 'a'

omit [DecidableEq α] in
theorem enc_inj : Function.Injective (enc : α → Str) := by
  intro a b h
  have := congrArg List.length h
  simp only [enc, List.length_replicate] at this
  exact (Fintype.equivFin α).injective (Fin.ext this)

/-- the value of a name -/
noncomputable def dec [Nonempty α] : Str → α := Function.invFun enc

omit [DecidableEq α] in
theorem dec_enc [Nonempty α] (a : α) : dec (enc a) = a := Function.leftInverse_invFun enc_inj a

/-- the names of the values -/
noncomputable def vals (α : Type) [Fintype α] : List Str := (Finset.univ : Finset α).toList.map enc

omit [DecidableEq α] in
theorem vals_nodup : (vals α).Nodup := List.Nodup.map enc_inj (Finset.nodup_toList _)

omit [DecidableEq α] in
theorem mem_vals {u : Str} : u ∈ vals α ↔ ∃ a : α, enc a = u := by simp [vals]

omit [DecidableEq α] in
theorem enc_dec [Nonempty α] {u : Str} (h : u ∈ vals α) : enc (dec u : α) = u := by
  obtain ⟨a, rfl⟩ := mem_vals.1 h
  rw [dec_enc]

omit [DecidableEq α] in
theorem sum_vals [Nonempty α] (g : α → ℚ) : ((vals α).map (fun u => g (dec u))).sum = ∑ a, g a := by
  rw [vals, List.map_map, ← Finset.sum_map_toList]
  congr 1
  exact List.map_congr_left fun a _ => by simp [dec_enc]

omit [DecidableEq α] in
theorem dec_update [Nonempty α] (σ : Asg) (i : Int) (u : Str) :
    (fun j => (dec (Function.update σ i u j) : α)) = Function.update (fun j => dec (σ j)) i (dec u) := by
  funext j
  by_cases h : j = i
  · subst h; simp
  · simp [h]

/-- sums over joint values as sums node by node -/
theorem sum_asg [Nonempty α] {Par : Int → Int → Prop} {f : Int → (Int → α) → ℚ} (hc : Cpts Par f) (Z : Int → Bool) (ζ : Int → α) :
    ∀ (vs : List Variable), (vids vs).Nodup → (∀ v ∈ vs, v.values = vals α) → vs.Pairwise (fun n m => ¬ Par n.id m.id) →
    ∀ G : (Int → α) → ℚ, ((allAsg vs).map (fun σ => (vs.map (fun v => ev Z ζ v.id (dec (σ v.id)) * f v.id (fun j => dec (σ j)))).prod *
      G (fun j => dec (σ j)))).sum = E Z f ζ (vids vs) G (fun _ => dec [])
  | [], _, _, _, G => by simp [allAsg, E, vids]
  | v :: vs, hn, hv, hp, G => by
      rw [vids_cons, List.nodup_cons] at hn
      rw [List.pairwise_cons] at hp
      rw [sum_allAsg_cons, vids_cons, E, ← sum_asg hc Z ζ vs hn.2 (fun w hw => hv w (List.mem_cons_of_mem _ hw)) hp.2]
      congr 1
      apply List.map_congr_left
      intro σ _
      rw [hv v List.mem_cons_self]
      let g : α → ℚ := fun a : α => (vs.map (fun w => ev Z ζ w.id (dec (σ w.id)) * f w.id (fun j => dec (σ j)))).prod *
            (ev Z ζ v.id a * f v.id (Function.update (fun j => dec (σ j)) v.id a) * G (Function.update (fun j => dec (σ j)) v.id a))
      have key : ∀ u, ((v :: vs).map (fun w => ev Z ζ w.id (dec (Function.update σ v.id u w.id)) * f w.id (fun j => dec (Function.update σ v.id u j)))).prod *
          G (fun j => dec (Function.update σ v.id u j)) =
          g (dec u) := by
        intro u
        rw [dec_update, List.map_cons, List.prod_cons, Function.update_self]
        have : vs.map (fun w => ev Z ζ w.id (dec (Function.update σ v.id u w.id)) * f w.id (Function.update (fun j => dec (σ j)) v.id (dec u))) =
            vs.map (fun w => ev Z ζ w.id (dec (σ w.id)) * f w.id (fun j => dec (σ j))) := by
          apply List.map_congr_left
          intro w hw
          have hne : w.id ≠ v.id := fun e => hn.1 (e ▸ List.mem_map_of_mem hw)
          rw [Function.update_of_ne hne]
          congr 1
          refine hc.loc _ _ _ (by rw [Function.update_of_ne hne]) ?_
          intro p hp'
          have : p ≠ v.id := by rintro rfl; exact hp.1 w hw hp'
          rw [Function.update_of_ne this]
        rw [this]
        simp only [g]
        ring
      refine (congrArg List.sum (List.map_congr_left (fun u _ => key u))).trans ((sum_vals g).trans ?_)
      rw [Finset.mul_sum]

/-- the CPT that holds given conditional probabilities -/
noncomputable def cpt [Nonempty α] (f : Int → (Int → α) → ℚ) (ps : List Variable) (v : Variable) : List ℚ :=
  (product ((ps ++ [v]).map Variable.values)).map (fun us => f v.id (fun j => dec (over asg0 (vids (ps ++ [v])) us j)))

theorem cptAt_cpt [Nonempty α] {Par : Int → Int → Prop} {f : Int → (Int → α) → ℚ} (hc : Cpts Par f) {ps : List Variable} {v : Variable}
    (hn : (vids (ps ++ [v])).Nodup) (hp : ∀ i, Par i v.id → i ∈ vids ps) {σ : Asg} (hσ : InDom (ps ++ [v]) σ) :
    cptAt (cpt f ps v) ps v σ = f v.id (fun j => dec (σ j)) := by
  unfold cptAt cpt
  rw [cptIndex_eq, List.getD_eq_getElem?_getD, List.getElem?_map, product_rowIdx σ _ hσ]
  simp only [Option.map_some, Option.getD_some]
  have h1 : ∀ i ∈ vids (ps ++ [v]), over asg0 (vids (ps ++ [v])) ((vids (ps ++ [v])).map σ) i = σ i := over_map_self asg0 σ _ hn
  refine hc.loc _ _ _ ?_ ?_
  · rw [h1 v.id (by simp [vids])]
  · intro p hpp
    have := hp p hpp
    rw [h1 p (by unfold vids at this ⊢; rw [List.map_append]; exact List.mem_append_left _ this)]

section
variable [Nontrivial α] {ops : List BOp} {f : Int → (Int → α) → ℚ}

/-- the parents of a node, with the new values -/
noncomputable def pars (α : Type) [Fintype α] (b : Bbn) (i : Int) : List Variable :=
  (ddGet b.parents i).filterMap (fun p => (Dict.get? b.nodes p).map (fun n => ⟨n.var.id, n.var.name, vals α⟩))

/-- the node with new values and a new CPT -/
noncomputable def fit (f : Int → (Int → α) → ℚ) (b : Bbn) (n : BbnNode) : BbnNode :=
  ⟨⟨n.var.id, n.var.name, vals α⟩, cpt f (pars α b n.var.id) ⟨n.var.id, n.var.name, vals α⟩⟩

omit [DecidableEq α] in
theorem pars_eq (b : Bbn) (i : Int) : (b.refit (fit f b)).parentVars i = pars α b i := by
  unfold Bbn.parentVars pars
  refine List.filterMap_congr fun p _ => ?_
  change (Dict.get? (b.nodes.map (fun kv => (kv.1, fit f b kv.2))) p).map BbnNode.var = _
  rw [Dict.get?_mapVal, Option.map_map]
  rfl

omit [DecidableEq α] in
theorem pars_values (b : Bbn) (i : Int) : ∀ v ∈ pars α b i, v.values = vals α := by
  intro v hv
  obtain ⟨p, _, h⟩ := List.mem_filterMap.1 hv
  cases hg : Dict.get? b.nodes p with
  | none => rw [hg] at h; simp at h
  | some n => rw [hg] at h; simp at h; rw [← h]

theorem fit_cpt (hac : AcyclicOps ops) (hc : Cpts (Bbn.run ops).Par f) {n : BbnNode} (hn : n ∈ (Bbn.run ops).toGraph.getNodes) {σ : Asg}
    (hσ : InDom ((Bbn.run ops).refit (fit f (Bbn.run ops))).vars σ) :
    cptAt (fit f (Bbn.run ops) n).probs (((Bbn.run ops).refit (fit f (Bbn.run ops))).parentVars n.var.id) (fit f (Bbn.run ops) n).var σ =
      f n.var.id (fun j => dec (σ j)) := by
  have hinv : BbnInv ((Bbn.run ops).refit (fit f (Bbn.run ops))) := by
    rw [← run_refit (F := fit f (Bbn.run ops)) (fun _ => rfl)]; exact bbn_run_inv _
  have hvp := vids_parentVars hinv n.var.id
  have hpn := hinv.parNodup n.var.id
  have hloop : n.var.id ∉ ddGet (Bbn.run ops).parents n.var.id := by
    intro h
    exact hac n.var.id (TransGen.single ((par_iff ops _ _).1 h))
  have hsub := parentVars_sub hinv n.var.id
  rw [pars_eq] at hvp hsub ⊢
  refine cptAt_cpt hc ?_ ?_ ?_
  · unfold vids at hvp ⊢
    rw [List.map_append, hvp]
    refine List.Nodup.append hpn (by simp) ?_
    intro i h1 h2
    simp at h2
    subst h2
    exact hloop h1
  · intro i hi
    rw [hvp]
    exact hi
  · intro v hv
    rcases List.mem_append.1 hv with h | h
    · exact hσ v (hsub v h)
    · rw [List.mem_singleton] at h
      subst h
      refine hσ _ ?_
      unfold Bbn.vars
      rw [refit_getNodes]
      exact List.mem_map_of_mem (List.mem_map_of_mem hn)

/-- a network of the same structure with the given conditional distributions -/
theorem realise (hac : AcyclicOps ops) (hc : Cpts (Bbn.run ops).Par f) {L : List BbnNode} (hL : L.Perm (Bbn.run ops).toGraph.getNodes)
    (hpw : L.Pairwise (fun n m => ¬ (Bbn.run ops).Par n.var.id m.var.id)) :
    ∃ ops', SameStructure ops ops' ∧ Net.Sane ops' ∧ (Bbn.run ops').Normalized (Bbn.run ops').parentVars ∧
      (∀ v ∈ (Bbn.run ops').vars, v.values = vals α) ∧
      ∀ (Z : Int → Bool) (ζ : Int → α) (ℓ : Liks), (∀ v ∈ (Bbn.run ops').vars, ∀ u ∈ vals α, ℓ v.id u = ev Z ζ v.id (dec u)) →
        ∀ G : (Int → α) → ℚ, ((allAsg (Bbn.run ops').vars).map (fun σ => (Bbn.run ops').weight ℓ σ * G (fun j => dec (σ j)))).sum =
          E Z f ζ (L.map (fun n => n.var.id)) G (fun _ => dec []) := by
  have hF : ∀ n, (fit f (Bbn.run ops) n).var.id = n.var.id := fun _ => rfl
  have hrun := run_refit hF ops
  have hinv : BbnInv ((Bbn.run ops).refit (fit f (Bbn.run ops))) := by
    rw [← hrun]; exact bbn_run_inv _
  refine ⟨ops.map (BOp.refit (fit f (Bbn.run ops))), ⟨fit f (Bbn.run ops), fun n => ⟨rfl, rfl⟩, rfl⟩, ?_⟩
  rw [show Net.Sane (ops.map (BOp.refit (fit f (Bbn.run ops)))) ↔ ((Bbn.run ops).refit (fit f (Bbn.run ops))).WF ∧
      ∀ v ∈ ((Bbn.run ops).refit (fit f (Bbn.run ops))).vars, v.values ≠ [] from
      ⟨fun h => hrun ▸ ⟨h.wf, h.vals⟩, fun h => ⟨hrun ▸ h.1, hrun ▸ h.2⟩⟩]
  rw [hrun]
  set b' := (Bbn.run ops).refit (fit f (Bbn.run ops)) with hb'
  have hnodes : b'.toGraph.getNodes = (Bbn.run ops).toGraph.getNodes.map (fit f (Bbn.run ops)) := refit_getNodes
  have hvals : ∀ v ∈ b'.vars, v.values = vals α := by
    intro v hv
    unfold Bbn.vars at hv
    rw [hnodes, List.map_map] at hv
    obtain ⟨n, _, rfl⟩ := List.mem_map.1 hv
    rfl
  have hne : vals α ≠ [] := by
    obtain ⟨a⟩ : Nonempty α := inferInstance
    intro h
    have : enc a ∈ vals α := mem_vals.2 ⟨a, rfl⟩
    rw [h] at this
    simp at this
  have wf : b'.WF := by
    refine ⟨?_, ?_, ?_, ?_⟩
    · intro i hi
      exact hac i (TransGen.single ((par_iff ops _ _).1 hi))
    · intro n hn
      rw [hvals n.var (List.mem_map_of_mem hn)]
      exact vals_nodup
    · intro n hn
      rw [hnodes] at hn
      obtain ⟨m, hm, rfl⟩ := List.mem_map.1 hn
      change _ ≤ (cpt f (pars α (Bbn.run ops) m.var.id) _).length
      unfold cpt
      rw [List.length_map, product_vars_length]
      change ((b'.parentVars m.var.id ++ _).map _).prod ≤ _
      rw [hb', pars_eq]
      exact le_refl _
    · intro n hn p hp
      rw [hnodes] at hn
      obtain ⟨m, hm, rfl⟩ := List.mem_map.1 hn
      obtain ⟨us, _, rfl⟩ := List.mem_map.1 hp
      exact hc.nonneg _ _
  refine ⟨⟨wf, fun v hv => by rw [hvals v hv]; exact hne⟩, ?_, hvals, ?_⟩
  · intro n hn σ hσ
    rw [← sum_row hinv wf hn σ, hvals n.var (List.mem_map_of_mem hn)]
    have hn' := hn
    rw [hnodes] at hn'
    obtain ⟨m, hm, rfl⟩ := List.mem_map.1 hn'
    have e : (vals α).map (fun u => b'.w (fit f (Bbn.run ops) m) (Function.update σ m.var.id u)) =
        (vals α).map (fun u => (fun a : α => f m.var.id (Function.update (fun j => dec (σ j)) m.var.id a)) (dec u)) := by
      apply List.map_congr_left
      intro u hu
      have hu' : u ∈ (fit f (Bbn.run ops) m).var.values := hu
      have hd : InDom b'.vars (Function.update σ m.var.id u) := inDom_update hinv hσ hn hu'
      change cptAt _ (b'.parentVars m.var.id) _ _ = _
      rw [fit_cpt hac hc hm hd, dec_update]
    rw [show (fit f (Bbn.run ops) m).var.id = m.var.id from rfl, e]
    rw [sum_vals (fun a : α => f m.var.id (Function.update (fun j => dec (σ j)) m.var.id a)), hc.one]
  · intro Z ζ ℓ hℓ G
    have hperm : (L.map (fun n => (fit f (Bbn.run ops) n).var)).Perm b'.vars := by
      unfold Bbn.vars
      rw [hnodes, List.map_map]
      exact hL.map _
    have hids : vids (L.map (fun n => (fit f (Bbn.run ops) n).var)) = L.map (fun n => n.var.id) := by
      unfold vids; rw [List.map_map]; rfl
    have hnd : (vids (L.map (fun n => (fit f (Bbn.run ops) n).var))).Nodup := (hperm.map Variable.id).nodup_iff.2 (vars_nodup hinv)
    rw [← hids, ← sum_asg hc Z ζ (L.map (fun n => (fit f (Bbn.run ops) n).var)) hnd (fun v hv => hvals v (hperm.mem_iff.1 hv))
      (by rw [List.pairwise_map]; exact hpw) G, sum_allAsg_perm hnd hperm]
    congr 1
    apply List.map_congr_left
    intro σ hσ
    have hd : InDom b'.vars σ := allAsg_mem_dom b'.vars (vars_nodup hinv) σ hσ
    congr 1
    unfold Bbn.weight
    rw [hnodes, List.map_map, List.map_map]
    rw [(hL.map _).prod_eq]
    congr 1
    apply List.map_congr_left
    intro n hn
    have hv : (fit f (Bbn.run ops) n).var ∈ b'.vars := by
      unfold Bbn.vars
      rw [hnodes]
      exact List.mem_map_of_mem (List.mem_map_of_mem hn)
    change cptAt (fit f (Bbn.run ops) n).probs (b'.parentVars n.var.id) (fit f (Bbn.run ops) n).var σ * ℓ n.var.id (σ n.var.id) = ev Z ζ n.var.id (dec (σ n.var.id)) * f n.var.id _
    have h1 : ℓ n.var.id (σ n.var.id) = ev Z ζ n.var.id (dec (σ n.var.id)) :=
      hℓ _ hv (σ n.var.id) (by have := hd _ hv; rwa [hvals _ hv] at this)
    rw [fit_cpt hac hc hn hd, h1, mul_comm]

end

end Faith

end PyBBN
