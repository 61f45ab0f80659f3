import Verif.Proofs.Orders
import Verif.Proofs.Reapply

/-! The clique a node's table is multiplied into is always the one with the smallest id among those that hold the node and its parents,
also in trees that were re-run with new CPTs or read back from a dictionary. -/

namespace PyBBN
open Propagator InferenceController

/-- `k` is the smallest id of a clique that holds all of `fam` -/
def FamMin (cs : List Clique) (fam : List Int) (k : Str) : Prop :=
  (∃ c ∈ cs, c.id = k ∧ ∀ i ∈ fam, i ∈ c.nodeIds) ∧ ∀ d ∈ cs, (∀ i ∈ fam, i ∈ d.nodeIds) → strLe k d.id = true

theorem FamMin.unique {cs ds : List Clique} {fam : List Int} {k l : Str} (h : FamMin cs fam k) (h' : FamMin ds fam l)
    (hf : List.Forall₂ Clique.Same cs ds) : k = l := by
  obtain ⟨⟨c, hc, rfl, h1⟩, h2⟩ := h
  obtain ⟨⟨d, hd, rfl, h3⟩, h4⟩ := h'
  obtain ⟨c', hc', e⟩ := mem_same hf hc
  obtain ⟨d', hd', e'⟩ := mem_same (forall₂_same_symm hf) hd
  have a := h2 d' hd' (fun i hi => e'.ids.mem_iff.1 (h3 i hi))
  have b := h4 c' hc' (fun i hi => e.ids.mem_iff.1 (h1 i hi))
  rw [← e'.id_eq] at a
  rw [← e.id_eq] at b
  exact strLe_antisymm _ _ a b

theorem FamMin.same {cs ds : List Clique} {fam : List Int} {k : Str} (h : FamMin cs fam k) (hf : List.Forall₂ Clique.Same cs ds) :
    FamMin ds fam k := by
  obtain ⟨⟨c, hc, rfl, h1⟩, h2⟩ := h
  obtain ⟨c', hc', e⟩ := mem_same hf hc
  refine ⟨⟨c', hc', e.id_eq.symm, fun i hi => e.ids.mem_iff.1 (h1 i hi)⟩, ?_⟩
  intro d hd hi
  obtain ⟨d', hd', e'⟩ := mem_same (forall₂_same_symm hf) hd
  rw [e'.id_eq]
  exact h2 d' hd' (fun i hi' => e'.ids.mem_iff.1 (hi i hi'))

theorem head_sortBy {cs : List Clique} {c : Clique}
    (h : (sortBy (fun a b => strLe (Clique.id a) (Clique.id b)) cs).head? = some c) :
    c ∈ cs ∧ ∀ d ∈ cs, strLe c.id d.id = true := by
  have hs := sortBy_sorted (fun a b => strLe (Clique.id a) (Clique.id b)) (fun a b => strLe_total _ _)
    (fun a b c => strLe_trans _ _ _) cs
  have hm := mem_sortBy (fun a b => strLe (Clique.id a) (Clique.id b)) cs
  generalize sortBy _ cs = l at h hs hm
  cases l with
  | nil => cases h
  | cons x l =>
    cases h
    refine ⟨(hm _).1 List.mem_cons_self, fun d hd => ?_⟩
    rcases List.mem_cons.1 ((hm d).2 hd) with rfl | hd
    · exact strLe_refl _
    · exact (List.pairwise_cons.1 hs).1 d hd

theorem famMin_of_minClique {cs : List Clique} {ids fam : List Int} {k : Str} (hi : ∀ x, x ∈ ids ↔ x ∈ fam) (h : minClique cs ids = some k) :
    FamMin cs fam k := by
  unfold minClique at h
  rw [Option.map_eq_some_iff] at h
  obtain ⟨c, hc, rfl⟩ := h
  obtain ⟨h1, h2⟩ := head_sortBy hc
  have hall : ∀ d : Clique, (ids.all (fun i => decide (i ∈ d.nodeIds))) = true ↔ ∀ i ∈ fam, i ∈ d.nodeIds := by
    intro d
    rw [List.all_eq_true]
    simp only [decide_eq_true_eq, hi]
  rw [List.mem_filter, hall] at h1
  refine ⟨⟨c, h1.1, rfl, h1.2⟩, fun d hd hf => h2 d (List.mem_filter.2 ⟨hd, (hall d).2 hf⟩)⟩

/-- stored parent cliques are the smallest ones, and where there is none yet the stored parents are right -/
def PcFam (cs : List Clique) (vars : List Variable) (fam : Int → List Int) (heap : Dict Int NodeObj) : Prop :=
  ∀ v ∈ vars, ∀ o, Dict.get? heap v.id = some o →
    (o.parentClique = none → ∀ x, x ∈ o.parents.getD [] ++ [v.id] ↔ x ∈ fam v.id) ∧
    ∀ k, o.parentClique = some k → FamMin cs (fam v.id) k

section
variable {vars : List Variable} {fam : Int → List Int} {jt jt' : JoinTree} {cs : List Clique}

theorem PcFam.getClique {v : Variable} {k : Str} (h : PcFam jt.getCliques vars fam jt.heap) (hv : v ∈ vars)
    (hn : (vids vars).Nodup) (hg : Initializer.getClique jt v = .ok (k, jt')) :
    jt'.nodes = jt.nodes ∧ PcFam jt.getCliques vars fam jt'.heap := by
  unfold Initializer.getClique at hg
  obtain ⟨o, h1, hg⟩ := bind_ok hg
  have ho : Dict.get? jt.heap v.id = some o := by
    unfold Dict.getItem at h1
    split at h1
    · cases h1; assumption
    · cases h1
  cases hp : o.parentClique with
  | some c =>
    rw [hp] at hg
    cases hg
    exact ⟨rfl, h⟩
  | none =>
    rw [hp] at hg
    simp only at hg
    obtain ⟨cs, h2, hg⟩ := bind_ok hg
    unfold JoinTree.findCliquesWithNodeAndParents at h2
    obtain ⟨ids, h3, h2⟩ := bind_ok h2
    cases h2
    have hids : ∀ x, x ∈ ids ++ [v.id] ↔ x ∈ fam v.id := by
      have := (h v hv o ho).1 hp
      unfold JoinTree.getParentIds at h3
      rw [ho] at h3
      split at h3
      · cases h3
      · cases h3; exact this
    split at hg
    · cases hg
    · rename_i c hc
      cases hg
      refine ⟨rfl, ?_⟩
      intro u hu o' hi
      by_cases e : v.id = u.id
      · rw [← e] at hi ⊢
        rw [Dict.get?_set_self] at hi
        cases hi
        refine ⟨by simp, ?_⟩
        intro k' hk
        cases hk
        refine famMin_of_minClique hids ?_
        unfold minClique
        rw [hc]
        rfl
      · rw [Dict.get?_set_ne _ _ e] at hi
        exact h u hu o' hi

theorem PcFam.assignNode {v : Variable} (h : PcFam jt.getCliques vars fam jt.heap) (hv : v ∈ vars)
    (hn : (vids vars).Nodup) (hg : Initializer.assignNode jt v = .ok jt') :
    jt'.nodes = jt.nodes ∧ PcFam jt.getCliques vars fam jt'.heap := by
  unfold Initializer.assignNode at hg
  obtain ⟨⟨k, j⟩, h1, hg⟩ := bind_ok hg
  obtain ⟨p, _, hg⟩ := bind_ok hg
  obtain ⟨o, _, hg⟩ := bind_ok hg
  have := h.getClique hv hn h1
  split at hg
  · cases hg
  · cases hg
    exact this

theorem PcFam.initializeJt (h : PcFam jt.getCliques vars fam jt.heap) (hb : ∀ v ∈ jt.getBbnNodes, v ∈ vars)
    (hn : (vids vars).Nodup) (hg : Initializer.initializeJt jt = .ok jt') : PcFam jt.getCliques vars fam jt'.heap := by
  unfold Initializer.initializeJt at hg
  obtain ⟨j, h1, h2⟩ := bind_ok hg
  have e1 := foldlM_inv (fun j : JoinTree => j.nodes = jt.nodes ∧ PcFam jt.getCliques vars fam j.heap) h1 ⟨rfl, h⟩ (fun v hv a b ha hb' => by
    have hc : a.getCliques = jt.getCliques := by unfold JoinTree.getCliques; rw [ha.1]
    have := PcFam.assignNode (by rw [hc]; exact ha.2) (hb v hv) hn hb'
    rw [hc] at this
    exact ⟨this.1.trans ha.1, this.2⟩)
  have e2 : jt'.heap = j.heap := foldlM_inv (fun a : JoinTree => a.heap = j.heap) h2 rfl (fun v _ a b ha hb =>
    foldlM_inv (fun a : JoinTree => a.heap = j.heap) hb ha (fun x _ a b ha hb => (applyEvidence_heap hb).trans ha))
  rw [e2]
  exact e1.2

theorem famMin_mem {cs ds : List Clique} (h : ∀ c, c ∈ cs ↔ c ∈ ds) {fam : List Int} {k : Str} : FamMin cs fam k ↔ FamMin ds fam k := by
  unfold FamMin
  simp only [h]

end

section
variable {b : Bbn} {cs : List Clique} {T : List SepSet} {jt jt' : JoinTree}

/-- re-running a tree keeps and completes the choice of parent cliques -/
theorem serde_famMin (h : BbnInv b) (wf : b.WF) (hc : Ctx b.vars cs T jt) (hne : cs ≠ [])
    (hpi : ∀ v ∈ b.vars, ddGet jt.parentInfo v.id = ddGet b.parents v.id) (hh : SerdeHeap b cs jt.heap) {js : SetIter Str}
    (hf : ∀ v ∈ b.vars, ∀ o, Dict.get? jt.heap v.id = some o → ∀ k, o.parentClique = some k → FamMin cs (vids (b.family v)) k)
    (hj : applyFromSerde js jt = .ok jt') : ∀ v ∈ b.vars, FamMin cs (vids (b.family v)) (pcOf jt'.heap v) := by
  obtain ⟨jt2, d1, d2, _⟩ := serde_run h wf hc hne hpi hh js
  rw [hj] at d1
  cases d1
  unfold applyFromSerde at hj
  obtain ⟨j1, h1, hj⟩ := bind_ok hj
  obtain ⟨j2, h2, hj⟩ := bind_ok hj
  obtain ⟨j3, h3, hj⟩ := bind_ok hj
  cases hj
  have hc0 : Ctx b.vars cs T { jt with listener := false, evidences := [] } := hc.frame rfl rfl
  obtain ⟨heap, a1, _, a3⟩ := reinit_ok (jt := { jt with listener := false, evidences := [] }) h wf hc0 hpi hh
  rw [a1] at h1
  cases h1
  have hcl : ∀ c, c ∈ JoinTree.getCliques { jt with listener := false, evidences := [], heap := heap } ↔ c ∈ cs :=
    fun c => hc.spec.shape.mem_getCliques c
  have h0 : PcFam (JoinTree.getCliques { jt with listener := false, evidences := [], heap := heap }) b.vars
      (fun i => vids (b.parentVars i) ++ [i]) heap := by
    intro v hv o ho
    obtain ⟨n, hn, rfl⟩ := List.mem_map.1 hv
    obtain ⟨o', b1, b2, b3, b4⟩ := a3 n hn
    rw [ho] at b1
    cases b1
    constructor
    · intro _ x
      rw [b3]
      rfl
    · intro k hk
      rw [famMin_mem hcl]
      cases hg : Dict.get? jt.heap n.var.id with
      | none =>
        rw [show Dict.get? ({ jt with listener := false, evidences := [] } : JoinTree).heap n.var.id = none from hg] at b4
        rw [b4] at hk
        cases hk
      | some o0 =>
        rw [show Dict.get? ({ jt with listener := false, evidences := [] } : JoinTree).heap n.var.id = some o0 from hg] at b4
        rw [b4] at hk
        have := hf n.var hv o0 hg k hk
        unfold Bbn.family at this
        simpa [vids] using this
  have hb : ∀ v ∈ JoinTree.getBbnNodes { jt with listener := false, evidences := [], heap := heap }, v ∈ b.vars := by
    have hc1 : Ctx b.vars cs T { jt with listener := false, evidences := [], heap := heap } := hc.frame rfl rfl
    exact fun v hv => hc1.bbnNodes_perm.mem_iff.1 hv
  have h5 := PcFam.initializeJt h0 hb (vars_nodup h) h2
  intro v hv
  obtain ⟨o, o1, _, c, _, o2, _⟩ := d2.calib.done v hv
  have o1' : Dict.get? j2.heap v.id = some o := by
    rw [← propagate_heap h3]; exact o1
  have := (famMin_mem hcl).1 ((h5 v hv o o1').2 _ o2)
  have e : pcOf ({ j3 with listener := true } : JoinTree).heap v = c.id := by
    unfold pcOf
    rw [o1]
    simp [o2]
  rw [e]
  unfold Bbn.family
  simpa [vids] using this

end

end PyBBN
