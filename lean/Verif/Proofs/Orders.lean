import Verif.Proofs.Greedy
import Verif.Proofs.HistoryRun

/-! Two runs of `apply` with different iteration orders of sets give the same posteriors, also on networks that are not connected. -/

namespace PyBBN
open Propagator InferenceController

theorem foldlM_inv {α β : Type} {f : β → α → Py β} (P : β → Prop) : ∀ {l : List α} {a b : β}, l.foldlM f a = .ok b → P a →
    (∀ x ∈ l, ∀ a b, P a → f a x = .ok b → P b) → P b
  | [], a, b, h, ha, _ => by
      rw [List.foldlM_nil] at h
      cases h
      exact ha
  | x :: l, a, b, h, ha, hs => by
      rw [List.foldlM_cons] at h
      obtain ⟨c, h1, h2⟩ := bind_ok h
      exact foldlM_inv P h2 (hs x List.mem_cons_self a c ha h1) (fun y hy => hs y (List.mem_cons_of_mem _ hy))

/-! ### propagation does not touch node objects -/

theorem passSingleMessage_heap {jt jt' : JoinTree} {x s y : Str} (h : passSingleMessage jt x s y = .ok jt') :
    jt'.heap = jt.heap := by
  unfold passSingleMessage at h
  obtain ⟨a, _, h⟩ := bind_ok h
  obtain ⟨b, _, h⟩ := bind_ok h
  obtain ⟨c, _, h⟩ := bind_ok h
  obtain ⟨d, _, h⟩ := bind_ok h
  obtain ⟨e, _, h⟩ := bind_ok h
  cases h
  rfl

theorem collectWalk_heap (js : SetIter Str) : ∀ (fuel : Nat) (x s y : Str) (st st' : List Str × JoinTree),
    collectWalk js fuel x s y st = .ok st' → st'.2.heap = st.2.heap
  | 0, _, _, _, _, _, h => by simp [collectWalk] at h
  | fuel + 1, x, s, y, st, st', h => by
      unfold collectWalk at h
      obtain ⟨a, h1, h⟩ := bind_ok h
      obtain ⟨b, h2, h⟩ := bind_ok h
      cases h
      have := foldlM_inv (fun a : List Str × JoinTree => a.2.heap = st.2.heap) h1 rfl (fun sc _ a b ha hb =>
        (collectWalk_heap js fuel _ _ _ _ _ hb).trans ha)
      exact (passSingleMessage_heap h2).trans this

theorem distributeWalk_heap (js : SetIter Str) : ∀ (fuel : Nat) (y : Str) (st st' : List Str × JoinTree),
    distributeWalk js fuel y st = .ok st' → st'.2.heap = st.2.heap
  | 0, _, _, _, h => by simp [distributeWalk] at h
  | fuel + 1, y, st, st', h => by
      unfold distributeWalk at h
      refine foldlM_inv (fun a : List Str × JoinTree => a.2.heap = st.2.heap) h rfl (fun sc _ a b ha hb => ?_)
      obtain ⟨c, h1, h2⟩ := bind_ok hb
      have h3 := distributeWalk_heap js fuel _ _ _ h2
      have h4 := passSingleMessage_heap h1
      exact (h3.trans h4).trans ha

theorem propagate_heap {js : SetIter Str} {jt jt' : JoinTree} (h : propagate js jt = .ok jt') : jt'.heap = jt.heap := by
  unfold propagate at h
  split at h
  · cases h
  · rename_i x hx
    obtain ⟨a, h1, h2⟩ := bind_ok h
    have e1 : a.heap = jt.heap := by
      unfold collect at h1
      obtain ⟨b, h3, h4⟩ := bind_ok h1
      cases h4
      exact foldlM_inv (fun a : List Str × JoinTree => a.2.heap = jt.heap) h3 rfl (fun sc _ a b ha hb =>
        (collectWalk_heap js _ _ _ _ _ _ hb).trans ha)
    have e2 : jt'.heap = a.heap := by
      unfold distribute at h2
      obtain ⟨b, h3, h4⟩ := bind_ok h2
      cases h4
      refine foldlM_inv (fun c : List Str × JoinTree => c.2.heap = a.heap) h3 rfl (fun sc _ c b hc hb => ?_)
      obtain ⟨d, h5, h6⟩ := bind_ok hb
      have e3 := distributeWalk_heap js _ _ _ _ h6
      have e4 := passSingleMessage_heap h5
      exact (e3.trans e4).trans hc
    exact e2.trans e1

/-! ### the chosen parent clique -/

/-- the id of the first clique (by id) that contains all of `ids` -/
def minClique (cs : List Clique) (ids : List Int) : Option Str :=
  ((sortBy (fun a b => strLe (Clique.id a) (Clique.id b)) (cs.filter (fun c => ids.all (fun i => decide (i ∈ c.nodeIds))))).head?).map Clique.id

/-- parent cliques are the first ones that contain a node and its parents -/
def PcMin (cs : List Clique) (par : Int → List Int) (heap : Dict Int NodeObj) : Prop :=
  ∀ i o, Dict.get? heap i = some o → o.parents.getD [] = par i ∧ ∀ k, o.parentClique = some k → minClique cs (par i ++ [i]) = some k

theorem PcMin.getClique {jt jt' : JoinTree} {v : Variable} {k : Str} {par : Int → List Int} (h : PcMin jt.getCliques par jt.heap)
    (hg : Initializer.getClique jt v = .ok (k, jt')) : jt'.nodes = jt.nodes ∧ PcMin jt.getCliques par jt'.heap := by
  unfold Initializer.getClique at hg
  obtain ⟨o, h1, hg⟩ := bind_ok hg
  have ho : Dict.get? jt.heap v.id = some o := by
    unfold Dict.getItem at h1
    split at h1
    · cases h1; assumption
    · cases h1
  cases hp : o.parentClique with
  | some c =>
    rw [hp] at hg
    cases hg
    exact ⟨rfl, h⟩
  | none =>
    rw [hp] at hg
    simp only at hg
    obtain ⟨cs, h2, hg⟩ := bind_ok hg
    unfold JoinTree.findCliquesWithNodeAndParents at h2
    obtain ⟨ids, h3, h2⟩ := bind_ok h2
    cases h2
    have hids : ids = par v.id := by
      rw [← (h _ _ ho).1]
      unfold JoinTree.getParentIds at h3
      rw [ho] at h3
      split at h3
      · cases h3
      · cases h3; rfl
    subst hids
    split at hg
    · cases hg
    · rename_i c hc
      cases hg
      refine ⟨rfl, ?_⟩
      intro i o' hi
      by_cases e : v.id = i
      · subst e
        rw [Dict.get?_set_self] at hi
        cases hi
        refine ⟨(h _ _ ho).1, ?_⟩
        intro k' hk
        cases hk
        unfold minClique
        rw [hc]
        rfl
      · rw [Dict.get?_set_ne _ _ e] at hi
        exact h i o' hi

theorem PcMin.assignNode {jt jt' : JoinTree} {v : Variable} {par : Int → List Int} (h : PcMin jt.getCliques par jt.heap)
    (hg : Initializer.assignNode jt v = .ok jt') : jt'.nodes = jt.nodes ∧ PcMin jt.getCliques par jt'.heap := by
  unfold Initializer.assignNode at hg
  obtain ⟨⟨k, j⟩, h1, hg⟩ := bind_ok hg
  obtain ⟨p, _, hg⟩ := bind_ok hg
  obtain ⟨o, _, hg⟩ := bind_ok hg
  have := h.getClique h1
  split at hg
  · cases hg
  · cases hg
    exact this

theorem applyEvidence_heap {jt jt' : JoinTree} {v : Variable} {x : Str} (hg : Initializer.applyEvidence jt v x = .ok jt') :
    jt'.heap = jt.heap := by
  unfold Initializer.applyEvidence at hg
  obtain ⟨o, _, hg⟩ := bind_ok hg
  split at hg
  · cases hg
  · obtain ⟨p, _, hg⟩ := bind_ok hg
    cases hg
    rfl

theorem PcMin.initializeJt {jt jt' : JoinTree} {par : Int → List Int} (h : PcMin jt.getCliques par jt.heap) (hg : Initializer.initializeJt jt = .ok jt') :
    PcMin jt.getCliques par jt'.heap := by
  unfold Initializer.initializeJt at hg
  obtain ⟨j, h1, h2⟩ := bind_ok hg
  have e1 := foldlM_inv (fun j : JoinTree => j.nodes = jt.nodes ∧ PcMin jt.getCliques par j.heap) h1 ⟨rfl, h⟩ (fun v _ a b ha hb => by
    have hc : a.getCliques = jt.getCliques := by unfold JoinTree.getCliques; rw [ha.1]
    have := PcMin.assignNode (by rw [hc]; exact ha.2) hb
    rw [hc] at this
    exact ⟨this.1.trans ha.1, this.2⟩)
  have e2 : jt'.heap = j.heap := foldlM_inv (fun a : JoinTree => a.heap = j.heap) h2 rfl (fun v _ a b ha hb =>
    foldlM_inv (fun a : JoinTree => a.heap = j.heap) hb ha (fun x _ a b ha hb => (applyEvidence_heap hb).trans ha))
  rw [e2]
  exact e1.2

theorem minClique_same {cs ds : List Clique} (h : List.Forall₂ Clique.Same cs ds) (ids : List Int) : minClique cs ids = minClique ds ids := by
  unfold minClique
  have h1 : List.Forall₂ Clique.Same (cs.filter (fun c => ids.all (fun i => decide (i ∈ c.nodeIds))))
      (ds.filter (fun c => ids.all (fun i => decide (i ∈ c.nodeIds)))) := by
    induction h with
    | nil => exact List.Forall₂.nil
    | @cons c d cs ds hcd _ ih =>
      have e : (ids.all (fun i => decide (i ∈ c.nodeIds))) = ids.all (fun i => decide (i ∈ d.nodeIds)) := by
        congr 1
        funext i
        rw [Bool.eq_iff_iff, decide_eq_true_eq, decide_eq_true_eq, hcd.ids.mem_iff]
      rw [List.filter_cons, List.filter_cons, e]
      split
      · exact List.Forall₂.cons hcd ih
      · exact ih
  have h2 := sortBy_forall₂ (le := fun a b => strLe (Clique.id a) (Clique.id b)) (le' := fun a b => strLe (Clique.id a) (Clique.id b))
    (fun a b c d h1 h2 => by rw [h1.id_eq, h2.id_eq]) h1
  generalize sortBy _ _ = l at h2 ⊢
  generalize sortBy _ _ = m at h2 ⊢
  cases h2 with
  | nil => rfl
  | cons hab _ => simp [hab.id_eq]

/-- `apply` on fresh node objects chooses the first clique that contains a node and its parents -/
theorem apply_pc {b : Bbn} (h : BbnInv b) (wf : b.WF) {it : SetIter Int} {js : SetIter Str} {jt : JoinTree} (hj : apply it js b = .ok jt) :
    PcMin (Triangulator.triangulate it (moralize b)).1 (fun i => (parentNodes b i).map (fun p => p.var.id)) jt.heap := by
  have hj' : applyWith it js [] b = .ok jt := hj
  unfold applyWith at hj'
  obtain ⟨heap1, h1, hj'⟩ := bind_ok hj'
  obtain ⟨heap2, h2, hj'⟩ := bind_ok hj'
  obtain ⟨j1, h3, hj'⟩ := bind_ok hj'
  obtain ⟨j2, h4, hj'⟩ := bind_ok hj'
  cases hj'
  obtain ⟨heap1', heap2', a1, a2, a3, a4⟩ := heap_spec h wf []
  rw [h1] at a1
  cases a1
  rw [h2] at a2
  cases a2
  have hs := (triangulate_spec it h).1
  have hcs : (JoinTree.getCliques { Transformer.transform js (Triangulator.triangulate it (moralize b)).1 with
      parentInfo := parentInfoOf b, heap := heap2 }) = (Triangulator.triangulate it (moralize b)).1 :=
    getCliques_transform js ⟨hs.nodup, hs.anti⟩
  have h0 : PcMin (JoinTree.getCliques { Transformer.transform js (Triangulator.triangulate it (moralize b)).1 with
      parentInfo := parentInfoOf b, heap := heap2 }) (fun i => (parentNodes b i).map (fun p => p.var.id)) heap2 := by
    intro i o hi
    have : i ∈ Dict.keys heap2 := Dict.mem_keys_of_get? hi
    rw [a3] at this
    obtain ⟨n, hn, rfl⟩ := List.mem_map.1 this
    rw [a4 n hn] at hi
    cases hi
    exact ⟨rfl, by simp [Dict.get?]⟩
  have h5 := PcMin.initializeJt h0 h3
  rw [hcs] at h5
  change PcMin _ _ j2.heap
  rw [propagate_heap h4]
  exact h5

/-! ### components -/

theorem JTSpec.conn_iff {cs : List Clique} {T : List SepSet} {jt : JoinTree} (h : JTSpec cs T jt) {x y : Finset Int} :
    Conn sl sr T x y ↔ Relation.EqvGen (fun a b => a ∈ cs.map Clique.fs ∧ b ∈ cs.map Clique.fs ∧ ∃ i, i ∈ a ∧ i ∈ b) x y := by
  constructor
  · intro hc
    induction hc with
    | rel a b hab =>
      obtain ⟨s, hs, rfl, rfl⟩ := hab
      have hg := h.shape.good s hs
      obtain ⟨i, h1, h2⟩ := hg.common
      exact .rel _ _ ⟨List.mem_map_of_mem hg.left, List.mem_map_of_mem hg.right, i, (Clique.mem_fs _ i).2 h1, (Clique.mem_fs _ i).2 h2⟩
    | refl a => exact .refl _
    | symm a b _ ih => exact .symm _ _ ih
    | trans a b c _ _ ih1 ih2 => exact .trans _ _ _ ih1 ih2
  · intro hc
    induction hc with
    | rel a b hab =>
      obtain ⟨ha, hb, i, h1, h2⟩ := hab
      obtain ⟨c, hc, rfl⟩ := List.mem_map.1 ha
      obtain ⟨d, hd, rfl⟩ := List.mem_map.1 hb
      exact h.conn_of_mem hc hd ((Clique.mem_fs _ i).1 h1) ((Clique.mem_fs _ i).1 h2)
    | refl a => exact Conn.refl _ _
    | symm a b _ ih => exact ih.symm
    | trans a b c _ _ ih1 ih2 => exact ih1.trans ih2

theorem Clique.Same.fs_eq {c d : Clique} (h : c.Same d) : c.fs = d.fs := by
  ext i
  rw [c.mem_fs, d.mem_fs, h.ids.mem_iff]

theorem map_fs_same {cs ds : List Clique} (h : List.Forall₂ Clique.Same cs ds) : cs.map Clique.fs = ds.map Clique.fs := by
  induction h with
  | nil => rfl
  | cons hab _ ih => rw [List.map_cons, List.map_cons, ih, hab.fs_eq]

theorem mem_same {cs ds : List Clique} (h : List.Forall₂ Clique.Same cs ds) {c : Clique} (hc : c ∈ cs) : ∃ d ∈ ds, c.Same d := by
  induction h with
  | nil => simp at hc
  | @cons a b cs ds hab _ ih =>
    rcases List.mem_cons.1 hc with rfl | hc
    · exact ⟨b, List.mem_cons_self, hab⟩
    · obtain ⟨d, hd, h⟩ := ih hc
      exact ⟨d, List.mem_cons_of_mem _ hd, h⟩

theorem Clique.Same.symm {c d : Clique} (h : c.Same d) : d.Same c := List.Perm.symm h

theorem forall₂_same_symm {cs ds : List Clique} (h : List.Forall₂ Clique.Same cs ds) : List.Forall₂ Clique.Same ds cs := by
  induction h with
  | nil => exact List.Forall₂.nil
  | cons hab _ ih => exact List.Forall₂.cons hab.symm ih

theorem Comp.ks_sub {cs ds : List Clique} {T T' : List SepSet} {jt jt' : JoinTree} {R R' : Clique} {ks ks' : List Str} {vs vs' : List Int}
    (hc : Comp cs T jt R ks vs) (hc' : Comp ds T' jt' R' ks' vs') (hs : JTSpec cs T jt) (hs' : JTSpec ds T' jt')
    (hf : List.Forall₂ Clique.Same cs ds) (hR : R.Same R') : ∀ k ∈ ks, k ∈ ks' := by
  intro k hk
  obtain ⟨C, hC, e, hconn⟩ := (hc.mem k).1 hk
  obtain ⟨D, hD, hCD⟩ := mem_same hf hC
  refine (hc'.mem k).2 ⟨D, hD, by rw [← hCD.id_eq]; exact e, ?_⟩
  rw [hs'.conn_iff, ← map_fs_same hf, ← hR.fs_eq, ← hCD.fs_eq]
  exact hs.conn_iff.1 hconn

section
variable {vars : List Variable} {cs ds : List Clique} {T T' : List SepSet} {jt jt' : JoinTree} {N : Net} {ℓ : Int → Str → ℚ}

/-- what is read from a calibrated join tree: in the component of the start clique the marginal of the component, elsewhere
the marginal of the factors assigned to the node's clique -/
theorem Calib.reads (h : Calib vars cs T N ℓ jt) (hN : NetOk vars N) {v : Variable} (hv : v ∈ vars) :
    ∃ R ks vs c, startClique jt = some R ∧ Comp cs T jt R ks vs ∧ c ∈ cs ∧ pcOf jt.heap v = c.id ∧
      jt.getBbnPotential v = PotentialUtil.normalize (tab [v] (if c.id ∈ ks then
        elim (domOf vars) (vs.filter (fun i => decide (i ∉ [v.id])))
          (fun σ => ((vars.filter (fun u => decide (pcOf jt.heap u ∈ ks))).map (fun u => N.w ℓ u σ)).prod)
        else elim (domOf vars) ((vids c.nodes).filter (fun i => decide (i ∉ [v.id]))) (wprod (pcOf jt.heap) (N.w ℓ) vars c.id))) := by
  obtain ⟨χ, R, ks, vs, h1, hc, ht, hdep, hnn, hin, hout⟩ := h.tabs
  have hctx := h.ctx
  obtain ⟨o, ho, _, c, hcc, he, hf⟩ := h.done v hv
  have hpc : pcOf jt.heap v = c.id := by unfold pcOf; rw [ho]; simp [he]
  refine ⟨R, ks, vs, c, h1, hc, hcc, hpc, ?_⟩
  have hck : c.id ∈ Dict.keys jt.nodes := Dict.mem_keys_of_get? (hctx.spec.get_clique hcc)
  have hvc : v ∈ c.nodes := hf v (hN.self v hv)
  have hvi : v.id ∈ vids c.nodes := List.mem_map_of_mem hvc
  have hD : ∀ i, (domOf vars i).Nodup := domOf_nodup hctx.vals
  have hDv : domOf vars v.id = v.values := domOf_ok hctx.vn v hv
  have hD1 : DomOk (domOf vars) [v] := (domOf_ok hctx.vn).sub (by intro u hu; simp at hu; subst hu; exact hv)
  have hDc : DomOk (domOf vars) c.nodes := (domOf_ok hctx.vn).sub (hctx.sub c hcc)
  have hcn := hctx.spec.fam.nodup c hcc
  have hdc := hdep c.id
  rw [hctx.spec.scope_clique hcc] at hdc
  have hm := marginalize_tab (D := domOf vars) (ns := [v]) hcn (by simp) hDc hD1 (by simpa using hvi) hD hdc
  unfold JoinTree.getBbnPotential
  rw [Dict.getItem_of_get? ho]
  simp only [bind, Except.bind, he]
  unfold marginalizeFor
  rw [ht c.id hck]
  simp only
  rw [hctx.spec.scope_clique hcc, hm]
  congr 1
  refine tab_congr (by simp) ?_
  intro σ hσ
  have hσv : σ v.id ∈ v.values := hσ v List.mem_cons_self
  by_cases hks : c.id ∈ ks
  · rw [if_pos hks]
    have heq := hin c.id (Or.inl hks)
    rw [hctx.spec.scope_clique hcc] at heq
    have hA : (fun σ => (ks.map (fun k => wprod (pcOf jt.heap) (N.w ℓ) vars k σ)).prod) =
        fun σ => ((vars.filter (fun u => decide (pcOf jt.heap u ∈ ks))).map (fun u => N.w ℓ u σ)).prod :=
      funext (fun σ => wprod_ks _ _ hc.ksNodup σ vars)
    rw [hA] at heq
    have hcsub : ∀ i ∈ vids c.nodes, i ∈ vs := fun i hi => (hc.clique_iff hctx hcc hi).1 hks
    rw [elim_congr_dom (fun i => i = v.id) _ (g := elim (domOf vars) (vs.filter (fun i => decide (i ∉ vids c.nodes)))
      (fun σ => ((vars.filter (fun u => decide (pcOf jt.heap u ∈ ks))).map (fun u => N.w ℓ u σ)).prod))]
    · rw [← elim_append]
      refine congrFun (elim_congr_mem ?_ (hc.vsNodup.filter _) ?_ _) σ
      · refine List.Nodup.append (hcn.filter _) (hc.vsNodup.filter _) ?_
        intro i hi hi'
        have h1 := (List.mem_filter.1 hi).1
        have h2 := (List.mem_filter.1 hi').2
        simp only [decide_eq_true_eq] at h2
        exact h2 h1
      · intro i
        simp only [List.mem_append, List.mem_filter, decide_eq_true_eq, vids, List.map_cons, List.map_nil]
        constructor
        · rintro (⟨h1, h2⟩ | ⟨h1, h2⟩)
          · exact ⟨hcsub i h1, h2⟩
          · refine ⟨h1, ?_⟩
            intro e
            simp only [List.mem_cons, List.not_mem_nil, or_false] at e
            subst e
            exact h2 hvi
        · rintro ⟨h1, h2⟩
          by_cases hi : i ∈ vids c.nodes
          · exact Or.inl ⟨hi, h2⟩
          · exact Or.inr ⟨h1, hi⟩
    · intro τ hτ
      apply heq
      intro i hi
      by_cases e : i = v.id
      · exact hτ i (Or.inl e)
      · exact hτ i (Or.inr (List.mem_filter.2 ⟨hi, by simpa using e⟩))
    · intro i hi _
      subst hi
      rw [hDv]; exact hσv
  · rw [if_neg hks, hout c.id hks]
    · rfl
    · intro s hs e
      exact absurd e.symm ((hctx.spec.shape.good s hs).ne_clique hctx.spec.fam hcc)

/-- two calibrated join trees over the same cliques, with the same assignment of nodes to cliques, give the same answers -/
theorem Calib.same (h : Calib vars cs T N ℓ jt) (h' : Calib vars ds T' N ℓ jt') (hN : NetOk vars N)
    (hf : List.Forall₂ Clique.Same cs ds) (hstart : ∀ R R', startClique jt = some R → startClique jt' = some R' → R.Same R')
    (hpc : ∀ v ∈ vars, pcOf jt.heap v = pcOf jt'.heap v) : ∀ v ∈ vars, jt.getBbnPotential v = jt'.getBbnPotential v := by
  intro v hv
  obtain ⟨R, ks, vs, c, a1, a2, a3, a4, a5⟩ := h.reads hN hv
  obtain ⟨R', ks', vs', c', b1, b2, b3, b4, b5⟩ := h'.reads hN hv
  have hR := hstart R R' a1 b1
  have hks : ∀ k, k ∈ ks ↔ k ∈ ks' := fun k =>
    ⟨a2.ks_sub b2 h.ctx.spec h'.ctx.spec hf hR k, b2.ks_sub a2 h'.ctx.spec h.ctx.spec (forall₂_same_symm hf) hR.symm k⟩
  have hid : c.id = c'.id := by rw [← a4, ← b4, hpc v hv]
  have hcc : c.Same c' := by
    obtain ⟨d, hd, hcd⟩ := mem_same hf a3
    have : d = c' := (h'.ctx.spec.fam.id_iff hd b3).1 (by rw [← hcd.id_eq, hid])
    rw [← this]
    exact hcd
  have hscope : ∀ k ∈ ks, ∀ i, i ∈ vids (jt.scope k) ↔ i ∈ vids (jt'.scope k) := by
    intro k hk i
    obtain ⟨C, hC, e, _⟩ := (a2.mem k).1 hk
    obtain ⟨D, hD, hCD⟩ := mem_same hf hC
    rw [← e, h.ctx.spec.scope_clique hC, hCD.id_eq, h'.ctx.spec.scope_clique hD]
    exact (hCD.map _).mem_iff
  have hvs : ∀ i, i ∈ vs ↔ i ∈ vs' := by
    intro i
    rw [a2.memV, b2.memV]
    constructor
    · rintro ⟨k, hk, hi⟩
      exact ⟨k, (hks k).1 hk, (hscope k hk i).1 hi⟩
    · rintro ⟨k, hk, hi⟩
      exact ⟨k, (hks k).2 hk, (hscope k ((hks k).2 hk) i).2 hi⟩
  rw [a5, b5]
  congr 2
  by_cases hk : c.id ∈ ks
  · rw [if_pos hk, if_pos (by rw [← hid]; exact (hks _).1 hk)]
    have e : vars.filter (fun u => decide (pcOf jt.heap u ∈ ks)) = vars.filter (fun u => decide (pcOf jt'.heap u ∈ ks')) :=
      List.filter_congr (fun u hu => by rw [hpc u hu]; exact decide_eq_decide.2 (hks _))
    rw [e]
    refine elim_congr_mem (a2.vsNodup.filter _) (b2.vsNodup.filter _) ?_ _
    intro i
    simp only [List.mem_filter, hvs i]
  · rw [if_neg hk, if_neg (by rw [← hid]; exact fun h => hk ((hks _).2 h)), ← hid]
    have e : wprod (pcOf jt.heap) (N.w ℓ) vars c.id = wprod (pcOf jt'.heap) (N.w ℓ) vars c.id :=
      funext (fun σ => by rw [wprod_congr (N.w ℓ) hpc])
    rw [e]
    exact elim_perm ((hcc.map Variable.id).filter _) _

theorem startClique_same (h : List.Forall₂ Clique.Same jt.getCliques jt'.getCliques) (R R' : Clique) (hR : startClique jt = some R)
    (hR' : startClique jt' = some R') : R.Same R' := by
  unfold startClique at hR hR'
  have h2 := sortBy_forall₂ (le := fun a b => strLe (Clique.id a) (Clique.id b)) (le' := fun a b => strLe (Clique.id a) (Clique.id b))
    (fun a b c d h1 h2 => by rw [h1.id_eq, h2.id_eq]) h
  generalize sortBy _ _ = l at h2 hR
  generalize sortBy _ _ = m at h2 hR'
  cases h2 with
  | nil => cases hR
  | cons hab _ => cases hR; cases hR'; exact hab

end

end PyBBN
