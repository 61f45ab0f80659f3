import Verif.Proofs.LocalLaw
import Verif.Props.Components
import Verif.Props.Sessions

/-! # What is reported on disconnected networks, in closed form (C17) -/

namespace PyBBN
open Relation InferenceController

variable {it : SetIter Int} {js : SetIter Str} {ops : List BOp} {jt : JoinTree}

theorem start_min {jt : JoinTree} {R : Clique} (hR : startClique jt = some R) : ∀ d ∈ jt.getCliques, strLe R.id d.id = true :=
  (head_sortBy hR).2

/-- what every report is, before the two cases are told apart -/
theorem report_law (hu : Net.Sane ops) (hj : apply it js (Bbn.run ops) = .ok jt) (h : List (SetIter Str × EvOp))
    (hp : ∀ op ∈ h, op.2.Proper (Bbn.run ops).vars) {v : Variable} (hv : v ∈ (Bbn.run ops).vars) :
    ∃ R ∈ jt.getCliques, (∀ d ∈ jt.getCliques, strLe R.id d.id = true) ∧ ∃ c ∈ jt.getCliques, pcOf jt.heap v = c.id ∧
      (∀ (S : List Int), (∃ u ∈ R.nodes, EqvGen (fun p c => (p, c) ∈ BOp.edges ops) u.id v.id) →
        (∀ u ∈ (Bbn.run ops).vars, u.id ∈ S ↔ EqvGen (fun p c => (p, c) ∈ BOp.edges ops) v.id u.id) →
        (runHist jt h).getBbnPotential v = .ok ((Bbn.run ops).tableOn S (lawHist (Bbn.run ops).vars h).prop v)) ∧
      (∀ (S : List Int), (∀ u ∈ R.nodes, ¬ EqvGen (fun p c => (p, c) ∈ BOp.edges ops) u.id v.id) →
        (∀ u ∈ (Bbn.run ops).vars, u.id ∈ S ↔ pcOf jt.heap u = c.id) →
        (runHist jt h).getBbnPotential v = .ok ((Bbn.run ops).tableOn S (lawHist (Bbn.run ops).vars h).prop v)) := by
  have hi := bbn_run_inv ops
  have hN := Bbn.net_ok hi hu.wf
  have hs := (triangulate_spec it hi).1
  have hE : (fun p c => p ∈ ddGet (Bbn.run ops).parents c) = fun p c => (p, c) ∈ BOp.edges ops := by
    funext p c
    exact propext (parents_requested ops p c)
  obtain ⟨T, hl, _, hst⟩ := live_law hu hj h hp
  obtain ⟨R, ks, vs, c, hR, hcomp, hc, hpc, hrep⟩ := hl.calib.reads hN hv
  have hctx := hl.calib.ctx
  have hspec := hctx.spec
  have hmem : ∀ d, d ∈ jt.getCliques ↔ d ∈ (Triangulator.triangulate it (moralize (Bbn.run ops))).1 := by
    intro d; rw [← same_cliques hst]; exact hspec.shape.mem_getCliques d
  have hmin := start_min hR
  rw [same_cliques hst] at hmin
  have hd := doms hu
  have hvc : v ∈ c.nodes := by
    obtain ⟨d, hd', e, hf⟩ := hl.calib.done.pc hv
    have := (hspec.fam.id_iff hc hd').1 (hpc.symm.trans e)
    subst this
    exact hf v (hN.self v hv)
  have hneg : ∀ u ∈ (Bbn.run ops).vars, ∀ σ, 0 ≤ (Bbn.run ops).net.w (lawHist (Bbn.run ops).vars h).prop u σ :=
    fun u hu' σ => Net.w_nonneg hN hl.calib.likNonneg hu' σ
  refine ⟨R, (hmem R).2 hcomp.root, hmin, c, (hmem c).2 hc, by rw [← hst.heap]; exact hpc, ?_, ?_⟩
  · rintro S ⟨r, hr, hrv⟩ hS
    rw [← hE] at hrv hS
    -- the cliques of the component of the start clique are those of the nodes connected with `v`
    have hRc : Conn sl sr T R.fs c.fs :=
      hspec.conn_vars hs hi hrv R hcomp.root c hc (List.mem_map_of_mem hr) (List.mem_map_of_mem hvc)
    have hks : c.id ∈ ks := (hcomp.mem _).2 ⟨c, hc, rfl, hRc⟩
    have hvs : v.id ∈ vs := (hcomp.clique_iff hctx hc (List.mem_map_of_mem hvc)).1 hks
    have hiff : ∀ u ∈ (Bbn.run ops).vars, (u.id ∈ S ↔ pcOf (runHist jt h).heap u ∈ ks) := by
      intro u hu'
      rw [hS u hu']
      obtain ⟨d, hd', e, hf⟩ := hl.calib.done.pc hu'
      have hud : u.id ∈ d.nodeIds := List.mem_map_of_mem (hf u (hN.self u hu'))
      constructor
      · intro hvu
        rw [e]
        exact (hcomp.mem _).2 ⟨d, hd', rfl, hRc.trans (hspec.conn_vars hs hi hvu c hc d hd' (List.mem_map_of_mem hvc) hud)⟩
      · intro hk
        rw [e] at hk
        obtain ⟨C, hC, e', hRC⟩ := (hcomp.mem _).1 hk
        have := (hspec.fam.id_iff hC hd').1 e'
        subst this
        exact conn_eqv hspec hs hc hC (hRc.symm.trans hRC) _ (List.mem_map_of_mem hvc) _ hud
    rw [hrep, if_pos hks, Bbn.tableOn_eq, Bbn.weightOn_eq hi]
    have hfil : (fun σ => (((Bbn.run ops).vars.filter (fun u => decide (pcOf (runHist jt h).heap u ∈ ks))).map
        (fun u => (Bbn.run ops).net.w (lawHist (Bbn.run ops).vars h).prop u σ)).prod) =
        wsel (Bbn.run ops).vars ((Bbn.run ops).net.w (lawHist (Bbn.run ops).vars h).prop) (fun u => decide (u.id ∈ S)) := by
      funext σ
      unfold wsel
      rw [List.filter_congr (q := fun u => decide (u.id ∈ S)) (fun u hu' => decide_eq_decide.2 (hiff u hu').symm)]
    rw [hfil]
    refine normalize_local hd.vn hd.vals hd.ne ?_ ?_ hcomp.vsNodup ?_ hv hvs
    · refine prod_map_dep _ _ ?_
      intro u hu'
      obtain ⟨hu1, hu2⟩ := List.mem_filter.1 hu'
      refine (Net.w_dep hN _ hu1).mono ?_
      intro i hi'
      obtain ⟨d, hd', e, hf⟩ := hl.calib.done.pc hu1
      obtain ⟨w, hw, rfl⟩ := List.mem_map.1 hi'
      have hk : d.id ∈ ks := by rw [← e]; exact (hiff u hu1).1 (by simpa using hu2)
      exact (hcomp.clique_iff hctx hd' (List.mem_map_of_mem (hf w hw))).1 hk
    · intro σ
      exact prod_map_nonneg _ _ _ (fun u hu' => hneg u (List.mem_filter.1 hu').1 σ)
    · intro i hi'
      obtain ⟨k, _, hik⟩ := (hcomp.memV i).1 hi'
      obtain ⟨u, hu', rfl⟩ := List.mem_map.1 hik
      exact List.mem_map_of_mem (hctx.scope_sub k u hu')
  · intro S hfar hS
    have hnk : c.id ∉ ks := by
      intro hk
      obtain ⟨C, hC, e, hRC⟩ := (hcomp.mem _).1 hk
      have e' := (hspec.fam.id_iff hC hc).1 e
      subst e'
      obtain ⟨z, hz⟩ := List.exists_mem_of_ne_nil _ (hs.ne R hcomp.root)
      obtain ⟨u, huR, rfl⟩ := List.mem_map.1 hz
      refine hfar u huR ?_
      rw [← hE]
      exact conn_eqv hspec hs hcomp.root hC hRC _ hz _ (List.mem_map_of_mem hvc)
    rw [hrep, if_neg hnk, Bbn.tableOn_eq, Bbn.weightOn_eq hi, hst.heap]
    have hfil : wprod (pcOf jt.heap) ((Bbn.run ops).net.w (lawHist (Bbn.run ops).vars h).prop) (Bbn.run ops).vars c.id =
        wsel (Bbn.run ops).vars ((Bbn.run ops).net.w (lawHist (Bbn.run ops).vars h).prop) (fun u => decide (u.id ∈ S)) := by
      funext σ
      unfold wprod wsel
      rw [List.filter_congr (q := fun u => decide (u.id ∈ S)) (fun u hu' => decide_eq_decide.2 (hS u hu').symm)]
    rw [hfil]
    refine normalize_local hd.vn hd.vals hd.ne ?_ ?_ (hspec.fam.nodup c hc) ?_ hv (List.mem_map_of_mem hvc)
    · refine prod_map_dep _ _ ?_
      intro u hu'
      obtain ⟨hu1, hu2⟩ := List.mem_filter.1 hu'
      refine (Net.w_dep hN _ hu1).mono ?_
      intro i hi'
      obtain ⟨d, hd', e, hf⟩ := hl.calib.done.pc hu1
      obtain ⟨w, hw, rfl⟩ := List.mem_map.1 hi'
      have hk := (hS u hu1).1 (by simpa using hu2)
      rw [hst.heap, hk] at e
      have := (hspec.fam.id_iff hc hd').1 e
      subst this
      exact List.mem_map_of_mem (hf w hw)
    · intro σ
      exact prod_map_nonneg _ _ _ (fun u hu' => hneg u (List.mem_filter.1 hu').1 σ)
    · intro i hi'
      obtain ⟨u, hu', rfl⟩ := List.mem_map.1 hi'
      exact List.mem_map_of_mem (hctx.sub c hc u hu')

/-- **C17** in closed form, first case: the report of a node connected with the clique of the smallest id is the exact posterior of
its component, computed from the CPTs and the evidence of that component alone. Nothing is assumed about the weight of the evidence. -/
theorem c17_near_law (hu : Net.Sane ops) (hj : apply it js (Bbn.run ops) = .ok jt) (h : List (SetIter Str × EvOp))
    (hp : ∀ op ∈ h, op.2.Proper (Bbn.run ops).vars) {v : Variable} (hv : v ∈ (Bbn.run ops).vars)
    (hnear : ∃ R ∈ jt.getCliques, (∀ d ∈ jt.getCliques, strLe R.id d.id = true) ∧
      ∃ u ∈ R.nodes, EqvGen (fun p c => (p, c) ∈ BOp.edges ops) u.id v.id)
    (S : List Int) (hS : ∀ u ∈ (Bbn.run ops).vars, u.id ∈ S ↔ EqvGen (fun p c => (p, c) ∈ BOp.edges ops) v.id u.id) :
    (runHist jt h).getBbnPotential v = .ok ((Bbn.run ops).tableOn S (lawHist (Bbn.run ops).vars h).prop v) := by
  obtain ⟨R, hR, hmin, c, hc, hpc, h1, _⟩ := report_law hu hj h hp hv
  obtain ⟨R', hR', hmin', hex⟩ := hnear
  refine h1 S ?_ hS
  have e : R'.id = R.id := strLe_antisymm _ _ (hmin' R hR) (hmin R' hR')
  obtain ⟨T, hl, _, hst⟩ := live_law hu hj h hp
  rw [← same_cliques hst] at hR hR'
  have hspec := hl.calib.ctx.spec
  have := (hspec.fam.id_iff ((hspec.shape.mem_getCliques _).1 hR') ((hspec.shape.mem_getCliques _).1 hR)).1 e
  rw [← this]
  exact hex

/-- **C17** in closed form, second case: the report of any other node uses only the CPTs and the evidence of the nodes that are kept
in the same clique, where a node is kept in the clique with the smallest id among those that hold it and its parents. -/
theorem c17_far_law (hu : Net.Sane ops) (hj : apply it js (Bbn.run ops) = .ok jt) (h : List (SetIter Str × EvOp))
    (hp : ∀ op ∈ h, op.2.Proper (Bbn.run ops).vars) {v : Variable} (hv : v ∈ (Bbn.run ops).vars)
    (hfar : ∀ R ∈ jt.getCliques, (∀ d ∈ jt.getCliques, strLe R.id d.id = true) →
      ∀ u ∈ R.nodes, ¬ EqvGen (fun p c => (p, c) ∈ BOp.edges ops) u.id v.id) :
    ∃ c, HomeClique (fun p c => (p, c) ∈ BOp.edges ops) jt.getCliques c v.id ∧
      ∀ S : List Int, (∀ u ∈ (Bbn.run ops).vars,
        u.id ∈ S ↔ HomeClique (fun p c => (p, c) ∈ BOp.edges ops) jt.getCliques c u.id) →
      (runHist jt h).getBbnPotential v = .ok ((Bbn.run ops).tableOn S (lawHist (Bbn.run ops).vars h).prop v) := by
  obtain ⟨R, hR, hmin, c, hc, hpc, _, h2⟩ := report_law hu hj h hp hv
  have hi := bbn_run_inv ops
  obtain ⟨T, hh, _⟩ := held_apply_cliques hu hj
  have hpl := placed_apply hu hj hh
  have hspec := hh.live.calib.ctx.spec
  have hmem := hspec.shape.mem_getCliques
  have hfam : ∀ (u : Variable) (j : Int), j ∈ vids ((Bbn.run ops).family u) ↔ j = u.id ∨ (j, u.id) ∈ BOp.edges ops := by
    intro u j
    unfold Bbn.family
    rw [vids, List.map_append, List.mem_append, ← vids, vids_parentVars hi, parents_requested]
    simp [or_comm]
  have key : ∀ u ∈ (Bbn.run ops).vars, ∀ d ∈ jt.getCliques,
      (HomeClique (fun p c => (p, c) ∈ BOp.edges ops) jt.getCliques d u.id ↔ pcOf jt.heap u = d.id) := by
    intro u hu' d hd
    obtain ⟨⟨e, he, e1, e2⟩, e3⟩ := hpl.pc u hu'
    have conv : ∀ d : Clique, (∀ j, j = u.id ∨ (j, u.id) ∈ BOp.edges ops → j ∈ d.nodeIds) ↔
        ∀ j ∈ vids ((Bbn.run ops).family u), j ∈ d.nodeIds := by
      intro d
      constructor
      · intro h j hj; exact h j ((hfam u j).1 hj)
      · intro h j hj; exact h j ((hfam u j).2 hj)
    constructor
    · rintro ⟨⟨_, a⟩, b⟩
      have h1 := b e ((hmem e).2 he) ((conv e).2 e2)
      have h2 := e3 d ((hmem d).1 hd) ((conv d).1 a)
      rw [← e1] at h2 ⊢
      exact strLe_antisymm _ _ h2 h1
    · intro hp'
      have : e = d := (hspec.fam.id_iff he ((hmem d).1 hd)).1 (e1.trans hp')
      subst this
      refine ⟨⟨hd, (conv e).2 e2⟩, ?_⟩
      intro d' hd' ha
      rw [e1]
      exact e3 d' ((hmem d').1 hd') ((conv d').1 ha)
  refine ⟨c, (key v hv c hc).2 hpc, ?_⟩
  intro S hS
  refine h2 S (hfar R hR hmin) ?_
  intro u hu'
  rw [hS u hu', key u hu' c hc]

/-! ### the network `0 → 1`, `2 → 3 → 4` again, with node 2 observed on and node 1 observed off -/

theorem c17_jt : ∃ jt, apply .same .same (Bbn.run c17_ops) = .ok jt ∧
    (∀ d ∈ jt.getCliques, (d.nodes, d.id) ∈ [([(mkNode 1 "b" []).var, (mkNode 0 "a" []).var], "0-1".toList),
       ([(mkNode 3 "d" []).var, (mkNode 2 "c" []).var], "2-3".toList),
       ([(mkNode 4 "e" []).var, (mkNode 3 "d" []).var], "3-4".toList)]) ∧
    (∃ R ∈ jt.getCliques, (R.nodes, R.id) = ([(mkNode 1 "b" []).var, (mkNode 0 "a" []).var], "0-1".toList)) ∧
    (∃ R ∈ jt.getCliques, (R.nodes, R.id) = ([(mkNode 3 "d" []).var, (mkNode 2 "c" []).var], "2-3".toList)) := by
  obtain ⟨jt, hj, hc⟩ := c17_cliques
  refine ⟨jt, hj, ?_, ?_, ?_⟩
  · intro d hd
    rw [← hc]
    exact List.mem_map_of_mem (f := fun c : Clique => (c.nodes, c.id)) hd
  · have : ([(mkNode 1 "b" []).var, (mkNode 0 "a" []).var], "0-1".toList) ∈ jt.getCliques.map (fun c => (c.nodes, c.id)) := by
      rw [hc]; exact List.mem_cons_self
    exact List.mem_map.1 this
  · have : ([(mkNode 3 "d" []).var, (mkNode 2 "c" []).var], "2-3".toList) ∈ jt.getCliques.map (fun c => (c.nodes, c.id)) := by
      rw [hc]; exact List.mem_cons_of_mem _ List.mem_cons_self
    exact List.mem_map.1 this

theorem c17_edges : BOp.edges c17_ops = [(0, 1), (2, 3), (3, 4)] := by decide +kernel

theorem c17_vars : (Bbn.run c17_ops).vars.map Variable.id = [0, 1, 2, 3, 4] := by decide +kernel

/-- `c17_near_law`: node 0 gets the posterior of its component, computed from nodes 0 and 1 -/
example : ∃ jt, apply .same .same (Bbn.run c17_ops) = .ok jt ∧
    (runHist jt c17_hist).getBbnPotential (mkNode 0 "a" []).var =
      .ok ((Bbn.run c17_ops).tableOn [0, 1] (lawHist (Bbn.run c17_ops).vars c17_hist).prop (mkNode 0 "a" []).var) ∧
    ((Bbn.run c17_ops).tableOn [0, 1] (specHist (Bbn.run c17_ops).vars c17_hist) (mkNode 0 "a" []).var).map PEntry.value ≠
      ((Bbn.run c17_ops).tableOn [0] noEvidence (mkNode 0 "a" []).var).map PEntry.value := by
  obtain ⟨jt, hj, hc, ⟨R, hR, e⟩, _⟩ := c17_jt
  simp only [Prod.mk.injEq] at e
  refine ⟨jt, hj, ?_, by decide +kernel⟩
  refine c17_near_law c17_sane hj c17_hist (fun op ho => (c17_hist_ok op ho).proper) (by decide +kernel) ⟨R, hR, ?_,
    (mkNode 0 "a" []).var, by rw [e.1]; simp, EqvGen.refl _⟩ _ ?_
  · intro d hd
    have := hc d hd
    simp only [List.mem_cons, Prod.mk.injEq, List.not_mem_nil, or_false] at this
    rw [e.2]
    rcases this with ⟨_, e⟩ | ⟨_, e⟩ | ⟨_, e⟩ <;> rw [e] <;> decide +kernel
  · intro u hu
    have hui : u.id ∈ ([0, 1, 2, 3, 4] : List Int) := by rw [← c17_vars]; exact List.mem_map_of_mem hu
    have h0 : (mkNode 0 "a" []).var.id = 0 := rfl
    rw [h0]
    constructor
    · intro h
      simp only [List.mem_cons, List.not_mem_nil, or_false] at h
      rcases h with h | h
      · rw [h]; exact EqvGen.refl _
      · rw [h]; exact EqvGen.rel _ _ (by rw [c17_edges]; simp)
    · intro h
      have := (c17_apart h).1 (by omega)
      simp only [List.mem_cons, List.not_mem_nil, or_false] at hui ⊢
      omega

theorem c17_home {jt : JoinTree}
    (hc : ∀ d ∈ jt.getCliques, (d.nodes, d.id) ∈ [([(mkNode 1 "b" []).var, (mkNode 0 "a" []).var], "0-1".toList),
       ([(mkNode 3 "d" []).var, (mkNode 2 "c" []).var], "2-3".toList),
       ([(mkNode 4 "e" []).var, (mkNode 3 "d" []).var], "3-4".toList)])
    (h2 : ∃ R ∈ jt.getCliques, (R.nodes, R.id) = ([(mkNode 3 "d" []).var, (mkNode 2 "c" []).var], "2-3".toList)) {c : Clique}
    (h : HomeClique (fun p c => (p, c) ∈ BOp.edges c17_ops) jt.getCliques c 4) :
    ∀ i ∈ ([0, 1, 2, 3, 4] : List Int), i ∈ [(4 : Int)] ↔ HomeClique (fun p c => (p, c) ∈ BOp.edges c17_ops) jt.getCliques c i := by
  have ids : ∀ d ∈ jt.getCliques, d.nodeIds = d.nodes.map Variable.id := fun d _ => rfl
  have hcc := hc c h.1.1
  have h4 : (4 : Int) ∈ c.nodeIds := h.1.2 4 (Or.inl rfl)
  have hcn : c.nodeIds = [4, 3] ∧ c.id = "3-4".toList := by
    rw [ids c h.1.1] at h4 ⊢
    simp only [List.mem_cons, Prod.mk.injEq, List.not_mem_nil, or_false] at hcc
    rcases hcc with ⟨e, _⟩ | ⟨e, _⟩ | ⟨e, e'⟩
    · rw [e] at h4; exact absurd h4 (by decide)
    · rw [e] at h4; exact absurd h4 (by decide)
    · rw [e]; exact ⟨by decide, e'⟩
  intro i hi
  constructor
  · intro h'
    rw [List.mem_singleton] at h'
    rw [h']; exact h
  · intro h'
    have h1 := h'.1.2 i (Or.inl rfl)
    rw [hcn.1] at h1
    simp only [List.mem_cons, List.not_mem_nil, or_false] at h1 ⊢
    rcases h1 with h1 | rfl
    · exact h1
    · have := h'.1.2 2 (Or.inr (by rw [c17_edges]; simp))
      rw [hcn.1] at this
      exact absurd this (by decide)

/-- `c17_far_law`: node 4 is alone in the clique `3-4`; its report is computed from its own CPT only, as if node 3 were uniform -/
example : ∃ jt, apply .same .same (Bbn.run c17_ops) = .ok jt ∧
    (runHist jt c17_hist).getBbnPotential (mkNode 4 "e" []).var =
      .ok ((Bbn.run c17_ops).tableOn [4] (lawHist (Bbn.run c17_ops).vars c17_hist).prop (mkNode 4 "e" []).var) ∧
    ((Bbn.run c17_ops).tableOn [4] (specHist (Bbn.run c17_ops).vars c17_hist) (mkNode 4 "e" []).var).map PEntry.value =
      [13/24, 11/24] ∧
    (posteriorTable (Bbn.run c17_ops) (specHist (Bbn.run c17_ops).vars c17_hist) (mkNode 4 "e" []).var).map PEntry.value ≠
      [13/24, 11/24] := by
  obtain ⟨jt, hj, hc, ⟨R0, hR0, e0⟩, h2⟩ := c17_jt
  simp only [Prod.mk.injEq] at e0
  refine ⟨jt, hj, ?_, by decide +kernel, by decide +kernel⟩
  obtain ⟨c, h1, h3⟩ := c17_far_law c17_sane hj c17_hist (fun op ho => (c17_hist_ok op ho).proper)
    (v := (mkNode 4 "e" []).var) (by decide +kernel) (by
      intro R hR hmin u hu hE
      have hle := hmin R0 hR0
      rw [e0.2] at hle
      have := hc R hR
      simp only [List.mem_cons, Prod.mk.injEq, List.not_mem_nil, or_false] at this
      rcases this with ⟨e1, _⟩ | ⟨_, e2⟩ | ⟨_, e2⟩
      · have h1 := c17_apart hE
        rw [e1] at hu
        simp only [List.mem_cons, List.not_mem_nil, or_false] at hu
        rcases hu with rfl | rfl <;> revert h1 <;> decide
      · rw [e2] at hle; revert hle; decide +kernel
      · rw [e2] at hle; revert hle; decide +kernel)
  refine h3 [4] ?_
  intro u hu
  have hui : u.id ∈ ([0, 1, 2, 3, 4] : List Int) := by rw [← c17_vars]; exact List.mem_map_of_mem hu
  exact c17_home hc h2 h1 u.id hui

end PyBBN
