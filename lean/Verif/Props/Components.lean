import Verif.Props.Orders

/-! # Evidence on disconnected networks (C17)

After every history of evidence operations the component of the clique with the smallest id, and the components that form a
single clique, are exact; in every other component evidence does not leave the cliques of the node it is about. -/

namespace PyBBN
open Relation InferenceController

/-- every edge of the join tree joins cliques of one component of the network -/
theorem conn_eqv {b : Bbn} {cs : List Clique} {T : List SepSet} {jt : JoinTree} (h : JTSpec cs T jt) (hs : CliqueSpec b cs)
    {c d : Clique} (hc : c ∈ cs) (hd : d ∈ cs) (hcd : Conn sl sr T c.fs d.fs) :
    ∀ x ∈ c.nodeIds, ∀ y ∈ d.nodeIds, EqvGen (fun p c => p ∈ ddGet b.parents c) x y := by
  have key : c.fs = d.fs ∨ ∃ c' ∈ cs, ∃ d' ∈ cs, c'.fs = c.fs ∧ d'.fs = d.fs ∧
      ∀ x ∈ c'.nodeIds, ∀ y ∈ d'.nodeIds, EqvGen (fun p c => p ∈ ddGet b.parents c) x y := by
    refine hcd.elim (R := fun X Y => X = Y ∨ ∃ c' ∈ cs, ∃ d' ∈ cs, c'.fs = X ∧ d'.fs = Y ∧
      ∀ x ∈ c'.nodeIds, ∀ y ∈ d'.nodeIds, EqvGen (fun p c => p ∈ ddGet b.parents c) x y) (fun X => Or.inl rfl) ?_ ?_ ?_
    · rintro X Y (rfl | ⟨c', hc', d', hd', rfl, rfl, hxy⟩)
      · exact Or.inl rfl
      · exact Or.inr ⟨d', hd', c', hc', rfl, rfl, fun x hx y hy => (hxy y hy x hx).symm⟩
    · rintro X Y Z (rfl | ⟨c', hc', d', hd', rfl, rfl, hxy⟩) (h2 | ⟨c2, hc2, d2, hd2, e, rfl, hxy2⟩)
      · exact Or.inl h2
      · exact Or.inr ⟨c2, hc2, d2, hd2, e, rfl, hxy2⟩
      · subst h2; exact Or.inr ⟨c', hc', d', hd', rfl, rfl, hxy⟩
      · have e' : c2 = d' := h.fam.fs_inj hc2 hd' e
        subst e'
        obtain ⟨z, hz⟩ := List.exists_mem_of_ne_nil _ (hs.ne c2 hc2)
        exact Or.inr ⟨c', hc', d2, hd2, rfl, rfl, fun x hx y hy => (hxy x hx z hz).trans _ _ _ (hxy2 z hz y hy)⟩
    · intro s hsT
      have hg := h.shape.good s hsT
      obtain ⟨i, hi⟩ := hg.common
      refine Or.inr ⟨s.left, hg.left, s.right, hg.right, rfl, rfl, ?_⟩
      intro x hx y hy
      exact (MoralAdj.eqv (hs.comp _ hg.left _ hx _ hi.1)).trans _ _ _ (MoralAdj.eqv (hs.comp _ hg.right _ hi.2 _ hy))
  intro x hx y hy
  rcases key with e | ⟨c', hc', d', hd', e1, e2, hxy⟩
  · have e' : c = d := h.fam.fs_inj hc hd e
    subst e'
    exact MoralAdj.eqv (hs.comp _ hc _ hx _ hy)
  · have e1' : c' = c := h.fam.fs_inj hc' hc e1
    have e2' : d' = d := h.fam.fs_inj hd' hd e2
    subst e1'; subst e2'
    exact hxy x hx y hy

theorem same_cliques {a b : JoinTree} (h : SameTree a b) : a.getCliques = b.getCliques := by
  unfold JoinTree.getCliques
  rw [h.nodes]

variable {it : SetIter Int} {js : SetIter Str} {ops : List BOp} {jt : JoinTree}

/-- **C17** after every history of evidence operations, what holds: the reports are the exact posteriors for the propagated
likelihoods for the nodes connected with a node of the clique with the smallest id, and for the nodes of components whose nodes
are pairwise adjacent or co-parents. Missing: the other nodes, see `c17_stays_local` and `c17_false`. -/
theorem c17_history_partial (hu : Net.Sane ops) (hj : apply it js (Bbn.run ops) = .ok jt) (h : List (SetIter Str × EvOp))
    (hp : ∀ op ∈ h, op.2.Proper (Bbn.run ops).vars)
    (hpos : (Bbn.run ops).total (lawHist (Bbn.run ops).vars h).prop ≠ 0) :
    let E := fun p c => (p, c) ∈ BOp.edges ops
    ∀ v ∈ (Bbn.run ops).vars,
      (∃ R ∈ jt.getCliques, (∀ d ∈ jt.getCliques, strLe R.id d.id = true) ∧ ∃ u ∈ R.nodes, EqvGen E u.id v.id) ∨
      (∀ x ∈ (Bbn.run ops).vars, ∀ y ∈ (Bbn.run ops).vars, EqvGen E v.id x.id → EqvGen E v.id y.id → x.id ≠ y.id →
        Moral E x.id y.id) →
      (runHist jt h).getBbnPotential v = .ok (posteriorTable (Bbn.run ops) (lawHist (Bbn.run ops).vars h).prop v) := by
  intro E v hv hcase
  obtain ⟨T, hl, _, hst⟩ := live_law hu hj h hp
  refine calib_component it ops hu.wf hl.calib hpos v hv ?_
  rw [same_cliques hst]
  exact hcase

/-- **C17** for the other nodes: the report of a node not connected with the clique of the smallest id depends only on the
evidence about nodes that share a clique with it. Two histories that leave the same propagated likelihoods on those nodes give
the same report, whatever they say about the rest of its component. -/
theorem c17_stays_local (hu : Net.Sane ops) (hj : apply it js (Bbn.run ops) = .ok jt) (h1 h2 : List (SetIter Str × EvOp))
    (hp1 : ∀ op ∈ h1, op.2.Proper (Bbn.run ops).vars) (hp2 : ∀ op ∈ h2, op.2.Proper (Bbn.run ops).vars)
    {v : Variable} (hv : v ∈ (Bbn.run ops).vars)
    (hfar : ∀ R ∈ jt.getCliques, (∀ d ∈ jt.getCliques, strLe R.id d.id = true) →
      ∀ u ∈ R.nodes, ¬ EqvGen (fun p c => (p, c) ∈ BOp.edges ops) u.id v.id)
    (hsame : ∀ c ∈ jt.getCliques, v ∈ c.nodes → ∀ u ∈ c.nodes, ∀ x ∈ u.values,
      (lawHist (Bbn.run ops).vars h1).prop u.id x = (lawHist (Bbn.run ops).vars h2).prop u.id x) :
    (runHist jt h1).getBbnPotential v = (runHist jt h2).getBbnPotential v := by
  have hi := bbn_run_inv ops
  have hN := Bbn.net_ok hi hu.wf
  have hs := (triangulate_spec it hi).1
  have hE : (fun p c => p ∈ ddGet (Bbn.run ops).parents c) = fun p c => (p, c) ∈ BOp.edges ops := by
    funext p c
    exact propext (parents_requested ops p c)
  -- one history: the report is the marginal of the factors of the node's parent clique
  have one : ∀ h : List (SetIter Str × EvOp), (∀ op ∈ h, op.2.Proper (Bbn.run ops).vars) →
      ∃ c ∈ jt.getCliques, v ∈ c.nodes ∧ pcOf jt.heap v = c.id ∧
        (∀ u ∈ (Bbn.run ops).vars, pcOf jt.heap u = c.id → u ∈ c.nodes) ∧
        (c.nodes.map Variable.id).Nodup ∧ (∀ u ∈ c.nodes, u ∈ (Bbn.run ops).vars) ∧
        (runHist jt h).getBbnPotential v = PotentialUtil.normalize (tab [v]
          (elim (domOf (Bbn.run ops).vars) ((vids c.nodes).filter (fun i => decide (i ∉ [v.id])))
            (wprod (pcOf jt.heap) ((Bbn.run ops).net.w (lawHist (Bbn.run ops).vars h).prop) (Bbn.run ops).vars c.id))) := by
    intro h hp
    obtain ⟨T, hl, _, hst⟩ := live_law hu hj h hp
    obtain ⟨R, ks, vs, c, hR, hcomp, hc, hpc, hrep⟩ := hl.calib.reads hN hv
    have hspec := hl.calib.ctx.spec
    have hmem : ∀ d, d ∈ jt.getCliques ↔ d ∈ (Triangulator.triangulate it (moralize (Bbn.run ops))).1 := by
      intro d; rw [← same_cliques hst]; exact hspec.shape.mem_getCliques d
    have hin : ∀ u ∈ (Bbn.run ops).vars, pcOf jt.heap u = c.id → u ∈ c.nodes := by
      intro u hu' hup
      obtain ⟨o, ho, _, d, hd, he, hf⟩ := hl.calib.done u hu'
      have : pcOf (runHist jt h).heap u = d.id := by unfold pcOf; rw [ho]; simp [he]
      rw [hst.heap, hup] at this
      have e := (hspec.fam.id_iff hc hd).1 this
      subst e
      exact hf u (hN.self u hu')
    have hvc : v ∈ c.nodes := hin v hv (by rw [← hst.heap]; exact hpc)
    refine ⟨c, (hmem c).2 hc, hvc, by rw [← hst.heap]; exact hpc, hin, hspec.fam.nodup c hc, hl.calib.ctx.sub c hc, ?_⟩
    have hnk : c.id ∉ ks := by
      intro hk
      obtain ⟨C, hC, e, hRC⟩ := (hcomp.mem _).1 hk
      have e' := (hspec.fam.id_iff hC hc).1 e
      subst e'
      have hRm := hcomp.root
      have hmin : ∀ d ∈ jt.getCliques, strLe R.id d.id = true := by
        rw [← same_cliques hst]
        intro d hd
        have hsort := sortBy_sorted (fun a b => strLe (Clique.id a) (Clique.id b)) (fun a b => strLe_total _ _)
          (fun a b c => strLe_trans _ _ _) (runHist jt h).getCliques
        unfold startClique at hR
        cases hl' : sortBy (fun a b => strLe (Clique.id a) (Clique.id b)) (runHist jt h).getCliques with
        | nil => rw [hl'] at hR; cases hR
        | cons y ys =>
          rw [hl'] at hR hsort
          simp only [List.head?_cons, Option.some.injEq] at hR
          subst hR
          have h1 : d ∈ y :: ys := by rw [← hl', mem_sortBy]; exact hd
          rcases List.mem_cons.1 h1 with rfl | h1
          · exact strLe_refl _
          · exact (List.pairwise_cons.1 hsort).1 d h1
      obtain ⟨z, hz⟩ := List.exists_mem_of_ne_nil _ (hs.ne R hRm)
      obtain ⟨u, huR, rfl⟩ := List.mem_map.1 hz
      refine hfar R ((hmem R).2 hRm) hmin u huR ?_
      rw [← hE]
      exact conn_eqv hspec hs hRm hC hRC _ hz _ (List.mem_map_of_mem hvc)
    rw [if_neg hnk, hst.heap] at hrep
    exact hrep
  obtain ⟨c, hc, hvc, hpc, hin, hnd, hsub, e1⟩ := one h1 hp1
  obtain ⟨c', hc', hvc', hpc', hin', _, _, e2⟩ := one h2 hp2
  rw [e1, e2]
  have hcc : c'.id = c.id := hpc'.symm.trans hpc
  have hcc' : c' = c := by
    obtain ⟨T, hl, _, hst⟩ := live_law hu hj h1 hp1
    have hspec := hl.calib.ctx.spec
    rw [← same_cliques hst] at hc hc'
    exact (hspec.fam.id_iff ((hspec.shape.mem_getCliques _).1 hc') ((hspec.shape.mem_getCliques _).1 hc)).1 hcc
  subst hcc'
  congr 1
  refine tab_congr (by simp) ?_
  intro σ hσ
  have hvn := vars_nodup hi
  have hDom := domOf_ok hvn
  refine elim_congr_dom (fun i => i ∈ vids c'.nodes) _ ?_ σ ?_
  · intro τ hτ
    unfold wprod
    congr 1
    refine List.map_congr_left ?_
    intro u hu'
    obtain ⟨hu1, hu2⟩ := List.mem_filter.1 hu'
    have huc := hin u hu1 (by simpa using hu2)
    unfold Net.w
    rw [hsame c' hc hvc u huc (τ u.id)]
    have := hτ u.id (Or.inl (List.mem_map_of_mem huc))
    rwa [hDom u hu1] at this
  · intro i hi' hni
    obtain ⟨u, huc, rfl⟩ := List.mem_map.1 hi'
    have : u.id = v.id := by
      by_contra hne
      exact hni (List.mem_filter.2 ⟨hi', by simpa using hne⟩)
    rw [this, hDom v hv]
    exact hσ v List.mem_cons_self

/-! ### the two-component network `0 → 1`, `2 → 3 → 4` with cliques `0-1`, `2-3`, `3-4` -/

theorem c17_sane : Net.Sane c17_ops := ⟨c17_wf, by decide +kernel⟩

/-- an observation of node 2 and one of node 1 -/
def c17_hist : List (SetIter Str × EvOp) :=
  [(.same, .update [Evidence.build (mkNode 2 "c" []).var .observation [("on".toList, 1)]]),
   (.rev, .update [Evidence.build (mkNode 1 "b" []).var .observation [("off".toList, 1)]])]

theorem c17_hist_ok : ∀ op ∈ c17_hist, op.2.Ok (Bbn.run c17_ops).vars := by
  intro op hop
  simp only [c17_hist, List.mem_cons, List.not_mem_nil, or_false] at hop
  rcases hop with rfl | rfl
  all_goals
    intro e he
    simp only [List.mem_cons, List.not_mem_nil, or_false] at he
    subst he
    exact ⟨by decide +kernel, unambiguous_of_check (by decide +kernel)⟩

theorem c17_prop : (lawHist (Bbn.run c17_ops).vars c17_hist).prop = specHist (Bbn.run c17_ops).vars c17_hist :=
  (lawHist_ok (doms c17_sane) c17_hist c17_hist_ok).1

theorem c17_apart {a b : Int} (h : EqvGen (fun p c => (p, c) ∈ BOp.edges c17_ops) a b) : (a ≤ 1 ↔ b ≤ 1) := by
  induction h with
  | rel a b h =>
    have : (a, b) ∈ ([(0, 1), (2, 3), (3, 4)] : List (Int × Int)) := by
      have e : BOp.edges c17_ops = [(0, 1), (2, 3), (3, 4)] := by decide +kernel
      rw [← e]; exact h
    simp only [List.mem_cons, Prod.mk.injEq, List.not_mem_nil, or_false] at this
    omega
  | refl a => rfl
  | symm a b _ ih => exact ih.symm
  | trans a b c _ _ ih1 ih2 => exact ih1.trans ih2

theorem c17_cliques : ∃ jt, apply .same .same (Bbn.run c17_ops) = .ok jt ∧
    jt.getCliques.map (fun c => (c.nodes, c.id)) =
      [([(mkNode 1 "b" []).var, (mkNode 0 "a" []).var], "0-1".toList),
       ([(mkNode 3 "d" []).var, (mkNode 2 "c" []).var], "2-3".toList),
       ([(mkNode 4 "e" []).var, (mkNode 3 "d" []).var], "3-4".toList)] := by
  have h1 : ((apply .same .same (Bbn.run c17_ops)).val?.map (fun jt => jt.getCliques.map (fun c => (c.nodes, c.id)))) =
      some [([(mkNode 1 "b" []).var, (mkNode 0 "a" []).var], "0-1".toList),
       ([(mkNode 3 "d" []).var, (mkNode 2 "c" []).var], "2-3".toList),
       ([(mkNode 4 "e" []).var, (mkNode 3 "d" []).var], "3-4".toList)] := by decide +kernel
  cases hj : apply .same .same (Bbn.run c17_ops) with
  | error e => rw [hj] at h1; cases h1
  | ok jt =>
    rw [hj] at h1
    exact ⟨jt, rfl, by simpa [Py.val?] using h1⟩

/-- `c17_history_partial` is not vacuous: node 0 is in the first clique, the history has positive weight, and the observation
of node 1 moves the report of node 0 -/
example : Net.Sane c17_ops ∧ (∀ op ∈ c17_hist, op.2.Proper (Bbn.run c17_ops).vars) ∧
    (Bbn.run c17_ops).total (lawHist (Bbn.run c17_ops).vars c17_hist).prop ≠ 0 ∧
    ∃ jt, apply .same .same (Bbn.run c17_ops) = .ok jt ∧
      (∃ R ∈ jt.getCliques, (∀ d ∈ jt.getCliques, strLe R.id d.id = true) ∧
        ∃ u ∈ R.nodes, EqvGen (fun p c => (p, c) ∈ BOp.edges c17_ops) u.id (mkNode 0 "a" []).var.id) ∧
      (posteriorTable (Bbn.run c17_ops) (specHist (Bbn.run c17_ops).vars c17_hist) (mkNode 0 "a" []).var).map PEntry.value ≠
        (posteriorTable (Bbn.run c17_ops) noEvidence (mkNode 0 "a" []).var).map PEntry.value := by
  refine ⟨c17_sane, fun op ho => (c17_hist_ok op ho).proper, by rw [c17_prop]; decide +kernel, ?_⟩
  obtain ⟨jt, hj, hc⟩ := c17_cliques
  refine ⟨jt, hj, ?_, by decide +kernel⟩
  have mem : ∀ d ∈ jt.getCliques, (d.nodes, d.id) ∈ jt.getCliques.map (fun c => (c.nodes, c.id)) := fun d hd =>
    List.mem_map_of_mem (f := fun c : Clique => (c.nodes, c.id)) hd
  have h0 : ([(mkNode 1 "b" []).var, (mkNode 0 "a" []).var], "0-1".toList) ∈ jt.getCliques.map (fun c => (c.nodes, c.id)) := by
    rw [hc]; exact List.mem_cons_self
  obtain ⟨R, hR, e⟩ := List.mem_map.1 h0
  simp only [Prod.mk.injEq] at e
  refine ⟨R, hR, ?_, (mkNode 0 "a" []).var, by rw [e.1]; simp, EqvGen.refl _⟩
  intro d hd
  have := mem d hd
  rw [hc] at this
  simp only [List.mem_cons, Prod.mk.injEq, List.not_mem_nil, or_false] at this
  rw [e.2]
  rcases this with ⟨_, e⟩ | ⟨_, e⟩ | ⟨_, e⟩ <;> rw [e] <;> decide +kernel

/-- `c17_stays_local` is not vacuous: node 4 is not connected with the clique `0-1` and shares a clique only with node 3; the
history says nothing about those two. Its report stays at the (wrong) prior although the observation of node 2 should move it. -/
example : Net.Sane c17_ops ∧ (∀ op ∈ c17_hist, op.2.Proper (Bbn.run c17_ops).vars) ∧
    ∃ jt, apply .same .same (Bbn.run c17_ops) = .ok jt ∧
      (∀ R ∈ jt.getCliques, (∀ d ∈ jt.getCliques, strLe R.id d.id = true) →
        ∀ u ∈ R.nodes, ¬ EqvGen (fun p c => (p, c) ∈ BOp.edges c17_ops) u.id (mkNode 4 "e" []).var.id) ∧
      (∀ c ∈ jt.getCliques, (mkNode 4 "e" []).var ∈ c.nodes → ∀ u ∈ c.nodes, ∀ x ∈ u.values,
        (lawHist (Bbn.run c17_ops).vars c17_hist).prop u.id x = (lawHist (Bbn.run c17_ops).vars []).prop u.id x) ∧
      (posteriorTable (Bbn.run c17_ops) (specHist (Bbn.run c17_ops).vars c17_hist) (mkNode 4 "e" []).var).map PEntry.value ≠
        (posteriorTable (Bbn.run c17_ops) noEvidence (mkNode 4 "e" []).var).map PEntry.value := by
  refine ⟨c17_sane, fun op ho => (c17_hist_ok op ho).proper, ?_⟩
  obtain ⟨jt, hj, hc⟩ := c17_cliques
  have mem : ∀ d ∈ jt.getCliques, (d.nodes, d.id) ∈ jt.getCliques.map (fun c => (c.nodes, c.id)) := fun d hd =>
    List.mem_map_of_mem (f := fun c : Clique => (c.nodes, c.id)) hd
  have h0 : ([(mkNode 1 "b" []).var, (mkNode 0 "a" []).var], "0-1".toList) ∈ jt.getCliques.map (fun c => (c.nodes, c.id)) := by
    rw [hc]; exact List.mem_cons_self
  obtain ⟨R0, hR0, e0⟩ := List.mem_map.1 h0
  simp only [Prod.mk.injEq] at e0
  refine ⟨jt, hj, ?_, ?_, by decide +kernel⟩
  · intro R hR hmin u hu hE
    have hle := hmin R0 hR0
    rw [e0.2] at hle
    have := mem R hR
    rw [hc] at this
    simp only [List.mem_cons, Prod.mk.injEq, List.not_mem_nil, or_false] at this
    rcases this with ⟨e1, _⟩ | ⟨_, e2⟩ | ⟨_, e2⟩
    · have h1 := c17_apart hE
      rw [e1] at hu
      simp only [List.mem_cons, List.not_mem_nil, or_false] at hu
      rcases hu with rfl | rfl <;> revert h1 <;> decide
    · rw [e2] at hle; revert hle; decide +kernel
    · rw [e2] at hle; revert hle; decide +kernel
  · intro c hcm hvc u hu x hx
    rw [c17_prop]
    have := mem c hcm
    rw [hc] at this
    simp only [List.mem_cons, Prod.mk.injEq, List.not_mem_nil, or_false] at this
    rcases this with ⟨e1, _⟩ | ⟨e1, _⟩ | ⟨e1, _⟩
    · rw [e1] at hvc; exact absurd hvc (by decide +kernel)
    · rw [e1] at hvc; exact absurd hvc (by decide +kernel)
    · rw [e1] at hu
      have key : ∀ u ∈ [(mkNode 4 "e" []).var, (mkNode 3 "d" []).var], ∀ x ∈ u.values,
          specHist (Bbn.run c17_ops).vars c17_hist u.id x = 1 := by decide +kernel
      exact key u hu x hx

/-- … and the two histories give the report 13/24, 11/24 (the run of the code agrees) -/
example : ((apply .same .same (Bbn.run c17_ops)).val?.bind (fun jt =>
      ((runHist jt c17_hist).getBbnPotential (mkNode 4 "e" []).var).val?)).map (fun P => P.map PEntry.value) =
    some [13/24, 11/24] := by decide +kernel

end PyBBN
