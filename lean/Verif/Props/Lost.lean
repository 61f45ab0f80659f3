import Verif.Proofs.Lost
import Verif.Props.ComponentLaw

/-! # C30: exactly what a join tree loses when it is written and read back -/

namespace PyBBN
open Relation InferenceController

section
variable {ops : List BOp} {jt jt' : JoinTree}

theorem roundtrip_det {it : SetIter Int} {js js' : SetIter Str} {json : Bool} {j k : JoinTree}
    (h1 : Roundtrip it js js' json ops jt j) (h2 : Roundtrip it js js' json ops jt k) : j = k := by
  rw [← roundtrip_iff] at h1 h2
  rw [h1] at h2
  exact Option.some.inj h2

/-- **C30**, the law for trees with edges. The round trip always succeeds. It keeps exactly the cliques at the end of an edge; a node in
none of them can no longer be looked up, every other node can. There is no evidence. If the surviving nodes are connected, all reports
before and after later evidence are the exact posteriors of the network restricted to the surviving nodes. -/
theorem c30_lost_law (hs : Session ops jt) (hne : Dict.values jt.edges ≠ []) (it : SetIter Int) (js js' : SetIter Str) (json : Bool) :
    ∃ jt', Roundtrip it js js' json ops jt jt' ∧
      (∀ k, k ∈ jt'.getCliques.map Clique.id ↔
        ∃ c ∈ jt.getCliques, c.id = k ∧ ∃ s ∈ Dict.values jt.edges, c = s.left ∨ c = s.right) ∧
      (∀ v ∈ (Bbn.run ops).vars, jt'.getBbnNode v.id = if jt.kept v.id then some v else none) ∧
      (∀ v ∈ (Bbn.run (BOp.only jt.kept ops)).vars, Dict.get? jt'.evidences v.id = some (v.values.map (fun x => (x, 1)))) ∧
      (ConnectedOps (BOp.only jt.kept ops) → ∀ h, (∀ op ∈ h, op.2.Ok (Bbn.run (BOp.only jt.kept ops)).vars) →
        ∀ v ∈ (Bbn.run ops).vars, jt.kept v.id = true → (runHist jt' h).getBbnPotential v =
          .ok (posteriorTable (Bbn.run (BOp.only jt.kept ops)) (specHist (Bbn.run (BOp.only jt.kept ops)).vars h) v)) := by
  obtain ⟨ℓ, cs, T, h⟩ := hs.held
  have hctx := h.live.calib.ctx
  have hre := hctx.reorder it
  have hmem := hctx.spec.shape.mem_getCliques
  have hvars := only_vars h.closed
  obtain ⟨T', jt1, jt', h1, h2, h3, h4, h5⟩ := h.load_kept hne it js js' json
  have hctx' := h3.live.calib.ctx
  have hmem' := hctx'.spec.shape.mem_getCliques
  refine ⟨jt', ⟨jt1, h1, h2⟩, ?_, ?_, ?_, ?_⟩
  · intro k
    have ht : ∀ c, touched T c = true ↔ ∃ s ∈ Dict.values jt.edges, c = s.left ∨ c = s.right := by
      intro c
      rw [touched_iff]
      constructor
      · rintro ⟨s, hs, e⟩; exact ⟨s, h.edges.perm.mem_iff.2 hs, e⟩
      · rintro ⟨s, hs, e⟩; exact ⟨s, h.edges.perm.mem_iff.1 hs, e⟩
    constructor
    · intro hk
      obtain ⟨c, hc, rfl⟩ := List.mem_map.1 hk
      obtain ⟨d, hd, rfl⟩ := List.mem_map.1 ((hmem' c).1 hc)
      obtain ⟨hd1, hd2⟩ := List.mem_filter.1 hd
      exact ⟨d, (hmem d).2 hd1, (hre.id hd1).symm, (ht d).1 hd2⟩
    · rintro ⟨c, hc, rfl, hcs⟩
      have hc := (hmem c).1 hc
      rw [← hre.id hc]
      exact List.mem_map_of_mem ((hmem' _).2 (List.mem_map_of_mem (List.mem_filter.2 ⟨hc, (ht c).2 hcs⟩)))
  · intro v hv
    by_cases hk : jt.kept v.id = true
    · rw [if_pos hk]
      exact (hctx'.get_bbnNodeDict v.id v).2 ⟨(hvars v).2 ⟨hv, hk⟩, rfl⟩
    · rw [if_neg hk]
      cases hg : jt'.getBbnNode v.id with
      | none => rfl
      | some w =>
        obtain ⟨hw, e⟩ := (hctx'.get_bbnNodeDict v.id w).1 hg
        exact absurd (e ▸ ((hvars w).1 hw).2) hk
  · intro v hv
    rw [(h3.live.good.get (doms h3.sane) hv).1, h4]
    rfl
  · intro hc hist hp v hv hk
    obtain ⟨g, _⟩ := h3.hist h4 hist (fun op ho => (hp op ho).proper)
    rw [g.posterior hc ((hvars v).2 ⟨hv, hk⟩), (lawHist_ok (doms h3.sane) hist hp).1]

/-- **C30**, exactly when nothing is lost: after a round trip every node of the network can be looked up if and only if the tree has no
edges or every clique is at the end of an edge. -/
theorem c30_keeps_iff (hs : Session ops jt) {it : SetIter Int} {js js' : SetIter Str} {json : Bool}
    (hr : Roundtrip it js js' json ops jt jt') :
    (∀ v ∈ (Bbn.run ops).vars, jt'.getBbnNode v.id = some v) ↔
      (Dict.values jt.edges = [] ∨ ∀ c ∈ jt.getCliques, ∃ s ∈ Dict.values jt.edges, c = s.left ∨ c = s.right) := by
  obtain ⟨ℓ, cs, T, h⟩ := hs.held
  have hctx := h.live.calib.ctx
  have hmem := hctx.spec.shape.mem_getCliques
  constructor
  · intro hall
    by_cases hne : Dict.values jt.edges = []
    · exact Or.inl hne
    · right
      obtain ⟨jt2, g1, _, g3, _⟩ := c30_lost_law hs hne it js js' json
      cases roundtrip_det hr g1
      intro c hc
      have hc := (hmem c).1 hc
      obtain ⟨v, hv⟩ := List.exists_mem_of_ne_nil _ (hctx.ne c hc)
      have hvv := hctx.sub c hc v hv
      have := hall v hvv
      rw [g3 v hvv] at this
      by_cases hk : jt.kept v.id = true
      · rw [hctx.spec.kept_iff h.edges hc (List.mem_map_of_mem hv)] at hk
        obtain ⟨s, hs, e⟩ := touched_iff.1 hk
        exact ⟨s, h.edges.perm.mem_iff.2 hs, e⟩
      · rw [if_neg hk] at this; cases this
  · intro hre v hv
    obtain ⟨T', jt1, jt2, h1, h2, h3, _, _⟩ := h.load hre it js js' json
    cases roundtrip_det hr ⟨jt1, h1, h2⟩
    exact (h3.live.calib.ctx.get_bbnNodeDict v.id v).2 ⟨hv, rfl⟩

end

/-- `c30_lost_law`: of 0 → 1 and 2 → 3 → 4 the nodes 2, 3, 4 survive; they are connected, and the report of node 4 after observing
node 2 is the posterior in 2 → 3 → 4 -/
example : ∃ jt jt', apply .same .same (Bbn.run c17_ops) = .ok jt ∧ Session c17_ops jt ∧ Dict.values jt.edges ≠ [] ∧
    Roundtrip .same .same .same true c17_ops jt jt' ∧ [0, 1, 2, 3, 4].map jt.kept = [false, false, true, true, true] ∧
    jt'.getBbnNode 1 = none ∧ (jt'.getBbnNode 3).isSome = true ∧ ConnectedOps (BOp.only jt.kept c17_ops) ∧
    (∃ P, (jt'.getBbnPotential (mkNode 4 "e" []).var) = .ok P ∧
      P = posteriorTable (Bbn.run (BOp.only jt.kept c17_ops)) noEvidence (mkNode 4 "e" []).var) ∧
    ¬ (∀ v ∈ (Bbn.run c17_ops).vars, jt'.getBbnNode v.id = some v) := by
  have h : ((apply .same .same (Bbn.run c17_ops)).val?.map (fun jt =>
      decide (Dict.values jt.edges ≠ [] ∧ [0, 1, 2, 3, 4].map jt.kept = [false, false, true, true, true]))) = some true := by
    decide +kernel
  cases hj : apply .same .same (Bbn.run c17_ops) with
  | error e => rw [hj] at h; cases h
  | ok jt =>
    rw [hj] at h
    simp only [Py.val?, Option.map_some, Option.some.injEq, decide_eq_true_eq] at h
    have hs : Session c17_ops jt := .start .same .same c17_sane hj
    obtain ⟨jt', g1, _, g3, _, g5⟩ := c30_lost_law hs h.1 .same .same .same true
    have hk := h.2
    simp only [List.map_cons, List.map_nil, List.cons.injEq, and_true] at hk
    obtain ⟨k0, k1, k2, k3, k4⟩ := hk
    have e : BOp.only jt.kept c17_ops = BOp.only (fun i => decide (2 ≤ i)) c17_ops := by
      unfold BOp.only
      apply List.filter_congr
      intro o ho
      simp only [c17_ops, List.mem_cons, List.not_mem_nil, or_false] at ho
      rcases ho with rfl | rfl | rfl <;> simp [mkNode, *]
    have hc : ConnectedOps (BOp.only jt.kept c17_ops) := by
      rw [e]
      exact connected_of_check 2 (by decide +kernel)
    have h0 := g5 hc [] (by simp) (mkNode 4 "e" []).var (by decide +kernel) k4
    refine ⟨jt, jt', rfl, hs, h.1, g1, h.2, ?_, ?_, hc, ⟨_, h0, rfl⟩, ?_⟩
    · have := g3 (mkNode 1 "b" []).var (by decide +kernel)
      rw [show (mkNode 1 "b" []).var.id = 1 from rfl, k1] at this
      exact this
    · have := g3 (mkNode 3 "d" []).var (by decide +kernel)
      rw [show (mkNode 3 "d" []).var.id = 3 from rfl, k3] at this
      rw [this]
      rfl
    · intro hall
      have h1 := hall (mkNode 1 "b" []).var (by decide +kernel)
      have := g3 (mkNode 1 "b" []).var (by decide +kernel)
      rw [h1, show (mkNode 1 "b" []).var.id = 1 from rfl, k1] at this
      cases this

end PyBBN
