import Verif.Proofs.FamMin
import Verif.Props.Orders
import Verif.Props.Serde

/-! # `reapply` and reloading on networks that need not be connected: C28, C30

On a disconnected network the reports are not always exact (C17), but a tree that was re-run with new CPTs, or read back from a
dictionary, still answers exactly as `apply` does on the network. -/

namespace PyBBN
open Relation InferenceController

/-- the tree has the cliques of the network, and each node's table is in the smallest clique that holds its family -/
structure Placed (ops : List BOp) (jt : JoinTree) (cs : List Clique) : Prop where
  cliques : List.Forall₂ Clique.Same (Triangulator.triangulate .same (moralize (Bbn.run ops))).1 cs
  pc : ∀ v ∈ (Bbn.run ops).vars, FamMin cs (vids ((Bbn.run ops).family v)) (pcOf jt.heap v)

section
variable {ops : List BOp} {jt jt' : JoinTree} {cs cs' : List Clique} {T T' : List SepSet} {ℓ : Liks}

theorem forall₂_same_trans {cs ds es : List Clique} (h : List.Forall₂ Clique.Same cs ds) (h' : List.Forall₂ Clique.Same ds es) :
    List.Forall₂ Clique.Same cs es := by
  induction h generalizing es with
  | nil => cases h'; exact .nil
  | cons h1 _ ih =>
    cases h' with
    | cons h2 h3 => exact .cons (List.Perm.trans h1 h2) (ih h3)

theorem forall₂_reorder {φ : Clique → Clique} : ∀ {cs : List Clique}, Reorder cs φ → List.Forall₂ Clique.Same cs (cs.map φ)
  | [], _ => .nil
  | c :: cs, h => .cons (h.perm c List.mem_cons_self).symm
      (forall₂_reorder ⟨fun d hd => h.perm d (List.mem_cons_of_mem _ hd)⟩)

theorem Placed.frame (h : Placed ops jt cs) (hh : jt'.heap = jt.heap) : Placed ops jt' cs := ⟨h.cliques, by rw [hh]; exact h.pc⟩

theorem placed_apply {it : SetIter Int} {js : SetIter Str} (hu : Net.Sane ops) (hj : apply it js (Bbn.run ops) = .ok jt)
    (h : Held ops ℓ jt (Triangulator.triangulate it (moralize (Bbn.run ops))).1 T) :
    Placed ops jt (Triangulator.triangulate it (moralize (Bbn.run ops))).1 := by
  have hi := bbn_run_inv ops
  refine ⟨triangulate_same _ _ hi, ?_⟩
  intro v hv
  obtain ⟨o, o1, _, c, _, o2, _⟩ := h.live.calib.done v hv
  have h1 := (apply_pc hi hu.wf hj _ _ o1).2 _ o2
  have e : pcOf jt.heap v = c.id := by
    unfold pcOf
    rw [o1]
    simp [o2]
  rw [e]
  refine famMin_of_minClique ?_ h1
  intro x
  unfold Bbn.family
  rw [vids, List.map_append]
  simp only [List.mem_append, List.map_cons, List.map_nil]
  refine or_congr ?_ Iff.rfl
  constructor
  · intro hx
    obtain ⟨n, hn, rfl⟩ := List.mem_map.1 hx
    obtain ⟨a, b⟩ := (mem_parentNodes hi _ _).1 hn
    refine List.mem_map.2 ⟨n.var, List.mem_filterMap.2 ⟨_, b, ?_⟩, rfl⟩
    rw [(getNodes_eq hi n).1 a]
    rfl
  · intro hx
    obtain ⟨u, hu', rfl⟩ := List.mem_map.1 hx
    obtain ⟨p, hp, e⟩ := List.mem_filterMap.1 hu'
    obtain ⟨n, hn, rfl⟩ := Option.map_eq_some_iff.1 e
    have hk := hi.ginv.key p n hn
    change n.var.id = p at hk
    refine List.mem_map.2 ⟨n, (mem_parentNodes hi _ _).2 ⟨(getNodes_eq hi n).2 (by rw [hk]; exact hn), by rw [hk]; exact hp⟩, rfl⟩

theorem moralAdj_withCpts (cpts : Dict Int (List ℚ)) : MoralAdj (Bbn.run (withCpts cpts ops)) = MoralAdj (Bbn.run ops) := by
  funext x y
  unfold MoralAdj
  rw [(recpt_run cpts ops).parents]

theorem Placed.reapply (h : Placed ops jt cs) (hh : Held ops ℓ jt cs T) {js : SetIter Str} {cpts : Dict Int (List ℚ)}
    (hk : (Dict.keys cpts).Nodup) (wf : (Bbn.run (withCpts cpts ops)).WF) (hj : InferenceController.reapply js jt cpts = .ok jt') :
    Placed (withCpts cpts ops) jt' cs := by
  have hr := recpt_run cpts ops
  have hb' := bbn_run_inv (withCpts cpts ops)
  refine ⟨forall₂_same_trans (forall₂_same_symm (triangulate_same_net .same .same (bbn_run_inv ops) hb' hr.vars (moralAdj_withCpts cpts)))
    h.cliques, ?_⟩
  obtain ⟨c1, c2, c3⟩ := hh.reapply_serde hk
  refine serde_famMin hb' wf c1 hh.ne c2 c3 ?_ hj
  intro v hv o' ho' k hk'
  rw [hr.vars] at hv
  obtain ⟨o, o1, _, c, _, o2, _⟩ := hh.live.calib.done v hv
  obtain ⟨o2', d1, _, d3⟩ := hh.reapply_heap hk hv o1
  rw [ho'] at d1
  cases d1
  have e : pcOf jt.heap v = k := by
    unfold pcOf
    rw [o1]
    rw [d3] at hk'
    simp [hk']
  rw [hr.family, ← e]
  exact h.pc v hv

theorem Placed.load (h : Placed ops jt cs) (hh : Held ops ℓ jt cs T) (hr : Reloadable jt) {it : SetIter Int}
    {js js' : SetIter Str} {json : Bool} {jt1 : JoinTree}
    (hl : JoinTree.fromDict js (if json then (jt.toDict it (Bbn.run ops)).json else jt.toDict it (Bbn.run ops)) = .ok jt1)
    (hj : applyFromSerde js' jt1 = .ok jt') : Placed ops jt' (cs.map (reClique it jt)) := by
  have hctx := hh.live.calib.ctx
  have hre := hctx.reorder it
  obtain ⟨T', jt1', a1, a2, a3, a4, a5, a6⟩ := hctx.reload hh.edges hr it js (parInv_run ops).keys json
  rw [hl] at a1
  cases a1
  refine ⟨forall₂_same_trans h.cliques (forall₂_reorder hre), ?_⟩
  refine serde_famMin (bbn_run_inv ops) hh.sane.wf a2 (by simpa using hh.ne) (by intro v _; rw [a5]) (hh.load_serde it a6) ?_ hj
  intro v hv o ho k hk
  rw [a6 v hv] at ho
  cases ho
  cases hk

/-- every tree of a session is placed -/
theorem Session.placed (hs : Session ops jt) : ∃ ℓ cs T, Held ops ℓ jt cs T ∧ Placed ops jt cs := by
  induction hs with
  | start it js hu hj =>
    obtain ⟨T, h, _⟩ := held_apply_cliques hu hj
    exact ⟨_, _, T, h, placed_apply hu hj h⟩
  | evidence js op hs hn ih =>
    obtain ⟨ℓ, cs, T, h, hp⟩ := ih
    obtain ⟨jt', h1, h2, _, h4⟩ := h.live.step (Bbn.net_ok (bbn_run_inv _) h.sane.wf) h.ne h.sane.vals js op hn
    rw [h1]
    exact ⟨_, cs, T, h.frame h2 h4, hp.frame h4.heap⟩
  | recpt js cpts hs hk wf hj ih =>
    obtain ⟨ℓ, cs, T, h, hp⟩ := ih
    obtain ⟨jt', h1, h2, _⟩ := h.reapply js hk wf
    rw [hj] at h1
    cases h1
    exact ⟨_, cs, T, h2, hp.reapply h hk wf hj⟩
  | loaded it js js' json hs hr hl hj ih =>
    obtain ⟨ℓ, cs, T, h, hp⟩ := ih
    obtain ⟨T', jt1, jt', h1, h2, h3, _⟩ := h.load hr it js js' json
    rw [hl] at h1
    cases h1
    rw [hj] at h2
    cases h2
    exact ⟨_, _, T', h3, hp.load h hr hl hj⟩

/-! ### two placed trees -/

theorem start_same (h : Placed ops jt cs) (h' : Placed ops jt' cs') (hc : Ctx (Bbn.run ops).vars cs T jt)
    (hc' : Ctx (Bbn.run ops).vars cs' T' jt') (R R' : Clique) (hR : startClique jt = some R) (hR' : startClique jt' = some R') :
    R.Same R' := by
  have hf := forall₂_same_trans (forall₂_same_symm h.cliques) h'.cliques
  obtain ⟨a1, a2⟩ := head_sortBy hR
  obtain ⟨b1, b2⟩ := head_sortBy hR'
  have a1' := (hc.spec.shape.mem_getCliques _).1 a1
  have b1' := (hc'.spec.shape.mem_getCliques _).1 b1
  obtain ⟨R1, c1, c2⟩ := mem_same hf a1'
  obtain ⟨R2, d1, d2⟩ := mem_same (forall₂_same_symm hf) b1'
  have e1 := a2 R2 ((hc.spec.shape.mem_getCliques _).2 d1)
  have e2 := b2 R1 ((hc'.spec.shape.mem_getCliques _).2 c1)
  rw [← d2.id_eq] at e1
  rw [← c2.id_eq] at e2
  have hid : R1.id = R'.id := by rw [← c2.id_eq]; exact strLe_antisymm _ _ e1 e2
  have : R1 = R' := (hc'.spec.fam.id_iff c1 b1').1 hid
  rw [← this]
  exact c2

/-- two trees of the same network that are calibrated for the same likelihoods answer alike -/
theorem Held.same (h : Held ops ℓ jt cs T) (h' : Held ops ℓ jt' cs' T') (hp : Placed ops jt cs) (hp' : Placed ops jt' cs') :
    ∀ v ∈ (Bbn.run ops).vars, jt.getBbnPotential v = jt'.getBbnPotential v := by
  have hf := forall₂_same_trans (forall₂_same_symm hp.cliques) hp'.cliques
  exact h.live.calib.same h'.live.calib (Bbn.net_ok (bbn_run_inv ops) h.sane.wf) hf
    (start_same hp hp' h.live.calib.ctx h'.live.calib.ctx) (fun v hv => (hp.pc v hv).unique (hp'.pc v hv) hf)

theorem evHist_same {vars : List Variable} (hd : DomsOk vars) : ∀ (h h' : List (SetIter Str × EvOp)) {s s' : EvState},
    h.map Prod.snd = h'.map Prod.snd → (∀ (h1 h2 : List (SetIter Str × EvOp)), h = h1 ++ h2 → EvGood vars (evHist vars s h1).ev) →
    EvSame s s' → EvSame (evHist vars s h) (evHist vars s' h')
  | [], h', s, s', e, _, hs => by
      have : h' = [] := by simpa using e.symm
      subst this
      exact hs
  | op :: h, [], s, s', e, _, _ => by simp at e
  | op :: h, op' :: h', s, s', e, hpre, hs => by
      rw [List.map_cons, List.map_cons, List.cons.injEq] at e
      have hc := evOp_congr hd (hpre [] (op :: h) rfl) hs (List.Perm.refl _) (List.Perm.refl _) op.2
      have hc1 : EvSame (evOp vars s op.2).1 (evOp vars s' op'.2).1 := by
        rw [← e.1]; exact hc.1
      refine evHist_same hd h h' e.2 ?_ hc1
      intro h1 h2 e'
      exact hpre (op :: h1) h2 (by rw [e']; rfl)

/-- … and stay alike under the same operations, with the same exceptions -/
theorem Held.same_hist (H : Held ops ℓ jt cs T) (H' : Held ops ℓ jt' cs' T') (P : Placed ops jt cs) (P' : Placed ops jt' cs')
    (he : EvEq jt.evidences jt'.evidences) (h h' : List (SetIter Str × EvOp)) (hn : ∀ op ∈ h, op.2.Nodes (Bbn.run ops).vars)
    (heq : h.map Prod.snd = h'.map Prod.snd) :
    (∀ v ∈ (Bbn.run ops).vars, (runHist jt h).getBbnPotential v = (runHist jt' h').getBbnPotential v) ∧
    ∀ (k k' : SetIter Str) (op : EvOp), op.Nodes (Bbn.run ops).vars →
      (op.run k (runHist jt h)).2 = (op.run k' (runHist jt' h')).2 := by
  have hd := doms H.sane
  have hN := Bbn.net_ok (bbn_run_inv ops) H.sane.wf
  have hn' : ∀ op ∈ h', op.2.Nodes (Bbn.run ops).vars := by
    intro op ho
    have : op.2 ∈ h.map Prod.snd := by rw [heq]; exact List.mem_map_of_mem ho
    obtain ⟨o, ho', e⟩ := List.mem_map.1 this
    rw [← e]
    exact hn o ho'
  obtain ⟨a1, a2, a3⟩ := Live.hist hN H.ne H.sane.vals h (s := ⟨jt.evidences, ℓ⟩) H.live (EvEq.refl _) hn
  obtain ⟨b1, b2, b3⟩ := Live.hist hN H'.ne H'.sane.vals h' (s := ⟨jt'.evidences, ℓ⟩) H'.live (EvEq.refl _) hn'
  have hpre : ∀ (h1 h2 : List (SetIter Str × EvOp)), h = h1 ++ h2 →
      EvGood (Bbn.run ops).vars (evHist (Bbn.run ops).vars ⟨jt.evidences, ℓ⟩ h1).ev := by
    intro h1 h2 e
    obtain ⟨c1, c2, _⟩ := Live.hist hN H.ne H.sane.vals h1 (s := ⟨jt.evidences, ℓ⟩) H.live (EvEq.refl _)
      (fun o ho => hn o (by rw [e]; exact List.mem_append_left _ ho))
    exact c1.good.congr c2
  have hfin := evHist_same hd h h' (s' := ⟨jt'.evidences, ℓ⟩) heq hpre ⟨he, rfl⟩
  refine ⟨?_, ?_⟩
  · rw [← hfin.2] at b1
    exact (H.frame a1 a3).same (H'.frame b1 b3) (P.frame a3.heap) (P'.frame b3.heap)
  · intro k k' op hop
    rw [Live.hist_err hN H.ne H.sane.vals a1 a2 k op hop, Live.hist_err hN H'.ne H'.sane.vals b1 b2 k' op hop]
    exact (evOp_congr hd (hpre h [] (by simp)) hfin (List.Perm.refl _) (List.Perm.refl _) op).2

theorem Held.evEq (H : Held ops ℓ jt cs T) (H' : Held ops ℓ jt' cs' T') (hl : lik jt.evidences = lik jt'.evidences) :
    EvEq jt.evidences jt'.evidences :=
  H.live.good.eq_of_lik H'.live.good (doms H.sane) (fun v _ x _ => by rw [hl])

/-- no evidence is stored: every node has likelihood 1 for each of its values -/
theorem Held.unobserved (H : Held ops ℓ jt cs T) (hl : lik jt.evidences = noEvidence) :
    ∀ v ∈ (Bbn.run ops).vars, Dict.get? jt.evidences v.id = some (v.values.map (fun x => (x, 1))) := by
  intro v hv
  rw [(H.live.good.get (doms H.sane) hv).1, hl]
  rfl

end

/-! ## C28 -/

/-- **C28** on every network, connected or not: after any session, `reapply(join_tree, cpts)` with usable CPTs succeeds, its result
carries no evidence, and it cannot be told from the tree that `apply` builds for the network with the new CPTs: the same operations
give the same posteriors and the same exceptions, whatever the iteration orders. -/
theorem c28_any_network {ops : List BOp} {jt : JoinTree} (hs : Session ops jt) (js : SetIter Str) (cpts : Dict Int (List ℚ))
    (hk : (Dict.keys cpts).Nodup) (wf : (Bbn.run (withCpts cpts ops)).WF) :
    ∃ jt', reapply js jt cpts = .ok jt' ∧
      (∀ v ∈ (Bbn.run ops).vars, Dict.get? jt'.evidences v.id = some (v.values.map (fun x => (x, 1)))) ∧
      ∀ it js2, ∃ jt2, apply it js2 (Bbn.run (withCpts cpts ops)) = .ok jt2 ∧
        ∀ h h' : List (SetIter Str × EvOp), (∀ op ∈ h, op.2.Nodes (Bbn.run ops).vars) → h.map Prod.snd = h'.map Prod.snd →
          (∀ v ∈ (Bbn.run ops).vars, (runHist jt' h).getBbnPotential v = (runHist jt2 h').getBbnPotential v) ∧
          ∀ (k k' : SetIter Str) (op : EvOp), op.Nodes (Bbn.run ops).vars →
            (op.run k (runHist jt' h)).2 = (op.run k' (runHist jt2 h')).2 := by
  obtain ⟨ℓ, cs, T, H, P⟩ := hs.placed
  have hv := (recpt_run cpts ops).vars
  obtain ⟨jt', h1, H', hl⟩ := H.reapply js hk wf
  have P' := P.reapply H hk wf h1
  rw [← hv]
  refine ⟨jt', h1, H'.unobserved hl, ?_⟩
  intro it js2
  have hne : (Bbn.run (withCpts cpts ops)).vars ≠ [] := by
    intro e
    obtain ⟨c, hc⟩ := List.exists_mem_of_ne_nil cs H'.ne
    obtain ⟨u, hu⟩ := List.exists_mem_of_ne_nil _ (H'.live.calib.ctx.ne c hc)
    have := H'.live.calib.ctx.sub c hc u hu
    rw [e] at this
    cases this
  obtain ⟨jt2, hj⟩ := apply_ok it js2 H'.sane hne
  refine ⟨jt2, hj, ?_⟩
  obtain ⟨T2, H2, hl2⟩ := held_apply_cliques H'.sane hj
  intro h h' hn heq
  exact H'.same_hist H2 P' (placed_apply H'.sane hj H2) (H'.evEq H2 (by rw [hl, hl2])) h h' hn heq

/-! ## C30 -/

/-- **C30**, partial, every network whose tree has no edges or has every clique at the end of an edge: after any session the tree
read back with `from_dict` and run with `apply_from_serde` cannot be told from the tree that `apply` builds for the network. Missing:
trees with both edges and isolated cliques (false, `c30_false`). -/
theorem c30_reloaded_partial {ops : List BOp} {jt : JoinTree} (hs : Session ops jt)
    (hr : Dict.values jt.edges = [] ∨ ∀ c ∈ jt.getCliques, ∃ s ∈ Dict.values jt.edges, c = s.left ∨ c = s.right)
    (it : SetIter Int) (js js' : SetIter Str) (json : Bool) :
    ∃ jt', Roundtrip it js js' json ops jt jt' ∧
      (∀ v ∈ (Bbn.run ops).vars, Dict.get? jt'.evidences v.id = some (v.values.map (fun x => (x, 1)))) ∧
      ∀ it2 js2, ∃ jt2, apply it2 js2 (Bbn.run ops) = .ok jt2 ∧
        ∀ h h' : List (SetIter Str × EvOp), (∀ op ∈ h, op.2.Nodes (Bbn.run ops).vars) → h.map Prod.snd = h'.map Prod.snd →
          (∀ v ∈ (Bbn.run ops).vars, (runHist jt' h).getBbnPotential v = (runHist jt2 h').getBbnPotential v) ∧
          ∀ (k k' : SetIter Str) (op : EvOp), op.Nodes (Bbn.run ops).vars →
            (op.run k (runHist jt' h)).2 = (op.run k' (runHist jt2 h')).2 := by
  obtain ⟨ℓ, cs, T, H, P⟩ := hs.placed
  obtain ⟨T', jt1, jt', h1, h2, H', hl, _⟩ := H.load hr it js js' json
  have P' := P.load H hr h1 h2
  refine ⟨jt', ⟨jt1, h1, h2⟩, H'.unobserved hl, ?_⟩
  intro it2 js2
  have hne : (Bbn.run ops).vars ≠ [] := by
    intro e
    obtain ⟨c, hc⟩ := List.exists_mem_of_ne_nil cs H.ne
    obtain ⟨u, hu⟩ := List.exists_mem_of_ne_nil _ (H.live.calib.ctx.ne c hc)
    have := H.live.calib.ctx.sub c hc u hu
    rw [e] at this
    cases this
  obtain ⟨jt2, hj⟩ := apply_ok it2 js2 H.sane hne
  refine ⟨jt2, hj, ?_⟩
  obtain ⟨T2, H2, hl2⟩ := held_apply_cliques H.sane hj
  intro h h' hn heq
  exact H'.same_hist H2 P' (placed_apply H.sane hj H2) (H'.evEq H2 (by rw [hl, hl2])) h h' hn heq

/-! ### the network `0 → 1 → 2`, `3 → 4 → 5` with cliques `0-1`, `1-2`, `3-4`, `4-5` -/

/-- an observation of node 5 -/
def c30_hist : List (SetIter Str × EvOp) :=
  [(.same, .update [Evidence.build (mkNode 5 "f" []).var .observation [("on".toList, 1)]])]

theorem c30_hist_ok : ∀ op ∈ c30_hist, op.2.Nodes (Bbn.run c30_ops).vars := by
  intro op hop
  simp only [c30_hist, List.mem_cons, List.not_mem_nil, or_false] at hop
  subst hop
  intro e he
  simp only [List.mem_cons, List.not_mem_nil, or_false] at he
  subst he
  unfold NodeOk
  decide +kernel

/-- a tree of the network with evidence about node 5 -/
theorem c30_session : ∃ jt, apply .same .rev (Bbn.run c30_ops) = .ok jt ∧ Session c30_ops (runHist jt c30_hist) := by
  obtain ⟨jt, hj⟩ := apply_ok .same .rev c30_sane (by decide +kernel)
  exact ⟨jt, hj, session_hist (.start .same .rev c30_sane hj) _ c30_hist_ok⟩

/-- new CPTs for node 3 and node 0 -/
def c30_cpts : Dict Int (List ℚ) := [(3, [2/3, 1/3]), (0, [1/7, 6/7])]

example := fun jt (hs : Session c30_ops jt) => c28_any_network hs .rev c30_cpts (by decide +kernel)
  (wf_of_check (by decide +kernel) (by decide +kernel))

/-- C28 on this network: the trees give node 4 the same report, which is exact, and node 5 the same report, which is not (C17) -/
example : ((apply .same .rev (Bbn.run c30_ops)).val?.bind (fun jt => (reapply .rev (runHist jt c30_hist) c30_cpts).val?.map (fun j =>
      [4, 5, 0].map (fun i => ((j.getBbnPotential (mkNode i (if i = 4 then "e" else if i = 5 then "f" else "a") []).var).val?.map
        (fun P => P.map PEntry.value)))))) =
    ((apply .rev .same (Bbn.run (withCpts c30_cpts c30_ops))).val?.map (fun j =>
      [4, 5, 0].map (fun i => ((j.getBbnPotential (mkNode i (if i = 4 then "e" else if i = 5 then "f" else "a") []).var).val?.map
        (fun P => P.map PEntry.value))))) ∧
    ((apply .same .rev (Bbn.run c30_ops)).val?.bind (fun jt => (reapply .rev (runHist jt c30_hist) c30_cpts).val?.bind (fun j =>
      (j.getBbnPotential (mkNode 5 "f" []).var).val?.map (fun P => P.map PEntry.value)))) = some [7/20, 13/20] ∧
    (posteriorTable (Bbn.run (withCpts c30_cpts c30_ops)) noEvidence (mkNode 5 "f" []).var).map PEntry.value ≠ [7/20, 13/20] := by
  refine ⟨by decide +kernel, by decide +kernel, by decide +kernel⟩

/-- C30 on this network: every clique is at the end of an edge, and the tree comes back with the same report for node 5 -/
example : ∃ jt, apply .same .rev (Bbn.run c30_ops) = .ok jt ∧ Session c30_ops (runHist jt c30_hist) ∧
    (∀ c ∈ (runHist jt c30_hist).getCliques, ∃ s ∈ Dict.values (runHist jt c30_hist).edges, c = s.left ∨ c = s.right) ∧
    ((roundtrip .rev .rev .same true c30_ops (runHist jt c30_hist)).bind (fun j =>
      (j.getBbnPotential (mkNode 5 "f" []).var).val?.map (fun P => P.map PEntry.value))) = some [7/20, 13/20] := by
  obtain ⟨jt, hj, hs⟩ := c30_session
  have h : ((apply .same .rev (Bbn.run c30_ops)).val?.map (fun jt =>
      (((runHist jt c30_hist).getCliques.all (fun c => (Dict.values (runHist jt c30_hist).edges).any (fun s => c = s.left ∨ c = s.right))),
        ((roundtrip .rev .rev .same true c30_ops (runHist jt c30_hist)).bind (fun j =>
      (j.getBbnPotential (mkNode 5 "f" []).var).val?.map (fun P => P.map PEntry.value)))))) = some (true, some [7/20, 13/20]) := by
    decide +kernel
  rw [hj] at h
  simp only [Py.val?, Option.map_some, Option.some.injEq, Prod.mk.injEq] at h
  refine ⟨jt, hj, hs, ?_, h.2⟩
  have := h.1
  rw [List.all_eq_true] at this
  intro c hc
  have := this c hc
  rw [List.any_eq_true] at this
  obtain ⟨s, hs, e⟩ := this
  exact ⟨s, hs, by simpa using e⟩

end PyBBN
