import Verif.Proofs.HistoryRun
import Verif.Props.Inference

/-! # Evidence: C18 – C27

The join tree is the one `InferenceController.apply` returns for the network built by the calls `ops`; `runHist jt h` is the join
tree after the history `h` of evidence operations. `it`, `js` and the iteration orders in `h` are arbitrary. -/

namespace PyBBN
open Relation InferenceController

/-- what the evidence claims assume of a network: usable CPTs, every node has a value -/
structure Net.Sane (ops : List BOp) : Prop where
  wf : (Bbn.run ops).WF
  vals : ∀ v ∈ (Bbn.run ops).vars, v.values ≠ []

/-- … and the claims about exact posteriors: connected -/
structure Net.Usable (ops : List BOp) : Prop extends Net.Sane ops where
  conn : ConnectedOps ops

section
variable {it : SetIter Int} {js : SetIter Str} {ops : List BOp} {jt : JoinTree}

theorem vars_ne (wf : (Bbn.run ops).WF) (hj : apply it js (Bbn.run ops) = .ok jt) : (Bbn.run ops).vars ≠ [] := by
  intro h
  have hconn : ConnectedOps ops := by
    intro u hu
    rw [h] at hu
    simp at hu
  have := (c16_exact_priors it js ops wf hconn).2 h
  rw [hj] at this
  cases this

/-- `apply` returns a calibrated join tree without evidence -/
theorem live_apply (hu : Net.Sane ops) (hj : apply it js (Bbn.run ops) = .ok jt) :
    ∃ T, Live (Bbn.run ops).vars (Triangulator.triangulate it (moralize (Bbn.run ops))).1 T (Bbn.run ops).net noEvidence jt ∧
      lik jt.evidences = noEvidence ∧ (Triangulator.triangulate it (moralize (Bbn.run ops))).1 ≠ [] := by
  have h := bbn_run_inv ops
  have hne := vars_ne hu.wf hj
  obtain ⟨T, jt', a1, a2, a3, a4, a5, _⟩ := applyWith_spec it js h hu.wf hne (leftover_nil _ _)
  have : jt' = jt := by
    have e : apply it js (Bbn.run ops) = .ok jt' := a1
    rw [hj] at e
    cases e
    rfl
  subst this
  refine ⟨T, ⟨a2, a4, ?_, a5⟩, a3, (triangulate_spec it h).1.cs_ne h hne⟩
  intro v hv m hm x q hq
  have : lik jt'.evidences v.id x = q := by
    unfold lik; rw [hm]; simp [hq]
  rw [a3] at this
  have hq1 : q = 1 := this.symm
  subst hq1
  norm_num

/-- the state after any history over the network's nodes: calibrated for the machine's likelihoods -/
theorem live_hist (hu : Net.Sane ops) (hj : apply it js (Bbn.run ops) = .ok jt) (h : List (SetIter Str × EvOp))
    (hn : ∀ op ∈ h, op.2.Nodes (Bbn.run ops).vars) :
    ∃ T s0, lik s0.ev = noEvidence ∧ s0.prop = noEvidence ∧ EvGood (Bbn.run ops).vars s0.ev ∧
      Live (Bbn.run ops).vars (Triangulator.triangulate it (moralize (Bbn.run ops))).1 T (Bbn.run ops).net
        (evHist (Bbn.run ops).vars s0 h).prop (runHist jt h) ∧
      EvEq (runHist jt h).evidences (evHist (Bbn.run ops).vars s0 h).ev ∧ SameTree (runHist jt h) jt := by
  obtain ⟨T, h1, h2, h3⟩ := live_apply hu hj
  obtain ⟨a, b, c⟩ := Live.hist (Bbn.net_ok (bbn_run_inv ops) hu.wf) h3 hu.vals h (s := ⟨jt.evidences, noEvidence⟩) h1 (EvEq.refl _) hn
  exact ⟨T, ⟨jt.evidences, noEvidence⟩, h2, rfl, h1.good, a, b, c⟩

theorem doms (hu : Net.Sane ops) : DomsOk (Bbn.run ops).vars :=
  ⟨vars_nodup (bbn_run_inv ops), by
    intro v hv
    obtain ⟨n, hn, rfl⟩ := List.mem_map.1 hv
    exact hu.wf.values n hn, hu.vals⟩

/-- the same for a proper history: the law of `Spec/Evidence.lean` -/
theorem live_law (hu : Net.Sane ops) (hj : apply it js (Bbn.run ops) = .ok jt) (h : List (SetIter Str × EvOp))
    (hp : ∀ op ∈ h, op.2.Proper (Bbn.run ops).vars) :
    ∃ T, Live (Bbn.run ops).vars (Triangulator.triangulate it (moralize (Bbn.run ops))).1 T (Bbn.run ops).net
        (lawHist (Bbn.run ops).vars h).prop (runHist jt h) ∧
      lik (runHist jt h).evidences = specHist (Bbn.run ops).vars h ∧ SameTree (runHist jt h) jt := by
  have hd := doms hu
  obtain ⟨T, s0, h1, h2, h3, h4, h5, h6⟩ := live_hist hu hj h (fun op ho => (hp op ho).nodes hd)
  obtain ⟨b1, b2, b3⟩ := evHist_law hd h h3 (l := ⟨noEvidence, noEvidence⟩) h1 h2 hp
  refine ⟨T, ?_, ?_, h6⟩
  · rw [b3] at h4; exact h4
  · rw [h5.lik, b2]; exact lawHist_stored _ h

theorem live_posterior {T : List SepSet} {ℓ : Liks} {jt : JoinTree} (hu : Net.Usable ops)
    (h : Live (Bbn.run ops).vars (Triangulator.triangulate it (moralize (Bbn.run ops))).1 T (Bbn.run ops).net ℓ jt) :
    ∀ v ∈ (Bbn.run ops).vars, jt.getBbnPotential v = .ok (posteriorTable (Bbn.run ops) ℓ v) := by
  intro v hv
  have hi := bbn_run_inv ops
  rw [h.calib.posterior_conn (Bbn.net_ok hi hu.wf) (connected_cliques hu.conn (triangulate_spec it hi).1 h.calib.ctx.spec) hv,
    exactAnswer_eq hi]

theorem stored_get {T : List SepSet} {ℓ : Liks} {jt : JoinTree} (hu : Net.Sane ops)
    (h : Live (Bbn.run ops).vars (Triangulator.triangulate it (moralize (Bbn.run ops))).1 T (Bbn.run ops).net ℓ jt) :
    ∀ v ∈ (Bbn.run ops).vars, Dict.get? jt.evidences v.id = some (v.values.map (fun x => (x, lik jt.evidences v.id x))) :=
  fun _ hv => (h.good.get (doms hu) hv).1

end

/-! ## C18 -/

/-- **C18**, the exact law of the library: after any history of evidence about nodes and values of a connected network, the
stored likelihoods are those of `specHist`, and the posteriors are exact for the likelihoods that were stored when evidence was
last *seen*. Evidence goes unseen when all likelihoods were and are 1, or when exactly one likelihood was 1, exactly one is now,
and for the same value. -/
theorem c18_law {it : SetIter Int} {js : SetIter Str} {ops : List BOp} {jt : JoinTree} (hu : Net.Usable ops)
    (hj : apply it js (Bbn.run ops) = .ok jt) (h : List (SetIter Str × EvOp)) (hp : ∀ op ∈ h, op.2.Proper (Bbn.run ops).vars) :
    ∀ v ∈ (Bbn.run ops).vars,
      Dict.get? (runHist jt h).evidences v.id = some (v.values.map (fun x => (x, specHist (Bbn.run ops).vars h v.id x))) ∧
      (runHist jt h).getBbnPotential v = .ok (posteriorTable (Bbn.run ops) (lawHist (Bbn.run ops).vars h).prop v) := by
  obtain ⟨T, h1, h2, _⟩ := live_law hu.toSane hj h hp
  intro v hv
  refine ⟨?_, live_posterior hu h1 v hv⟩
  rw [stored_get hu.toSane h1 v hv, h2]

/-- **C18**, partial: posteriors are exact for the stored likelihoods after any history of evidence operations, provided no
evidence is *ambiguous* (exactly one likelihood 1 next to one strictly between 0 and 1, only possible for virtual evidence).
Missing: ambiguous virtual evidence, for which the claim fails (`c18_false`). -/
theorem c18_posteriors_exact_partial {it : SetIter Int} {js : SetIter Str} {ops : List BOp} {jt : JoinTree} (hu : Net.Usable ops)
    (hj : apply it js (Bbn.run ops) = .ok jt) (h : List (SetIter Str × EvOp)) (hp : ∀ op ∈ h, op.2.Ok (Bbn.run ops).vars) :
    ∀ v ∈ (Bbn.run ops).vars,
      Dict.get? (runHist jt h).evidences v.id = some (v.values.map (fun x => (x, specHist (Bbn.run ops).vars h v.id x))) ∧
      (runHist jt h).getBbnPotential v = .ok (posteriorTable (Bbn.run ops) (specHist (Bbn.run ops).vars h) v) := by
  have := c18_law hu hj h (fun op ho => (hp op ho).proper)
  rw [(lawHist_ok (doms hu.toSane) h hp).1] at this
  exact this

/-- the example network of C16 -/
theorem c16_usable : Net.Usable c16_ops := ⟨⟨c16_wf, by decide +kernel⟩, c16_connected⟩

/-- node `i` of the example network -/
def c16_node (i : Int) : Variable := (mkNode i (match i with | 0 => "a" | 1 => "b" | 2 => "c" | 3 => "d" | _ => "e") []).var

/-- a history with all kinds of operations on the example network -/
def c18_hist : List (SetIter Str × EvOp) :=
  [(.same, .update [Evidence.build (c16_node 4) .observation [("on".toList, 1)],
      Evidence.build (c16_node 1) .virtual [("on".toList, 3/4), ("off".toList, 1/4)]]),
   (.rev, .observe (Evidence.build (c16_node 2) .observation [("off".toList, 1)])),
   (.same, .update [Evidence.build (c16_node 0) .finding [("on".toList, 2)]]),
   (.same, .unobserve [c16_node 0])]

theorem unambiguous_of_check {ds : List Str} {c : Str → ℚ}
    (h : ds.all (fun a => decide (c a ≠ 1) || ds.any (fun b => decide (b ≠ a ∧ c b = 1)) ||
      ds.all (fun b => decide (b = a ∨ c b = 0))) = true) : Unambiguous ds c := by
  intro a ha h1 h2 b hb hba
  rw [List.all_eq_true] at h
  have := h a ha
  simp only [Bool.or_eq_true, decide_eq_true_eq] at this
  rcases this with (h3 | h3) | h3
  · exact absurd h1 h3
  · rw [List.any_eq_true] at h3
    obtain ⟨b', hb', h4⟩ := h3
    simp only [decide_eq_true_eq] at h4
    exact absurd h4.2 (h2 b' hb' h4.1)
  · rw [List.all_eq_true] at h3
    have := h3 b hb
    simp only [decide_eq_true_eq] at this
    exact this.resolve_left hba

instance (vars : List Variable) (e : Evidence) : Decidable (e.Proper vars) :=
  decidable_of_iff (e.node ∈ vars ∧ (Dict.keys e.values).Nodup ∧ ∀ k ∈ Dict.keys e.values, k ∈ e.node.values)
    ⟨fun h => ⟨h.1, h.2.1, h.2.2⟩, fun h => ⟨h.1, h.2, h.3⟩⟩

theorem c18_hist_ok : ∀ op ∈ c18_hist, op.2.Ok (Bbn.run c16_ops).vars := by
  intro op hop
  simp only [c18_hist, List.mem_cons, List.not_mem_nil, or_false] at hop
  rcases hop with rfl | rfl | rfl | rfl
  · intro e he
    simp only [List.mem_cons, List.not_mem_nil, or_false] at he
    rcases he with rfl | rfl
    · exact ⟨by decide +kernel, unambiguous_of_check (by decide +kernel)⟩
    · exact ⟨by decide +kernel, unambiguous_of_check (by decide +kernel)⟩
  · exact ⟨by decide +kernel, unambiguous_of_check (by decide +kernel)⟩
  · intro e he
    simp only [List.mem_cons, List.not_mem_nil, or_false] at he
    subst he
    exact ⟨by decide +kernel, unambiguous_of_check (by decide +kernel)⟩
  · intro v hv
    simp only [List.mem_cons, List.not_mem_nil, or_false] at hv
    subst hv
    decide +kernel


/-- C18 is not vacuous: a history with observation, virtual and finding evidence, `set_observation` and `unobserve`, on the
example network; the posterior of node 0 is 56/155, 99/155 -/
example : Net.Usable c16_ops ∧ (∀ op ∈ c18_hist, op.2.Ok (Bbn.run c16_ops).vars) ∧
    ((apply .rev .same (Bbn.run c16_ops)).val?.bind (fun jt => ((runHist jt c18_hist).getBbnPotential (c16_node 0)).val?)).map
      (fun P => P.map PEntry.value) = some [56 / 155, 99 / 155] ∧
    (posteriorTable (Bbn.run c16_ops) (specHist (Bbn.run c16_ops).vars c18_hist) (c16_node 0)).map PEntry.value =
      [56 / 155, 99 / 155] :=
  ⟨c16_usable, c18_hist_ok, by decide +kernel, by decide +kernel⟩

theorem c18_hist_proper : ∀ op ∈ c18_hist, op.2.Proper (Bbn.run c16_ops).vars := fun op ho => (c18_hist_ok op ho).proper

theorem c18_hist_nodes : ∀ op ∈ c18_hist, op.2.Nodes (Bbn.run c16_ops).vars :=
  fun op ho => (c18_hist_proper op ho).nodes (doms c16_usable.toSane)

/-- the theorems at this network and history -/
example := c18_law c16_usable (c16_jt_ok .same .rev) c18_hist c18_hist_proper
example := c18_posteriors_exact_partial c16_usable (c16_jt_ok .rev .same) c18_hist c18_hist_ok

/-- an observation followed by virtual evidence that keeps likelihood 1 on the observed value -/
def c18_bad : List (SetIter Str × EvOp) :=
  [(.same, .update [Evidence.build (c16_node 4) .observation [("on".toList, 1)]]),
   (.same, .update [Evidence.build (c16_node 4) .virtual [("on".toList, 1), ("off".toList, 1/2)]])]

theorem posterior_of_eval {ops : List BOp} {h : List (SetIter Str × EvOp)} {v : Variable} {l : List ℚ}
    (he : ((apply .same .same (Bbn.run ops)).val?.bind (fun jt => ((runHist jt h).getBbnPotential v).val?)).map
      (fun P => P.map PEntry.value) = some l) :
    ∃ jt P, apply .same .same (Bbn.run ops) = .ok jt ∧ (runHist jt h).getBbnPotential v = .ok P ∧ P.map PEntry.value = l := by
  cases hj : apply .same .same (Bbn.run ops) with
  | error e => rw [hj] at he; cases he
  | ok jt =>
    cases hP : (runHist jt h).getBbnPotential v with
    | error e => rw [hj] at he; simp [Py.val?, hP] at he
    | ok P =>
      rw [hj] at he
      simp only [Py.val?, Option.bind_some, hP, Option.map_some, Option.some.injEq] at he
      exact ⟨jt, P, rfl, hP, he⟩

/-- **C18 is false of the code**: after observing node 4 and then giving it the virtual evidence `on: 1, off: 1/2`, the stored
likelihoods are the virtual ones but the posterior of node 0 is still the one for the observation. -/
theorem c18_false : Net.Usable c16_ops ∧ (∀ op ∈ c18_bad, op.2.Proper (Bbn.run c16_ops).vars) ∧
    ∃ jt P, apply .same .same (Bbn.run c16_ops) = .ok jt ∧ (runHist jt c18_bad).getBbnPotential (c16_node 0) = .ok P ∧
      P.map PEntry.value = [110 / 447, 337 / 447] ∧
      (posteriorTable (Bbn.run c16_ops) (specHist (Bbn.run c16_ops).vars c18_bad) (c16_node 0)).map PEntry.value =
        [270 / 1087, 817 / 1087] := by
  refine ⟨c16_usable, ?_, ?_⟩
  · intro op hop
    simp only [c18_bad, List.mem_cons, List.not_mem_nil, or_false] at hop
    rcases hop with rfl | rfl
    · intro e he
      simp only [List.mem_cons, List.not_mem_nil, or_false] at he
      subst he
      decide +kernel
    · intro e he
      simp only [List.mem_cons, List.not_mem_nil, or_false] at he
      subst he
      decide +kernel
  · obtain ⟨jt, P, h1, h2, h3⟩ := posterior_of_eval (ops := c16_ops) (h := c18_bad) (v := c16_node 0) (l := [110 / 447, 337 / 447])
      (by decide +kernel)
    exact ⟨jt, P, h1, h2, h3, by decide +kernel⟩

/-! ## C19 -/

/-- **C19**. After `apply` and any history of evidence operations on a connected network there are likelihoods `ℓ` (those of the
last propagation; the stored ones if no evidence was ambiguous) such that every clique and separation set has a table over its
variables giving exactly the joint weight of their values, and marginalizing a clique onto an adjacent separation set gives the
separation set's table. -/
theorem c19_calibrated {it : SetIter Int} {js : SetIter Str} {ops : List BOp} {jt : JoinTree} (hu : Net.Usable ops)
    (hj : apply it js (Bbn.run ops) = .ok jt) (h : List (SetIter Str × EvOp)) (hn : ∀ op ∈ h, op.2.Nodes (Bbn.run ops).vars) :
    ∃ ℓ : Liks, ((∀ op ∈ h, op.2.Proper (Bbn.run ops).vars) → ℓ = (lawHist (Bbn.run ops).vars h).prop) ∧
      ((∀ op ∈ h, op.2.Ok (Bbn.run ops).vars) → ℓ = specHist (Bbn.run ops).vars h) ∧
      (∀ k n, Dict.get? (runHist jt h).nodes k = some n → ∃ P, Dict.get? (runHist jt h).potentials k = some P ∧ P.Over n.vars ∧
        ∀ σ, InDom n.vars σ → P.at n.vars σ = some ((Bbn.run ops).joint ℓ n.vars σ)) ∧
      (∀ c ∈ (runHist jt h).getCliques, ∀ s ∈ (runHist jt h).getSepSets, s.id ∈ ddGet (runHist jt h).neighbors c.id →
        ∃ P Q, Dict.get? (runHist jt h).potentials c.id = some P ∧ Dict.get? (runHist jt h).potentials s.id = some Q ∧
          PotentialUtil.marginalize P s.nodes = Q) := by
  have hd := doms hu.toSane
  have hi := bbn_run_inv ops
  have hN := Bbn.net_ok hi hu.wf
  obtain ⟨T, s0, h1, h2, h3, h4, h5, h6⟩ := live_hist hu.toSane hj h hn
  have hcc := connected_cliques hu.conn (triangulate_spec it hi).1 h4.calib.ctx.spec
  have hlaw : (∀ op ∈ h, op.2.Proper (Bbn.run ops).vars) →
      (evHist (Bbn.run ops).vars s0 h).prop = (lawHist (Bbn.run ops).vars h).prop :=
    fun hp => (evHist_law hd h h3 (l := ⟨noEvidence, noEvidence⟩) h1 h2 hp).2.2
  refine ⟨(evHist (Bbn.run ops).vars s0 h).prop, hlaw, ?_, ?_, ?_⟩
  · intro hok
    rw [hlaw (fun op ho => (hok op ho).proper)]
    exact (lawHist_ok hd h hok).1
  · intro k n hk
    obtain ⟨f, f1, f2, f3⟩ := h4.calib.tables_conn hN hcc (Dict.mem_keys_of_get? hk)
    have hsc : (runHist jt h).scope k = n.vars := by
      unfold JoinTree.scope; rw [hk]; rfl
    rw [hsc] at f1 f2 f3
    have hnd : (vids n.vars).Nodup := by
      have := h4.calib.ctx.spec.scope_nodup k
      rwa [hsc] at this
    refine ⟨_, f1, tab_over hnd f, ?_⟩
    intro σ hσ
    rw [at_tab hnd f2 hσ, f3 σ hσ]
    unfold jointOf Bbn.joint
    rw [Bbn.weight_eq hi]
  · intro c hc s hs hcs
    have hspec := h4.calib.ctx.spec
    rw [hspec.shape.mem_getCliques] at hc
    rw [hspec.shape.mem_getSepSets] at hs
    obtain ⟨s', hs', e, hor⟩ := (hspec.mem_nbrs_clique SetIter.same hc 0 s.id).1 ((SetIter.same.mem 0 _ _ _).2 hcs)
    have : s' = s := by
      have h1 := hspec.get_sep hs'
      have h2 := hspec.get_sep hs
      rw [e, h2] at h1
      cases h1
      rfl
    subst this
    exact h4.calib.marginal_conn hN hcc hc hs hor

/-- C19 is not vacuous: the example network and history of C18; its join tree has a separation set next to a clique -/
example : Net.Usable c16_ops ∧ (∀ op ∈ c18_hist, op.2.Nodes (Bbn.run c16_ops).vars) ∧
    ((apply .same .same (Bbn.run c16_ops)).val?.map (fun jt => (runHist jt c18_hist).getSepSets.map (fun s =>
      (s.nodes.map Variable.id, (ddGet (runHist jt c18_hist).neighbors s.id).length)))) = some [([1, 2], 2), ([3], 2)] :=
  ⟨c16_usable, fun op ho => (c18_hist_ok op ho).proper.nodes (doms c16_usable.toSane), by decide +kernel⟩

example := c19_calibrated c16_usable (c16_jt_ok .same .same) c18_hist c18_hist_nodes

/-! ## C21 -/

theorem sum_by_value {α : Type} (f : α → Str) (w : α → ℚ) {ds : List Str} (hd : ds.Nodup) : ∀ (l : List α), (∀ a ∈ l, f a ∈ ds) →
    (ds.map (fun x => ((l.filter (fun a => decide (f a = x))).map w).sum)).sum = (l.map w).sum
  | [], _ => by simp
  | a :: l, h => by
      have ih := sum_by_value f w hd l (fun b hb => h b (List.mem_cons_of_mem _ hb))
      have ha := h a List.mem_cons_self
      have e : ∀ x, (((a :: l).filter (fun a => decide (f a = x))).map w).sum =
          (if f a = x then w a else 0) + ((l.filter (fun a => decide (f a = x))).map w).sum := by
        intro x
        by_cases hx : f a = x
        · rw [List.filter_cons_of_pos (by simpa using hx), List.map_cons, List.sum_cons, if_pos hx]
        · rw [List.filter_cons_of_neg (by simpa using hx), if_neg hx, zero_add]
      simp only [e]
      have hsum : ∀ (ds : List Str) (g h : Str → ℚ), (ds.map (fun x => g x + h x)).sum = (ds.map g).sum + (ds.map h).sum := by
        intro ds g h
        induction ds with
        | nil => simp
        | cons d ds ih2 => simp only [List.map_cons, List.sum_cons, ih2]; ring
      rw [hsum, ih, List.map_cons, List.sum_cons]
      congr 1
      have hone : ∀ (ds : List Str), ds.Nodup → f a ∈ ds → (ds.map (fun x => if f a = x then w a else 0)).sum = w a := by
        intro ds
        induction ds with
        | nil => intro _ h; simp at h
        | cons d ds ih3 =>
          intro hn hm
          rw [List.nodup_cons] at hn
          rw [List.map_cons, List.sum_cons]
          by_cases hfd : f a = d
          · rw [if_pos hfd]
            have : (ds.map (fun x => if f a = x then w a else 0)).sum = 0 := by
              apply List.sum_eq_zero
              intro q hq
              obtain ⟨x, hx, rfl⟩ := List.mem_map.1 hq
              rw [if_neg]
              rintro rfl
              exact hn.1 (hfd ▸ hx)
            rw [this, add_zero]
          · rw [if_neg hfd, zero_add]
            exact ih3 hn.2 ((List.mem_cons.1 hm).resolve_left hfd)
      exact hone ds hd ha

theorem weight_nonneg {ops : List BOp} (wf : (Bbn.run ops).WF) {ℓ : Liks} (hℓ : ∀ i x, 0 ≤ ℓ i x) (σ : Asg) :
    0 ≤ (Bbn.run ops).weight ℓ σ := by
  have hi := bbn_run_inv ops
  rw [Bbn.weight_eq hi]
  exact prod_map_nonneg (fun v => (Bbn.run ops).net.w ℓ v) σ _ (fun v hv => Net.w_nonneg (Bbn.net_ok hi wf) hℓ hv σ)

/-- posterior tables for non-negative likelihoods are distributions, or zero -/
theorem posterior_dist {ops : List BOp} (hu : Net.Usable ops) {ℓ : Liks} (hℓ : ∀ i x, 0 ≤ ℓ i x) {v : Variable}
    (hv : v ∈ (Bbn.run ops).vars) :
    (∀ e ∈ posteriorTable (Bbn.run ops) ℓ v, 0 ≤ e.value) ∧
    ((Bbn.run ops).total ℓ ≠ 0 → ((posteriorTable (Bbn.run ops) ℓ v).map PEntry.value).sum = 1) ∧
    ((Bbn.run ops).total ℓ = 0 → ∀ e ∈ posteriorTable (Bbn.run ops) ℓ v, e.value = 0) := by
  have hw := fun σ => weight_nonneg hu.wf hℓ σ
  have ht : 0 ≤ (Bbn.run ops).total ℓ := by
    apply List.sum_nonneg
    intro q hq
    obtain ⟨σ, _, rfl⟩ := List.mem_map.1 hq
    exact hw σ
  refine ⟨?_, ?_, ?_⟩
  · intro e he
    obtain ⟨x, _, rfl⟩ := List.mem_map.1 he
    refine div_nonneg ?_ ht
    apply List.sum_nonneg
    intro q hq
    obtain ⟨σ, _, rfl⟩ := List.mem_map.1 hq
    exact hw σ
  · intro hne
    unfold posteriorTable
    rw [List.map_map]
    have e : (PEntry.value ∘ fun x => (⟨[(v.id, x)], (Bbn.run ops).posterior ℓ v.id x⟩ : PEntry)) =
        fun x => (Bbn.run ops).mass ℓ v.id x * ((Bbn.run ops).total ℓ)⁻¹ := by
      funext x
      exact div_eq_mul_inv _ _
    rw [e, List.sum_map_mul_right]
    have := sum_by_value (fun σ : Asg => σ v.id) ((Bbn.run ops).weight ℓ) ((doms hu.toSane).vals v hv) (allAsg (Bbn.run ops).vars)
      (fun σ hσ => allAsg_mem_dom _ (doms hu.toSane).vn σ hσ v hv)
    unfold Bbn.mass
    rw [this]
    exact mul_inv_cancel₀ hne
  · intro h0 e he
    obtain ⟨x, _, rfl⟩ := List.mem_map.1 he
    change (Bbn.run ops).mass ℓ v.id x / (Bbn.run ops).total ℓ = 0
    rw [h0, div_zero]

/-- **C21**, partial. After any history of operations (also with exceptions on the way) on a connected network, every posterior
table is returned without exception, is non-negative, and sums to 1 or is all 0. If the history has no ambiguous virtual evidence,
it sums to 1 exactly when the evidence is possible. Missing: the last sentence for ambiguous virtual evidence (`c21_false`). -/
theorem c21_distributions_partial {it : SetIter Int} {js : SetIter Str} {ops : List BOp} {jt : JoinTree} (hu : Net.Usable ops)
    (hj : apply it js (Bbn.run ops) = .ok jt) (h : List (SetIter Str × EvOp)) (hn : ∀ op ∈ h, op.2.Nodes (Bbn.run ops).vars) :
    ∀ v ∈ (Bbn.run ops).vars, ∃ P, (runHist jt h).getBbnPotential v = .ok P ∧ (∀ e ∈ P, 0 ≤ e.value) ∧
      ((P.map PEntry.value).sum = 1 ∨ ∀ e ∈ P, e.value = 0) ∧
      ((∀ op ∈ h, op.2.Ok (Bbn.run ops).vars) →
        ((Bbn.run ops).total (specHist (Bbn.run ops).vars h) ≠ 0 → (P.map PEntry.value).sum = 1) ∧
        ((Bbn.run ops).total (specHist (Bbn.run ops).vars h) = 0 → ∀ e ∈ P, e.value = 0)) := by
  have hd := doms hu.toSane
  intro v hv
  obtain ⟨T, s0, h1, h2, h3, h4, h5, h6⟩ := live_hist hu.toSane hj h hn
  obtain ⟨p1, p2, p3⟩ := posterior_dist hu h4.calib.likNonneg hv
  refine ⟨_, live_posterior hu h4 v hv, p1, ?_, ?_⟩
  · by_cases ht : (Bbn.run ops).total (evHist (Bbn.run ops).vars s0 h).prop = 0
    · exact Or.inr (p3 ht)
    · exact Or.inl (p2 ht)
  · intro hok
    have e : (evHist (Bbn.run ops).vars s0 h).prop = specHist (Bbn.run ops).vars h := by
      rw [(evHist_law hd h h3 (l := ⟨noEvidence, noEvidence⟩) h1 h2 (fun op ho => (hok op ho).proper)).2.2]
      exact (lawHist_ok hd h hok).1
    rw [e] at p2 p3
    rw [e]
    exact ⟨p2, p3⟩

/-- two nodes; the first is certainly `off` -/
def c21_ops : List BOp := [.addEdge (mkNode 0 "a" [0, 1]) (mkNode 1 "b" [1/2, 1/2, 1/4, 3/4])]

theorem c21_usable : Net.Usable c21_ops := by
  refine ⟨⟨wf_of_check (by decide +kernel) (by decide +kernel), by decide +kernel⟩, ?_⟩
  have hids : ∀ u ∈ (Bbn.run c21_ops).vars, EqvGen (fun p c => (p, c) ∈ BOp.edges c21_ops) 0 u.id := by
    intro u hu
    have : u.id = 0 ∨ u.id = 1 := by
      have : ∀ u ∈ (Bbn.run c21_ops).vars, u.id = 0 ∨ u.id = 1 := by decide +kernel
      exact this u hu
    rcases this with h | h
    · rw [h]; exact EqvGen.refl _
    · rw [h]; exact EqvGen.rel _ _ (by decide +kernel)
  intro u hu v hv
  exact EqvGen.trans _ _ _ (EqvGen.symm _ _ (hids u hu)) (hids v hv)

/-- impossible evidence, then virtual evidence that is possible -/
def c21_bad : List (SetIter Str × EvOp) :=
  [(.same, .update [Evidence.build (c16_node 0) .observation [("on".toList, 1)]]),
   (.same, .update [Evidence.build (c16_node 0) .virtual [("on".toList, 1), ("off".toList, 1/2)]])]

/-- **C21 is false of the code** for ambiguous virtual evidence: the stored evidence has probability 1/2 but the table is all 0. -/
theorem c21_false : Net.Usable c21_ops ∧ (∀ op ∈ c21_bad, op.2.Proper (Bbn.run c21_ops).vars) ∧
    (Bbn.run c21_ops).total (specHist (Bbn.run c21_ops).vars c21_bad) = 1 / 2 ∧
    ∃ jt P, apply .same .same (Bbn.run c21_ops) = .ok jt ∧ (runHist jt c21_bad).getBbnPotential (c16_node 1) = .ok P ∧
      P.map PEntry.value = [0, 0] := by
  refine ⟨c21_usable, ?_, by decide +kernel, posterior_of_eval (by decide +kernel)⟩
  intro op hop
  simp only [c21_bad, List.mem_cons, List.not_mem_nil, or_false] at hop
  rcases hop with rfl | rfl
  · intro e he
    simp only [List.mem_cons, List.not_mem_nil, or_false] at he
    subst he
    decide +kernel
  · intro e he
    simp only [List.mem_cons, List.not_mem_nil, or_false] at he
    subst he
    decide +kernel

/-- C21 is not vacuous, in both cases: the history of C18 is possible on its network, the observation `on` of node 0 is
impossible on the network above -/
example : Net.Usable c16_ops ∧ (∀ op ∈ c18_hist, op.2.Ok (Bbn.run c16_ops).vars) ∧
    (Bbn.run c16_ops).total (specHist (Bbn.run c16_ops).vars c18_hist) = 93 / 512 ∧
    Net.Usable c21_ops ∧ (Bbn.run c21_ops).total (specHist (Bbn.run c21_ops).vars (c21_bad.take 1)) = 0 :=
  ⟨c16_usable, c18_hist_ok, by decide +kernel, c21_usable, by decide +kernel⟩

example := c21_distributions_partial c16_usable (c16_jt_ok .same .same) c18_hist c18_hist_nodes

end PyBBN
