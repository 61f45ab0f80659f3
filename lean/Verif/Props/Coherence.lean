import Verif.Proofs.Coherence
import Mathlib.Tactic.FieldSimp

/-! # C71 – C74: coherence of the answers

What the answers of the library have to do with each other: between sessions with different evidence (C71), between networks that differ
in ids, names and order of insertion only (C72), between a network and the same network with one more effect (C73), and between virtual
evidence and observing an effect (C74). -/

namespace PyBBN
open Relation InferenceController

/-- the join tree gives value `x` of node `v` the probability `p` -/
def Reports (jt : JoinTree) (v : Variable) (x : Str) (p : ℚ) : Prop :=
  ∃ P, jt.getBbnPotential v = .ok P ∧ P.at [v] (fun _ => x) = some p

/-- no evidence about `v` is stored -/
def NoEvidenceOn (jt : JoinTree) (v : Variable) : Prop :=
  Dict.get? jt.evidences v.id = some (v.values.map (fun x => (x, 1)))

section
variable {it it' : SetIter Int} {js js' : SetIter Str} {ops ops' : List BOp} {jt jt' : JoinTree}

theorem at_posteriorTable (b : Bbn) (ℓ : Liks) (v : Variable) {x : Str} (hx : x ∈ v.values) :
    (posteriorTable b ℓ v).at [v] (fun _ => x) = some (b.posterior ℓ v.id x) := by
  unfold Potential.at posteriorTable
  have : ∀ l : List Str, x ∈ l → ((l.map (fun y => (⟨[(v.id, y)], b.posterior ℓ v.id y⟩ : PEntry))).find?
      (fun e => decide (e.Reads [v] (fun _ => x)))).map PEntry.value = some (b.posterior ℓ v.id x) := by
    intro l
    induction l with
    | nil => simp
    | cons y l ih =>
      intro h
      rw [List.map_cons]
      by_cases e : y = x
      · subst e
        rw [List.find?_cons_of_pos]
        · rfl
        · simp [PEntry.Reads, Dict.get?]
      · rw [List.find?_cons_of_neg]
        · exact ih ((List.mem_cons.1 h).resolve_left (fun e' => e e'.symm))
        · simp [PEntry.Reads, Dict.get?, e]
  exact this v.values hx

theorem reports (hu : Net.Usable ops) (hj : apply it js (Bbn.run ops) = .ok jt) (h : List (SetIter Str × EvOp))
    (hp : ∀ op ∈ h, op.2.Ok (Bbn.run ops).vars) {v : Variable} (hv : v ∈ (Bbn.run ops).vars) {x : Str} (hx : x ∈ v.values) :
    Reports (runHist jt h) v x ((Bbn.run ops).posterior (specHist (Bbn.run ops).vars h) v.id x) :=
  ⟨_, (c18_posteriors_exact_partial hu hj h hp v hv).2, at_posteriorTable _ _ _ hx⟩

theorem reports_law (hu : Net.Usable ops) (hj : apply it js (Bbn.run ops) = .ok jt) (h : List (SetIter Str × EvOp))
    (hp : ∀ op ∈ h, op.2.Proper (Bbn.run ops).vars) {v : Variable} (hv : v ∈ (Bbn.run ops).vars) {x : Str} (hx : x ∈ v.values) :
    Reports (runHist jt h) v x ((Bbn.run ops).posterior (lawHist (Bbn.run ops).vars h).prop v.id x) :=
  ⟨_, (c18_law hu hj h hp v hv).2, at_posteriorTable _ _ _ hx⟩

theorem noEvidenceOn_iff (hu : Net.Usable ops) (hj : apply it js (Bbn.run ops) = .ok jt) (h : List (SetIter Str × EvOp))
    (hp : ∀ op ∈ h, op.2.Proper (Bbn.run ops).vars) {v : Variable} (hv : v ∈ (Bbn.run ops).vars) (hn : NoEvidenceOn (runHist jt h) v) :
    ∀ x ∈ v.values, specHist (Bbn.run ops).vars h v.id x = 1 := by
  have h1 := (c18_law hu hj h hp v hv).1
  unfold NoEvidenceOn at hn
  rw [h1] at hn
  have := Option.some.inj hn
  intro x hx
  have := List.map_inj_left.1 this x hx
  exact congrArg Prod.snd this

theorem obs_ok {vars : List Variable} {v : Variable} (hv : v ∈ vars) {x : Str} (hx : x ∈ v.values) : (EvOp.update [obs v x]).Ok vars := by
  intro e he
  simp only [List.mem_cons, List.not_mem_nil, or_false] at he
  subst he
  refine ⟨obs_proper hv hx, unambiguous_of_bits ?_⟩
  intro y
  rw [obs_canon hx]
  split
  · exact Or.inr rfl
  · exact Or.inl rfl

theorem ok_append {vars : List Variable} {h : List (SetIter Str × EvOp)} (hp : ∀ op ∈ h, op.2.Ok vars) {k : SetIter Str} {op : EvOp} (ho : op.Ok vars) :
    ∀ op' ∈ h ++ [(k, op)], op'.2.Ok vars := by
  intro op' hop
  rcases List.mem_append.1 hop with h1 | h1
  · exact hp op' h1
  · simp only [List.mem_cons, List.not_mem_nil, or_false] at h1
    subst h1
    exact ho

theorem proper_append {vars : List Variable} {h : List (SetIter Str × EvOp)} (hp : ∀ op ∈ h, op.2.Proper vars) {k : SetIter Str} {op : EvOp}
    (ho : op.Proper vars) : ∀ op' ∈ h ++ [(k, op)], op'.2.Proper vars := by
  intro op' hop
  rcases List.mem_append.1 hop with h1 | h1
  · exact hp op' h1
  · simp only [List.mem_cons, List.not_mem_nil, or_false] at h1
    subst h1
    exact ho

/-- what is reported after observing `w = y` on top of a history without evidence about `w` -/
theorem reports_obs (hu : Net.Usable ops) (hj : apply it js (Bbn.run ops) = .ok jt) (h : List (SetIter Str × EvOp))
    (hp : ∀ op ∈ h, op.2.Ok (Bbn.run ops).vars) {v w : Variable} (hv : v ∈ (Bbn.run ops).vars) (hw : w ∈ (Bbn.run ops).vars)
    (hwn : NoEvidenceOn (runHist jt h) w) {x y : Str} (hx : x ∈ v.values) (hy : y ∈ w.values) (k : SetIter Str) :
    Reports (runHist jt (h ++ [(k, .update [obs w y])])) v x ((Bbn.run ops).mass2 (specHist (Bbn.run ops).vars h) v.id x w.id y /
      (Bbn.run ops).mass (specHist (Bbn.run ops).vars h) w.id y) := by
  have h1 := reports hu hj (h ++ [(k, .update [obs w y])]) (ok_append hp (obs_ok hw hy)) hv hx
  rw [specHist_append] at h1
  have e : (EvOp.update [obs w y]).spec (Bbn.run ops).vars (specHist (Bbn.run ops).vars h) = (specHist (Bbn.run ops).vars h).put w (obs w y).canon := rfl
  rw [e, posterior_obs (bbn_run_inv ops) hw (noEvidenceOn_iff hu hj h (fun op ho => (hp op ho).proper) hw hwn) (y := y) (fun z _ => obs_canon hy z)] at h1
  exact h1

theorem spec_weight_nonneg (hu : Net.Usable ops) (hj : apply it js (Bbn.run ops) = .ok jt) (h : List (SetIter Str × EvOp))
    (hp : ∀ op ∈ h, op.2.Ok (Bbn.run ops).vars) (σ : Asg) : 0 ≤ (Bbn.run ops).weight (specHist (Bbn.run ops).vars h) σ := by
  refine weight_nonneg hu.wf ?_ σ
  obtain ⟨T, h1, h2, h3⟩ := live_law hu.toSane hj h (fun op ho => (hp op ho).proper)
  rw [← (lawHist_ok (doms hu.toSane) h hp).1]
  exact h1.calib.likNonneg

/-! ## C71 -/

/-- **C71**, law of total probability. On a connected network, after any history of unambiguous evidence with no evidence about `w`: the
probability reported for `v = x` is the average of what is reported after observing `w = y`, weighted with what is reported for
`w = y`. -/
theorem c71_total_probability_partial (hu : Net.Usable ops) (hj : apply it js (Bbn.run ops) = .ok jt) (h : List (SetIter Str × EvOp))
    (hp : ∀ op ∈ h, op.2.Ok (Bbn.run ops).vars) {v w : Variable} (hv : v ∈ (Bbn.run ops).vars) (hw : w ∈ (Bbn.run ops).vars)
    (hwn : NoEvidenceOn (runHist jt h) w) {x : Str} (hx : x ∈ v.values) (k : SetIter Str) :
    ∃ q p' : Str → ℚ, (∀ y ∈ w.values, Reports (runHist jt h) w y (q y)) ∧
      (∀ y ∈ w.values, Reports (runHist jt (h ++ [(k, .update [obs w y])])) v x (p' y)) ∧
      Reports (runHist jt h) v x (w.values.map (fun y => q y * p' y)).sum := by
  refine ⟨fun y => (Bbn.run ops).posterior (specHist (Bbn.run ops).vars h) w.id y, fun y => _, fun y hy => reports hu hj h hp hw hy,
    fun y hy => reports_obs hu hj h hp hv hw hwn hx hy k, ?_⟩
  have e : (w.values.map (fun y => (Bbn.run ops).posterior (specHist (Bbn.run ops).vars h) w.id y *
      ((Bbn.run ops).mass2 (specHist (Bbn.run ops).vars h) v.id x w.id y / (Bbn.run ops).mass (specHist (Bbn.run ops).vars h) w.id y))).sum =
      (Bbn.run ops).posterior (specHist (Bbn.run ops).vars h) v.id x := by
    have hw0 := spec_weight_nonneg hu hj h hp
    unfold Bbn.posterior
    rw [← sum_mass2 (bbn_run_inv ops) hw ((doms hu.toSane).vals w hw), div_eq_mul_inv, ← List.sum_map_mul_right]
    refine congrArg List.sum (List.map_congr_left ?_)
    intro y _
    by_cases h0 : (Bbn.run ops).mass (specHist (Bbn.run ops).vars h) w.id y = 0
    · rw [h0, mass2_comm, mass2_zero hw0 h0]; simp
    · field_simp
  rw [e]
  exact reports hu hj h hp hv hx

/-- **C71**, Bayes' rule. On a connected network, after any history of unambiguous evidence with no evidence about `v` and `w`: what is
reported for `v = x` times what is reported for `w = y` after observing `v = x` is the same with `v` and `w` exchanged. -/
theorem c71_bayes_partial (hu : Net.Usable ops) (hj : apply it js (Bbn.run ops) = .ok jt) (h : List (SetIter Str × EvOp))
    (hp : ∀ op ∈ h, op.2.Ok (Bbn.run ops).vars) {v w : Variable} (hv : v ∈ (Bbn.run ops).vars) (hw : w ∈ (Bbn.run ops).vars)
    (hvn : NoEvidenceOn (runHist jt h) v) (hwn : NoEvidenceOn (runHist jt h) w) {x y : Str} (hx : x ∈ v.values) (hy : y ∈ w.values)
    (k k' : SetIter Str) :
    ∃ p q p' q' : ℚ, Reports (runHist jt h) v x p ∧ Reports (runHist jt h) w y q ∧
      Reports (runHist jt (h ++ [(k, .update [obs w y])])) v x p' ∧ Reports (runHist jt (h ++ [(k', .update [obs v x])])) w y q' ∧
      p * q' = q * p' := by
  refine ⟨_, _, _, _, reports hu hj h hp hv hx, reports hu hj h hp hw hy, reports_obs hu hj h hp hv hw hwn hx hy k,
    reports_obs hu hj h hp hw hv hvn hy hx k', ?_⟩
  have hw0 := spec_weight_nonneg hu hj h hp
  rw [mass2_comm _ w.id]
  unfold Bbn.posterior
  by_cases h1 : (Bbn.run ops).mass (specHist (Bbn.run ops).vars h) v.id x = 0
  · rw [h1, mass2_zero hw0 h1]; simp
  · by_cases h2 : (Bbn.run ops).mass (specHist (Bbn.run ops).vars h) w.id y = 0
    · rw [h2, mass2_comm, mass2_zero hw0 h2]; simp
    · field_simp

/-! ## C72 -/

/-- **C72**. Two connected networks with the same nodes up to ids and names, and for each node the same parents in the same order, whatever
the order of insertion: after the same history of evidence about the corresponding nodes they report the same probabilities. -/
theorem c72_same_network {ρ : Int → Int} {ν : Int → Str} (hu : Net.Usable ops) (hu' : Net.Usable ops') (hs : SameNet ρ ν (Bbn.run ops) (Bbn.run ops'))
    (hj : apply it js (Bbn.run ops) = .ok jt) (hj' : apply it' js' (Bbn.run ops') = .ok jt')
    (h h' : List (SetIter Str × EvOp)) (hp : ∀ op ∈ h, op.2.Proper (Bbn.run ops).vars) (he : h'.map Prod.snd = h.map (fun op => op.2.ren ρ ν))
    {v : Variable} (hv : v ∈ (Bbn.run ops).vars) {x : Str} (hx : x ∈ v.values) :
    ∃ p, Reports (runHist jt h) v x p ∧ Reports (runHist jt' h') (v.ren ρ ν) x p := by
  have hr := hs.renInto (bbn_run_inv ops')
  have hp' : ∀ op ∈ h', op.2.Proper (Bbn.run ops').vars := by
    intro op ho
    have : op.2 ∈ h.map (fun op => op.2.ren ρ ν) := by rw [← he]; exact List.mem_map_of_mem ho
    obtain ⟨o, ho, e⟩ := List.mem_map.1 this
    rw [← e]
    exact (hp o ho).ren hr
  refine ⟨_, reports_law hu hj h hp hv hx, ?_⟩
  have h1 := reports_law hu' hj' h' hp' (hr.into v hv) (x := x) hx
  have h2 := lawHist_ren hr h h' hp he (fun w hw => by
    obtain ⟨v, hv, e⟩ := List.mem_map.1 (hs.vars.mem_iff.1 hw)
    exact Or.inl ⟨v, hv, e.symm⟩)
  have h3 := hs.posterior (bbn_run_inv ops) (bbn_run_inv ops') h2 hv x
  rw [← h3]
  exact h1

/-- **C72**, the same calls in another order. If two sequences of `add_node` and `add_edge` calls pass the same node objects, and for each
child the edges into it come in the same order, then both networks are usable and report the same probabilities after the same history
of evidence. -/
theorem c72_reordered (hu : Net.Usable ops) (hs : SameCalls ops ops')
    (hj : apply it js (Bbn.run ops) = .ok jt) (hj' : apply it' js' (Bbn.run ops') = .ok jt')
    (h h' : List (SetIter Str × EvOp)) (hp : ∀ op ∈ h, op.2.Proper (Bbn.run ops).vars) (he : h'.map Prod.snd = h.map Prod.snd)
    {v : Variable} (hv : v ∈ (Bbn.run ops).vars) {x : Str} (hx : x ∈ v.values) :
    ∃ p, Reports (runHist jt h) v x p ∧ Reports (runHist jt' h') v x p := by
  have hi := bbn_run_inv ops
  have := c72_same_network hu (hs.usable hu) hs.sameNet hj hj' h h' hp (hist_ren_self hi hp he) hv hx
  rwa [ren_self hi hv] at this

/-! ## C73 -/

theorem EvOp.Proper.extend {c : BbnNode} (hx : Extends (Bbn.run ops) (Bbn.run ops') c) {op : EvOp} (h : op.Proper (Bbn.run ops).vars) :
    op.Proper (Bbn.run ops').vars := by
  have hm : ∀ v ∈ (Bbn.run ops).vars, v ∈ (Bbn.run ops').vars := fun v hv => hx.vars.mem_iff.2 (List.mem_cons_of_mem _ hv)
  cases op with
  | update es => exact fun e he => ⟨hm _ (h e he).node, (h e he).keys, (h e he).dom⟩
  | observe e => exact ⟨hm _ (h : e.Proper _).node, (h : e.Proper _).keys, (h : e.Proper _).dom⟩
  | unobserve ns => exact fun v hv => hm v (h v hv)
  | unobserveAll => trivial

theorem hist_extend {c : BbnNode} (hx : Extends (Bbn.run ops) (Bbn.run ops') c) {h h' : List (SetIter Str × EvOp)}
    (hp : ∀ op ∈ h, op.2.Proper (Bbn.run ops).vars) (he : h'.map Prod.snd = h.map Prod.snd) :
    (∀ op ∈ h', op.2.Proper (Bbn.run ops').vars) ∧
      (∀ v ∈ (Bbn.run ops).vars, ∀ x ∈ v.values, specHist (Bbn.run ops').vars h' v.id x = specHist (Bbn.run ops).vars h v.id x) ∧
      (∀ x, specHist (Bbn.run ops').vars h' c.var.id x = 1) ∧
      (∀ v ∈ (Bbn.run ops).vars, ∀ x ∈ v.values, (lawHist (Bbn.run ops').vars h').prop v.id x = (lawHist (Bbn.run ops).vars h).prop v.id x) ∧
      ∀ x, (lawHist (Bbn.run ops').vars h').prop c.var.id x = 1 := by
  have hi := bbn_run_inv ops
  have hm : ∀ v ∈ (Bbn.run ops).vars, v ∈ (Bbn.run ops').vars := fun v hv => hx.vars.mem_iff.2 (List.mem_cons_of_mem _ hv)
  have hf := hx.fresh (bbn_run_inv ops')
  have hp0 : ∀ op ∈ h', op.2.Proper (Bbn.run ops).vars := by
    intro op ho
    have : op.2 ∈ h.map Prod.snd := by rw [← he]; exact List.mem_map_of_mem ho
    obtain ⟨o, ho, e⟩ := List.mem_map.1 this
    rw [← e]
    exact hp o ho
  have hr : RenInto (fun i => i) (Bbn.run ops).nameOf (Bbn.run ops).vars (Bbn.run ops').vars := by
    refine ⟨fun u hu v hv e => List.inj_on_of_nodup_map (vars_nodup hi) hu hv e, ?_⟩
    intro v hv
    rw [ren_self hi hv]
    exact hm v hv
  have hh := hist_ren_self hi hp he
  refine ⟨fun op ho => (hp0 op ho).extend hx, specHist_ren hr h h' hp hh, fun x => specHist_other _ hf x h' hp0,
    lawHist_ren hr h h' hp hh ?_, fun x => lawHist_other _ hf x h' hp0⟩
  intro w hw
  rcases List.mem_cons.1 (hx.vars.mem_iff.1 hw) with rfl | hw
  · exact Or.inr (fun g hg x _ => specHist_other _ hf x g (fun op ho => hp0 op (hg.subset ho)))
  · exact Or.inl ⟨w, hw, (ren_self hi hw).symm⟩

/-- **C73**. A network and the same network with one more node, which is nobody's parent and whose CPT rows sum to one, both connected:
after the same history of evidence about the nodes of the smaller one they report the same probabilities for those nodes. -/
theorem c73_unobserved_effect {c : BbnNode} (hu : Net.Usable ops) (hu' : Net.Usable ops') (hc : Extends (Bbn.run ops) (Bbn.run ops') c)
    (hr : RowsSumToOne ((Bbn.run ops').parentVars c.var.id) c) (hj : apply it js (Bbn.run ops) = .ok jt) (hj' : apply it' js' (Bbn.run ops') = .ok jt')
    (h h' : List (SetIter Str × EvOp)) (hp : ∀ op ∈ h, op.2.Proper (Bbn.run ops).vars) (he : h'.map Prod.snd = h.map Prod.snd)
    {v : Variable} (hv : v ∈ (Bbn.run ops).vars) {x : Str} (hx : x ∈ v.values) :
    ∃ p, Reports (runHist jt h) v x p ∧ Reports (runHist jt' h') v x p := by
  have hi := bbn_run_inv ops
  have hi' := bbn_run_inv ops'
  obtain ⟨h1, _, _, h2, h3⟩ := hist_extend hc hp he
  refine ⟨_, reports_law hu hj h hp hv hx, ?_⟩
  have h4 := reports_law hu' hj' h' h1 (hc.vars.mem_iff.2 (List.mem_cons_of_mem _ hv)) hx
  rw [hc.posterior hi hi' (ℓ₁ := (lawHist (Bbn.run ops).vars h).prop) h2 ?_ hv x] at h4
  · exact h4
  · intro σ hσ
    have hcm : c.var ∈ (Bbn.run ops').vars := hc.vars.mem_iff.2 List.mem_cons_self
    simp only [h3, mul_one]
    have h5 : ∀ p ∈ (Bbn.run ops').parentVars c.var.id, p ∈ (Bbn.run ops).vars := by
      intro p hp
      rcases List.mem_cons.1 (hc.vars.mem_iff.1 (parentVars_sub hi' _ p hp)) with e | h
      · have h6 := List.mem_map_of_mem (f := Variable.id) hp
        change p.id ∈ vids _ at h6
        rw [vids_parentVars hi', e] at h6
        exact absurd h6 (hu'.wf.noLoop _)
      · exact h
    rw [hr.sum ((doms hu'.toSane).vals c.var hcm) (fun p hp => hc.fresh hi' p (h5 p hp)) (fun p hp => hσ p (h5 p hp)), one_mul]

/-- **C73**, by calls: adding edges from existing nodes to a new node -/
theorem c73_add_effect {c : BbnNode} {ps : List BbnNode} (hu : Net.Usable ops) (hu' : Net.Usable (ops ++ ps.map (fun p => .addEdge p c)))
    (hne : ps ≠ []) (hps : ∀ p ∈ ps, p ∈ (Bbn.run ops).toGraph.getNodes) (hn : (ps.map (fun p => p.var.id)).Nodup)
    (hc : ∀ v ∈ (Bbn.run ops).vars, v.id ≠ c.var.id)
    (hr : RowsSumToOne (ps.map BbnNode.var) c)
    (hj : apply it js (Bbn.run ops) = .ok jt) (hj' : apply it' js' (Bbn.run (ops ++ ps.map (fun p => .addEdge p c))) = .ok jt')
    (h h' : List (SetIter Str × EvOp)) (hp : ∀ op ∈ h, op.2.Proper (Bbn.run ops).vars) (he : h'.map Prod.snd = h.map Prod.snd)
    {v : Variable} (hv : v ∈ (Bbn.run ops).vars) {x : Str} (hx : x ∈ v.values) :
    ∃ p, Reports (runHist jt h) v x p ∧ Reports (runHist jt' h') v x p := by
  obtain ⟨h1, h2⟩ := extends_of_calls hne hps hn hc
  exact c73_unobserved_effect hu hu' h1 (by rw [h2]; exact hr) hj hj' h h' hp he hv hx

/-! ## C74 -/

/-- **C74**. Evidence about a node `v` without evidence (virtual evidence, say; not all likelihoods 1) does the same as observing an effect of
`v`, after any history of evidence: take the network
with one more node `c` with parent `v` and values `on`, `off`, where `on` has, given each value of `v`, a probability proportional to the
likelihood of that value. Then setting the evidence in the network, and observing `c = on` in the extended network, lead to the same
reports for the nodes of the network. -/
theorem c74_virtual_evidence {c : BbnNode} {e : Evidence} {on off : Str} {f : Str → ℚ} {k : ℚ} (hu : Net.Usable ops) (hu' : Net.Usable ops')
    (hc : Extends (Bbn.run ops) (Bbn.run ops') c) (hcv : c.var.values = [on, off]) (hpar : (Bbn.run ops').parentVars c.var.id = [e.node])
    (hcp : c.probs = e.node.values.flatMap (fun x => [f x, 1 - f x])) (hk : k ≠ 0) (hf : ∀ x ∈ e.node.values, e.canon x = k * f x)
    (he : e.Proper (Bbn.run ops).vars) (hsome : ∃ x ∈ e.node.values, e.canon x ≠ 1)
    (hj : apply it js (Bbn.run ops) = .ok jt) (hj' : apply it' js' (Bbn.run ops') = .ok jt')
    (h h' : List (SetIter Str × EvOp)) (hp : ∀ op ∈ h, op.2.Proper (Bbn.run ops).vars) (hh : h'.map Prod.snd = h.map Prod.snd)
    (hn : NoEvidenceOn (runHist jt h) e.node) (s s' : SetIter Str) {v : Variable} (hv : v ∈ (Bbn.run ops).vars) {x : Str} (hx : x ∈ v.values) :
    ∃ p, Reports (runHist jt (h ++ [(s, .update [e])])) v x p ∧
      Reports (runHist jt' (h' ++ [(s', .update [obs c.var on])])) v x p := by
  have hi := bbn_run_inv ops
  have hi' := bbn_run_inv ops'
  have h0 := noEvidenceOn_iff hu hj h hp he.node hn
  have hcm : c.var ∈ (Bbn.run ops').vars := hc.vars.mem_iff.2 List.mem_cons_self
  have hon : on ∈ c.var.values := by rw [hcv]; simp
  have hne : on ≠ off := by
    have := (doms hu'.toSane).vals c.var hcm
    rw [hcv] at this
    simpa using this
  have hoff : off ∈ c.var.values := by rw [hcv]; simp
  obtain ⟨h1, h2, h3, _, _⟩ := hist_extend hc hp hh
  refine ⟨(Bbn.run ops).posterior ((specHist (Bbn.run ops).vars h).put e.node e.canon) v.id x, ?_, ?_⟩
  · have he1 : (EvOp.update [e]).Proper (Bbn.run ops).vars := by
      intro e' he'
      simp only [List.mem_cons, List.not_mem_nil, or_false] at he'
      subst he'
      exact he
    have h4 := reports_law hu hj (h ++ [(s, .update [e])]) (proper_append hp he1) hv hx
    rwa [law_seen h0 hsome s] at h4
  · have h4 := reports_law hu' hj' (h' ++ [(s', .update [obs c.var on])]) (proper_append h1 (obs_ok hcm hon).proper)
      (hc.vars.mem_iff.2 (List.mem_cons_of_mem _ hv)) hx
    have e1 : (lawHist (Bbn.run ops').vars (h' ++ [(s', .update [obs c.var on])])).prop =
        (specHist (Bbn.run ops').vars h').put c.var (obs c.var on).canon :=
      law_seen (e := obs c.var on) (fun x _ => h3 x) ⟨off, hoff, by rw [obs_canon hon, if_neg (Ne.symm hne)]; exact zero_ne_one⟩ s'
    rw [e1, hc.posterior hi hi' (ℓ := specHist (Bbn.run ops).vars h) (ℓ₁ := (specHist (Bbn.run ops).vars h).put e.node f) ?_ ?_ hv x] at h4
    · rw [posterior_scale hi he.node h0 hk hf]
      exact h4
    · intro w hw y hy
      rw [put_ne (hc.fresh hi' w hw)]
      exact h2 w hw y hy
    · intro σ hσ
      rw [weight_put hi he.node h0 f hσ]
      congr 1
      rw [hcv, hpar]
      simp only [List.map_cons, List.map_nil, List.sum_cons, List.sum_nil]
      rw [put_at hon, put_at hoff, obs_canon hon, obs_canon hon, if_pos rfl, if_neg (Ne.symm hne)]
      have e2 : (Function.update σ c.var.id on) e.node.id = σ e.node.id := Function.update_of_ne (hc.fresh hi' _ he.node) _ _
      have e3 : cptAt c.probs [e.node] c.var (Function.update σ c.var.id on) = f (σ e.node.id) := by
        unfold cptAt cptIndex rowIdx
        rw [hcp, hcv]
        simp only [List.foldl_cons, List.foldl_nil, Function.update_self, List.idxOf_cons_self, List.length_cons, List.length_nil, e2]
        have := getD_pairs f (fun x => 1 - f x) e.node.values (hσ _ he.node)
        simpa using this
      rw [e3]
      ring

end

/-! ## The claims are not vacuous -/

/-- what is reported for the first value of a node -/
def firstOf (jt : JoinTree) (v : Variable) : Option ℚ :=
  (jt.getBbnPotential v).val?.bind (fun P => P.at [v] (fun _ => v.values.headD []))

instance (jt : JoinTree) (v : Variable) : Decidable (NoEvidenceOn jt v) := by unfold NoEvidenceOn; infer_instance

def reportOf (jt : JoinTree) (v : Variable) (x : Str) : Option ℚ := (jt.getBbnPotential v).val?.bind (fun P => P.at [v] (fun _ => x))

theorem reports_of_eval {jt : JoinTree} {v : Variable} {x : Str} {p : ℚ} (h : reportOf jt v x = some p) : Reports jt v x p := by
  unfold reportOf at h
  unfold Reports
  cases hP : jt.getBbnPotential v with
  | error e => rw [hP] at h; cases h
  | ok P => rw [hP] at h; exact ⟨P, rfl, h⟩

/-- **C71 is false of the code** after ambiguous evidence (the history of `c18_false`): node 1 has no evidence, but what is reported for
node 0 is not the average of what is reported after observing node 1. -/
theorem c71_false : Net.Usable c16_ops ∧ (∀ op ∈ c18_bad, op.2.Proper (Bbn.run c16_ops).vars) ∧
    ∃ jt p q₁ q₂ p₁ p₂, apply .same .same (Bbn.run c16_ops) = .ok jt ∧ NoEvidenceOn (runHist jt c18_bad) (c16_node 1) ∧
      Reports (runHist jt c18_bad) (c16_node 0) "on".toList p ∧
      Reports (runHist jt c18_bad) (c16_node 1) "on".toList q₁ ∧ Reports (runHist jt c18_bad) (c16_node 1) "off".toList q₂ ∧
      Reports (runHist jt (c18_bad ++ [(.same, .update [obs (c16_node 1) "on".toList])])) (c16_node 0) "on".toList p₁ ∧
      Reports (runHist jt (c18_bad ++ [(.same, .update [obs (c16_node 1) "off".toList])])) (c16_node 0) "on".toList p₂ ∧
      p ≠ q₁ * p₁ + q₂ * p₂ := by
  refine ⟨c16_usable, c18_false.2.1, ?_⟩
  have key0 : ((apply .same .same (Bbn.run c16_ops)).val?.map (fun jt => decide (NoEvidenceOn (runHist jt c18_bad) (c16_node 1)))) = some true := by
    decide +kernel
  have key : ((apply .same .same (Bbn.run c16_ops)).val?.map (fun jt =>
      [reportOf (runHist jt c18_bad) (c16_node 0) "on".toList, reportOf (runHist jt c18_bad) (c16_node 1) "on".toList,
        reportOf (runHist jt c18_bad) (c16_node 1) "off".toList,
        reportOf (runHist jt (c18_bad ++ [(.same, .update [obs (c16_node 1) "on".toList])])) (c16_node 0) "on".toList,
        reportOf (runHist jt (c18_bad ++ [(.same, .update [obs (c16_node 1) "off".toList])])) (c16_node 0) "on".toList])) =
      some [some (110 / 447), some (391 / 1341), some (950 / 1341), some (394 / 991), some (208 / 1135)] := by decide +kernel
  cases hj : apply .same .same (Bbn.run c16_ops) with
  | error e => rw [hj] at key; cases key
  | ok jt =>
    rw [hj] at key key0
    simp only [Py.val?, Option.map_some, Option.some.injEq, List.cons.injEq, and_true, decide_eq_true_eq] at key key0
    obtain ⟨h2, h3, h4, h5, h6⟩ := key
    exact ⟨jt, _, _, _, _, _, rfl, key0, reports_of_eval h2, reports_of_eval h3, reports_of_eval h4, reports_of_eval h5, reports_of_eval h6,
      by decide +kernel⟩

/-- C71: after the history of C18 there is no evidence about nodes 0 and 3; what is reported for node 3 and for node 0, before and after
observing them -/
example : Net.Usable c16_ops ∧ (∀ op ∈ c18_hist, op.2.Ok (Bbn.run c16_ops).vars) ∧
    ((apply .same .same (Bbn.run c16_ops)).val?.map (fun jt => decide (NoEvidenceOn (runHist jt c18_hist) (c16_node 0) ∧
      NoEvidenceOn (runHist jt c18_hist) (c16_node 3)))) = some true ∧
    ((apply .same .same (Bbn.run c16_ops)).val?.map (fun jt => [firstOf (runHist jt c18_hist) (c16_node 3), firstOf (runHist jt c18_hist) (c16_node 0),
      firstOf (runHist jt (c18_hist ++ [(.same, .update [obs (c16_node 0) "on".toList])])) (c16_node 3),
      firstOf (runHist jt (c18_hist ++ [(.same, .update [obs (c16_node 0) "off".toList])])) (c16_node 3),
      firstOf (runHist jt (c18_hist ++ [(.same, .update [obs (c16_node 3) "on".toList])])) (c16_node 0)])) =
      some [some (68 / 775), some (56 / 155), some (4 / 35), some (4 / 55), some (8 / 17)] :=
  ⟨c16_usable, c18_hist_ok, by decide +kernel, by decide +kernel⟩

/-- other ids and names for the nodes of the example -/
def c72_id (i : Int) : Int := 2 * i + 7
def c72_name (i : Int) : Str := ['n', Char.ofNat (i.toNat + 48)]

/-- the example network with other ids and names, in another order -/
def c72_ops : List BOp :=
  let n (i : Int) (p : List ℚ) : BbnNode := ⟨⟨c72_id i, c72_name i, ["on".toList, "off".toList]⟩, p⟩
  [.addNode (n 3 [1/10, 9/10, 1/5, 4/5, 3/10, 7/10, 0, 1]),
   .addEdge (n 3 [1/10, 9/10, 1/5, 4/5, 3/10, 7/10, 0, 1]) (n 4 [1/3, 2/3, 3/4, 1/4]),
   .addEdge (n 2 [1/5, 4/5, 2/5, 3/5]) (n 3 [1/10, 9/10, 1/5, 4/5, 3/10, 7/10, 0, 1]),
   .addEdge (n 1 [1/2, 1/2, 1/4, 3/4]) (n 3 [1/10, 9/10, 1/5, 4/5, 3/10, 7/10, 0, 1]),
   .addEdge (n 0 [1/4, 3/4]) (n 2 [1/5, 4/5, 2/5, 3/5]),
   .addEdge (n 0 [1/4, 3/4]) (n 1 [1/2, 1/2, 1/4, 3/4])]

theorem c72_usable : Net.Usable c72_ops :=
  ⟨⟨wf_of_check (by decide +kernel) (by decide +kernel), by decide +kernel⟩, connected_of_check 7 (by decide +kernel)⟩

theorem c72_sameNet : SameNet c72_id c72_name (Bbn.run c16_ops) (Bbn.run c72_ops) := ⟨by decide +kernel, by decide +kernel⟩

/-- C72: a renamed and reordered copy of the example; the join trees differ, the reports do not -/
example : SameNet c72_id c72_name (Bbn.run c16_ops) (Bbn.run c72_ops) ∧ Net.Usable c72_ops ∧
    ((apply .same .same (Bbn.run c16_ops)).val?.map (fun jt => [0, 1, 2, 3, 4].map (fun i => firstOf (runHist jt c18_hist) (c16_node i)))) =
      ((apply .rev .same (Bbn.run c72_ops)).val?.map (fun jt => [0, 1, 2, 3, 4].map (fun i =>
        firstOf (runHist jt (c18_hist.map (fun op => (op.1, op.2.ren c72_id c72_name)))) ((c16_node i).ren c72_id c72_name)))) ∧
    ((apply .same .same (Bbn.run c16_ops)).val?.map (fun jt => (firstOf (runHist jt c18_hist) (c16_node 0)))) = some (some (56 / 155)) :=
  ⟨c72_sameNet, c72_usable, by decide +kernel, by decide +kernel⟩

/-- the calls of the example in another order -/
def c72_reorder : List BOp :=
  [.addNode (mkNode 3 "d" [1/10, 9/10, 1/5, 4/5, 3/10, 7/10, 0, 1]),
   .addEdge (mkNode 3 "d" [1/10, 9/10, 1/5, 4/5, 3/10, 7/10, 0, 1]) (mkNode 4 "e" [1/3, 2/3, 3/4, 1/4]),
   .addEdge (mkNode 2 "c" [1/5, 4/5, 2/5, 3/5]) (mkNode 3 "d" [1/10, 9/10, 1/5, 4/5, 3/10, 7/10, 0, 1]),
   .addEdge (mkNode 0 "a" [1/4, 3/4]) (mkNode 2 "c" [1/5, 4/5, 2/5, 3/5]),
   .addEdge (mkNode 1 "b" [1/2, 1/2, 1/4, 3/4]) (mkNode 3 "d" [1/10, 9/10, 1/5, 4/5, 3/10, 7/10, 0, 1]),
   .addEdge (mkNode 0 "a" [1/4, 3/4]) (mkNode 1 "b" [1/2, 1/2, 1/4, 3/4])]

theorem sameCalls_of_check {ops ops' : List BOp} (h1 : ∀ n ∈ BOp.nodes ops, n ∈ BOp.nodes ops') (h2 : ∀ n ∈ BOp.nodes ops', n ∈ BOp.nodes ops)
    (h3 : ∀ m ∈ BOp.nodes ops, ∀ n ∈ BOp.nodes ops, m.var.id = n.var.id → m = n)
    (h4 : ∀ e ∈ BOp.edges ops ++ BOp.edges ops', (BOp.edges ops).filter (fun e' => decide (e'.2 = e.2)) =
      (BOp.edges ops').filter (fun e' => decide (e'.2 = e.2))) : SameCalls ops ops' := by
  refine ⟨fun n => ⟨h1 n, h2 n⟩, h3, ?_⟩
  intro c
  by_cases hc : ∃ e ∈ BOp.edges ops ++ BOp.edges ops', e.2 = c
  · obtain ⟨e, he, rfl⟩ := hc
    exact h4 e he
  · have h5 : ∀ l : List (Int × Int), (∀ e ∈ l, e ∈ BOp.edges ops ++ BOp.edges ops') → l.filter (fun e => decide (e.2 = c)) = [] := by
      intro l hl
      rw [List.filter_eq_nil_iff]
      intro e he
      rw [decide_eq_true_eq]
      exact fun h => hc ⟨e, hl e he, h⟩
    rw [h5 _ (fun e he => List.mem_append_left _ he), h5 _ (fun e he => List.mem_append_right _ he)]

theorem c72_sameCalls : SameCalls c16_ops c72_reorder :=
  sameCalls_of_check (by decide +kernel) (by decide +kernel) (by decide +kernel) (by decide +kernel)

/-- C72: the order of the edges into a node does matter, as the CPT is read in that order -/
example : SameCalls c16_ops c72_reorder ∧ (Bbn.run c16_ops).vars ≠ (Bbn.run c72_reorder).vars ∧
    ((apply .same .same (Bbn.run c16_ops)).val?.map (fun jt => firstOf (runHist jt c18_hist) (c16_node 0))) =
      ((apply .same .rev (Bbn.run c72_reorder)).val?.map (fun jt => firstOf (runHist jt c18_hist) (c16_node 0))) ∧
    ((apply .same .same (Bbn.run c16_ops)).val?.map (fun jt => firstOf jt (c16_node 3))) ≠
      ((apply .same .same (Bbn.run [c16_ops[0], c16_ops[1], c16_ops[3], c16_ops[2], c16_ops[4]])).val?.map (fun jt => firstOf jt (c16_node 3))) :=
  ⟨c72_sameCalls, by decide +kernel, by decide +kernel, by decide +kernel⟩

/-- one more effect of nodes 4 and 0, with three values -/
def c73_node : BbnNode := ⟨⟨9, "x".toList, ["l".toList, "m".toList, "r".toList]⟩, [1/2, 1/4, 1/4, 1, 0, 0, 1/3, 1/3, 1/3, 0, 1/2, 1/2]⟩

def c73_parents : List BbnNode := [mkNode 4 "e" [1/3, 2/3, 3/4, 1/4], mkNode 0 "a" [1/4, 3/4]]

theorem c73_usable : Net.Usable (c16_ops ++ c73_parents.map (fun p => .addEdge p c73_node)) :=
  ⟨⟨wf_of_check (by decide +kernel) (by decide +kernel), by decide +kernel⟩, connected_of_check 0 (by decide +kernel)⟩

/-- C73: the hypotheses hold, and the new node brings nodes 0 and 4 into one clique without changing what is reported; with rows that do
not sum to one it does change -/
example : Net.Usable (c16_ops ++ c73_parents.map (fun p => .addEdge p c73_node)) ∧ c73_parents ≠ [] ∧
    (∀ p ∈ c73_parents, p ∈ (Bbn.run c16_ops).toGraph.getNodes) ∧ (c73_parents.map (fun p => p.var.id)).Nodup ∧
    (∀ v ∈ (Bbn.run c16_ops).vars, v.id ≠ c73_node.var.id) ∧ RowsSumToOne (c73_parents.map BbnNode.var) c73_node ∧
    ((apply .same .same (Bbn.run c16_ops)).val?.map (fun jt => [0, 1, 2, 3, 4].map (fun i => firstOf (runHist jt c18_hist) (c16_node i)))) =
      ((apply .same .same (Bbn.run (c16_ops ++ c73_parents.map (fun p => .addEdge p c73_node)))).val?.map (fun jt =>
        [0, 1, 2, 3, 4].map (fun i => firstOf (runHist jt c18_hist) (c16_node i)))) ∧
    ((apply .same .same (Bbn.run c16_ops)).val?.map (fun jt => firstOf (runHist jt c18_hist) (c16_node 0))) ≠
      ((apply .same .same (Bbn.run (c16_ops ++ c73_parents.map (fun p => .addEdge p { c73_node with probs := [1, 1, 1, 1, 0, 0, 1, 0, 0, 0, 0, 1] })))).val?.map
        (fun jt => firstOf (runHist jt c18_hist) (c16_node 0))) :=
  ⟨c73_usable, by decide +kernel, by decide +kernel, by decide +kernel, by decide +kernel, by unfold RowsSumToOne; decide +kernel, by decide +kernel,
    by decide +kernel⟩

/-- ambiguous virtual evidence about node 0 of the example: one likelihood is 1, the other is not 0 -/
def c74_ev : Evidence := Evidence.build (c16_node 0) .virtual [("on".toList, 1), ("off".toList, 2/5)]

/-- the effect of node 0 that has these likelihoods, up to a factor -/
def c74_lik (x : Str) : ℚ := if x = "on".toList then 1/2 else 1/5

def c74_node : BbnNode := mkNode 9 "x" [1/2, 1/2, 1/5, 4/5]

def c74_ops : List BOp := c16_ops ++ [mkNode 0 "a" [1/4, 3/4]].map (fun p => .addEdge p c74_node)

theorem c74_usable : Net.Usable c74_ops :=
  ⟨⟨wf_of_check (by decide +kernel) (by decide +kernel), by decide +kernel⟩, connected_of_check 0 (by decide +kernel)⟩

theorem c74_extends : Extends (Bbn.run c16_ops) (Bbn.run c74_ops) c74_node ∧ (Bbn.run c74_ops).parentVars c74_node.var.id = [c16_node 0] :=
  extends_of_calls (by decide +kernel) (by decide +kernel) (by decide +kernel) (by decide +kernel)

/-- C74: the hypotheses hold; what is reported for node 0 without and with the evidence, and with the observed effect -/
example : Net.Usable c74_ops ∧ Extends (Bbn.run c16_ops) (Bbn.run c74_ops) c74_node ∧ c74_node.probs = c74_ev.node.values.flatMap (fun x => [c74_lik x, 1 - c74_lik x]) ∧
    (∀ x ∈ c74_ev.node.values, c74_ev.canon x = 2 * c74_lik x) ∧ c74_ev.Proper (Bbn.run c16_ops).vars ∧ (∃ x ∈ c74_ev.node.values, c74_ev.canon x ≠ 1) ∧
    ((apply .same .same (Bbn.run c16_ops)).val?.map (fun jt => decide (NoEvidenceOn (runHist jt c18_hist) c74_ev.node))) = some true ∧
    ((apply .same .same (Bbn.run c16_ops)).val?.map (fun jt => firstOf (runHist jt c18_hist) (c16_node 0))) = some (some (56 / 155)) ∧
    ((apply .same .same (Bbn.run c16_ops)).val?.map (fun jt => firstOf (runHist jt (c18_hist ++ [(.same, .update [c74_ev])])) (c16_node 0))) =
      some (some (140 / 239)) ∧
    ((apply .same .same (Bbn.run c74_ops)).val?.map (fun jt =>
      firstOf (runHist jt (c18_hist ++ [(.same, .update [obs c74_node.var "on".toList])])) (c16_node 0))) = some (some (140 / 239)) :=
  ⟨c74_usable, c74_extends.1, by decide +kernel, by decide +kernel, by decide +kernel, by decide +kernel, by decide +kernel, by decide +kernel, by decide +kernel,
    by decide +kernel⟩

end PyBBN
