import Verif.Props.EvidenceOps

/-! # C26: exactly which updates are propagated -/

namespace PyBBN
open Relation InferenceController

/-- this piece of evidence gives no reason to propagate: the likelihoods stored and the likelihoods given are all 1, or both have their
only 1 at the same value -/
def GoesUnseen (jt : JoinTree) (e : Evidence) : Prop :=
  ∃ c, stored jt e.node c ∧ ((∀ x ∈ e.node.values, c x = 1 ∧ e.canon x = 1) ∨
    ∃ a ∈ e.node.values, ∀ x ∈ e.node.values, (c x = 1 ↔ x = a) ∧ (e.canon x = 1 ↔ x = a))

theorem onesOf_singleton {dom : List Str} (hn : dom.Nodup) {c : Str → ℚ} {a : Str} :
    onesOf dom c = [a] ↔ a ∈ dom ∧ ∀ x ∈ dom, (c x = 1 ↔ x = a) := by
  unfold onesOf
  constructor
  · intro h
    have hm : ∀ x, x ∈ dom ∧ c x = 1 ↔ x = a := by
      intro x
      have : x ∈ dom.filter (fun x => decide (c x = 1)) ↔ x = a := by rw [h]; simp
      simpa using this
    refine ⟨((hm a).2 rfl).1, fun x hx => ⟨fun h1 => (hm x).1 ⟨hx, h1⟩, fun e => ((hm x).2 e).2⟩⟩
  · rintro ⟨ha, h⟩
    apply List.perm_singleton.1
    refine (List.perm_ext_iff_of_nodup (hn.filter _) (by simp)).2 ?_
    intro x
    simp only [List.mem_filter, decide_eq_true_eq, List.mem_singleton]
    constructor
    · rintro ⟨h1, h2⟩; exact (h x h1).1 h2
    · rintro rfl; exact ⟨ha, (h _ ha).2 rfl⟩

section
variable {it : SetIter Int} {js : SetIter Str} {ops : List BOp} {jt : JoinTree}

theorem goesUnseen_iff (hu : Net.Sane ops) {jt : JoinTree} {s : Liks} {e : Evidence} (he : e.node ∈ (Bbn.run ops).vars)
    (hs : stored jt e.node (s e.node.id)) : GoesUnseen jt e ↔ Unseen s e := by
  have hn := (doms hu).vals e.node he
  unfold GoesUnseen Unseen
  constructor
  · rintro ⟨c, hc, h⟩
    have hcs := stored_inj hs hc
    rcases h with h | ⟨a, ha, h⟩
    · exact Or.inl ⟨fun x hx => (h x hx).2, fun x hx => by rw [hcs x hx]; exact (h x hx).1⟩
    · refine Or.inr ⟨a, (onesOf_singleton hn).2 ⟨ha, fun x hx => (h x hx).2⟩, (onesOf_singleton hn).2 ⟨ha, fun x hx => ?_⟩⟩
      rw [hcs x hx]
      exact (h x hx).1
  · rintro (⟨h1, h2⟩ | ⟨a, h1, h2⟩)
    · exact ⟨_, hs, Or.inl (fun x hx => ⟨h2 x hx, h1 x hx⟩)⟩
    · rw [onesOf_singleton hn] at h1 h2
      exact ⟨_, hs, Or.inr ⟨a, h1.1, fun x hx => ⟨h2.2 x hx, h1.2 x hx⟩⟩⟩

/-- **C26**, the exact rule. On a connected network, after any history of operations (also failing ones), `update_evidences` with evidence
about nodes and values of the network stores the new likelihoods. If every piece of evidence *goes unseen* no report changes, whatever the
likelihoods are; if one piece does not, all reports afterwards are exact for all likelihoods stored. -/
theorem c26_exact (hu : Net.Usable ops) (hj : apply it js (Bbn.run ops) = .ok jt) (h : List (SetIter Str × EvOp))
    (hn : ∀ op ∈ h, op.2.Nodes (Bbn.run ops).vars) (k : SetIter Str) (es : List Evidence) (hes : ∀ e ∈ es, e.Proper (Bbn.run ops).vars) :
    ((runHist jt h).updateEvidences k es).2 = none ∧
    ((∀ e ∈ es, GoesUnseen (runHist jt h) e) →
      ∀ u ∈ (Bbn.run ops).vars, ((runHist jt h).updateEvidences k es).1.getBbnPotential u = (runHist jt h).getBbnPotential u) ∧
    ((∃ e ∈ es, ¬ GoesUnseen (runHist jt h) e) →
      ∃ ℓ : Liks, ∀ u ∈ (Bbn.run ops).vars, stored ((runHist jt h).updateEvidences k es).1 u (ℓ u.id) ∧
        ((runHist jt h).updateEvidences k es).1.getBbnPotential u = .ok (posteriorTable (Bbn.run ops) ℓ u)) := by
  have hd := doms hu.toSane
  have hop : (EvOp.update es).Proper (Bbn.run ops).vars := hes
  have hN := Bbn.net_ok (bbn_run_inv ops) hu.wf
  have hne := (live_apply hu.toSane hj).choose_spec.2.2
  obtain ⟨T, s0, h1, h2, h3, h4, h5, h6⟩ := live_hist hu.toSane hj h hn
  have hg := h4.good.congr h5
  obtain ⟨jt', g1, g2, g3, g4⟩ := h4.step hN hne hu.vals k (.update es) (hop.nodes hd)
  obtain ⟨⟨c1, c2⟩, c3⟩ := evOp_congr hd (s := ⟨(runHist jt h).evidences, (evHist (Bbn.run ops).vars s0 h).prop⟩)
    (t := evHist (Bbn.run ops).vars s0 h) h4.good ⟨h5, rfl⟩ h4.calib.ctx.bbnNodes_perm (List.Perm.refl _) (.update es)
  obtain ⟨b1, b2, b3⟩ := evOp_law hd hg hop
  have hjt : ((runHist jt h).updateEvidences k es).1 = jt' := by
    have := congrArg Prod.fst g1
    exact this
  have hst : ∀ u ∈ (Bbn.run ops).vars, stored (runHist jt h) u (lik (evHist (Bbn.run ops).vars s0 h).ev u.id) := by
    intro u hu'
    unfold stored
    rw [h5, (hg.get hd hu').1]
  have hun : ∀ e ∈ es, (GoesUnseen (runHist jt h) e ↔ Unseen (lik (evHist (Bbn.run ops).vars s0 h).ev) e) :=
    fun e he => goesUnseen_iff hu.toSane (hes e he).node (hst e.node (hes e he).node)
  have hpot := live_posterior hu g2
  rw [c2, b3] at hpot
  refine ⟨?_, ?_, ?_⟩
  · have := congrArg Prod.snd g1
    change ((runHist jt h).updateEvidences k es).2 = _ at this
    rw [this, c3, (evOp_pieces hd hg hop).2]
    rfl
  · intro hall u hu'
    rw [hjt, hpot u hu', live_posterior hu h4 u hu']
    unfold EvOp.law
    simp only
    rw [if_pos]
    intro e he
    exact (hun e he).1 (hall e he)
  · rintro ⟨e, he, hne'⟩
    refine ⟨(EvOp.update es).spec (Bbn.run ops).vars (lik (evHist (Bbn.run ops).vars s0 h).ev), fun u hu' => ⟨?_, ?_⟩⟩
    · unfold stored
      rw [hjt, g3, c1, (b1.get hd hu').1, b2]
      rfl
    · rw [hjt, hpot u hu']
      unfold EvOp.law
      simp only
      rw [if_neg]
      intro hall
      exact hne' ((hun e he).2 (hall e he))

end

/-- C26: after the first update of `c18_bad` the likelihoods of node 4 are `1, 0`; the second update gives `1, 1/2` and goes unseen; an
observation of the other value does not -/
example : ∃ jt, apply .same .same (Bbn.run c16_ops) = .ok jt ∧ (∀ op ∈ c18_bad.take 1, op.2.Proper (Bbn.run c16_ops).vars) ∧
    GoesUnseen (runHist jt (c18_bad.take 1)) (Evidence.build (c16_node 4) .virtual [("on".toList, 1), ("off".toList, 1/2)]) ∧
    ¬ GoesUnseen (runHist jt (c18_bad.take 1)) (obs (c16_node 4) "off".toList) := by
  obtain ⟨h1, h2, jt, P, h3, hl1, _⟩ := c26_false
  have hp : ∀ op ∈ c18_bad.take 1, op.2.Proper (Bbn.run c16_ops).vars := fun op ho => h2 op (List.mem_of_mem_take ho)
  have hs : stored (runHist jt (c18_bad.take 1)) (c16_node 4) (specHist (Bbn.run c16_ops).vars (c18_bad.take 1) 4) :=
    (c18_law h1 h3 (c18_bad.take 1) hp (c16_node 4) (by decide +kernel)).1
  refine ⟨jt, h3, hp, ⟨_, hs, Or.inr ⟨"on".toList, by decide +kernel, by decide +kernel⟩⟩, ?_⟩
  rw [goesUnseen_iff h1.toSane (s := specHist (Bbn.run c16_ops).vars (c18_bad.take 1)) (by decide +kernel) hs]
  rintro (⟨e1, e2⟩ | ⟨a, e1, e2⟩)
  · exact absurd (e1 "on".toList (by decide +kernel)) (by decide +kernel)
  · have e3 : onesOf (c16_node 4).values (obs (c16_node 4) "off".toList).canon = ["off".toList] := by decide +kernel
    have e4 : onesOf (c16_node 4).values (specHist (Bbn.run c16_ops).vars (c18_bad.take 1) 4) = ["on".toList] := by decide +kernel
    have e5 := e3.symm.trans e1
    have e6 := e4.symm.trans e2
    rw [← e5] at e6
    exact absurd e6 (by decide +kernel)

end PyBBN
