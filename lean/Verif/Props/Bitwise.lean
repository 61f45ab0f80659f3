import Verif.Proofs.Bitwise
import Verif.Props.EvidenceOps
import Verif.Props.Rounding

/-! # C114: the same evidence gives the same numbers, to the last bit

`A` is any arithmetic, e.g. double precision: the statements are about the numbers a session really reports. `js` is the order in which the
process iterates its sets; it is the same in all calls, since the sets of the join tree do not change after `apply`. -/

namespace PyBBN
open Relation InferenceController

section
variable {A : Arith} {ops : List BOp} {it : SetIter Int} {js : SetIter Str} {jc : JoinTree}

/-- reports never fail -/
theorem reads_ok (hu : Net.Sane ops) (hc : A.apply it js (Bbn.run ops) = .ok jc) (h : List (SetIter Str × EvOp))
    (hp : ∀ op ∈ h, op.2.Proper (Bbn.run ops).vars) {v : Variable} (hv : v ∈ (Bbn.run ops).vars) :
    ∃ Q, A.getBbnPotential (A.runHist jc h) v = .ok Q := by
  have hd := doms hu
  have hN := Bbn.net_ok (bbn_run_inv ops) hu.wf
  have hjt := (closed_any A).apply trivial it js (Bbn.run ops) (fun _ _ _ _ => trivial)
  rw [Arith.exact_apply, hc] at hjt
  cases hj : InferenceController.apply it js (Bbn.run ops) with
  | error e => rw [hj] at hjt; cases hjt
  | ok jt =>
    rw [hj] at hjt
    cases hjt with
    | ok h3 =>
      obtain ⟨T, l1, l2, l3⟩ := live_apply hu hj
      have hn : ∀ op ∈ h, op.2.Nodes (Bbn.run ops).vars := fun op ho => (hp op ho).nodes hd
      have hfin := (closed_any A).runHist (fun _ _ _ => trivial) hN l3 hu.vals h l1 h3 hn
      rw [Arith.exact_runHist] at hfin
      obtain ⟨a, _, _⟩ := Live.hist hN l3 hu.vals h (s := ⟨jt.evidences, noEvidence⟩) l1 (EvEq.refl _) hn
      have hr := (closed_any A).getBbnPotential hfin v
      rw [Arith.exact_getBbnPotential] at hr
      obtain ⟨_, _, _, _, _, _, _, _, e⟩ := a.calib.reads hN hv
      rw [e, ← Arith.exact_normalize] at hr
      generalize A.getBbnPotential (A.runHist jc h) v = r at hr
      cases hr with
      | ok _ => exact ⟨_, rfl⟩

/-- **C114**, general form: two sessions on the same join tree, over **any** arithmetic, whose tables have last seen the same likelihoods report
exactly the same numbers for every node. -/
theorem c114_reports (hu : Net.Sane ops) (hc : A.apply it js (Bbn.run ops) = .ok jc) (h h' : List EvOp)
    (hp : ∀ op ∈ h, op.Proper (Bbn.run ops).vars) (hp' : ∀ op ∈ h', op.Proper (Bbn.run ops).vars)
    (hl : ∀ v ∈ (Bbn.run ops).vars, ∀ x ∈ v.values, (lawHist (Bbn.run ops).vars (h'.map (fun o => (js, o)))).prop v.id x =
      (lawHist (Bbn.run ops).vars (h.map (fun o => (js, o)))).prop v.id x) :
    ∀ v ∈ (Bbn.run ops).vars, ∃ Q, A.getBbnPotential (A.runHist jc (h.map (fun o => (js, o)))) v = .ok Q ∧
      A.getBbnPotential (A.runHist jc (h'.map (fun o => (js, o)))) v = .ok Q := by
  intro v hv
  have hp2 : ∀ op ∈ h.map (fun o => (js, o)), op.2.Proper (Bbn.run ops).vars := by
    intro op ho
    obtain ⟨o, ho', rfl⟩ := List.mem_map.1 ho
    exact hp o ho'
  obtain ⟨Q, hQ⟩ := reads_ok hu hc _ hp2 hv
  exact ⟨Q, hQ, by rw [session_bitwise hu hc h h' hp hp' hl hv]; exact hQ⟩

/-- **C114**: the reported numbers depend on the current likelihoods only. Whatever was entered, changed and withdrawn before, in whatever order: two
histories of (unambiguous) evidence that end with the same likelihoods give exactly the same numbers, over any arithmetic. -/
theorem c114_current (hu : Net.Sane ops) (hc : A.apply it js (Bbn.run ops) = .ok jc) (h h' : List EvOp)
    (hp : ∀ op ∈ h, op.Ok (Bbn.run ops).vars) (hp' : ∀ op ∈ h', op.Ok (Bbn.run ops).vars)
    (hl : ∀ v ∈ (Bbn.run ops).vars, ∀ x ∈ v.values, specHist (Bbn.run ops).vars (h'.map (fun o => (js, o))) v.id x =
      specHist (Bbn.run ops).vars (h.map (fun o => (js, o))) v.id x) :
    ∀ v ∈ (Bbn.run ops).vars, ∃ Q, A.getBbnPotential (A.runHist jc (h.map (fun o => (js, o)))) v = .ok Q ∧
      A.getBbnPotential (A.runHist jc (h'.map (fun o => (js, o)))) v = .ok Q := by
  have hd := doms hu
  have hm : ∀ {h : List EvOp}, (∀ op ∈ h, op.Ok (Bbn.run ops).vars) → ∀ op ∈ h.map (fun o => (js, o)), op.2.Ok (Bbn.run ops).vars := by
    intro h hp op ho
    obtain ⟨o, ho', rfl⟩ := List.mem_map.1 ho
    exact hp o ho'
  refine c114_reports hu hc h h' (fun op ho => (hp op ho).proper) (fun op ho => (hp' op ho).proper) ?_
  rw [(lawHist_ok hd _ (hm hp)).1, (lawHist_ok hd _ (hm hp')).1]
  exact hl

/-- **C114**, `unobserve_all`: after any history of evidence about nodes and values of the network (ambiguous evidence included), withdrawing
everything gives back exactly the numbers reported right after `apply`, over any arithmetic. -/
theorem c114_unobserve_all (hu : Net.Sane ops) (hc : A.apply it js (Bbn.run ops) = .ok jc) (h : List EvOp)
    (hp : ∀ op ∈ h, op.Proper (Bbn.run ops).vars) :
    ∀ v ∈ (Bbn.run ops).vars, ∃ Q, A.getBbnPotential jc v = .ok Q ∧
      A.getBbnPotential (A.runHist jc ((h ++ [EvOp.unobserveAll]).map (fun o => (js, o)))) v = .ok Q := by
  have hd := doms hu
  have hop : EvOp.unobserveAll.Proper (Bbn.run ops).vars := trivial
  have hp' : ∀ op ∈ h ++ [EvOp.unobserveAll], op.Proper (Bbn.run ops).vars := by
    intro op ho
    rcases List.mem_append.1 ho with ho | ho
    · exact hp op ho
    · rw [List.mem_singleton] at ho; subst ho; exact hop
  have hp2 : ∀ op ∈ (h ++ [EvOp.unobserveAll]).map (fun o => (js, o)), op.2.Proper (Bbn.run ops).vars := by
    intro op ho
    obtain ⟨o, ho', rfl⟩ := List.mem_map.1 ho
    exact hp' o ho'
  refine c114_reports hu hc [] (h ++ [EvOp.unobserveAll]) (fun op ho => by cases ho) hp' ?_
  intro v hv x hx
  have hclean := lawHist_clean hd _ hp2
  have hst : ∀ y ∈ v.values, (lawHist (Bbn.run ops).vars ((h ++ [EvOp.unobserveAll]).map (fun o => (js, o)))).stored v.id y = 1 := by
    intro y hy
    rw [lawHist_stored, List.map_append, List.map_cons, List.map_nil, specHist_append, EvOp.spec_pieces,
      foldl_put_last _ _ v (fun e he hi => hd.inj ((hop.pieces _) e he).node hv hi) y hy]
    cases hf : (EvOp.unobserveAll.pieces (Bbn.run ops).vars (specHist (Bbn.run ops).vars (h.map (fun o => (js, o))))).reverse.find?
        (fun e => decide (e.node.id = v.id)) with
    | none =>
      exfalso
      have := List.find?_eq_none.1 hf (JoinTree.unobservedEvidence v) (List.mem_reverse.2 (List.mem_map_of_mem hv))
      apply this
      simp [JoinTree.unobservedEvidence, Evidence.build]
    | some e =>
      have he : e ∈ (Bbn.run ops).vars.map JoinTree.unobservedEvidence := List.mem_reverse.1 (List.mem_of_find?_eq_some hf)
      obtain ⟨u, _, rfl⟩ := List.mem_map.1 he
      rfl
  exact hclean.ones v hv hst x hx

end

/-- the history of C18, and a direct way to the same likelihoods: other calls, other order -/
def c114_direct : List EvOp :=
  [.update [Evidence.build (c16_node 2) .observation [("off".toList, 1)], Evidence.build (c16_node 4) .observation [("on".toList, 1)]],
   .update [Evidence.build (c16_node 1) .virtual [("off".toList, 1/4), ("on".toList, 3/4)]]]

theorem c114_direct_ok : ∀ op ∈ c114_direct, op.Ok (Bbn.run c16_ops).vars := by
  intro op hop
  simp only [c114_direct, List.mem_cons, List.not_mem_nil, or_false] at hop
  rcases hop with rfl | rfl
  · intro e he
    simp only [List.mem_cons, List.not_mem_nil, or_false] at he
    rcases he with rfl | rfl
    · exact ⟨⟨by decide +kernel, by decide +kernel, by decide +kernel⟩, unambiguous_of_check (by decide +kernel)⟩
    · exact ⟨⟨by decide +kernel, by decide +kernel, by decide +kernel⟩, unambiguous_of_check (by decide +kernel)⟩
  · intro e he
    simp only [List.mem_cons, List.not_mem_nil, or_false] at he
    subst he
    exact ⟨⟨by decide +kernel, by decide +kernel, by decide +kernel⟩, unambiguous_of_check (by decide +kernel)⟩

/-- C114 is not vacuous: two histories to the same likelihoods, read in double precision (the reports are those of C70, not exact); and the reports
after everything is withdrawn, with a mantissa of 6 bits, are those after `apply`. -/
example : Net.Sane c16_ops ∧ (∀ op ∈ c18_hist.map Prod.snd, op.Ok (Bbn.run c16_ops).vars) ∧ (∀ op ∈ c114_direct, op.Ok (Bbn.run c16_ops).vars) ∧
    (∀ v ∈ (Bbn.run c16_ops).vars, ∀ x ∈ v.values, specHist (Bbn.run c16_ops).vars (c114_direct.map (fun o => (SetIter.same, o))) v.id x =
      specHist (Bbn.run c16_ops).vars ((c18_hist.map Prod.snd).map (fun o => (SetIter.same, o))) v.id x) ∧
    (arithReads (binArith 53) .same .same c16_ops c114_direct).val? =
      some [[203388370268345 / 562949953421312, 5752985330447471 / 9007199254740992],
        [1234857962343523 / 2251799813685248, 8135534810733799 / 18014398509481984], [0, 1],
        [3161236383599419 / 36028797018963968, 4108445079420569 / 4503599627370496], [1, 0]] ∧
    (arithReads (binArith 6) .same .same c16_ops (c114_direct ++ [.unobserveAll])).val? = (arithReads (binArith 6) .same .same c16_ops []).val? ∧
    (arithReads (binArith 6) .same .same c16_ops c114_direct).val? ≠ (arithReads (binArith 6) .same .same c16_ops []).val? :=
  ⟨c16_usable.toSane, (by
    intro op ho
    obtain ⟨o, ho', rfl⟩ := List.mem_map.1 ho
    exact c18_hist_ok o ho'), c114_direct_ok, by decide +kernel, by decide +kernel, by decide +kernel, by decide +kernel⟩

end PyBBN
