import Verif.Model.Copy
import Verif.Props.Reapply

/-! # Copies of join trees: C61 -/

namespace PyBBN
open Relation InferenceController

/-- without a listener an operation changes nothing but the stored likelihoods -/
theorem EvOp.run_silent (js : SetIter Str) {jt : JoinTree} (h : jt.listener = false) (op : EvOp) :
    ∃ ev, (op.run js jt).1 = { jt with evidences := ev } := by
  have hu : ∀ es, ∃ ev, (jt.updateEvidences js es).1 = { jt with evidences := ev } := by
    intro es
    unfold JoinTree.updateEvidences
    split
    · exact ⟨jt.evidences, rfl⟩
    · split
      · exact ⟨jt.evidences, rfl⟩
      · dsimp only
        split
        · exact ⟨_, rfl⟩
        · unfold JoinTree.notify
          dsimp only
          rw [h]
          exact ⟨_, rfl⟩
  cases op with
  | update es => exact hu es
  | unobserve ns => exact hu _
  | unobserveAll => exact hu _
  | observe e =>
    change ∃ ev, (jt.setObservation js e).1 = _
    unfold JoinTree.setObservation
    split
    · exact ⟨jt.evidences, rfl⟩
    · dsimp only
      split
      · split
        · exact ⟨jt.evidences, rfl⟩
        · split
          · exact hu _
          · exact hu _
      · exact hu _

theorem runHist_silent : ∀ (h : List (SetIter Str × EvOp)) {jt : JoinTree}, jt.listener = false →
    ∃ ev, runHist jt h = { jt with evidences := ev }
  | [], jt, _ => ⟨jt.evidences, rfl⟩
  | op :: h, jt, hl => by
    obtain ⟨ev, e⟩ := EvOp.run_silent op.1 hl op.2
    obtain ⟨ev', e'⟩ := runHist_silent h (jt := (op.2.run op.1 jt).1) (by rw [e]; exact hl)
    refine ⟨ev', ?_⟩
    change runHist (op.2.run op.1 jt).1 h = _
    rw [e', e]

/-- the posteriors do not depend on the stored likelihoods -/
theorem getPosteriors_evidences (jt : JoinTree) (ev : Dict Int (Dict Str ℚ)) :
    JoinTree.getPosteriors { jt with evidences := ev } = jt.getPosteriors := rfl

/-- **C61**, partial. Missing: evidence given to the copy as it is (see `c61_false` and `c61_never_updated`). In every session the copy
reports the posteriors of the original, and with a listener of its own it goes on exactly like the original. -/
theorem c61_copy_partial {ops : List BOp} {jt : JoinTree} (hs : Session ops jt) :
    jt.deepcopy.getPosteriors = jt.getPosteriors ∧
      ∀ h : List (SetIter Str × EvOp), runHist jt.deepcopy.setListener h = runHist jt h := by
  refine ⟨rfl, fun h => ?_⟩
  obtain ⟨ℓ, cs, T, hh⟩ := hs.held
  have e : jt.deepcopy.setListener = jt := by
    have := hh.live.listen
    cases jt
    simp only at this
    subst this
    rfl
  rw [e]

/-- **C61** fails for all evidence: whatever operations are carried out on the copy, it reports the posteriors from the time of copying. -/
theorem c61_never_updated (jt : JoinTree) (h : List (SetIter Str × EvOp)) :
    (runHist jt.deepcopy h).getPosteriors = jt.getPosteriors := by
  obtain ⟨ev, e⟩ := runHist_silent h (jt := jt.deepcopy) rfl
  rw [e]
  rfl

/-- an observation of node 4 -/
def c61_hist : List (SetIter Str × EvOp) :=
  [(.same, .update [Evidence.build (c16_node 4) .observation [("on".toList, 1)]])]

/-- the posterior of node 0 -/
def c61_report (jt : JoinTree) : Option (Dict Str ℚ) := jt.getPosteriors.val?.bind (fun d => Dict.get? d "a".toList)

/-- **C61** is false of the code: `__deepcopy__` does not copy the listener, so that evidence given to the copy is stored but never
propagated. After the observation of node 4 the original and its copy report different posteriors of node 0. -/
theorem c61_false : ∃ jt, Session c16_ops jt ∧
    c61_report (runHist jt c61_hist) = some [("on".toList, 110 / 447), ("off".toList, 337 / 447)] ∧
    c61_report (runHist jt.deepcopy c61_hist) = c61_report jt ∧
    c61_report jt = some [("on".toList, 1 / 4), ("off".toList, 3 / 4)] := by
  have key : ((apply .same .same (Bbn.run c16_ops)).val?.bind (fun jt => c61_report (runHist jt c61_hist))) =
      some [("on".toList, 110 / 447), ("off".toList, 337 / 447)] ∧
      ((apply .same .same (Bbn.run c16_ops)).val?.bind c61_report) = some [("on".toList, 1 / 4), ("off".toList, 3 / 4)] := by
    decide +kernel
  cases hj : apply .same .same (Bbn.run c16_ops) with
  | error e => rw [hj] at key; exact absurd key.2 (by intro h; cases h)
  | ok jt =>
    rw [hj] at key
    refine ⟨jt, Session.start .same .same c16_usable.toSane hj, key.1, ?_, key.2⟩
    unfold c61_report
    rw [c61_never_updated]

/-! ## The claims are not vacuous -/

/-- C61 at a join tree that has been given evidence before it is copied: the copy reports 110/447 for node 0, like the original, and goes on
reporting it when node 2 is observed as well, unless it gets a listener -/
example : ∃ jt, Session c16_ops jt ∧ c61_report jt = some [("on".toList, 110 / 447), ("off".toList, 337 / 447)] ∧
    (∀ h, (runHist jt.deepcopy h).getPosteriors = jt.getPosteriors) ∧
    (∀ h, runHist jt.deepcopy.setListener h = runHist jt h) := by
  obtain ⟨jt, hs, hr, _⟩ := c61_false
  have hs' : Session c16_ops (runHist jt c61_hist) := .evidence .same _ hs (by intro e he; simp at he; subst he; unfold NodeOk; decide +kernel)
  exact ⟨_, hs', hr, fun h => c61_never_updated _ h, (c61_copy_partial hs').2⟩

end PyBBN
