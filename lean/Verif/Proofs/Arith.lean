import Verif.Model.Arith
import Verif.Proofs.Apply
import Verif.Proofs.History

/-!
# Lemmas about the numeric part over an arbitrary arithmetic

`exact` gives back the functions of the model. `Tab3`, `JT3`, … relate three runs of the same program over three arithmetics whose
operations preserve a relation `R` between three numbers.
-/

namespace PyBBN

open InferenceController

/-! ### exact arithmetic gives back the model -/

namespace Arith

theorem exact_fromNodes (nodes : List Variable) : exact.fromNodes nodes = PotentialUtil.fromNodes nodes := rfl

theorem exact_getPotential (n : Variable) (probs : List ℚ) (ps : List Variable) :
    exact.getPotential n probs ps = PotentialUtil.getPotential n probs ps := rfl

theorem exact_marginalize (p : Potential) (nodes : List Variable) :
    exact.marginalize p nodes = PotentialUtil.marginalize p nodes := rfl

theorem exact_multiply (a b : Potential) : exact.multiply a b = PotentialUtil.multiply a b := rfl

theorem exact_normalize (p : Potential) : (.ok (exact.normalize p) : Py Potential) = PotentialUtil.normalize p := by
  unfold PotentialUtil.normalize Arith.normalize
  by_cases h : (p.map PEntry.value).sum = 0
  · simp only [h, ne_eq, not_true_eq_false, if_false]
    congr 1
    conv_rhs => rw [← List.map_id p]
    refine List.map_congr_left (fun e _ => ?_)
    simp [exact, h]
  · simp only [ne_eq, h, not_false_eq_true, if_true]
    symm
    refine mapM_ok _ _ _ (fun e _ => ?_)
    simp only [PotentialUtil.pyDiv, h, if_false, exact]
    simp [h, bind, Except.bind]

theorem exact_divide (a b : Potential) : exact.divide a b = PotentialUtil.divide a b := by
  unfold PotentialUtil.divide Arith.divide
  congr 1
  funext ei
  cases b[ei.2]? with
  | none => rfl
  | some e =>
    simp only [PotentialUtil.quotient, exact, PotentialUtil.pyDiv]
    by_cases h : (PotentialUtil.isZero ei.1.value || PotentialUtil.isZero e.value) = true
    · simp [h, bind, Except.bind]
    · have h2 : e.value ≠ 0 := by
        intro h2
        apply h
        simp [PotentialUtil.isZero, h2]
      simp [h, h2, bind, Except.bind]

theorem exact_potentialInit (b : Bbn) (heap : Dict Int NodeObj) : exact.potentialInit b heap = PyBBN.potentialInit b heap := rfl

theorem exact_assignNode : exact.assignNode = Initializer.assignNode := rfl

theorem exact_applyEvidence (n : Variable) (jt : JoinTree) (v : Str) :
    exact.applyEvidence n jt v = Initializer.applyEvidence jt n v := rfl

theorem exact_initializeJt (jt : JoinTree) : exact.initializeJt jt = Initializer.initializeJt jt := rfl

theorem exact_marginalizeFor (jt : JoinTree) (c : Str) (ns : List Variable) :
    exact.marginalizeFor jt c ns = Propagator.marginalizeFor jt c ns := rfl

theorem exact_pass (jt : JoinTree) (x s y : Str) :
    exact.passSingleMessage jt x s y = Propagator.passSingleMessage jt x s y := by
  unfold Arith.passSingleMessage Propagator.passSingleMessage
  simp only [exact_divide, exact_multiply, exact_marginalizeFor]

theorem exact_collectWalk (js : SetIter Str) : ∀ (fuel : Nat) (x s y : Str) (st : List Str × JoinTree),
    exact.collectWalk js fuel x s y st = Propagator.collectWalk js fuel x s y st
  | 0, _, _, _, _ => rfl
  | fuel + 1, x, s, y, st => by
      unfold Arith.collectWalk Propagator.collectWalk
      simp only [exact_collectWalk js fuel, exact_pass]

theorem exact_distributeWalk (js : SetIter Str) : ∀ (fuel : Nat) (y : Str) (st : List Str × JoinTree),
    exact.distributeWalk js fuel y st = Propagator.distributeWalk js fuel y st
  | 0, _, _ => rfl
  | fuel + 1, y, st => by
      unfold Arith.distributeWalk Propagator.distributeWalk
      simp only [exact_distributeWalk js fuel, exact_pass]

theorem exact_propagate (js : SetIter Str) (jt : JoinTree) : exact.propagate js jt = Propagator.propagate js jt := by
  unfold Arith.propagate Propagator.propagate Arith.collect Arith.distribute Propagator.collect Propagator.distribute
  simp only [exact_distributeWalk, exact_collectWalk, exact_pass]
  rfl

theorem exact_apply (it : SetIter Int) (js : SetIter Str) (b : Bbn) : exact.apply it js b = InferenceController.apply it js b := by
  unfold Arith.apply InferenceController.apply applyWith
  simp only [exact_propagate, exact_initializeJt, exact_potentialInit]

theorem exact_notify (js : SetIter Str) (jt : JoinTree) (c : ChangeType) : exact.notify js jt c = jt.notify js c := by
  unfold Arith.notify JoinTree.notify
  simp only [exact_propagate, exact_initializeJt]
  rfl

theorem exact_updateEvidences (js : SetIter Str) (jt : JoinTree) (es : List Evidence) :
    exact.updateEvidences js jt es = jt.updateEvidences js es := by
  unfold Arith.updateEvidences JoinTree.updateEvidences
  simp only [exact_notify]
  rfl

theorem exact_unobserve (js : SetIter Str) (jt : JoinTree) (ns : List Variable) :
    exact.unobserve js jt ns = jt.unobserve js ns := exact_updateEvidences js jt _

theorem exact_setObservation (js : SetIter Str) (jt : JoinTree) (e : Evidence) :
    exact.setObservation js jt e = jt.setObservation js e := by
  unfold Arith.setObservation JoinTree.setObservation
  simp only [exact_updateEvidences, exact_unobserve]
  rfl

theorem exact_runOp (js : SetIter Str) (jt : JoinTree) (op : EvOp) : exact.runOp js jt op = op.run js jt := by
  cases op with
  | update es => exact exact_updateEvidences js jt es
  | observe e => exact exact_setObservation js jt e
  | unobserve ns => exact exact_unobserve js jt ns
  | unobserveAll => exact exact_unobserve js jt _

theorem exact_runHist (jt : JoinTree) (h : List (SetIter Str × EvOp)) : exact.runHist jt h = PyBBN.runHist jt h := by
  unfold Arith.runHist PyBBN.runHist
  simp only [exact_runOp]

theorem exact_getBbnPotential (jt : JoinTree) (v : Variable) : exact.getBbnPotential jt v = jt.getBbnPotential v := by
  unfold Arith.getBbnPotential JoinTree.getBbnPotential
  simp only [exact_normalize, exact_marginalizeFor]
  rfl

end Arith

end PyBBN
