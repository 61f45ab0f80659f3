import Verif.Spec.Evidence
import Verif.Model.EvObj

/-!
# Specification: evidence objects as what their maker asked for

A builder and a piece of evidence stand for the calls made on them, nothing else: building copies what was asked for so far, and
handing evidence to a join tree does not change it.
-/

namespace PyBBN

/-- what was asked of a builder, or of a piece of evidence: node, type and all likelihoods in the order of the calls -/
structure Ask where
  node : Option Variable := none
  type : EvidenceType := .observation
  pairs : List (Str × ℚ) := []

/-- the evidence asked for -/
def Ask.evidence (a : Ask) : Option Evidence := a.node.map (fun v => Evidence.build v a.type a.pairs)

/-- what was asked of all builders and pieces of evidence -/
structure Plan where
  builders : List Ask := []
  evs : List Ask := []

namespace Plan

/-- the evidence asked of piece `h` -/
def asked (p : Plan) (h : Nat) : Option Evidence := p.evs[h]?.bind Ask.evidence

/-- a call changes the object it is made on, and nothing else; calls on join trees change no evidence -/
def step (p : Plan) : EvCmd → Plan
  | .newBuilder => { p with builders := p.builders ++ [{}] }
  | .withNode b v => { p with builders := p.builders.modify b (fun a => { a with node := v }) }
  | .withType b t => { p with builders := p.builders.modify b (fun a => { a with type := t }) }
  | .withEvidence b k x => { p with builders := p.builders.modify b (fun a => { a with pairs := a.pairs ++ [(k, x)] }) }
  | .build b => { p with evs := p.evs ++ p.builders[b]?.toList }
  | .newEvidence v t => { p with evs := p.evs ++ [⟨v, t, []⟩] }
  | .addValue e k x => { p with evs := p.evs.modify e (fun a => { a with pairs := a.pairs ++ [(k, x)] }) }
  | .update _ _ _ => p
  | .observe _ _ _ => p
  | .unobserve _ _ _ => p
  | .unobserveAll _ _ => p

/-- what a call asks of join tree `t` -/
def op (p : Plan) (t : Nat) : EvCmd → Option (SetIter Str × EvOp)
  | .update js t' hs => if t' = t then (hs.mapM p.asked).map (fun es => (js, .update es)) else none
  | .observe js t' h => if t' = t then (p.asked h).map (fun e => (js, .observe e)) else none
  | .unobserve js t' nodes => if t' = t then some (js, .unobserve nodes) else none
  | .unobserveAll js t' => if t' = t then some (js, .unobserveAll) else none
  | _ => none

/-- what a program asks of join tree `t` -/
def hist (t : Nat) : Plan → List EvCmd → List (SetIter Str × EvOp)
  | _, [] => []
  | p, c :: cs => (p.op t c).toList ++ hist t (p.step c) cs

end Plan

/-- evidence that means the same after it was used: for findings, some likelihood is positive; for observations, one likelihood
is 1 and all others 0 -/
def Evidence.Reusable (e : Evidence) : Prop :=
  match e.type with
  | .virtual => True
  | .unobserve => True
  | .finding => ∃ x ∈ e.node.values, 0 < e.given x
  | .observation => ∃ a ∈ e.node.values, e.given a = 1 ∧ ∀ x, x ≠ a → e.given x = 0

/-- the call does not add a value to piece `h` -/
def EvCmd.Spares (h : Nat) : EvCmd → Prop
  | .addValue e _ _ => e ≠ h
  | _ => True

/-- a call that only uses evidence about nodes and values of the network and hands only plain observations to
`set_observation`. Values are added to a piece of evidence after its use (by the later calls `cs`) only if it is one of the
pieces `R`, and these are reusable whenever they are used. -/
def EvCmd.Good (vars : List Variable) (R : Nat → Prop) (p : Plan) (cs : List EvCmd) : EvCmd → Prop
  | .update _ _ hs => ∀ h ∈ hs, ∃ e, p.asked h = some e ∧ e.Proper vars ∧ (R h → e.Reusable) ∧ (¬ R h → ∀ c ∈ cs, c.Spares h)
  | .observe _ _ h => ∃ e, p.asked h = some e ∧ e.Proper vars ∧ e.type = .observation ∧ e.Reusable ∧ (¬ R h → ∀ c ∈ cs, c.Spares h)
  | .unobserve _ _ nodes => ∀ v ∈ nodes, v ∈ vars
  | _ => True

/-- a call that only uses evidence about nodes and values of the network -/
def EvCmd.Proper (vars : List Variable) (p : Plan) : EvCmd → Prop
  | .update _ _ hs => ∀ h ∈ hs, ∃ e, p.asked h = some e ∧ e.Proper vars
  | .observe _ _ h => ∃ e, p.asked h = some e ∧ e.Proper vars
  | .unobserve _ _ nodes => ∀ v ∈ nodes, v ∈ vars
  | _ => True

/-- a program of such calls -/
def ProperProgram (vars : List Variable) : Plan → List EvCmd → Prop
  | _, [] => True
  | p, c :: cs => c.Proper vars p ∧ ProperProgram vars (p.step c) cs

/-- a program of good calls -/
def GoodProgram (vars : List Variable) (R : Nat → Prop) : Plan → List EvCmd → Prop
  | _, [] => True
  | p, c :: cs => c.Good vars R p cs ∧ GoodProgram vars R (p.step c) cs

end PyBBN
