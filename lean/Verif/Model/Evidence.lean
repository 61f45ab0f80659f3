import Verif.Model.Pptc

/-!
# `pybbn/graph/jointree.py`: evidence, evidence updates and posteriors
-/

namespace PyBBN

/-- `pybbn/graph/jointree.py:624-632` -/
inductive EvidenceType
  | virtual | finding | observation | unobserve
  deriving DecidableEq, Repr

/-- `pybbn/graph/jointree.py:635-642` -/
inductive ChangeType
  | none | update | retraction
  deriving DecidableEq, Repr

/-- `pybbn/graph/jointree.py:701-715` `Evidence(node, type)` with its `values` -/
structure Evidence where
  node : Variable
  type : EvidenceType
  values : Dict Str ℚ
  deriving DecidableEq, Repr

namespace Evidence

/-- `pybbn/graph/jointree.py:645-698` `EvidenceBuilder`: `with_evidence` calls in order, then `build`. -/
def build (node : Variable) (type : EvidenceType) (l : List (Str × ℚ)) : Evidence :=
  ⟨node, type, l.foldl (fun d kv => Dict.set d kv.1 kv.2) []⟩

/-- `pybbn/graph/jointree.py:770-782` `__is_unobserved__` -/
def isUnobserved (values : Dict Str ℚ) : Bool :=
  decide ((values.map Prod.snd).sum = (values.length : ℚ))

/-- `pybbn/graph/jointree.py:784-802` `__is_observed__` -/
def isObserved (values : Dict Str ℚ) : Bool :=
  let one := (values.filter (fun kv => decide (kv.2 = 1))).length
  let zero := (values.filter (fun kv => decide (kv.2 ≠ 1))).length
  decide (one = 1) && decide ((values.length : Int) - 1 = zero)

/-- `pybbn/graph/jointree.py:804-813` `__get_observed_value__` (called on observed maps only) -/
def getObservedValue (values : Dict Str ℚ) : Option Str :=
  ((values.filter (fun kv => decide (kv.2 = 1))).map Prod.fst).head?

/-- `pybbn/graph/jointree.py:728-755` `compare`; `that` is the stored likelihood map -/
def compare (values that : Dict Str ℚ) : ChangeType :=
  if isUnobserved that && isUnobserved values then .none
  else if isObserved that && isObserved values then
    if getObservedValue that = getObservedValue values then .none else .retraction
  else .retraction

/-- `pybbn/graph/jointree.py:815-829` -/
def clamp01 (v : ℚ) : ℚ := if 0 ≤ v ∧ v ≤ 1 then v else if v < 0 then 0 else 1

/-- `pybbn/graph/jointree.py:831-843` -/
def zeroOrOne (v : ℚ) : ℚ := if 0 < v then 1 else 0

/-- `for value in node.variable.values: values[value] = f(value, values[value])` -/
def overwrite (dom : List Str) (f : Str → ℚ → ℚ) (values : Dict Str ℚ) : Dict Str ℚ :=
  dom.foldl (fun d v => Dict.set d v (f v ((Dict.get? d v).getD 0))) values

/-- `pybbn/graph/jointree.py:845-886` `validate`: the new value map (an empty map under `OBSERVATION`
raises `IndexError`, jointree.py:878). -/
def validateValues (node : Variable) (type : EvidenceType) (values : Dict Str ℚ) :
    Py (Dict Str ℚ) :=
  let values := node.values.foldl (fun d v => Dict.setDefault d v 0) values
  match type with
  | .virtual => .ok (overwrite node.values (fun _ x => clamp01 x) values)
  | .finding =>
      let values := overwrite node.values (fun _ x => zeroOrOne x) values
      if (values.map Prod.snd).sum = 0 then .ok (overwrite node.values (fun _ _ => 1) values)
      else .ok values
  | .observation =>
      match (sortBy (fun a b : Str × ℚ => decide (b.2 ≤ a.2)) values).head? with
      | none => .error .indexError
      | some kv => .ok (overwrite node.values (fun v _ => if kv.1 = v then 1 else 0) values)
  | .unobserve => .ok (overwrite node.values (fun _ _ => 1) values)

/-- `pybbn/graph/jointree.py:845-886` `validate` -/
def validate (e : Evidence) : Py Evidence := do
  let v ← validateValues e.node e.type e.values
  .ok { e with values := v }

end Evidence

namespace JoinTree

/-- `pybbn/graph/jointree.py:297-327` `get_change_type`. `compare` never answers `UPDATE`. -/
def getChangeType (ev : Dict Int (Dict Str ℚ)) (es : List Evidence) : Py ChangeType := do
  let changes ← es.mapM (fun e => do
    let stored ← Dict.getItem ev e.node.id
    .ok (Evidence.compare e.values stored))
  if ChangeType.retraction ∈ changes then .ok .retraction
  else if ChangeType.update ∈ changes then .ok .update
  else .ok .none

/-- `pybbn/graph/jointree.py:375-377` the inner loop writing one likelihood; `none` when every key exists,
otherwise the `KeyError` with the map as it was at that moment. -/
def writeValues : Dict Str ℚ → List (Str × ℚ) → Dict Str ℚ × Option PyErr
  | stored, [] => (stored, none)
  | stored, (k, v) :: rest =>
      if Dict.has stored k then writeValues (Dict.set stored k v) rest else (stored, some .keyError)

/-- `pybbn/graph/jointree.py:371-377` the writing loop -/
def writeEvidences : Dict Int (Dict Str ℚ) → List Evidence → Dict Int (Dict Str ℚ) × Option PyErr
  | ev, [] => (ev, none)
  | ev, e :: es =>
      match Dict.get? ev e.node.id with
      | none => (ev, some .keyError)
      | some stored =>
          let r := writeValues stored e.values
          let ev := Dict.set ev e.node.id r.1
          match r.2 with
          | some err => (ev, some err)
          | none => writeEvidences ev es

/-- Result of a mutating call: the state afterwards and the exception, if one was raised. -/
abbrev Outcome := JoinTree × Option PyErr

/-- `pybbn/graph/jointree.py:534-545` `__notify_listener__` with an `InferenceController` listener
(`inferencecontroller.py:85-100`). If propagation itself raises, the model keeps the state before it
(C16 shows that it does not raise on join trees built by the library). -/
def notify (js : SetIter Str) (jt : JoinTree) (c : ChangeType) : Outcome :=
  if jt.listener then
    match c with
    | .none => (jt, none)
    | .retraction =>
        match (do let jt ← Initializer.initializeJt jt
                  Propagator.propagate js jt : Py JoinTree) with
        | .ok jt => (jt, none)
        | .error e => (jt, some e)
    | .update =>
        match Propagator.propagate js jt with
        | .ok jt => (jt, none)
        | .error e => (jt, some e)
  else (jt, none)

/-- `pybbn/graph/jointree.py:361-379` `update_evidences` -/
def updateEvidences (js : SetIter Str) (jt : JoinTree) (es : List Evidence) : Outcome :=
  match es.mapM Evidence.validate with
  | .error e => (jt, some e)
  | .ok es =>
      match getChangeType jt.evidences es with
      | .error e => (jt, some e)
      | .ok change =>
          let w := writeEvidences jt.evidences es
          let jt := { jt with evidences := w.1 }
          match w.2 with
          | some e => (jt, some e)
          | none => notify js jt change

/-- `pybbn/graph/jointree.py:329-339` `get_unobserved_evidence` -/
def unobservedEvidence (node : Variable) : Evidence :=
  Evidence.build node .unobserve (node.values.map (fun v => (v, 1)))

/-- `pybbn/graph/jointree.py:341-350` `unobserve` -/
def unobserve (js : SetIter Str) (jt : JoinTree) (nodes : List Variable) : Outcome :=
  updateEvidences js jt (nodes.map unobservedEvidence)

/-- `pybbn/graph/jointree.py:352-359` `unobserve_all` -/
def unobserveAll (js : SetIter Str) (jt : JoinTree) : Outcome := unobserve js jt jt.getBbnNodes

/-- `pybbn/graph/jointree.py:381-412` `set_observation` -/
def setObservation (js : SetIter Str) (jt : JoinTree) (e : Evidence) : Outcome :=
  match Dict.get? jt.evidences e.node.id with
  | none => (jt, some .keyError)
  | some stored =>
      let pvalues := (stored.filter (fun kv => decide (kv.2 = 1))).map Prod.fst
      let cvalues := (e.values.filter (fun kv => decide (kv.2 = 1))).map Prod.fst
      if pvalues.length = 1 then
        match cvalues.head? with
        | none => (jt, some .indexError)
        | some curr =>
            if pvalues.head? = some curr then unobserve js jt [e.node]
            else updateEvidences js jt [e]
      else updateEvidences js jt [e]

/-- `pybbn/graph/jointree.py:70-81` `get_bbn_potential` -/
def getBbnPotential (jt : JoinTree) (node : Variable) : Py Potential := do
  let o ← Dict.getItem jt.heap node.id
  match o.parentClique with
  | none => .error .keyError
  | some cid =>
      let p ← Propagator.marginalizeFor jt cid [node]
      PotentialUtil.normalize p

/-- `pybbn/graph/jointree.py:47-68` `get_posteriors` -/
def getPosteriors (jt : JoinTree) : Py (Dict Str (Dict Str ℚ)) :=
  jt.getBbnNodes.foldlM (fun d node => do
    let p ← jt.getBbnPotential node
    let m := p.foldl (fun m e => Dict.set m ((e.entries.map Prod.snd).flatten) e.value) []
    .ok (Dict.set d node.name m)) []

end JoinTree

end PyBBN
