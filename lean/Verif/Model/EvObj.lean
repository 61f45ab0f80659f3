import Verif.Model.Evidence

/-!
# `pybbn/graph/jointree.py`: builders and evidence as mutable objects

`Model/Evidence.lean` treats a piece of evidence as a value. Here builders, pieces of evidence and join trees are objects that
the calls of a user's program change in place: `with_…` changes a builder, `add_value` and `validate` (called by
`update_evidences`) change a piece of evidence. Objects are named by their number in the order of creation. A number without an
object stands for a Python variable that does not exist: Python stops before the call (`.exception`), nothing happens.
-/

namespace PyBBN

/-- `pybbn/graph/jointree.py:645-656` an `EvidenceBuilder` object as its constructor leaves it -/
structure EvBuilder where
  node : Option Variable := none
  type : EvidenceType := .observation
  values : Dict Str ℚ := []

/-- `pybbn/graph/jointree.py:701-715` an `Evidence` object; `node` may be `None` -/
structure EvObj where
  node : Option Variable
  type : EvidenceType
  values : Dict Str ℚ

/-- the objects a program works with -/
structure EvWorld where
  builders : List EvBuilder := []
  evs : List EvObj := []
  trees : List JoinTree := []

/-- the calls -/
inductive EvCmd
  | newBuilder
  | withNode (b : Nat) (v : Option Variable)
  | withType (b : Nat) (t : EvidenceType)
  | withEvidence (b : Nat) (k : Str) (x : ℚ)
  | build (b : Nat)
  | newEvidence (v : Option Variable) (t : EvidenceType)
  | addValue (e : Nat) (k : Str) (x : ℚ)
  | update (js : SetIter Str) (t : Nat) (es : List Nat)
  | observe (js : SetIter Str) (t : Nat) (e : Nat)
  | unobserve (js : SetIter Str) (t : Nat) (nodes : List Variable)
  | unobserveAll (js : SetIter Str) (t : Nat)

namespace EvBuilder

/-- `pybbn/graph/jointree.py:689-698` `build`: a new object, the pairs copied one by one with `add_value` -/
def build (b : EvBuilder) : EvObj :=
  ⟨b.node, b.type, b.values.foldl (fun d kv => Dict.set d kv.1 kv.2) []⟩

end EvBuilder

namespace EvWorld

/-- the evidence in an object, as a value (`None` has no attribute `variable`) -/
def content (o : EvObj) : Option Evidence := o.node.map (fun v => ⟨v, o.type, o.values⟩)

/-- `pybbn/graph/jointree.py:368-369` `for evidence in evidences: evidence.validate()`, changing the objects one after the other -/
def validateAll : List EvObj → List Nat → List EvObj × Option PyErr
  | objs, [] => (objs, none)
  | objs, h :: hs =>
      match objs[h]? with
      | none => (objs, some .exception)
      | some o =>
          match o.node with
          | none => (objs, some .attributeError)
          | some v =>
              match Evidence.validateValues v o.type o.values with
              | .error e => (objs, some e)
              | .ok m => validateAll (objs.set h { o with values := m }) hs

/-- `pybbn/graph/jointree.py:370-379` `update_evidences` after the loop that validates -/
def updateChecked (js : SetIter Str) (jt : JoinTree) (es : List Evidence) : JoinTree.Outcome :=
  match JoinTree.getChangeType jt.evidences es with
  | .error e => (jt, some e)
  | .ok change =>
      let w := JoinTree.writeEvidences jt.evidences es
      let jt := { jt with evidences := w.1 }
      match w.2 with
      | some e => (jt, some e)
      | none => JoinTree.notify js jt change

/-- `pybbn/graph/jointree.py:361-379` `update_evidences` on objects -/
def update (js : SetIter Str) (w : EvWorld) (t : Nat) (hs : List Nat) : EvWorld × Option PyErr :=
  match w.trees[t]? with
  | none => (w, some .exception)
  | some jt =>
      let r := validateAll w.evs hs
      let w := { w with evs := r.1 }
      match r.2 with
      | some e => (w, some e)
      | none =>
          match hs.mapM (fun h => w.evs[h]?.bind content) with
          | none => (w, some .attributeError)
          | some es =>
              let o := updateChecked js jt es
              ({ w with trees := w.trees.set t o.1 }, o.2)

/-- `pybbn/graph/jointree.py:381-412` `set_observation` on objects: the likelihoods of the piece of evidence are looked at as
they are, before they are validated -/
def observe (js : SetIter Str) (w : EvWorld) (t : Nat) (h : Nat) : EvWorld × Option PyErr :=
  match w.trees[t]?, w.evs[h]? with
  | some jt, some o =>
      match o.node with
      | none => (w, some .attributeError)
      | some v =>
          match Dict.get? jt.evidences v.id with
          | none => (w, some .keyError)
          | some stored =>
              let pvalues := (stored.filter (fun kv => decide (kv.2 = 1))).map Prod.fst
              let cvalues := (o.values.filter (fun kv => decide (kv.2 = 1))).map Prod.fst
              if pvalues.length = 1 then
                match cvalues.head? with
                | none => (w, some .indexError)
                | some curr =>
                    if pvalues.head? = some curr then
                      let r := JoinTree.unobserve js jt [v]
                      ({ w with trees := w.trees.set t r.1 }, r.2)
                    else update js w t [h]
              else update js w t [h]
  | _, _ => (w, some .exception)

/-- one call: the objects afterwards, and the exception -/
def step (w : EvWorld) : EvCmd → EvWorld × Option PyErr
  -- jointree.py:650-656
  | .newBuilder => ({ w with builders := w.builders ++ [{}] }, none)
  -- jointree.py:658-666
  | .withNode b v =>
      match w.builders[b]? with
      | none => (w, some .exception)
      | some o => ({ w with builders := w.builders.set b { o with node := v } }, none)
  -- jointree.py:668-676
  | .withType b t =>
      match w.builders[b]? with
      | none => (w, some .exception)
      | some o => ({ w with builders := w.builders.set b { o with type := t } }, none)
  -- jointree.py:678-687
  | .withEvidence b k x =>
      match w.builders[b]? with
      | none => (w, some .exception)
      | some o => ({ w with builders := w.builders.set b { o with values := Dict.set o.values k x } }, none)
  -- jointree.py:689-698
  | .build b =>
      match w.builders[b]? with
      | none => (w, some .exception)
      | some o => ({ w with evs := w.evs ++ [o.build] }, none)
  -- jointree.py:706-715
  | .newEvidence v t => ({ w with evs := w.evs ++ [⟨v, t, []⟩] }, none)
  -- jointree.py:717-726
  | .addValue e k x =>
      match w.evs[e]? with
      | none => (w, some .exception)
      | some o => ({ w with evs := w.evs.set e { o with values := Dict.set o.values k x } }, none)
  | .update js t hs => update js w t hs
  | .observe js t h => observe js w t h
  -- jointree.py:341-359
  | .unobserve js t nodes =>
      match w.trees[t]? with
      | none => (w, some .exception)
      | some jt => let r := JoinTree.unobserve js jt nodes
                   ({ w with trees := w.trees.set t r.1 }, r.2)
  | .unobserveAll js t =>
      match w.trees[t]? with
      | none => (w, some .exception)
      | some jt => let r := JoinTree.unobserveAll js jt
                   ({ w with trees := w.trees.set t r.1 }, r.2)

/-- a program; it goes on after an exception -/
def run (w : EvWorld) (cmds : List EvCmd) : EvWorld := cmds.foldl (fun w c => (w.step c).1) w

end EvWorld

end PyBBN
