import Verif.Model.Evidence

/-!
# `pybbn/causality/ace.py`: average causal effect
-/

namespace PyBBN

/-- a computation that reads and changes the join tree of an `Ace` object and may raise -/
def JtM (α : Type) := JoinTree → JoinTree × Py α

namespace JtM

instance : Monad JtM where
  pure a := fun jt => (jt, .ok a)
  bind m f := fun jt =>
    match m jt with
    | (jt, .ok a) => f a jt
    | (jt, .error e) => (jt, .error e)

/-- call a mutating method of the join tree -/
def call (f : JoinTree → JoinTree.Outcome) : JtM Unit := fun jt =>
  match f jt with
  | (jt, none) => (jt, .ok ())
  | (jt, some e) => (jt, .error e)

/-- call a method that does not change the join tree -/
def read {α : Type} (f : JoinTree → Py α) : JtM α := fun jt => (jt, f jt)

end JtM

/-- `pybbn/causality/ace.py:14-21` the attributes of an `Ace` -/
structure Ace where
  bbn : Bbn
  jt : JoinTree

namespace Ace

/-- `pybbn/causality/ace.py:14-21` `__init__` -/
def init (it : SetIter Int) (js : SetIter Str) (b : Bbn) : Py Ace := do
  let jt ← InferenceController.apply it js b
  .ok ⟨b, jt⟩

/-- `pybbn/causality/ace.py:33-39` `get_evidence`. An unknown name gives evidence about `None`, on which `validate` raises
`AttributeError`; the model raises it here (names come from the network's own maps). -/
def getEvidence (n v : Str) (jt : JoinTree) : Py Evidence :=
  match jt.getBbnNodeByName n with
  | none => .error .attributeError
  | some node => .ok (Evidence.build node .observation [(v, 1)])

/-- `pybbn/causality/ace.py:41-42` `get_evidences` -/
def getEvidences (z : List (Str × Str)) (jt : JoinTree) : Py (List Evidence) := z.mapM (fun nv => getEvidence nv.1 nv.2 jt)

/-- `pybbn/causality/ace.py:44-49` `get_y_xz_prob`. `update_evidences` validates the evidence objects in place and the evidence
about `x` is used again: the validated one is returned too. -/
def yxzProb (js : SetIter Str) (y yVal : Str) (x : Evidence) (z : List Evidence) : JtM (ℚ × Evidence) := do
  JtM.call (fun jt => jt.unobserveAll js)
  JtM.call (fun jt => jt.updateEvidences js (x :: z))
  let x' ← JtM.read (fun _ => x.validate)
  let posteriors ← JtM.read JoinTree.getPosteriors
  let d ← JtM.read (fun _ => Dict.getItem posteriors y)
  let p ← JtM.read (fun _ => Dict.getItem d yVal)
  pure (p, x')

/-- `posteriors[n][v]` -/
def lookup (posteriors : Dict Str (Dict Str ℚ)) (nv : Str × Str) : Py ℚ := do
  let d ← Dict.getItem posteriors nv.1
  Dict.getItem d nv.2

/-- `pybbn/causality/ace.py:51-56` `get_z_prob` -/
def zProb (js : SetIter Str) (z : List (Str × Str)) : JtM ℚ := do
  JtM.call (fun jt => jt.unobserveAll js)
  let posteriors ← JtM.read JoinTree.getPosteriors
  let probs ← JtM.read (fun _ => z.mapM (lookup posteriors))
  pure (probs.foldl (· * ·) 1)

/-- `pybbn/causality/ace.py:73-78` the loop over the values of the parents -/
def zLoop (js : SetIter Str) (y yVal : Str) : List (List (Str × Str)) → Evidence → ℚ → JtM ℚ
  | [], _, total => pure total
  | z :: zs, x, total => do
      let ze ← JtM.read (getEvidences z)
      let r ← yxzProb js y yVal x ze
      let pz ← zProb js z
      zLoop js y yVal zs r.2 (total + r.1 * pz)

/-- `pybbn/causality/ace.py:69-80` the loop over the values of `x` -/
def xLoop (js : SetIter Str) (x y yVal : Str) (zs : List (List (Str × Str))) : List Str → Dict Str ℚ → JtM (Dict Str ℚ)
  | [], results => pure results
  | v :: vs, results => do
      let xe ← JtM.read (getEvidence x v)
      let total ← zLoop js y yVal zs xe 0
      xLoop js x y yVal zs vs (Dict.set results v total)

/-- `pybbn/causality/ace.py:58-67` the names and values to loop over; `get_node` and the maps raise `KeyError` -/
def plan (b : Bbn) (x : Str) : Py (List (List (Str × Str)) × List Str) := do
  let i ← Dict.getItem b.getN2i x
  let names ← (b.toGraph.getParents i).mapM (fun z => Dict.getItem b.getI2n z)
  let nodes ← (b.toGraph.getParents i).mapM (fun z => Dict.getItem b.nodes z)
  let n ← Dict.getItem b.nodes i
  .ok ((product (nodes.map (fun z => z.var.values))).map (fun tup => names.zip tup), n.var.values)

/-- `pybbn/causality/ace.py:23-82` `get_ace`: the join tree afterwards and the result -/
def getAce (js : SetIter Str) (a : Ace) (x y yVal : Str) : JoinTree × Py (Dict Str ℚ) :=
  match plan a.bbn x with
  | .error e => (a.jt, .error e)
  | .ok (zs, vs) => xLoop js x y yVal zs vs [] a.jt

end Ace

end PyBBN
