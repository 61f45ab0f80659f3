import Verif.Model.Evidence
import Verif.Spec.Evidence

/-!
# The numeric part of the library over an arbitrary arithmetic

The rest of the model computes with exact rationals. Here the functions that compute with tables are repeated, branch by
branch, over an arithmetic `A : Arith` that says how numbers are read, multiplied, divided and summed. `Arith.exact` gives back the
functions of `Model/Potential.lean`, `Model/Pptc.lean` and `Model/Evidence.lean` (proved in `Proofs/Arith.lean`); `Arith.float`
rounds after every operation, as the interpreter does.

Kept exact: what happens to the likelihoods in the evidence dictionary (clamping, comparison, `__is_unobserved__`'s sum). They are
rounded when they are multiplied into a table.
-/

namespace PyBBN

/-- How the interpreter computes on the values of table entries. -/
structure Arith where
  /-- the float denoted by a CPT entry or likelihood -/
  inp : ℚ → ℚ
  /-- the literal `1.0` (`potential.py:64`) -/
  one : ℚ
  /-- `entry.value * entry.value` (`potential.py:242`) -/
  mul : ℚ → ℚ → ℚ
  /-- the new value in `divide` (`potential.py:212-216`), with its convention for zeros -/
  div : ℚ → ℚ → ℚ
  /-- `sum([...])` (`potential.py:177-179,191`) -/
  sum : List ℚ → ℚ
  /-- the new value in `normalize` (`potential.py:193-196`); the second argument is the total -/
  quot : ℚ → ℚ → ℚ

namespace Arith

/-- exact rational arithmetic -/
def exact : Arith where
  inp x := x
  one := 1
  mul a b := a * b
  div a b := if PotentialUtil.isZero a || PotentialUtil.isZero b then 0 else a / b
  sum l := l.sum
  quot a t := if t ≠ 0 then a / t else a

/-- floats: `inp`, `mul`, `div` and `sum` are what the interpreter does for literals, `*`, `/` and `sum` -/
def float (inp : ℚ → ℚ) (mul div : ℚ → ℚ → ℚ) (sum : List ℚ → ℚ) : Arith where
  inp := inp
  one := 1
  mul := mul
  div a b := if PotentialUtil.isZero a || PotentialUtil.isZero b then 0 else div a b
  sum := sum
  quot a t := if t ≠ 0 then div a t else a

/-- counts roundings: the "value" of an entry is a number of roundings its computation has gone through -/
def count : Arith where
  inp _ := 1
  one := 0
  mul a b := a + b + 1
  div a b := a + b + 1
  sum l := l.foldr max 0 + l.length
  quot a t := a + t + 1

/-- `pybbn/graph/potential.py:262-278` `get_potential_from_nodes` -/
def fromNodes (A : Arith) (nodes : List Variable) : Potential :=
  (product (nodes.map Variable.values)).map (fun values =>
    { entries := (nodes.zip values).foldl (fun d nv => Dict.set d nv.1.id nv.2) []
      value := A.one })

/-- `pybbn/graph/potential.py:245-260` `get_potential` -/
def getPotential (A : Arith) (node : Variable) (probs : List ℚ) (parents : List Variable) : Py Potential :=
  (A.fromNodes (PotentialUtil.merge node parents)).zipIdx.mapM (fun ei =>
    match probs[ei.2]? with
    | some p => .ok { ei.1 with value := A.inp p }
    | none => .error .indexError)

/-- `pybbn/graph/potential.py:162-181` `marginalize_for` -/
def marginalize (A : Arith) (cliquePotential : Potential) (nodes : List Variable) : Potential :=
  (A.fromNodes nodes).map (fun entry =>
    { entry with value := A.sum ((PotentialUtil.getMatchingEntries cliquePotential entry).map PEntry.value) })

/-- `pybbn/graph/potential.py:183-198` `normalize` (the test for a total of zero is in `quot`) -/
def normalize (A : Arith) (p : Potential) : Potential :=
  p.map (fun e => { e with value := A.quot e.value (A.sum (p.map PEntry.value)) })

/-- `pybbn/graph/potential.py:200-220` `divide` -/
def divide (A : Arith) (numerator denominator : Potential) : Py Potential :=
  numerator.zipIdx.mapM (fun ei =>
    match denominator[ei.2]? with
    | none => .error .indexError
    | some e => .ok { ei.1 with value := A.div ei.1.value e.value })

/-- `pybbn/graph/potential.py:232-243` `multiply` -/
def multiply (A : Arith) (bigger smaller : Potential) : Potential :=
  smaller.foldl (fun b entry =>
    b.map (fun e => if e.matchesE entry then { e with value := A.mul e.value entry.value } else e))
    bigger

/-- `pybbn/pptc/potentialinitializer.py:9-23` `PotentialInitializer.init`, one node -/
def initNode (A : Arith) (b : Bbn) (heap : Dict Int NodeObj) (n : BbnNode) : Py (Dict Int NodeObj) := do
  let parents ← (ddGet b.parents n.var.id).mapM (fun pa => Dict.getItem b.nodes pa)
  let pot ← A.getPotential n.var n.probs (parents.map BbnNode.var)
  let o ← Dict.getItem heap n.var.id
  .ok (Dict.set heap n.var.id { o with potential := some pot })

/-- `pybbn/pptc/potentialinitializer.py:9-23` `PotentialInitializer.init` -/
def potentialInit (A : Arith) (b : Bbn) (heap : Dict Int NodeObj) : Py (Dict Int NodeObj) :=
  b.toGraph.getNodes.foldlM (A.initNode b) heap

/-- `pybbn/pptc/initializer.py:26-35` one iteration of the first node loop -/
def assignNode (A : Arith) (jt : JoinTree) (node : Variable) : Py JoinTree := do
  let (cid, jt) ← Initializer.getClique jt node
  let p1 ← Dict.getItem jt.potentials cid
  let o ← Dict.getItem jt.heap node.id
  match o.potential with
  | none => .error .attributeError
  | some p2 => .ok { jt with potentials := Dict.set jt.potentials cid (A.multiply p1 p2) }

/-- `pybbn/graph/jointree.py:273-295` `get_evidence`: the potential it returns -/
def evidencePot (A : Arith) (ev : Dict Int (Dict Str ℚ)) (node : Variable) (value : Str) : Potential :=
  (JoinTree.getEvidence ev node value).2.map (fun e => { e with value := A.inp e.value })

/-- `pybbn/pptc/initializer.py:40-44` body of the evidence loop for one node and value -/
def applyEvidence (A : Arith) (node : Variable) (jt : JoinTree) (value : Str) : Py JoinTree := do
  let o ← Dict.getItem jt.heap node.id
  match o.parentClique with
  | none => .error .keyError
  | some cid =>
      let p ← Dict.getItem jt.potentials cid
      .ok { jt with evidences := (JoinTree.getEvidence jt.evidences node value).1
                    potentials := Dict.set jt.potentials cid (A.multiply p (A.evidencePot jt.evidences node value)) }

/-- `pybbn/pptc/initializer.py:17-23` fresh tables (all ones) for all cliques and separation sets -/
def freshTables (A : Arith) (jt : JoinTree) : Dict Str Potential :=
  let p := jt.getCliques.foldl (fun d c => Dict.set d c.id (A.fromNodes c.nodes)) jt.potentials
  jt.getSepSets.foldl (fun d s => Dict.set d s.id (A.fromNodes s.nodes)) p

/-- `pybbn/pptc/initializer.py:38-45` the evidence loop for one node -/
def applyEvidences (A : Arith) (jt : JoinTree) (node : Variable) : Py JoinTree :=
  node.values.foldlM (A.applyEvidence node) jt

/-- `pybbn/pptc/initializer.py:9-47` `initialize` -/
def initializeJt (A : Arith) (jt : JoinTree) : Py JoinTree := do
  let jt := { jt with potentials := A.freshTables jt }
  let nodes := jt.getBbnNodes
  let jt ← nodes.foldlM A.assignNode jt
  nodes.foldlM A.applyEvidences jt

/-- `pybbn/graph/potential.py:162-181` `marginalize_for(join_tree, clique, nodes)` -/
def marginalizeFor (A : Arith) (jt : JoinTree) (c : Str) (nodes : List Variable) : Py Potential :=
  match Dict.get? jt.potentials c with
  | some p => .ok (A.marginalize p nodes)
  | none => if PotentialUtil.fromNodes nodes = [] then .ok [] else .error .attributeError

/-- `pybbn/graph/potential.py:144-160` `pass_single_message(join_tree, x, s, y)` -/
def passSingleMessage (A : Arith) (jt : JoinTree) (x s y : Str) : Py JoinTree := do
  let old ← Dict.getItem jt.potentials s
  let sn ← Dict.getItem jt.nodes s
  let new ← A.marginalizeFor jt x sn.vars
  let pots := Dict.set jt.potentials s new
  let yp ← Dict.getItem pots y
  let ratio ← A.divide new old
  .ok { jt with potentials := Dict.set pots y (A.multiply yp ratio) }

/-- `pybbn/pptc/evidencecollector.py:53-75` `__walk__(x, s, y)` -/
def collectWalk (A : Arith) (js : SetIter Str) : Nat → Str → Str → Str → List Str × JoinTree →
    Py (List Str × JoinTree)
  | 0, _, _, _, _ => .error .recursionError
  | fuel + 1, x, s, y, st => do
      let mt := Propagator.markNew st.1 (Propagator.neighboringCliques js st.2 y)
      let st ← mt.2.foldlM (fun st sc => A.collectWalk js fuel y sc.1 sc.2 st) (mt.1, st.2)
      let jt ← A.passSingleMessage st.2 y s x
      .ok (st.1, jt)

/-- `pybbn/pptc/evidencecollector.py:37-51` `start` -/
def collect (A : Arith) (js : SetIter Str) (fuel : Nat) (jt : JoinTree) (start : Str) : Py JoinTree := do
  let ns := Propagator.neighboringCliques js jt start
  let marked := start :: ns.map Prod.snd
  let st ← ns.foldlM (fun st sc => A.collectWalk js fuel start sc.1 sc.2 st) (marked, jt)
  .ok st.2

/-- `pybbn/pptc/evidencedistributor.py:61-81` `__walk__(x, s, y)` -/
def distributeWalk (A : Arith) (js : SetIter Str) : Nat → Str → List Str × JoinTree → Py (List Str × JoinTree)
  | 0, _, _ => .error .recursionError
  | fuel + 1, y, st => do
      let mt := Propagator.markNew st.1 (Propagator.neighboringCliques js st.2 y)
      mt.2.foldlM (fun st sc => do
        let jt ← A.passSingleMessage st.2 y sc.1 sc.2
        A.distributeWalk js fuel sc.2 (st.1, jt)) (mt.1, st.2)

/-- `pybbn/pptc/evidencedistributor.py:43-59` `start` -/
def distribute (A : Arith) (js : SetIter Str) (fuel : Nat) (jt : JoinTree) (start : Str) : Py JoinTree := do
  let ns := Propagator.neighboringCliques js jt start
  let marked := start :: ns.map Prod.snd
  let st ← ns.foldlM (fun st sc => do
    let jt ← A.passSingleMessage st.2 start sc.1 sc.2
    A.distributeWalk js fuel sc.2 (st.1, jt)) (marked, jt)
  .ok st.2

/-- `pybbn/pptc/propagator.py:10-29` `propagate` -/
def propagate (A : Arith) (js : SetIter Str) (jt : JoinTree) : Py JoinTree := do
  match (sortBy (fun a b => strLe (Clique.id a) (Clique.id b)) jt.getCliques).head? with
  | none => .error .indexError
  | some x =>
      let jt ← A.collect js jt.nodes.length jt x.id
      A.distribute js jt.nodes.length jt x.id

/-- `pybbn/pptc/inferencecontroller.py:17-41` `apply` on fresh node objects -/
def apply (A : Arith) (it : SetIter Int) (js : SetIter Str) (b : Bbn) : Py JoinTree := do
  let heap ← A.potentialInit b (InferenceController.initialHeap b [])
  let ug := moralize b
  let heap ← moralParents b heap
  let cliques := (Triangulator.triangulate it ug).1
  let jt := Transformer.transform js cliques
  let jt := { jt with parentInfo := InferenceController.parentInfoOf b, heap := heap }
  let jt ← A.initializeJt jt
  let jt ← A.propagate js jt
  .ok { jt with listener := true }

/-- `pybbn/graph/jointree.py:534-545` `__notify_listener__` with an `InferenceController` listener
(`inferencecontroller.py:85-100`) -/
def notify (A : Arith) (js : SetIter Str) (jt : JoinTree) (c : ChangeType) : JoinTree.Outcome :=
  if jt.listener then
    match c with
    | .none => (jt, none)
    | .retraction =>
        match (do let jt ← A.initializeJt jt
                  A.propagate js jt : Py JoinTree) with
        | .ok jt => (jt, none)
        | .error e => (jt, some e)
    | .update =>
        match A.propagate js jt with
        | .ok jt => (jt, none)
        | .error e => (jt, some e)
  else (jt, none)

/-- `pybbn/graph/jointree.py:361-379` `update_evidences` -/
def updateEvidences (A : Arith) (js : SetIter Str) (jt : JoinTree) (es : List Evidence) : JoinTree.Outcome :=
  match es.mapM Evidence.validate with
  | .error e => (jt, some e)
  | .ok es =>
      match JoinTree.getChangeType jt.evidences es with
      | .error e => (jt, some e)
      | .ok change =>
          let w := JoinTree.writeEvidences jt.evidences es
          let jt := { jt with evidences := w.1 }
          match w.2 with
          | some e => (jt, some e)
          | none => A.notify js jt change

/-- `pybbn/graph/jointree.py:341-350` `unobserve` -/
def unobserve (A : Arith) (js : SetIter Str) (jt : JoinTree) (nodes : List Variable) : JoinTree.Outcome :=
  A.updateEvidences js jt (nodes.map JoinTree.unobservedEvidence)

/-- `pybbn/graph/jointree.py:381-412` `set_observation` -/
def setObservation (A : Arith) (js : SetIter Str) (jt : JoinTree) (e : Evidence) : JoinTree.Outcome :=
  match Dict.get? jt.evidences e.node.id with
  | none => (jt, some .keyError)
  | some stored =>
      let pvalues := (stored.filter (fun kv => decide (kv.2 = 1))).map Prod.fst
      let cvalues := (e.values.filter (fun kv => decide (kv.2 = 1))).map Prod.fst
      if pvalues.length = 1 then
        match cvalues.head? with
        | none => (jt, some .indexError)
        | some curr =>
            if pvalues.head? = some curr then A.unobserve js jt [e.node]
            else A.updateEvidences js jt [e]
      else A.updateEvidences js jt [e]

/-- one evidence call: `update_evidences`, `set_observation`, `unobserve`, `unobserve_all` (`jointree.py:341-412`) -/
def runOp (A : Arith) (js : SetIter Str) (jt : JoinTree) : EvOp → JoinTree.Outcome
  | .update es => A.updateEvidences js jt es
  | .observe e => A.setObservation js jt e
  | .unobserve nodes => A.unobserve js jt nodes
  | .unobserveAll => A.unobserve js jt jt.getBbnNodes

/-- a history of evidence calls; the caller goes on after an exception -/
def runHist (A : Arith) (jt : JoinTree) (h : List (SetIter Str × EvOp)) : JoinTree :=
  h.foldl (fun jt op => (A.runOp op.1 jt op.2).1) jt

/-- `pybbn/graph/jointree.py:70-81` `get_bbn_potential` -/
def getBbnPotential (A : Arith) (jt : JoinTree) (node : Variable) : Py Potential := do
  let o ← Dict.getItem jt.heap node.id
  match o.parentClique with
  | none => .error .keyError
  | some cid =>
      let p ← A.marginalizeFor jt cid [node]
      .ok (A.normalize p)

end Arith

end PyBBN
