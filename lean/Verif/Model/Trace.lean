import Verif.Model.Pptc

/-! Propagation with a record of the messages.

`propagateT` is `Propagator.propagate` (`Model/Pptc.lean`) with one addition: every call of
`PotentialUtil.pass_single_message(join_tree, x, s, y)` is recorded. Apart from the record it is the same program
(`propagateT_fst`, `Proofs/Trace.lean`). -/

namespace PyBBN.Propagator

/-- a call of `pass_single_message(join_tree, x, s, y)` (`pybbn/graph/potential.py:144-160`): ids of `x`, `s`, `y` -/
structure Call where
  x : Str
  s : Str
  y : Str
deriving DecidableEq, Repr

/-- `pybbn/graph/potential.py:144-160` `pass_single_message`, recorded -/
def passT (st : JoinTree × List Call) (x s y : Str) : Py (JoinTree × List Call) := do
  let jt ← passSingleMessage st.1 x s y
  .ok (jt, st.2 ++ [⟨x, s, y⟩])

/-- `pybbn/pptc/evidencecollector.py:53-75` `__walk__(x, s, y)`; state = marked cliques, join tree and record -/
def collectWalkT (js : SetIter Str) : Nat → Str → Str → Str → List Str × JoinTree × List Call →
    Py (List Str × JoinTree × List Call)
  | 0, _, _, _, _ => .error .recursionError
  | fuel + 1, x, s, y, st => do
      let mt := markNew st.1 (neighboringCliques js st.2.1 y)
      let st ← mt.2.foldlM (fun st sc => collectWalkT js fuel y sc.1 sc.2 st) (mt.1, st.2)
      let jt ← passT st.2 y s x
      .ok (st.1, jt)

/-- `pybbn/pptc/evidencecollector.py:37-51` `start` -/
def collectT (js : SetIter Str) (fuel : Nat) (jt : JoinTree × List Call) (start : Str) : Py (JoinTree × List Call) := do
  let ns := neighboringCliques js jt.1 start
  let marked := start :: ns.map Prod.snd
  let st ← ns.foldlM (fun st sc => collectWalkT js fuel start sc.1 sc.2 st) (marked, jt)
  .ok st.2

/-- `pybbn/pptc/evidencedistributor.py:61-81` `__walk__(x, s, y)` -/
def distributeWalkT (js : SetIter Str) : Nat → Str → List Str × JoinTree × List Call → Py (List Str × JoinTree × List Call)
  | 0, _, _ => .error .recursionError
  | fuel + 1, y, st => do
      let mt := markNew st.1 (neighboringCliques js st.2.1 y)
      mt.2.foldlM (fun st sc => do
        let jt ← passT st.2 y sc.1 sc.2
        distributeWalkT js fuel sc.2 (st.1, jt)) (mt.1, st.2)

/-- `pybbn/pptc/evidencedistributor.py:43-59` `start` -/
def distributeT (js : SetIter Str) (fuel : Nat) (jt : JoinTree × List Call) (start : Str) : Py (JoinTree × List Call) := do
  let ns := neighboringCliques js jt.1 start
  let marked := start :: ns.map Prod.snd
  let st ← ns.foldlM (fun st sc => do
    let jt ← passT st.2 start sc.1 sc.2
    distributeWalkT js fuel sc.2 (st.1, jt)) (marked, jt)
  .ok st.2

/-- `pybbn/pptc/propagator.py:10-29` `propagate`: the join tree and the calls of `pass_single_message`, in order -/
def propagateT (js : SetIter Str) (jt : JoinTree) : Py (JoinTree × List Call) := do
  match (sortBy (fun a b => strLe (Clique.id a) (Clique.id b)) jt.getCliques).head? with
  | none => .error .indexError
  | some x =>
      let st ← collectT js jt.nodes.length (jt, []) x.id
      distributeT js st.1.nodes.length st x.id

end PyBBN.Propagator
