import Verif.Model.Graph

/-!
# `pybbn/graph/potential.py`
-/

namespace PyBBN

/-- `pybbn/graph/potential.py:54-64` `PotentialEntry` -/
structure PEntry where
  entries : Dict Int Str
  value : ℚ
  deriving DecidableEq, Repr

/-- `pybbn/graph/potential.py:4-13` `Potential`: its list of entries. -/
abbrev Potential := List PEntry

namespace PEntry

/-- `pybbn/graph/potential.py:77-88` `self.matches(that)` -/
def matchesE (self that : PEntry) : Bool :=
  that.entries.all (fun kv => decide (Dict.get? self.entries kv.1 = some kv.2))

end PEntry

namespace PotentialUtil

/-- `pybbn/graph/potential.py:25-32` `get_matching_entries` -/
def getMatchingEntries (p : Potential) (e : PEntry) : List PEntry :=
  p.filter (fun x => x.matchesE e)

/-- `pybbn/graph/potential.py:262-278` `get_potential_from_nodes`; `PotentialEntry()` starts with
value `1.0` and `add` is dictionary assignment. -/
def fromNodes (nodes : List Variable) : Potential :=
  (product (nodes.map Variable.values)).map (fun values =>
    { entries := (nodes.zip values).foldl (fun d nv => Dict.set d nv.1.id nv.2) []
      value := 1 })

/-- `pybbn/graph/potential.py:299-310` `merge` -/
def merge (node : Variable) (parents : List Variable) : List Variable := parents ++ [node]

/-- `pybbn/graph/potential.py:245-260` `get_potential` (`node.probs[i]` may raise `IndexError`). -/
def getPotential (node : Variable) (probs : List ℚ) (parents : List Variable) : Py Potential :=
  (fromNodes (merge node parents)).zipIdx.mapM (fun ei =>
    match probs[ei.2]? with
    | some p => .ok { ei.1 with value := p }
    | none => .error .indexError)

/-- `pybbn/graph/potential.py:162-181` `marginalize_for`: first argument is the clique's potential. -/
def marginalize (cliquePotential : Potential) (nodes : List Variable) : Potential :=
  (fromNodes nodes).map (fun entry =>
    { entry with value := ((getMatchingEntries cliquePotential entry).map PEntry.value).sum })

/-- Python's `/` on floats: division by zero raises `ZeroDivisionError`. -/
def pyDiv (a b : ℚ) : Py ℚ := if b = 0 then .error .zeroDivisionError else .ok (a / b)

/-- `pybbn/graph/potential.py:183-198` `normalize` -/
def normalize (p : Potential) : Py Potential :=
  let total := (p.map PEntry.value).sum
  if total ≠ 0 then
    p.mapM (fun e => do
      let d ← pyDiv e.value total
      .ok { e with value := d })
  else .ok p

/-- `pybbn/graph/potential.py:222-230` `is_zero` -/
def isZero (d : ℚ) : Bool := decide (0 = d)

/-- `pybbn/graph/potential.py:212-216` the new value of an entry -/
def quotient (a b : ℚ) : Py ℚ := if isZero a || isZero b then .ok 0 else pyDiv a b

/-- `pybbn/graph/potential.py:200-220` `divide` (`denominator.entries[i]` may raise `IndexError`). -/
def divide (numerator denominator : Potential) : Py Potential :=
  numerator.zipIdx.mapM (fun ei =>
    match denominator[ei.2]? with
    | none => .error .indexError
    | some e => do
        let d ← quotient ei.1.value e.value
        .ok { ei.1 with value := d })

/-- `pybbn/graph/potential.py:232-243` `multiply`: the new content of `bigger`. -/
def multiply (bigger smaller : Potential) : Potential :=
  smaller.foldl (fun b entry =>
    b.map (fun e => if e.matchesE entry then { e with value := e.value * entry.value } else e))
    bigger

end PotentialUtil

end PyBBN
