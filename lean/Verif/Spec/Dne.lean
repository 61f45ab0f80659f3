import Verif.Model.Csv
import Mathlib.Algebra.BigOperators.Group.List.Basic
import Mathlib.Algebra.Order.Field.Rat

/-!
# Specification: what a reader of DNET files sees

Statements end with a semicolon; leading blanks do not matter. `node <name> {` opens a node, and `states`, `parents` and `probs`
describe the node opened last.
-/

namespace PyBBN

/-- a node in a DNET file -/
structure DneNode where
  name : Str
  states : List Str
  parents : List Str
  probs : List Str
  deriving DecidableEq, Repr

/-- the items of `a,b,c` -/
def dneItems (s : Str) : List Str := if s = [] then [] else splitOn ',' s

/-- the text after the keyword, if the statement starts with it -/
def afterKw (kw : String) (s : Str) : Option Str :=
  if kw.toList.isPrefixOf s then some (s.drop kw.toList.length) else none

/-- read one statement; the node opened last comes first -/
def dneStmt (acc : List DneNode) (s : Str) : List DneNode :=
  let s := s.dropWhile isSpace
  match afterKw "node " s with
  | some r => ⟨r.takeWhile (fun c => decide (c ≠ ' ')), [], [], []⟩ :: acc
  | none =>
    match acc with
    | [] => []
    | n :: ns =>
      match afterKw "states = (" s with
      | some r => { n with states := dneItems (r.takeWhile (fun c => decide (c ≠ ')'))) } :: ns
      | none =>
        match afterKw "parents = (" s with
        | some r => { n with parents := dneItems (r.takeWhile (fun c => decide (c ≠ ')'))) } :: ns
        | none =>
          match afterKw "probs = (" s with
          | some r => { n with probs := dneItems (r.takeWhile (fun c => decide (c ≠ ')'))) } :: ns
          | none => n :: ns

/-- the nodes described by a text, in order -/
def readDne (text : Str) : List DneNode := ((splitOn ';' text).foldl dneStmt []).reverse

/-- the states of the node with the given name -/
def dneStates (ns : List DneNode) (name : Str) : List Str := ((ns.find? (fun m => decide (m.name = name))).map DneNode.states).getD []

/-- the position of the entry of `n` for the joint value `σ` (by name): parents in the listed order, the node itself fastest -/
def dneIndex (ns : List DneNode) (n : DneNode) (σ : Str → Str) : Nat :=
  (n.parents ++ [n.name]).foldl (fun acc p => acc * (dneStates ns p).length + (dneStates ns p).idxOf (σ p)) 0

/-- the product of the selected entries of all nodes; `parse` reads a number -/
def dneWeight (parse : Str → Option ℚ) (ns : List DneNode) (σ : Str → Str) : ℚ :=
  (ns.map (fun n => ((n.probs[dneIndex ns n σ]?).bind parse).getD 0)).prod

end PyBBN
