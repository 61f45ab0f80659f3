import Verif.Model.Csv
import Verif.Spec.SameDoc

/-!
# Specification: what the lines of a CSV file of a network say (C138)
-/

namespace PyBBN

/-- a line is about a node, or about an edge from a parent to a child -/
inductive CsvLine
  | node (n : BbnNode)
  | edge (p c : Int)
  deriving DecidableEq

/-- three fields are an edge, anything else is a node -/
def csvSays (ft : FloatText) (line : Str) : Py CsvLine :=
  match splitOn ',' line with
  | [a, b, _] => do
      let a ← parseInt a
      let b ← parseInt b
      .ok (.edge a b)
  | _ => do
      let n ← csvReadNode ft line
      .ok (.node n)

/-- what the lines of a file say, from top to bottom -/
def csvFile (ft : FloatText) (text : Str) : Py (List CsvLine) := (fileLines (univNewlines text)).mapM (csvSays ft)

/-- the nodes of a file -/
def CsvLine.nodes (ls : List CsvLine) : List BbnNode :=
  ls.filterMap (fun l => match l with
    | .node n => some n
    | .edge _ _ => none)

/-- the edges of a file -/
def CsvLine.edges (ls : List CsvLine) : List (Int × Int) :=
  ls.filterMap (fun l => match l with
    | .node _ => none
    | .edge p c => some (p, c))

end PyBBN
