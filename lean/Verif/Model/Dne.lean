import Verif.Model.Csv

/-!
# Export for Netica: `pybbn/graph/dag.py`, `Bbn.to_dne`

`f"{p}"` of a probability is `FloatText.fmt`.
-/

namespace PyBBN
namespace Dne

/-- `pybbn/graph/dag.py:316,317,325-327` `f"({','.join(items)})"` -/
def paren (items : List Str) : Str := "(".toList ++ joinStr ",".toList items ++ ")".toList

/-- `pybbn/graph/dag.py:329-337` the text of a node -/
def nodeText (name states parents probs : Str) : Str :=
  "node ".toList ++ name ++ " {".toList ++
  "\n                discrete = TRUE".toList ++ ";".toList ++
  "\n                states = ".toList ++ states ++ ";".toList ++
  "\n                kind = NATURE".toList ++ ";".toList ++
  "\n                chance = CHANCE".toList ++ ";".toList ++
  "\n                parents = ".toList ++ parents ++ ";".toList ++
  "\n                probs = ".toList ++ probs ++ ";".toList ++
  "\n            }".toList ++ ";".toList ++
  "\n            ".toList

/-- `pybbn/graph/dag.py:318-322` the names of the parents: one lookup for each edge into the node -/
def parentNames (d : BbnDict) (id : PyKey) : Py (List Str) :=
  (d.edges.filter (fun e => decide (PyKey.int e.ch = id))).mapM (fun e => do
    let n ← Dict.getItem d.nodes (.int e.pa)
    .ok n.variable_.name)

/-- `pybbn/graph/dag.py:313-337` `get_dne_node` -/
def getDneNode (ft : FloatText) (d : BbnDict) (id : PyKey) : Py Str := do
  let node ← Dict.getItem d.nodes id
  let parents ← parentNames d id
  .ok (nodeText node.variable_.name (paren node.variable_.values) (if parents.length = 0 then "()".toList else paren parents)
    (paren (node.probs.map ft.fmt)))

/-- `pybbn/graph/dag.py:342-349` -/
def netText (bnetName nodes : Str) : Str :=
  "// ~->[DNET-1]->~\n        bnet ".toList ++ bnetName ++ " {\n        AutoCompile = TRUE".toList ++ ";".toList ++
  "\n        autoupdate = TRUE".toList ++ ";".toList ++ "\n\n        ".toList ++ nodes ++ "\n        }".toList ++ ";".toList ++ "\n        ".toList

end Dne

/-- `pybbn/graph/dag.py:309-351` `Bbn.to_dne` -/
def Bbn.toDne (ft : FloatText) (bnetName : Str) (b : Bbn) : Py Str := do
  let d := b.toDict
  let nodes ← (Dict.keys d.nodes).mapM (Dne.getDneNode ft d)
  .ok (Dne.netText bnetName (joinStr "\n".toList nodes))

end PyBBN
