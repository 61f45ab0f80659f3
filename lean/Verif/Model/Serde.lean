import Verif.Model.Pptc

/-!
# Serialization: `pybbn/graph/{node,variable,dag,jointree}.py`, the `to_dict` / `from_dict` methods

The dictionaries with fixed string keys are records. `json.dumps` / `json.loads` are modelled by their effect on a
dictionary: integer keys become strings (`json`); numbers, strings and lists are unchanged (finite floats are written with
`repr`, which reads back exactly).
-/

namespace PyBBN

/-- a key of a dictionary that may have gone through JSON -/
inductive PyKey
  | int (i : Int)
  | str (s : Str)
  deriving DecidableEq, Repr

/-- what JSON makes of a key -/
def PyKey.json : PyKey → PyKey
  | .int i => .str (strInt i)
  | .str s => .str s

/-- what JSON makes of the keys of a dictionary -/
def Dict.json {V : Type} (d : Dict PyKey V) : Dict PyKey V := Dict.ofList (d.map (fun kv => (kv.1.json, kv.2)))

/-- `str.isspace` for one character: the whitespace that `str.strip()` removes -/
def isSpace (c : Char) : Bool :=
  let n := c.toNat
  decide (9 ≤ n ∧ n ≤ 13) || decide (28 ≤ n ∧ n ≤ 32) || decide (n ∈ [0x85, 0xA0, 0x1680, 0x2028, 0x2029, 0x202F, 0x205F, 0x3000]) ||
    decide (0x2000 ≤ n ∧ n ≤ 0x200A)

/-- `s.strip()` -/
def strip (s : Str) : Str := ((s.dropWhile isSpace).reverse.dropWhile isSpace).reverse

/-- put a character in front of the first string -/
def consHead (a : Char) : List Str → List Str
  | [] => [[a]]
  | t :: ts => (a :: t) :: ts

/-- `s.split(c)` for a one-character separator -/
def splitOn (c : Char) : Str → List Str
  | [] => [[]]
  | a :: s => if a = c then [] :: splitOn c s else consHead a (splitOn c s)

/-- the blanks that `int` passes over: those of C, and in strings that are not ASCII those of `str.isspace` -/
def intSpace (s : Str) (c : Char) : Bool :=
  if s.all (fun c => decide (c.toNat < 128)) then decide (9 ≤ c.toNat ∧ c.toNat ≤ 13) || decide (c.toNat = 32) else isSpace c

/-- the sign of a number and the rest -/
def intSign : Str → Int × Str
  | '-' :: ds => (-1, ds)
  | '+' :: ds => (1, ds)
  | ds => (1, ds)

/-- `int(s)`: blanks around, a sign, digits, single underscores between digits (Python also accepts digits of other scripts) -/
def parseInt (s : Str) : Py Int :=
  let t := intSign ((s.dropWhile (intSpace s)).reverse.dropWhile (intSpace s)).reverse
  if (splitOn '_' t.2).all (fun ds => decide (ds ≠ []) && ds.all Char.isDigit) then
    .ok (t.1 * (Nat.ofDigitChars 10 (t.2.filter (fun c => decide (c ≠ '_'))) 0 : Int))
  else .error .valueError

/-- `pybbn/graph/variable.py:38-44` `Variable.to_dict` -/
structure VarDict where
  id : Int
  name : Str
  values : List Str
  deriving DecidableEq, Repr

/-- `pybbn/graph/node.py:72-78` `BbnNode.to_dict` -/
structure NodeDict where
  probs : List ℚ
  variable_ : VarDict
  deriving DecidableEq, Repr

/-- `pybbn/graph/variable.py:38-44` -/
def Variable.toDict (v : Variable) : VarDict := ⟨v.id, v.name, v.values⟩

/-- `pybbn/graph/node.py:72-78` -/
def BbnNode.toDict (n : BbnNode) : NodeDict := ⟨n.probs, n.var.toDict⟩

/-- `get_variable` in `dag.py:258-259` and `jointree.py:458-459` -/
def VarDict.toVariable (d : VarDict) : Variable := ⟨d.id, d.name, d.values⟩

/-- `get_bbn_node` in `dag.py:261-262` and `jointree.py:461-462` -/
def NodeDict.toNode (d : NodeDict) : BbnNode := ⟨d.variable_.toVariable, d.probs⟩

/-- `nodes[id] if id in nodes else nodes[str(id)]` (`dag.py:276-277`, `jointree.py:467`) -/
def lookupNode {V : Type} (nodes : Dict PyKey V) (i : Int) : Py V :=
  if Dict.has nodes (.int i) then Dict.getItem nodes (.int i) else Dict.getItem nodes (.str (strInt i))

/-! ## networks -/

/-- an entry `{"pa": pa, "ch": ch}` -/
structure EdgeDict where
  pa : Int
  ch : Int
  deriving DecidableEq, Repr

/-- the dictionary made by `Bbn.to_dict` -/
structure BbnDict where
  nodes : Dict PyKey NodeDict
  edges : List EdgeDict
  deriving DecidableEq, Repr

/-- through JSON -/
def BbnDict.json (d : BbnDict) : BbnDict := { d with nodes := d.nodes.json }

/-- `pybbn/graph/dag.py:229-247` `Bbn.to_dict` -/
def Bbn.toDict (b : Bbn) : BbnDict where
  nodes := Dict.ofList (b.toGraph.getNodes.map (fun n => (PyKey.int n.var.id, n.toDict)))
  edges := b.parents.flatMap (fun kv => kv.2.map (fun pa => ⟨pa, kv.1⟩))

/-- `pybbn/graph/dag.py:249-281` `Bbn.from_dict` -/
def Bbn.fromDict (d : BbnDict) : Py Bbn := do
  let nodes : Dict PyKey BbnNode := Dict.ofList (d.nodes.map (fun kv => (kv.1, kv.2.toNode)))
  let b := nodes.foldl (fun b kn => Bbn.addNode b kn.2) Bbn.empty
  d.edges.foldlM (fun b e => do
    let pa ← lookupNode nodes e.pa
    let ch ← lookupNode nodes e.ch
    .ok (b.addEdge ⟨pa, ch, .directed⟩)) b

/-! ## join trees -/

/-- an entry of `d["jt"]["nodes"]` -/
inductive JNodeDict
  | clique (nodeIds : List Int)
  | sepset (left right : Str)
  deriving DecidableEq, Repr

/-- the node ids of an entry with `"type": "clique"` (`jointree.py:478-479`) -/
def JNodeDict.cliqueIds? : JNodeDict → Option (List Int)
  | .clique ids => some ids
  | .sepset _ _ => none

/-- the ends of an entry with `"type": "sepset"` (`jointree.py:485-486`) -/
def JNodeDict.ends? : JNodeDict → Option (Str × Str)
  | .clique _ => none
  | .sepset l r => some (l, r)

/-- the dictionary made by `JoinTree.to_dict` -/
structure JtDict where
  bbnNodes : Dict PyKey NodeDict
  nodes : Dict Str JNodeDict
  edges : List Str
  parentInfo : Dict Str (List Int)
  deriving DecidableEq, Repr

/-- through JSON -/
def JtDict.json (d : JtDict) : JtDict := { d with bbnNodes := d.bbnNodes.json }

namespace JoinTree

/-- the node object of variable `v` (its CPT is the current one) -/
def nodeObj (jt : JoinTree) (v : Variable) : BbnNode :=
  ⟨v, ((Dict.get? jt.heap v.id).map NodeObj.probs).getD []⟩

/-- `id` of a join tree node -/
def _root_.PyBBN.JNode.id : JNode → Str
  | .clique c => c.id
  | .sepset s => s.id

/-- the entry written for a join tree node, `pybbn/graph/jointree.py:427-430` (`list(n.node_ids)` lists a set) -/
def _root_.PyBBN.JNode.toDict (it : SetIter Int) : JNode → JNodeDict
  | .clique c => .clique (it.iter 0 0 c.nodeIds)
  | .sepset s => .sepset s.left.id s.right.id

/-- `pybbn/graph/jointree.py:424-431` `nodes_to_dict` -/
def nodesToDict (it : SetIter Int) (ns : List JNode) : Dict Str JNodeDict :=
  Dict.ofList (ns.map (fun n => (n.id, n.toDict it)))

/-- `pybbn/graph/jointree.py:414-447` `JoinTree.to_dict(jt, bbn)` -/
def toDict (it : SetIter Int) (jt : JoinTree) (b : Bbn) : JtDict where
  bbnNodes := Dict.ofList (jt.getBbnNodes.map (fun v => (PyKey.int v.id, (jt.nodeObj v).toDict)))
  nodes := nodesToDict it (Dict.values jt.nodes)
  edges := (Dict.values jt.edges).map SepSet.id
  parentInfo := Dict.ofList (b.parents.map (fun kv => (strInt kv.1, kv.2)))

/-- `pybbn/graph/jointree.py:450-502` `JoinTree.from_dict(d)` -/
def fromDict (js : SetIter Str) (d : JtDict) : Py JoinTree := do
  let bbnNodes : Dict PyKey BbnNode := Dict.ofList (d.bbnNodes.map (fun kv => (kv.1, kv.2.toNode)))
  let cliques ← (d.nodes.filterMap (fun kv => kv.2.cliqueIds?)).mapM
    (fun ids => do
      let ns ← ids.mapM (fun i => lookupNode bbnNodes i)
      .ok (Clique.mk (ns.map BbnNode.var)))
  let cliques : Dict Str Clique := Dict.ofList (cliques.map (fun c => (c.id, c)))
  let sepsets ← (d.nodes.filterMap (fun kv => kv.2.ends?)).mapM
    (fun lr => do
      let l ← Dict.getItem cliques lr.1
      let r ← Dict.getItem cliques lr.2
      .ok (SepSet.mk' l r))
  let sepsets : Dict Str SepSet := Dict.ofList (sepsets.map (fun s => (s.id, s)))
  let edges ← d.edges.mapM (fun e => Dict.getItem sepsets e)
  let jt : JoinTree :=
    if edges ≠ [] then edges.foldl (fun jt s => jt.addEdge js s) {}
    else { nodes := cliques.map (fun kv => (kv.1, JNode.clique kv.2)) }
  let info ← d.parentInfo.mapM (fun kv => do
    let k ← parseInt kv.1
    .ok (k, kv.2))
  .ok { jt with
    parentInfo := Dict.ofList info
    heap := Dict.ofList (bbnNodes.map (fun kn => (kn.2.var.id, { probs := kn.2.probs }))) }

end JoinTree

end PyBBN
