import Verif.Model.Json

/-!
# Join trees as JSON text

`JoinTree.to_dict` makes a dictionary that users pass to `json.dumps`, and `JoinTree.from_dict` takes one that comes from `json.loads`
(`tests/graph/test_jointree.py`).
-/

namespace PyBBN

/-- an entry of `d["jt"]["nodes"]` as a JSON value, `pybbn/graph/jointree.py:427-430` -/
def JNodeDict.toJ : JNodeDict → JVal
  | .clique ids => .obj [(.str "node_ids".toList, .arr (ids.map .int)), (.str "type".toList, .str "clique".toList)]
  | .sepset l r => .obj [(.str "left".toList, .str l), (.str "right".toList, .str r), (.str "type".toList, .str "sepset".toList)]

/-- `pybbn/graph/jointree.py:440-447` the dictionary of a join tree as a JSON value -/
def JtDict.toJ (d : JtDict) : JVal :=
  .obj [(.str "bbn_nodes".toList, .obj (d.bbnNodes.map (fun kv => (kv.1, kv.2.toJ)))),
    (.str "jt".toList, .obj [
      (.str "nodes".toList, .obj (d.nodes.map (fun kv => (PyKey.str kv.1, kv.2.toJ)))),
      (.str "edges".toList, .arr (d.edges.map .str)),
      (.str "parent_info".toList, .obj (d.parentInfo.map (fun kv => (PyKey.str kv.1, JVal.arr (kv.2.map .int)))))])]

/-- reading an entry of `d["jt"]["nodes"]`, `pybbn/graph/jointree.py:464-487`; an entry of another type is passed over -/
def JNodeDict.ofJ (j : JVal) : Py (Option JNodeDict) := do
  let t ← (← j.get "type").asStr
  if t = "clique".toList then do
    let ids ← (← (← j.get "node_ids").listItems).mapM JVal.asInt
    .ok (some (.clique ids))
  else if t = "sepset".toList then do
    let l ← (← j.get "left").asStr
    let r ← (← j.get "right").asStr
    .ok (some (.sepset l r))
  else .ok none

/-- a key that is a string -/
def PyKey.asStr : PyKey → Py Str
  | .str s => .ok s
  | .int _ => .error .typeError

/-- the entries of `d["jt"]["nodes"]` -/
def JtDict.nodesOfJ (kvs : List (PyKey × JVal)) : Py (Dict Str JNodeDict) := do
  let l ← kvs.mapM (fun kv => do
    let k ← kv.1.asStr
    let n ← JNodeDict.ofJ kv.2
    .ok (n.map (fun n => (k, n))))
  .ok (l.filterMap id)

/-- `pybbn/graph/jointree.py:450-502` reading the dictionary of a join tree. (All dictionary accesses come before the tree is built; Python
interleaves them, which only matters for which exception is raised.) -/
def JtDict.ofJ (j : JVal) : Py JtDict := do
  let bbnNodes ← (← (← j.get "bbn_nodes").dictItems).mapM (fun kv => do .ok (kv.1, ← NodeDict.ofJ kv.2))
  let jt ← j.get "jt"
  let nodes ← JtDict.nodesOfJ (← (← jt.get "nodes").dictItems)
  let edges ← (← (← jt.get "edges").listItems).mapM JVal.asStr
  let info ← (← (← jt.get "parent_info").dictItems).mapM (fun kv => do .ok (← kv.1.asStr, ← (← kv.2.listItems).mapM JVal.asInt))
  .ok ⟨bbnNodes, nodes, edges, info⟩

/-- `json.dumps(JoinTree.to_dict(jt, bbn), indent=ind)` -/
def JoinTree.toJson (jf : JsonFloat) (ind : Option Nat) (it : SetIter Int) (jt : JoinTree) (b : Bbn) : Str :=
  Json.dumps jf ind 0 (jt.toDict it b).toJ

/-- `JoinTree.from_dict(json.loads(s))` -/
def JoinTree.fromJson (jf : JsonFloat) (js : SetIter Str) (s : Str) : Py JoinTree := do
  let j ← Json.loads jf s
  JoinTree.fromDict js (← JtDict.ofJ j)

end PyBBN
