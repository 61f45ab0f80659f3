import Verif.Model.Do

/-!
# `pybbn/graph/factory.py`

Simplifications: the inner dictionaries of libpgm's `Vdata` have the keys `vals`, `ord`, `parents` and `cprob`, and values are strings
(`json.loads` is in `Model/JsonLibPgm`). A data frame is complete and has string cells and pairwise different column names that are identifiers;
its cells contain no quote and no backslash. For such frames `df.query` with a conjunction of `name=="value"` keeps exactly the rows
that have these values. `networkx.topological_sort` is written down from its source (`topological_generations`).
-/

namespace PyBBN

/-! ## libpgm -/

/-- `cprob`: a list (node without parents) or a dictionary from the text of the parent values to a list -/
inductive CProb
  | list (l : List ℚ)
  | dict (d : Dict Str (List ℚ))

/-- an entry of `Vdata` -/
structure VData where
  ord : Int
  vals : List Str
  parents : Option (List Str)
  cprob : CProb

/-- `pybbn/graph/factory.py:41-45` `LibpgmBBN` (the attribute `E` is never read) -/
structure LibPgm where
  V : List Str
  Vdata : Dict Str VData

namespace LibPgm

/-- `v["parents"]`, with `None` read as no parents: `pybbn/graph/factory.py:64-65` and `:114` -/
def parentsOf (d : VData) : List Str := d.parents.getD []

/-- `bn.Vdata[parent]["vals"][:]` -/
def domainOf (bn : LibPgm) (parent : Str) : Py (List Str) := do
  let p ← Dict.getItem bn.Vdata parent
  .ok p.vals

/-- `pybbn/graph/factory.py:60-70` `get_parent_domains` -/
def parentDomains (bn : LibPgm) (name : Str) : Py (List (List Str)) := do
  let d ← Dict.getItem bn.Vdata name
  (parentsOf d).mapM (domainOf bn)

/-- `pybbn/graph/factory.py:72-80` `cross_product`: `itertools.product` unless there is no domain -/
def crossProduct (domains : List (List Str)) : List (List Str) :=
  if domains.length = 0 then [] else product domains

/-- the text of one combination, `pybbn/graph/factory.py:86-87` -/
def rowKey (combo : List Str) : Str :=
  ['['] ++ joinStr [',', ' '] (combo.map (fun v => ['\''] ++ v ++ ['\''])) ++ [']']

/-- `pybbn/graph/factory.py:82-89` `stringify_cross_product` with `domain_spaces=True`, the only call -/
def stringify (combos : List (List Str)) : List Str := combos.map rowKey

/-- `cprob[:]` -/
def copyAll : CProb → Py (List ℚ)
  | .list l => .ok l
  | .dict _ => .error .typeError

/-- `cprob[pa_domain]` -/
def rowOf : CProb → Str → Py (List ℚ)
  | .list _, _ => .error .typeError
  | .dict d, k => Dict.getItem d k

/-- `pybbn/graph/factory.py:91-103` `get_cond_probs` -/
def condProbs (bn : LibPgm) (name : Str) : Py (List ℚ) := do
  let domains ← parentDomains bn name
  let keys := stringify (crossProduct domains)
  let d ← Dict.getItem bn.Vdata name
  if keys.length = 0 then copyAll d.cprob
  else do
    let rows ← keys.mapM (rowOf d.cprob)
    .ok rows.flatten

/-- one pass of the loop of `pybbn/graph/factory.py:106-111` -/
def nodeStep (bn : LibPgm) (nodes : Dict Str BbnNode) (name : Str) : Py (Dict Str BbnNode) := do
  let d ← Dict.getItem bn.Vdata name
  let probs ← condProbs bn name
  .ok (Dict.set nodes name ⟨⟨d.ord, name, d.vals⟩, probs⟩)

/-- `pybbn/graph/factory.py:59-112` `get_nodes` -/
def getNodes (bn : LibPgm) : Py (Dict Str BbnNode) := bn.V.foldlM (nodeStep bn) []

/-- one pass of the loop of `pybbn/graph/factory.py:116-122` -/
def edgeStep (nodes : Dict Str BbnNode) (edges : List (BbnNode × BbnNode)) (kv : Str × VData) : Py (List (BbnNode × BbnNode)) := do
  let ch ← Dict.getItem nodes kv.1
  let parents ← (parentsOf kv.2).mapM (Dict.getItem nodes)
  .ok (edges ++ parents.map (fun pa => (pa, ch)))

/-- `pybbn/graph/factory.py:114-123` `get_edges` -/
def getEdges (bn : LibPgm) (nodes : Dict Str BbnNode) : Py (List (BbnNode × BbnNode)) := bn.Vdata.foldlM (edgeStep nodes) []

/-- `pybbn/graph/factory.py:50-136` `from_libpgm_discrete_object` -/
def toBbn (bn : LibPgm) : Py Bbn := do
  let nodes ← getNodes bn
  let edges ← getEdges bn nodes
  let b := (sortBy (fun (m n : BbnNode) => decide (m.var.id ≤ n.var.id)) (Dict.values nodes)).foldl Bbn.addNode Bbn.empty
  .ok (edges.foldl (fun b e => b.addEdge ⟨e.1, e.2, .directed⟩) b)

end LibPgm

/-! ## data frames -/

/-- a `pandas.DataFrame` with string cells -/
structure Frame where
  columns : List Str
  rows : List (List Str)

namespace Frame

/-- the cell of a row in a column -/
def cell (df : Frame) (row : List Str) (c : Str) : Str := row.getD (df.columns.idxOf c) []

/-- `df.query('n1=="v1" and n2=="v2" …').shape[0]` -/
def count (df : Frame) (q : List (Str × Str)) : Nat := (df.rows.filter (fun r => q.all (fun nv => decide (df.cell r nv.1 = nv.2)))).length

/-- `list(df[c].value_counts().index)`: the different values of the column, in some order -/
def valuesOf (df : Frame) (c : Str) : List Str := (df.rows.map (fun r => df.cell r c)).dedup

end Frame

namespace Factory

/-- `pybbn/graph/factory.py:148-153` `get_profile` -/
def getProfile (df : Frame) : Dict Str (List Str) := df.columns.map (fun c => (c, sortBy strLe (df.valuesOf c)))

/-- `g.add_node(k)` -/
def addNode (g : DiG Str) (k : Str) : DiG Str := { g with nodes := setAdd g.nodes k }

/-- `g.add_edge(u, v)` -/
def addEdge (g : DiG Str) (u v : Str) : DiG Str := ⟨setAdd (setAdd g.nodes u) v, setAdd g.edges (u, v)⟩

/-- the graph of `pybbn/graph/factory.py:156-161`, which is called with the data frame: iterating over it gives the columns, and
`items()` gives the columns with their cells -/
def cellGraph (df : Frame) : DiG Str :=
  df.columns.foldl (fun g ch => (df.rows.map (fun r => df.cell r ch)).foldl (fun g pa => addEdge g pa ch) g)
    (df.columns.foldl addNode ⟨[], []⟩)

/-- `g.in_degree(v)` -/
def inDegree (g : DiG Str) (v : Str) : Nat := (g.edges.filter (fun e => decide (e.2 = v))).length

/-- one child in `topological_generations`: decrement its count, and emit it at zero -/
def kahnChild (s : Dict Str Nat × List Str) (child : Str) : Py (Dict Str Nat × List Str) :=
  match Dict.get? s.1 child with
  | none => .error .exception
  | some d =>
      if d - 1 = 0 then .ok (Dict.pop s.1 child, s.2 ++ [child])
      else .ok (Dict.set s.1 child (d - 1), s.2)

/-- one node of a generation -/
def kahnNode (g : DiG Str) (s : Dict Str Nat × List Str) (u : Str) : Py (Dict Str Nat × List Str) := (Do.successors g u).foldlM kahnChild s

/-- the `while` loop of `topological_generations`; a cycle raises `NetworkXUnfeasible` -/
def kahnLoop (g : DiG Str) : Nat → Dict Str Nat → List Str → Py (List Str)
  | 0, _, _ => .error .recursionError
  | fuel + 1, indeg, gen =>
      match gen with
      | [] => if indeg.length = 0 then .ok [] else .error .exception
      | _ :: _ => do
          let s ← gen.foldlM (kahnNode g) (indeg, [])
          let rest ← kahnLoop g fuel s.1 s.2
          .ok (gen ++ rest)

/-- `list(topological_sort(g))` -/
def topologicalSort (g : DiG Str) : Py (List Str) :=
  kahnLoop g (g.nodes.length + 1)
    ((g.nodes.filter (fun v => decide (0 < inDegree g v))).map (fun v => (v, inDegree g v)))
    (g.nodes.filter (fun v => decide (inDegree g v = 0)))

/-- `pybbn/graph/factory.py:155-163` `get_n2i` -/
def getN2i (df : Frame) : Py (Dict Str Int) := do
  let nodes ← topologicalSort (cellGraph df)
  .ok (nodes.zipIdx.foldl (fun d p => Dict.set d p.1 (p.2 : Int)) [])

/-- `pd.Series(probs) / pd.Series(probs).sum()` -/
def normalized (probs : List ℚ) : List ℚ := probs.map (fun p => p / probs.sum)

/-- the body of the loop over the combinations of parent values, `pybbn/graph/factory.py:184-203`; without any known parent the text
of the query ends in `and`, which raises -/
def cptRow (df : Frame) (name : Str) (vals : List Str) (names : List Str) (combo : List Str) : Py (List ℚ) := do
  let denomQ := names.zip combo
  let n : ℚ := df.rows.length
  let probs ← vals.mapM (fun v =>
    if denomQ.length = 0 then .error .exception
    else
      let numer : ℚ := (df.count ((name, v) :: denomQ) : ℚ) / n
      let denom : ℚ := (df.count denomQ : ℚ) / n
      .ok (if denom = 0 then 1 / 100000 else numer / denom))
  .ok (normalized probs)

/-- `pybbn/graph/factory.py:165-205` `get_cpt` -/
def getCpt (name : Str) (parents : List Str) (n2v : Dict Str (List Str)) (df : Frame) : Py (List ℚ) := do
  let n2v := n2v.map (fun kv => (kv.1, sortBy strLe kv.2))
  let n : ℚ := df.rows.length
  if parents.length = 0 then do
    let vals ← Dict.getItem n2v name
    .ok (vals.map (fun v => (df.count [(name, v)] : ℚ) / n))
  else do
    let domains := sortBy (fun (a b : Str × List Str) => strLe a.1 b.1) (n2v.filter (fun kv => decide (kv.1 ∈ parents)))
    let rows ← (product (domains.map Prod.snd)).mapM (fun combo => do
      let vals ← Dict.getItem n2v name
      cptRow df name vals (domains.map Prod.fst) combo)
    .ok rows.flatten

/-- one entry of the dictionary of `pybbn/graph/factory.py:209` -/
def cptEntry (n2v : Dict Str (List Str)) (df : Frame) (kv : Str × List Str) : Py (Str × List ℚ) := do
  let c ← getCpt kv.1 kv.2 n2v df
  .ok (kv.1, c)

/-- one pass of the loop of `pybbn/graph/factory.py:214-222` -/
def nodeStep (n2i : Dict Str Int) (n2c : Dict Str (List ℚ)) (acc : Bbn × Dict Str BbnNode) (nv : Str × List Str) : Py (Bbn × Dict Str BbnNode) := do
  let idx ← Dict.getItem n2i nv.1
  let cpts ← Dict.getItem n2c nv.1
  let node : BbnNode := ⟨⟨idx, nv.1, nv.2⟩, cpts⟩
  .ok (acc.1.addNode node, Dict.set acc.2 nv.1 node)

/-- one pass of the inner loop of `pybbn/graph/factory.py:226-230` -/
def edgeStep (nodes : Dict Str BbnNode) (ch : BbnNode) (b : Bbn) (pa : Str) : Py Bbn := do
  let p ← Dict.getItem nodes pa
  .ok (b.addEdge ⟨p, ch, .directed⟩)

/-- one pass of the loop of `pybbn/graph/factory.py:224-230` -/
def childStep (nodes : Dict Str BbnNode) (b : Bbn) (kv : Str × List Str) : Py Bbn := do
  let ch ← Dict.getItem nodes kv.1
  kv.2.foldlM (edgeStep nodes ch) b

/-- `pybbn/graph/factory.py:138-232` `from_data` -/
def fromData (structure_ : Dict Str (List Str)) (df : Frame) : Py Bbn := do
  let n2v := getProfile df
  let n2i ← getN2i df
  let n2c ← structure_.mapM (cptEntry n2v df)
  let acc ← n2v.foldlM (nodeStep n2i n2c) (Bbn.empty, [])
  structure_.foldlM (childStep acc.2) acc.1

end Factory

end PyBBN
