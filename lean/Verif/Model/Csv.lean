import Verif.Model.Serde

/-!
# CSV files: `pybbn/graph/dag.py`, `Bbn.to_csv` and `Bbn.from_csv`

The file is the text written to it; the encoding is not modelled. `str(p)` and `float(s)` are a pair of functions
`FloatText` of which the model only knows that reading undoes writing.
-/

namespace PyBBN

/-- reading in text mode: `"\r\n"` and `"\r"` become `"\n"` -/
def univNewlines : Str → Str
  | [] => []
  | a :: s =>
      if a = '\r' then
        if s.head? = some '\n' then univNewlines s else '\n' :: univNewlines s
      else a :: univNewlines s

/-- `for line in f`: the lines with their line ends -/
def fileLines : Str → List Str
  | [] => []
  | a :: s => if a = '\n' then ['\n'] :: fileLines s else consHead a (fileLines s)

/-- `str(p)` and `float(s)` -/
structure FloatText where
  fmt : ℚ → Str
  parse : Str → Py ℚ
  round : ∀ p, parse (fmt p) = .ok p
  nonempty : ∀ p, fmt p ≠ []
  plain : ∀ p, ∀ c ∈ fmt p, c ≠ ',' ∧ c ≠ '|' ∧ isSpace c = false

/-- `pybbn/graph/dag.py:167-173` the line of a node -/
def csvNode (ft : FloatText) (n : BbnNode) : Str :=
  strInt n.var.id ++ ",".toList ++ n.var.name ++ ",".toList ++ joinStr ",".toList n.var.values ++ ",|,".toList ++
    joinStr ",".toList (n.probs.map ft.fmt) ++ "\n".toList

/-- `pybbn/graph/dag.py:175-179` the line of an edge -/
def csvEdge (e : Edge BbnNode) : Str :=
  let t := match e.type with
    | .directed => "directed".toList
    | .undirected => "undirected".toList
  strInt (nid e.i) ++ ",".toList ++ strInt (nid e.j) ++ ",".toList ++ t ++ "\n".toList

/-- `pybbn/graph/dag.py:157-179` `Bbn.to_csv`: the text of the file -/
def Bbn.toCsv (ft : FloatText) (b : Bbn) : Str :=
  b.toGraph.getNodes.flatMap (csvNode ft) ++ b.toGraph.getEdges.flatMap csvEdge

/-- `pybbn/graph/dag.py:199-208` `[item.strip() for item in s.split(",") if len(item.strip()) > 0]` -/
def csvItems (s : Str) : List Str :=
  ((splitOn ',' s).filter (fun item => decide (0 < (strip item).length))).map strip

/-- `pybbn/graph/dag.py:198-214` a line that is no edge -/
def csvReadNode (ft : FloatText) (line : Str) : Py BbnNode :=
  match splitOn '|' line with
  | v :: p :: _ => do
      let vPart := csvItems v
      let pPart := csvItems p
      match vPart with
      | [] => .error .indexError
      | i :: rest => do
          let i ← parseInt i
          match rest with
          | [] => .error .indexError
          | name :: values => do
              let probs ← pPart.mapM ft.parse
              .ok ⟨⟨i, name, values⟩, probs⟩
  | _ => .error .indexError

/-- `pybbn/graph/dag.py:193-215` the loop body: the node dictionary and the edge list after the line -/
def csvReadLine (ft : FloatText) (st : Dict Int BbnNode × List (Int × Int)) (line : Str) :
    Py (Dict Int BbnNode × List (Int × Int)) :=
  match splitOn ',' line with
  | [a, b, _] => do
      let a ← parseInt a
      let b ← parseInt b
      .ok (st.1, st.2 ++ [(a, b)])
  | _ => do
      let n ← csvReadNode ft line
      .ok (Dict.set st.1 n.var.id n, st.2)

/-- `pybbn/graph/dag.py:181-227` `Bbn.from_csv` on the text of the file -/
def Bbn.fromCsv (ft : FloatText) (text : Str) : Py Bbn := do
  let st ← (fileLines (univNewlines text)).foldlM (csvReadLine ft) ([], [])
  let b := st.1.foldl (fun b kn => Bbn.addNode b kn.2) Bbn.empty
  st.2.foldlM (fun b e => do
    let pa ← Dict.getItem st.1 e.1
    let ch ← Dict.getItem st.1 e.2
    .ok (b.addEdge ⟨pa, ch, .directed⟩)) b

end PyBBN
