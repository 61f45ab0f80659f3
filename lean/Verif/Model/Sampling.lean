import Verif.Model.Graph

/-!
# `pybbn/sampling/sampling.py`

Floats are exact rationals, so `cumsum` has no rounding, except in `cumsumF`, which rounds after every addition. The random numbers drawn
by `np.random.uniform` are an input.
-/

namespace PyBBN

/-! ## library functions -/

/-- the loop of `bisect.bisect` and of CPython's binary insertion: `right m` says that the position is at or before `m` -/
def bsearch (right : Nat → Bool) : Nat → Nat → Nat → Nat
  | 0, lo, _ => lo
  | fuel + 1, lo, hi =>
      if lo < hi then
        let mid := (lo + hi) / 2
        if right mid then bsearch right fuel lo mid else bsearch right fuel (mid + 1) hi
      else lo

/-- `bisect.bisect(a, x)` (`bisect_right`) -/
def bisect (a : List ℚ) (x : ℚ) : Nat := bsearch (fun m => decide (x < a.getD m 0)) a.length 0 a.length

/-- `np.array(l).cumsum()`, with `s` already summed -/
def cumsum (s : ℚ) : List ℚ → List ℚ
  | [] => []
  | x :: l => (s + x) :: cumsum (s + x) l

/-- `np.array(l).cumsum()` for floats: `inp` reads a number, `add` adds two floats and rounds -/
def cumsumF (inp : ℚ → ℚ) (add : ℚ → ℚ → ℚ) : List ℚ → List ℚ
  | [] => []
  | x :: l => l.scanl (fun s y => add s (inp y)) (inp x)

/-- `[l[i : i + n] for i in range(0, len(l), n)]` for `n > 0` -/
def chunks {α : Type} (n : Nat) (l : List α) : List (List α) :=
  (List.range ((l.length + n - 1) / n)).map (fun k => (l.drop (k * n)).take n)

/-- What `sorted(l, key=cmp_to_key(cmp))` guarantees (`lt a b` is `cmp(a, b) < 0`, the only comparison used): a rearrangement, in
ascending order if `lt` is a strict total order on the list. -/
structure PySort (α : Type) where
  sorted : (α → α → Bool) → List α → List α
  perm : ∀ lt l, (sorted lt l).Perm l
  asc : ∀ lt l, (∀ x ∈ l, lt x x = false) → (∀ x ∈ l, ∀ y ∈ l, ∀ z ∈ l, lt x y = true → lt y z = true → lt x z = true) →
    (∀ x ∈ l, ∀ y ∈ l, x ≠ y → lt x y = true ∨ lt y x = true) → (sorted lt l).Pairwise (fun a b => lt b a = false)

/-- the longest prefix in which every element is related to its predecessor, given the previous element -/
def runFrom {α : Type} (ok : α → α → Bool) : α → List α → List α × List α
  | _, [] => ([], [])
  | a, b :: l => if ok a b then ((b :: (runFrom ok b l).1), (runFrom ok b l).2) else ([], b :: l)

/-- CPython's `count_run`: the initial run, in ascending order, and the rest -/
def countRun {α : Type} (lt : α → α → Bool) : List α → List α × List α
  | [] => ([], [])
  | [a] => ([a], [])
  | a :: b :: l =>
      if lt b a then
        let r := runFrom (fun x y => lt y x) a (b :: l)
        ((a :: r.1).reverse, r.2)
      else
        let r := runFrom (fun x y => !(lt y x)) a (b :: l)
        (a :: r.1, r.2)

/-- the comparison of `binarysort` at position `m` -/
def insertsBefore {α : Type} (lt : α → α → Bool) (sorted : List α) (pivot : α) (m : Nat) : Bool :=
  match sorted[m]? with
  | some a => lt pivot a
  | none => true

/-- CPython's `binarysort`: insert `pivot` into the sorted list -/
def binInsert {α : Type} (lt : α → α → Bool) (sorted : List α) (pivot : α) : List α :=
  let pos := bsearch (insertsBefore lt sorted pivot) sorted.length 0 sorted.length
  sorted.take pos ++ pivot :: sorted.drop pos

/-- `list.sort` of CPython for fewer than 64 elements: the initial run, then binary insertion -/
def cpythonSort {α : Type} (lt : α → α → Bool) (l : List α) : List α :=
  let r := countRun lt l
  r.2.foldl (binInsert lt) r.1

/-! ## `Table` -/

/-- `pybbn/sampling/sampling.py:25-59` `Table`; `probs` is an array or a dictionary of arrays -/
structure Table where
  node : BbnNode
  parents : List BbnNode
  parentIds : List Int
  probs : List ℚ ⊕ Dict Str (List ℚ)
  deriving DecidableEq

/-- `pybbn/sampling/sampling.py:48` `f"{i}={v}"` -/
def kvText (i : Int) (v : Str) : Str := strInt i ++ "=".toList ++ v

/-- `pybbn/sampling/sampling.py:49-54,72` a key: the texts joined by commas -/
def rowKey (ids : List Int) (values : List Str) : Str :=
  joinStr ",".toList ((ids.zip values).map (fun iv => kvText iv.1 iv.2))

namespace Table

/-- `pybbn/sampling/sampling.py:31-59` `Table(node, parents)` (`range` with step 0 raises `ValueError`); `cs` computes the cumulative sums
of an array -/
def makeWith (cs : List ℚ → List ℚ) (node : BbnNode) (parents : List BbnNode) : Py Table :=
  let sorted := sortBy (fun a b : BbnNode => decide (a.var.id ≤ b.var.id)) parents
  let ids := parents.map (fun p => p.var.id)
  if parents = [] then .ok ⟨node, sorted, ids, .inl (cs node.probs)⟩
  else
    let keys := (product (sorted.map (fun p => p.var.values))).map (rowKey (sorted.map (fun p => p.var.id)))
    let n := node.var.values.length
    if n = 0 then .error .valueError
    else
      let probs := (chunks n node.probs).map cs
      .ok ⟨node, sorted, ids, .inr ((keys.zip probs).foldl (fun d kp => Dict.set d kp.1 kp.2) [])⟩

/-- `Table(node, parents)` in exact arithmetic -/
def make (node : BbnNode) (parents : List BbnNode) : Py Table := makeWith (cumsum 0) node parents

/-- `pybbn/sampling/sampling.py:77-83` `has_parents` -/
def hasParents (t : Table) : Bool := decide (0 < t.parents.length)

/-- `self.node.variable.values[index]` -/
def valueAt (t : Table) (index : Nat) : Py Str :=
  match t.node.var.values[index]? with
  | some v => .ok v
  | none => .error .indexError

/-- `pybbn/sampling/sampling.py:61-75` `get_value(prob, sample)` -/
def getValue (t : Table) (prob : ℚ) (sample : Dict Int Str) : Py Str :=
  if !t.hasParents then
    match t.probs with
    | .inl a => t.valueAt (bisect a prob)
    | .inr _ => .error .typeError
  else do
    let vs ← t.parentIds.mapM (fun i => Dict.getItem sample i)
    match t.probs with
    | .inl _ => .error .indexError
    | .inr d => do
        let a ← Dict.getItem d (rowKey t.parentIds vs)
        t.valueAt (bisect a prob)

end Table

/-! ## `LogicSampler` -/

/-- `pybbn/sampling/sampling.py:9-23` `SortableNode` -/
structure SortableNode where
  nodeId : Int
  parentIds : List Int
  deriving DecidableEq

/-- `pybbn/sampling/sampling.py:126` `id_sorter` -/
def idSorter (x y : Int) : Int := if x < y then -1 else if x > y then 1 else 0

/-- `pybbn/sampling/sampling.py:127-131` `pa_sorter` -/
def paSorter (x y : SortableNode) : Int :=
  if x.nodeId ∈ y.parentIds then -1 else if y.nodeId ∈ x.parentIds then 1 else idSorter x.nodeId y.nodeId

/-- `pybbn/sampling/sampling.py:86-99` `LogicSampler` -/
structure LogicSampler where
  nodes : List Int
  tables : Dict Int Table

namespace LogicSampler

/-- `pybbn/sampling/sampling.py:122-125` the objects that are sorted -/
def sortables (b : Bbn) : List SortableNode :=
  b.toGraph.getNodes.map (fun n => ⟨n.var.id, b.getParentsOrdered n.var.id⟩)

/-- `pybbn/sampling/sampling.py:116-134` `__topological_sort__` -/
def topologicalSort (ps : PySort SortableNode) (b : Bbn) : List Int :=
  (ps.sorted (fun x y => decide (paSorter x y < 0)) (sortables b)).map SortableNode.nodeId

/-- `pybbn/sampling/sampling.py:101-114` `__get_tables__` -/
def getTablesWith (cs : List ℚ → List ℚ) (b : Bbn) : Py (Dict Int Table) := do
  let l ← b.toGraph.getNodes.mapM (fun n => do
    let parents ← (b.getParentsOrdered n.var.id).mapM (fun pa => Dict.getItem b.nodes pa)
    let t ← Table.makeWith cs n parents
    .ok (n.var.id, t))
  .ok (l.foldl (fun d kt => Dict.set d kt.1 kt.2) [])

/-- `__get_tables__` in exact arithmetic -/
def getTables (b : Bbn) : Py (Dict Int Table) := getTablesWith (cumsum 0) b

/-- `pybbn/sampling/sampling.py:91-99` `LogicSampler(bbn)` -/
def makeWith (cs : List ℚ → List ℚ) (ps : PySort SortableNode) (b : Bbn) : Py LogicSampler := do
  let tables ← getTablesWith cs b
  .ok ⟨topologicalSort ps b, tables⟩

/-- `LogicSampler(bbn)` in exact arithmetic -/
def make (ps : PySort SortableNode) (b : Bbn) : Py LogicSampler := makeWith (cumsum 0) ps b

/-- `pybbn/sampling/sampling.py:152-158` the inner loop: the sample when the loop ends or breaks -/
def drawLoop (s : LogicSampler) (evidence : Dict Int Str) : List (ℚ × Int) → Dict Int Str → Py (Dict Int Str)
  | [], sample => .ok sample
  | (p, id) :: rest, sample => do
      let t ← Dict.getItem s.tables id
      let val ← t.getValue p sample
      match Dict.get? evidence id with
      | some e => if val ≠ e then .ok sample else drawLoop s evidence rest (Dict.set sample id val)
      | none => drawLoop s evidence rest (Dict.set sample id val)

/-- `pybbn/sampling/sampling.py:148-164` the outer loop: `probs` are the successive results of `np.random.uniform`; `none` when they
run out (the loop would go on) -/
def sampleLoop (s : LogicSampler) (evidence : Dict Int Str) (nSamples : Nat) :
    List (List ℚ) → List (Dict Int Str) → Option (Py (List (Dict Int Str)))
  | [], _ => none
  | probs :: rest, samples =>
      match drawLoop s evidence (probs.zip s.nodes) evidence with
      | .error e => some (.error e)
      | .ok sample =>
          let samples := if sample.length = s.nodes.length then samples ++ [sample] else samples
          if samples.length = nSamples then some (.ok samples) else sampleLoop s evidence nSamples rest samples

/-- `pybbn/sampling/sampling.py:136-166` `get_samples` -/
def getSamples (s : LogicSampler) (evidence : Dict Int Str) (nSamples : Nat) (draws : List (List ℚ)) :
    Option (Py (List (Dict Int Str))) := sampleLoop s evidence nSamples draws []

end LogicSampler

end PyBBN
