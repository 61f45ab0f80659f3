import Verif.Spec.Graph

/-! # Graphs with directed and undirected edges -/

namespace PyBBN

/-- the edges of a mixed graph, as ids of the ends and type -/
abbrev Mixed := List (Int × Int × EdgeType)

namespace Mixed

/-- there is a directed edge from `a` to `b` -/
def Arrow (L : Mixed) (a b : Int) : Prop := (a, b, EdgeType.directed) ∈ L

/-- there is an undirected edge between `a` and `b` -/
def Line (L : Mixed) (a b : Int) : Prop := (a, b, EdgeType.undirected) ∈ L ∨ (b, a, EdgeType.undirected) ∈ L

/-- there is an edge between `a` and `b` -/
def Joined (L : Mixed) (a b : Int) : Prop := L.Arrow a b ∨ L.Arrow b a ∨ L.Line a b

/-- the rule for new edges from `i` to `j` (or between `i` and `j`): the ends differ and are not joined, and no directed edges lead from `j` to `i` -/
def Accepts (L : Mixed) (i j : Int) : Prop := i ≠ j ∧ ¬ L.Joined i j ∧ ¬ Relation.TransGen L.Arrow j i

open Classical in
/-- the effect of one call -/
noncomputable def step {N : Type} [HasId N] (L : Mixed) : GOp N → Mixed
  | .addNode _ => L
  | .addEdge _ e => if L.Accepts (nid e.i) (nid e.j) then L ++ [(nid e.i, nid e.j, e.type)] else L
  | .removeNode id => L.filter (fun e => decide (e.1 ≠ id ∧ e.2.1 ≠ id))

/-- a sequence of calls -/
noncomputable def run {N : Type} [HasId N] (ops : List (GOp N)) : Mixed := ops.foldl step []

/-- some directed or undirected edges can be walked from `a` to `b`, no directed edge against its direction -/
def Semi (L : Mixed) (a b : Int) : Prop := Relation.TransGen (fun a b => L.Arrow a b ∨ L.Line a b) a b

end Mixed

end PyBBN
