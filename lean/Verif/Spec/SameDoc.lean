import Verif.Model.Json
import Mathlib.Data.List.Forall2

/-! # Specification: JSON documents that say the same (C134) -/

namespace PyBBN

/-- the same JSON document: dictionaries may list their items in another order, at any depth, and a whole number may be written without a
fraction (`1` for `1.0`, as JavaScript does). Lists keep their order. -/
inductive SameDoc : JVal → JVal → Prop
  | null : SameDoc .null .null
  | bool (b : Bool) : SameDoc (.bool b) (.bool b)
  | int (i : Int) : SameDoc (.int i) (.int i)
  | flt (q : ℚ) : SameDoc (.flt q) (.flt q)
  | whole (i : Int) : SameDoc (.flt i) (.int i)
  | str (s : Str) : SameDoc (.str s) (.str s)
  | arr {xs ys : List JVal} : List.Forall₂ SameDoc xs ys → SameDoc (.arr xs) (.arr ys)
  | obj {kvs mid kvs' : List (PyKey × JVal)} : kvs.map Prod.fst = mid.map Prod.fst → List.Forall₂ SameDoc (kvs.map Prod.snd) (mid.map Prod.snd) →
      mid.Perm kvs' → SameDoc (.obj kvs) (.obj kvs')

/-- networks with the same nodes (perhaps in another order), the same edges and the same ordered parents -/
structure SameNodes (b b' : Bbn) : Prop where
  nodes : b'.toGraph.getNodes.Perm b.toGraph.getNodes
  get : ∀ i, Dict.get? b'.nodes i = Dict.get? b.nodes i
  edges : ∀ p c, (∃ e ∈ b'.toGraph.getEdges, nid e.i = p ∧ nid e.j = c) ↔ ∃ e ∈ b.toGraph.getEdges, nid e.i = p ∧ nid e.j = c
  directed : ∀ e ∈ b'.toGraph.getEdges, e.type = .directed
  neighbors : ∀ a x, x ∈ b'.toGraph.getNeighbors a ↔ x ∈ b.toGraph.getNeighbors a
  parents : ∀ c, ddGet b'.parents c = ddGet b.parents c

end PyBBN
