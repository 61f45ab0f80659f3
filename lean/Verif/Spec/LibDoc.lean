import Verif.Model.JsonLibPgm
import Mathlib.Data.List.Forall2

/-! # Specification: JSON documents of libpgm networks (C136) -/

namespace PyBBN

/-- a number, with or without a fraction -/
def IsNum (j : JVal) (q : ℚ) : Prop := j = .flt q ∨ ∃ i : Int, j = .int i ∧ q = i

/-- a list of numbers -/
def IsRow (j : JVal) (r : List ℚ) : Prop := ∃ xs, j = .arr xs ∧ List.Forall₂ IsNum xs r

/-- a list of strings -/
def IsStrs (j : JVal) (l : List Str) : Prop := j = .arr (l.map .str)

/-- the table of a node: a row, or a row for each text of parent values -/
def IsTable (j : JVal) : CProb → Prop
  | .list l => IsRow j l
  | .dict d => ∃ kvs, j = .obj kvs ∧ List.Forall₂ (fun (kv : PyKey × JVal) (kr : Str × List ℚ) => kv.1 = .str kr.1 ∧ IsRow kv.2 kr.2) kvs d

/-- the entry of a node. There may be other items, as libpgm writes them, and the items may come in any order. -/
structure IsEntry (j : JVal) (d : VData) : Prop where
  ord : j.get "ord" = .ok (.int d.ord)
  vals : ∃ v, j.get "vals" = .ok v ∧ IsStrs v d.vals
  parents : ∃ v, j.get "parents" = .ok v ∧ ((v = .null ∧ d.parents = none) ∨ ∃ ps, d.parents = some ps ∧ IsStrs v ps)
  cprob : ∃ v, j.get "cprob" = .ok v ∧ IsTable v d.cprob

/-- the document of a network. There may be other items, and the items may come in any order. -/
structure IsLibDoc (w : JVal) (bn : LibPgm) : Prop where
  V : ∃ v, w.get "V" = .ok v ∧ IsStrs v bn.V
  E : ∃ v, w.get "E" = .ok v
  Vdata : ∃ kvs, w.get "Vdata" = .ok (.obj kvs) ∧
    List.Forall₂ (fun (kv : PyKey × JVal) (nd : Str × VData) => kv.1 = .str nd.1 ∧ IsEntry kv.2 nd.2) kvs bn.Vdata

end PyBBN
