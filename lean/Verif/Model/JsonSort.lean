import Verif.Model.JsonTree

/-!
# `json.dumps(..., sort_keys=True)`

As in `profile/generate-multi-bbn.py:14`, `profile/generate-singly-bbn.py:14` and `docs/source/code/jt-serialization.py:18`. Integer keys are
compared as integers, before they are turned into strings (`json.encoder._make_iterencode`: `sorted(dct.items())`).
-/

namespace PyBBN

/-- Python's `<=` on keys. Comparing an integer with a string is a `TypeError` in Python; the dictionaries of this library do not mix them. -/
def PyKey.le : PyKey → PyKey → Bool
  | .int i, .int j => i ≤ j
  | .str s, .str t => strLe s t
  | .int _, .str _ => true
  | .str _, .int _ => false

mutual
/-- the value with the items of all dictionaries sorted by key -/
def JVal.sortKeys : JVal → JVal
  | .null => .null
  | .bool b => .bool b
  | .int i => .int i
  | .flt q => .flt q
  | .str s => .str s
  | .arr xs => .arr (JVal.sortItems xs)
  | .obj kvs => .obj (sortBy (fun a b => a.1.le b.1) (JVal.sortPairs kvs))
/-- the items of a list -/
def JVal.sortItems : List JVal → List JVal
  | [] => []
  | x :: xs => x.sortKeys :: JVal.sortItems xs
/-- the items of a dictionary -/
def JVal.sortPairs : List (PyKey × JVal) → List (PyKey × JVal)
  | [] => []
  | (k, x) :: kvs => (k, x.sortKeys) :: JVal.sortPairs kvs
end

/-- `profile/generate-multi-bbn.py:14`, `profile/generate-singly-bbn.py:14`: `json.dumps(Bbn.to_dict(bbn), sort_keys=True, indent=ind)` -/
def Bbn.toSortedJson (jf : JsonFloat) (ind : Option Nat) (b : Bbn) : Str := Json.dumps jf ind 0 b.toDict.toJ.sortKeys

/-- `docs/source/code/jt-serialization.py:18`: `json.dumps(JoinTree.to_dict(jt, bbn), sort_keys=True, indent=ind)` -/
def JoinTree.toSortedJson (jf : JsonFloat) (ind : Option Nat) (it : SetIter Int) (jt : JoinTree) (b : Bbn) : Str :=
  Json.dumps jf ind 0 (jt.toDict it b).toJ.sortKeys

end PyBBN
