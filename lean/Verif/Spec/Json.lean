import Verif.Model.Json

/-! # What JSON makes of a value: keys become strings, nothing else changes -/

namespace PyBBN

mutual
/-- the value with all keys turned into strings (a later item replaces an earlier one with the same key) -/
def JVal.json : JVal → JVal
  | .null => .null
  | .bool b => .bool b
  | .int i => .int i
  | .flt q => .flt q
  | .str s => .str s
  | .arr xs => .arr (JVal.jsonList xs)
  | .obj kvs => .obj (Dict.ofList (JVal.jsonPairs kvs))
def JVal.jsonList : List JVal → List JVal
  | [] => []
  | x :: xs => x.json :: JVal.jsonList xs
def JVal.jsonPairs : List (PyKey × JVal) → List (PyKey × JVal)
  | [] => []
  | (k, x) :: kvs => (k.json, x.json) :: JVal.jsonPairs kvs
end

end PyBBN
