import Mathlib.Data.Int.Bitwise

/-! `IdUtil` of `pybbn/graph/util.py`. A Python `str` is modelled by its list of code points (`ord(c)`), which may include surrogates. -/

namespace PyBBN.IdUtil

/-- the body of the loop, `pybbn/graph/util.py:23-25` -/
def step (h : Int) (c : Nat) : Int :=
  let h := ((h <<< (5 : Nat)) - h) + c
  Int.lor h 0

/-- `pybbn/graph/util.py:11-27` `hash_string` (`lru_cache` only stores results of a pure function) -/
def hashString (s : List Nat) : Int :=
  if s.length = 0 then 0 else s.foldl step 0

end PyBBN.IdUtil
