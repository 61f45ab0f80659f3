import Verif.Model.Evidence
import Verif.Model.Sampling

/-!
# `pybbn/graph/potential.py`: potentials as dictionaries
-/

namespace PyBBN

/-- `pybbn/graph/potential.py:102-108` `get_entry_keys` -/
def PEntry.getEntryKeys (e : PEntry) : List (Int × Str) := sortBy (fun a b : Int × Str => decide (a.1 ≤ b.1)) e.entries

/-- `pybbn/graph/potential.py:110-126` `get_kv`; `kvText` is `"{}={}".format(k, v)` -/
def PEntry.getKv (e : PEntry) : Str × ℚ :=
  (joinStr "|".toList (e.getEntryKeys.map (fun tup => kvText tup.1 tup.2)), e.value)

/-- `pybbn/graph/potential.py:34-45` `Potential.to_dict` -/
def Potential.toDict (potentials : List Potential) : Dict Str ℚ :=
  Dict.ofList (potentials.flatMap (fun p => p.map PEntry.getKv))

end PyBBN
