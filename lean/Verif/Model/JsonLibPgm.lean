import Verif.Model.Json
import Verif.Model.Factory

/-!
# libpgm networks as JSON text

`pybbn/graph/factory.py:21-48`. The items that the library never looks at (`numoutcomes`, `children`, the contents of `E`) may be anything.
-/

namespace PyBBN

/-- `bn.Vdata[name]["cprob"]` -/
def CProb.ofJ : JVal → Py CProb
  | .arr xs => do .ok (.list (← xs.mapM JVal.asNum))
  | .obj kvs => do .ok (.dict (← kvs.mapM (fun kv => do
      match kv.1 with
      | .str k => .ok (k, ← (← kv.2.listItems).mapM JVal.asNum)
      | .int _ => .error .typeError)))
  | _ => .error .typeError

/-- `bn.Vdata[name]["parents"]`: `None` or a list -/
def VData.parentsOfJ : JVal → Py (Option (List Str))
  | .null => .ok none
  | .arr xs => do .ok (some (← xs.mapM JVal.asStr))
  | _ => .error .typeError

/-- an entry of `Vdata`, `pybbn/graph/factory.py:62,69,95,99,107-108,118` -/
def VData.ofJ (j : JVal) : Py VData := do
  let ord ← (← j.get "ord").asInt
  let vals ← (← (← j.get "vals").listItems).mapM JVal.asStr
  let parents ← VData.parentsOfJ (← j.get "parents")
  let cprob ← CProb.ofJ (← j.get "cprob")
  .ok ⟨ord, vals, parents, cprob⟩

/-- `pybbn/graph/factory.py:47` `LibpgmBBN(d["V"], d["E"], d["Vdata"])`. (The entries are read before the nodes are made; Python interleaves
this, which only matters for which exception is raised.) -/
def LibPgm.ofJ (j : JVal) : Py LibPgm := do
  let V ← (← (← j.get "V").listItems).mapM JVal.asStr
  let _ ← j.get "E"
  let Vdata ← (← (← j.get "Vdata").dictItems).mapM (fun kv => do
    match kv.1 with
    | .str k => .ok (k, ← VData.ofJ kv.2)
    | .int _ => .error .typeError)
  .ok ⟨V, Vdata⟩

/-- `pybbn/graph/factory.py:31-48` `from_libpgm_discrete_dictionary` -/
def Factory.fromLibpgmDictionary (d : JVal) : Py Bbn := do (← LibPgm.ofJ d).toBbn

/-- `pybbn/graph/factory.py:21-29` `from_libpgm_discrete_json` -/
def Factory.fromLibpgmJson (jf : JsonFloat) (s : Str) : Py Bbn := do Factory.fromLibpgmDictionary (← Json.loads jf s)

end PyBBN
