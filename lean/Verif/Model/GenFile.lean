import Verif.Model.Generator
import Verif.Model.Json

/-!
# `pybbn/generator/bbngenerator.py`: `generate_bbn_to_file`

The file is its text, for CSV and for JSON.
-/

namespace PyBBN
namespace Gen

/-- what `generate_bbn_to_file` writes -/
inductive File where
  | csv (text : Str)
  | json (text : Str)

/-- `pybbn/generator/bbngenerator.py:432-435` the choice of the format -/
def write (ft : FloatText) (jf : JsonFloat) (path : Str) (b : Bbn) : File :=
  if "csv".toList.isSuffixOf path then .csv (b.toCsv ft) else .json (b.toJson jf)

/-- `pybbn/generator/bbngenerator.py:425-428` the choice of the kind of structure -/
def drawNet (D : Dirichlet) (n : Int) (bbnType : Str) (maxIter maxValues maxAlpha : Int) : Rnd (DiG Int × Dict Int Params) :=
  if bbnType = "singly".toList then generateSingly D n maxIter maxValues maxAlpha else generateMulti D n maxIter maxValues maxAlpha

/-- `pybbn/generator/bbngenerator.py:411-435` `generate_bbn_to_file` -/
def toFile (ft : FloatText) (jf : JsonFloat) (D : Dirichlet) (n : Int) (path bbnType : Str) (maxIter maxValues maxAlpha : Int) : Rnd File := do
  let r ← drawNet D n bbnType maxIter maxValues maxAlpha
  let b ← Rnd.lift (convert r.1 r.2)
  Rnd.pure (write ft jf path b)

/-- `Bbn.from_csv` (`pybbn/graph/dag.py:181-227`) or `Bbn.from_json` (`pybbn/graph/dag.py:296-307`) on the file -/
def File.read (ft : FloatText) (jf : JsonFloat) : File → Py Bbn
  | .csv text => Bbn.fromCsv ft text
  | .json text => Bbn.fromJson jf text

end Gen
end PyBBN
