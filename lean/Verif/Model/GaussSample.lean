import Verif.Model.Gaussian
import Mathlib.Analysis.Real.Sqrt

/-! `sample_marginals` of `pybbn/gaussian/inference.py`. Samples are real numbers; `np.random.normal(m, s)` is `m + s * z` for the next number `z` of a
stream of standard normal numbers, which is an input. -/

namespace PyBBN.Gauss

/-- `np.sqrt(v)`: `nan` (here `none`) for negative numbers -/
noncomputable def sqrtF (v : ℚ) : Option ℝ := if v < 0 then none else some (Real.sqrt v)

/-- `pybbn/gaussian/inference.py:53-56` the standard deviation in `get_samples` -/
noncomputable def scaleOf (v : ℚ) : Option ℝ := if v = 0 then some (1 / 100) else sqrtF v

/-- `pybbn/gaussian/inference.py:52-57` `get_samples`, with the numbers drawn -/
noncomputable def drawNormal (m v : ℚ) (zs : List ℝ) : List (Option ℝ) := zs.map (fun z => (scaleOf v).map (fun s => m + s * z))

/-- the dictionary comprehension of `pybbn/gaussian/inference.py:59`: each entry takes the next `size` numbers -/
noncomputable def drawAll (size : Nat) : List (Str × ℚ × ℚ) → List ℝ → Dict Str (List (Option ℝ)) → Dict Str (List (Option ℝ))
  | [], _, d => d
  | m :: l, zs, d => drawAll size l (zs.drop size) (Dict.set d m.1 (drawNormal m.2.1 m.2.2 (zs.take size)))

/-- `pybbn/gaussian/inference.py:44-59` `sample_marginals(size)`; `zs` are the standard normal numbers -/
noncomputable def sampleMarginals (g : Gauss) (size : Nat) (zs : List ℝ) : Py (Dict Str (List (Option ℝ))) := do
  let ms ← g.marginals
  .ok (drawAll size ms zs [])

end PyBBN.Gauss
