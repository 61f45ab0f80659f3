import Verif.Model.Py
import Mathlib.LinearAlgebra.Matrix.Adjugate

/-! `GaussianInference` of `pybbn/gaussian/inference.py`. Floats are exact rationals; `np.linalg.inv` is the exact inverse. -/

namespace PyBBN

/-- a two-dimensional array; entries outside of the shape cannot be read -/
structure Arr2 where
  r : Nat
  c : Nat
  get : Nat → Nat → ℚ

namespace Arr2

/-- `a[is][:, js]`: an index out of bounds raises `IndexError` -/
def take (a : Arr2) (is js : List Nat) : Py Arr2 :=
  if is.all (fun i => decide (i < a.r)) && js.all (fun j => decide (j < a.c)) then
    .ok ⟨is.length, js.length, fun i j => a.get (is.getD i 0) (js.getD j 0)⟩
  else .error .indexError

/-- the entries as a matrix -/
def mat (a : Arr2) : Matrix (Fin a.r) (Fin a.r) ℚ := fun i j => a.get i j

/-- `np.linalg.inv(a)`: a matrix that is not square or singular raises `LinAlgError` -/
def inv (a : Arr2) : Py Arr2 :=
  if a.r ≠ a.c then .error .exception
  else if a.mat.det = 0 then .error .exception
  else .ok ⟨a.r, a.r, fun i j => if h : i < a.r ∧ j < a.r then a.mat.det⁻¹ * a.mat.adjugate ⟨i, h.1⟩ ⟨j, h.2⟩ else 0⟩

/-- `a.dot(b)` -/
def dot (a b : Arr2) : Py Arr2 :=
  if a.c = b.r then .ok ⟨a.r, b.c, fun i j => ((List.range a.c).map (fun k => a.get i k * b.get k j)).sum⟩ else .error .valueError

/-- `a.dot(v)` for a vector `v` -/
def dotVec (a : Arr2) (v : List ℚ) : Py (List ℚ) :=
  if a.c = v.length then .ok ((List.range a.r).map (fun i => ((List.range a.c).map (fun k => a.get i k * v.getD k 0)).sum)) else .error .valueError

/-- `a.T` -/
def T (a : Arr2) : Arr2 := ⟨a.c, a.r, fun i j => a.get j i⟩

/-- `a - b`. Shapes that differ raise `ValueError`; numpy would broadcast a side of length one, but in the only use below both shapes agree. -/
def sub (a b : Arr2) : Py Arr2 :=
  if a.r = b.r ∧ a.c = b.c then .ok ⟨a.r, a.c, fun i j => a.get i j - b.get i j⟩ else .error .valueError

end Arr2

/-- `u - v` for vectors: a vector of length one is repeated -/
def vecSub (u v : List ℚ) : Py (List ℚ) :=
  if u.length = v.length then .ok (List.zipWith (· - ·) u v)
  else if u.length = 1 then .ok (v.map (fun y => u.getD 0 0 - y))
  else if v.length = 1 then .ok (u.map (fun x => x - v.getD 0 0))
  else .error .valueError

/-- `pybbn/gaussian/inference.py:5-23` `GaussianInference` -/
structure Gauss where
  H : List Str
  M : List ℚ
  E : Arr2
  observed : Dict Str ℚ

namespace Gauss

/-- `pybbn/gaussian/inference.py:22` `self.I` -/
def I (g : Gauss) : Dict Str Nat := g.H.zipIdx.foldl (fun d p => Dict.set d p.1 p.2) []

/-- `self.I[name]` -/
def index (g : Gauss) (name : Str) : Py Nat :=
  match Dict.get? g.I name with
  | some i => .ok i
  | none => .error .keyError

/-- `[x for i, x in enumerate(l) if i in idx]` -/
def pick {α : Type} (l : List α) (idx : List Nat) : List α := (l.zipIdx.filter (fun p => decide (p.2 ∈ idx))).map Prod.fst

/-- `pybbn/gaussian/inference.py:90-137` `do_inferences` -/
def doInferences (g : Gauss) (obs : List (Str × ℚ)) : Py Gauss := do
  let z ← obs.mapM (fun o => g.index o.1)
  let y := (List.range g.E.c).filter (fun i => decide (i ∉ z))
  let mZ := pick g.M z
  let mY := pick g.M y
  let zv := obs.map Prod.snd
  let syz ← g.E.take y z
  let szz ← g.E.take z z
  let szz ← szz.inv
  let syy ← g.E.take y y
  let k ← syz.dot szz
  let d ← vecSub zv mZ
  let v ← k.dotVec d
  let M ← vecSub mY v
  let k ← syz.dot szz
  let p ← k.dot syz.T
  let E ← syy.sub p
  .ok ⟨pick g.H y, M, E, obs.foldl (fun d o => Dict.set d o.1 o.2) g.observed⟩

/-- `pybbn/gaussian/inference.py:80-88` `do_inference` -/
def doInference (g : Gauss) (name : Str) (o : ℚ) : Py Gauss := g.doInferences [(name, o)]

/-- `self.E[i][i]` -/
def variance (g : Gauss) (i : Nat) : Py ℚ := if i < g.E.r ∧ i < g.E.c then .ok (g.E.get i i) else .error .indexError

/-- one round of the loop in `P` -/
def addParam (g : Gauss) (d : Dict Str (ℚ × ℚ)) (p : (Str × ℚ) × Nat) : Py (Dict Str (ℚ × ℚ)) := do
  let v ← g.variance p.2
  .ok (Dict.set d p.1.1 (-p.1.2, v))

/-- `pybbn/gaussian/inference.py:67-78` `P` -/
def P (g : Gauss) : Py (Dict Str (ℚ × ℚ)) :=
  (g.H.zip g.M).zipIdx.foldlM (addParam g) (g.observed.map (fun kv => (kv.1, (kv.2, 0))))

/-- `pybbn/gaussian/inference.py:55-65` `marginals` -/
def marginals (g : Gauss) : Py (List (Str × ℚ × ℚ)) := do
  let p ← g.P
  .ok (p.map (fun kv => (kv.1, kv.2.1, kv.2.2)))

end Gauss

end PyBBN
