import Verif.Spec.Evidence

/-! # What a failing update is about -/

namespace PyBBN

/-- the likelihood `validate` gives a value `x` of the node when the evidence may also mention strings that are no values of the node: these
take part in the sum that decides whether a finding is empty, and in the choice of the observed value -/
def Evidence.written (e : Evidence) (x : Str) : ℚ :=
  match e.type with
  | .virtual => max 0 (min 1 (e.given x))
  | .finding =>
      if (((e.node.values.filter (fun y => decide (0 < e.given y))).length : ℚ) +
        (((Dict.keys e.values).filter (fun k => decide (k ∉ e.node.values))).map e.given).sum = 0) then 1
      else if 0 < e.given x then 1 else 0
  | .observation => if e.best = some x then 1 else 0
  | .unobserve => 1

/-- the evidence mentions a string that is no value of its node -/
def Evidence.Stray (e : Evidence) : Prop := ∃ k ∈ Dict.keys e.values, k ∉ e.node.values

end PyBBN
