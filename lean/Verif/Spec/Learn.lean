import Verif.Spec.Factory
import Verif.Spec.SampleChance

/-! # A network learned from samples of a network -/

namespace PyBBN

/-- the name of a node -/
def Bbn.label (b : Bbn) (i : Int) : Str := ((b.vars.find? (fun v => decide (v.id = i))).map Variable.name).getD []

/-- `pd.DataFrame(samples).rename(columns={n.id: n.name})`: the columns are the keys of the first sample, in their order -/
def sampleFrame (b : Bbn) (samples : List (Dict Int Str)) : Frame where
  columns := ((samples.head?.map Dict.keys).getD []).map b.label
  rows := samples.map (fun r => ((samples.head?.map Dict.keys).getD []).map (fun i => (Dict.get? r i).getD []))

/-- the structure handed to `from_data` has a key for every name and lists the names of the parents -/
structure Describes (st : Dict Str (List Str)) (b : Bbn) : Prop where
  keys : (Dict.keys st).Nodup
  same : ∀ c, c ∈ Dict.keys st ↔ c ∈ b.vars.map Variable.name
  parents : ∀ v ∈ b.vars, ∀ p, p ∈ Factory.pa st v.name ↔ p ∈ (b.parentVars v.id).map Variable.name

/-- the probability under a name and a value in the result of `get_posteriors`; 0 if the value is not listed -/
def probIn (d : Dict Str (Dict Str ℚ)) (n x : Str) : ℚ := ((Dict.get? d n).bind (fun e => Dict.get? e x)).getD 0

/-- two results of `get_posteriors` differ by less than `ε`, for the variables of `b` and their values -/
def Bbn.CloseReports (b : Bbn) (ε : ℚ) (d d' : Dict Str (Dict Str ℚ)) : Prop :=
  (∀ k, k ∈ Dict.keys d' ↔ k ∈ b.vars.map Variable.name) ∧
  (∀ v ∈ b.vars, ∀ e, Dict.get? d' v.name = some e → ∀ x ∈ Dict.keys e, x ∈ v.values) ∧
  ∀ v ∈ b.vars, ∀ x ∈ v.values, |probIn d' v.name x - probIn d v.name x| < ε

end PyBBN
