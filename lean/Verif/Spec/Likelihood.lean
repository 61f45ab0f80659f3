import Verif.Spec.Learn

/-! # The likelihood of a data frame -/

namespace PyBBN

/-- a row of a data frame as an assignment of values to the nodes of a network: every node gets the cell in the column of its name -/
def Frame.asgOf (df : Frame) (b : Bbn) (r : List Str) : Asg := fun i => df.cell r (b.label i)

/-- the probability that independent draws from the network give the rows of the data frame -/
def Frame.likelihood (df : Frame) (b : Bbn) : ℚ := (df.rows.map (fun r => b.weight noEvidence (df.asgOf b r))).prod

/-- a network that could have produced the data: the given structure over the columns, proper conditional distributions, and every cell is a value
of its node -/
structure Frame.Candidate (df : Frame) (st : Dict Str (List Str)) (b : Bbn) : Prop where
  wf : b.WF
  names : (b.vars.map Variable.name).Nodup
  describes : Describes st b
  normalized : b.Normalized b.parentVars
  occurs : ∀ v ∈ b.vars, ∀ x, df.Occurs v.name x → x ∈ v.values

end PyBBN
