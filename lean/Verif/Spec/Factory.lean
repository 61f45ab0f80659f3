import Verif.Model.Factory
import Verif.Spec.Joint
import Mathlib.Data.Finset.Card

/-! What the documents and data given to the factory mean. -/

namespace PyBBN

/-- all ways to give each of the names one of its values -/
def worlds (vals : Str → List Str) : List Str → List (Str → Str)
  | [] => [fun _ => []]
  | n :: ns => (vals n).flatMap (fun x => (worlds vals ns).map (fun τ => Function.update τ n x))

/-- the probability of value `x` of node `n` by the definition of a Bayesian network, when `prob τ m` is the conditional probability
of the value of `m` given the values of its parents: sum of the joint probabilities with this value, divided by the sum of all -/
def netMarginal (names : List Str) (vals : Str → List Str) (prob : (Str → Str) → Str → ℚ) (n x : Str) : ℚ :=
  (((worlds vals names).filter (fun τ => decide (τ n = x))).map (fun τ => (names.map (prob τ)).prod)).sum /
    ((worlds vals names).map (fun τ => (names.map (prob τ)).prod)).sum

namespace LibPgm

/-- the entry of a node in `Vdata` -/
def data (bn : LibPgm) (n : Str) : VData := (Dict.get? bn.Vdata n).getD ⟨0, [], none, .list []⟩

/-- the parents of a node; `null` and `[]` mean none -/
def pa (bn : LibPgm) (n : Str) : List Str :=
  match (bn.data n).parents with
  | none => []
  | some l => l

/-- how libpgm writes the values of the parents: `['a', 'b']` -/
def text (combo : List Str) : Str :=
  "[".toList ++ ((combo.map (fun v => "'".toList ++ v ++ "'".toList)).intersperse ", ".toList).flatten ++ "]".toList

/-- the row of the table of a node for the given values of its parents -/
def row (bn : LibPgm) (n : Str) (combo : List Str) : Option (List ℚ) :=
  match (bn.data n).cprob with
  | .list l => if bn.pa n = [] then some l else none
  | .dict d => if bn.pa n = [] then none else Dict.get? d (text combo)

/-- the conditional probability that the document gives to the value `τ n` of node `n`, given the values `τ` of its parents -/
def prob (bn : LibPgm) (τ : Str → Str) (n : Str) : ℚ :=
  ((bn.row n ((bn.pa n).map τ)).getD []).getD ((bn.data n).vals.idxOf (τ n)) 0

/-- the variable of a node: its number, name and values -/
def var (bn : LibPgm) (n : Str) : Variable := ⟨(bn.data n).ord, n, (bn.data n).vals⟩

/-- an assignment of values to node numbers, read by name -/
def byName (bn : LibPgm) (σ : Asg) : Str → Str := fun n => σ (bn.data n).ord

/-- the probability of value `x` of node `n` in the network that the document describes -/
def marginal (bn : LibPgm) (n x : Str) : ℚ := netMarginal bn.V (fun m => (bn.data m).vals) bn.prob n x

/-- a document of a libpgm network: every node has an entry, a number of its own, different values, parents among the nodes, and
a row of the right length for all values of its parents -/
structure WF (bn : LibPgm) : Prop where
  names : bn.V.Nodup
  keys : (Dict.keys bn.Vdata).Nodup
  same : ∀ n, n ∈ bn.V ↔ n ∈ Dict.keys bn.Vdata
  ords : (bn.V.map (fun n => (bn.data n).ord)).Nodup
  vals : ∀ n ∈ bn.V, (bn.data n).vals ≠ [] ∧ (bn.data n).vals.Nodup
  parents : ∀ n ∈ bn.V, (bn.pa n).Nodup ∧ ∀ p ∈ bn.pa n, p ∈ bn.V
  rows : ∀ n ∈ bn.V, ∀ combo, List.Forall₂ (fun p v => v ∈ (bn.data p).vals) (bn.pa n) combo →
    ∃ r, bn.row n combo = some r ∧ r.length = (bn.data n).vals.length

end LibPgm

namespace Frame

/-- the number of rows that have the given values -/
def hits (df : Frame) (q : List (Str × Str)) : Nat := df.rows.countP (fun r => decide (∀ nv ∈ q, df.cell r nv.1 = nv.2))

/-- `x` occurs in column `c` -/
def Occurs (df : Frame) (c x : Str) : Prop := ∃ r ∈ df.rows, df.cell r c = x

/-- the relative frequency of value `x` in column `c` among the rows that have the values `q`; the uniform distribution over the
values of the column if there is no such row -/
def relFreq (df : Frame) (c x : Str) (q : List (Str × Str)) : ℚ :=
  if df.hits q = 0 then 1 / ((df.rows.map (fun r => df.cell r c)).toFinset.card : ℚ)
  else (df.hits ((c, x) :: q) : ℚ) / (df.hits q : ℚ)

/-- some cell of column `b` is the text `a` -/
def Names (df : Frame) (a b : Str) : Prop := b ∈ df.columns ∧ df.Occurs b a

end Frame

namespace Factory

/-- the parents of a column -/
def pa (st : Dict Str (List Str)) (c : Str) : List Str := (Dict.get? st c).getD []

/-- a structure for the columns of a data frame: each column is a key, each key and each parent is a column -/
structure Valid (st : Dict Str (List Str)) (df : Frame) : Prop where
  cols : df.columns.Nodup
  keys : (Dict.keys st).Nodup
  same : ∀ c, c ∈ Dict.keys st ↔ c ∈ df.columns
  parents : ∀ c ∈ df.columns, ∀ p ∈ pa st c, p ∈ df.columns

/-- the conditional probability that the data suggest for the value `τ c` of column `c`, given the values `τ` of its parents -/
def learned (st : Dict Str (List Str)) (df : Frame) (τ : Str → Str) (c : Str) : ℚ :=
  df.relFreq c (τ c) ((pa st c).map (fun p => (p, τ p)))

end Factory

end PyBBN
