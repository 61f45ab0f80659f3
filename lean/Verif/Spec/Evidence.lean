import Verif.Model.Evidence
import Verif.Spec.Joint

/-!
# Specification of evidence

What likelihoods a piece of evidence stands for, and what a history of evidence operations amounts to. Nothing here mentions
join trees, tables or how likelihoods are stored.
-/

namespace PyBBN

/-- the likelihood the user gave for value `x` (0 if none was given) -/
def Evidence.given (e : Evidence) (x : Str) : ℚ := (Dict.get? e.values x).getD 0

/-- the values in the order in which ties between likelihoods are broken: the values the user mentioned, then the others -/
def Evidence.order (e : Evidence) : List Str :=
  Dict.keys e.values ++ e.node.values.filter (fun x => decide (x ∉ Dict.keys e.values))

/-- the first value whose given likelihood is largest -/
def Evidence.best (e : Evidence) : Option Str :=
  e.order.find? (fun k => e.order.all (fun y => decide (e.given y ≤ e.given k)))

/-- the likelihoods a piece of evidence stands for -/
def Evidence.canon (e : Evidence) (x : Str) : ℚ :=
  match e.type with
  | .virtual => max 0 (min 1 (e.given x))
  | .finding => if ∀ y ∈ e.node.values, e.given y ≤ 0 then 1 else if 0 < e.given x then 1 else 0
  | .observation => if e.best = some x then 1 else 0
  | .unobserve => 1

/-- evidence about a node of the network that only mentions values of that node -/
structure Evidence.Proper (vars : List Variable) (e : Evidence) : Prop where
  node : e.node ∈ vars
  keys : (Dict.keys e.values).Nodup
  dom : ∀ k ∈ Dict.keys e.values, k ∈ e.node.values

/-- no likelihood strictly between 0 and 1 next to exactly one likelihood 1: the case that the library takes for an
observation although it is none -/
def Unambiguous (dom : List Str) (c : Str → ℚ) : Prop :=
  ∀ a ∈ dom, c a = 1 → (∀ b ∈ dom, b ≠ a → c b ≠ 1) → ∀ b ∈ dom, b ≠ a → c b = 0

/-- likelihoods per node and value -/
abbrev Liks := Int → Str → ℚ

/-- replace the likelihoods of one node -/
def Liks.put (ℓ : Liks) (v : Variable) (c : Str → ℚ) : Liks :=
  fun i x => if i = v.id ∧ x ∈ v.values then c x else ℓ i x

/-- an operation on the evidence of a join tree -/
inductive EvOp
  | update (es : List Evidence)
  | observe (e : Evidence)
  | unobserve (nodes : List Variable)
  | unobserveAll

/-- the values with likelihood 1 -/
def onesOf (dom : List Str) (c : Str → ℚ) : List Str := dom.filter (fun x => decide (c x = 1))

/-- the values the user gave likelihood 1, in the order given -/
def Evidence.givenOnes (e : Evidence) : List Str :=
  (e.values.filter (fun kv => decide (kv.2 = 1))).map Prod.fst

/-- what an operation does to the likelihoods -/
def EvOp.spec (vars : List Variable) (ℓ : Liks) : EvOp → Liks
  | .update es => es.foldl (fun ℓ e => ℓ.put e.node e.canon) ℓ
  | .observe e =>
      if (onesOf e.node.values (ℓ e.node.id)).length = 1 then
        match e.givenOnes.head? with
        | none => ℓ
        | some x => if onesOf e.node.values (ℓ e.node.id) = [x] then ℓ.put e.node (fun _ => 1) else ℓ.put e.node e.canon
      else ℓ.put e.node e.canon
  | .unobserve nodes => nodes.foldl (fun ℓ v => ℓ.put v (fun _ => 1)) ℓ
  | .unobserveAll => vars.foldl (fun ℓ v => ℓ.put v (fun _ => 1)) ℓ

/-- an operation only mentions nodes and values of the network, and no ambiguous virtual evidence -/
def EvOp.Ok (vars : List Variable) : EvOp → Prop
  | .update es => ∀ e ∈ es, e.Proper vars ∧ Unambiguous e.node.values e.canon
  | .observe e => e.Proper vars ∧ Unambiguous e.node.values e.canon
  | .unobserve nodes => ∀ v ∈ nodes, v ∈ vars
  | .unobserveAll => True

/-- run an operation on the join tree -/
def EvOp.run (js : SetIter Str) (jt : JoinTree) : EvOp → JoinTree.Outcome
  | .update es => jt.updateEvidences js es
  | .observe e => jt.setObservation js e
  | .unobserve nodes => jt.unobserve js nodes
  | .unobserveAll => jt.unobserveAll js

/-- run a history: each operation with its own iteration order; the caller goes on after an exception -/
def runHist (jt : JoinTree) (h : List (SetIter Str × EvOp)) : JoinTree :=
  h.foldl (fun jt op => (op.2.run op.1 jt).1) jt

/-- the likelihoods after a history -/
def specHist (vars : List Variable) (h : List (SetIter Str × EvOp)) : Liks :=
  h.foldl (fun ℓ op => op.2.spec vars ℓ) noEvidence

/-! ### what the library does with any history of proper evidence -/

/-- evidence about node objects of the network (or about foreign ids) -/
def NodeOk (vars : List Variable) (v : Variable) : Prop := (v.id ∈ vars.map Variable.id → v ∈ vars) ∧ v.values.Nodup

/-- the operation refers to nodes by the network's own objects (or by foreign ids), and its dictionaries are dictionaries -/
def EvOp.Nodes (vars : List Variable) : EvOp → Prop
  | .update es => ∀ e ∈ es, NodeOk vars e.node ∧ (Dict.keys e.values).Nodup
  | .observe e => NodeOk vars e.node ∧ (Dict.keys e.values).Nodup
  | .unobserve ns => ∀ v ∈ ns, NodeOk vars v
  | .unobserveAll => True

/-- the operation only mentions nodes of the network and values of those nodes -/
def EvOp.Proper (vars : List Variable) : EvOp → Prop
  | .update es => ∀ e ∈ es, e.Proper vars
  | .observe e => e.Proper vars
  | .unobserve nodes => ∀ v ∈ nodes, v ∈ vars
  | .unobserveAll => True

/-- the evidence a proper operation amounts to: the list of the pieces that are written -/
def EvOp.pieces (vars : List Variable) (ℓ : Liks) : EvOp → List Evidence
  | .update es => es
  | .observe e =>
      if (onesOf e.node.values (ℓ e.node.id)).length = 1 then
        match e.givenOnes.head? with
        | none => []
        | some x => if onesOf e.node.values (ℓ e.node.id) = [x] then [JoinTree.unobservedEvidence e.node] else [e]
      else [e]
  | .unobserve nodes => nodes.map JoinTree.unobservedEvidence
  | .unobserveAll => vars.map JoinTree.unobservedEvidence

/-- the exception of a proper operation: only `set_observation` without a likelihood 1 on an observed node raises -/
def EvOp.err (ℓ : Liks) : EvOp → Option PyErr
  | .observe e =>
      if (onesOf e.node.values (ℓ e.node.id)).length = 1 ∧ e.givenOnes = [] then some .indexError else none
  | _ => none

/-- when an update is not propagated -/
def Unseen (ℓ : Liks) (e : Evidence) : Prop :=
  ((∀ x ∈ e.node.values, e.canon x = 1) ∧ ∀ x ∈ e.node.values, ℓ e.node.id x = 1) ∨
    ∃ a, onesOf e.node.values e.canon = [a] ∧ onesOf e.node.values (ℓ e.node.id) = [a]

/-- stored likelihoods and likelihoods in the tables -/
structure Law where
  stored : Liks
  prop : Liks

/-- the tables follow the stored likelihoods except when every piece of evidence goes unseen -/
noncomputable def EvOp.law (vars : List Variable) (s : Law) (op : EvOp) : Law :=
  open Classical in
  ⟨op.spec vars s.stored,
    if ∀ e ∈ op.pieces vars s.stored, Unseen s.stored e then s.prop else op.spec vars s.stored⟩

/-- likelihoods stored and likelihoods in the tables after a history -/
noncomputable def lawHist (vars : List Variable) (h : List (SetIter Str × EvOp)) : Law :=
  h.foldl (fun s op => op.2.law vars s) ⟨noEvidence, noEvidence⟩

end PyBBN
