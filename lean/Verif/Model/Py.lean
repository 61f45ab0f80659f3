import Mathlib.Data.Rat.Defs
import Mathlib.Data.List.Perm.Basic

/-!
# Python primitives used by the model

Nothing here models a line of py-bbn; it fixes how the Python values that py-bbn
manipulates are represented (see DESIGN.md, "Modelling conventions").
-/

namespace PyBBN

/-- Python `str`: a sequence of code points. -/
abbrev Str := List Char

/-- The exceptions that the modelled code can raise. -/
inductive PyErr
  | keyError | indexError | typeError | attributeError | valueError | recursionError | zeroDivisionError | exception
  deriving DecidableEq, Repr

/-- A computation that may raise. -/
abbrev Py (α : Type) := Except PyErr α

/-- the exception raised, if any (used in examples) -/
def Py.err? {α : Type} : Py α → Option PyErr
  | .ok _ => none
  | .error e => some e

/-- the result, if any (used in examples) -/
def Py.val? {α : Type} : Py α → Option α
  | .ok a => some a
  | .error _ => none

/-- Python `dict`: association list in insertion order. -/
abbrev Dict (K V : Type) := List (K × V)

namespace Dict
variable {K V : Type} [DecidableEq K]

/-- `d.get(k)` -/
def get? : Dict K V → K → Option V
  | [], _ => none
  | (k', v) :: d, k => if k' = k then some v else get? d k

/-- `k in d` -/
def has (d : Dict K V) (k : K) : Bool := (get? d k).isSome

/-- `d[k] = v`: in place when the key is present, otherwise appended. -/
def set : Dict K V → K → V → Dict K V
  | [], k, v => [(k, v)]
  | (k', v') :: d, k, v => if k' = k then (k', v) :: d else (k', v') :: set d k v

/-- `if k not in d: d[k] = v` -/
def setDefault (d : Dict K V) (k : K) (v : V) : Dict K V :=
  if has d k then d else set d k v

/-- `d.pop(k, None)` -/
def pop (d : Dict K V) (k : K) : Dict K V := d.filter (fun kv => decide (kv.1 ≠ k))

/-- `d.keys()` -/
def keys (d : Dict K V) : List K := d.map Prod.fst

/-- `d.values()` -/
def values (d : Dict K V) : List V := d.map Prod.snd

/-- `d[k]`, raising `KeyError` -/
def getItem (d : Dict K V) (k : K) : Py V :=
  match get? d k with
  | some v => .ok v
  | none => .error .keyError

/-- a dictionary comprehension `{k: v for …}` -/
def ofList (l : List (K × V)) : Dict K V := l.foldl (fun d kv => set d kv.1 kv.2) []

end Dict

section Sets
variable {K : Type} [DecidableEq K]

/-- `s.add(x)` on a set kept as a duplicate-free list. -/
def setAdd (s : List K) (x : K) : List K := if x ∈ s then s else s ++ [x]

/-- `d[k]` on a `defaultdict(set)` (the insertion of an empty set by a read is not tracked). -/
def ddGet (d : Dict K (List K)) (k : K) : List K := (Dict.get? d k).getD []

/-- `d[k].add(x)` on a `defaultdict(set)`. -/
def ddAdd (d : Dict K (List K)) (k x : K) : Dict K (List K) :=
  Dict.set d k (setAdd (ddGet d k) x)

end Sets

/-- The order in which Python iterates over a set. CPython's order depends on hashes, on the
hash seed and on the insertion history; the model lets the environment choose *any* permutation,
and the choice may depend on a step counter, on the owner of the set and on its content. -/
structure SetIter (K : Type) where
  iter : Nat → K → List K → List K
  perm : ∀ t k l, (iter t k l).Perm l

/-- Stable insertion of `x` into a list sorted by `le`. -/
def insertBy {α : Type} (le : α → α → Bool) (x : α) : List α → List α
  | [] => [x]
  | y :: ys => if le x y then x :: y :: ys else y :: insertBy le x ys

/-- `sorted(l, key=...)` where `le a b` compares the keys: a stable sort. -/
def sortBy {α : Type} (le : α → α → Bool) : List α → List α
  | [] => []
  | x :: xs => insertBy le x (sortBy le xs)

/-- Python's `<=` on `str`: lexicographic by code point. -/
def strLe : Str → Str → Bool
  | [], _ => true
  | _ :: _, [] => false
  | a :: s, b :: t => if a.toNat < b.toNat then true else if a.toNat = b.toNat then strLe s t else false

/-- `str(n)` for an `int`. -/
def strInt (n : Int) : Str :=
  if n < 0 then '-' :: Nat.toDigits 10 n.natAbs else Nat.toDigits 10 n.natAbs

/-- `sep.join(l)` -/
def joinStr (sep : Str) : List Str → Str
  | [] => []
  | [s] => s
  | s :: t :: ts => s ++ sep ++ joinStr sep (t :: ts)

/-- `itertools.product(*lists)`: last component varies fastest. -/
def product {α : Type} : List (List α) → List (List α)
  | [] => [[]]
  | l :: ls => l.flatMap (fun x => (product ls).map (fun xs => x :: xs))

end PyBBN
