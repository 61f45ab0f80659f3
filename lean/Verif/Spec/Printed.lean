import Verif.Model.Csv
import Mathlib.Algebra.Order.Field.Rat

/-!
# Specification: what a reader of printed tables and networks sees
-/

namespace PyBBN

/-- the number written by decimal digits -/
def digitsNat (s : Str) : Nat := s.foldl (fun n c => 10 * n + (c.toNat - '0'.toNat)) 0

/-- an integer: an optional minus sign and digits -/
def readInt (s : Str) : Option Int :=
  match s with
  | '-' :: t => if t ≠ [] ∧ t.all Char.isDigit then some (-(digitsNat t : Int)) else none
  | t => if t ≠ [] ∧ t.all Char.isDigit then some (digitsNat t) else none

/-- a number without sign: digits, a point, digits -/
def readPoint (s : Str) : Option ℚ :=
  match splitOn '.' s with
  | [a, b] => if a ≠ [] ∧ b ≠ [] ∧ a.all Char.isDigit ∧ b.all Char.isDigit then
      some ((digitsNat a : ℚ) + (digitsNat b : ℚ) / 10 ^ b.length) else none
  | _ => none

/-- a number with an optional minus sign -/
def readNumber (s : Str) : Option ℚ :=
  match s with
  | '-' :: t => (readPoint t).map (fun x => -x)
  | t => readPoint t

/-- a row `text|number`: the text before the last bar, and the number after it -/
def readRow (s : Str) : Option (Str × ℚ) :=
  match (splitOn '|' s).reverse with
  | n :: t :: ts => (readNumber n).map (fun x => (joinStr "|".toList (t :: ts).reverse, x))
  | _ => none

/-- a printed table, line by line -/
def readTable (s : Str) : List (Option (Str × ℚ)) := (splitOn '\n' s).map readRow

/-- `m / 10 ^ k` is the decimal number with `k` places nearest to `q`; of two, the one whose last digit is even -/
structure Nearest (k : Nat) (q : ℚ) (m : Int) : Prop where
  near : |(m : ℚ) - q * 10 ^ k| ≤ 1 / 2
  even : |(m : ℚ) - q * 10 ^ k| = 1 / 2 → Even m

/-! ## printed networks -/

/-- a line `id|name|value,value,…` -/
def readNodeLine (s : Str) : Option (Int × Str × List Str) :=
  match splitOn '|' s with
  | [i, name, values] => (readInt i).map (fun n => (n, name, splitOn ',' values))
  | _ => none

/-- a line `parent->child` -/
def readEdgeLine (s : Str) : Option (Int × Int) :=
  match splitOn '>' s with
  | [a, b] => if a.getLast? = some '-' then (readInt a.dropLast).bind (fun p => (readInt b).map (fun c => (p, c))) else none
  | _ => none

/-- the nodes and the edges in a text, in the order of its lines -/
def readNetwork (s : Str) : List (Int × Str × List Str) × List (Int × Int) :=
  ((splitOn '\n' s).filterMap readNodeLine, (splitOn '\n' s).filterMap readEdgeLine)

end PyBBN
