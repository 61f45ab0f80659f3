import Verif.Model.PotDict
import Verif.Model.Pptc

/-!
# The `__str__` methods

`"{:.5f}".format(x)` writes a float correctly rounded to five decimals, ties to even; here the number is an exact rational (a tie is a
tie of the exact number). Negative zero does not exist among the rationals.
-/

namespace PyBBN

/-- the natural number nearest to `q ≥ 0`, the even one of two -/
def nearestEven (q : ℚ) : Nat :=
  let n := q.num.toNat / q.den
  let r := q.num.toNat % q.den
  if 2 * r < q.den then n else if q.den < 2 * r then n + 1 else if n % 2 = 0 then n else n + 1

/-- `str.zfill`: zeros in front up to the given length -/
def zfill (k : Nat) (s : Str) : Str := List.replicate (k - s.length) '0' ++ s

/-- `"{:.kf}".format(q)` for `k > 0` -/
def fixedText (k : Nat) (q : ℚ) : Str :=
  let n := nearestEven ((if q < 0 then -q else q) * 10 ^ k)
  (if q < 0 then "-".toList else []) ++ Nat.toDigits 10 (n / 10 ^ k) ++ ".".toList ++ zfill k (Nat.toDigits 10 (n % 10 ^ k))

/-- `pybbn/graph/potential.py:128-133` `PotentialEntry.__str__` -/
def PEntry.text (e : PEntry) : Str :=
  joinStr ",".toList (e.getEntryKeys.map (fun tup => kvText tup.1 tup.2)) ++ "|".toList ++ fixedText 5 e.value

/-- `pybbn/graph/potential.py:47-48` `Potential.__str__` -/
def Potential.text (p : Potential) : Str := joinStr "\n".toList (p.map PEntry.text)

/-- `pybbn/graph/node.py:80-83` `BbnNode.__str__` -/
def Variable.nodeText (v : Variable) : Str :=
  strInt v.id ++ "|".toList ++ v.name ++ "|".toList ++ joinStr ",".toList v.values

/-- `pybbn/graph/node.py:207-209` `Clique.__str__` -/
def Clique.text (c : Clique) : Str :=
  "(".toList ++ joinStr ",".toList (sortBy strLe (c.nodes.map Variable.name)) ++ ")".toList

/-- `pybbn/graph/node.py:126-133` `Clique.get_sid` -/
def Clique.getSid (c : Clique) : Str := joinStr "-".toList (sortBy strLe (c.nodes.map Variable.name))

/-- `pybbn/graph/node.py:279-282` `SepSet.__str__` -/
def SepSet.text (s : SepSet) : Str :=
  "|".toList ++ s.left.text ++ " -- ".toList ++ joinStr ",".toList (s.nodes.map Variable.name) ++ " -- ".toList ++ s.right.text ++ "|".toList

/-- `pybbn/graph/edge.py:122-127` `JtEdge.__str__` -/
def SepSet.edgeText (s : SepSet) : Str := s.left.text ++ "--".toList ++ s.text ++ "--".toList ++ s.right.text

/-- the text of a node of a join tree: `SepSet` overrides `Clique.__str__` -/
def JNode.text : JNode → Str
  | .clique c => c.text
  | .sepset s => s.text

/-- `pybbn/graph/graph.py:155-158` `Graph.__str__` on a `Bbn`; `pybbn/graph/edge.py:48-49` `Edge.__str__` is the key -/
def Bbn.text (b : Bbn) : Str :=
  joinStr "\n".toList (b.nodes.values.map (fun n => n.var.nodeText)) ++ "\n".toList ++
    joinStr "\n".toList (b.edges.values.map (fun e => e.key))

/-- `pybbn/graph/graph.py:155-158` `Graph.__str__` on a `JoinTree` -/
def JoinTree.text (jt : JoinTree) : Str :=
  joinStr "\n".toList (jt.nodes.values.map JNode.text) ++ "\n".toList ++
    joinStr "\n".toList (jt.edges.values.map SepSet.edgeText)

end PyBBN
