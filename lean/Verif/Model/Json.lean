import Verif.Model.Csv

/-!
# JSON text: `json.dumps`, `json.loads`, `Bbn.to_json`, `Bbn.from_json`

`Model/Serde` treats JSON by its effect on dictionaries. Here the text is written and read character by character, as `json.encoder` and
`json.decoder` of the standard library do with their default options (`ensure_ascii=True`, `strict=True`). Every error of the reader is a
`JSONDecodeError`, which is a `ValueError`. Left out: `NaN` and `Infinity` (no such floats in the model; the reader of the model rejects
them), strings with lone surrogates (not characters of the model; the reader of the model rejects them), the recursion limit.
-/

namespace PyBBN

/-- a value of a JSON document; dictionaries that have not gone through JSON may have integer keys -/
inductive JVal
  | null
  | bool (b : Bool)
  | int (i : Int)
  | flt (q : ℚ)
  | str (s : Str)
  | arr (xs : List JVal)
  | obj (kvs : List (PyKey × JVal))

/-- a number with a fraction or an exponent, as JSON wants it: an optional minus sign, digits without leading zeros, an optional
fraction, an optional exponent, one of the two at least -/
def FloatShape (t : Str) : Prop :=
  ∃ sg ip fr ex : Str, t = sg ++ (ip ++ (fr ++ ex)) ∧ (sg = [] ∨ sg = ['-']) ∧
    (ip = ['0'] ∨ ∃ d ds, ip = d :: ds ∧ d ≠ '0' ∧ ∀ c ∈ ip, c.isDigit = true) ∧
    (fr = [] ∨ ∃ ds, fr = '.' :: ds ∧ ds ≠ [] ∧ ∀ c ∈ ds, c.isDigit = true) ∧
    (ex = [] ∨ ∃ e sg' ds, ex = e :: (sg' ++ ds) ∧ (e = 'e' ∨ e = 'E') ∧ (sg' = [] ∨ sg' = ['+'] ∨ sg' = ['-']) ∧ ds ≠ [] ∧
      ∀ c ∈ ds, c.isDigit = true) ∧
    (fr ≠ [] ∨ ex ≠ [])

/-- `float.__repr__` and `float`: the model only knows that reading undoes writing and what the texts look like -/
structure JsonFloat where
  fmt : ℚ → Str
  parse : Str → Py ℚ
  round : ∀ p, parse (fmt p) = .ok p
  shape : ∀ p, FloatShape (fmt p)

namespace Json

/-! ## writing -/

/-- a hexadecimal digit -/
def hexDigit (n : Nat) : Char := "0123456789abcdef".toList.getD n '0'

/-- `'{0:04x}'.format(n)` for `n < 65536` -/
def hex4 (n : Nat) : Str := [hexDigit (n / 4096 % 16), hexDigit (n / 256 % 16), hexDigit (n / 16 % 16), hexDigit (n % 16)]

/-- `json.encoder`: one character of `py_encode_basestring_ascii`. The bit operations for surrogates are written as arithmetic. -/
def escChar (c : Char) : Str :=
  if c = '"' then ['\\', '"']
  else if c = '\\' then ['\\', '\\']
  else if 32 ≤ c.toNat ∧ c.toNat ≤ 126 then [c]
  else if c = '\n' then ['\\', 'n']
  else if c = '\r' then ['\\', 'r']
  else if c = '\t' then ['\\', 't']
  else if c.toNat = 12 then ['\\', 'f']
  else if c.toNat = 8 then ['\\', 'b']
  else if c.toNat < 0x10000 then '\\' :: 'u' :: hex4 c.toNat
  else '\\' :: 'u' :: hex4 (0xd800 + (c.toNat - 0x10000) / 1024) ++ '\\' :: 'u' :: hex4 (0xdc00 + (c.toNat - 0x10000) % 1024)

/-- `json.encoder.encode_basestring_ascii` -/
def quote (s : Str) : Str := '"' :: (s.flatMap escChar ++ ['"'])

/-- a key: integers are written with `int.__repr__` (`json.encoder._make_iterencode`) -/
def keyText : PyKey → Str
  | .int i => strInt i
  | .str s => s

/-- line break and indentation, if any -/
def brk (ind : Option Nat) (lvl : Nat) : Str :=
  match ind with
  | none => []
  | some k => '\n' :: List.replicate (k * lvl) ' '

/-- what follows the comma: with `indent` a line break, otherwise a blank -/
def sep (ind : Option Nat) (lvl : Nat) : Str :=
  match ind with
  | none => [' ']
  | some k => '\n' :: List.replicate (k * lvl) ' '

mutual
/-- `json.dumps(v, indent=ind)` at a level of nesting (`json.encoder._make_iterencode`) -/
def dumps (jf : JsonFloat) (ind : Option Nat) (lvl : Nat) : JVal → Str
  | .null => "null".toList
  | .bool b => if b then "true".toList else "false".toList
  | .int i => strInt i
  | .flt q => jf.fmt q
  | .str s => quote s
  | .arr [] => ['[', ']']
  | .arr (x :: xs) => '[' :: (brk ind (lvl + 1) ++ (dumps jf ind (lvl + 1) x ++ (dumpsItems jf ind (lvl + 1) xs ++ (brk ind lvl ++ [']']))))
  | .obj [] => ['{', '}']
  | .obj ((k, x) :: kvs) => '{' :: (brk ind (lvl + 1) ++ (quote (keyText k) ++ (':' :: ' ' :: (dumps jf ind (lvl + 1) x ++
      (dumpsPairs jf ind (lvl + 1) kvs ++ (brk ind lvl ++ ['}']))))))
/-- the further items of a list -/
def dumpsItems (jf : JsonFloat) (ind : Option Nat) (lvl : Nat) : List JVal → Str
  | [] => []
  | x :: xs => ',' :: (sep ind lvl ++ (dumps jf ind lvl x ++ dumpsItems jf ind lvl xs))
/-- the further items of a dictionary -/
def dumpsPairs (jf : JsonFloat) (ind : Option Nat) (lvl : Nat) : List (PyKey × JVal) → Str
  | [] => []
  | (k, x) :: kvs => ',' :: (sep ind lvl ++ (quote (keyText k) ++ (':' :: ' ' :: (dumps jf ind lvl x ++ dumpsPairs jf ind lvl kvs))))
end

/-! ## reading -/

/-- `[ \t\n\r]` -/
def isWs (c : Char) : Bool := c = ' ' || c = '\t' || c = '\n' || c = '\r'

/-- `json.decoder.WHITESPACE` -/
def skipWs (s : Str) : Str := s.dropWhile isWs

/-- the value of a hexadecimal digit -/
def hexVal (c : Char) : Option Nat :=
  if 48 ≤ c.toNat ∧ c.toNat ≤ 57 then some (c.toNat - 48)
  else if 97 ≤ c.toNat ∧ c.toNat ≤ 102 then some (c.toNat - 87)
  else if 65 ≤ c.toNat ∧ c.toNat ≤ 70 then some (c.toNat - 55)
  else none

/-- four hexadecimal digits (`json.decoder._decode_uXXXX`) -/
def scanHex4 : Str → Option (Nat × Str)
  | a :: b :: c :: d :: r => do
      let a ← hexVal a
      let b ← hexVal b
      let c ← hexVal c
      let d ← hexVal d
      some (a * 4096 + b * 256 + c * 16 + d, r)
  | _ => none

/-- what follows a backslash (`json.decoder.py_scanstring`) -/
def scanEscape : Str → Option (Char × Str)
  | [] => none
  | e :: r =>
      if e = '"' then some ('"', r)
      else if e = '\\' then some ('\\', r)
      else if e = '/' then some ('/', r)
      else if e = 'b' then some (Char.ofNat 8, r)
      else if e = 'f' then some (Char.ofNat 12, r)
      else if e = 'n' then some ('\n', r)
      else if e = 'r' then some ('\r', r)
      else if e = 't' then some ('\t', r)
      else if e = 'u' then do
        let (u, r) ← scanHex4 r
        if 0xd800 ≤ u ∧ u ≤ 0xdbff then
          match r with
          | a :: b :: r =>
              if a = '\\' ∧ b = 'u' then do
                let (w, r) ← scanHex4 r
                if 0xdc00 ≤ w ∧ w ≤ 0xdfff then some (Char.ofNat (0x10000 + (u - 0xd800) * 1024 + (w - 0xdc00)), r) else none
              else none
          | _ => none
        else if 0xdc00 ≤ u ∧ u ≤ 0xdfff then none
        else some (Char.ofNat u, r)
      else none

/-- `json.decoder.py_scanstring`, after the opening quote -/
def scanStr : Nat → Str → Option (Str × Str)
  | 0, _ => none
  | _ + 1, [] => none
  | n + 1, c :: r =>
      if c = '"' then some ([], r)
      else if c = '\\' then do
        let (ch, r) ← scanEscape r
        let (t, r) ← scanStr n r
        some (ch :: t, r)
      else if c.toNat < 32 then none
      else do
        let (t, r) ← scanStr n r
        some (c :: t, r)

/-- the integer part of `json.scanner.NUMBER_RE` -/
def intPart : Str → Option (Str × Str)
  | [] => none
  | c :: r =>
      if c = '0' then some (['0'], r)
      else if c.isDigit then some (c :: r.takeWhile Char.isDigit, r.dropWhile Char.isDigit)
      else none

/-- the fraction of `json.scanner.NUMBER_RE`, if there is one -/
def fracPart (s : Str) : Str × Str :=
  match s with
  | [] => ([], s)
  | c :: r => if c = '.' ∧ r.takeWhile Char.isDigit ≠ [] then ('.' :: r.takeWhile Char.isDigit, r.dropWhile Char.isDigit) else ([], s)

/-- an optional sign -/
def expSign (s : Str) : Str × Str :=
  match s with
  | [] => ([], s)
  | c :: r => if c = '+' ∨ c = '-' then ([c], r) else ([], s)

/-- the exponent of `json.scanner.NUMBER_RE`, if there is one -/
def expPart (s : Str) : Str × Str :=
  match s with
  | [] => ([], s)
  | c :: r =>
      if (c = 'e' ∨ c = 'E') ∧ (expSign r).2.takeWhile Char.isDigit ≠ [] then
        (c :: ((expSign r).1 ++ (expSign r).2.takeWhile Char.isDigit), (expSign r).2.dropWhile Char.isDigit)
      else ([], s)

/-- an optional minus sign -/
def minusSign (s : Str) : Str × Str :=
  match s with
  | [] => ([], s)
  | c :: r => if c = '-' then (['-'], r) else ([], s)

/-- a number (`json.scanner.py_make_scanner`): an integer if there is neither fraction nor exponent -/
def number (jf : JsonFloat) (s : Str) : Option (JVal × Str) := do
  let (ip, s2) ← intPart (minusSign s).2
  let fr := fracPart s2
  let ex := expPart fr.2
  if fr.1 = [] ∧ ex.1 = [] then
    match parseInt ((minusSign s).1 ++ ip) with
    | .ok i => some (.int i, ex.2)
    | .error _ => none
  else
    match jf.parse ((minusSign s).1 ++ (ip ++ (fr.1 ++ ex.1))) with
    | .ok q => some (.flt q, ex.2)
    | .error _ => none

/-- a word -/
def word (w : Str) (v : JVal) (s : Str) : Option (JVal × Str) := if w.isPrefixOf s then some (v, s.drop w.length) else none

mutual
/-- `json.scanner.py_make_scanner`, `scan_once` -/
def value (jf : JsonFloat) : Nat → Str → Option (JVal × Str)
  | 0, _ => none
  | _ + 1, [] => none
  | n + 1, c :: r =>
      if c = '"' then (scanStr n r).map (fun p => (.str p.1, p.2))
      else if c = '{' then
        match skipWs r with
        | [] => none
        | d :: r' => if d = '}' then some (.obj [], r') else (pairs jf n (d :: r')).map (fun p => (.obj (Dict.ofList p.1), p.2))
      else if c = '[' then
        match skipWs r with
        | [] => none
        | d :: r' => if d = ']' then some (.arr [], r') else (items jf n (d :: r')).map (fun p => (.arr p.1, p.2))
      else if c = 'n' then word "null".toList .null (c :: r)
      else if c = 't' then word "true".toList (.bool true) (c :: r)
      else if c = 'f' then word "false".toList (.bool false) (c :: r)
      else number jf (c :: r)
/-- `json.decoder.JSONArray`, after the bracket and blanks -/
def items (jf : JsonFloat) : Nat → Str → Option (List JVal × Str)
  | 0, _ => none
  | n + 1, s => do
      let (x, r) ← value jf n s
      match skipWs r with
      | [] => none
      | d :: r =>
          if d = ']' then some ([x], r)
          else if d = ',' then do
            let (xs, r) ← items jf n (skipWs r)
            some (x :: xs, r)
          else none
/-- `json.decoder.JSONObject`, after the brace and blanks -/
def pairs (jf : JsonFloat) : Nat → Str → Option (List (PyKey × JVal) × Str)
  | 0, _ => none
  | _ + 1, [] => none
  | n + 1, c :: s =>
      if c = '"' then do
        let (k, r) ← scanStr n s
        match skipWs r with
        | [] => none
        | d :: r =>
            if d = ':' then do
              let (x, r) ← value jf n (skipWs r)
              match skipWs r with
              | [] => none
              | d :: r =>
                  if d = '}' then some ([(.str k, x)], r)
                  else if d = ',' then do
                    let (kvs, r) ← pairs jf n (skipWs r)
                    some ((.str k, x) :: kvs, r)
                  else none
            else none
      else none
end

/-- `json.loads(s)` (`json.decoder.JSONDecoder.decode`): nothing but blanks may follow the value; a text that starts with a byte order mark is
rejected -/
def loads (jf : JsonFloat) (s : Str) : Py JVal :=
  if s.head? = some (Char.ofNat 0xfeff) then .error .valueError
  else
    match value jf (s.length + 1) (skipWs s) with
    | none => .error .valueError
    | some (v, r) => if skipWs r = [] then .ok v else .error .valueError

end Json

/-! ## networks -/

namespace JVal

/-- `d[k]` for a dictionary with string keys -/
def get (j : JVal) (k : String) : Py JVal :=
  match j with
  | .obj kvs => Dict.getItem kvs (.str k.toList)
  | _ => .error .typeError

/-- `d.items()` -/
def dictItems : JVal → Py (List (PyKey × JVal))
  | .obj kvs => .ok kvs
  | _ => .error .attributeError

/-- the elements of a list -/
def listItems : JVal → Py (List JVal)
  | .arr xs => .ok xs
  | _ => .error .typeError

/-- an integer. Python would accept anything here; the model treats other types as errors. -/
def asInt : JVal → Py Int
  | .int i => .ok i
  | _ => .error .typeError

/-- a number -/
def asNum : JVal → Py ℚ
  | .int i => .ok i
  | .flt q => .ok q
  | _ => .error .typeError

/-- a string. Python would accept anything here; the model treats other types as errors. -/
def asStr : JVal → Py Str
  | .str s => .ok s
  | _ => .error .typeError

end JVal

/-- `pybbn/graph/variable.py:38-44` as a JSON value -/
def VarDict.toJ (d : VarDict) : JVal :=
  .obj [(.str "id".toList, .int d.id), (.str "name".toList, .str d.name), (.str "values".toList, .arr (d.values.map .str))]

/-- `pybbn/graph/node.py:72-78` as a JSON value -/
def NodeDict.toJ (d : NodeDict) : JVal := .obj [(.str "probs".toList, .arr (d.probs.map .flt)), (.str "variable".toList, d.variable_.toJ)]

/-- `pybbn/graph/dag.py:237-247` as a JSON value -/
def BbnDict.toJ (d : BbnDict) : JVal :=
  .obj [(.str "nodes".toList, .obj (d.nodes.map (fun kv => (kv.1, kv.2.toJ)))),
    (.str "edges".toList, .arr (d.edges.map (fun e => .obj [(.str "pa".toList, .int e.pa), (.str "ch".toList, .int e.ch)])))]

/-- `pybbn/graph/dag.py:258-262` reading the dictionary of a node -/
def NodeDict.ofJ (j : JVal) : Py NodeDict := do
  let v ← j.get "variable"
  let id ← (← v.get "id").asInt
  let name ← (← v.get "name").asStr
  let values ← (← (← v.get "values").listItems).mapM JVal.asStr
  let probs ← (← (← j.get "probs").listItems).mapM JVal.asNum
  .ok ⟨probs, ⟨id, name, values⟩⟩

/-- `pybbn/graph/dag.py:264-274` reading the dictionary of a network -/
def BbnDict.ofJ (j : JVal) : Py BbnDict := do
  let nodes ← (← (← j.get "nodes").dictItems).mapM (fun kv => do .ok (kv.1, ← NodeDict.ofJ kv.2))
  let edges ← (← (← j.get "edges").listItems).mapM (fun e => do .ok (⟨← (← e.get "pa").asInt, ← (← e.get "ch").asInt⟩ : EdgeDict))
  .ok ⟨nodes, edges⟩

/-- `pybbn/graph/dag.py:284-294` `Bbn.to_json`: the text of the file -/
def Bbn.toJson (jf : JsonFloat) (b : Bbn) : Str := Json.dumps jf (some 2) 0 b.toDict.toJ

/-- `pybbn/graph/dag.py:297-307` `Bbn.from_json` on the text of the file, which is read in text mode. (All dictionary accesses come before the
edges are added; Python interleaves them, which only matters for which exception is raised.) -/
def Bbn.fromJson (jf : JsonFloat) (s : Str) : Py Bbn := do
  let j ← Json.loads jf (univNewlines s)
  Bbn.fromDict (← BbnDict.ofJ j)

end PyBBN
