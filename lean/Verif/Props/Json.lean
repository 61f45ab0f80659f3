import Verif.Proofs.JsonNet
import Verif.Props.Serde
import Verif.Props.Csv

/-! # C130: networks in JSON files. C131: files that were cut off -/

namespace PyBBN
open Json

/-! ## C130 -/

/-- **C130**. `json.loads(json.dumps(v))`, with or without indentation, is `v` with its keys turned into strings, for every value: whatever
characters its strings contain. -/
theorem c130_loads (jf : JsonFloat) (indent : Option Nat) (v : JVal) : loads jf (dumps jf indent 0 v) = .ok v.json :=
  loads_dumps jf indent v

/-- **C130**. The file consists of printable ASCII characters and line feeds, so that neither the encoding of the platform nor its line ends
can change what is read. -/
theorem c130_ascii (jf : JsonFloat) (b : Bbn) : (∀ c ∈ b.toJson jf, c = '\n' ∨ (32 ≤ c.toNat ∧ c.toNat ≤ 126)) ∧
    Bbn.fromJson jf (withLineEnd ['\r', '\n'] (b.toJson jf)) = Bbn.fromJson jf (b.toJson jf) := by
  have hp : ∀ c ∈ b.toJson jf, Printable c := printable_dumps jf (some 2) b.toDict.toJ 0
  refine ⟨hp, ?_⟩
  have h1 : ∀ s : Str, '\r' ∉ s → univNewlines (withLineEnd ['\r', '\n'] s) = s := by
    intro s
    induction s with
    | nil => intro _; rfl
    | cons a s ih =>
      intro hs
      have hs' : '\r' ∉ s := fun m => hs (List.mem_cons_of_mem _ m)
      have ha : a ≠ '\r' := fun e => hs (by simp [e])
      unfold withLineEnd at ih ⊢
      by_cases e : a = '\n'
      · simp only [List.flatMap_cons, if_pos e, List.cons_append, List.nil_append]
        rw [univNewlines, if_pos rfl, List.head?_cons, if_pos rfl, univNewlines, if_neg (by decide), ih hs', e]
      · simp only [List.flatMap_cons, if_neg e, List.cons_append, List.nil_append]
        rw [univNewlines, if_neg ha, ih hs']
  unfold Bbn.fromJson
  rw [h1 _ (printable_cr hp), univNewlines_id (printable_cr hp)]

/-- **C130**. For every network built with `add_node` / `add_edge`, whatever characters its names and values contain, `from_json` reads from
the file written by `to_json` a network with the same nodes in the same order (ids, names, values, CPTs), the same directed edges, the same
neighbours and the same ordered parent lists; writing it again gives the same text. -/
theorem c130_file (jf : JsonFloat) (ops : List BOp) :
    let b := Bbn.run ops
    ∃ b', Bbn.fromJson jf (b.toJson jf) = .ok b' ∧
      b'.toGraph.getNodes = b.toGraph.getNodes ∧
      (∀ i, Dict.get? b'.nodes i = Dict.get? b.nodes i) ∧
      (∀ p c, (∃ e ∈ b'.toGraph.getEdges, nid e.i = p ∧ nid e.j = c) ↔ ∃ e ∈ b.toGraph.getEdges, nid e.i = p ∧ nid e.j = c) ∧
      (∀ e ∈ b'.toGraph.getEdges, e.type = .directed ∧ Dict.get? b'.nodes (nid e.i) = some e.i ∧ Dict.get? b'.nodes (nid e.j) = some e.j) ∧
      (∀ a x, x ∈ b'.toGraph.getNeighbors a ↔ x ∈ b.toGraph.getNeighbors a) ∧
      (∀ c, ddGet b'.parents c = ddGet b.parents c) ∧
      b'.toJson jf = b.toJson jf := by
  intro b
  obtain ⟨b', h1, h2, h3, h4, _, h6, h7, h8, h9⟩ := c31_dict_round_trip ops true
  refine ⟨b', ?_, h2, h3, h4, h6, h7, h8, ?_⟩
  · rw [fromJson_toJson]; exact h1
  · unfold Bbn.toJson; rw [h9]

/-! ## C131 -/

theorem toJson_notNum (jf : JsonFloat) (b : Bbn) : NotNum (b.toJson jf) := by
  intro c hc
  unfold Bbn.toJson BbnDict.toJ at hc
  rw [dumps] at hc
  simp only [List.head?_cons, Option.mem_def, Option.some.injEq] at hc
  subst hc
  decide

/-- **C131** for JSON. If writing the file of a network stops anywhere before its end, `from_json` raises a `ValueError` on what was
written. -/
theorem c131_json_partial (jf : JsonFloat) (b : Bbn) (k : Nat) (hk : k < (b.toJson jf).length) :
    Bbn.fromJson jf ((b.toJson jf).take k) = .error .valueError := by
  have hp : ∀ c ∈ (b.toJson jf).take k, Printable c := fun c hc => printable_dumps jf (some 2) b.toDict.toJ 0 c (List.mem_of_mem_take hc)
  unfold Bbn.fromJson
  rw [univNewlines_id (printable_cr hp), loads_prefix jf (some 2) b.toDict.toJ (toJson_notNum jf b) (List.take_append_drop k (b.toJson jf)) (by
    intro h
    have := congrArg List.length h
    simp only [List.length_drop, List.length_nil] at this
    omega)]
  rfl

/-- **C131** for JSON. If a longer file is overwritten in place and its tail remains, `from_json` raises a `ValueError` unless the tail is
blank. -/
theorem c131_tail_partial (jf : JsonFloat) (b : Bbn) (tail : Str) (ht : '\r' ∉ tail) (hb : ∃ c ∈ tail, c ≠ ' ' ∧ c ≠ '\t' ∧ c ≠ '\n') :
    Bbn.fromJson jf (b.toJson jf ++ tail) = .error .valueError := by
  have hp : ∀ c ∈ b.toJson jf, Printable c := printable_dumps jf (some 2) b.toDict.toJ 0
  have hcr : '\r' ∉ b.toJson jf ++ tail := by
    rw [List.mem_append]
    exact fun h => h.elim (printable_cr hp) ht
  unfold Bbn.fromJson
  rw [univNewlines_id hcr]
  have hq : ∃ c ∈ tail, isWs c = false := by
    obtain ⟨c, hc, h1, h2, h3⟩ := hb
    refine ⟨c, hc, ?_⟩
    have h4 : c ≠ '\r' := by rintro rfl; exact ht hc
    simp [isWs, h1, h2, h3, h4]
  rw [show loads jf (b.toJson jf ++ tail) = .error .valueError from loads_junk jf (some 2) b.toDict.toJ (toJson_notNum jf b) hq]
  rfl

/-- the network 0 → 1 ← 2 used below; the name of node 1 has a quote, a backslash, a tabulator, an umlaut and a character outside of the
basic plane -/
def c130_ops : List BOp :=
  [.addNode (mkNode 0 "a" [1/2, 1/2]), .addNode (mkNode 1 "q\"\\\tä😀" [1/4, 3/4, 1, 0, 1/3, 2/3, 1/5, 4/5]), .addNode (mkNode 2 "c" [1/3, 2/3]),
   .addEdge (mkNode 2 "c" [1/3, 2/3]) (mkNode 1 "q\"\\\tä😀" [1/4, 3/4, 1, 0, 1/3, 2/3, 1/5, 4/5]),
   .addEdge (mkNode 0 "a" [1/2, 1/2]) (mkNode 1 "q\"\\\tä😀" [1/4, 3/4, 1, 0, 1/3, 2/3, 1/5, 4/5])]

/-- the network of the counterexample: 0 → 1 -/
def c131_ops : List BOp :=
  [.addNode (mkNode 0 "a" [1/2, 1/2]), .addNode (mkNode 1 "b" [1/4, 3/4, 9/10, 1/10]), .addEdge (mkNode 0 "a" [1/2, 1/2]) (mkNode 1 "b" [1/4, 3/4, 9/10, 1/10])]

/-- **C131 is false of CSV files**: if writing stops before the line of the edge, `from_csv` reads a network without the edge and raises
nothing; if it stops within the last number of a CPT, it reads another number. -/
theorem c131_csv_false : ¬ ∀ (ft : FloatText) (ops : List BOp) (k : Nat) (b' : Bbn), k < ((Bbn.run ops).toCsv ft).length →
    Bbn.fromCsv ft (((Bbn.run ops).toCsv ft).take k) = .ok b' → b'.parents = (Bbn.run ops).parents := by
  intro h
  have key : (Bbn.fromCsv fracText (((Bbn.run c131_ops).toCsv fracText).take 52)).val?.map Bbn.parents = some [] ∧
      52 < ((Bbn.run c131_ops).toCsv fracText).length ∧ (Bbn.run c131_ops).parents ≠ [] := by decide +kernel
  cases hb : Bbn.fromCsv fracText (((Bbn.run c131_ops).toCsv fracText).take 52) with
  | error e =>
      rw [hb] at key
      exact absurd key.1 (by simp [Py.val?])
  | ok b' =>
      rw [hb] at key
      simp only [Py.val?, Option.map_some, Option.some.injEq] at key
      exact key.2.2 (by rw [← h fracText c131_ops 52 b' key.2.1 hb, key.1])

/-! ## concrete cases -/

/-- a concrete pair of functions for numbers: numerator, point, denominator -/
def pointParse (s : Str) : Py ℚ :=
  match splitOn '.' s with
  | [a, b] => do
      let a ← parseInt a
      let b ← parseInt b
      .ok (a / b)
  | _ => .error .valueError

/-- texts of the right shape exist for all rationals -/
def pointFloat : JsonFloat where
  fmt p := strInt p.num ++ '.' :: strInt p.den
  parse := pointParse
  round p := by
    have hs : ∀ i, '.' ∉ strInt i := by
      intro i h
      have := strInt_chars h
      simp [Char.isDigit] at this
    unfold pointParse
    rw [splitOn_append (hs _), splitOn_none (hs _)]
    simp only [parseInt_strInt]
    show Except.ok _ = Except.ok _
    congr 1
    have := Rat.num_div_den p
    simpa using this
  shape p := by
    obtain ⟨sg, ip, e, hs, hi⟩ := strInt_shape p.num
    refine ⟨sg, ip, '.' :: strInt p.den, [], ?_, hs, hi, Or.inr ⟨_, rfl, strInt_ne_nil _, ?_⟩, Or.inl rfl, Or.inl (by simp)⟩
    · rw [e]; simp
    · intro c hc
      rw [strInt_nonneg (by positivity)] at hc
      exact Nat.isDigit_of_mem_toDigits (by norm_num) (by norm_num) hc

/-- the text of a small network -/
example : String.ofList ((Bbn.run [.addNode (mkNode 0 "q\"\\\tä😀" [1/2, 1/2])]).toJson pointFloat) =
    "{\n  \"nodes\": {\n    \"0\": {\n      \"probs\": [\n        1.2,\n        1.2\n      ],\n      \"variable\": {\n        \"id\": 0,\n        \"name\": \"q\\\"\\\\\\t\\u00e4\\ud83d\\ude00\",\n        \"values\": [\n          \"on\",\n          \"off\"\n        ]\n      }\n    }\n  },\n  \"edges\": []\n}" := by
  decide +kernel

/-- C130 and C131 on the network above: read back, the same nodes and parents; cut off after 300 characters or followed by a brace, an error;
followed by blanks, the same network -/
example : (Bbn.fromJson pointFloat ((Bbn.run c130_ops).toJson pointFloat)).val?.map (fun b => (b.toGraph.getNodes, b.parents)) =
      some ((Bbn.run c130_ops).toGraph.getNodes, (Bbn.run c130_ops).parents) ∧
    300 < ((Bbn.run c130_ops).toJson pointFloat).length ∧
    (Bbn.fromJson pointFloat (((Bbn.run c130_ops).toJson pointFloat).take 300)).err? = some .valueError ∧
    (Bbn.fromJson pointFloat ((Bbn.run c130_ops).toJson pointFloat ++ "\n}".toList)).err? = some .valueError ∧
    (Bbn.fromJson pointFloat ((Bbn.run c130_ops).toJson pointFloat ++ "\n ".toList)).val?.map (fun b => b.parents) =
      some (Bbn.run c130_ops).parents := by
  decide +kernel

/-- the file of the counterexample cut off before the edge, and two characters earlier, within the last number of node 1 -/
example : (Bbn.fromCsv fracText (((Bbn.run c131_ops).toCsv fracText).take 52)).val?.map (fun b => (b.toGraph.getNodes.map (fun n => n.probs), b.parents)) =
      some ([[1/2, 1/2], [1/4, 3/4, 9/10, 1/10]], []) ∧
    (Bbn.fromCsv fracText (((Bbn.run c131_ops).toCsv fracText).take 50)).val?.map (fun b => b.toGraph.getNodes.map (fun n => n.probs)) =
      some [[1/2, 1/2], [1/4, 3/4, 9/10, 1]] := by
  decide +kernel

end PyBBN
