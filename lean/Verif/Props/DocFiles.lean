import Verif.Props.SameTree

/-!
The files that come with the documentation, character by character.
-/

namespace PyBBN

open Json InferenceController

/-- the numbers in the files of the documentation, as `float.__repr__` writes them -/
def docFloats : List (ℚ × Str) := [(1/10, "0.1".toList), (1/5, "0.2".toList), (4/5, "0.8".toList), (9/10, "0.9".toList)]

/-- reading numbers that are in the files of the documentation, or numerator, point, denominator, exponent 0 -/
def docParse (t : Str) : Py ℚ :=
  match docFloats.find? (fun e => decide (e.2 = t)) with
  | some e => .ok e.1
  | none => pointParse (t.take (t.length - 2))

/-- functions for numbers that agree with Python on the numbers in the files of the documentation -/
def docFloat : JsonFloat where
  fmt p :=
    match docFloats.find? (fun e => decide (e.1 = p)) with
    | some e => e.2
    | none => pointFloat.fmt p ++ ['e', '0']
  parse := docParse
  round p := by
    cases h : docFloats.find? (fun e => decide (e.1 = p)) with
    | some e =>
        have hm := List.mem_of_find?_eq_some h
        have he : e.1 = p := by simpa using List.find?_some h
        have hd : ∀ e ∈ docFloats, docFloats.find? (fun e' => decide (e'.2 = e.2)) = some e := by decide +kernel
        show docParse e.2 = _
        unfold docParse
        rw [hd e hm, ← he]
    | none =>
        show docParse (pointFloat.fmt p ++ ['e', '0']) = _
        unfold docParse
        have hd : ∀ e ∈ docFloats, 'e' ∉ e.2 := by decide +kernel
        have hn : docFloats.find? (fun e' => decide (e'.2 = pointFloat.fmt p ++ ['e', '0'])) = none := by
          rw [List.find?_eq_none]
          intro e he h
          simp only [decide_eq_true_eq] at h
          exact hd e he (by rw [h]; simp)
        rw [hn]
        show pointParse (List.take _ _) = _
        rw [List.length_append, show ([('e' : Char), '0']).length = 2 from rfl, Nat.add_sub_cancel, List.take_left']
        · exact pointFloat.round p
        · rfl
  shape p := by
    cases h : docFloats.find? (fun e => decide (e.1 = p)) with
    | some e =>
        have hm := List.mem_of_find?_eq_some h
        have hd : ∀ e ∈ docFloats, e.2.take 2 = ['0', '.'] ∧ e.2.length = 3 ∧ ∀ c ∈ e.2.drop 2, c.isDigit = true := by decide +kernel
        obtain ⟨h1, h2, h3⟩ := hd e hm
        refine ⟨[], ['0'], '.' :: e.2.drop 2, [], ?_, Or.inl rfl, Or.inl rfl, Or.inr ⟨_, rfl, ?_, h3⟩, Or.inl rfl, Or.inl (by simp)⟩
        · show e.2 = _
          conv => lhs; rw [← List.take_append_drop 2 e.2, h1]
          simp
        · intro h0
          have := congrArg List.length h0
          simp [h2] at this
    | none =>
        show FloatShape (pointFloat.fmt p ++ ['e', '0'])
        obtain ⟨sg, ip, e, hs, hi⟩ := strInt_shape p.num
        refine ⟨sg, ip, '.' :: strInt p.den, ['e', '0'], ?_, hs, hi, Or.inr ⟨_, rfl, strInt_ne_nil _, ?_⟩,
          Or.inr ⟨'e', [], ['0'], rfl, Or.inl rfl, Or.inl rfl, by simp, by decide⟩, Or.inl (by simp)⟩
        · show (strInt p.num ++ '.' :: strInt p.den) ++ _ = _
          rw [e]; simp
        · intro c hc
          rw [strInt_nonneg (by positivity)] at hc
          exact Nat.isDigit_of_mem_toDigits (by norm_num) (by norm_num) hc

/-- the same for CSV files -/
def docText : FloatText where
  fmt p :=
    match docFloats.find? (fun e => decide (e.1 = p)) with
    | some e => e.2
    | none => fracText.fmt p
  parse t :=
    match docFloats.find? (fun e => decide (e.2 = t)) with
    | some e => .ok e.1
    | none => fracText.parse t
  round p := by
    cases h : docFloats.find? (fun e => decide (e.1 = p)) with
    | some e =>
        have hm := List.mem_of_find?_eq_some h
        have he : e.1 = p := by simpa using List.find?_some h
        have hd : ∀ e ∈ docFloats, docFloats.find? (fun e' => decide (e'.2 = e.2)) = some e := by decide +kernel
        simp only [hd e hm, he]
    | none =>
        have hd : ∀ e ∈ docFloats, '/' ∉ e.2 := by decide +kernel
        have hn : docFloats.find? (fun e' => decide (e'.2 = fracText.fmt p)) = none := by
          rw [List.find?_eq_none]
          intro e he h
          simp only [decide_eq_true_eq] at h
          exact hd e he (by rw [h]; simp [fracText, fracFmt])
        simp only [hn]
        exact fracText.round p
  nonempty p := by
    cases h : docFloats.find? (fun e => decide (e.1 = p)) with
    | some e =>
        have hd : ∀ e ∈ docFloats, e.2 ≠ [] := by decide +kernel
        exact hd e (List.mem_of_find?_eq_some h)
    | none => exact fracText.nonempty p
  plain p := by
    cases h : docFloats.find? (fun e => decide (e.1 = p)) with
    | some e =>
        have hd : ∀ e ∈ docFloats, ∀ c ∈ e.2, c ≠ ',' ∧ c ≠ '|' ∧ isSpace c = false := by decide +kernel
        exact hd e (List.mem_of_find?_eq_some h)
    | none => exact fracText.plain p

/-- node `a` of the documentation -/
def docA : BbnNode := ⟨⟨0, "a".toList, ["t".toList, "f".toList]⟩, [1/5, 4/5]⟩

/-- node `b` of the documentation -/
def docB : BbnNode := ⟨⟨1, "b".toList, ["t".toList, "f".toList]⟩, [1/10, 9/10, 9/10, 1/10]⟩

/-- the network that `docs/source/code/bbn-json-serialization.py` writes -/
def docOps : List BOp := [.addNode docA, .addNode docB, .addEdge docA docB]

/-- a text from its lines -/
def docLines (ls : List String) : Str := List.intercalate ['\n'] (ls.map String.toList)

/-- `docs/source/code/simple-bbn.json` -/
def docBbnFile : Str := docLines [
  "{", "  \"nodes\": {", "    \"0\": {", "      \"probs\": [", "        0.2,", "        0.8", "      ],", "      \"variable\": {",
   "        \"id\": 0,", "        \"name\": \"a\",", "        \"values\": [", "          \"t\",", "          \"f\"", "        ]",
   "      }", "    },", "    \"1\": {", "      \"probs\": [", "        0.1,", "        0.9,", "        0.9,", "        0.1", "      ],",
   "      \"variable\": {", "        \"id\": 1,", "        \"name\": \"b\",", "        \"values\": [", "          \"t\",",
   "          \"f\"", "        ]", "      }", "    }", "  },", "  \"edges\": [", "    {", "      \"pa\": 0,", "      \"ch\": 1", "    }",
   "  ]", "}"]

/-- `docs/source/code/simple-join-tree.json` -/
def docTreeFile : Str := docLines [
  "{", "  \"bbn_nodes\": {", "    \"0\": {", "      \"probs\": [", "        0.2,", "        0.8", "      ],", "      \"variable\": {",
   "        \"id\": 0,", "        \"name\": \"a\",", "        \"values\": [", "          \"t\",", "          \"f\"", "        ]",
   "      }", "    },", "    \"1\": {", "      \"probs\": [", "        0.1,", "        0.9,", "        0.9,", "        0.1", "      ],",
   "      \"variable\": {", "        \"id\": 1,", "        \"name\": \"b\",", "        \"values\": [", "          \"t\",",
   "          \"f\"", "        ]", "      }", "    }", "  },", "  \"jt\": {", "    \"edges\": [],", "    \"nodes\": {", "      \"0-1\": {",
   "        \"node_ids\": [", "          0,", "          1", "        ],", "        \"type\": \"clique\"", "      }", "    },",
   "    \"parent_info\": {", "      \"0\": [],", "      \"1\": [", "        0", "      ]", "    }", "  }", "}"]

/-- `Bbn.to_json` writes the file of the documentation, character by character -/
example : (Bbn.run docOps).toJson docFloat = docBbnFile := by
  decide +kernel

/-- `Bbn.to_csv` writes `docs/source/code/simple-bbn.csv`, and `Bbn.from_csv` reads it -/
example : (Bbn.run docOps).toCsv docText = docLines ["0,a,t,f,|,0.2,0.8", "1,b,t,f,|,0.1,0.9,0.9,0.1", "0,1,directed", ""] ∧
    (Bbn.fromCsv docText (docLines ["0,a,t,f,|,0.2,0.8", "1,b,t,f,|,0.1,0.9,0.9,0.1", "0,1,directed", ""])).val?.map
      (fun b => (b.toGraph.getNodes, b.parents)) = some ([docA, docB], [(1, [0])]) := by
  decide +kernel

/-- `Bbn.from_json` reads the file of the documentation -/
example : (Bbn.fromJson docFloat docBbnFile).val?.map (fun b => (b.toGraph.getNodes, b.parents)) = some ([docA, docB], [(1, [0])]) := by
  decide +kernel

/-- the document of `docs/source/code/simple-join-tree.json` -/
def docTree : JtDict :=
  { bbnNodes := [(.str "1".toList, docB.toDict), (.str "0".toList, docA.toDict)]
    nodes := [("0-1".toList, .clique [0, 1])]
    edges := []
    parentInfo := [("1".toList, [0]), ("0".toList, [])] }

/-- the pinned code writes this document without the empty list for node 0 -/
theorem docTree_jt : (apply .rev .same (Bbn.run docOps)).val?.map (fun jt => (jt.toDict .rev (Bbn.run docOps)).json) =
    some { docTree with parentInfo := [("1".toList, [0])] } := by
  decide +kernel

/-- the file is this document, sorted -/
theorem docTree_text : dumps docFloat (some 2) 0 docTree.toJ.sortKeys = docTreeFile := by
  decide +kernel

/-- C137 at the file of the documentation -/
example : ∃ jt jt1 jt', apply .rev .same (Bbn.run docOps) = .ok jt ∧ JoinTree.fromJson docFloat .rev docTreeFile = .ok jt1 ∧
    applyFromSerde .same jt1 = .ok jt' ∧ LoadsAs docOps jt jt' := by
  have hd := docTree_jt
  cases hj : apply .rev .same (Bbn.run docOps) with
  | error e => rw [hj] at hd; exact absurd hd (by simp [Py.val?])
  | ok jt =>
      rw [hj] at hd
      simp only [Py.val?, Option.map_some, Option.some.injEq] at hd
      have hw : loads docFloat docTreeFile = .ok docTree.toJ.sortKeys.json := by rw [← docTree_text, loads_dumps]
      have hs := sameDoc_sort docTree.toJ (JtDict.distinct _ (by decide +kernel) (by decide +kernel) (by decide +kernel))
      rw [JtDict.toJ_json _ (by decide +kernel) (by decide +kernel)] at hs
      obtain ⟨jt1, jt', h1, h2, h3⟩ := c137_empty_parents docFloat (ids := [0])
        (.start .rev .same ⟨wf_of_check (by decide +kernel) (by decide +kernel), by decide +kernel⟩ hj) (connected_of_check 0 (by decide +kernel))
        .rev .rev .same (by decide +kernel) (by
          have : ∀ i ∈ [(0 : Int)], ∀ e ∈ BOp.edges docOps, e.2 ≠ i := by decide +kernel
          exact fun i hi p hp => this i hi _ hp rfl) hw (by
          rw [hd]
          exact hs)
      exact ⟨jt, jt1, jt', rfl, h1, h2, h3⟩

/-- read back and run, the cliques and the posteriors -/
example : ((JoinTree.fromJson docFloat .rev docTreeFile).val?.bind (fun j1 => (applyFromSerde .same j1).val?.map (fun j =>
      (j.getCliques.map Clique.nodeIds, [docA, docB].map (fun n => (j.getBbnPotential n.var).val?.map (fun P => P.map PEntry.value)))))) =
    some ([[0, 1]], [some [1/5, 4/5], some [37/50, 13/50]]) := by
  decide +kernel

end PyBBN
