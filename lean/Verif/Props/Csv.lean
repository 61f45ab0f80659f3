import Verif.Proofs.Csv
import Verif.Props.Serde

/-! # CSV files: C32 -/

namespace PyBBN

/-- Names and values that the CSV format can carry: non-empty, without comma, bar or line end, and without surrounding blanks. -/
structure PlainText (s : Str) : Prop where
  ne : s ≠ []
  chars : ∀ c ∈ s, c ≠ ',' ∧ c ≠ '|' ∧ c ≠ '\n' ∧ c ≠ '\r'
  first : ∀ c ∈ s.head?, isSpace c = false
  last : ∀ c ∈ s.getLast?, isSpace c = false

/-- **C32**. For every network built with `add_node` / `add_edge` whose names and values are plain text, `from_csv` reads the file
written by `to_csv` without an exception and gives a network with the same nodes in the same order (ids, names, values, CPTs), the
same edges in the same order, now between the registered node objects, the same neighbours and the same ordered parent lists;
writing it again gives the same file. -/
theorem c32_csv_round_trip (ft : FloatText) (ops : List BOp)
    (hplain : ∀ n ∈ (Bbn.run ops).toGraph.getNodes, PlainText n.var.name ∧ ∀ x ∈ n.var.values, PlainText x) :
    let b := Bbn.run ops
    ∃ b', Bbn.fromCsv ft (b.toCsv ft) = .ok b' ∧
      b'.toGraph.getNodes = b.toGraph.getNodes ∧
      (∀ i, Dict.get? b'.nodes i = Dict.get? b.nodes i) ∧
      b'.toGraph.getEdges.map (fun e => (nid e.i, nid e.j)) = b.toGraph.getEdges.map (fun e => (nid e.i, nid e.j)) ∧
      (∀ e ∈ b'.toGraph.getEdges, e.type = .directed ∧ Dict.get? b'.nodes (nid e.i) = some e.i ∧
        Dict.get? b'.nodes (nid e.j) = some e.j) ∧
      (∀ a x, x ∈ b'.toGraph.getNeighbors a ↔ x ∈ b.toGraph.getNeighbors a) ∧
      (∀ c, ddGet b'.parents c = ddGet b.parents c) ∧
      b'.toCsv ft = b.toCsv ft := by
  intro b
  have h : BbnInv b := bbn_run_inv ops
  have hg : EdgesGive b := edgesGive_run ops
  have h' := bbn_run_inv b.csvReload
  have hn := csvReload_nodes h
  have hpar := csvReload_parents h hg
  have hE := csvReload_edges h
  have htext : ∀ s, PlainText s → CsvText s := fun s hs =>
    ⟨hs.ne, fun m => (hs.chars _ m).1 rfl, fun m => (hs.chars _ m).2.1 rfl, fun m => (hs.chars _ m).2.2.1 rfl,
      fun m => (hs.chars _ m).2.2.2 rfl, hs.first, hs.last⟩
  have hc : ∀ n ∈ b.toGraph.getNodes, CsvNode n := fun n hn =>
    ⟨htext _ (hplain n hn).1, fun v hv => htext v ((hplain n hn).2 v hv)⟩
  have hEdges : (Bbn.run b.csvReload).toGraph.getEdges =
      b.toGraph.getEdges.map (fun e => (⟨b.nodeOf (nid e.i), b.nodeOf (nid e.j), .directed⟩ : Edge BbnNode)) := by
    unfold Graph.getEdges Dict.values
    rw [hE, List.map_map, List.map_map]
    rfl
  have hids : ∀ e ∈ b.toGraph.getEdges, nid (b.nodeOf (nid e.i)) = nid e.i ∧ nid (b.nodeOf (nid e.j)) = nid e.j := fun e he =>
    ⟨nodeOf_id h (edge_ends h he).1, nodeOf_id h (edge_ends h he).2⟩
  have hrel : ∀ p c, emRel (Bbn.run b.csvReload).toGraph p c ↔ emRel b.toGraph p c := by
    intro p c
    rw [← h'.par, hpar, h.par]
  refine ⟨Bbn.run b.csvReload, fromCsv_toCsv ft h hc, ?_, ?_, ?_, ?_, ?_, ?_, ?_⟩
  · unfold Graph.getNodes; rw [hn]
  · intro i; rw [hn]
  · rw [hEdges, List.map_map]
    apply List.map_congr_left
    intro e he
    simp only [Function.comp_apply, (hids e he).1, (hids e he).2]
  · intro e he
    rw [hEdges] at he
    obtain ⟨f, hf, rfl⟩ := List.mem_map.1 he
    refine ⟨rfl, ?_, ?_⟩
    · rw [hn, (hids f hf).1]
      exact nodeOf_get (edge_ends h hf).1
    · rw [hn, (hids f hf).2]
      exact nodeOf_get (edge_ends h hf).2
  · intro a x
    rw [h'.ginv.nb, h.ginv.nb]
    exact or_congr (hrel a x) (hrel x a)
  · intro c; rw [hpar]
  · unfold Bbn.toCsv
    rw [hEdges]
    have e1 : (Bbn.run b.csvReload).toGraph.getNodes = b.toGraph.getNodes := by unfold Graph.getNodes; rw [hn]
    rw [e1]
    congr 1
    rw [List.flatMap_map]
    apply List.flatMap_congr
    intro e he
    unfold csvEdge
    simp only [(hids e he).1, (hids e he).2, h.directed e he]

/-- a concrete pair of functions for numbers: numerator and denominator -/
def fracParse (s : Str) : Py ℚ :=
  match splitOn '/' s with
  | [a, b] => do
      let a ← parseInt a
      let b ← parseInt b
      .ok (a / b)
  | _ => .error .valueError

/-- a number as `numerator/denominator` -/
def fracFmt (p : ℚ) : Str := strInt p.num ++ '/' :: strInt p.den

/-- such functions exist -/
def fracText : FloatText where
  fmt := fracFmt
  parse := fracParse
  round p := by
    have hs : ∀ i, '/' ∉ strInt i := by
      intro i h
      have := strInt_chars h
      simp [Char.isDigit] at this
    unfold fracParse fracFmt
    rw [splitOn_append (hs _), splitOn_none (hs _)]
    simp only [parseInt_strInt]
    show Except.ok _ = Except.ok _
    congr 1
    have := Rat.num_div_den p
    simpa using this
  nonempty p := by unfold fracFmt; simp
  plain p := by
    intro c hc
    have hd : ∀ c : Char, c = '-' ∨ c.isDigit = true ∨ c = '/' → c ≠ ',' ∧ c ≠ '|' ∧ isSpace c = false := by
      rintro c (rfl | h | rfl)
      · decide
      · refine ⟨?_, ?_, ?_⟩
        · rintro rfl; simp [Char.isDigit] at h
        · rintro rfl; simp [Char.isDigit] at h
        · have hz := csvText_strInt 0
          simp only [Char.isDigit, Bool.and_eq_true, decide_eq_true_eq] at h
          obtain ⟨h1, h2⟩ := h
          have h3 : 48 ≤ c.toNat := h1
          have h4 : c.toNat ≤ 57 := h2
          simp only [isSpace, Bool.or_eq_false_iff, decide_eq_false_iff_not]
          refine ⟨⟨⟨?_, ?_⟩, ?_⟩, ?_⟩
          · omega
          · omega
          · simp only [List.mem_cons, List.not_mem_nil, or_false]; omega
          · omega
      · decide
    apply hd
    unfold fracFmt at hc
    rcases List.mem_append.1 hc with hc | hc
    · rcases strInt_chars hc with h | h
      · exact Or.inl h
      · exact Or.inr (Or.inl h)
    · rcases List.mem_cons.1 hc with h | hc
      · exact Or.inr (Or.inr h)
      · rcases strInt_chars hc with h | h
        · exact Or.inl h
        · exact Or.inr (Or.inl h)

/-- the condition on names and values as a computation -/
def plainCheck (s : Str) : Bool :=
  decide (s ≠ []) && (s.all (fun c => decide (c ≠ ',' ∧ c ≠ '|' ∧ c ≠ '\n' ∧ c ≠ '\r')) &&
    (s.head?.all (fun c => !isSpace c) && s.getLast?.all (fun c => !isSpace c)))

theorem plainCheck_sound {s : Str} (h : plainCheck s = true) : PlainText s := by
  unfold plainCheck at h
  simp only [Bool.and_eq_true, decide_eq_true_eq, List.all_eq_true] at h
  obtain ⟨h1, h2, h3, h4⟩ := h
  refine ⟨h1, h2, ?_, ?_⟩
  · intro c hc
    rw [Option.mem_def.1 hc] at h3
    simpa using h3
  · intro c hc
    rw [Option.mem_def.1 hc] at h4
    simpa using h4

/-- C32 applies to the network of C31: negative ids, an isolated node, parents that are not in ascending order -/
example : ∀ n ∈ (Bbn.run c31_ops).toGraph.getNodes, PlainText n.var.name ∧ ∀ x ∈ n.var.values, PlainText x := by
  have : ∀ n ∈ (Bbn.run c31_ops).toGraph.getNodes, (n.var.name :: n.var.values).all plainCheck = true := by decide +kernel
  intro n hn
  have h := List.all_eq_true.1 (this n hn)
  exact ⟨plainCheck_sound (h _ List.mem_cons_self), fun x hx => plainCheck_sound (h x (List.mem_cons_of_mem _ hx))⟩

/-- the file of that network -/
example : String.ofList ((Bbn.run c31_ops).toCsv fracText) =
    "7,g,on,off,|,1/2,1/2\n5,c,on,off,|,1/4,3/4\n-1,x,on,off,|,1/4,3/4,1/2,1/2,1/1,0/1,0/1,1/1\n-3,b,on,off,|,1/5,4/5\n2,d,on,off,|,1/3,2/3,0/1,1/1\n5,-1,directed\n-3,-1,directed\n-1,2,directed\n" := by
  decide +kernel

/-- without the assumption the round trip fails: a name with a comma gains a value -/
example : ((Bbn.fromCsv fracText ((Bbn.run [.addNode (mkNode 0 "a,b" [1])]).toCsv fracText)).val?.map
      (fun b => b.toGraph.getNodes.map (fun n => (String.ofList n.var.name, n.var.values.map String.ofList)))) =
    some [("a", ["b", "on", "off"])] := by decide +kernel

/-- a name with a bar makes `from_csv` raise -/
example : (Bbn.fromCsv fracText ((Bbn.run [.addNode (mkNode 0 "a|b" [1])]).toCsv fracText)).err? = some .valueError := by
  decide +kernel

/-- the text with another line end, as an editor on another system saves it -/
def withLineEnd (e : Str) (s : Str) : Str := s.flatMap (fun c => if c = '\n' then e else [c])

/-- **C32**: a file saved with the line ends of another system (`"\r\n"` or `"\r"`) is read as the same network -/
theorem c32_line_ends (ft : FloatText) (text : Str) (h : '\r' ∉ text) :
    Bbn.fromCsv ft (withLineEnd ['\r', '\n'] text) = Bbn.fromCsv ft text ∧
    Bbn.fromCsv ft (withLineEnd ['\r'] text) = Bbn.fromCsv ft text := by
  have hhead : ∀ s : Str, '\r' ∉ s → (withLineEnd ['\r'] s).head? ≠ some '\n' := by
    intro s hs
    cases s with
    | nil => simp [withLineEnd]
    | cons a s =>
      unfold withLineEnd
      by_cases ha : a = '\n'
      · simp [ha]
      · simp [ha]
  have h1 : ∀ s : Str, '\r' ∉ s → univNewlines (withLineEnd ['\r', '\n'] s) = s := by
    intro s
    induction s with
    | nil => intro _; rfl
    | cons a s ih =>
      intro hs
      have hs' : '\r' ∉ s := fun m => hs (List.mem_cons_of_mem _ m)
      have ha : a ≠ '\r' := fun e => hs (by simp [e])
      unfold withLineEnd at ih ⊢
      by_cases e : a = '\n'
      · simp only [List.flatMap_cons, if_pos e, List.cons_append, List.nil_append]
        rw [univNewlines, if_pos rfl, List.head?_cons, if_pos rfl, univNewlines, if_neg (by decide), ih hs', e]
      · simp only [List.flatMap_cons, if_neg e, List.cons_append, List.nil_append]
        rw [univNewlines, if_neg ha, ih hs']
  have h2 : ∀ s : Str, '\r' ∉ s → univNewlines (withLineEnd ['\r'] s) = s := by
    intro s
    induction s with
    | nil => intro _; rfl
    | cons a s ih =>
      intro hs
      have hs' : '\r' ∉ s := fun m => hs (List.mem_cons_of_mem _ m)
      have ha : a ≠ '\r' := fun e => hs (by simp [e])
      have hh := hhead s hs'
      unfold withLineEnd at ih hh ⊢
      by_cases e : a = '\n'
      · simp only [List.flatMap_cons, if_pos e, List.cons_append, List.nil_append]
        rw [univNewlines, if_pos rfl, if_neg hh, ih hs', e]
      · simp only [List.flatMap_cons, if_neg e, List.cons_append, List.nil_append]
        rw [univNewlines, if_neg ha, ih hs']
  unfold Bbn.fromCsv
  rw [h1 text h, h2 text h, univNewlines_id h]
  exact ⟨rfl, rfl⟩

/-- the file of the network above has line ends and no `"\r"` -/
example : '\r' ∉ (Bbn.run c31_ops).toCsv fracText ∧ withLineEnd ['\r'] ((Bbn.run c31_ops).toCsv fracText) ≠ (Bbn.run c31_ops).toCsv fracText := by
  decide +kernel

end PyBBN
