import Verif.Model.Csv
import Verif.Proofs.Serde

/-! CSV text written and read back. -/

namespace PyBBN

/-! ### strings -/

theorem splitOn_ne_nil (c : Char) : ∀ s, splitOn c s ≠ []
  | [] => by simp [splitOn]
  | a :: s => by
      unfold splitOn
      split
      · simp
      · cases splitOn c s <;> simp [consHead]

theorem splitOn_none {c : Char} : ∀ {s : Str}, c ∉ s → splitOn c s = [s]
  | [], _ => rfl
  | a :: s, h => by
      have h1 : a ≠ c := fun e => h (by simp [e])
      have h2 : c ∉ s := fun m => h (List.mem_cons_of_mem _ m)
      unfold splitOn
      rw [if_neg h1, splitOn_none h2]
      rfl

theorem splitOn_append {c : Char} : ∀ {s : Str}, c ∉ s → ∀ t, splitOn c (s ++ c :: t) = s :: splitOn c t
  | [], _, t => by simp [splitOn]
  | a :: s, h, t => by
      have h1 : a ≠ c := fun e => h (by simp [e])
      have h2 : c ∉ s := fun m => h (List.mem_cons_of_mem _ m)
      rw [List.cons_append]
      conv_lhs => unfold splitOn
      rw [if_neg h1, splitOn_append h2]
      rfl

theorem length_splitOn (c : Char) : ∀ s, (splitOn c s).length = s.count c + 1
  | [] => rfl
  | a :: s => by
      unfold splitOn
      split
      · rename_i e
        subst e
        simp [length_splitOn]
      · rename_i e
        have : (consHead a (splitOn c s)).length = (splitOn c s).length := by
          cases h : splitOn c s with
          | nil => exact absurd h (splitOn_ne_nil c s)
          | cons t ts => rfl
        rw [this, length_splitOn, List.count_cons_of_ne e]

theorem univNewlines_id : ∀ {s : Str}, '\r' ∉ s → univNewlines s = s
  | [], _ => rfl
  | a :: s, h => by
      have h1 : a ≠ '\r' := fun e => h (by simp [e])
      have h2 : '\r' ∉ s := fun m => h (List.mem_cons_of_mem _ m)
      unfold univNewlines
      rw [if_neg h1, univNewlines_id h2]

theorem fileLines_append : ∀ {s : Str}, '\n' ∉ s → ∀ t, fileLines (s ++ '\n' :: t) = (s ++ ['\n']) :: fileLines t
  | [], _, t => by simp [fileLines]
  | a :: s, h, t => by
      have h1 : a ≠ '\n' := fun e => h (by simp [e])
      have h2 : '\n' ∉ s := fun m => h (List.mem_cons_of_mem _ m)
      rw [List.cons_append]
      conv_lhs => unfold fileLines
      rw [if_neg h1, fileLines_append h2]
      rfl

/-- lines that end where they should -/
theorem fileLines_flatMap {α : Type} (f : α → Str) : ∀ (l : List α), (∀ x ∈ l, ∃ s, '\n' ∉ s ∧ f x = s ++ ['\n']) →
    ∀ t, fileLines (l.flatMap f ++ t) = l.map f ++ fileLines t
  | [], _, t => by simp
  | x :: l, h, t => by
      obtain ⟨s, hs, e⟩ := h x List.mem_cons_self
      have := fileLines_append hs (l.flatMap f ++ t)
      rw [fileLines_flatMap f l (fun y hy => h y (List.mem_cons_of_mem _ hy))] at this
      rw [List.flatMap_cons, e, List.map_cons, e, ← List.cons_append.symm]
      simpa using this

/-! ### stripping -/

/-- text that survives `strip()` -/
def Trimmed (s : Str) : Prop := (∀ c ∈ s.head?, isSpace c = false) ∧ (∀ c ∈ s.getLast?, isSpace c = false)

theorem dropWhile_head {s : Str} (h : ∀ c ∈ s.head?, isSpace c = false) : s.dropWhile isSpace = s := by
  cases s with
  | nil => rfl
  | cons a s =>
    have : isSpace a = false := h a (by simp)
    simp [this]

theorem dropWhile_all {s : Str} (h : ∀ c ∈ s, isSpace c = true) : s.dropWhile isSpace = [] := by
  induction s with
  | nil => rfl
  | cons a s ih =>
    have : isSpace a = true := h a (by simp)
    simp only [List.dropWhile_cons, this, if_true]
    exact ih (fun c hc => h c (List.mem_cons_of_mem _ hc))

theorem strip_append {s w : Str} (hs : Trimmed s) (hne : s ≠ []) (hw : ∀ c ∈ w, isSpace c = true) : strip (s ++ w) = s := by
  unfold strip
  rw [dropWhile_head (s := s ++ w)]
  · rw [List.reverse_append, List.dropWhile_append]
    rw [dropWhile_all (s := w.reverse) (by simpa using hw)]
    simp only [List.isEmpty_nil, if_true]
    rw [dropWhile_head (s := s.reverse), List.reverse_reverse]
    intro c hc
    rw [List.head?_reverse] at hc
    exact hs.2 c hc
  · intro c hc
    cases s with
    | nil => exact absurd rfl hne
    | cons a s => exact hs.1 c (by simpa using hc)

theorem strip_all {w : Str} (hw : ∀ c ∈ w, isSpace c = true) : strip w = [] := by
  unfold strip
  rw [dropWhile_all hw]
  rfl

theorem strip_self {s : Str} (hs : Trimmed s) : strip s = s := by
  cases s with
  | nil => rfl
  | cons a s =>
    have := strip_append (w := []) hs (by simp) (by simp)
    simpa using this

/-- an item that can be written in a comma-separated line -/
structure CsvItem (s : Str) : Prop where
  ne : s ≠ []
  comma : ',' ∉ s
  trim : Trimmed s

theorem csvItems_cons {s : Str} (hs : CsvItem s) (t : Str) : csvItems (s ++ ',' :: t) = s :: csvItems t := by
  unfold csvItems
  rw [splitOn_append hs.comma, List.filter_cons_of_pos, List.map_cons, strip_self hs.trim]
  rw [strip_self hs.trim]
  have := hs.ne
  simp only [decide_eq_true_eq]
  exact List.length_pos_of_ne_nil this

theorem csvItems_blank {w : Str} (hw : ∀ c ∈ w, isSpace c = true) (hc : ',' ∉ w) (t : Str) :
    csvItems (w ++ ',' :: t) = csvItems t := by
  unfold csvItems
  rw [splitOn_append hc, List.filter_cons_of_neg]
  rw [strip_all hw]
  simp

theorem csvItems_end {w : Str} (hw : ∀ c ∈ w, isSpace c = true) (hc : ',' ∉ w) : csvItems w = [] := by
  unfold csvItems
  rw [splitOn_none hc, List.filter_cons_of_neg]
  · rfl
  · rw [strip_all hw]; simp

theorem csvItems_last {s w : Str} (hs : CsvItem s) (hw : ∀ c ∈ w, isSpace c = true) (hc : ',' ∉ w) : csvItems (s ++ w) = [s] := by
  unfold csvItems
  have e : strip (s ++ w) = s := strip_append hs.trim hs.ne hw
  rw [splitOn_none (by simp [hs.comma, hc]), List.filter_cons_of_pos]
  · simp [e]
  · rw [e]
    simp only [decide_eq_true_eq]
    exact List.length_pos_of_ne_nil hs.ne

/-- reading a joined list followed by `y` -/
theorem csvItems_join {y : Str} (h0 : csvItems y = []) (h1 : ∀ s, CsvItem s → csvItems (s ++ y) = [s]) :
    ∀ (l : List Str), (∀ s ∈ l, CsvItem s) → csvItems (joinStr ",".toList l ++ y) = l
  | [], _ => by simpa [joinStr] using h0
  | [s], h => by simpa [joinStr] using h1 s (h s (by simp))
  | s :: t :: l, h => by
      have ih := csvItems_join h0 h1 (t :: l) (fun x hx => h x (List.mem_cons_of_mem _ hx))
      have hc := csvItems_cons (h s (by simp)) (joinStr ",".toList (t :: l) ++ y)
      rw [ih] at hc
      have e : joinStr ",".toList (s :: t :: l) ++ y = s ++ ',' :: (joinStr ",".toList (t :: l) ++ y) := by
        simp [joinStr]
      rw [e, hc]

/-- characters of a joined list -/
theorem mem_joinStr {c : Char} {sep : Str} : ∀ {l : List Str}, c ∈ joinStr sep l → c ∈ sep ∨ ∃ s ∈ l, c ∈ s
  | [], h => by simp [joinStr] at h
  | [s], h => Or.inr ⟨s, by simp, by simpa [joinStr] using h⟩
  | s :: t :: l, h => by
      simp only [joinStr, List.mem_append] at h
      rcases h with (h | h) | h
      · exact Or.inr ⟨s, by simp, h⟩
      · exact Or.inl h
      · rcases mem_joinStr h with h | ⟨x, hx, hcx⟩
        · exact Or.inl h
        · exact Or.inr ⟨x, List.mem_cons_of_mem _ hx, hcx⟩

/-! ### the lines -/

/-- text that may be written as a name or as a value -/
structure CsvText (s : Str) : Prop where
  ne : s ≠ []
  comma : ',' ∉ s
  bar : '|' ∉ s
  lf : '\n' ∉ s
  cr : '\r' ∉ s
  trim : Trimmed s

theorem CsvText.item {s : Str} (h : CsvText s) : CsvItem s := ⟨h.ne, h.comma, h.trim⟩

theorem csvText_strInt (i : Int) : CsvText (strInt i) := by
  have hc : ∀ c ∈ strInt i, c = '-' ∨ c.isDigit = true := fun c hc => strInt_chars hc
  have hd : ∀ c : Char, c = '-' ∨ c.isDigit = true → isSpace c = false := by
    rintro c (rfl | h)
    · decide
    · simp only [Char.isDigit, Bool.and_eq_true, decide_eq_true_eq] at h
      obtain ⟨h1, h2⟩ := h
      have h3 : 48 ≤ c.toNat := h1
      have h4 : c.toNat ≤ 57 := h2
      simp only [isSpace, Bool.or_eq_false_iff, decide_eq_false_iff_not]
      refine ⟨⟨⟨?_, ?_⟩, ?_⟩, ?_⟩
      · omega
      · omega
      · simp only [List.mem_cons, List.not_mem_nil, or_false]; omega
      · omega
  refine ⟨strInt_ne_nil i, ?_, ?_, ?_, ?_, ?_, ?_⟩
  · intro h; have := hc _ h; simp [Char.isDigit] at this
  · intro h; have := hc _ h; simp [Char.isDigit] at this
  · intro h; have := hc _ h; simp [Char.isDigit] at this
  · intro h; have := hc _ h; simp [Char.isDigit] at this
  · intro c h; exact hd c (hc c (List.mem_of_mem_head? h))
  · intro c h; exact hd c (hc c (List.mem_of_mem_getLast? h))

theorem csvText_fmt (ft : FloatText) (p : ℚ) : CsvText (ft.fmt p) := by
  have h := ft.plain p
  have hs : ∀ c, isSpace c = true → c ∉ ft.fmt p := by
    intro c hc hm
    have := (h c hm).2.2
    rw [hc] at this
    cases this
  refine ⟨ft.nonempty p, fun hm => (h _ hm).1 rfl, fun hm => (h _ hm).2.1 rfl, hs _ (by decide), hs _ (by decide), ?_, ?_⟩
  · intro c hc; exact (h c (List.mem_of_mem_head? hc)).2.2
  · intro c hc; exact (h c (List.mem_of_mem_getLast? hc)).2.2

/-- a node that can be written -/
structure CsvNode (n : BbnNode) : Prop where
  name : CsvText n.var.name
  values : ∀ v ∈ n.var.values, CsvText v

theorem not_mem_join {c : Char} {l : List Str} (h1 : c ≠ ',') (h2 : ∀ s ∈ l, c ∉ s) : c ∉ joinStr ",".toList l := by
  intro h
  rcases mem_joinStr h with h | ⟨s, hs, hm⟩
  · simp at h; exact h1 h
  · exact h2 s hs hm

/-- the part of the line before the bar and the part after it -/
theorem csvNode_eq (ft : FloatText) (n : BbnNode) :
    csvNode ft n = (strInt n.var.id ++ ',' :: (n.var.name ++ ',' :: (joinStr ",".toList n.var.values ++ [',']))) ++
      '|' :: (',' :: (joinStr ",".toList (n.probs.map ft.fmt) ++ ['\n'])) := by
  simp [csvNode]

theorem csvReadNode_csvNode (ft : FloatText) {n : BbnNode} (h : CsvNode n) : csvReadNode ft (csvNode ft n) = .ok n := by
  rw [csvNode_eq]
  have hb : '|' ∉ strInt n.var.id ++ ',' :: (n.var.name ++ ',' :: (joinStr ",".toList n.var.values ++ [','])) := by
    have h1 := (csvText_strInt n.var.id).bar
    have h2 := h.name.bar
    have h3 := not_mem_join (c := '|') (by decide) (fun s hs => (h.values s hs).bar)
    simp only [List.mem_append, List.mem_cons, List.not_mem_nil, not_or]
    exact ⟨h1, by decide, h2, by decide, h3, by decide, by simp⟩
  have hb' : '|' ∉ ',' :: (joinStr ",".toList (n.probs.map ft.fmt) ++ ['\n']) := by
    have h3 := not_mem_join (c := '|') (l := n.probs.map ft.fmt) (by decide) (by
      intro s hs
      obtain ⟨p, _, rfl⟩ := List.mem_map.1 hs
      exact (csvText_fmt ft p).bar)
    simp only [List.mem_append, List.mem_cons, List.not_mem_nil, not_or]
    exact ⟨by decide, h3, by decide, by simp⟩
  have hsplit := splitOn_append hb (',' :: (joinStr ",".toList (n.probs.map ft.fmt) ++ ['\n']))
  rw [splitOn_none hb'] at hsplit
  have hv : csvItems (strInt n.var.id ++ ',' :: (n.var.name ++ ',' :: (joinStr ",".toList n.var.values ++ [',']))) =
      strInt n.var.id :: n.var.name :: n.var.values := by
    rw [csvItems_cons (csvText_strInt _).item, csvItems_cons h.name.item, csvItems_join]
    · have := csvItems_blank (w := []) (by simp) (by simp) []
      rw [csvItems_end (w := []) (by simp) (by simp)] at this
      simpa using this
    · intro s hs
      have := csvItems_cons hs []
      rw [csvItems_end (w := []) (by simp) (by simp)] at this
      simpa using this
    · exact fun s hs => (h.values s hs).item
  have hnl : ∀ c ∈ ['\n'], isSpace c = true := by decide
  have hp : csvItems (',' :: (joinStr ",".toList (n.probs.map ft.fmt) ++ ['\n'])) = n.probs.map ft.fmt := by
    have := csvItems_blank (w := []) (by simp) (by simp) (joinStr ",".toList (n.probs.map ft.fmt) ++ ['\n'])
    rw [List.nil_append] at this
    rw [this, csvItems_join]
    · exact csvItems_end hnl (by decide)
    · exact fun s hs => csvItems_last hs hnl (by decide)
    · intro s hs
      obtain ⟨p, _, rfl⟩ := List.mem_map.1 hs
      exact (csvText_fmt ft p).item
  unfold csvReadNode
  rw [hsplit]
  simp only [hv, hp, parseInt_strInt]
  have hm : (n.probs.map ft.fmt).mapM ft.parse = .ok n.probs := by
    have := mapM_ok (f := fun p => ft.parse (ft.fmt p)) (g := id) (l := n.probs) (fun p _ => ft.round p)
    rw [List.map_id] at this
    rw [List.mapM_map]
    exact this
  rw [hm]
  rfl

theorem csvReadLine_node (ft : FloatText) {n : BbnNode} (h : CsvNode n) (st : Dict Int BbnNode × List (Int × Int)) :
    csvReadLine ft st (csvNode ft n) = .ok (Dict.set st.1 n.var.id n, st.2) := by
  have hl : (splitOn ',' (csvNode ft n)).length ≠ 3 := by
    rw [length_splitOn, csvNode_eq]
    simp only [List.count_append, List.count_cons]
    simp
    omega
  unfold csvReadLine
  split
  · rename_i e
    rw [e] at hl
    exact absurd rfl hl
  · rw [csvReadNode_csvNode ft h]
    rfl

theorem csvReadLine_edge (ft : FloatText) (e : Edge BbnNode) (st : Dict Int BbnNode × List (Int × Int)) :
    csvReadLine ft st (csvEdge e) = .ok (st.1, st.2 ++ [(nid e.i, nid e.j)]) := by
  have h : ∃ t, ',' ∉ t ∧ csvEdge e = strInt (nid e.i) ++ ',' :: (strInt (nid e.j) ++ ',' :: t) := by
    unfold csvEdge
    cases e.type
    · exact ⟨"undirected\n".toList, by decide, by simp⟩
    · exact ⟨"directed\n".toList, by decide, by simp⟩
  obtain ⟨t, ht, h⟩ := h
  have hs : splitOn ',' (csvEdge e) = [strInt (nid e.i), strInt (nid e.j), t] := by
    rw [h, splitOn_append (csvText_strInt _).comma, splitOn_append (csvText_strInt _).comma, splitOn_none ht]
  unfold csvReadLine
  rw [hs]
  simp only [parseInt_strInt]
  rfl

theorem csvNode_line (ft : FloatText) {n : BbnNode} (h : CsvNode n) : ∃ s, '\n' ∉ s ∧ csvNode ft n = s ++ ['\n'] := by
  refine ⟨_, ?_, by unfold csvNode; rfl⟩
  have h1 := (csvText_strInt n.var.id).lf
  have h2 := h.name.lf
  have h3 := not_mem_join (c := '\n') (by decide) (fun s hs => (h.values s hs).lf)
  have h4 := not_mem_join (c := '\n') (l := n.probs.map ft.fmt) (by decide) (by
    intro s hs
    obtain ⟨p, _, rfl⟩ := List.mem_map.1 hs
    exact (csvText_fmt ft p).lf)
  simp only [List.mem_append, not_or]
  exact ⟨⟨⟨⟨⟨⟨h1, by decide⟩, h2⟩, by decide⟩, h3⟩, by decide⟩, h4⟩

theorem csvNode_cr (ft : FloatText) {n : BbnNode} (h : CsvNode n) : '\r' ∉ csvNode ft n := by
  have h1 := (csvText_strInt n.var.id).cr
  have h2 := h.name.cr
  have h3 := not_mem_join (c := '\r') (by decide) (fun s hs => (h.values s hs).cr)
  have h4 := not_mem_join (c := '\r') (l := n.probs.map ft.fmt) (by decide) (by
    intro s hs
    obtain ⟨p, _, rfl⟩ := List.mem_map.1 hs
    exact (csvText_fmt ft p).cr)
  unfold csvNode
  simp only [List.mem_append, not_or]
  exact ⟨⟨⟨⟨⟨⟨⟨h1, by decide⟩, h2⟩, by decide⟩, h3⟩, by decide⟩, h4⟩, by decide⟩

theorem csvEdge_line (e : Edge BbnNode) : ∃ s, '\n' ∉ s ∧ csvEdge e = s ++ ['\n'] := by
  refine ⟨_, ?_, by unfold csvEdge; rfl⟩
  have h1 := (csvText_strInt (nid e.i)).lf
  have h2 := (csvText_strInt (nid e.j)).lf
  simp only [List.mem_append, not_or]
  refine ⟨⟨⟨⟨h1, by decide⟩, h2⟩, by decide⟩, ?_⟩
  cases e.type <;> decide

theorem csvEdge_cr (e : Edge BbnNode) : '\r' ∉ csvEdge e := by
  have h1 := (csvText_strInt (nid e.i)).cr
  have h2 := (csvText_strInt (nid e.j)).cr
  unfold csvEdge
  simp only [List.mem_append, not_or]
  refine ⟨⟨⟨⟨⟨h1, by decide⟩, h2⟩, by decide⟩, ?_⟩, by decide⟩
  cases e.type <;> decide

/-! ### networks -/

/-- the parent lists are what the edges, in the order of the edge dictionary, give -/
def EdgesGive (b : Bbn) : Prop := b.toGraph.getEdges.foldl Bbn.edgeAdded [] = b.parents

theorem edgeAdded_congr (P : Dict Int (List Int)) {e f : Edge BbnNode} (h1 : nid e.i = nid f.i) (h2 : nid e.j = nid f.j) :
    Bbn.edgeAdded P e = Bbn.edgeAdded P f := by
  unfold Bbn.edgeAdded
  rw [h1, h2]

theorem edgeAdded_noop {P : Dict Int (List Int)} {e : Edge BbnNode} (h : nid e.i ∈ ddGet P (nid e.j)) : Bbn.edgeAdded P e = P := by
  have hk : nid e.j ∈ Dict.keys P := by
    unfold ddGet at h
    cases hg : Dict.get? P (nid e.j) with
    | none => rw [hg] at h; simp at h
    | some l => exact Dict.mem_keys_of_get? hg
  unfold Bbn.edgeAdded
  simp only
  rw [Dict.setDefault_of_mem hk, if_pos h]

theorem edgesGive_run (ops : List BOp) : EdgesGive (Bbn.run ops) := by
  induction ops using List.reverseRecOn with
  | nil => rfl
  | append_singleton ops op ih =>
    have hrun : Bbn.run (ops ++ [op]) = BOp.step (Bbn.run ops) op := by simp [Bbn.run]
    rw [hrun]
    have hi := bbn_run_inv ops
    generalize Bbn.run ops = b at ih hi
    cases op with
    | addNode n => exact ih
    | addEdge i j =>
      show List.foldl _ _ (b.addEdge ⟨i, j, .directed⟩).toGraph.getEdges = Bbn.edgeAdded b.parents ⟨i, j, .directed⟩
      have hE : (b.addEdge ⟨i, j, .directed⟩).toGraph.edges =
          Dict.set b.edges (Edge.key (⟨i, j, .directed⟩ : Edge BbnNode)) ⟨i, j, .directed⟩ := rfl
      unfold Graph.getEdges
      rw [hE]
      by_cases hk : Edge.key (⟨i, j, .directed⟩ : Edge BbnNode) ∈ Dict.keys b.edges
      · have hids : ∀ (d : Dict Str (Edge BbnNode)), (∀ k e, (k, e) ∈ d → k = e.key ∧ e.type = .directed) → ∀ P,
            (Dict.values (Dict.set d (Edge.key (⟨i, j, .directed⟩ : Edge BbnNode)) ⟨i, j, .directed⟩)).foldl Bbn.edgeAdded P =
              if Edge.key (⟨i, j, .directed⟩ : Edge BbnNode) ∈ Dict.keys d then (Dict.values d).foldl Bbn.edgeAdded P
              else Bbn.edgeAdded ((Dict.values d).foldl Bbn.edgeAdded P) ⟨i, j, .directed⟩ := by
          intro d
          induction d with
          | nil => intro _ P; simp [Dict.set, Dict.values, Dict.keys]
          | cons kv d ih =>
            intro hd P
            obtain ⟨k, e⟩ := kv
            obtain ⟨h1, h2⟩ := hd k e List.mem_cons_self
            by_cases hke : k = Edge.key (⟨i, j, .directed⟩ : Edge BbnNode)
            · have hids : nid i = nid e.i ∧ nid j = nid e.j := by
                rw [h1] at hke
                simp only [Edge.key, h2] at hke
                have := edgeKey_directed_inj hke
                exact ⟨this.1.symm, this.2.symm⟩
              simp only [Dict.set]
              rw [if_pos hke, if_pos (by simp [Dict.keys, hke])]
              simp only [Dict.values, List.map_cons, List.foldl_cons]
              rw [edgeAdded_congr P hids.1 hids.2]
            · simp only [Dict.set]
              rw [if_neg hke]
              have hm : Edge.key (⟨i, j, .directed⟩ : Edge BbnNode) ∈ Dict.keys ((k, e) :: d) ↔
                  Edge.key (⟨i, j, .directed⟩ : Edge BbnNode) ∈ Dict.keys d := by
                unfold Dict.keys
                rw [List.map_cons, List.mem_cons]
                exact ⟨fun h => h.resolve_left (fun h => hke h.symm), Or.inr⟩
              have := ih (fun k e h => hd k e (List.mem_cons_of_mem _ h)) (Bbn.edgeAdded P e)
              simp only [Dict.values, List.map_cons, List.foldl_cons] at this ⊢
              rw [this]
              simp only [hm]
        have := hids b.edges (fun k e h => ⟨hi.einv.key k e h, hi.directed e (by
          unfold Graph.getEdges Dict.values; exact List.mem_map_of_mem (f := Prod.snd) h)⟩) []
        rw [if_pos hk] at this
        have ih' : (Dict.values b.edges).foldl Bbn.edgeAdded [] = b.parents := ih
        rw [this, ih']
        obtain ⟨e, he⟩ := Dict.exists_get?_of_mem_keys hk
        have hmem := Dict.mem_of_get? he
        have hem : e ∈ b.toGraph.getEdges := by
          unfold Graph.getEdges Dict.values; exact List.mem_map_of_mem (f := Prod.snd) hmem
        have hke := hi.einv.key _ e hmem
        simp only [Edge.key, hi.directed e hem] at hke
        obtain ⟨e1, e2⟩ := edgeKey_directed_inj hke
        have hr := hi.einv.em e hem
        symm
        apply edgeAdded_noop
        show nid i ∈ ddGet b.parents (nid j)
        rw [e1, e2]
        exact (hi.par _ _).2 hr
      · rw [Dict.set_of_not_mem hk]
        have ih' : (Dict.values b.edges).foldl Bbn.edgeAdded [] = b.parents := ih
        unfold Dict.values at ih' ⊢
        rw [List.map_append, List.foldl_append, ih']
        rfl

/-- the calls that `from_csv` makes on the file written by `to_csv` -/
def Bbn.csvReload (b : Bbn) : List BOp :=
  b.toGraph.getNodes.map BOp.addNode ++
    b.toGraph.getEdges.map (fun e => BOp.addEdge (b.nodeOf (nid e.i)) (b.nodeOf (nid e.j)))

theorem foldl_set_fresh (l : List BbnNode) (h : (l.map (fun n => n.var.id)).Nodup) :
    l.foldl (fun d n => Dict.set d n.var.id n) ([] : Dict Int BbnNode) = l.map (fun n => (n.var.id, n)) := by
  have := foldl_set_append (l.map (fun n => (n.var.id, n))) [] (by
    simp only [Dict.keys, List.map_nil, List.nil_append, List.map_map]; exact h)
  rw [List.foldl_map] at this
  simpa using this

theorem nodes_as_list {b : Bbn} (h : BbnInv b) : b.toGraph.getNodes.map (fun n => (n.var.id, n)) = b.nodes := by
  unfold Graph.getNodes Dict.values
  rw [List.map_map]
  conv_rhs => rw [← List.map_id b.nodes]
  apply List.map_congr_left
  rintro ⟨k, n⟩ hkn
  have : n.var.id = k := h.ginv.key k n (Dict.get?_of_mem h.ginv.nodup hkn)
  simp [this]

theorem nodeOf_get {b : Bbn} {i : Int} (hi : i ∈ Dict.keys b.nodes) : Dict.get? b.nodes i = some (b.nodeOf i) := by
  obtain ⟨n, hn⟩ := Dict.exists_get?_of_mem_keys hi
  unfold Bbn.nodeOf
  rw [hn]; rfl

theorem nodeOf_id {b : Bbn} (h : BbnInv b) {i : Int} (hi : i ∈ Dict.keys b.nodes) : (b.nodeOf i).var.id = i :=
  h.ginv.key i _ (nodeOf_get hi)

theorem edge_ends {b : Bbn} (h : BbnInv b) {e : Edge BbnNode} (he : e ∈ b.toGraph.getEdges) :
    nid e.i ∈ Dict.keys b.nodes ∧ nid e.j ∈ Dict.keys b.nodes := h.ginv.emNodes _ _ (h.einv.em e he)

theorem fromCsv_toCsv (ft : FloatText) {b : Bbn} (h : BbnInv b) (hc : ∀ n ∈ b.toGraph.getNodes, CsvNode n) :
    Bbn.fromCsv ft (b.toCsv ft) = .ok (Bbn.run b.csvReload) := by
  have hcr : '\r' ∉ b.toCsv ft := by
    unfold Bbn.toCsv
    simp only [List.mem_append, List.mem_flatMap, not_or, not_exists, not_and]
    exact ⟨fun n hn => csvNode_cr ft (hc n hn), fun e _ => csvEdge_cr e⟩
  have hlines : fileLines (b.toCsv ft) = b.toGraph.getNodes.map (csvNode ft) ++ b.toGraph.getEdges.map csvEdge := by
    unfold Bbn.toCsv
    rw [fileLines_flatMap _ _ (fun n hn => csvNode_line ft (hc n hn))]
    have := fileLines_flatMap csvEdge b.toGraph.getEdges (fun e _ => csvEdge_line e) []
    rw [List.append_nil] at this
    rw [this]
    simp [fileLines]
  have hread : (fileLines (univNewlines (b.toCsv ft))).foldlM (csvReadLine ft) ([], []) =
      .ok (b.nodes, b.toGraph.getEdges.map (fun e => (nid e.i, nid e.j))) := by
    rw [univNewlines_id hcr, hlines, List.foldlM_append, List.foldlM_map]
    rw [foldlM_ok _ (fun st n => (Dict.set st.1 n.var.id n, st.2)) _ _ (fun n hn st => csvReadLine_node ft (hc n hn) st)]
    have e1 : ∀ (l : List BbnNode) (st : Dict Int BbnNode × List (Int × Int)),
        l.foldl (fun st n => (Dict.set st.1 n.var.id n, st.2)) st = (l.foldl (fun d n => Dict.set d n.var.id n) st.1, st.2) := by
      intro l
      induction l with
      | nil => intro st; rfl
      | cons n l ih => intro st; rw [List.foldl_cons, ih]; rfl
    rw [e1, foldl_set_fresh _ (node_ids_nodup h), nodes_as_list h]
    show List.foldlM _ _ (List.map csvEdge _) = _
    rw [List.foldlM_map,
      foldlM_ok _ (fun st e => (st.1, st.2 ++ [(nid e.i, nid e.j)])) _ _ (fun e _ st => csvReadLine_edge ft e st)]
    have e2 : ∀ (l : List (Edge BbnNode)) (st : Dict Int BbnNode × List (Int × Int)),
        l.foldl (fun st e => (st.1, st.2 ++ [(nid e.i, nid e.j)])) st = (st.1, st.2 ++ l.map (fun e => (nid e.i, nid e.j))) := by
      intro l
      induction l with
      | nil => intro st; simp
      | cons n l ih => intro st; rw [List.foldl_cons, ih]; simp
    rw [e2]
    simp
  unfold Bbn.fromCsv
  rw [hread]
  show List.foldlM _ _ _ = _
  rw [List.foldlM_map, foldlM_ok _ (fun b' (e : Edge BbnNode) => b'.addEdge ⟨b.nodeOf (nid e.i), b.nodeOf (nid e.j), .directed⟩)]
  · congr 1
    unfold Bbn.run Bbn.csvReload
    rw [List.foldl_append, List.foldl_map, List.foldl_map]
    congr 1
    unfold Graph.getNodes Dict.values
    rw [List.foldl_map]
    rfl
  · intro e he b'
    obtain ⟨h1, h2⟩ := edge_ends h he
    simp only [bind, Except.bind]
    rw [Dict.getItem_of_get? (nodeOf_get h1), Dict.getItem_of_get? (nodeOf_get h2)]

theorem csvReload_nodes {b : Bbn} (h : BbnInv b) : (Bbn.run b.csvReload).nodes = b.nodes := by
  unfold Bbn.run Bbn.csvReload
  rw [List.foldl_append]
  have h1 : ((b.toGraph.getNodes.map BOp.addNode).foldl BOp.step Bbn.empty).nodes = b.nodes := by
    have key : ∀ (l : List BbnNode) (b' : Bbn), (Dict.keys b'.nodes ++ l.map (fun n => n.var.id)).Nodup →
        ((l.map BOp.addNode).foldl BOp.step b').nodes = b'.nodes ++ l.map (fun n => (n.var.id, n)) := by
      intro l
      induction l with
      | nil => intro b' _; simp
      | cons n l ih =>
        intro b' hk
        have hnot : n.var.id ∉ Dict.keys b'.nodes := by
          rw [List.map_cons, List.nodup_append] at hk
          exact fun hm => hk.2.2 _ hm _ List.mem_cons_self rfl
        have hstep : (BOp.step b' (.addNode n)).nodes = b'.nodes ++ [(n.var.id, n)] := by
          show Dict.setDefault b'.nodes n.var.id n = _
          rw [Dict.setDefault_of_not_mem hnot]
        rw [List.map_cons, List.foldl_cons, ih _ (by rw [hstep]; simpa [Dict.keys] using hk), hstep]
        simp
    have := key b.toGraph.getNodes Bbn.empty (by simpa [Bbn.empty, Dict.keys] using node_ids_nodup h)
    rw [this, nodes_as_list h]
    simp [Bbn.empty]
  have h2 : ∀ (l : List (Edge BbnNode)) (b' : Bbn), b'.nodes = b.nodes → (∀ e ∈ l, e ∈ b.toGraph.getEdges) →
      ((l.map (fun e => BOp.addEdge (b.nodeOf (nid e.i)) (b.nodeOf (nid e.j)))).foldl BOp.step b').nodes = b.nodes := by
    intro l
    induction l with
    | nil => intro b' e _; exact e
    | cons e l ih =>
      intro b' hb' hl
      rw [List.map_cons, List.foldl_cons]
      apply ih
      · obtain ⟨m1, m2⟩ := edge_ends h (hl e List.mem_cons_self)
        show Dict.setDefault (Dict.setDefault b'.nodes (b.nodeOf (nid e.i)).var.id (b.nodeOf (nid e.i)))
          (b.nodeOf (nid e.j)).var.id (b.nodeOf (nid e.j)) = _
        rw [nodeOf_id h m1, nodeOf_id h m2, hb', Dict.setDefault_of_mem m1, Dict.setDefault_of_mem m2]
      · intro f hf; exact hl f (List.mem_cons_of_mem _ hf)
  exact h2 _ _ h1 (fun e he => he)

theorem csvReload_parents {b : Bbn} (h : BbnInv b) (hg : EdgesGive b) : (Bbn.run b.csvReload).parents = b.parents := by
  unfold Bbn.run Bbn.csvReload
  rw [List.foldl_append]
  have h1 : ∀ (l : List BbnNode) (b' : Bbn), ((l.map BOp.addNode).foldl BOp.step b').parents = b'.parents := by
    intro l
    induction l with
    | nil => intro b'; rfl
    | cons n l ih => intro b'; rw [List.map_cons, List.foldl_cons, ih]; rfl
  have h2 : ∀ (l : List (Edge BbnNode)), (∀ e ∈ l, e ∈ b.toGraph.getEdges) → ∀ (b' : Bbn),
      ((l.map (fun e => BOp.addEdge (b.nodeOf (nid e.i)) (b.nodeOf (nid e.j)))).foldl BOp.step b').parents =
        l.foldl Bbn.edgeAdded b'.parents := by
    intro l
    induction l with
    | nil => intro _ b'; rfl
    | cons e l ih =>
      intro hl b'
      obtain ⟨m1, m2⟩ := edge_ends h (hl e List.mem_cons_self)
      rw [List.map_cons, List.foldl_cons, ih (fun f hf => hl f (List.mem_cons_of_mem _ hf)), List.foldl_cons]
      show List.foldl _ (Bbn.edgeAdded b'.parents ⟨b.nodeOf (nid e.i), b.nodeOf (nid e.j), .directed⟩) l = _
      rw [edgeAdded_congr (f := e) _ (nodeOf_id h m1) (nodeOf_id h m2)]
  rw [h2 _ (fun e he => he), h1]
  exact hg

/-- the edges come back in the same order, between the registered nodes -/
theorem csvReload_edges {b : Bbn} (h : BbnInv b) : (Bbn.run b.csvReload).edges =
    b.edges.map (fun ke => (ke.1, (⟨b.nodeOf (nid ke.2.i), b.nodeOf (nid ke.2.j), .directed⟩ : Edge BbnNode))) := by
  unfold Bbn.run Bbn.csvReload
  rw [List.foldl_append]
  have h1 : ∀ (l : List BbnNode) (b' : Bbn), ((l.map BOp.addNode).foldl BOp.step b').edges = b'.edges := by
    intro l
    induction l with
    | nil => intro b'; rfl
    | cons n l ih => intro b'; rw [List.map_cons, List.foldl_cons, ih]; rfl
  have h2 : ∀ (l : Dict Str (Edge BbnNode)), (∀ k e, (k, e) ∈ l → (k, e) ∈ b.edges) → ∀ (b' : Bbn), (Dict.keys b'.edges ++ Dict.keys l).Nodup →
      (((Dict.values l).map (fun e => BOp.addEdge (b.nodeOf (nid e.i)) (b.nodeOf (nid e.j)))).foldl BOp.step b').edges =
        b'.edges ++ l.map (fun ke => (ke.1, (⟨b.nodeOf (nid ke.2.i), b.nodeOf (nid ke.2.j), .directed⟩ : Edge BbnNode))) := by
    intro l
    induction l with
    | nil => intro _ b' _; simp [Dict.values]
    | cons ke l ih =>
      intro hl b' hn
      obtain ⟨k, e⟩ := ke
      have hke := hl k e List.mem_cons_self
      have he : e ∈ b.toGraph.getEdges := by
        unfold Graph.getEdges Dict.values; exact List.mem_map_of_mem (f := Prod.snd) hke
      obtain ⟨m1, m2⟩ := edge_ends h he
      have hkey : Edge.key (⟨b.nodeOf (nid e.i), b.nodeOf (nid e.j), .directed⟩ : Edge BbnNode) = k := by
        rw [h.einv.key k e hke]
        have e1 : nid (b.nodeOf (nid e.i)) = nid e.i := nodeOf_id h m1
        have e2 : nid (b.nodeOf (nid e.j)) = nid e.j := nodeOf_id h m2
        simp only [Edge.key, h.directed e he, e1, e2]
      have hnot : k ∉ Dict.keys b'.edges := by
        rw [List.nodup_append] at hn
        exact fun hm => hn.2.2 _ hm k (by simp [Dict.keys]) rfl
      have hstep : (BOp.step b' (.addEdge (b.nodeOf (nid e.i)) (b.nodeOf (nid e.j)))).edges =
          b'.edges ++ [(k, ⟨b.nodeOf (nid e.i), b.nodeOf (nid e.j), .directed⟩)] := by
        show Dict.set b'.edges (Edge.key (⟨b.nodeOf (nid e.i), b.nodeOf (nid e.j), .directed⟩ : Edge BbnNode)) _ = _
        rw [hkey, Dict.set_of_not_mem hnot]
      have ih' := ih (fun k e h => hl k e (List.mem_cons_of_mem _ h))
        (BOp.step b' (.addEdge (b.nodeOf (nid e.i)) (b.nodeOf (nid e.j)))) (by rw [hstep]; simpa [Dict.keys] using hn)
      rw [hstep] at ih'
      show (((BOp.addEdge (b.nodeOf (nid e.i)) (b.nodeOf (nid e.j))) :: (Dict.values l).map _).foldl BOp.step b').edges = _
      rw [List.foldl_cons, ih']
      simp
  have := h2 b.edges (fun _ _ h => h) ((b.toGraph.getNodes.map BOp.addNode).foldl BOp.step Bbn.empty) (by
    rw [h1]; simpa [Bbn.empty, Dict.keys] using h.einv.nodup)
  have h3 : b.toGraph.getEdges = Dict.values b.edges := rfl
  rw [h3, this, h1]
  simp [Bbn.empty]

end PyBBN
