import Verif.Spec.CsvOrder
import Verif.Proofs.Csv
import Verif.Proofs.Coherence
import Verif.Proofs.SameTree
import Verif.Proofs.LibDoc

/-! # The lines of CSV files in another order -/

namespace PyBBN

/-- the loop body on what the line says -/
def CsvLine.step (st : Dict Int BbnNode × List (Int × Int)) : CsvLine → Dict Int BbnNode × List (Int × Int)
  | .node n => (Dict.set st.1 n.var.id n, st.2)
  | .edge p c => (st.1, st.2 ++ [(p, c)])

theorem csvReadLine_says (ft : FloatText) (st : Dict Int BbnNode × List (Int × Int)) (line : Str) :
    csvReadLine ft st line = (do let l ← csvSays ft line; .ok (l.step st)) := by
  unfold csvReadLine csvSays
  have hn : ∀ n : Py BbnNode, (do let n ← n; (.ok (Dict.set st.1 n.var.id n, st.2) : Py (Dict Int BbnNode × List (Int × Int)))) =
      (do let l ← (do let n ← n; (.ok (.node n) : Py CsvLine)); .ok (l.step st)) := by
    intro n
    cases n <;> rfl
  generalize splitOn ',' line = toks
  rcases toks with _ | ⟨a, _ | ⟨b, _ | ⟨c, _ | ⟨d, r⟩⟩⟩⟩
  · exact hn _
  · exact hn _
  · exact hn _
  · show (do let a ← parseInt a; let b ← parseInt b; (.ok (st.1, st.2 ++ [(a, b)]) : Py (Dict Int BbnNode × List (Int × Int)))) =
      (do let l ← (do let a ← parseInt a; let b ← parseInt b; (.ok (.edge a b) : Py CsvLine)); .ok (l.step st))
    cases parseInt a with
    | error e => rfl
    | ok a =>
        cases parseInt b with
        | error e => rfl
        | ok b => rfl
  · exact hn _

theorem foldlM_says {σ α β : Type} (g : α → Py β) (step : σ → β → σ) (f : σ → α → Py σ) (hf : ∀ s x, f s x = (do let i ← g x; .ok (step s i)))
    (l : List α) (s : σ) : l.foldlM f s = (do let is ← l.mapM g; .ok (is.foldl step s)) := by
  induction l generalizing s with
  | nil => rfl
  | cons x l ih =>
      rw [List.foldlM_cons, List.mapM_cons, hf]
      cases g x with
      | error e => rfl
      | ok i =>
          show l.foldlM f (step s i) = _
          rw [ih]
          cases l.mapM g with
          | error e => rfl
          | ok is => rfl

theorem foldl_csvStep (ls : List CsvLine) (st : Dict Int BbnNode × List (Int × Int)) :
    ls.foldl CsvLine.step st = (((CsvLine.nodes ls).map (fun n => (n.var.id, n))).foldl (fun d kv => Dict.set d kv.1 kv.2) st.1,
      st.2 ++ CsvLine.edges ls) := by
  induction ls generalizing st with
  | nil => simp [CsvLine.nodes, CsvLine.edges]
  | cons l ls ih =>
      rw [List.foldl_cons, ih]
      cases l with
      | node n => simp [CsvLine.step, CsvLine.nodes, CsvLine.edges]
      | edge p c => simp [CsvLine.step, CsvLine.nodes, CsvLine.edges]

/-- the calls for the edges -/
def edgeOps (D : Dict Int BbnNode) (es : List (Int × Int)) : List BOp :=
  es.filterMap (fun e => (Dict.get? D e.1).bind (fun p => (Dict.get? D e.2).map (fun c => .addEdge p c)))

theorem foldlM_edges (D : Dict Int BbnNode) (es : List (Int × Int)) (b b' : Bbn) :
    es.foldlM (fun b e => do
      let pa ← Dict.getItem D e.1
      let ch ← Dict.getItem D e.2
      (.ok (b.addEdge ⟨pa, ch, .directed⟩) : Py Bbn)) b = .ok b' ↔
    (∀ e ∈ es, Dict.get? D e.1 ≠ none ∧ Dict.get? D e.2 ≠ none) ∧ b' = (edgeOps D es).foldl BOp.step b := by
  induction es generalizing b with
  | nil =>
      show Except.ok b = Except.ok b' ↔ _
      simp [edgeOps, eq_comm]
  | cons e es ih =>
      rw [List.foldlM_cons]
      unfold Dict.getItem
      cases h1 : Dict.get? D e.1 with
      | none =>
          simp only [bind, Except.bind]
          constructor
          · intro h; cases h
          · intro h; exact absurd h1 (h.1 e List.mem_cons_self).1
      | some p =>
          cases h2 : Dict.get? D e.2 with
          | none =>
              simp only [bind, Except.bind]
              constructor
              · intro h; cases h
              · intro h; exact absurd h2 (h.1 e List.mem_cons_self).2
          | some c =>
              have := ih (b.addEdge ⟨p, c, .directed⟩)
              unfold Dict.getItem at this
              refine Iff.trans this ?_
              have e1 : edgeOps D (e :: es) = .addEdge p c :: edgeOps D es := by
                unfold edgeOps
                rw [List.filterMap_cons, h1]
                simp [h2]
              rw [e1, List.foldl_cons]
              show _ ↔ _ ∧ b' = (edgeOps D es).foldl BOp.step (b.addEdge ⟨p, c, .directed⟩)
              refine and_congr ?_ Iff.rfl
              constructor
              · intro h x hx
                rcases List.mem_cons.1 hx with rfl | hx
                · exact ⟨by rw [h1]; simp, by rw [h2]; simp⟩
                · exact h x hx
              · exact fun h x hx => h x (List.mem_cons_of_mem _ hx)

/-- the nodes of a file by id -/
def CsvLine.dict (ls : List CsvLine) : Dict Int BbnNode := Dict.ofList ((CsvLine.nodes ls).map (fun n => (n.var.id, n)))

/-- the calls `from_csv` makes -/
def CsvLine.ops (ls : List CsvLine) : List BOp := (Dict.values (CsvLine.dict ls)).map .addNode ++ edgeOps (CsvLine.dict ls) (CsvLine.edges ls)

theorem fromCsv_iff (ft : FloatText) (text : Str) (b : Bbn) : Bbn.fromCsv ft text = .ok b ↔
    ∃ ls, csvFile ft text = .ok ls ∧ (∀ e ∈ CsvLine.edges ls, Dict.get? (CsvLine.dict ls) e.1 ≠ none ∧ Dict.get? (CsvLine.dict ls) e.2 ≠ none) ∧
      b = Bbn.run (CsvLine.ops ls) := by
  unfold Bbn.fromCsv
  rw [foldlM_says (csvSays ft) CsvLine.step _ (csvReadLine_says ft)]
  unfold csvFile
  cases (fileLines (univNewlines text)).mapM (csvSays ft) with
  | error e =>
      constructor
      · intro h; cases h
      · rintro ⟨ls, h, _⟩; cases h
  | ok ls =>
      rw [py_bind_ok, py_bind_ok, foldl_csvStep, List.nil_append]
      refine Iff.trans (foldlM_edges _ _ _ _) ?_
      have e : ((CsvLine.nodes ls).map (fun n => (n.var.id, n))).foldl (fun d kv => Dict.set d kv.1 kv.2) [] = CsvLine.dict ls := rfl
      simp only [e]
      have e2 : (edgeOps (CsvLine.dict ls) (CsvLine.edges ls)).foldl BOp.step ((CsvLine.dict ls).foldl (fun b kn => Bbn.addNode b kn.2) Bbn.empty) =
          Bbn.run (CsvLine.ops ls) := by
        unfold Bbn.run CsvLine.ops
        rw [List.foldl_append]
        congr 1
        unfold Dict.values
        rw [List.map_map, List.foldl_map]
        rfl
      rw [e2]
      constructor
      · exact fun h => ⟨ls, rfl, h⟩
      · rintro ⟨ls', h, h'⟩
        cases h
        exact h'

theorem csv_dict_nodup {ls : List CsvLine} (h : ((CsvLine.nodes ls).map (fun n => n.var.id)).Nodup) :
    CsvLine.dict ls = (CsvLine.nodes ls).map (fun n => (n.var.id, n)) := by
  unfold CsvLine.dict
  apply Dict.ofList_nodup
  rw [List.map_map]
  exact h

theorem csv_dict_get {ls : List CsvLine} (h : ((CsvLine.nodes ls).map (fun n => n.var.id)).Nodup) (i : Int) (n : BbnNode) :
    Dict.get? (CsvLine.dict ls) i = some n ↔ n ∈ CsvLine.nodes ls ∧ n.var.id = i := by
  rw [csv_dict_nodup h]
  have hk : (Dict.keys ((CsvLine.nodes ls).map (fun n => (n.var.id, n)))).Nodup := by
    unfold Dict.keys
    rw [List.map_map]
    exact h
  constructor
  · intro hg
    obtain ⟨m, hm, e⟩ := List.mem_map.1 (Dict.mem_of_get? hg)
    cases e
    exact ⟨hm, rfl⟩
  · rintro ⟨hn, rfl⟩
    exact Dict.get?_of_mem hk (List.mem_map.2 ⟨n, hn, rfl⟩)

theorem csv_ops_nodes {ls : List CsvLine} (h : ((CsvLine.nodes ls).map (fun n => n.var.id)).Nodup) (n : BbnNode) :
    n ∈ BOp.nodes (CsvLine.ops ls) ↔ n ∈ CsvLine.nodes ls := by
  unfold BOp.nodes CsvLine.ops
  rw [List.flatMap_append, List.mem_append, List.mem_flatMap, List.mem_flatMap]
  constructor
  · rintro (⟨o, ho, hn⟩ | ⟨o, ho, hn⟩)
    · obtain ⟨m, hm, rfl⟩ := List.mem_map.1 ho
      simp only [List.mem_singleton] at hn
      subst hn
      unfold Dict.values at hm
      rw [csv_dict_nodup h, List.map_map] at hm
      obtain ⟨m', hm', rfl⟩ := List.mem_map.1 hm
      exact hm'
    · unfold edgeOps at ho
      obtain ⟨e, _, he⟩ := List.mem_filterMap.1 ho
      obtain ⟨p, hp, he⟩ := Option.bind_eq_some_iff.1 he
      obtain ⟨c, hc, rfl⟩ := Option.map_eq_some_iff.1 he
      simp only [List.mem_cons, List.not_mem_nil, or_false] at hn
      rcases hn with rfl | rfl
      · exact ((csv_dict_get h _ _).1 hp).1
      · exact ((csv_dict_get h _ _).1 hc).1
  · intro hn
    refine Or.inl ⟨.addNode n, List.mem_map.2 ⟨n, ?_, rfl⟩, by simp⟩
    unfold Dict.values
    rw [csv_dict_nodup h, List.map_map]
    exact List.mem_map.2 ⟨n, hn, rfl⟩

theorem csv_ops_edges {ls : List CsvLine} (h : ((CsvLine.nodes ls).map (fun n => n.var.id)).Nodup)
    (he : ∀ e ∈ CsvLine.edges ls, Dict.get? (CsvLine.dict ls) e.1 ≠ none ∧ Dict.get? (CsvLine.dict ls) e.2 ≠ none) :
    BOp.edges (CsvLine.ops ls) = CsvLine.edges ls := by
  have key : ∀ es : List (Int × Int), (∀ e ∈ es, Dict.get? (CsvLine.dict ls) e.1 ≠ none ∧ Dict.get? (CsvLine.dict ls) e.2 ≠ none) →
      BOp.edges (edgeOps (CsvLine.dict ls) es) = es := by
    intro es
    induction es with
    | nil => intro _; rfl
    | cons e es ih =>
        intro hh
        obtain ⟨h1, h2⟩ := hh e List.mem_cons_self
        obtain ⟨p, hp⟩ := Option.ne_none_iff_exists'.1 h1
        obtain ⟨c, hc⟩ := Option.ne_none_iff_exists'.1 h2
        have e1 : edgeOps (CsvLine.dict ls) (e :: es) = .addEdge p c :: edgeOps (CsvLine.dict ls) es := by
          unfold edgeOps
          rw [List.filterMap_cons, hp]
          simp [hc]
        rw [e1]
        show (p.var.id, c.var.id) :: BOp.edges (edgeOps (CsvLine.dict ls) es) = _
        rw [ih (fun x hx => hh x (List.mem_cons_of_mem _ hx)), ((csv_dict_get h _ _).1 hp).2, ((csv_dict_get h _ _).1 hc).2]
  unfold CsvLine.ops
  have e0 : ∀ (l : List BbnNode) (o : List BOp), BOp.edges (l.map .addNode ++ o) = BOp.edges o := by
    intro l o
    induction l with
    | nil => rfl
    | cons n l ih => exact ih
  rw [e0]
  exact key _ he

theorem csv_sameCalls {ls ls' : List CsvLine} (hp : ls'.Perm ls) (h : ((CsvLine.nodes ls).map (fun n => n.var.id)).Nodup)
    (he : ∀ e ∈ CsvLine.edges ls, Dict.get? (CsvLine.dict ls) e.1 ≠ none ∧ Dict.get? (CsvLine.dict ls) e.2 ≠ none)
    (hc : ∀ c, (CsvLine.edges ls').filter (fun e => decide (e.2 = c)) = (CsvLine.edges ls).filter (fun e => decide (e.2 = c))) :
    (∀ e ∈ CsvLine.edges ls', Dict.get? (CsvLine.dict ls') e.1 ≠ none ∧ Dict.get? (CsvLine.dict ls') e.2 ≠ none) ∧
    SameCalls (CsvLine.ops ls) (CsvLine.ops ls') := by
  have hn : (CsvLine.nodes ls').Perm (CsvLine.nodes ls) := hp.filterMap _
  have hE : (CsvLine.edges ls').Perm (CsvLine.edges ls) := hp.filterMap _
  have h' : ((CsvLine.nodes ls').map (fun n => n.var.id)).Nodup := (hn.map _).nodup_iff.2 h
  have hg : ∀ i, Dict.get? (CsvLine.dict ls') i = Dict.get? (CsvLine.dict ls) i := by
    intro i
    apply Option.ext
    intro n
    rw [csv_dict_get h, csv_dict_get h', hn.mem_iff]
  have he' : ∀ e ∈ CsvLine.edges ls', Dict.get? (CsvLine.dict ls') e.1 ≠ none ∧ Dict.get? (CsvLine.dict ls') e.2 ≠ none := by
    intro e hx
    rw [hg, hg]
    exact he e (hE.mem_iff.1 hx)
  refine ⟨he', ?_, ?_, ?_⟩
  · intro n
    rw [csv_ops_nodes h, csv_ops_nodes h', hn.mem_iff]
  · intro m hm n hn' e
    rw [csv_ops_nodes h] at hm hn'
    exact List.inj_on_of_nodup_map h hm hn' e
  · intro c
    rw [csv_ops_edges h he, csv_ops_edges h' he', hc]

end PyBBN
