import Verif.Proofs.CsvOrder
import Verif.Props.SameDoc
import Verif.Props.DocFiles

/-! # C138: CSV files whose lines come in another order -/

namespace PyBBN
open InferenceController

/-- **C138**. `from_csv` makes nothing up and passes nothing over: whenever it succeeds, every line of the file is about a node or an edge;
if no two nodes of the file have the same id, the network has exactly the nodes of the file, and the parents of each
node are those of the edges of the file, by first occurrence. -/
theorem c138_exact (ft : FloatText) {t : Str} {b : Bbn} (h : Bbn.fromCsv ft t = .ok b) :
    ∃ ls, csvFile ft t = .ok ls ∧ (((CsvLine.nodes ls).map (fun n => n.var.id)).Nodup →
      (∀ n, n ∈ b.toGraph.getNodes ↔ n ∈ CsvLine.nodes ls) ∧
      ∀ c, ddGet b.parents c = firsts (((CsvLine.edges ls).filter (fun e => decide (e.2 = c))).map Prod.fst)) := by
  obtain ⟨ls, h1, h2, rfl⟩ := (fromCsv_iff ft t b).1 h
  refine ⟨ls, h1, fun hn => ⟨?_, ?_⟩⟩
  · intro n
    have hx := List.inj_on_of_nodup_map hn
    rw [mem_getNodes (bbn_run_inv _), get?_run, find?_same (l' := CsvLine.nodes ls) (csv_ops_nodes hn)
      (fun m hm k hk e => hx ((csv_ops_nodes hn m).1 hm) ((csv_ops_nodes hn k).1 hk) e)]
    constructor
    · exact fun h => List.mem_of_find?_eq_some h
    · intro h
      cases hf : (CsvLine.nodes ls).find? (fun m => decide (m.var.id = n.var.id)) with
      | none => exact absurd (List.find?_eq_none.1 hf n h) (by simp)
      | some m => rw [hx (List.mem_of_find?_eq_some hf) h (by simpa using List.find?_some hf)]
  · intro c
    rw [(c07_parents_first_insertion _ c).1, csv_ops_edges hn h2]

theorem SameCalls.sameNodes {ops ops' : List BOp} (hs : SameCalls ops ops') : SameNodes (Bbn.run ops) (Bbn.run ops') := by
  have h := bbn_run_inv ops
  have h' := bbn_run_inv ops'
  have hrel : ∀ p c, emRel (Bbn.run ops').toGraph p c ↔ emRel (Bbn.run ops).toGraph p c := by
    intro p c
    rw [← h'.par, hs.parents, ← h.par]
  have hedge : ∀ (b : Bbn), BbnInv b → ∀ p c, (∃ e ∈ b.toGraph.getEdges, nid e.i = p ∧ nid e.j = c) ↔ emRel b.toGraph p c := by
    intro b h p c
    constructor
    · rintro ⟨e, he, rfl, rfl⟩
      exact h.einv.em e he
    · exact h.listed p c
  refine ⟨(List.perm_ext_iff_of_nodup (getNodes_nodup h') (getNodes_nodup h)).2 hs.mem, hs.get, ?_, h'.directed, ?_, hs.parents⟩
  · intro p c
    rw [hedge _ h', hedge _ h, hrel]
  · intro a x
    rw [h'.ginv.nb, h.ginv.nb]
    exact or_congr (hrel a x) (hrel x a)

/-- the network that is read from the other file, as a sequence of calls -/
theorem fromCsv_same (ft : FloatText) {t t' : Str} {b : Bbn} (h : Bbn.fromCsv ft t = .ok b) {ls ls' : List CsvLine}
    (hl : csvFile ft t = .ok ls) (hl' : csvFile ft t' = .ok ls') (hp : ls'.Perm ls) (hn : ((CsvLine.nodes ls).map (fun n => n.var.id)).Nodup)
    (hc : ∀ c, (CsvLine.edges ls').filter (fun e => decide (e.2 = c)) = (CsvLine.edges ls).filter (fun e => decide (e.2 = c))) :
    ∃ ops ops', b = Bbn.run ops ∧ Bbn.fromCsv ft t' = .ok (Bbn.run ops') ∧ SameCalls ops ops' := by
  obtain ⟨ls0, h1, h2, rfl⟩ := (fromCsv_iff ft t b).1 h
  rw [hl] at h1
  cases h1
  obtain ⟨h3, h4⟩ := csv_sameCalls hp hn h2 hc
  exact ⟨_, _, rfl, (fromCsv_iff ft t' _).2 ⟨ls', hl', h3, rfl⟩, h4⟩

/-- **C138**. Let `from_csv` read a network from a file with one line per node, and let another file have lines that say the same in another
order (also spaced or written differently), except that the edges into one node keep their order. Then `from_csv` reads from it a
network with the same nodes, the same edges and the same ordered parents. -/
theorem c138_lines (ft : FloatText) {t t' : Str} {b : Bbn} (h : Bbn.fromCsv ft t = .ok b) {ls ls' : List CsvLine}
    (hl : csvFile ft t = .ok ls) (hl' : csvFile ft t' = .ok ls') (hp : ls'.Perm ls) (hn : ((CsvLine.nodes ls).map (fun n => n.var.id)).Nodup)
    (hc : ∀ c, (CsvLine.edges ls').filter (fun e => decide (e.2 = c)) = (CsvLine.edges ls).filter (fun e => decide (e.2 = c))) :
    ∃ b', Bbn.fromCsv ft t' = .ok b' ∧ SameNodes b b' := by
  obtain ⟨ops, ops', rfl, h2, h3⟩ := fromCsv_same ft h hl hl' hp hn hc
  exact ⟨_, h2, h3.sameNodes⟩

/-- **C138**. If the first network is `Bbn.run ops` for some usable sequence of calls, inference runs on the other one, and the two give the same
answers to every history of evidence. -/
theorem c138_reports (ft : FloatText) {t t' : Str} {ops : List BOp} (hu : Net.Usable ops) (h : Bbn.fromCsv ft t = .ok (Bbn.run ops))
    {ls ls' : List CsvLine} (hl : csvFile ft t = .ok ls) (hl' : csvFile ft t' = .ok ls') (hp : ls'.Perm ls)
    (hn : ((CsvLine.nodes ls).map (fun n => n.var.id)).Nodup)
    (hc : ∀ c, (CsvLine.edges ls').filter (fun e => decide (e.2 = c)) = (CsvLine.edges ls).filter (fun e => decide (e.2 = c))) :
    ∃ b', Bbn.fromCsv ft t' = .ok b' ∧ ∀ (it it' : SetIter Int) (js js' : SetIter Str) (jt : JoinTree),
      apply it js (Bbn.run ops) = .ok jt → ∃ jt', apply it' js' b' = .ok jt' ∧
      ∀ h h' : List (SetIter Str × EvOp), (∀ op ∈ h, op.2.Proper (Bbn.run ops).vars) → h'.map Prod.snd = h.map Prod.snd →
      ∀ u ∈ (Bbn.run ops).vars, ∀ x ∈ u.values, ∃ p, Reports (runHist jt h) u x p ∧ Reports (runHist jt' h') u x p := by
  obtain ⟨ops0, ops', e0, h1, hs⟩ := fromCsv_same ft h hl hl' hp hn hc
  have h2 : SameNodes (Bbn.run ops) (Bbn.run ops') := by
    rw [e0]
    exact hs.sameNodes
  refine ⟨_, h1, ?_⟩
  intro it it' js js' jt hj
  obtain ⟨jt', hj'⟩ := apply_ok it' js' (h2.usable hu).toSane (by
    obtain ⟨u, hu'⟩ := List.exists_mem_of_ne_nil _ (vars_ne hu.wf hj)
    exact List.ne_nil_of_mem ((h2.vars u).2 hu'))
  refine ⟨jt', hj', ?_⟩
  intro h h' hp he u hu' x hx
  have hi := bbn_run_inv ops
  have := c72_same_network hu (h2.usable hu) h2.sameNet hj hj' h h' hp (hist_ren_self hi hp he) hu' hx
  rwa [ren_self hi hu'] at this

/-! ## The claims are not vacuous -/

/-- a file: 0 → 1, 0 → 2, 2 → 1 -/
def c138_file : Str := docLines ["0,a,t,f,|,0.2,0.8", "1,b,t,f,|,0.1,0.9,0.9,0.1,0.2,0.8,0.8,0.2", "2,c,t,f,|,0.1,0.9,0.9,0.1", "0,1,directed",
  "0,2,directed", "2,1,directed", ""]

/-- the same lines in another order, with blanks and without the last line break -/
def c138_other : Str := docLines ["0,1,directed", "2,c,t,f,|,0.1,0.9,0.9,0.1", " 2 , 1 , directed", "1,b, t, f ,|, 0.1,0.9,0.9,0.1,0.2,0.8,0.8,0.2",
  "0,a,t,f|0.2,0.8,", "0,2,"]

/-- the two edges into node 1 exchanged -/
def c138_exchanged : Str := docLines ["0,a,t,f,|,0.2,0.8", "1,b,t,f,|,0.1,0.9,0.9,0.1,0.2,0.8,0.8,0.2", "2,c,t,f,|,0.1,0.9,0.9,0.1", "2,1,directed",
  "0,2,directed", "0,1,directed", ""]

def c138_b : BbnNode := ⟨⟨1, "b".toList, ["t".toList, "f".toList]⟩, [1/10, 9/10, 9/10, 1/10, 1/5, 4/5, 4/5, 1/5]⟩
def c138_c : BbnNode := ⟨⟨2, "c".toList, ["t".toList, "f".toList]⟩, [1/10, 9/10, 9/10, 1/10]⟩

def c138_ops : List BOp := [.addNode docA, .addNode c138_b, .addNode c138_c, .addEdge docA c138_b, .addEdge docA c138_c, .addEdge c138_c c138_b]

theorem of_val {α : Type} {x : Py α} {a : α} (h : x.val? = some a) : x = .ok a := by
  cases x with
  | error e => cases h
  | ok b => cases h; rfl

theorem c138_says : csvFile docText c138_file = .ok [.node docA, .node c138_b, .node c138_c, .edge 0 1, .edge 0 2, .edge 2 1] :=
  of_val (by decide +kernel)

theorem c138_says_other : csvFile docText c138_other = .ok [.edge 0 1, .node c138_c, .edge 2 1, .node c138_b, .node docA, .edge 0 2] :=
  of_val (by decide +kernel)

theorem c138_reads : Bbn.fromCsv docText c138_file = .ok (Bbn.run c138_ops) :=
  (fromCsv_iff _ _ _).2 ⟨_, c138_says, by decide +kernel, rfl⟩

theorem c138_usable : Net.Usable c138_ops :=
  ⟨⟨wf_of_check (by decide +kernel) (by decide +kernel), by decide +kernel⟩, connected_of_check 0 (by decide +kernel)⟩

theorem c138_order (c : Int) : (CsvLine.edges [.edge 0 1, .node c138_c, .edge 2 1, .node c138_b, .node docA, .edge 0 2]).filter (fun e => decide (e.2 = c)) =
    (CsvLine.edges [.node docA, .node c138_b, .node c138_c, .edge 0 1, .edge 0 2, .edge 2 1]).filter (fun e => decide (e.2 = c)) := by
  by_cases h1 : c = 1
  · subst h1; decide +kernel
  · by_cases h2 : c = 2
    · subst h2; decide +kernel
    · simp [CsvLine.edges, Ne.symm h1, Ne.symm h2]

example := c138_exact docText c138_reads
example := c138_lines docText c138_reads c138_says c138_says_other (by decide +kernel) (by decide +kernel) c138_order
example := c138_reports docText c138_usable c138_reads c138_says c138_says_other (by decide +kernel) (by decide +kernel) c138_order

/-- **C138 needs the order of the edges into one node**: with two of them exchanged, the CPT is read in another order, and node 1 gets another prior -/
theorem c138_exchange_false : ¬ ∀ (ft : FloatText) (t t' : Str) (ls ls' : List CsvLine) (b b' : Bbn), csvFile ft t = .ok ls → csvFile ft t' = .ok ls' →
    ls'.Perm ls → ((CsvLine.nodes ls).map (fun n => n.var.id)).Nodup → Bbn.fromCsv ft t = .ok b → Bbn.fromCsv ft t' = .ok b' →
    (apply .same .same b).val?.bind (fun jt => reportOf jt c138_b.var "t".toList) =
      (apply .same .same b').val?.bind (fun jt => reportOf jt c138_b.var "t".toList) := by
  intro h
  have e : csvFile docText c138_exchanged = .ok [.node docA, .node c138_b, .node c138_c, .edge 2 1, .edge 0 2, .edge 0 1] := of_val (by decide +kernel)
  have := h docText c138_file c138_exchanged _ _ _ _ c138_says e (by decide +kernel) (by decide +kernel) c138_reads
    ((fromCsv_iff _ _ _).2 ⟨_, e, by decide +kernel, rfl⟩)
  exact absurd this (by decide +kernel)

/-- a blank line, or an edge to a node without a line, is an error -/
example : (Bbn.fromCsv docText (docLines ["0,a,t,f,|,0.2,0.8", "", "1,b,t,f,|,0.2,0.8"])).err? = some .indexError ∧
    (Bbn.fromCsv docText (docLines ["0,a,t,f,|,0.2,0.8", "0,1,directed"])).err? = some .keyError := by
  decide +kernel

/-- `int` on strings -/
example : [" 2 ", "-7\n", "+3", "1_000", "007"].map (fun s => (parseInt s.toList).val?) = [some 2, some (-7), some 3, some 1000, some 7] ∧
    ["", " ", "-", "- 1", "1 2", "_1", "1_", "1__0", "0x1", "1.0", "\x1c5"].map (fun s => (parseInt s.toList).val?) = List.replicate 11 none := by
  decide +kernel

end PyBBN
