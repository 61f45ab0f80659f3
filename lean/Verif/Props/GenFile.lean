import Verif.Model.GenFile
import Verif.Props.Generator
import Verif.Props.Csv
import Verif.Props.Json

/-! # C81: generated networks in files -/

namespace PyBBN
open Relation InferenceController
open DSep (Adj IsPath)

/-- names and values written by `convert_for_exact_inference` are plain text -/
theorem plainText_strInt {p : Str} (hp : ∀ c ∈ p, c ∈ "state".toList) (i : Int) : PlainText (p ++ strInt i) := by
  have hc : ∀ c ∈ p ++ strInt i, c ≠ ',' ∧ c ≠ '|' ∧ c ≠ '\n' ∧ c ≠ '\r' ∧ isSpace c = false := by
    intro c h
    rcases List.mem_append.1 h with h | h
    · have := hp c h
      have key : ∀ c ∈ "state".toList, c ≠ ',' ∧ c ≠ '|' ∧ c ≠ '\n' ∧ c ≠ '\r' ∧ isSpace c = false := by decide
      exact key c this
    · have h1 := fracText.plain (i : ℚ) c (by
        change c ∈ strInt (i : ℚ).num ++ '/' :: strInt (i : ℚ).den
        rw [Rat.num_intCast]
        exact List.mem_append_left _ h)
      refine ⟨h1.1, h1.2.1, ?_, ?_, h1.2.2⟩
      · rintro rfl; exact absurd h1.2.2 (by decide)
      · rintro rfl; exact absurd h1.2.2 (by decide)
  refine ⟨by simp [strInt_ne_nil], fun c h => ⟨(hc c h).1, (hc c h).2.1, (hc c h).2.2.1, (hc c h).2.2.2.1⟩, ?_, ?_⟩
  · intro c h
    exact (hc c (List.mem_of_mem_head? h)).2.2.2.2
  · intro c h
    exact (hc c (List.mem_of_mem_getLast? h)).2.2.2.2

/-- two networks with the same nodes and parents -/
structure SameTables (b b' : Bbn) : Prop where
  nodes : b'.nodes = b.nodes
  parents : b'.parents = b.parents

namespace SameTables
variable {b b' : Bbn}

theorem getNodes (h : SameTables b b') : b'.toGraph.getNodes = b.toGraph.getNodes := by
  unfold Graph.getNodes; rw [h.nodes]

theorem vars (h : SameTables b b') : b'.vars = b.vars := by unfold Bbn.vars; rw [h.getNodes]

theorem parentVars (h : SameTables b b') : b'.parentVars = b.parentVars := by
  funext i; unfold Bbn.parentVars; rw [h.parents, h.nodes]

theorem weight (h : SameTables b b') : b'.weight = b.weight := by
  funext ℓ σ; unfold Bbn.weight; rw [h.getNodes, h.parentVars]

theorem total (h : SameTables b b') : b'.total = b.total := by
  funext ℓ; unfold Bbn.total; rw [h.vars, h.weight]

theorem posteriorTable (h : SameTables b b') (ℓ : Liks) (v : Variable) : PyBBN.posteriorTable b' ℓ v = PyBBN.posteriorTable b ℓ v := by
  unfold PyBBN.posteriorTable Bbn.posterior Bbn.mass
  rw [h.total, h.vars, h.weight]

theorem good {ops ops' : List BOp} (h : SameTables (Bbn.run ops) (Bbn.run ops')) (hg : Gen.Good ops) : Gen.Good ops' := by
  have he : (fun p c => (p, c) ∈ BOp.edges ops') = (fun p c => (p, c) ∈ BOp.edges ops) := by
    funext p c
    rw [← parents_requested, ← parents_requested, h.parents]
  refine ⟨⟨⟨⟨?_, ?_, ?_, ?_⟩, ?_⟩, ?_⟩, ?_, ?_, ?_⟩
  · rw [h.parents]; exact hg.usable.wf.noLoop
  · rw [h.getNodes]; exact hg.usable.wf.values
  · rw [h.getNodes, h.parentVars]; exact hg.usable.wf.cpt
  · rw [h.getNodes]; exact hg.usable.wf.nonneg
  · rw [h.vars]; exact hg.usable.vals
  · unfold ConnectedOps
    rw [h.vars, he]
    exact hg.usable.conn
  · unfold AcyclicOps
    rw [he]
    exact hg.acyclic
  · unfold Bbn.Normalized
    rw [h.getNodes, h.vars, h.parentVars]
    exact hg.normalized
  · rw [h.vars]; exact hg.names

theorem ready {ops ops' : List BOp} (h : SameTables (Bbn.run ops) (Bbn.run ops')) (hg : Gen.Good ops) {n : Int} {E : Int → Int → Prop}
    (hr : (Bbn.run ops).Ready n E) : (Bbn.run ops').Ready n E := by
  refine ⟨?_, ?_, ?_, ?_, ?_, ?_⟩
  · rw [h.vars]; exact hr.ids
  · rw [h.parents]; exact hr.parents
  · unfold Bbn.Fit; rw [h.getNodes, h.parentVars]; exact hr.fit
  · rw [h.getNodes]; exact hr.pos
  · rw [h.total]; exact hr.total
  · intro it js
    have hg' := h.good hg
    obtain ⟨jt, hj, _⟩ := hr.apply it js
    exact (c16_exact_priors it js _ hg'.usable.wf hg'.usable.conn).1 (by rw [h.vars]; exact vars_ne hg.usable.wf hj)

end SameTables

/-- the file is written in the format its name asks for -/
def Gen.File.Format (path : Str) : Gen.File → Prop
  | .csv _ => path.drop (path.length - 3) = "csv".toList
  | .json _ => path.drop (path.length - 3) ≠ "csv".toList

theorem drop_csv (path : Str) : "csv".toList.isSuffixOf path = true ↔ path.drop (path.length - 3) = "csv".toList := by
  rw [List.isSuffixOf_iff_suffix, List.suffix_iff_eq_drop]
  exact eq_comm

theorem file_of {n : Int} (hn : 0 < n) {g : DiG Int} (hg : Gen.Inv n g) (hac : g.Acyclic) {ps : Dict Int Gen.Params} {card : Int → Nat}
    (hf : Gen.Fits g ps card) (ft : FloatText) (jf : JsonFloat) (path : Str) :
    ∃ b b', Gen.convert g ps = .ok b ∧ (Gen.write ft jf path b).Format path ∧ (Gen.write ft jf path b).read ft jf = .ok b' ∧
      SameTables b b' ∧ b'.Ready n g.E := by
  have hnd : g.nodes.Nodup := by rw [hg.nodes]; exact Gen.nodup_range n
  have hgood := Gen.convert_good hg hac hf
  obtain ⟨b, hb, hr⟩ := ready_of hn hg hac hf
  have hb' := Gen.convert_ok hnd hg.wf hf
  rw [hb] at hb'
  have hb'' := Except.ok.inj hb'
  subst hb''
  have hi := bbn_run_inv (Gen.convertOps g ps)
  by_cases hs : "csv".toList.isSuffixOf path
  · have hw : ∀ b, Gen.write ft jf path b = .csv (b.toCsv ft) := fun b => if_pos hs
    simp only [hw]
    have hst : SameTables (Bbn.run (Gen.convertOps g ps)) (Bbn.run (Bbn.run (Gen.convertOps g ps)).csvReload) :=
      ⟨csvReload_nodes hi, csvReload_parents hi (edgesGive_run _)⟩
    refine ⟨_, _, hb, (drop_csv path).1 hs, fromCsv_toCsv ft hi ?_, hst, hst.ready hgood hr⟩
    have htext : ∀ s, PlainText s → CsvText s := fun s hs =>
      ⟨hs.ne, fun m => (hs.chars _ m).1 rfl, fun m => (hs.chars _ m).2.1 rfl, fun m => (hs.chars _ m).2.2.1 rfl,
        fun m => (hs.chars _ m).2.2.2 rfl, hs.first, hs.last⟩
    intro m hm
    rw [Gen.convert_getNodes hnd hg.wf] at hm
    obtain ⟨i, hi, rfl⟩ := List.mem_map.1 hm
    obtain ⟨q, _, e⟩ := Gen.nodeOf_eq hf hi
    rw [e]
    refine ⟨htext _ (plainText_strInt (p := []) (by simp) i), ?_⟩
    intro x hx
    obtain ⟨k, _, rfl⟩ := List.mem_map.1 hx
    exact htext _ (plainText_strInt (fun c h => h) k)
  · have hw : ∀ b : Bbn, Gen.write ft jf path b = .json (b.toJson jf) := fun b => if_neg hs
    simp only [hw]
    have hst : SameTables (Bbn.run (Gen.convertOps g ps)) (Bbn.run (Bbn.run (Gen.convertOps g ps)).reload) :=
      ⟨reload_nodes hi (parInv_run _), reload_parents hi (parInv_run _)⟩
    exact ⟨_, _, hb, fun h => hs ((drop_csv path).2 h), (fromJson_toJson jf _).trans (fromDict_toDict hi (parInv_run _) true), hst, hst.ready hgood hr⟩

/-- what a file written by `generate_bbn_to_file` has to do with the structure drawn -/
structure Gen.GoodFile (ft : FloatText) (jf : JsonFloat) (n : Int) (path : Str) (singly : Prop) (f : Gen.File) : Prop where
  format : f.Format path
  net : ∃ (E : Int → Int → Prop) (b : Bbn), f.read ft jf = .ok b ∧ b.Ready n E ∧ (∀ x, ¬ TransGen E x x) ∧
    (∀ x y, 0 ≤ x → x < n → 0 ≤ y → y < n → ReflTransGen (Adj E) x y) ∧
    (singly → ∀ x y, 0 ≤ x → x < n → 0 ≤ y → y < n → ∃! p, IsPath E x y p)

theorem always_draw (D : Dirichlet) {n maxValues maxAlpha : Int} (hn : 0 < n) (hv : 0 < maxValues) (ha : 0 < maxAlpha) (maxIter : Int) (bbnType : Str) :
    (Gen.drawNet D n bbnType maxIter maxValues maxAlpha).Always (fun r => ∃ card, Gen.Inv n r.1 ∧ r.1.Acyclic ∧ Gen.Fits r.1 r.2 card ∧
      (bbnType = "singly".toList → ∀ x ∈ r.1.nodes, ∀ y ∈ r.1.nodes, ∃! p, IsPath r.1.E x y p)) := by
  unfold Gen.drawNet
  by_cases hs : bbnType = "singly".toList
  · rw [if_pos hs]
    unfold Gen.generateSingly
    refine (Gen.always_singly hn maxIter).bind ?_
    intro g hg
    refine (Gen.always_parameters D hg.toInv hv ha).bind ?_
    rintro ps ⟨card, hf, _⟩
    have hnd : g.nodes.Nodup := by rw [hg.nodes]; exact Gen.nodup_range n
    have hu : ∀ x ∈ g.nodes, ∀ y ∈ g.nodes, ∃! p, IsPath g.E x y p := fun x hx y hy =>
      DiG.existsUnique_path hg.wf hg.anti hnd hg.conn hg.len hx hy
    exact Rnd.always_pure ⟨card, hg.toInv, DiG.acyclic_of_path hg.wf hg.anti hu, hf, fun _ => hu⟩
  · rw [if_neg hs]
    unfold Gen.generateMulti
    refine (Gen.always_multi hn maxIter).bind ?_
    rintro g ⟨hg, hac⟩
    refine (Gen.always_parameters D hg hv ha).bind ?_
    rintro ps ⟨card, hf, _⟩
    exact Rnd.always_pure ⟨card, hg, hac, hf, fun h => absurd h hs⟩

/-- **C81**. `generate_bbn_to_file` (for `n`, `max_values`, `max_alpha` at least 1) never raises; it writes CSV if the path ends with `csv`, JSON
otherwise; the file read back with `from_csv` or `from_json` gives a connected acyclic network with ids `0 … n-1`, at least two values per
node, CPTs of the right size with positive entries and joint weights that sum to one, on which exact inference succeeds with exact priors;
with `bbn_type="singly"` there is exactly one path between any two nodes. -/
theorem c81_file (ft : FloatText) (jf : JsonFloat) (D : Dirichlet) {n maxValues maxAlpha : Int} (hn : 0 < n) (hv : 0 < maxValues) (ha : 0 < maxAlpha) (maxIter : Int)
    (path bbnType : Str) :
    (Gen.toFile ft jf D n path bbnType maxIter maxValues maxAlpha).Always (Gen.GoodFile ft jf n path (bbnType = "singly".toList)) := by
  unfold Gen.toFile
  refine (always_draw D hn hv ha maxIter bbnType).bind ?_
  rintro ⟨g, ps⟩ ⟨card, hg, hac, hf, hs⟩
  obtain ⟨b, b', h1, h2, h3, _, h4⟩ := file_of hn hg hac hf ft jf path
  have hm : ∀ x, 0 ≤ x → x < n → x ∈ g.nodes := fun x h h' => by
    have e : g.nodes = Gen.range n := hg.nodes
    rw [e]; exact Gen.mem_range.2 ⟨h, h'⟩
  refine Rnd.Always.bind (P := fun c => c = b) (Rnd.always_lift h1 rfl) ?_
  rintro c rfl
  exact Rnd.always_pure ⟨h2, g.E, b', h3, h4, hac, fun x y hx hx' hy hy' => hg.conn x (hm x hx hx') y (hm y hy hy'),
    fun h x y hx hx' hy hy' => hs h x (hm x hx hx') y (hm y hy hy')⟩

/-- **C81**: the file holds the network drawn. With the draws with which `generate_singly_bbn` (or `generate_multi_bbn`) returns `(g, p)`,
`generate_bbn_to_file` writes a file that, read back, gives a network with the nodes (ids, names, values, CPTs, in order) and the ordered
parents of `convert_for_exact_inference(g, p)`. -/
theorem c81_same_network (ft : FloatText) (jf : JsonFloat) (D : Dirichlet) {n maxValues maxAlpha : Int} (hn : 0 < n) (hv : 0 < maxValues) (ha : 0 < maxAlpha)
    (maxIter : Int) (path bbnType : Str) (ds rest : List Nat) (g : DiG Int) (p : Dict Int Gen.Params)
    (hd : (if bbnType = "singly".toList then Gen.generateSingly D n maxIter maxValues maxAlpha else Gen.generateMulti D n maxIter maxValues maxAlpha) ds =
      .done (g, p) rest) :
    ∃ f b b', Gen.toFile ft jf D n path bbnType maxIter maxValues maxAlpha ds = .done f rest ∧ Gen.convert g p = .ok b ∧ f.read ft jf = .ok b' ∧
      b'.toGraph.getNodes = b.toGraph.getNodes ∧ ∀ c, ddGet b'.parents c = ddGet b.parents c := by
  obtain ⟨card, hg, hac, hf, _⟩ := ((always_draw D hn hv ha maxIter bbnType) ds).2 _ _ hd
  obtain ⟨b, b', h1, _, h3, h4, _⟩ := file_of hn hg hac hf ft jf path
  refine ⟨Gen.write ft jf path b, b, b', ?_, h1, h3, h4.getNodes, fun c => by rw [h4.parents]⟩
  unfold Gen.toFile
  change Gen.drawNet D n bbnType maxIter maxValues maxAlpha ds = _ at hd
  change Rnd.bind (Gen.drawNet D n bbnType maxIter maxValues maxAlpha) (fun r => Rnd.bind (Rnd.lift (Gen.convert r.1 r.2))
    (fun b => Rnd.pure (Gen.write ft jf path b))) ds = _
  unfold Rnd.bind
  rw [hd]
  simp only [h1, Rnd.lift, Rnd.pure]

/-- not vacuous: a singly-connected network of three nodes as CSV, and a multi-connected one as JSON, read back; the parents of the nodes -/
def c81_parents (f : Gen.File) : Option (List (List Int)) :=
  (f.read fracText pointFloat).val?.map (fun b => [0, 1, 2].map (ddGet b.parents))

example : ((Gen.toFile fracText pointFloat uniformDirichlet 3 "net.csv".toList "singly".toList 1 3 2 ([0, 2, 0, 2, 2] ++ List.replicate 40 0)).result.map c81_parents) =
      some (some [[2], [0], []]) ∧
    ((Gen.toFile fracText pointFloat uniformDirichlet 3 "net.json".toList "multi".toList 1 3 2 ([0, 2, 0, 2, 2] ++ List.replicate 40 0)).result.map c81_parents) =
      some (some [[], [0], [0, 1]]) := by
  decide +kernel

end PyBBN
