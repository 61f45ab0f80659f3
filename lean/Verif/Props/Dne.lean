import Verif.Proofs.Dne
import Verif.Proofs.Markov
import Verif.Props.Csv
import Verif.Props.Evidence
import Verif.Props.Remove

/-! # Export for Netica: C68 -/

namespace PyBBN
open Dne

/-- a text that neither ends a list, an item nor a statement -/
structure DneText (s : Str) : Prop where
  comma : ',' ∉ s
  paren : ')' ∉ s
  semi : ';' ∉ s

/-- names and values that can be written: no separator, names without blanks and not empty, no node whose only value is empty -/
structure Bbn.DnePlain (b : Bbn) : Prop where
  name : ∀ n ∈ b.toGraph.getNodes, DneText n.var.name ∧ ' ' ∉ n.var.name ∧ n.var.name ≠ []
  values : ∀ n ∈ b.toGraph.getNodes, (∀ x ∈ n.var.values, DneText x) ∧ n.var.values ≠ [[]]

/-- numbers as text contain no parenthesis and no semicolon -/
def FloatText.DnePlain (ft : FloatText) : Prop := ∀ p, ')' ∉ ft.fmt p ∧ ';' ∉ ft.fmt p

/-- a node as it should appear in the file: its parents in the order in which its CPT is indexed -/
def Bbn.dneNode (b : Bbn) (ft : FloatText) (n : BbnNode) : DneNode :=
  ⟨n.var.name, n.var.values, (b.parentVars n.var.id).map Variable.name, n.probs.map ft.fmt⟩

/-- the edges of the dictionary that end in a node -/
theorem toDict_edges_into {b : Bbn} (hp : ParInv b.parents) (c : Int) :
    b.toDict.edges.filter (fun e => decide (PyKey.int e.ch = .int c)) = (ddGet b.parents c).map (fun p => ⟨p, c⟩) := by
  have key : ∀ P : Dict Int (List Int), (Dict.keys P).Nodup →
      (P.flatMap (fun kv => kv.2.map (fun pa => (⟨pa, kv.1⟩ : EdgeDict)))).filter (fun e => decide (PyKey.int e.ch = .int c)) =
        (ddGet P c).map (fun p => ⟨p, c⟩) := by
    intro P
    induction P with
    | nil => intro _; rfl
    | cons kv P ih =>
      intro hn
      obtain ⟨k, l⟩ := kv
      simp only [Dict.keys, List.map_cons, List.nodup_cons] at hn
      rw [List.flatMap_cons, List.filter_append, ih hn.2]
      by_cases hk : k = c
      · subst hk
        have h1 : ddGet P k = [] := by
          unfold ddGet
          rw [(Dict.get?_eq_none_iff P k).2 hn.1]
          rfl
        rw [h1, List.map_nil, List.append_nil]
        have h2 : ddGet ((k, l) :: P) k = l := by simp [ddGet, Dict.get?]
        rw [h2, List.filter_eq_self]
        intro e he
        obtain ⟨p, _, rfl⟩ := List.mem_map.1 he
        simp
      · have h1 : (l.map (fun pa => (⟨pa, k⟩ : EdgeDict))).filter (fun e => decide (PyKey.int e.ch = .int c)) = [] := by
          rw [List.filter_eq_nil_iff]
          intro e he
          obtain ⟨p, _, rfl⟩ := List.mem_map.1 he
          simpa using hk
        have h2 : ddGet ((k, l) :: P) c = ddGet P c := by simp [ddGet, Dict.get?, hk]
        rw [h1, h2, List.nil_append]
  exact key b.parents hp.keys

/-- `to_dne` of a network -/
theorem toDne_eq {b : Bbn} (h : BbnInv b) (hp : ParInv b.parents) (ft : FloatText) (name : Str) :
    b.toDne ft name = .ok (netText name (joinStr "\n".toList ((b.toGraph.getNodes.map (b.dneNode ft)).map textOf))) := by
  have hnodes := Bbn.toDict_nodes h false
  simp only [Bool.false_eq_true, if_false] at hnodes
  have hget : ∀ i n, Dict.get? b.nodes i = some n → Dict.getItem b.toDict.nodes (.int i) = .ok n.toDict := by
    intro i n hn
    rw [hnodes]
    apply Dict.getItem_of_get?
    have := Dict.get?_mapKey (f := keyOf false) (fun _ _ => keyOf_inj) (fun _ (n : BbnNode) => n.toDict) b.nodes i
    rw [hn] at this
    exact this
  have hkeys : Dict.keys b.toDict.nodes = b.toGraph.getNodes.map (fun n => PyKey.int n.var.id) := by
    rw [hnodes]
    unfold Dict.keys Graph.getNodes Dict.values
    rw [List.map_map, List.map_map]
    apply List.map_congr_left
    rintro ⟨k, n⟩ hkn
    have : n.var.id = k := h.ginv.key k n (Dict.get?_of_mem h.ginv.nodup hkn)
    simp [keyOf, this]
  have hpar : ∀ n : BbnNode, parentNames b.toDict (.int n.var.id) = .ok ((b.parentVars n.var.id).map Variable.name) := by
    intro n
    unfold parentNames
    rw [toDict_edges_into hp, parentVars_eq h]
    have : ((ddGet b.parents n.var.id).map (fun p => (⟨p, n.var.id⟩ : EdgeDict))).map (fun e => (b.nodeOf e.pa).var.name) =
        ((ddGet b.parents n.var.id).map (fun p => (b.nodeOf p).var)).map Variable.name := by
      rw [List.map_map, List.map_map]; rfl
    rw [← this]
    apply mapM_ok
    intro e he
    obtain ⟨p, hpm, rfl⟩ := List.mem_map.1 he
    have := nodeOf_get (parent_key h hpm)
    rw [hget _ _ this]
    rfl
  have hnode : ∀ n ∈ b.toGraph.getNodes, getDneNode ft b.toDict (.int n.var.id) = .ok (textOf (b.dneNode ft n)) := by
    intro n hn
    have e : ∀ ps : List Str, (if ps.length = 0 then "()".toList else paren ps) = paren ps := by
      intro ps
      split
      · rename_i h0
        rw [List.length_eq_zero_iff.1 h0]
        rfl
      · rfl
    simp only [getDneNode, hget _ _ ((getNodes_eq h n).1 hn), hpar n, bind, Except.bind, e]
    rfl
  unfold Bbn.toDne
  beta_reduce
  simp only [hkeys]
  have hm : (b.toGraph.getNodes.map (fun n => PyKey.int n.var.id)).mapM (getDneNode ft b.toDict) =
      .ok ((b.toGraph.getNodes.map (b.dneNode ft)).map textOf) := by
    rw [List.mapM_map, List.map_map]
    exact mapM_ok _ _ _ hnode
  simp only [hm, bind, Except.bind]

theorem dneNode_readable {b : Bbn} (h : BbnInv b) {ft : FloatText} (hb : b.DnePlain) (hft : ft.DnePlain) {n : BbnNode}
    (hn : n ∈ b.toGraph.getNodes) : Readable (b.dneNode ft n) := by
  have hname : ∀ v ∈ b.parentVars n.var.id, DneText v.name ∧ v.name ≠ [] := by
    intro v hv
    obtain ⟨m, hm, rfl⟩ := List.mem_map.1 (parentVars_sub h _ v hv)
    exact ⟨(hb.name m hm).1, (hb.name m hm).2.2⟩
  refine ⟨⟨(hb.name n hn).2.1, (hb.name n hn).1.semi⟩, ⟨?_, (hb.values n hn).2⟩, ⟨?_, ?_⟩, ⟨?_, ?_⟩⟩
  · intro s hs
    have := (hb.values n hn).1 s hs
    exact ⟨this.comma, this.paren, this.semi⟩
  · intro s hs
    obtain ⟨v, hv, rfl⟩ := List.mem_map.1 hs
    have := (hname v hv).1
    exact ⟨this.comma, this.paren, this.semi⟩
  · intro e
    have : ([] : Str) ∈ (b.parentVars n.var.id).map Variable.name := by
      show [] ∈ (b.dneNode ft n).parents
      rw [e]; simp
    obtain ⟨v, hv, e⟩ := List.mem_map.1 this
    exact (hname v hv).2 e
  · intro s hs
    obtain ⟨p, _, rfl⟩ := List.mem_map.1 hs
    exact ⟨fun hc => (ft.plain p _ hc).1 rfl, (hft p).1, (hft p).2⟩
  · intro e
    have : ([] : Str) ∈ n.probs.map ft.fmt := by
      show [] ∈ (b.dneNode ft n).probs
      rw [e]; simp
    obtain ⟨p, _, e⟩ := List.mem_map.1 this
    exact ft.nonempty p e

/-- **C68**, partial: `to_dne` never raises, and a reader of the text finds one entry per node, in order, with its name, its values,
the names of its parents in the order in which its CPT is indexed, and its CPT — provided names and values contain no separator.
Missing: names and values with separators, for which different networks give the same text (`c68_false`). -/
theorem c68_to_dne_partial (ft : FloatText) (hft : ft.DnePlain) (name : Str) (hname : ';' ∉ name) (ops : List BOp)
    (hb : (Bbn.run ops).DnePlain) :
    ∃ text, (Bbn.run ops).toDne ft name = .ok text ∧
      readDne text = (Bbn.run ops).toGraph.getNodes.map (fun n =>
        ⟨n.var.name, n.var.values, ((Bbn.run ops).parentVars n.var.id).map Variable.name, n.probs.map ft.fmt⟩) := by
  refine ⟨_, toDne_eq (bbn_run_inv ops) (parInv_run ops) ft name, ?_⟩
  apply read_net hname
  intro n hn
  obtain ⟨m, hm, rfl⟩ := List.mem_map.1 hn
  exact dneNode_readable (bbn_run_inv ops) hb hft hm

theorem foldl_cptIndex (ps : List Variable) (v : Variable) (σ : Asg) :
    (ps ++ [v]).foldl (fun acc p => acc * p.values.length + p.values.idxOf (σ p.id)) 0 = cptIndex ps v σ := by
  rw [List.foldl_append]; rfl

/-- **C68**, partial, for the joint distribution: with distinct names the exported text describes the same joint distribution: the
product of the entries a reader selects is the product of the CPT entries of the network, for every joint value. -/
theorem c68_joint_partial (ft : FloatText) (hft : ft.DnePlain) (name : Str) (hname : ';' ∉ name) (ops : List BOp)
    (hb : (Bbn.run ops).DnePlain) (hd : ((Bbn.run ops).vars.map Variable.name).Nodup) :
    ∃ text, (Bbn.run ops).toDne ft name = .ok text ∧
      ∀ (σ : Asg) (τ : Str → Str), (∀ v ∈ (Bbn.run ops).vars, τ v.name = σ v.id) →
        dneWeight (fun s => (ft.parse s).val?) (readDne text) τ = (Bbn.run ops).weight noEvidence σ := by
  obtain ⟨text, h1, h2⟩ := c68_to_dne_partial ft hft name hname ops hb
  refine ⟨text, h1, ?_⟩
  intro σ τ hτ
  have h := bbn_run_inv ops
  generalize hbn : Bbn.run ops = b at *
  rw [h2, weight_noEvidence]
  unfold dneWeight
  rw [List.map_map]
  congr 1
  apply List.map_congr_left
  intro n hn
  have hst : ∀ v ∈ b.vars, dneStates (b.toGraph.getNodes.map (fun n =>
      (⟨n.var.name, n.var.values, (b.parentVars n.var.id).map Variable.name, n.probs.map ft.fmt⟩ : DneNode))) v.name = v.values := by
    intro v hv
    obtain ⟨m, hm, rfl⟩ := List.mem_map.1 hv
    unfold dneStates
    cases hf : (b.toGraph.getNodes.map (fun n =>
      (⟨n.var.name, n.var.values, (b.parentVars n.var.id).map Variable.name, n.probs.map ft.fmt⟩ : DneNode))).find?
        (fun m' => decide (m'.name = m.var.name)) with
    | none =>
      have := List.find?_eq_none.1 hf _ (List.mem_map.2 ⟨m, hm, rfl⟩)
      simp at this
    | some d =>
      obtain ⟨k, hk, rfl⟩ := List.mem_map.1 (List.mem_of_find?_eq_some hf)
      have e := List.find?_some hf
      simp only [decide_eq_true_eq] at e
      have : k.var = m.var := List.inj_on_of_nodup_map hd (List.mem_map_of_mem hk) (List.mem_map_of_mem hm) e
      simp [this]
  have hidx : dneIndex (b.toGraph.getNodes.map (fun n =>
      (⟨n.var.name, n.var.values, (b.parentVars n.var.id).map Variable.name, n.probs.map ft.fmt⟩ : DneNode)))
      ⟨n.var.name, n.var.values, (b.parentVars n.var.id).map Variable.name, n.probs.map ft.fmt⟩ τ = cptIndex (b.parentVars n.var.id) n.var σ := by
    unfold dneIndex
    rw [← foldl_cptIndex]
    have e : (b.parentVars n.var.id).map Variable.name ++ [n.var.name] = (b.parentVars n.var.id ++ [n.var]).map Variable.name := by simp
    simp only [e]
    rw [List.foldl_map]
    have hmem : ∀ v ∈ b.parentVars n.var.id ++ [n.var], v ∈ b.vars := by
      intro v hv
      rcases List.mem_append.1 hv with hv | hv
      · exact parentVars_sub h _ v hv
      · rw [List.mem_singleton.1 hv]; exact List.mem_map_of_mem hn
    apply List.foldl_ext
    intro acc v hv
    rw [hst v (hmem v hv), hτ v (hmem v hv)]
  show ((n.probs.map ft.fmt)[_]?.bind _).getD 0 = _
  rw [hidx]
  unfold Bbn.w cptAt
  rw [List.getElem?_map, List.getD_eq_getElem?_getD]
  cases n.probs[cptIndex (b.parentVars n.var.id) n.var σ]? with
  | none => rfl
  | some p => simp [ft.round, Py.val?]

/-! ### examples -/

theorem fracText_dnePlain : fracText.DnePlain := by
  have hc : ∀ (i : Int) (c : Char), c ∈ strInt i → c ≠ ')' ∧ c ≠ ';' := by
    intro i c h
    rcases strInt_chars h with rfl | h
    · decide
    · constructor <;> (rintro rfl; exact absurd h (by decide))
  have hf : ∀ p c, c ∈ fracText.fmt p → c ≠ ')' ∧ c ≠ ';' := by
    intro p c h
    rcases List.mem_append.1 h with h | h
    · exact hc _ c h
    · rcases List.mem_cons.1 h with rfl | h
      · decide
      · exact hc _ c h
  intro p
  exact ⟨fun h => (hf p _ h).1 rfl, fun h => (hf p _ h).2 rfl⟩

theorem dneText_of {s : Str} (h : (decide (',' ∉ s ∧ ')' ∉ s ∧ ';' ∉ s)) = true) : DneText s := by
  have := of_decide_eq_true h
  exact ⟨this.1, this.2.1, this.2.2⟩

theorem c68_plain : (Bbn.run c16_ops).DnePlain := by
  have h1 : ∀ n ∈ (Bbn.run c16_ops).toGraph.getNodes, (decide (',' ∉ n.var.name ∧ ')' ∉ n.var.name ∧ ';' ∉ n.var.name)) = true ∧
      ' ' ∉ n.var.name ∧ n.var.name ≠ [] := by decide +kernel
  have h2 : ∀ n ∈ (Bbn.run c16_ops).toGraph.getNodes, (∀ x ∈ n.var.values, (decide (',' ∉ x ∧ ')' ∉ x ∧ ';' ∉ x)) = true) ∧
      n.var.values ≠ [[]] := by decide +kernel
  exact ⟨fun n hn => ⟨dneText_of (h1 n hn).1, (h1 n hn).2⟩, fun n hn => ⟨fun x hx => dneText_of ((h2 n hn).1 x hx), (h2 n hn).2⟩⟩

/-- C68 is not vacuous: the example network of C16; node d has the parents c and b, in this order -/
example : fracText.DnePlain ∧ (Bbn.run c16_ops).DnePlain ∧ ((Bbn.run c16_ops).vars.map Variable.name).Nodup ∧
    ((Bbn.run c16_ops).toDne fracText "network".toList).val?.map (fun t => (readDne t)[3]?) =
      some (some ⟨"d".toList, ["on".toList, "off".toList], ["c".toList, "b".toList],
        ["1/10".toList, "9/10".toList, "1/5".toList, "4/5".toList, "3/10".toList, "7/10".toList, "0/1".toList, "1/1".toList]⟩) :=
  ⟨fracText_dnePlain, c68_plain, by decide +kernel, by decide +kernel⟩

/-- one node, the values in two ways -/
def c68_a : List BOp := [.addNode ⟨⟨0, "a".toList, ["x,y".toList, "z".toList]⟩, [1/4, 3/4]⟩]
def c68_b : List BOp := [.addNode ⟨⟨0, "a".toList, ["x".toList, "y,z".toList]⟩, [1/4, 3/4]⟩]

/-- **C68 is false of the code** in general: two networks whose nodes have different values are exported as the same text. -/
theorem c68_false (ft : FloatText) (name : Str) : (Bbn.run c68_a).vars ≠ (Bbn.run c68_b).vars ∧
    ∃ text, (Bbn.run c68_a).toDne ft name = .ok text ∧ (Bbn.run c68_b).toDne ft name = .ok text := by
  refine ⟨by decide +kernel, _, toDne_eq (bbn_run_inv _) (parInv_run _) ft name, ?_⟩
  rw [toDne_eq (bbn_run_inv _) (parInv_run _) ft name]
  have ha : (Bbn.run c68_a).toGraph.getNodes = [⟨⟨0, "a".toList, ["x,y".toList, "z".toList]⟩, [1/4, 3/4]⟩] := by decide +kernel
  have hb : (Bbn.run c68_b).toGraph.getNodes = [⟨⟨0, "a".toList, ["x".toList, "y,z".toList]⟩, [1/4, 3/4]⟩] := by decide +kernel
  have pa : (Bbn.run c68_a).parentVars 0 = [] := by decide +kernel
  have pb : (Bbn.run c68_b).parentVars 0 = [] := by decide +kernel
  have e : paren ["x".toList, "y,z".toList] = paren ["x,y".toList, "z".toList] := by decide
  simp only [ha, hb, List.map_cons, List.map_nil, textOf, Bbn.dneNode, pa, pb, e]

/-- after `remove_node` of a parent `to_dne` raises `KeyError` -/
example : (((Bbn.run c16_ops).removeNode 1).toDne fracText "network".toList).err? = some .keyError := by decide +kernel

end PyBBN
