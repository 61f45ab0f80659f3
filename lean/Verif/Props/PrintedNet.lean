import Verif.Props.Printed
import Verif.Props.Sessions

/-! # Printed networks and join trees: C87 -/

namespace PyBBN
open Relation InferenceController

/-- names and values that can be told apart in a printed network -/
structure Bbn.TextPlain (b : Bbn) : Prop where
  name : ∀ v ∈ b.vars, '|' ∉ v.name ∧ '\n' ∉ v.name
  values : ∀ v ∈ b.vars, v.values ≠ [] ∧ ∀ x ∈ v.values, '|' ∉ x ∧ '\n' ∉ x ∧ ',' ∉ x

theorem readInt_strInt (n : Int) : readInt (strInt n) = some n := by
  unfold strInt
  split
  · rename_i h
    unfold readInt
    simp only [Nat.toDigits_ne_nil, ne_eq, not_false_eq_true, all_digits_toDigits, and_self, if_true, digitsNat_toDigits, Option.some.injEq]
    omega
  · rename_i h
    unfold readInt
    split
    · rename_i t e
      exact absurd e (toDigits_ne_cons_minus _ t)
    · simp only [Nat.toDigits_ne_nil, ne_eq, not_false_eq_true, all_digits_toDigits, and_self, if_true, digitsNat_toDigits, Option.some.injEq]
      omega

theorem not_mem_strInt {c : Char} (h1 : c ≠ '-') (h2 : c.isDigit = false) (i : Int) : c ∉ strInt i := by
  intro h
  rcases strInt_chars h with h | h
  · exact h1 h
  · rw [h] at h2; cases h2

theorem readInt_none {s : Str} {c : Char} (h1 : c ≠ '-') (h2 : c.isDigit = false) (h : c ∈ s) : readInt s = none := by
  unfold readInt
  split
  · rename_i t
    rw [if_neg]
    rintro ⟨_, ha⟩
    exact not_mem_of_digits h2 ha ((List.mem_cons.1 h).resolve_left h1)
  · rw [if_neg]
    rintro ⟨_, ha⟩
    exact not_mem_of_digits h2 ha h

theorem readNodeLine_nodeText {v : Variable} (hn : '|' ∉ v.name) (hne : v.values ≠ []) (hv : ∀ x ∈ v.values, '|' ∉ x ∧ ',' ∉ x) :
    readNodeLine v.nodeText = some (v.id, v.name, v.values) := by
  have hb : '|' ∉ joinStr ",".toList v.values := nl_not_mem_joinStr (by decide) (fun x hx => (hv x hx).1)
  have e : v.nodeText = strInt v.id ++ '|' :: (v.name ++ '|' :: joinStr ",".toList v.values) := by simp [Variable.nodeText]
  unfold readNodeLine
  rw [e, splitOn_append (not_mem_strInt (by decide) (by decide) _), splitOn_append hn, splitOn_none hb]
  simp only [readInt_strInt, Option.map_some]
  rw [show ",".toList = [','] from rfl, splitOn_join hne (fun x hx => (hv x hx).2)]

/-- the text of a directed edge -/
def dirText (pc : Int × Int) : Str := strInt pc.1 ++ "->".toList ++ strInt pc.2

theorem readEdgeLine_dirText (pc : Int × Int) : readEdgeLine (dirText pc) = some pc := by
  have e : dirText pc = (strInt pc.1 ++ ['-']) ++ '>' :: strInt pc.2 := by simp [dirText]
  unfold readEdgeLine
  rw [e, splitOn_append, splitOn_none (not_mem_strInt (by decide) (by decide) _)]
  · simp [readInt_strInt]
  · simp only [List.mem_append, List.mem_singleton, not_or]
    exact ⟨not_mem_strInt (by decide) (by decide) _, by decide⟩

theorem readNodeLine_dirText (pc : Int × Int) : readNodeLine (dirText pc) = none := by
  unfold readNodeLine
  rw [splitOn_none]
  simp only [dirText, List.mem_append, not_or]
  exact ⟨⟨not_mem_strInt (by decide) (by decide) _, by decide⟩, not_mem_strInt (by decide) (by decide) _⟩

/-- a line with a bar is not an edge -/
theorem readEdgeLine_bar {s : Str} (h : '|' ∈ s) : readEdgeLine s = none := by
  unfold readEdgeLine
  split
  · rename_i a b e
    split
    · rename_i hl
      have hs := joinStr_splitOn '>' s
      rw [e] at hs
      have hm : '|' ∈ a ∨ '|' ∈ b := by
        rw [← hs] at h
        simpa [joinStr] using h
      rcases hm with hm | hm
      · have : '|' ∈ a.dropLast := by
          obtain ⟨l, rfl⟩ := List.getLast?_eq_some_iff.1 hl
          simp only [List.mem_append, List.mem_singleton] at hm
          rw [List.dropLast_concat]
          exact hm.resolve_right (by decide)
        rw [readInt_none (by decide) (by decide) this]
        rfl
      · rw [readInt_none (c := '|') (by decide) (by decide) hm]
        cases readInt a.dropLast <;> rfl
    · rfl
  · rfl

theorem dirText_inj {a b : Int × Int} (h : dirText a = dirText b) : a = b := by
  have := readEdgeLine_dirText a
  rw [h, readEdgeLine_dirText] at this
  exact (Option.some.inj this).symm

/-- the edges of a network are listed in the order of their first insertion -/
theorem run_edges (ops : List BOp) : Dict.keys (Bbn.run ops).edges = (firsts (BOp.edges ops)).map dirText := by
  induction ops using List.reverseRecOn with
  | nil => rfl
  | append_singleton ops op ih =>
    have hr : Bbn.run (ops ++ [op]) = op.step (Bbn.run ops) := by simp [Bbn.run]
    rw [hr]
    cases op with
    | addNode n =>
      have : BOp.edges (ops ++ [.addNode n]) = BOp.edges ops := by simp [BOp.edges]
      rw [this, ← ih]
      rfl
    | addEdge i j =>
      have h1 : BOp.edges (ops ++ [.addEdge i j]) = BOp.edges ops ++ [(i.var.id, j.var.id)] := by simp [BOp.edges]
      have h2 : (BOp.step (Bbn.run ops) (.addEdge i j)).edges = Dict.set (Bbn.run ops).edges (dirText (i.var.id, j.var.id)) ⟨i, j, .directed⟩ := rfl
      have hm : dirText (i.var.id, j.var.id) ∈ (firsts (BOp.edges ops)).map dirText ↔ (i.var.id, j.var.id) ∈ BOp.edges ops := by
        rw [List.mem_map]
        constructor
        · rintro ⟨x, hx, e⟩
          rw [← dirText_inj e]
          exact (mem_firsts _ _).1 hx
        · exact fun h => ⟨_, (mem_firsts _ _).2 h, rfl⟩
      rw [h1, h2, Dict.keys_set, firsts_append, ih]
      by_cases hin : (i.var.id, j.var.id) ∈ BOp.edges ops
      · rw [if_pos hin, if_pos (hm.2 hin)]
      · rw [if_neg hin, if_neg (fun h => hin (hm.1 h)), List.map_append]
        rfl

theorem edges_text (ops : List BOp) : (Dict.values (Bbn.run ops).edges).map Edge.key = (firsts (BOp.edges ops)).map dirText := by
  rw [← run_edges]
  unfold Dict.values Dict.keys
  rw [List.map_map]
  refine List.map_congr_left ?_
  rintro ⟨k, e⟩ hk
  exact ((bbn_run_inv ops).einv.key k e hk).symm

theorem filterMap_eq_map {α β γ : Type} {f : α → Option β} {g : γ → α} {k : γ → β} : ∀ {l : List γ}, (∀ x ∈ l, f (g x) = some (k x)) →
    (l.map g).filterMap f = l.map k
  | [], _ => rfl
  | x :: l, h => by
      rw [List.map_cons, List.filterMap_cons, h x List.mem_cons_self, filterMap_eq_map (fun y hy => h y (List.mem_cons_of_mem _ hy))]
      rfl

theorem filterMap_eq_nil {α β γ : Type} {f : α → Option β} {g : γ → α} {l : List γ} (h : ∀ x ∈ l, f (g x) = none) : (l.map g).filterMap f = [] := by
  rw [List.filterMap_eq_nil_iff]
  intro a ha
  obtain ⟨x, hx, rfl⟩ := List.mem_map.1 ha
  exact h x hx

/-- the lines of joined texts (no text: one empty line) -/
theorem filterMap_lines {β : Type} {f : Str → Option β} (h0 : f [] = none) {l : List Str} (h : ∀ s ∈ l, '\n' ∉ s) :
    (splitOn '\n' (joinStr "\n".toList l)).filterMap f = l.filterMap f := by
  by_cases hl : l = []
  · subst hl
    simp [joinStr, splitOn, h0]
  · rw [show "\n".toList = ['\n'] from rfl, splitOn_join hl h]

theorem splitOn_append_lines (s t : Str) : splitOn '\n' (s ++ '\n' :: t) = splitOn '\n' s ++ splitOn '\n' t := by
  induction s with
  | nil => simp [splitOn]
  | cons a s ih =>
    rw [List.cons_append, splitOn, ih, splitOn]
    split
    · rfl
    · cases hs : splitOn '\n' s with
      | nil => exact absurd hs (splitOn_ne_nil _ s)
      | cons u us => rfl

/-- **C87**, partial: when names and values contain no separators, a printed network is read back as its nodes (id, name, values) in
the order of the network and its edges in the order of their first insertion. Missing: names and values with separators
(`c87_false`). -/
theorem c87_network_partial (ops : List BOp) (h : (Bbn.run ops).TextPlain) :
    readNetwork (Bbn.run ops).text = ((Bbn.run ops).vars.map (fun v => (v.id, v.name, v.values)), firsts (BOp.edges ops)) := by
  have e1 : (Bbn.run ops).text = joinStr "\n".toList ((Bbn.run ops).vars.map Variable.nodeText) ++
      '\n' :: joinStr "\n".toList ((firsts (BOp.edges ops)).map dirText) := by
    rw [← edges_text]
    simp [Bbn.text, Bbn.vars, Graph.getNodes, Function.comp_def]
  have n1 : ∀ s ∈ (Bbn.run ops).vars.map Variable.nodeText, '\n' ∉ s := by
    intro s hs
    obtain ⟨v, hv, rfl⟩ := List.mem_map.1 hs
    simp only [Variable.nodeText, List.mem_append, not_or]
    exact ⟨⟨⟨⟨nl_not_mem_strInt _, by decide⟩, (h.name v hv).2⟩, by decide⟩,
      nl_not_mem_joinStr (by decide) (fun x hx => ((h.values v hv).2 x hx).2.1)⟩
  have n2 : ∀ s ∈ (firsts (BOp.edges ops)).map dirText, '\n' ∉ s := by
    intro s hs
    obtain ⟨pc, _, rfl⟩ := List.mem_map.1 hs
    simp only [dirText, List.mem_append, not_or]
    exact ⟨⟨nl_not_mem_strInt _, by decide⟩, nl_not_mem_strInt _⟩
  have r1 : ∀ v ∈ (Bbn.run ops).vars, readNodeLine v.nodeText = some (v.id, v.name, v.values) := fun v hv =>
    readNodeLine_nodeText (h.name v hv).1 (h.values v hv).1 (fun x hx => ⟨((h.values v hv).2 x hx).1, ((h.values v hv).2 x hx).2.2⟩)
  unfold readNetwork
  rw [e1, splitOn_append_lines, List.filterMap_append, List.filterMap_append, filterMap_lines rfl n1, filterMap_lines rfl n2,
    filterMap_lines rfl n1, filterMap_lines rfl n2, filterMap_eq_map r1, filterMap_eq_nil (fun pc _ => readNodeLine_dirText pc),
    filterMap_eq_nil (f := readEdgeLine), filterMap_eq_map (k := id) (fun pc _ => readEdgeLine_dirText pc), List.append_nil, List.nil_append,
    List.map_id]
  intro v _
  exact readEdgeLine_bar (by simp [Variable.nodeText])

/-- the example network, printed -/
example : (Bbn.run c16_ops).text =
    "0|a|on,off\n1|b|on,off\n2|c|on,off\n3|d|on,off\n4|e|on,off\n0->1\n0->2\n2->3\n1->3\n3->4".toList := by decide +kernel

/-- negative ids, values with arrows, no edges -/
def c87_ops : List BOp := [.addNode ⟨⟨-3, "x->y".toList, ["a>b".toList, "".toList]⟩, []⟩, .addNode ⟨⟨12, "".toList, ["-".toList]⟩, []⟩]

instance (b : Bbn) : Decidable b.TextPlain :=
  decidable_of_iff ((∀ v ∈ b.vars, '|' ∉ v.name ∧ '\n' ∉ v.name) ∧
    ∀ v ∈ b.vars, v.values ≠ [] ∧ ∀ x ∈ v.values, '|' ∉ x ∧ '\n' ∉ x ∧ ',' ∉ x) ⟨fun h => ⟨h.1, h.2⟩, fun h => ⟨h.1, h.2⟩⟩

example : (Bbn.run c87_ops).text = "-3|x->y|a>b,\n12||-\n".toList := by decide +kernel
example := c87_network_partial c16_ops (by decide +kernel)
example := c87_network_partial c87_ops (by decide +kernel)
example := c87_network_partial [] (by decide +kernel)

/-- **C87 is false of the code** when names or values contain separators: two networks with different nodes print the same text. -/
theorem c87_false : ∃ ops ops' : List BOp, (Bbn.run ops).text = (Bbn.run ops').text ∧
    (Bbn.run ops).vars.map Variable.name ≠ (Bbn.run ops').vars.map Variable.name :=
  ⟨[.addNode ⟨⟨0, "a|b".toList, ["c".toList]⟩, []⟩], [.addNode ⟨⟨0, "a".toList, ["b|c".toList]⟩, []⟩], by decide +kernel, by decide +kernel⟩

/-! ## join trees -/

theorem forall₂_mem_left {α β : Type} {R : α → β → Prop} {l : List α} {m : List β} (h : List.Forall₂ R l m) {a : α} (ha : a ∈ l) :
    ∃ b ∈ m, R a b := by
  induction h with
  | nil => cases ha
  | cons hr _ ih =>
    rcases List.mem_cons.1 ha with rfl | ha
    · exact ⟨_, List.mem_cons_self, hr⟩
    · obtain ⟨b, hb, h⟩ := ih ha
      exact ⟨b, List.mem_cons_of_mem _ hb, h⟩

theorem sortBy_strLe_congr {l m : List Str} (h : l.Perm m) : sortBy strLe l = sortBy strLe m := by
  refine List.Perm.eq_of_pairwise ?_ (sortBy_sorted _ strLe_total strLe_trans _) (sortBy_sorted _ strLe_total strLe_trans _)
    ((sortBy_perm _ _).trans (h.trans (sortBy_perm _ _).symm))
  intro a b _ _ h1 h2
  exact strLe_antisymm _ _ h1 h2

/-- **C87**, cliques: what is printed for a clique, and `get_sid`, depend on the nodes of the clique only, not on their order; hence
the cliques printed for a network are the same whatever the iteration order of sets. -/
theorem c87_cliques {it it' : SetIter Int} {js js' : SetIter Str} {ops : List BOp} {jt jt' : JoinTree}
    (hu : Net.Sane ops) (hj : apply it js (Bbn.run ops) = .ok jt) (hj' : apply it' js' (Bbn.run ops) = .ok jt') :
    (∀ c ∈ jt.getCliques, ∃ d ∈ jt'.getCliques, c.nodes.Perm d.nodes ∧ c.text = d.text ∧ c.getSid = d.getSid) ∧
    ∀ t, t ∈ jt.getCliques.map Clique.text ↔ t ∈ jt'.getCliques.map Clique.text := by
  have main : ∀ {it it' : SetIter Int} {js js' : SetIter Str} {jt jt' : JoinTree}, apply it js (Bbn.run ops) = .ok jt →
      apply it' js' (Bbn.run ops) = .ok jt' →
      ∀ c ∈ jt.getCliques, ∃ d ∈ jt'.getCliques, c.nodes.Perm d.nodes ∧ c.text = d.text ∧ c.getSid = d.getSid := by
    intro it it' js js' jt jt' hj hj' c hc
    obtain ⟨T, H, _⟩ := held_apply_cliques hu hj
    obtain ⟨T', H', _⟩ := held_apply_cliques hu hj'
    have hm := (H.live.calib.ctx.spec.shape.mem_getCliques c).1 hc
    obtain ⟨d, hd, hs⟩ := forall₂_mem_left (triangulate_same it it' (bbn_run_inv ops)) hm
    refine ⟨d, (H'.live.calib.ctx.spec.shape.mem_getCliques d).2 hd, hs, ?_, ?_⟩
    · rw [Clique.text, Clique.text, sortBy_strLe_congr (List.Perm.map _ hs)]
    · rw [Clique.getSid, Clique.getSid, sortBy_strLe_congr (List.Perm.map _ hs)]
  refine ⟨main hj hj', fun t => ?_⟩
  constructor
  · intro ht
    obtain ⟨c, hc, rfl⟩ := List.mem_map.1 ht
    obtain ⟨d, hd, _, e, _⟩ := main hj hj' c hc
    exact List.mem_map.2 ⟨d, hd, e.symm⟩
  · intro ht
    obtain ⟨c, hc, rfl⟩ := List.mem_map.1 ht
    obtain ⟨d, hd, _, e, _⟩ := main hj' hj c hc
    exact List.mem_map.2 ⟨d, hd, e.symm⟩

example := c87_cliques c16_usable.toSane (c16_jt_ok .same .same) (c16_jt_ok .rev .rev)

/-- **C87**, `get_sid`: the names of the nodes of the clique, in alphabetical order, joined by dashes. -/
theorem c87_sid (c : Clique) : ∃ l : List Str, l.Perm (c.nodes.map Variable.name) ∧ l.Pairwise (fun a b => strLe a b = true) ∧
    c.getSid = joinStr "-".toList l :=
  ⟨_, sortBy_perm _ _, sortBy_sorted _ strLe_total strLe_trans _, rfl⟩

example : (Clique.mk [⟨0, "wet".toList, []⟩, ⟨1, "cloudy".toList, []⟩, ⟨2, "rain".toList, []⟩] : Clique).getSid = "cloudy-rain-wet".toList := by
  decide +kernel

/-- what is printed for a separation set does depend on the iteration order -/
theorem c87_sepsets_false : Net.Usable c16_ops ∧
    ((apply .same .same (Bbn.run c16_ops)).val?.map (fun jt => jt.getCliques.map Clique.text)) =
      ((apply .rev .rev (Bbn.run c16_ops)).val?.map (fun jt => jt.getCliques.map Clique.text)) ∧
    ((apply .same .same (Bbn.run c16_ops)).val?.map JoinTree.text) ≠ ((apply .rev .rev (Bbn.run c16_ops)).val?.map JoinTree.text) :=
  ⟨c16_usable, by decide +kernel, by decide +kernel⟩

end PyBBN
