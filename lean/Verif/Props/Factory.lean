import Verif.Proofs.LibPgm
import Verif.Proofs.NamedExact
import Verif.Proofs.FromData
import Verif.Props.Ace

/-! Networks converted from libpgm (C44) and learned from data (C45, C60). -/

namespace PyBBN
open Relation InferenceController

/-! ## C44 -/

/-- **C44**. The conversion of a libpgm document succeeds. The network has the nodes of the document, by ascending number, with their
names and values. The parents of each node are those of the document, in its order, and its table gives, for all values of the
parents, the row that the document stores under these values. -/
theorem c44_tables (bn : LibPgm) (h : bn.WF) : ∃ b, bn.toBbn = .ok b ∧
    b.vars.Perm (bn.V.map bn.var) ∧ b.vars.Pairwise (fun u v => u.id < v.id) ∧
    ∀ n ∈ bn.V, ∃ node ∈ b.toGraph.getNodes, node.var = bn.var n ∧ b.parentVars (bn.var n).id = (bn.pa n).map bn.var ∧
      ∀ σ, InDom b.vars σ → cptAt node.probs (b.parentVars node.var.id) node.var σ = bn.prob (bn.byName σ) n := by
  have ho := LibPgm.sortedNames_perm bn
  have hk := LibPgm.kids_perm h
  have hvars : (Bbn.run (bn.named.ops (LibPgm.sortedNames bn) (Dict.keys bn.Vdata))).vars = (LibPgm.sortedNames bn).map bn.var :=
    Named.vars h.named ho hk
  refine ⟨_, h.toBbn, ?_, ?_, ?_⟩
  · rw [hvars]; exact ho.map _
  · rw [hvars, List.pairwise_map]
    have h1 : (LibPgm.sortedNames bn).Pairwise (fun m n => decide ((bn.data m).ord ≤ (bn.data n).ord) = true) :=
      sortBy_sorted _ (by intro a b; simp only [decide_eq_true_eq]; omega) (by intro a b c; simp only [decide_eq_true_eq]; omega) _
    have h2 : ((LibPgm.sortedNames bn).map (fun n => (bn.data n).ord)).Nodup := (ho.map _).nodup_iff.2 h.ords
    have h3 := List.pairwise_map.1 h2
    refine (h1.and h3).imp ?_
    intro a b hab
    rw [decide_eq_true_eq] at hab
    exact lt_of_le_of_ne hab.1 hab.2
  · intro n hn
    have hpa : (Bbn.run (bn.named.ops (LibPgm.sortedNames bn) (Dict.keys bn.Vdata))).parentVars (bn.var n).id = (bn.pa n).map bn.var := by
      have := Named.parentVars h.named ho hk (c := n) hn
      change _ = (firsts (bn.pa n)).map _ at this
      rw [firsts_of_nodup _ (h.parents n hn).1] at this
      exact this
    refine ⟨bn.named.node n, (Named.mem_nodes h.named ho hk _).2 ⟨n, hn, rfl⟩, rfl, hpa, ?_⟩
    intro σ hσ
    have hdom : ∀ m ∈ bn.V, bn.byName σ m ∈ (bn.data m).vals := by
      intro m hm
      exact hσ (bn.var m) (by rw [hvars]; exact List.mem_map_of_mem (ho.mem_iff.2 hm))
    change cptAt (LibPgm.table bn n) (Bbn.parentVars _ (bn.var n).id) (bn.var n) σ = _
    rw [hpa]
    exact h.table_at hn σ (fun p hp => hdom p ((h.parents n hn).2 p hp)) (hdom n hn)

/-- **C44**, end to end. For a connected document without negative entries, converting, `InferenceController.apply` and
`get_posteriors` succeed, and the posteriors reported under each name are the marginal probabilities that the document defines. -/
theorem c44_exact (bn : LibPgm) (h : bn.WF) (hl : ∀ n ∈ bn.V, n ∉ bn.pa n) (hne : bn.V ≠ [])
    (hpos : ∀ n ∈ bn.V, ∀ combo r, bn.row n combo = some r → ∀ q ∈ r, 0 ≤ q)
    (hconn : ∀ m ∈ bn.V, ∀ n ∈ bn.V, EqvGen (fun p c => c ∈ bn.V ∧ p ∈ bn.pa c) m n) (it : SetIter Int) (js : SetIter Str) :
    ∃ b jt d, bn.toBbn = .ok b ∧ apply it js b = .ok jt ∧ jt.getPosteriors = .ok d ∧ (∀ k, k ∈ Dict.keys d ↔ k ∈ bn.V) ∧
      ∀ n ∈ bn.V, Dict.get? d n = some ((bn.data n).vals.map (fun x => (x, bn.marginal n x))) := by
  obtain ⟨jt, d, h1, h2, h3, h4⟩ := Named.exact h.named (LibPgm.sortedNames_perm bn) (LibPgm.kids_perm h) (fun _ _ => rfl) hl
    (fun c hc => (h.vals c hc).2) (by
      intro c hc
      change _ ≤ (LibPgm.table bn c).length
      rw [h.table_length hc]
      change ((((firsts (bn.pa c)).map _) ++ _).map _).prod ≤ _
      rw [firsts_of_nodup _ (h.parents c hc).1]) (by
      intro c hc q hq
      obtain ⟨combo, _, hq⟩ := List.mem_flatMap.1 (show q ∈ LibPgm.table bn c from hq)
      cases hr : bn.row c combo with
      | none => rw [hr] at hq; simp at hq
      | some r => rw [hr] at hq; exact hpos c hc combo r hr q hq) hne hconn (prob := bn.prob) (by
      intro n hn τ τ' ht
      unfold LibPgm.prob
      rw [ht n hn, List.map_congr_left (fun p hp => ht p ((h.parents n hn).2 p hp))]) (by
      intro n hn σ hσ
      change cptAt (LibPgm.table bn n) ((firsts (bn.pa n)).map _) _ σ = _
      rw [firsts_of_nodup _ (h.parents n hn).1]
      exact h.table_at hn σ (fun p hp => hσ p ((h.parents n hn).2 p hp)) (hσ n hn)) it js
  exact ⟨_, jt, d, h.toBbn, h1, h2, h3, h4⟩

/-- **C44**, the other direction, for documents of any form: if the conversion succeeds then nodes and entries are the same, parents
are nodes, and there is a row for all values of the parents of every node. Missing parts are never made up. -/
theorem c44_nothing_missing (bn : LibPgm) (b : Bbn) (h : bn.toBbn = .ok b) :
    (∀ n, n ∈ bn.V ↔ n ∈ Dict.keys bn.Vdata) ∧ (∀ n ∈ bn.V, ∀ p ∈ bn.pa n, p ∈ bn.V) ∧
    ∀ n ∈ bn.V, ∀ combo, List.Forall₂ (fun p v => v ∈ (bn.data p).vals) (bn.pa n) combo → ∃ r, bn.row n combo = some r := by
  obtain ⟨h1, h2, h3, h4⟩ := LibPgm.toBbn_inv h
  refine ⟨fun n => ⟨h1 n, h2 n⟩, ?_, fun n hn combo hc => h4 n hn combo ((LibPgm.mem_combos bn n combo).2 hc)⟩
  intro n hn p hp
  cases hd : Dict.get? bn.Vdata n with
  | none => exact absurd (h1 n hn) ((Dict.get?_eq_none_iff _ _).1 hd)
  | some d =>
    have hpd : p ∈ LibPgm.parentsOf d := by
      rw [← LibPgm.parentsOf_data] at hp
      unfold LibPgm.data at hp
      rw [hd] at hp
      exact hp
    exact h3 (n, d) (Dict.mem_of_get? hd) p hpd

/-- a document with a node that has two parents, listed against the order of their numbers, and rows stored in no particular order -/
def c44_doc : LibPgm where
  V := ["grade".toList, "talent".toList, "test".toList]
  Vdata := [
    ("test".toList, ⟨1, ["easy".toList, "hard".toList], none, .list [3/5, 2/5]⟩),
    ("grade".toList, ⟨2, ["A".toList, "B".toList, "C".toList], some ["test".toList, "talent".toList], .dict [
      ("['hard', 'low']".toList, [1/20, 1/4, 7/10]),
      ("['easy', 'low']".toList, [3/10, 2/5, 3/10]),
      ("['easy', 'high']".toList, [9/10, 2/25, 1/50]),
      ("['hard', 'high']".toList, [1/2, 3/10, 1/5])]⟩),
    ("talent".toList, ⟨0, ["low".toList, "high".toList], some [], .list [7/10, 3/10]⟩)]

theorem c44_doc_wf : c44_doc.WF where
  names := by decide +kernel
  keys := by decide +kernel
  same := by
    have h : c44_doc.V.Perm (Dict.keys c44_doc.Vdata) := by decide +kernel
    exact fun n => h.mem_iff
  ords := by decide +kernel
  vals := by decide +kernel
  parents := by decide +kernel
  rows := by
    intro n hn combo hc
    have h : ∀ n ∈ c44_doc.V, ∀ combo ∈ LibPgm.combos c44_doc n, (c44_doc.row n combo).map List.length = some (c44_doc.data n).vals.length := by
      decide +kernel
    have h' := h n hn combo ((LibPgm.mem_combos _ n combo).2 hc)
    rw [Option.map_eq_some_iff] at h'
    exact h'

/-- the hypotheses of `c44_tables` and `c44_exact` hold for it -/
theorem c44_doc_exact : (∀ n ∈ c44_doc.V, n ∉ c44_doc.pa n) ∧ c44_doc.V ≠ [] ∧
    (∀ n ∈ c44_doc.V, ∀ combo r, c44_doc.row n combo = some r → ∀ q ∈ r, 0 ≤ q) ∧
    (∀ m ∈ c44_doc.V, ∀ n ∈ c44_doc.V, EqvGen (fun p c => c ∈ c44_doc.V ∧ p ∈ c44_doc.pa c) m n) := by
  refine ⟨by decide +kernel, by decide +kernel, ?_, ?_⟩
  · intro n hn combo r hr q hq
    have hall : ∀ n ∈ c44_doc.V, (match (c44_doc.data n).cprob with
        | .list l => [l]
        | .dict d => Dict.values d).all (fun r => r.all (fun q => decide (0 ≤ q))) = true := by decide +kernel
    have h1 := hall n hn
    unfold LibPgm.row at hr
    revert hr h1
    cases (c44_doc.data n).cprob with
    | list l =>
      simp only
      intro hr h1
      split at hr
      · rw [Option.some.injEq] at hr
        subst hr
        simpa using List.all_eq_true.1 (List.all_eq_true.1 h1 l (by simp)) q hq
      · cases hr
    | dict d =>
      simp only
      intro hr h1
      split at hr
      · cases hr
      · have hm : r ∈ Dict.values d := List.mem_map.2 ⟨_, Dict.mem_of_get? hr, rfl⟩
        simpa using List.all_eq_true.1 (List.all_eq_true.1 h1 r hm) q hq
  · have e1 : EqvGen (fun p c => c ∈ c44_doc.V ∧ p ∈ c44_doc.pa c) "test".toList "grade".toList := EqvGen.rel _ _ (by decide +kernel)
    have e2 : EqvGen (fun p c => c ∈ c44_doc.V ∧ p ∈ c44_doc.pa c) "talent".toList "grade".toList := EqvGen.rel _ _ (by decide +kernel)
    have hall : ∀ m ∈ c44_doc.V, EqvGen (fun p c => c ∈ c44_doc.V ∧ p ∈ c44_doc.pa c) m "grade".toList := by
      intro m hm
      simp only [c44_doc, List.mem_cons, List.not_mem_nil, or_false] at hm
      rcases hm with rfl | rfl | rfl
      · exact EqvGen.refl _
      · exact e2
      · exact e1
    exact fun m hm n hn => EqvGen.trans _ _ _ (hall m hm) (EqvGen.symm _ _ (hall n hn))

/-- the table of the node with two parents: rows ordered by the first listed parent, then the second -/
example : (c44_doc.toBbn.val?.bind (fun b => Dict.get? b.nodes 2)).map BbnNode.probs =
    some [3/10, 2/5, 3/10, 9/10, 2/25, 1/50, 1/20, 1/4, 7/10, 1/2, 3/10, 1/5] := by decide +kernel

/-- without one of the rows the conversion raises `KeyError`, and so does a node missing from `V` -/
example : ({ c44_doc with Vdata := Dict.set c44_doc.Vdata "grade".toList ⟨2, ["A".toList, "B".toList, "C".toList],
      some ["test".toList, "talent".toList], .dict [("['hard', 'low']".toList, [1/20, 1/4, 7/10])]⟩ } : LibPgm).toBbn.err? = some .keyError ∧
    ({ c44_doc with V := ["talent".toList, "test".toList] } : LibPgm).toBbn.err? = some .keyError := by decide +kernel

/-! ## C45 -/

/-- `vs` lists what occurs in column `c`, each once and in ascending order -/
def Frame.Lists (df : Frame) (c : Str) (vs : List Str) : Prop :=
  vs.Pairwise (fun a b => strLe a b = true ∧ a ≠ b) ∧ ∀ x, x ∈ vs ↔ df.Occurs c x

theorem Factory.lists_vals (df : Frame) (c : Str) : df.Lists c (Factory.vals df c) :=
  ⟨List.Pairwise.and (Factory.vals_sorted df c) (Factory.vals_nodup df c), Factory.mem_vals df c⟩

theorem Frame.Lists.unique {df : Frame} {c : Str} {vs ws : List Str} (h1 : df.Lists c vs) (h2 : df.Lists c ws) : vs = ws := by
  refine List.Perm.eq_of_pairwise ?_ (h1.1.imp (fun h => h.1)) (h2.1.imp (fun h => h.1)) ?_
  · intro a b _ _ h1 h2
    exact strLe_antisymm a b h1 h2
  · exact (List.perm_ext_iff_of_nodup (h1.1.imp (fun h => h.2)) (h2.1.imp (fun h => h.2))).2 (fun x => (h1.2 x).trans (h2.2 x).symm)

/-- **C45**, for data frames of any content whose cells do not name columns in a cycle: `from_data` succeeds. The nodes are the columns
with what occurs in them, the parents of each node are those of the structure, and every conditional distribution is one. -/
theorem c45_network (st : Dict Str (List Str)) (df : Frame) (h : Factory.Valid st df) (hac : Acyclic df.Names) :
    ∃ b, Factory.fromData st df = .ok b ∧ b.vars.map Variable.name = df.columns ∧ (∀ v ∈ b.vars, df.Lists v.name v.values) ∧
      (∀ v ∈ b.vars, (b.parentVars v.id).map Variable.name = firsts (Factory.pa st v.name)) ∧
      b.Normalized b.parentVars ∧ ∀ n ∈ b.toGraph.getNodes, ∀ q ∈ n.probs, 0 ≤ q := by
  obtain ⟨id, hid, hb⟩ := (Factory.fromData_spec h).1 hac
  have hwf := Factory.named_wf h hid
  have hvars := Named.vars hwf (List.Perm.refl df.columns) (Factory.kids_perm h)
  refine ⟨_, hb, ?_, ?_, ?_, Factory.named_normalized h hid, ?_⟩
  · rw [hvars, List.map_map]; exact List.map_id _
  · intro v hv
    rw [hvars] at hv
    obtain ⟨c, _, rfl⟩ := List.mem_map.1 hv
    exact Factory.lists_vals df c
  · intro v hv
    rw [hvars] at hv
    obtain ⟨c, hc, rfl⟩ := List.mem_map.1 hv
    rw [Named.parentVars hwf (List.Perm.refl df.columns) (Factory.kids_perm h) hc, List.map_map]
    exact List.map_id _
  · intro n hn q hq
    obtain ⟨c, _, rfl⟩ := (Named.mem_nodes hwf (List.Perm.refl _) (Factory.kids_perm h) n).1 hn
    exact Factory.table_nonneg st df c q hq

/-- **C45**, partial. Missing: nodes whose parents are not listed in ascending order (see `c45_false`). For the others the table
gives, for all values of the parents, the relative frequencies in the rows with these values, and the uniform distribution if there
is no such row. -/
theorem c45_tables_partial (st : Dict Str (List Str)) (df : Frame) (h : Factory.Valid st df) (hac : Acyclic df.Names) :
    ∃ b, Factory.fromData st df = .ok b ∧ ∀ n ∈ b.toGraph.getNodes,
      (Factory.pa st n.var.name).Pairwise (fun a b => strLe a b = true) → ∀ σ, InDom b.vars σ →
        cptAt n.probs (b.parentVars n.var.id) n.var σ =
          df.relFreq n.var.name (σ n.var.id) ((b.parentVars n.var.id).map (fun p => (p.name, σ p.id))) := by
  obtain ⟨id, hid, hb⟩ := (Factory.fromData_spec h).1 hac
  have hwf := Factory.named_wf h hid
  have hvars := Named.vars hwf (List.Perm.refl df.columns) (Factory.kids_perm h)
  refine ⟨_, hb, ?_⟩
  intro n hn hs σ hσ
  obtain ⟨c, hc, rfl⟩ := (Named.mem_nodes hwf (List.Perm.refl _) (Factory.kids_perm h) n).1 hn
  have hdom : ∀ m ∈ df.columns, σ (id m) ∈ Factory.vals df m := by
    intro m hm
    exact hσ ((Factory.named st df id).node m).var (by rw [hvars]; exact List.mem_map.2 ⟨m, hm, rfl⟩)
  rw [Named.parentVars hwf (List.Perm.refl df.columns) (Factory.kids_perm h) hc]
  change cptAt (Factory.table st df c) ((firsts (Factory.pa st c)).map _) _ σ = _
  have he := Factory.sp_eq_firsts h hc hs
  rw [← he, Factory.table_at h hc σ (fun p hp => hdom p (h.parents c hc p hp)) (hdom c hc)]
  unfold Factory.learned
  refine Frame.relFreq_congr df c _ ?_
  intro x
  change _ ↔ x ∈ ((firsts (Factory.pa st c)).map _).map _
  rw [← he, List.map_map, List.mem_map, List.mem_map]
  constructor
  · rintro ⟨p, hp, rfl⟩; exact ⟨p, (Factory.mem_sp c p).2 ⟨h.parents c hc p hp, hp⟩, rfl⟩
  · rintro ⟨p, hp, rfl⟩; exact ⟨p, ((Factory.mem_sp c p).1 hp).2, rfl⟩

/-- **C45**, partial, end to end: if all parents are listed in ascending order, then the posteriors reported for the learned network are
those of the Bayesian network with the relative frequencies as conditional probabilities. -/
theorem c45_exact_partial (st : Dict Str (List Str)) (df : Frame) (h : Factory.Valid st df) (hac : Acyclic df.Names)
    (hs : ∀ c ∈ df.columns, (Factory.pa st c).Pairwise (fun a b => strLe a b = true)) (hl : ∀ c ∈ df.columns, c ∉ Factory.pa st c)
    (hne : df.columns ≠ []) (hconn : ∀ m ∈ df.columns, ∀ n ∈ df.columns, EqvGen (fun p c => c ∈ df.columns ∧ p ∈ Factory.pa st c) m n)
    (vals : Str → List Str) (hvals : ∀ c, df.Lists c (vals c)) (it : SetIter Int) (js : SetIter Str) :
    ∃ b jt d, Factory.fromData st df = .ok b ∧ apply it js b = .ok jt ∧ jt.getPosteriors = .ok d ∧ (∀ k, k ∈ Dict.keys d ↔ k ∈ df.columns) ∧
      ∀ c ∈ df.columns, Dict.get? d c = some ((vals c).map (fun x => (x, netMarginal df.columns vals (Factory.learned st df) c x))) := by
  obtain rfl : vals = Factory.vals df := by
    funext c; exact (hvals c).unique (Factory.lists_vals df c)
  obtain ⟨id, hid, hb⟩ := (Factory.fromData_spec h).1 hac
  have hwf := Factory.named_wf h hid
  obtain ⟨jt, d, h1, h2, h3, h4⟩ := Named.exact hwf (List.Perm.refl df.columns) (Factory.kids_perm h) (fun _ _ => rfl) hl
    (fun c _ => Factory.vals_nodup df c) (by
      intro c hc
      have := Factory.rows_prod h id hc
      rw [product_length_eq, List.map_map] at this
      change _ ≤ (Factory.table st df c).length
      rw [Factory.table_length, List.map_append, List.prod_append]
      unfold rows at this
      refine le_of_eq ?_
      change List.prod (((firsts (Factory.pa st c)).map _).map _) * _ = _
      rw [this]
      simp
      rfl) (fun c _ => Factory.table_nonneg st df c) hne hconn (prob := Factory.learned st df) (by
      intro n hn τ τ' ht
      unfold Factory.learned
      rw [ht n hn, List.map_congr_left (fun p hp => by rw [ht p (h.parents n hn p hp)])]) (by
      intro n hn σ hσ
      change cptAt (Factory.table st df n) ((firsts (Factory.pa st n)).map _) _ σ = _
      rw [← Factory.sp_eq_firsts h hn (hs n hn)]
      exact Factory.table_at h hn σ (fun p hp => hσ p (h.parents n hn p hp)) (hσ n hn)) it js
  exact ⟨_, jt, d, hb, h1, h2, h3, h4⟩

/-- three columns, the third a copy of the first -/
def c45_frame : Frame where
  columns := ["a".toList, "b".toList, "c".toList]
  rows := [["y".toList, "n".toList, "y".toList], ["y".toList, "n".toList, "y".toList], ["y".toList, "y".toList, "y".toList],
    ["n".toList, "n".toList, "n".toList]]

/-- both other columns as parents of the third, in ascending order … -/
def c45_sorted : Dict Str (List Str) := [("a".toList, []), ("b".toList, []), ("c".toList, ["a".toList, "b".toList])]

/-- … and the other way round -/
def c45_unsorted : Dict Str (List Str) := [("a".toList, []), ("b".toList, []), ("c".toList, ["b".toList, "a".toList])]

theorem c45_valid {st : Dict Str (List Str)} (hk : Dict.keys st = c45_frame.columns)
    (hp : ∀ c ∈ c45_frame.columns, ∀ p ∈ Factory.pa st c, p ∈ c45_frame.columns) : Factory.Valid st c45_frame :=
  ⟨by decide +kernel, by rw [hk]; decide +kernel, by intro c; rw [hk], hp⟩

/-- cells that are no column names form no cycle -/
theorem Frame.acyclic_of_apart {df : Frame} (h : ∀ r ∈ df.rows, ∀ c ∈ df.columns, df.cell r c ∉ df.columns) : Acyclic df.Names := by
  intro v hv
  obtain ⟨u, huv, hvu⟩ := TransGen.tail'_iff.1 hv
  obtain ⟨w, hvw, _⟩ := TransGen.head'_iff.1 hv
  obtain ⟨hw, r, hr, e⟩ := hvw
  exact h r hr w hw (e ▸ hvu.1)

theorem c45_apart : Acyclic c45_frame.Names := Frame.acyclic_of_apart (by decide +kernel)

/-- the hypotheses of the theorems above hold for the sorted structure -/
example : Factory.Valid c45_sorted c45_frame ∧ (∀ c ∈ c45_frame.columns, (Factory.pa c45_sorted c).Pairwise (fun a b => strLe a b = true)) ∧
    (∀ c ∈ c45_frame.columns, c ∉ Factory.pa c45_sorted c) ∧ c45_frame.columns ≠ [] ∧
    (∀ m ∈ c45_frame.columns, ∀ n ∈ c45_frame.columns, EqvGen (fun p c => c ∈ c45_frame.columns ∧ p ∈ Factory.pa c45_sorted c) m n) := by
  refine ⟨c45_valid (by decide +kernel) (by decide +kernel), by decide +kernel, by decide +kernel, by decide +kernel, ?_⟩
  have hall : ∀ m ∈ c45_frame.columns, EqvGen (fun p c => c ∈ c45_frame.columns ∧ p ∈ Factory.pa c45_sorted c) m "c".toList := by
    intro m hm
    simp only [c45_frame, List.mem_cons, List.not_mem_nil, or_false] at hm
    rcases hm with rfl | rfl | rfl
    · exact EqvGen.rel _ _ (by decide +kernel)
    · exact EqvGen.rel _ _ (by decide +kernel)
    · exact EqvGen.refl _
  exact fun m hm n hn => EqvGen.trans _ _ _ (hall m hm) (EqvGen.symm _ _ (hall n hn))

/-- what is reported for the third column -/
def c45_report (st : Dict Str (List Str)) : Option (List (Str × ℚ)) :=
  ((Factory.fromData st c45_frame).val?.bind (fun b => (apply SetIter.same SetIter.same b).val?.bind (fun jt => jt.getPosteriors.val?))).bind
    (fun d => Dict.get? d "c".toList)

/-- **C45** is false of the code: the table is laid out with the parents in ascending order, but the network keeps them in the order in
which they are listed. If the parents of the third column are listed as `b, a`, its table is read with the two exchanged: the reported
probability of `c = y` is 17/32 instead of 25/32. -/
theorem c45_false : Factory.Valid c45_unsorted c45_frame ∧ Acyclic c45_frame.Names ∧
    c45_report c45_unsorted = some [("n".toList, 15/32), ("y".toList, 17/32)] ∧
    netMarginal c45_frame.columns (Factory.vals c45_frame) (Factory.learned c45_unsorted c45_frame) "c".toList "y".toList = 25/32 :=
  ⟨c45_valid (by decide +kernel) (by decide +kernel), c45_apart, by decide +kernel, by decide +kernel⟩

/-- with the parents in ascending order the report is right -/
example : c45_report c45_sorted = some [("n".toList, 7/32), ("y".toList, 25/32)] := by decide +kernel

/-! ## C60 -/

/-- **C60**, partial. Missing: data frames in which cells name columns in a cycle (see `c60_false`). For a valid structure `from_data`
succeeds exactly if there is no such cycle, and raises otherwise. -/
theorem c60_accepts_partial (st : Dict Str (List Str)) (df : Frame) (h : Factory.Valid st df) :
    ((∃ b, Factory.fromData st df = .ok b) ↔ Acyclic df.Names) ∧ (¬ Acyclic df.Names → Factory.fromData st df = .error .exception) := by
  obtain ⟨h1, h2⟩ := Factory.fromData_spec h
  refine ⟨⟨?_, ?_⟩, h2⟩
  · rintro ⟨b, hb⟩
    by_contra hna
    rw [h2 hna] at hb
    cases hb
  · intro hac
    obtain ⟨id, _, hb⟩ := h1 hac
    exact ⟨_, hb⟩

/-- **C60**, the other requirements, for arguments of any form: if `from_data` succeeds then the keys of the structure are exactly the
columns, and all parents are columns. Parents or columns that do not exist are never ignored. -/
theorem c60_nothing_ignored (st : Dict Str (List Str)) (df : Frame) (b : Bbn) (h : Factory.fromData st df = .ok b) :
    (∀ c, c ∈ Dict.keys st ↔ c ∈ df.columns) ∧ ∀ kv ∈ st, ∀ p ∈ kv.2, p ∈ df.columns := Factory.fromData_inv h

/-- two columns of which each contains the name of the other -/
def c60_frame : Frame where
  columns := ["from".toList, "to".toList]
  rows := [["to".toList, "x".toList], ["x".toList, "from".toList]]

/-- **C60** is false of the code: `get_n2i` is given the data frame instead of the structure, so that the cells of a column count as its
parents. A structure without any edge over two columns that mention each other is rejected as cyclic. -/
theorem c60_false : Factory.Valid [("from".toList, []), ("to".toList, [])] c60_frame ∧
    Factory.fromData [("from".toList, []), ("to".toList, [])] c60_frame = .error .exception := by
  have hv : Factory.Valid [("from".toList, []), ("to".toList, [])] c60_frame :=
    ⟨by decide +kernel, by decide +kernel, by
      intro c
      have : Dict.keys ([("from".toList, []), ("to".toList, [])] : Dict Str (List Str)) = c60_frame.columns := by decide +kernel
      rw [this], by decide +kernel⟩
  refine ⟨hv, (c60_accepts_partial _ _ hv).2 ?_⟩
  intro hac
  have e1 : c60_frame.Names "to".toList "from".toList := ⟨by decide +kernel, ["to".toList, "x".toList], by decide +kernel, by decide +kernel⟩
  have e2 : c60_frame.Names "from".toList "to".toList := ⟨by decide +kernel, ["x".toList, "from".toList], by decide +kernel, by decide +kernel⟩
  exact hac _ (TransGen.tail (TransGen.single e1) e2)

/-- unknown parents and missing columns raise `KeyError` -/
example : (Factory.fromData [("a".toList, ["z".toList, "b".toList]), ("b".toList, []), ("c".toList, [])] c45_frame).err? = some .keyError ∧
    (Factory.fromData [("a".toList, []), ("b".toList, [])] c45_frame).err? = some .keyError := by decide +kernel

end PyBBN
