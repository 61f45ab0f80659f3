import Verif.Proofs.LibDoc
import Verif.Props.Factory
import Verif.Props.Json

/-! # C136: libpgm networks in JSON files -/

namespace PyBBN
open Relation Json InferenceController

theorem fromLibpgmJson_eq {jf : JsonFloat} {t : Str} {w : JVal} {bn : LibPgm} (hw : loads jf t = .ok w) (hd : IsLibDoc w bn) :
    Factory.fromLibpgmJson jf t = bn.toBbn := by
  unfold Factory.fromLibpgmJson Factory.fromLibpgmDictionary
  rw [hw]
  show (do let a ← LibPgm.ofJ w; a.toBbn) = _
  rw [(LibPgm.ofJ_iff w bn).2 hd]
  rfl

/-- **C136**. Let `t` be any text that `json.loads` reads as the document of a libpgm network, with items in any order, with further items and with
numbers in any spelling. Then `from_libpgm_discrete_json` succeeds. The nodes are those of the document, by ascending number; the parents of each
node are those of the document, in its order; and its table gives, for all values of the parents, the row that the document stores under these
values. -/
theorem c136_tables (jf : JsonFloat) {t : Str} {w : JVal} {bn : LibPgm} (hw : loads jf t = .ok w) (hd : IsLibDoc w bn) (h : bn.WF) :
    ∃ b, Factory.fromLibpgmJson jf t = .ok b ∧
    b.vars.Perm (bn.V.map bn.var) ∧ b.vars.Pairwise (fun u v => u.id < v.id) ∧
    ∀ n ∈ bn.V, ∃ node ∈ b.toGraph.getNodes, node.var = bn.var n ∧ b.parentVars (bn.var n).id = (bn.pa n).map bn.var ∧
      ∀ σ, InDom b.vars σ → cptAt node.probs (b.parentVars node.var.id) node.var σ = bn.prob (bn.byName σ) n := by
  rw [fromLibpgmJson_eq hw hd]
  exact c44_tables bn h

/-- **C136**, end to end. For a connected document without negative entries the posteriors reported under each name are the marginal
probabilities that the document defines. -/
theorem c136_exact (jf : JsonFloat) {t : Str} {w : JVal} {bn : LibPgm} (hw : loads jf t = .ok w) (hd : IsLibDoc w bn) (h : bn.WF)
    (hl : ∀ n ∈ bn.V, n ∉ bn.pa n) (hne : bn.V ≠ []) (hpos : ∀ n ∈ bn.V, ∀ combo r, bn.row n combo = some r → ∀ q ∈ r, 0 ≤ q)
    (hconn : ∀ m ∈ bn.V, ∀ n ∈ bn.V, EqvGen (fun p c => c ∈ bn.V ∧ p ∈ bn.pa c) m n) (it : SetIter Int) (js : SetIter Str) :
    ∃ b jt d, Factory.fromLibpgmJson jf t = .ok b ∧ apply it js b = .ok jt ∧ jt.getPosteriors = .ok d ∧ (∀ k, k ∈ Dict.keys d ↔ k ∈ bn.V) ∧
      ∀ n ∈ bn.V, Dict.get? d n = some ((bn.data n).vals.map (fun x => (x, bn.marginal n x))) := by
  rw [fromLibpgmJson_eq hw hd]
  exact c44_exact bn h hl hne hpos hconn it js

/-- **C136**, the other direction, for texts of any form: if the conversion succeeds then the text is JSON and the document of a network, the
entries are those of the nodes, parents are nodes, and there is a row for all values of the parents of every node. -/
theorem c136_only (jf : JsonFloat) {t : Str} {b : Bbn} (h : Factory.fromLibpgmJson jf t = .ok b) :
    ∃ w bn, loads jf t = .ok w ∧ IsLibDoc w bn ∧ bn.toBbn = .ok b ∧
    (∀ n, n ∈ bn.V ↔ n ∈ Dict.keys bn.Vdata) ∧ (∀ n ∈ bn.V, ∀ p ∈ bn.pa n, p ∈ bn.V) ∧
    ∀ n ∈ bn.V, ∀ combo, List.Forall₂ (fun p v => v ∈ (bn.data p).vals) (bn.pa n) combo → ∃ r, bn.row n combo = some r := by
  obtain ⟨w, h1, h2⟩ := py_bind_inv h
  obtain ⟨bn, h3, h4⟩ := py_bind_inv h2
  obtain ⟨a, b, c⟩ := c44_nothing_missing bn b h4
  exact ⟨w, bn, h1, (LibPgm.ofJ_iff w bn).1 h3, h4, a, b, c⟩

/-- **C136**. A file that another program wrote with `json.dumps` and that is cut off anywhere, or followed by anything but blanks, raises a
`ValueError`. -/
theorem c136_cut (jf : JsonFloat) (ind : Option Nat) (kvs : List (PyKey × JVal)) :
    (∀ k < (dumps jf ind 0 (.obj kvs)).length, Factory.fromLibpgmJson jf ((dumps jf ind 0 (.obj kvs)).take k) = .error .valueError) ∧
    ∀ tail : Str, (∃ c ∈ tail, c ≠ ' ' ∧ c ≠ '\t' ∧ c ≠ '\n' ∧ c ≠ '\r') →
      Factory.fromLibpgmJson jf (dumps jf ind 0 (.obj kvs) ++ tail) = .error .valueError := by
  have hn : NotNum (dumps jf ind 0 (.obj kvs)) := by
    intro c hc
    rcases kvs with _ | ⟨⟨k, x⟩, kvs⟩ <;>
    · rw [dumps] at hc
      simp only [List.head?_cons, Option.mem_def, Option.some.injEq] at hc
      subst hc
      decide
  constructor
  · intro k hk
    unfold Factory.fromLibpgmJson
    rw [loads_prefix jf ind _ hn (List.take_append_drop k _) (by
      intro h
      have := congrArg List.length h
      simp only [List.length_drop, List.length_nil] at this
      omega)]
    rfl
  · rintro tail ⟨c, hc, h1, h2, h3, h4⟩
    unfold Factory.fromLibpgmJson
    rw [loads_junk jf ind _ hn ⟨c, hc, by simp [isWs, h1, h2, h3, h4]⟩]
    rfl

/-! ## The claims are not vacuous -/

/-- strings -/
def c136_strs (l : List String) : JVal := .arr (l.map (fun s => .str s.toList))

/-- a libpgm document as libpgm writes it, with items that are never read -/
def c136_doc : JVal :=
  .obj [(.str "V".toList, c136_strs ["grade", "talent", "test"]),
    (.str "E".toList, .arr [c136_strs ["test", "grade"], c136_strs ["talent", "grade"]]),
    (.str "Vdata".toList, .obj [
      (.str "test".toList, .obj [(.str "ord".toList, .int 1), (.str "numoutcomes".toList, .int 2), (.str "vals".toList, c136_strs ["easy", "hard"]),
        (.str "parents".toList, .null), (.str "children".toList, c136_strs ["grade"]), (.str "cprob".toList, .arr [.flt (3/5), .flt (2/5)])]),
      (.str "grade".toList, .obj [(.str "vals".toList, c136_strs ["A", "B", "C"]), (.str "ord".toList, .int 2), (.str "numoutcomes".toList, .int 3),
        (.str "cprob".toList, .obj [
          (.str "['hard', 'low']".toList, .arr [.flt (1/20), .flt (1/4), .flt (7/10)]),
          (.str "['easy', 'low']".toList, .arr [.flt (3/10), .flt (2/5), .flt (3/10)]),
          (.str "['easy', 'high']".toList, .arr [.flt (9/10), .flt (2/25), .flt (1/50)]),
          (.str "['hard', 'high']".toList, .arr [.flt (1/2), .flt (3/10), .flt (1/5)])]),
        (.str "parents".toList, c136_strs ["test", "talent"]), (.str "children".toList, .null)]),
      (.str "talent".toList, .obj [(.str "ord".toList, .int 0), (.str "vals".toList, c136_strs ["low", "high"]), (.str "parents".toList, .arr []),
        (.str "cprob".toList, .arr [.flt (7/10), .flt (3/10)])])])]

theorem c136_doc_json : c136_doc.json = c136_doc := by
  simp only [c136_doc, c136_strs, List.map_cons, List.map_nil, JVal.json, JVal.jsonPairs, JVal.jsonList, PyKey.json]
  rfl

theorem c136_doc_is : IsLibDoc c136_doc c44_doc := (LibPgm.ofJ_iff _ _).1 rfl

theorem c136_loads : loads pointFloat (dumps pointFloat (some 2) 0 c136_doc) = .ok c136_doc := by rw [loads_dumps, c136_doc_json]

example := c136_tables pointFloat c136_loads c136_doc_is c44_doc_wf

example := c136_exact pointFloat c136_loads c136_doc_is c44_doc_wf c44_doc_exact.1 c44_doc_exact.2.1 c44_doc_exact.2.2.1 c44_doc_exact.2.2.2 .rev .same

/-- the file read: the nodes by number and the table of `grade`; the reading of the file without its last character -/
example : (Factory.fromLibpgmJson pointFloat (dumps pointFloat (some 2) 0 c136_doc)).val?.map (fun b =>
      (b.toGraph.getNodes.map (fun n => String.ofList n.var.name), (Dict.get? b.nodes 2).map BbnNode.probs)) =
      some (["talent", "test", "grade"], some [3/10, 2/5, 3/10, 9/10, 2/25, 1/50, 1/20, 1/4, 7/10, 1/2, 3/10, 1/5]) ∧
    (Factory.fromLibpgmJson pointFloat (dumps pointFloat none 0 c136_doc).dropLast).err? = some .valueError := by
  decide +kernel

/-- whole numbers without a fraction; without `E` the conversion fails, although `E` is not used -/
example :
    (Factory.fromLibpgmJson pointFloat
      "{\"Vdata\":{\"a\":{\"cprob\":[1,0],\"parents\":null,\"vals\":[\"x\",\"y\"],\"ord\":5}},\"E\":[],\"V\":[\"a\"]}".toList).val?.map
      (fun b => b.toGraph.getNodes) = some [⟨⟨5, "a".toList, ["x".toList, "y".toList]⟩, [1, 0]⟩] ∧
    (Factory.fromLibpgmJson pointFloat
      "{\"Vdata\":{\"a\":{\"cprob\":[1,0],\"parents\":null,\"vals\":[\"x\",\"y\"],\"ord\":5}},\"V\":[\"a\"]}".toList).err? = some .keyError := by
  decide +kernel

end PyBBN
