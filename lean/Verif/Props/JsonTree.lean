import Verif.Proofs.JsonTree
import Verif.Props.Json
import Verif.Props.Reapply

/-! # C133: join trees saved as JSON text -/

namespace PyBBN
open Json InferenceController

/-- **C133**. A join tree of a session on a connected network (fresh, or after evidence, `reapply` or an earlier round trip), saved with
`json.dumps(JoinTree.to_dict(jt, bbn))`, with or without indentation, loaded with `JoinTree.from_dict(json.loads(text))` and run with
`apply_from_serde`: the same cliques and separation sets, no evidence, and from then on exact answers to every history of evidence, whatever
characters the names and values contain. -/
theorem c133_text (jf : JsonFloat) (ind : Option Nat) {ops : List BOp} {jt : JoinTree} (hs : Session ops jt) (hconn : ConnectedOps ops)
    (it : SetIter Int) (js js' : SetIter Str) :
    ∃ jt1 jt', JoinTree.fromJson jf js (jt.toJson jf ind it (Bbn.run ops)) = .ok jt1 ∧ applyFromSerde js' jt1 = .ok jt' ∧
      (jt'.getCliques.map Clique.id).Perm (jt.getCliques.map Clique.id) ∧
      (∀ c ∈ jt.getCliques, ∃ c' ∈ jt'.getCliques, c'.id = c.id ∧ c'.nodes.Perm c.nodes) ∧
      (jt'.getSepSets.map SepSet.id).Perm (jt.getSepSets.map SepSet.id) ∧
      (∀ x y, y ∈ ddGet jt'.neighbors x ↔ y ∈ ddGet jt.neighbors x) ∧
      (∀ v ∈ (Bbn.run ops).vars, Dict.get? jt'.evidences v.id = some (v.values.map (fun x => (x, 1)))) ∧
      (∀ h, (∀ op ∈ h, op.2.Ok (Bbn.run ops).vars) → ∀ v ∈ (Bbn.run ops).vars,
        (runHist jt' h).getBbnPotential v = .ok (posteriorTable (Bbn.run ops) (specHist (Bbn.run ops).vars h) v)) := by
  obtain ⟨jt', ⟨jt1, h1, h2⟩, a, b, c, _, e, f, _, _, g⟩ := c30_connected_partial hs hconn it js js' true
  refine ⟨jt1, jt', ?_, h2, a, b, c, e, f, g⟩
  rw [JoinTree.fromJson_toJson]
  exact h1

/-- **C133**. If the text of a join tree is cut off anywhere before its end, or followed by anything but blanks, loading it raises a `ValueError`:
it is never taken for another join tree. -/
theorem c133_cut (jf : JsonFloat) (ind : Option Nat) (jt : JoinTree) (b : Bbn) (it : SetIter Int) (js : SetIter Str) :
    (∀ k < (jt.toJson jf ind it b).length, JoinTree.fromJson jf js ((jt.toJson jf ind it b).take k) = .error .valueError) ∧
    ∀ tail : Str, (∃ c ∈ tail, c ≠ ' ' ∧ c ≠ '\t' ∧ c ≠ '\n' ∧ c ≠ '\r') →
      JoinTree.fromJson jf js (jt.toJson jf ind it b ++ tail) = .error .valueError := by
  have hn : NotNum (dumps jf ind 0 (jt.toDict it b).toJ) := by
    intro c hc
    unfold JtDict.toJ at hc
    rw [dumps] at hc
    simp only [List.head?_cons, Option.mem_def, Option.some.injEq] at hc
    subst hc
    decide
  constructor
  · intro k hk
    unfold JoinTree.fromJson
    unfold JoinTree.toJson at hk ⊢
    rw [loads_prefix jf ind _ hn (List.take_append_drop k _) (by
      intro h
      have := congrArg List.length h
      simp only [List.length_drop, List.length_nil] at this
      omega)]
    rfl
  · rintro tail ⟨c, hc, h1, h2, h3, h4⟩
    unfold JoinTree.fromJson JoinTree.toJson
    rw [loads_junk jf ind _ hn ⟨c, hc, by simp [isWs, h1, h2, h3, h4]⟩]
    rfl

/-! ## The claims are not vacuous -/

example := c133_text pointFloat (some 2) c28_session c16_connected .rev .rev .same

/-- the length of the text of a join tree with evidence; read back, the priors of node 4; cut off, an error -/
example :
    ((apply .rev .same (Bbn.run c16_ops)).val?.bind (fun jt =>
      let text := (runHist jt c18_hist).toJson pointFloat none .rev (Bbn.run c16_ops)
      (JoinTree.fromJson pointFloat .rev text).val?.bind (fun j1 => (applyFromSerde .same j1).val?.bind (fun j =>
        (j.getBbnPotential (c16_node 4)).val?.map (fun P => (decide (500 < text.length), j.getCliques.map Clique.nodeIds, P.map PEntry.value,
          (JoinTree.fromJson pointFloat .rev (text.take 500)).err?)))))) =
      some (true, [[0, 1, 2], [1, 3, 2], [4, 3]], [447 / 640, 193 / 640], some .valueError) := by
  decide +kernel

/-- the text of the smallest join tree -/
example : ((apply .same .same (Bbn.run [.addNode (mkNode 0 "a\"" [1/2, 1/2])])).val?.map (fun jt =>
      String.ofList (jt.toJson pointFloat none .same (Bbn.run [.addNode (mkNode 0 "a\"" [1/2, 1/2])])))) =
    some "{\"bbn_nodes\": {\"0\": {\"probs\": [1.2, 1.2], \"variable\": {\"id\": 0, \"name\": \"a\\\"\", \"values\": [\"on\", \"off\"]}}}, \"jt\": {\"nodes\": {\"0\": {\"node_ids\": [0], \"type\": \"clique\"}}, \"edges\": [], \"parent_info\": {}}}" := by
  decide +kernel

end PyBBN
