import Verif.Proofs.JsonPrefix
import Verif.Proofs.Csv

/-! # Networks as JSON text -/

namespace PyBBN
open Json

theorem Dict.set_mapVal {K V W : Type} [DecidableEq K] (f : V → W) (d : Dict K V) (k : K) (v : V) :
    Dict.set (d.map (fun kv => (kv.1, f kv.2))) k (f v) = (Dict.set d k v).map (fun kv => (kv.1, f kv.2)) := by
  induction d with
  | nil => rfl
  | cons a d ih =>
      obtain ⟨k', v'⟩ := a
      simp only [List.map_cons, Dict.set]
      split_ifs
      · rfl
      · rw [ih]; rfl

theorem Dict.ofList_mapVal {K V W : Type} [DecidableEq K] (f : V → W) (l : List (K × V)) :
    Dict.ofList (l.map (fun kv => (kv.1, f kv.2))) = (Dict.ofList l).map (fun kv => (kv.1, f kv.2)) := by
  unfold Dict.ofList
  suffices h : ∀ d : Dict K V, (l.map (fun kv => (kv.1, f kv.2))).foldl (fun d kv => Dict.set d kv.1 kv.2) (d.map (fun kv => (kv.1, f kv.2))) =
      (l.foldl (fun d kv => Dict.set d kv.1 kv.2) d).map (fun kv => (kv.1, f kv.2)) from h []
  induction l with
  | nil => intro d; rfl
  | cons a l ih =>
      intro d
      simp only [List.map_cons, List.foldl_cons]
      rw [Dict.set_mapVal, ih]

theorem jsonList_map {α : Type} (f : α → JVal) (hf : ∀ a, (f a).json = f a) (xs : List α) : JVal.jsonList (xs.map f) = xs.map f := by
  induction xs with
  | nil => rw [List.map_nil, JVal.jsonList]
  | cons a xs ih => rw [List.map_cons, JVal.jsonList, ih, hf]

theorem jsonPairs_map {α : Type} (f : α → JVal) (hf : ∀ a, (f a).json = f a) (kvs : List (PyKey × α)) :
    JVal.jsonPairs (kvs.map (fun kv => (kv.1, f kv.2))) = (kvs.map (fun kv => (kv.1.json, kv.2))).map (fun kv => (kv.1, f kv.2)) := by
  induction kvs with
  | nil => simp only [List.map_nil, JVal.jsonPairs]
  | cons a kvs ih =>
      obtain ⟨k, a⟩ := a
      simp only [List.map_cons, JVal.jsonPairs]
      rw [ih, hf]

theorem VarDict.toJ_json (d : VarDict) : d.toJ.json = d.toJ := by
  unfold VarDict.toJ
  rw [JVal.json]
  simp only [JVal.jsonPairs, JVal.json, PyKey.json]
  rw [jsonList_map _ (fun a => by rw [JVal.json])]
  rfl

theorem NodeDict.toJ_json (d : NodeDict) : d.toJ.json = d.toJ := by
  unfold NodeDict.toJ
  rw [JVal.json]
  simp only [JVal.jsonPairs, JVal.json, PyKey.json]
  rw [jsonList_map _ (fun a => by rw [JVal.json]), VarDict.toJ_json]
  rfl

theorem BbnDict.toJ_json (d : BbnDict) : d.toJ.json = d.json.toJ := by
  unfold BbnDict.toJ
  rw [JVal.json]
  simp only [JVal.jsonPairs, JVal.json, PyKey.json]
  rw [jsonList_map (α := EdgeDict) _ (fun a => by simp only [JVal.json, JVal.jsonPairs, PyKey.json]; rfl), jsonPairs_map _ NodeDict.toJ_json,
    Dict.ofList_mapVal]
  rfl

theorem mapM_back {α : Type} (f : α → JVal) (g : JVal → Py α) (hg : ∀ a, g (f a) = .ok a) (xs : List α) : (xs.map f).mapM g = .ok xs := by
  induction xs with
  | nil => rfl
  | cons a xs ih =>
      rw [List.map_cons, List.mapM_cons, hg, ih]
      rfl

theorem NodeDict.ofJ_toJ (d : NodeDict) : NodeDict.ofJ d.toJ = .ok d := by
  have h1 : (d.variable_.values.map JVal.str).mapM JVal.asStr = .ok d.variable_.values :=
    mapM_back JVal.str JVal.asStr (fun _ => rfl) _
  have h2 : (d.probs.map JVal.flt).mapM JVal.asNum = .ok d.probs :=
    mapM_back JVal.flt JVal.asNum (fun _ => rfl) _
  show (do
    let values ← (d.variable_.values.map JVal.str).mapM JVal.asStr
    let probs ← (d.probs.map JVal.flt).mapM JVal.asNum
    .ok (⟨probs, ⟨d.variable_.id, d.variable_.name, values⟩⟩ : NodeDict)) = _
  rw [h1, h2]
  rfl

theorem BbnDict.ofJ_toJ (d : BbnDict) : BbnDict.ofJ d.toJ = .ok d := by
  have h1 : (d.nodes.map (fun kv => (kv.1, kv.2.toJ))).mapM (fun kv : PyKey × JVal => do .ok (kv.1, ← NodeDict.ofJ kv.2)) = (.ok d.nodes : Py _) := by
    induction d.nodes with
    | nil => rfl
    | cons a l ih =>
        rw [List.map_cons, List.mapM_cons, ih]
        simp only [NodeDict.ofJ_toJ]
        rfl
  have h2 : (d.edges.map (fun e : EdgeDict => JVal.obj [(.str "pa".toList, .int e.pa), (.str "ch".toList, .int e.ch)])).mapM
      (fun e : JVal => do .ok (⟨← (← e.get "pa").asInt, ← (← e.get "ch").asInt⟩ : EdgeDict)) = (.ok d.edges : Py _) := by
    refine mapM_back _ _ ?_ _
    intro e
    rfl
  show (do
    let nodes ← (d.nodes.map (fun kv : PyKey × NodeDict => (kv.1, kv.2.toJ))).mapM (fun kv : PyKey × JVal => do .ok (kv.1, ← NodeDict.ofJ kv.2))
    let edges ← (d.edges.map (fun e : EdgeDict => JVal.obj [(.str "pa".toList, .int e.pa), (.str "ch".toList, .int e.ch)])).mapM
      (fun e : JVal => do .ok (⟨← (← e.get "pa").asInt, ← (← e.get "ch").asInt⟩ : EdgeDict))
    .ok (⟨nodes, edges⟩ : BbnDict)) = _
  rw [h1, h2]
  rfl

theorem printable_cr {s : Str} (h : ∀ c ∈ s, Printable c) : '\r' ∉ s := fun hc => absurd (h _ hc) (by decide)

/-- the text level adds nothing to the dictionary level -/
theorem fromJson_toJson (jf : JsonFloat) (b : Bbn) : Bbn.fromJson jf (b.toJson jf) = Bbn.fromDict b.toDict.json := by
  unfold Bbn.fromJson Bbn.toJson
  rw [univNewlines_id (printable_cr (printable_dumps jf _ _ _)), loads_dumps, BbnDict.toJ_json]
  show (do let d ← BbnDict.ofJ b.toDict.json.toJ; Bbn.fromDict d) = _
  rw [BbnDict.ofJ_toJ]
  rfl

end PyBBN
