import Verif.Model.JsonTree
import Verif.Proofs.JsonNet

/-! # Join trees as JSON text -/

namespace PyBBN
open Json

theorem JNodeDict.toJ_json (d : JNodeDict) : d.toJ.json = d.toJ := by
  cases d with
  | clique ids =>
      unfold JNodeDict.toJ
      rw [JVal.json]
      simp only [JVal.jsonPairs, JVal.json, PyKey.json]
      rw [jsonList_map _ (fun a => by rw [JVal.json])]
      rfl
  | sepset l r =>
      unfold JNodeDict.toJ
      rw [JVal.json]
      simp only [JVal.jsonPairs, JVal.json, PyKey.json]
      rfl

theorem jsonPairs_strKeys {α : Type} (f : α → JVal) (hf : ∀ a, (f a).json = f a) (kvs : List (Str × α)) :
    JVal.jsonPairs (kvs.map (fun kv => (PyKey.str kv.1, f kv.2))) = kvs.map (fun kv => (PyKey.str kv.1, f kv.2)) := by
  induction kvs with
  | nil => simp only [List.map_nil, JVal.jsonPairs]
  | cons a kvs ih =>
      obtain ⟨k, a⟩ := a
      simp only [List.map_cons, JVal.jsonPairs, PyKey.json]
      rw [ih, hf]

theorem strKeys_nodup {α : Type} {kvs : List (Str × α)} (f : α → JVal) (h : (kvs.map Prod.fst).Nodup) :
    Dict.ofList (kvs.map (fun kv => (PyKey.str kv.1, f kv.2))) = kvs.map (fun kv => (PyKey.str kv.1, f kv.2)) := by
  refine Dict.ofList_nodup ?_
  rw [List.map_map]
  have : (Prod.fst ∘ fun kv : Str × α => (PyKey.str kv.1, f kv.2)) = PyKey.str ∘ Prod.fst := rfl
  rw [this, ← List.map_map]
  exact h.map (fun a b e => by cases e; rfl)

theorem JtDict.toJ_json (d : JtDict) (hn : (d.nodes.map Prod.fst).Nodup) (hp : (d.parentInfo.map Prod.fst).Nodup) :
    d.toJ.json = d.json.toJ := by
  unfold JtDict.toJ
  rw [JVal.json]
  simp only [JVal.jsonPairs, JVal.json, PyKey.json]
  rw [jsonList_map _ (fun a => by rw [JVal.json]), jsonPairs_map _ NodeDict.toJ_json, Dict.ofList_mapVal,
    jsonPairs_strKeys _ JNodeDict.toJ_json, strKeys_nodup _ hn,
    jsonPairs_strKeys (fun l : List Int => JVal.arr (l.map .int)) (fun l => by rw [JVal.json, jsonList_map _ (fun a => by rw [JVal.json])]),
    strKeys_nodup (fun l : List Int => JVal.arr (l.map .int)) hp]
  rfl

theorem JNodeDict.ofJ_toJ (d : JNodeDict) : JNodeDict.ofJ d.toJ = .ok (some d) := by
  cases d with
  | clique ids =>
      have h1 : (ids.map JVal.int).mapM JVal.asInt = .ok ids := mapM_back JVal.int JVal.asInt (fun _ => rfl) _
      show (do
        let ids ← (ids.map JVal.int).mapM JVal.asInt
        .ok (some (JNodeDict.clique ids))) = _
      rw [h1]
      rfl
  | sepset l r => rfl

theorem JtDict.nodesOfJ_toJ (kvs : Dict Str JNodeDict) : JtDict.nodesOfJ (kvs.map (fun kv => (PyKey.str kv.1, kv.2.toJ))) = .ok kvs := by
  have h : (kvs.map (fun kv => (PyKey.str kv.1, kv.2.toJ))).mapM (fun kv : PyKey × JVal => do
      let k ← kv.1.asStr
      let n ← JNodeDict.ofJ kv.2
      .ok (n.map (fun n => (k, n)))) = (.ok (kvs.map some) : Py (List (Option (Str × JNodeDict)))) := by
    induction kvs with
    | nil => rfl
    | cons a kvs ih =>
        rw [List.map_cons, List.mapM_cons, ih]
        simp only [JNodeDict.ofJ_toJ]
        rfl
  unfold JtDict.nodesOfJ
  rw [h]
  show Except.ok ((kvs.map some).filterMap id) = _
  congr 1
  induction kvs with
  | nil => rfl
  | cons a kvs ih => simp

theorem JtDict.ofJ_toJ (d : JtDict) : JtDict.ofJ d.toJ = .ok d := by
  have h1 : (d.bbnNodes.map (fun kv => (kv.1, kv.2.toJ))).mapM (fun kv : PyKey × JVal => do .ok (kv.1, ← NodeDict.ofJ kv.2)) = (.ok d.bbnNodes : Py _) := by
    induction d.bbnNodes with
    | nil => rfl
    | cons a l ih =>
        rw [List.map_cons, List.mapM_cons, ih]
        simp only [NodeDict.ofJ_toJ]
        rfl
  have h2 := JtDict.nodesOfJ_toJ d.nodes
  have h3 : (d.edges.map JVal.str).mapM JVal.asStr = .ok d.edges := mapM_back JVal.str JVal.asStr (fun _ => rfl) _
  have h4 : (d.parentInfo.map (fun kv => (PyKey.str kv.1, JVal.arr (kv.2.map .int)))).mapM
      (fun kv : PyKey × JVal => do .ok (← kv.1.asStr, ← (← kv.2.listItems).mapM JVal.asInt)) = (.ok d.parentInfo : Py _) := by
    induction d.parentInfo with
    | nil => rfl
    | cons a l ih =>
        rw [List.map_cons, List.mapM_cons, ih]
        have : (a.2.map JVal.int).mapM JVal.asInt = .ok a.2 := mapM_back JVal.int JVal.asInt (fun _ => rfl) _
        simp only [PyKey.asStr, JVal.listItems]
        show (do let l' ← (do let i ← (a.2.map JVal.int).mapM JVal.asInt; Except.ok (a.1, i)); let r ← Except.ok l; pure (l' :: r)) = _
        rw [this]
        rfl
  show (do
    let bbnNodes ← (d.bbnNodes.map (fun kv : PyKey × NodeDict => (kv.1, kv.2.toJ))).mapM (fun kv : PyKey × JVal => do .ok (kv.1, ← NodeDict.ofJ kv.2))
    let nodes ← JtDict.nodesOfJ (d.nodes.map (fun kv : Str × JNodeDict => (PyKey.str kv.1, kv.2.toJ)))
    let edges ← (d.edges.map JVal.str).mapM JVal.asStr
    let info ← (d.parentInfo.map (fun kv : Str × List Int => (PyKey.str kv.1, JVal.arr (kv.2.map .int)))).mapM
      (fun kv : PyKey × JVal => do .ok (← kv.1.asStr, ← (← kv.2.listItems).mapM JVal.asInt))
    .ok (⟨bbnNodes, nodes, edges, info⟩ : JtDict)) = _
  rw [h1, h2, h3, h4]
  rfl

theorem Dict.nodup_fst_ofList {K V : Type} [DecidableEq K] (l : List (K × V)) : ((Dict.ofList l).map Prod.fst).Nodup := by
  unfold Dict.ofList
  suffices H : ∀ (l : List (K × V)) (d : Dict K V), (Dict.keys d).Nodup → (Dict.keys (l.foldl (fun d kv => Dict.set d kv.1 kv.2) d)).Nodup from
    H l [] List.nodup_nil
  intro l
  induction l with
  | nil => exact fun _ h => h
  | cons kv l ih => exact fun d h => ih _ (Dict.nodup_keys_set h _ _)

/-- the text level adds nothing to the dictionary level -/
theorem JoinTree.fromJson_toJson (jf : JsonFloat) (ind : Option Nat) (it : SetIter Int) (js : SetIter Str) (jt : JoinTree) (b : Bbn) :
    JoinTree.fromJson jf js (jt.toJson jf ind it b) = JoinTree.fromDict js (jt.toDict it b).json := by
  unfold JoinTree.fromJson JoinTree.toJson
  rw [loads_dumps, JtDict.toJ_json _ (Dict.nodup_fst_ofList _) (Dict.nodup_fst_ofList _)]
  show (do let d ← JtDict.ofJ (jt.toDict it b).json.toJ; JoinTree.fromDict js d) = _
  rw [JtDict.ofJ_toJ]
  rfl

end PyBBN
