import Verif.Model.JsonSort
import Verif.Spec.SameDoc
import Verif.Proofs.JsonNet
import Verif.Proofs.Serde

/-! # Documents that say the same are read as the same network -/

namespace PyBBN
open Json

theorem SameDoc.obj_inv {kvs : List (PyKey × JVal)} {w : JVal} (h : SameDoc (.obj kvs) w) : ∃ mid kvs', w = .obj kvs' ∧ mid.Perm kvs' ∧
    List.Forall₂ (fun a b => a.1 = b.1 ∧ SameDoc a.2 b.2) kvs mid := by
  cases h with
  | obj h1 h2 h3 =>
      refine ⟨_, _, rfl, h3, ?_⟩
      rename_i mid kvs'
      clear h3
      induction kvs generalizing mid with
      | nil => cases mid with
        | nil => exact .nil
        | cons b mid => simp at h1
      | cons a kvs ih =>
          cases mid with
          | nil => simp at h1
          | cons b mid =>
              simp only [List.map_cons, List.cons.injEq] at h1
              rw [List.map_cons, List.map_cons, List.forall₂_cons] at h2
              exact .cons ⟨h1.1, h2.1⟩ (ih h1.2 h2.2)

theorem keys_of_forall {kvs mid : List (PyKey × JVal)} (h : List.Forall₂ (fun a b => a.1 = b.1 ∧ SameDoc a.2 b.2) kvs mid) :
    Dict.keys mid = Dict.keys kvs := by
  induction h with
  | nil => rfl
  | cons a _ ih =>
      unfold Dict.keys at ih ⊢
      rw [List.map_cons, List.map_cons, ih, a.1]

theorem SameDoc.obj_of {kvs mid kvs' : List (PyKey × JVal)} (h : List.Forall₂ (fun a b => a.1 = b.1 ∧ SameDoc a.2 b.2) kvs mid)
    (hp : mid.Perm kvs') : SameDoc (.obj kvs) (.obj kvs') := by
  refine .obj (keys_of_forall h).symm ?_ hp
  rw [List.forall₂_map_left_iff, List.forall₂_map_right_iff]
  exact h.imp (fun _ _ h => h.2)

/-- looking up a key -/
theorem SameDoc.lookup {kvs : List (PyKey × JVal)} {w : JVal} (h : SameDoc (.obj kvs) w) (hn : (Dict.keys kvs).Nodup) (k : String) {v : JVal}
    (hv : (.str k.toList, v) ∈ kvs) : ∃ v', w.get k = .ok v' ∧ SameDoc v v' := by
  obtain ⟨mid, kvs', rfl, hp, hf⟩ := h.obj_inv
  have hm : ∃ v', (PyKey.str k.toList, v') ∈ mid ∧ SameDoc v v' := by
    clear hp hn h
    induction hf with
    | nil => simp at hv
    | @cons a b l l' ha _ ih =>
        rcases List.mem_cons.1 hv with e | hv
        · obtain ⟨b1, b2⟩ := b
          obtain ⟨h1, h2⟩ := ha
          rw [← e] at h1 h2
          simp only at h1 h2
          exact ⟨b2, by rw [h1]; exact List.mem_cons_self, h2⟩
        · obtain ⟨v', h1, h2⟩ := ih hv
          exact ⟨v', List.mem_cons_of_mem _ h1, h2⟩
  obtain ⟨v', h1, h2⟩ := hm
  refine ⟨v', ?_, h2⟩
  have hk : (Dict.keys kvs').Nodup := by
    have h3 := keys_of_forall hf
    rw [← h3] at hn
    exact (hp.map Prod.fst).nodup_iff.1 hn
  show Dict.getItem kvs' (.str k.toList) = _
  unfold Dict.getItem
  rw [Dict.get?_of_mem hk (hp.mem_iff.1 h1)]

theorem SameDoc.arr_inv {xs : List JVal} {w : JVal} (h : SameDoc (.arr xs) w) : ∃ ys, w = .arr ys ∧ List.Forall₂ SameDoc xs ys := by
  cases h with
  | arr h => exact ⟨_, rfl, h⟩

/-- reading a list item by item -/
theorem mapM_same {α : Type} {f : α → JVal} {g : JVal → Py α} (hg : ∀ a w, SameDoc (f a) w → g w = .ok a) :
    ∀ {xs : List α} {ws : List JVal}, List.Forall₂ SameDoc (xs.map f) ws → ws.mapM g = .ok xs
  | [], _, h => by cases h; rfl
  | a :: xs, _, h => by
      rw [List.map_cons, List.forall₂_cons_left_iff] at h
      obtain ⟨w, ws, h1, h2, rfl⟩ := h
      rw [List.mapM_cons, hg a w h1, mapM_same hg h2]
      rfl

theorem SameDoc.list {α : Type} {f : α → JVal} {g : JVal → Py α} (hg : ∀ a w, SameDoc (f a) w → g w = .ok a) {xs : List α} {w : JVal}
    (h : SameDoc (.arr (xs.map f)) w) : ∃ ws, w = .arr ws ∧ ws.mapM g = .ok xs := by
  obtain ⟨ws, rfl, h2⟩ := h.arr_inv
  exact ⟨ws, rfl, mapM_same hg h2⟩

theorem asStr_same (s : Str) (w : JVal) (h : SameDoc (.str s) w) : w.asStr = .ok s := by cases h; rfl
theorem asInt_same (i : Int) (w : JVal) (h : SameDoc (.int i) w) : w.asInt = .ok i := by cases h; rfl
theorem asNum_same (q : ℚ) (w : JVal) (h : SameDoc (.flt q) w) : w.asNum = .ok q := by cases h <;> rfl

theorem NodeDict.ofJ_same {d : NodeDict} {w : JVal} (h : SameDoc d.toJ w) : NodeDict.ofJ w = .ok d := by
  obtain ⟨v, hv, hs⟩ := h.lookup (by simp only [Dict.keys, List.map_cons, List.map_nil]; decide) "variable" (v := d.variable_.toJ) (by simp)
  obtain ⟨i, hi, si⟩ := hs.lookup (by simp only [Dict.keys, List.map_cons, List.map_nil]; decide) "id" (v := .int d.variable_.id) (by simp)
  obtain ⟨n, hn, sn⟩ := hs.lookup (by simp only [Dict.keys, List.map_cons, List.map_nil]; decide) "name" (v := .str d.variable_.name) (by simp)
  obtain ⟨l, hl, sl⟩ := hs.lookup (by simp only [Dict.keys, List.map_cons, List.map_nil]; decide) "values" (v := .arr (d.variable_.values.map .str)) (by simp)
  obtain ⟨p, hp, sp⟩ := h.lookup (by simp only [Dict.keys, List.map_cons, List.map_nil]; decide) "probs" (v := .arr (d.probs.map .flt)) (by simp)
  obtain ⟨ws, rfl, hws⟩ := sl.list asStr_same
  obtain ⟨ps, rfl, hps⟩ := sp.list asNum_same
  unfold NodeDict.ofJ
  simp only [hv, hi, hn, hl, hp, asInt_same _ _ si, asStr_same _ _ sn, bind, Except.bind, JVal.listItems, hws, hps]

theorem EdgeDict.ofJ_same (e : EdgeDict) (w : JVal) (h : SameDoc (.obj [(.str "pa".toList, .int e.pa), (.str "ch".toList, .int e.ch)]) w) :
    (do .ok (⟨← (← w.get "pa").asInt, ← (← w.get "ch").asInt⟩ : EdgeDict) : Py EdgeDict) = .ok e := by
  obtain ⟨p, hp, sp⟩ := h.lookup (by simp only [Dict.keys, List.map_cons, List.map_nil]; decide) "pa" (v := .int e.pa) (by simp)
  obtain ⟨c, hc, sc⟩ := h.lookup (by simp only [Dict.keys, List.map_cons, List.map_nil]; decide) "ch" (v := .int e.ch) (by simp)
  simp only [hp, hc, asInt_same _ _ sp, asInt_same _ _ sc, bind, Except.bind]

theorem BbnDict.ofJ_same {d : BbnDict} {w : JVal} (h : SameDoc d.toJ w) : ∃ nodes, nodes.Perm d.nodes ∧ BbnDict.ofJ w = .ok ⟨nodes, d.edges⟩ := by
  obtain ⟨n, hn, sn⟩ := h.lookup (by simp only [Dict.keys, List.map_cons, List.map_nil]; decide) "nodes" (v := .obj (d.nodes.map (fun kv => (kv.1, kv.2.toJ)))) (by simp)
  obtain ⟨e, he, se⟩ := h.lookup (by simp only [Dict.keys, List.map_cons, List.map_nil]; decide) "edges"
    (v := .arr (d.edges.map (fun e => .obj [(.str "pa".toList, .int e.pa), (.str "ch".toList, .int e.ch)]))) (by simp)
  obtain ⟨es, rfl, hes⟩ := se.list EdgeDict.ofJ_same
  obtain ⟨mid, kvs', rfl, hp, hf⟩ := sn.obj_inv
  have hmid : List.Forall₂ (fun (a : PyKey × JVal) (b : PyKey × NodeDict) => (do .ok (a.1, ← NodeDict.ofJ a.2) : Py (PyKey × NodeDict)) = .ok b) mid d.nodes := by
    rw [List.forall₂_map_left_iff] at hf
    refine hf.flip.imp ?_
    rintro ⟨k, v⟩ ⟨k', m⟩ ⟨h1, h2⟩
    simp only at h1 h2
    simp only [NodeDict.ofJ_same h2, bind, Except.bind, h1]
  obtain ⟨nodes, hf', hp'⟩ := List.perm_comp_forall₂ hp.symm hmid
  refine ⟨nodes, hp', ?_⟩
  have hm : kvs'.mapM (fun kv : PyKey × JVal => do .ok (kv.1, ← NodeDict.ofJ kv.2)) = (.ok nodes : Py _) := by
    clear hp hp' hn sn
    induction hf' with
    | nil => rfl
    | cons a _ ih =>
        rw [List.mapM_cons]
        simp only [bind, Except.bind] at a ih ⊢
        rw [a]
        simp only
        rw [ih]
        rfl
  unfold BbnDict.ofJ
  rw [hn]
  simp only [bind, Except.bind, he, JVal.listItems, JVal.dictItems] at hm hes ⊢
  rw [hm]
  simp only
  rw [hes]

/-- the same network with its nodes in another order -/
theorem BbnInv.reorder {b : Bbn} (h : BbnInv b) {l : Dict Int BbnNode} (hl : l.Perm b.nodes) :
    BbnInv { b with nodes := l } ∧ ∀ i, Dict.get? l i = Dict.get? b.nodes i := by
  have hk : (Dict.keys l).Perm (Dict.keys b.nodes) := hl.map Prod.fst
  have hn : (Dict.keys l).Nodup := hk.nodup_iff.2 h.ginv.nodup
  have hg : ∀ i, Dict.get? l i = Dict.get? b.nodes i := by
    intro i
    cases hx : Dict.get? b.nodes i with
    | some n => exact Dict.get?_of_mem hn (hl.mem_iff.2 (Dict.mem_of_get? hx))
    | none =>
        cases hy : Dict.get? l i with
        | none => rfl
        | some n =>
            rw [Dict.get?_of_mem h.ginv.nodup (hl.mem_iff.1 (Dict.mem_of_get? hy))] at hx
            cases hx
  refine ⟨⟨⟨hn, ?_, ?_, h.ginv.nb, h.ginv.nbNodup⟩, h.emNodup, ⟨h.einv.nodup, h.einv.key, h.einv.em⟩, h.directed, h.listed, h.par, h.parNodup⟩, hg⟩
  · intro k n hkn
    exact h.ginv.key k n ((hg k).symm.trans hkn)
  · intro p c hpc
    have := h.ginv.emNodes p c hpc
    exact ⟨hk.mem_iff.2 this.1, hk.mem_iff.2 this.2⟩

/-- reading a document that says the same -/
theorem fromDict_same {b : Bbn} (h : BbnInv b) (hp : ParInv b.parents) {w : JVal} (hw : SameDoc b.toDict.json.toJ w) :
    ∃ l : Dict Int BbnNode, l.Perm b.nodes ∧ (do Bbn.fromDict (← BbnDict.ofJ w)) = .ok (Bbn.run (Bbn.reload { b with nodes := l })) := by
  obtain ⟨nodes, hn, he⟩ := BbnDict.ofJ_same hw
  have hb := Bbn.toDict_nodes h true
  simp only [if_true] at hb
  rw [hb] at hn
  obtain ⟨l, hl, rfl⟩ : ∃ l : Dict Int BbnNode, l.Perm b.nodes ∧ nodes = l.map (fun kv => (keyOf true kv.1, kv.2.toDict)) := by
    have := congrFun (congrFun (List.eq_map_comp_perm (fun kv : Int × BbnNode => (keyOf true kv.1, kv.2.toDict))) nodes) b.nodes
    obtain ⟨l, h1, h2⟩ := this.symm.mp hn
    exact ⟨l, h2, h1⟩
  refine ⟨l, hl, ?_⟩
  rw [he]
  have hi := (h.reorder hl).1
  have := fromDict_toDict hi hp true
  rw [← this]
  show Bbn.fromDict _ = Bbn.fromDict _
  congr 1
  have h2 := Bbn.toDict_nodes hi true
  simp only [if_true] at h2 ⊢
  have h3 : b.toDict.json.edges = (Bbn.toDict { b with nodes := l }).json.edges := rfl
  rw [h3]
  exact congrArg (fun n => (⟨n, _⟩ : BbnDict)) h2.symm

/-! ## sorted keys -/

mutual
/-- no dictionary in the value has two keys that JSON writes alike -/
def JVal.Distinct : JVal → Prop
  | .arr xs => JVal.DistinctItems xs
  | .obj kvs => (kvs.map (fun kv => kv.1.json)).Nodup ∧ JVal.DistinctPairs kvs
  | _ => True
def JVal.DistinctItems : List JVal → Prop
  | [] => True
  | x :: xs => x.Distinct ∧ JVal.DistinctItems xs
def JVal.DistinctPairs : List (PyKey × JVal) → Prop
  | [] => True
  | (_, x) :: kvs => x.Distinct ∧ JVal.DistinctPairs kvs
end

theorem jsonPairs_eq (kvs : List (PyKey × JVal)) : JVal.jsonPairs kvs = kvs.map (fun kv => (kv.1.json, kv.2.json)) := by
  induction kvs with
  | nil => rw [JVal.jsonPairs]; rfl
  | cons a kvs ih => obtain ⟨k, x⟩ := a; rw [JVal.jsonPairs, ih]; rfl

theorem sortPairs_keys (kvs : List (PyKey × JVal)) : (JVal.sortPairs kvs).map (fun kv => kv.1.json) = kvs.map (fun kv => kv.1.json) := by
  induction kvs with
  | nil => rw [JVal.sortPairs]
  | cons a kvs ih => obtain ⟨k, x⟩ := a; rw [JVal.sortPairs, List.map_cons, ih]; rfl

mutual
theorem sameDoc_sort : ∀ v : JVal, v.Distinct → SameDoc v.json v.sortKeys.json
  | .null, _ => by rw [JVal.sortKeys, JVal.json]; exact .null
  | .bool b, _ => by rw [JVal.sortKeys, JVal.json]; exact .bool b
  | .int i, _ => by rw [JVal.sortKeys, JVal.json]; exact .int i
  | .flt q, _ => by rw [JVal.sortKeys, JVal.json]; exact .flt q
  | .str s, _ => by rw [JVal.sortKeys, JVal.json]; exact .str s
  | .arr xs, h => by
      rw [JVal.Distinct] at h
      rw [JVal.sortKeys, JVal.json, JVal.json]
      exact .arr (sameDoc_items xs h)
  | .obj kvs, h => by
      rw [JVal.Distinct] at h
      rw [JVal.sortKeys, JVal.json, JVal.json]
      have hp := sortBy_perm (fun a b : PyKey × JVal => a.1.le b.1) (JVal.sortPairs kvs)
      have hk : ∀ l : List (PyKey × JVal), (l.map (fun kv => (kv.1.json, kv.2.json))).map Prod.fst = l.map (fun kv => kv.1.json) := by
        intro l
        rw [List.map_map]
        rfl
      have hd := sameDoc_pairs kvs h.2
      rw [jsonPairs_eq, jsonPairs_eq] at hd
      rw [jsonPairs_eq, jsonPairs_eq, Dict.ofList_nodup (by rw [hk]; exact h.1), Dict.ofList_nodup (by
        rw [hk, (hp.map _).nodup_iff, sortPairs_keys]; exact h.1)]
      exact .obj_of hd (hp.symm.map _)
theorem sameDoc_items : ∀ xs : List JVal, JVal.DistinctItems xs → List.Forall₂ SameDoc (JVal.jsonList xs) (JVal.jsonList (JVal.sortItems xs))
  | [], _ => by rw [JVal.sortItems, JVal.jsonList]; exact .nil
  | x :: xs, h => by
      rw [JVal.DistinctItems] at h
      rw [JVal.sortItems, JVal.jsonList, JVal.jsonList]
      exact .cons (sameDoc_sort x h.1) (sameDoc_items xs h.2)
theorem sameDoc_pairs : ∀ kvs : List (PyKey × JVal), JVal.DistinctPairs kvs →
    List.Forall₂ (fun a b => a.1 = b.1 ∧ SameDoc a.2 b.2) (JVal.jsonPairs kvs) (JVal.jsonPairs (JVal.sortPairs kvs))
  | [], _ => by rw [JVal.sortPairs, JVal.jsonPairs]; exact .nil
  | (k, x) :: kvs, h => by
      rw [JVal.DistinctPairs] at h
      rw [JVal.sortPairs, JVal.jsonPairs, JVal.jsonPairs]
      exact .cons ⟨rfl, sameDoc_sort x h.1⟩ (sameDoc_pairs kvs h.2)
end

theorem distinctItems_map {α : Type} (f : α → JVal) (hf : ∀ a, (f a).Distinct) (xs : List α) : JVal.DistinctItems (xs.map f) := by
  induction xs with
  | nil => rw [List.map_nil, JVal.DistinctItems]; trivial
  | cons a xs ih => rw [List.map_cons, JVal.DistinctItems]; exact ⟨hf a, ih⟩

theorem NodeDict.distinct (d : NodeDict) : d.toJ.Distinct := by
  unfold NodeDict.toJ VarDict.toJ
  simp only [JVal.Distinct, JVal.DistinctPairs, List.map_cons, List.map_nil, PyKey.json]
  refine ⟨by decide, distinctItems_map _ (fun a => ?_) _, ⟨by decide, ?_, ?_, distinctItems_map _ (fun a => ?_) _, trivial⟩, trivial⟩ <;> simp [JVal.Distinct]

theorem Bbn.distinct {b : Bbn} (h : BbnInv b) : b.toDict.toJ.Distinct := by
  unfold BbnDict.toJ
  simp only [JVal.Distinct, JVal.DistinctPairs, List.map_cons, List.map_nil, PyKey.json]
  refine ⟨by decide, ⟨?_, ?_⟩, distinctItems_map _ (fun a => ?_) _, trivial⟩
  · have h0 := Bbn.toDict_nodes h false
    have h1 := keyOf_nodup (json := true) h.ginv.nodup (fun _ n => n)
    simp only [Bool.false_eq_true, if_false] at h0
    rw [h0, List.map_map, List.map_map]
    rw [List.map_map] at h1
    exact h1
  · induction b.toDict.nodes with
    | nil => rw [List.map_nil, JVal.DistinctPairs]; trivial
    | cons a l ih => rw [List.map_cons, JVal.DistinctPairs]; exact ⟨NodeDict.distinct _, ih⟩
  · simp only [JVal.Distinct, JVal.DistinctPairs, List.map_cons, List.map_nil, PyKey.json]
    exact ⟨by decide, trivial, trivial, trivial⟩

end PyBBN
