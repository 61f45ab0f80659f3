import Verif.Proofs.SameDoc
import Verif.Proofs.JsonTree
import Verif.Proofs.SerdeTree

/-! # Join trees read from documents that say the same -/

namespace PyBBN
open Json

theorem Dict.get?_perm {K V : Type} [DecidableEq K] {d d' : Dict K V} (hn : (Dict.keys d).Nodup) (hp : List.Perm d' d) (i : K) :
    Dict.get? d' i = Dict.get? d i := by
  have hn' : (Dict.keys d').Nodup := (hp.map Prod.fst).nodup_iff.2 hn
  cases hx : Dict.get? d i with
  | some n => exact Dict.get?_of_mem hn' (hp.mem_iff.2 (Dict.mem_of_get? hx))
  | none =>
      cases hy : Dict.get? d' i with
      | none => rfl
      | some n =>
          rw [Dict.get?_of_mem hn (hp.mem_iff.1 (Dict.mem_of_get? hy))] at hx
          cases hx

theorem mapM_forall {α β : Type} {f : α → Py β} : ∀ {xs : List α} {ys : List β}, xs.mapM f = .ok ys ↔ List.Forall₂ (fun a b => f a = .ok b) xs ys
  | [], ys => by
      constructor
      · intro h
        cases h
        exact .nil
      · intro h
        cases h
        rfl
  | x :: xs, ys => by
      rw [List.mapM_cons, List.forall₂_cons_left_iff]
      constructor
      · intro h
        cases hx : f x with
        | error e => rw [hx] at h; cases h
        | ok b =>
            rw [hx] at h
            cases hr : xs.mapM f with
            | error e => rw [hr] at h; cases h
            | ok bs =>
                rw [hr] at h
                cases h
                exact ⟨b, bs, rfl, mapM_forall.1 hr, rfl⟩
      · rintro ⟨b, bs, h1, h2, rfl⟩
        rw [h1, mapM_forall.2 h2]
        rfl

/-- a permuted list is read item by item as a permuted list -/
theorem mapM_perm {α β : Type} {f : α → Py β} {xs xs' : List α} {ys : List β} (hp : xs'.Perm xs) (h : xs.mapM f = .ok ys) :
    ∃ ys', xs'.mapM f = .ok ys' ∧ ys'.Perm ys := by
  obtain ⟨ys', h1, h2⟩ := List.perm_comp_forall₂ hp (mapM_forall.1 h)
  exact ⟨ys', mapM_forall.2 h1, h2⟩

theorem lookupNode_perm {V : Type} {d d' : Dict PyKey V} (hn : (Dict.keys d).Nodup) (hp : List.Perm d' d) (i : Int) : lookupNode d' i = lookupNode d i := by
  unfold lookupNode Dict.has Dict.getItem
  simp only [Dict.get?_perm hn hp]

theorem py_bind_inv {α β : Type} {x : Py α} {f : α → Py β} {b : β} (h : x >>= f = .ok b) : ∃ a, x = .ok a ∧ f a = .ok b := by
  cases x with
  | error e => cases h
  | ok a => exact ⟨a, rfl, h⟩

theorem py_bind_ok {α β : Type} (a : α) (f : α → Py β) : (Except.ok a >>= f : Py β) = f a := rfl

/-- `from_dict` on dictionaries with permuted nodes of the network and other parents -/
theorem JoinTree.fromDict_congr (js : SetIter Str) {d d' : JtDict} (hB : List.Perm d'.bbnNodes d.bbnNodes) (hk : (Dict.keys d.bbnNodes).Nodup)
    (hv : (d.bbnNodes.map (fun kv => kv.2.variable_.id)).Nodup) (hN : d'.nodes = d.nodes) (hE : d'.edges = d.edges)
    {info' : List (Int × List Int)} (hi' : d'.parentInfo.mapM (fun kv => do let k ← parseInt kv.1; (.ok (k, kv.2) : Py (Int × List Int))) = .ok info')
    {j : JoinTree} (hj : JoinTree.fromDict js d = .ok j) :
    ∃ h, JoinTree.fromDict js d' = .ok { j with parentInfo := Dict.ofList info', heap := h } ∧ ∀ i, Dict.get? h i = Dict.get? j.heap i := by
  have b1 : List.Perm (d'.bbnNodes.map (fun kv => (kv.1, kv.2.toNode))) (d.bbnNodes.map (fun kv => (kv.1, kv.2.toNode))) := hB.map _
  have n1 : ((d.bbnNodes.map (fun kv => (kv.1, kv.2.toNode))).map Prod.fst).Nodup := by rw [List.map_map]; exact hk
  have n2 : ((d'.bbnNodes.map (fun kv => (kv.1, kv.2.toNode))).map Prod.fst).Nodup := (b1.map Prod.fst).nodup_iff.2 n1
  have hl : lookupNode (d'.bbnNodes.map (fun kv => (kv.1, kv.2.toNode)) : Dict PyKey BbnNode) =
      lookupNode (d.bbnNodes.map (fun kv => (kv.1, kv.2.toNode)) : Dict PyKey BbnNode) := funext (fun i => lookupNode_perm n1 b1 i)
  have b2 := b1.map (fun kn : PyKey × BbnNode => (kn.2.var.id, ({ probs := kn.2.probs } : NodeObj)))
  have n3 : (((d.bbnNodes.map (fun kv => (kv.1, kv.2.toNode))).map (fun kn : PyKey × BbnNode => (kn.2.var.id, ({ probs := kn.2.probs } : NodeObj)))).map Prod.fst).Nodup := by
    rw [List.map_map, List.map_map]
    exact hv
  have n4 := (b2.map Prod.fst).nodup_iff.2 n3
  unfold JoinTree.fromDict at hj ⊢
  rw [Dict.ofList_nodup n1] at hj
  rw [Dict.ofList_nodup n2, hN, hE]
  dsimp only at hj ⊢
  rw [hl]
  obtain ⟨cl, hcl, hj⟩ := py_bind_inv hj
  obtain ⟨sl, hsl, hj⟩ := py_bind_inv hj
  obtain ⟨es, hes, hj⟩ := py_bind_inv hj
  obtain ⟨info, hinfo, hj⟩ := py_bind_inv hj
  injection hj with hj
  refine ⟨Dict.ofList ((d'.bbnNodes.map (fun kv => (kv.1, kv.2.toNode))).map
    (fun kn : PyKey × BbnNode => (kn.2.var.id, ({ probs := kn.2.probs } : NodeObj)))), ?_, ?_⟩
  · rw [hcl, py_bind_ok, hsl, py_bind_ok, hes, py_bind_ok, hi', py_bind_ok, ← hj]
  · intro i
    rw [← hj]
    show Dict.get? (Dict.ofList _) i = Dict.get? (Dict.ofList _) i
    rw [Dict.ofList_nodup n3, Dict.ofList_nodup n4]
    exact Dict.get?_perm n3 b2 i

/-! ## reading the document of a join tree -/

/-- reading the items of a dictionary -/
theorem SameDoc.objMap {α β : Type} {enc : α → PyKey × JVal} {g : PyKey × JVal → Py β} {r : α → β}
    (hg : ∀ x kv, (enc x).1 = kv.1 → SameDoc (enc x).2 kv.2 → g kv = .ok (r x)) {xs : List α} {w : JVal} (h : SameDoc (.obj (xs.map enc)) w) :
    ∃ kvs ys, w = .obj kvs ∧ List.Perm ys xs ∧ kvs.mapM g = .ok (ys.map r) := by
  obtain ⟨mid, kvs', rfl, hp, hf⟩ := h.obj_inv
  have hmid : List.Forall₂ (fun (a : PyKey × JVal) (x : α) => g a = .ok (r x)) mid xs := by
    rw [List.forall₂_map_left_iff] at hf
    exact hf.flip.imp (fun kv x hx => hg x kv hx.1 hx.2)
  obtain ⟨ys, hf', hp'⟩ := List.perm_comp_forall₂ hp.symm hmid
  refine ⟨kvs', ys, rfl, hp', ?_⟩
  clear hp hp' h
  induction hf' with
  | nil => rfl
  | cons a _ ih =>
      rw [List.mapM_cons, a, ih]
      rfl

theorem JNodeDict.ofJ_same {d : JNodeDict} {w : JVal} (h : SameDoc d.toJ w) : JNodeDict.ofJ w = .ok (some d) := by
  cases d with
  | clique ids =>
      unfold JNodeDict.toJ at h
      obtain ⟨i, hi, si⟩ := h.lookup (by simp only [Dict.keys, List.map_cons, List.map_nil]; decide) "node_ids" (v := .arr (ids.map .int)) (by simp)
      obtain ⟨t, ht, st⟩ := h.lookup (by simp only [Dict.keys, List.map_cons, List.map_nil]; decide) "type" (v := .str "clique".toList) (by simp)
      obtain ⟨ws, rfl, hws⟩ := si.list asInt_same
      unfold JNodeDict.ofJ
      simp only [hi, ht, asStr_same _ _ st, bind, Except.bind, JVal.listItems, hws, if_true]
  | sepset l r =>
      unfold JNodeDict.toJ at h
      obtain ⟨i, hi, si⟩ := h.lookup (by simp only [Dict.keys, List.map_cons, List.map_nil]; decide) "left" (v := .str l) (by simp)
      obtain ⟨j, hj, sj⟩ := h.lookup (by simp only [Dict.keys, List.map_cons, List.map_nil]; decide) "right" (v := .str r) (by simp)
      obtain ⟨t, ht, st⟩ := h.lookup (by simp only [Dict.keys, List.map_cons, List.map_nil]; decide) "type" (v := .str "sepset".toList) (by simp)
      have hne : ¬ ("sepset".toList = "clique".toList) := by decide
      unfold JNodeDict.ofJ
      simp only [hi, hj, ht, asStr_same _ _ st, asStr_same _ _ si, asStr_same _ _ sj, bind, Except.bind, if_true, if_neg hne]

theorem JtDict.ofJ_same {d : JtDict} {w : JVal} (h : SameDoc d.toJ w) : ∃ d', JtDict.ofJ w = .ok d' ∧ List.Perm d'.bbnNodes d.bbnNodes ∧
    List.Perm d'.nodes d.nodes ∧ d'.edges = d.edges ∧ List.Perm d'.parentInfo d.parentInfo := by
  unfold JtDict.toJ at h
  obtain ⟨n, hn, sn⟩ := h.lookup (by simp only [Dict.keys, List.map_cons, List.map_nil]; decide) "bbn_nodes"
    (v := .obj (d.bbnNodes.map (fun kv => (kv.1, kv.2.toJ)))) (by simp)
  obtain ⟨t, ht, st⟩ := h.lookup (by simp only [Dict.keys, List.map_cons, List.map_nil]; decide) "jt" (v := .obj [
      (.str "nodes".toList, .obj (d.nodes.map (fun kv => (PyKey.str kv.1, kv.2.toJ)))),
      (.str "edges".toList, .arr (d.edges.map .str)),
      (.str "parent_info".toList, .obj (d.parentInfo.map (fun kv => (PyKey.str kv.1, JVal.arr (kv.2.map .int)))))]) (by simp)
  obtain ⟨m, hm, sm⟩ := st.lookup (by simp only [Dict.keys, List.map_cons, List.map_nil]; decide) "nodes"
    (v := .obj (d.nodes.map (fun kv => (PyKey.str kv.1, kv.2.toJ)))) (by simp)
  obtain ⟨e, he, se⟩ := st.lookup (by simp only [Dict.keys, List.map_cons, List.map_nil]; decide) "edges" (v := .arr (d.edges.map .str)) (by simp)
  obtain ⟨p, hp, sp⟩ := st.lookup (by simp only [Dict.keys, List.map_cons, List.map_nil]; decide) "parent_info"
    (v := .obj (d.parentInfo.map (fun kv => (PyKey.str kv.1, JVal.arr (kv.2.map .int))))) (by simp)
  obtain ⟨es, rfl, hes⟩ := se.list asStr_same
  obtain ⟨k1, y1, rfl, p1, m1⟩ := sn.objMap (g := fun kv : PyKey × JVal => (do .ok (kv.1, ← NodeDict.ofJ kv.2) : Py (PyKey × NodeDict))) (r := fun x => x) (by
    rintro ⟨k, x⟩ ⟨k', v⟩ h1 h2
    simp only at h1 h2
    simp only [NodeDict.ofJ_same h2, bind, Except.bind, h1])
  obtain ⟨k2, y2, rfl, p2, m2⟩ := sm.objMap (g := fun kv : PyKey × JVal => (do
      let k ← kv.1.asStr
      let n ← JNodeDict.ofJ kv.2
      .ok (n.map (fun n => (k, n))) : Py (Option (Str × JNodeDict)))) (r := fun x => some x) (by
    rintro ⟨k, x⟩ ⟨k', v⟩ h1 h2
    simp only at h1 h2
    subst h1
    simp only [JNodeDict.ofJ_same h2, bind, Except.bind, PyKey.asStr, Option.map_some])
  obtain ⟨k3, y3, rfl, p3, m3⟩ := sp.objMap (g := fun kv : PyKey × JVal => (do .ok (← kv.1.asStr, ← (← kv.2.listItems).mapM JVal.asInt) : Py (Str × List Int)))
    (r := fun x => x) (by
    rintro ⟨k, x⟩ ⟨k', v⟩ h1 h2
    simp only at h1 h2
    subst h1
    obtain ⟨ws, rfl, hws⟩ := h2.list asInt_same
    simp only [bind, Except.bind, PyKey.asStr, JVal.listItems, hws])
  have m2' : JtDict.nodesOfJ k2 = .ok y2 := by
    unfold JtDict.nodesOfJ
    rw [m2]
    show Except.ok ((y2.map some).filterMap id) = _
    congr 1
    clear m2 p2
    induction y2 with
    | nil => rfl
    | cons a l ih => simp
  rw [List.map_id'] at m1 m3
  refine ⟨⟨y1, y2, d.edges, y3⟩, ?_, p1, p2, rfl, p3⟩
  unfold JtDict.ofJ
  simp only [hn, ht, hm, he, hp, bind, Except.bind, JVal.dictItems, JVal.listItems, m2', hes] at m1 m3 ⊢
  rw [m1]
  simp only
  rw [m3]

/-! ## sorted keys -/

theorem distinctPairs_map {α : Type} (f : α → PyKey × JVal) (hf : ∀ a, (f a).2.Distinct) (xs : List α) : JVal.DistinctPairs (xs.map f) := by
  induction xs with
  | nil => rw [List.map_nil, JVal.DistinctPairs]; trivial
  | cons a xs ih => rw [List.map_cons, JVal.DistinctPairs]; exact ⟨hf a, ih⟩

theorem JNodeDict.distinct (d : JNodeDict) : d.toJ.Distinct := by
  cases d with
  | clique ids =>
      unfold JNodeDict.toJ
      simp only [JVal.Distinct, JVal.DistinctPairs, List.map_cons, List.map_nil, PyKey.json]
      exact ⟨by decide, distinctItems_map _ (fun a => by simp [JVal.Distinct]) _, trivial, trivial⟩
  | sepset l r =>
      unfold JNodeDict.toJ
      simp only [JVal.Distinct, JVal.DistinctPairs, List.map_cons, List.map_nil, PyKey.json]
      exact ⟨by decide, trivial, trivial, trivial, trivial⟩

theorem JtDict.distinct (d : JtDict) (hb : (d.bbnNodes.map (fun kv => kv.1.json)).Nodup) (hn : (d.nodes.map Prod.fst).Nodup)
    (hp : (d.parentInfo.map Prod.fst).Nodup) : d.toJ.Distinct := by
  have hstr : ∀ {α : Type} (f : α → JVal) (l : List (Str × α)), (l.map Prod.fst).Nodup →
      ((l.map (fun kv => (PyKey.str kv.1, f kv.2))).map (fun kv => kv.1.json)).Nodup := by
    intro α f l h
    rw [List.map_map]
    have e : ((fun kv : PyKey × JVal => kv.1.json) ∘ fun kv : Str × α => (PyKey.str kv.1, f kv.2)) = PyKey.str ∘ Prod.fst := rfl
    rw [e, ← List.map_map]
    exact h.map (fun a b e => by cases e; rfl)
  unfold JtDict.toJ
  simp only [JVal.Distinct, JVal.DistinctPairs, List.map_cons, List.map_nil, PyKey.json]
  refine ⟨by decide, ⟨?_, distinctPairs_map _ (fun a => NodeDict.distinct _) _⟩, ⟨by decide,
    ⟨hstr _ _ hn, distinctPairs_map _ (fun a => JNodeDict.distinct _) _⟩, distinctItems_map _ (fun a => by simp [JVal.Distinct]) _,
    ⟨hstr (fun l : List Int => JVal.arr (l.map .int)) _ hp, distinctPairs_map _ (fun a => ?_) _⟩, trivial⟩, trivial⟩
  · rw [List.map_map]
    exact hb
  · simp only [JVal.Distinct]
    exact distinctItems_map _ (fun a => by simp [JVal.Distinct]) _

end PyBBN
