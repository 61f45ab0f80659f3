import Verif.Spec.LibDoc
import Verif.Proofs.SameTree

/-! # Reading libpgm documents -/

namespace PyBBN
open Json

/-- reading item by item, both ways -/
theorem mapM_iff {α β : Type} {g : α → Py β} {R : α → β → Prop} (hg : ∀ a b, g a = .ok b ↔ R a b) :
    ∀ (xs : List α) (ys : List β), xs.mapM g = .ok ys ↔ List.Forall₂ R xs ys
  | [], ys => by
      constructor
      · intro h
        injection h with h
        rw [← h]
        exact .nil
      · intro h
        cases h
        rfl
  | a :: xs, ys => by
      rw [List.mapM_cons]
      constructor
      · intro h
        obtain ⟨b, h1, h⟩ := py_bind_inv h
        obtain ⟨bs, h2, h⟩ := py_bind_inv h
        injection h with h
        rw [← h]
        exact .cons ((hg a b).1 h1) ((mapM_iff hg xs bs).1 h2)
      · intro h
        rw [List.forall₂_cons_left_iff] at h
        obtain ⟨b, bs, h1, h2, rfl⟩ := h
        rw [(hg a b).2 h1, (mapM_iff hg xs bs).2 h2]
        rfl

theorem asNum_iff (j : JVal) (q : ℚ) : j.asNum = .ok q ↔ IsNum j q := by
  unfold IsNum
  cases j <;> simp [JVal.asNum, eq_comm]

theorem asStr_iff (j : JVal) (s : Str) : j.asStr = .ok s ↔ j = .str s := by
  cases j <;> simp [JVal.asStr]

theorem asInt_iff (j : JVal) (i : Int) : j.asInt = .ok i ↔ j = .int i := by
  cases j <;> simp [JVal.asInt]

theorem forall_strs (xs : List JVal) (l : List Str) : List.Forall₂ (fun (j : JVal) s => j = .str s) xs l ↔ xs = l.map .str := by
  rw [← List.forall₂_eq_eq_eq, List.forall₂_map_right_iff]

theorem strs_iff (j : JVal) (l : List Str) : (do (← j.listItems).mapM JVal.asStr) = .ok l ↔ IsStrs j l := by
  unfold IsStrs
  cases j with
  | arr xs =>
      show xs.mapM JVal.asStr = _ ↔ _
      rw [mapM_iff asStr_iff, forall_strs]
      simp
  | _ => simp [JVal.listItems, bind, Except.bind]

theorem row_iff (j : JVal) (l : List ℚ) : (do (← j.listItems).mapM JVal.asNum) = .ok l ↔ IsRow j l := by
  unfold IsRow
  cases j with
  | arr xs =>
      show xs.mapM JVal.asNum = _ ↔ _
      rw [mapM_iff asNum_iff]
      simp
  | _ => simp [JVal.listItems, bind, Except.bind]

theorem py_bind_iff {α β : Type} {x : Py α} {f : α → Py β} {b : β} : (x >>= f) = .ok b ↔ ∃ a, x = .ok a ∧ f a = .ok b := by
  cases x with
  | error e => simp [bind, Except.bind]
  | ok a => simp [bind, Except.bind]

theorem CProb.ofJ_iff (j : JVal) (c : CProb) : CProb.ofJ j = .ok c ↔ IsTable j c := by
  cases j with
  | arr xs =>
      unfold CProb.ofJ
      rw [py_bind_iff]
      cases c with
      | list l => 
          simp only [IsTable, IsRow, JVal.arr.injEq, exists_eq_left', Except.ok.injEq, CProb.list.injEq, exists_eq_right]
          exact mapM_iff asNum_iff _ _
      | dict d => simp [IsTable]
  | obj kvs =>
      unfold CProb.ofJ
      rw [py_bind_iff]
      cases c with
      | list l => simp [IsTable, IsRow]
      | dict d =>
          simp only [IsTable, JVal.obj.injEq, exists_eq_left', Except.ok.injEq, CProb.dict.injEq, exists_eq_right]
          apply mapM_iff
          rintro ⟨k, v⟩ ⟨s, r⟩
          cases k with
          | int i => simp
          | str k =>
              simp only [PyKey.str.injEq]
              rw [← row_iff v r, py_bind_iff]
              simp only [py_bind_iff, Except.ok.injEq, Prod.mk.injEq]
              constructor
              · rintro ⟨a, h1, b, h2, rfl, rfl⟩
                exact ⟨rfl, a, h1, h2⟩
              · rintro ⟨rfl, a, h1, h2⟩
                exact ⟨a, h1, _, h2, rfl, rfl⟩
  | _ => cases c <;> simp [CProb.ofJ, IsTable, IsRow]

theorem parentsOfJ_iff (j : JVal) (p : Option (List Str)) : VData.parentsOfJ j = .ok p ↔ (j = .null ∧ p = none) ∨ ∃ ps, p = some ps ∧ IsStrs j ps := by
  cases j with
  | null => cases p <;> simp [VData.parentsOfJ, IsStrs]
  | arr xs =>
      unfold VData.parentsOfJ IsStrs
      rw [py_bind_iff]
      simp only [mapM_iff asStr_iff, forall_strs, Except.ok.injEq, reduceCtorEq, false_and, false_or, JVal.arr.injEq]
      constructor
      · rintro ⟨a, h1, rfl⟩; exact ⟨a, rfl, h1⟩
      · rintro ⟨a, rfl, h1⟩; exact ⟨a, h1, rfl⟩
  | _ => simp [VData.parentsOfJ, IsStrs]

theorem VData.ofJ_iff (j : JVal) (d : VData) : VData.ofJ j = .ok d ↔ IsEntry j d := by
  unfold VData.ofJ
  simp only [py_bind_iff, asInt_iff, CProb.ofJ_iff, parentsOfJ_iff, Except.ok.injEq]
  constructor
  · rintro ⟨v1, h1, o, h2, v2, h3, l2, h4, vs, h5, v6, h6, ps, h7, v8, h8, c, h9, rfl⟩
    exact ⟨by rw [h1, h2], ⟨v2, h3, (strs_iff _ _).1 (py_bind_iff.2 ⟨l2, h4, h5⟩)⟩, ⟨v6, h6, h7⟩, ⟨v8, h8, h9⟩⟩
  · rintro ⟨h1, ⟨v2, h3, h4⟩, ⟨v6, h6, h7⟩, ⟨v8, h8, h9⟩⟩
    obtain ⟨l2, h4, h5⟩ := py_bind_iff.1 ((strs_iff _ _).2 h4)
    exact ⟨_, h1, _, rfl, v2, h3, l2, h4, _, h5, v6, h6, _, h7, v8, h8, _, h9, rfl⟩

theorem LibPgm.ofJ_iff (w : JVal) (bn : LibPgm) : LibPgm.ofJ w = .ok bn ↔ IsLibDoc w bn := by
  have hm : ∀ (kvs : List (PyKey × JVal)) (d : List (Str × VData)), kvs.mapM (fun kv : PyKey × JVal => (do
      match kv.1 with
      | .str k => .ok (k, ← VData.ofJ kv.2)
      | .int _ => .error .typeError : Py (Str × VData))) = .ok d ↔
      List.Forall₂ (fun (kv : PyKey × JVal) (nd : Str × VData) => kv.1 = .str nd.1 ∧ IsEntry kv.2 nd.2) kvs d := by
    apply mapM_iff
    rintro ⟨k, v⟩ ⟨s, d⟩
    cases k with
    | int i => simp
    | str k =>
        simp only [PyKey.str.injEq]
        rw [← VData.ofJ_iff v d, py_bind_iff]
        simp only [Except.ok.injEq, Prod.mk.injEq]
        constructor
        · rintro ⟨a, h1, rfl, rfl⟩; exact ⟨rfl, h1⟩
        · rintro ⟨rfl, h1⟩; exact ⟨d, h1, rfl, rfl⟩
  unfold LibPgm.ofJ
  simp only [py_bind_iff, Except.ok.injEq]
  constructor
  · rintro ⟨v1, h1, l1, h2, V, h3, e, h4, v5, h5, kvs, h6, D, h7, rfl⟩
    refine ⟨⟨v1, h1, (strs_iff _ _).1 (py_bind_iff.2 ⟨l1, h2, h3⟩)⟩, ⟨e, h4⟩, kvs, ?_, (hm _ _).1 h7⟩
    rw [h5]
    cases v5 <;> simp [JVal.dictItems] at h6 ⊢
    exact h6
  · rintro ⟨⟨v1, h1, h2⟩, ⟨e, h4⟩, kvs, h5, h7⟩
    obtain ⟨l1, h2, h3⟩ := py_bind_iff.1 ((strs_iff _ _).2 h2)
    exact ⟨v1, h1, l1, h2, _, h3, e, h4, _, h5, kvs, rfl, _, (hm _ _).2 h7, rfl⟩

end PyBBN
