import Verif.Model.Py
import Mathlib.Data.List.Basic
import Mathlib.Data.List.Nodup
import Mathlib.Tactic.Linarith

/-! Lemmas about dictionaries, sets and sorting (no py-bbn content). -/

namespace PyBBN

namespace Dict
variable {K V W : Type} [DecidableEq K]

theorem get?_set (d : Dict K V) (k k' : K) (v : V) :
    get? (set d k v) k' = if k = k' then some v else get? d k' := by
  induction d with
  | nil => simp [set, get?]
  | cons x d ih =>
    obtain ⟨a, b⟩ := x
    by_cases h : a = k
    · subst h
      by_cases h2 : a = k' <;> simp [set, get?, h2]
    · by_cases h2 : a = k'
      · subst h2
        have : ¬ k = a := fun e => h e.symm
        simp [set, get?, h, this]
      · simp [set, get?, h, h2, ih]

@[simp] theorem get?_set_self (d : Dict K V) (k : K) (v : V) : get? (set d k v) k = some v := by
  simp [get?_set]

theorem get?_set_ne (d : Dict K V) {k k' : K} (v : V) (h : k ≠ k') :
    get? (set d k v) k' = get? d k' := by
  simp [get?_set, h]

theorem get?_eq_none_iff (d : Dict K V) (k : K) : get? d k = none ↔ k ∉ keys d := by
  induction d with
  | nil => simp [get?, keys]
  | cons x d ih =>
    obtain ⟨a, b⟩ := x
    by_cases h : a = k
    · simp [get?, keys, h]
    · have : ¬ k = a := fun e => h e.symm
      simp only [keys] at ih
      simp [get?, keys, h, this, ih]

theorem has_iff (d : Dict K V) (k : K) : has d k = true ↔ k ∈ keys d := by
  have := get?_eq_none_iff d k
  unfold has
  cases h : get? d k with
  | none => simp [this.1 h]
  | some v =>
    simp only [Option.isSome_some, true_iff]
    by_contra hc
    simp [this.2 hc] at h

theorem mem_of_get? {d : Dict K V} {k : K} {v : V} (h : get? d k = some v) : (k, v) ∈ d := by
  induction d with
  | nil => simp [get?] at h
  | cons x d ih =>
    obtain ⟨a, b⟩ := x
    by_cases h2 : a = k
    · simp only [get?, h2, if_true, Option.some.injEq] at h
      simp [h2, h]
    · simp only [get?, h2, if_false] at h
      exact List.mem_cons_of_mem _ (ih h)

theorem mem_keys_of_get? {d : Dict K V} {k : K} {v : V} (h : get? d k = some v) : k ∈ keys d :=
  List.mem_map.2 ⟨_, mem_of_get? h, rfl⟩

theorem get?_of_mem {d : Dict K V} {k : K} {v : V} (hn : (keys d).Nodup) (h : (k, v) ∈ d) :
    get? d k = some v := by
  induction d with
  | nil => simp at h
  | cons x d ih =>
    obtain ⟨a, b⟩ := x
    simp only [keys, List.map_cons, List.nodup_cons] at hn
    by_cases h2 : a = k
    · rcases List.mem_cons.1 h with h | h
      · simp only [Prod.mk.injEq] at h
        simp [get?, h2, h.2]
      · exact absurd (List.mem_map.2 ⟨_, h, h2.symm⟩) hn.1
    · rcases List.mem_cons.1 h with h | h
      · simp only [Prod.mk.injEq] at h
        exact absurd h.1.symm h2
      · simp [get?, h2, ih hn.2 h]

theorem get?_eq_some_iff {d : Dict K V} (hn : (keys d).Nodup) (k : K) (v : V) :
    get? d k = some v ↔ (k, v) ∈ d := ⟨mem_of_get?, get?_of_mem hn⟩

theorem exists_get?_of_mem_keys {d : Dict K V} {k : K} (h : k ∈ keys d) : ∃ v, get? d k = some v := by
  cases hh : get? d k with
  | none => exact absurd h ((get?_eq_none_iff d k).1 hh)
  | some v => exact ⟨v, rfl⟩

theorem keys_set (d : Dict K V) (k : K) (v : V) :
    keys (set d k v) = if k ∈ keys d then keys d else keys d ++ [k] := by
  induction d with
  | nil => simp [set, keys]
  | cons x d ih =>
    obtain ⟨a, b⟩ := x
    by_cases h : a = k
    · simp [set, keys, h]
    · have h' : ¬ k = a := fun e => h e.symm
      simp only [keys] at ih
      by_cases hm : k ∈ List.map Prod.fst d
      · simp only [hm, if_true] at ih
        simp [set, keys, h, ih, hm]
      · simp only [hm, if_false] at ih
        simp [set, keys, h, h', ih, hm]

theorem mem_keys_set (d : Dict K V) (k k' : K) (v : V) :
    k' ∈ keys (set d k v) ↔ k' = k ∨ k' ∈ keys d := by
  rw [keys_set]
  split
  · constructor
    · exact Or.inr
    · rintro (h | h)
      · exact h ▸ ‹_›
      · exact h
  · simp [or_comm]

theorem nodup_keys_set {d : Dict K V} (h : (keys d).Nodup) (k : K) (v : V) :
    (keys (set d k v)).Nodup := by
  rw [keys_set]
  split
  · exact h
  · rw [List.nodup_append]
    exact ⟨h, by simp, by simp; rintro a ha rfl; contradiction⟩

theorem get?_setDefault (d : Dict K V) (k k' : K) (v : V) :
    get? (setDefault d k v) k' =
      if k = k' then some ((get? d k).getD v) else get? d k' := by
  unfold setDefault has
  cases h : get? d k with
  | none => simp [get?_set]
  | some w =>
    by_cases hk : k = k'
    · subst hk; simp [h]
    · simp [hk]

theorem keys_setDefault (d : Dict K V) (k : K) (v : V) :
    keys (setDefault d k v) = if k ∈ keys d then keys d else keys d ++ [k] := by
  unfold setDefault
  by_cases h : k ∈ keys d
  · simp [(has_iff d k).2 h, h]
  · have : ¬ has d k = true := fun hh => h ((has_iff d k).1 hh)
    simp [this, keys_set]

theorem mem_keys_setDefault (d : Dict K V) (k k' : K) (v : V) :
    k' ∈ keys (setDefault d k v) ↔ k' = k ∨ k' ∈ keys d := by
  rw [keys_setDefault]
  split
  · constructor
    · exact Or.inr
    · rintro (h | h)
      · exact h ▸ ‹_›
      · exact h
  · simp [or_comm]

theorem nodup_keys_setDefault {d : Dict K V} (h : (keys d).Nodup) (k : K) (v : V) :
    (keys (setDefault d k v)).Nodup := by
  unfold setDefault
  split
  · exact h
  · exact nodup_keys_set h k v

theorem setDefault_of_mem {d : Dict K V} {k : K} (h : k ∈ keys d) (v : V) : setDefault d k v = d := by
  simp [setDefault, (has_iff d k).2 h]

theorem setDefault_of_not_mem {d : Dict K V} {k : K} (h : k ∉ keys d) (v : V) :
    setDefault d k v = d ++ [(k, v)] := by
  have h1 : ¬ has d k = true := fun hh => h ((has_iff d k).1 hh)
  simp only [setDefault, h1]
  induction d with
  | nil => simp [set]
  | cons x d ih =>
    obtain ⟨a, b⟩ := x
    simp only [keys, List.map_cons, List.mem_cons, not_or] at h
    have hne : ¬ a = k := fun e => h.1 e.symm
    simp only [keys] at ih
    have := ih h.2 (fun hh => h.2 ((has_iff d k).1 hh))
    simp [set, hne] at this ⊢
    exact this

theorem set_of_not_mem {d : Dict K V} {k : K} (h : k ∉ keys d) (v : V) :
    set d k v = d ++ [(k, v)] := by
  rw [← setDefault_of_not_mem h v]
  have h1 : ¬ has d k = true := fun hh => h ((has_iff d k).1 hh)
  simp [setDefault, h1]

theorem get?_pop (d : Dict K V) (k k' : K) :
    get? (pop d k) k' = if k = k' then none else get? d k' := by
  induction d with
  | nil => simp [pop, get?]
  | cons x d ih =>
    obtain ⟨a, b⟩ := x
    simp only [pop] at ih
    by_cases h : a = k
    · by_cases h2 : k = k'
      · simp [pop, h, h2] at ih ⊢; exact ih
      · simp [pop, h, h2, get?] at ih ⊢; exact ih
    · by_cases h2 : a = k'
      · have : ¬ k = k' := fun e => h (h2.trans e.symm)
        subst h2
        simp [pop, get?, h, this]
      · simp [pop, get?, h, h2] at ih ⊢; exact ih

theorem mem_keys_pop (d : Dict K V) (k k' : K) : k' ∈ keys (pop d k) ↔ k' ≠ k ∧ k' ∈ keys d := by
  simp only [keys, pop, List.mem_map, List.mem_filter, decide_eq_true_eq]
  constructor
  · rintro ⟨⟨a, b⟩, ⟨hm, hne⟩, rfl⟩
    exact ⟨hne, ⟨_, hm, rfl⟩⟩
  · rintro ⟨hne, ⟨⟨a, b⟩, hm, rfl⟩⟩
    exact ⟨⟨a, b⟩, ⟨hm, hne⟩, rfl⟩

theorem nodup_keys_pop {d : Dict K V} (h : (keys d).Nodup) (k : K) : (keys (pop d k)).Nodup :=
  List.Nodup.sublist (List.Sublist.map _ List.filter_sublist) h

theorem get?_mapVal (d : Dict K V) (f : V → W) (k : K) :
    get? (d.map (fun kv => (kv.1, f kv.2))) k = (get? d k).map f := by
  induction d with
  | nil => rfl
  | cons x d ih =>
    obtain ⟨a, b⟩ := x
    by_cases h : a = k <;> simp [get?, h, ih]

theorem get?_append (d e : Dict K V) (k : K) :
    get? (d ++ e) k = (get? d k).or (get? e k) := by
  induction d with
  | nil => simp [get?]
  | cons x d ih =>
    obtain ⟨a, b⟩ := x
    by_cases h : a = k <;> simp [get?, h, ih]

theorem getItem_ok_iff (d : Dict K V) (k : K) (v : V) : getItem d k = .ok v ↔ get? d k = some v := by
  unfold getItem
  cases get? d k <;> simp

theorem getItem_of_get? {d : Dict K V} {k : K} {v : V} (h : get? d k = some v) :
    getItem d k = .ok v := (getItem_ok_iff d k v).2 h

theorem length_set_of_mem {d : Dict K V} {k : K} (h : k ∈ keys d) (v : V) :
    (set d k v).length = d.length := by
  have := congrArg List.length (keys_set d k v)
  simpa [keys, h, show k ∈ List.map Prod.fst d from h] using this

/-- values of a dictionary with distinct keys are what the keys map to -/
theorem mem_values_iff {d : Dict K V} (hn : (keys d).Nodup) (v : V) :
    v ∈ values d ↔ ∃ k, get? d k = some v := by
  simp only [values, List.mem_map]
  constructor
  · rintro ⟨⟨k, w⟩, hm, rfl⟩
    exact ⟨k, get?_of_mem hn hm⟩
  · rintro ⟨k, h⟩
    exact ⟨_, mem_of_get? h, rfl⟩

end Dict

section Sets
variable {K : Type} [DecidableEq K]

theorem mem_setAdd (s : List K) (x y : K) : y ∈ setAdd s x ↔ y = x ∨ y ∈ s := by
  unfold setAdd
  split
  · constructor
    · exact Or.inr
    · rintro (h | h)
      · exact h ▸ ‹_›
      · exact h
  · simp [or_comm]

theorem nodup_setAdd {s : List K} (h : s.Nodup) (x : K) : (setAdd s x).Nodup := by
  unfold setAdd
  split
  · exact h
  · rw [List.nodup_append]
    exact ⟨h, by simp, by simp; rintro a ha rfl; contradiction⟩

theorem ddGet_ddAdd (d : Dict K (List K)) (k x k' : K) :
    ddGet (ddAdd d k x) k' = if k = k' then setAdd (ddGet d k) x else ddGet d k' := by
  unfold ddGet ddAdd
  rw [Dict.get?_set]
  split <;> simp [ddGet]

theorem mem_ddGet_ddAdd (d : Dict K (List K)) (k x k' y : K) :
    y ∈ ddGet (ddAdd d k x) k' ↔ (k' = k ∧ y = x) ∨ y ∈ ddGet d k' := by
  rw [ddGet_ddAdd]
  split
  · subst_vars; simp [mem_setAdd]
  · rename_i h
    have : ¬ k' = k := fun e => h e.symm
    simp [this]

theorem ddGet_empty (k : K) : ddGet ([] : Dict K (List K)) k = [] := rfl

omit [DecidableEq K] in
theorem SetIter.mem (it : SetIter K) (t : Nat) (k : K) (l : List K) (x : K) :
    x ∈ it.iter t k l ↔ x ∈ l := (it.perm t k l).mem_iff

omit [DecidableEq K] in
theorem SetIter.nodup (it : SetIter K) (t : Nat) (k : K) {l : List K} (h : l.Nodup) :
    (it.iter t k l).Nodup := (it.perm t k l).nodup_iff.2 h

end Sets

section Sorting
variable {α : Type} (le : α → α → Bool)

theorem insertBy_perm (x : α) (l : List α) : (insertBy le x l).Perm (x :: l) := by
  induction l with
  | nil => simp [insertBy]
  | cons y ys ih =>
    unfold insertBy
    split
    · exact List.Perm.refl _
    · exact (List.Perm.cons y ih).trans (List.Perm.swap x y ys)

theorem sortBy_perm (l : List α) : (sortBy le l).Perm l := by
  induction l with
  | nil => simp [sortBy]
  | cons x xs ih => exact (insertBy_perm le x _).trans (List.Perm.cons x ih)

theorem mem_sortBy (l : List α) (x : α) : x ∈ sortBy le l ↔ x ∈ l := (sortBy_perm le l).mem_iff

theorem sortBy_ne_nil {l : List α} (h : l ≠ []) : sortBy le l ≠ [] := by
  intro h2
  have := (sortBy_perm le l).length_eq
  rw [h2] at this
  exact h (List.length_eq_zero_iff.1 this.symm)

theorem insertBy_sorted (total : ∀ a b, le a b = true ∨ le b a = true)
    (trans : ∀ a b c, le a b = true → le b c = true → le a c = true) (x : α) (l : List α)
    (h : l.Pairwise (fun a b => le a b = true)) :
    (insertBy le x l).Pairwise (fun a b => le a b = true) := by
  induction l with
  | nil => simp [insertBy]
  | cons y ys ih =>
    rw [List.pairwise_cons] at h
    unfold insertBy
    split
    · rename_i hxy
      rw [List.pairwise_cons]
      refine ⟨?_, List.pairwise_cons.2 h⟩
      intro a ha
      rcases List.mem_cons.1 ha with rfl | ha
      · exact hxy
      · exact trans _ _ _ hxy (h.1 a ha)
    · rename_i hxy
      rw [List.pairwise_cons]
      refine ⟨?_, ih h.2⟩
      intro a ha
      rcases List.mem_cons.1 ((insertBy_perm le x ys).mem_iff.1 ha) with rfl | ha
      · exact (total a y).resolve_left hxy
      · exact h.1 a ha

theorem sortBy_sorted (total : ∀ a b, le a b = true ∨ le b a = true)
    (trans : ∀ a b c, le a b = true → le b c = true → le a c = true) (l : List α) :
    (sortBy le l).Pairwise (fun a b => le a b = true) := by
  induction l with
  | nil => simp [sortBy]
  | cons x xs ih => exact insertBy_sorted le total trans x _ ih

end Sorting

/-! ### dictionaries built by assignment in a loop -/

theorem get?_foldl_last {K V α : Type} [DecidableEq K] (f : α → K) (g : α → V) (k : K) : ∀ (l : List α) (d : Dict K V),
    Dict.get? (l.foldl (fun d a => Dict.set d (f a) (g a)) d) k =
      match l.reverse.find? (fun a => decide (f a = k)) with
      | some a => some (g a)
      | none => Dict.get? d k
  | [], d => by simp
  | a :: l, d => by
      rw [List.foldl_cons, get?_foldl_last f g k l, List.reverse_cons, List.find?_append]
      cases h : l.reverse.find? (fun a => decide (f a = k)) with
      | some a' => simp
      | none =>
        by_cases e : f a = k
        · subst e; simp [Dict.get?_set_self]
        · simp [e, Dict.get?_set]

/-- … when all entries under the key have the same value -/
theorem get?_foldl_of {K V α : Type} [DecidableEq K] {f : α → K} {g : α → V} {k : K} {v : V} {l : List α} {d : Dict K V}
    (hex : ∃ a ∈ l, f a = k) (hall : ∀ a ∈ l, f a = k → g a = v) :
    Dict.get? (l.foldl (fun d a => Dict.set d (f a) (g a)) d) k = some v := by
  rw [get?_foldl_last]
  cases h : l.reverse.find? (fun a => decide (f a = k)) with
  | none =>
    obtain ⟨a, ha, e⟩ := hex
    have := List.find?_eq_none.1 h a (List.mem_reverse.2 ha)
    simp [e] at this
  | some a =>
    have h1 := List.find?_some h
    have h2 := List.mem_of_find?_eq_some h
    simp only [decide_eq_true_eq] at h1
    show some (g a) = some v
    rw [hall a (List.mem_reverse.1 h2) h1]

end PyBBN
