import Verif.Model.CopyLimit
import Verif.Proofs.Limit
import Mathlib.Tactic.Linarith

/-! Copying objects under a recursion limit -/

namespace PyBBN

section
variable {K : Type} [DecidableEq K] (refs : K → List K)

/-- one step of the loops of `copyL` and `copyAllL` -/
def copyStepL (lim : Nat) (m : List K) (y : K) : Py (List K) := if y ∈ m then .ok m else copyL refs lim m y

theorem copyL_succ (lim : Nat) (memo : List K) (x : K) : copyL refs (lim + 1) memo x = (refs x).foldlM (copyStepL refs lim) (memo ++ [x]) := rfl

theorem copyAllL_eq (lim : Nat) (memo l : List K) : copyAllL refs lim memo l = l.foldlM (copyStepL refs lim) memo := rfl

/-- the only error is `RecursionError` -/
theorem copyL_error : ∀ (lim : Nat) (memo : List K) (x : K), copyL refs lim memo x = .error .recursionError ∨ ∃ m, copyL refs lim memo x = .ok m := by
  have hall : ∀ (lim : Nat), (∀ (memo : List K) (x : K), copyL refs lim memo x = .error .recursionError ∨ ∃ m, copyL refs lim memo x = .ok m) →
      ∀ (l memo : List K), l.foldlM (copyStepL refs lim) memo = .error .recursionError ∨ ∃ m, l.foldlM (copyStepL refs lim) memo = .ok m := by
    intro lim ih l
    induction l with
    | nil => intro memo; exact Or.inr ⟨memo, rfl⟩
    | cons y l ih2 =>
      intro memo
      rw [List.foldlM_cons]
      unfold copyStepL
      split
      · exact ih2 memo
      · rcases ih memo y with e | ⟨m, e⟩
        · left; rw [e]; rfl
        · rw [e]; exact ih2 m
  intro lim
  induction lim with
  | zero => intro memo x; exact Or.inl rfl
  | succ lim ih => intro memo x; exact hall lim ih _ _

theorem copyAllL_error (lim : Nat) (l memo : List K) :
    copyAllL refs lim memo l = .error .recursionError ∨ ∃ m, copyAllL refs lim memo l = .ok m := by
  induction l generalizing memo with
  | nil => exact Or.inr ⟨memo, rfl⟩
  | cons y l ih =>
    rw [copyAllL_eq, List.foldlM_cons]
    unfold copyStepL
    split
    · exact ih memo
    · rcases copyL_error refs lim memo y with e | ⟨m, e⟩
      · left; rw [e]; rfl
      · rw [e]; exact ih m

variable {refs}

/-- how many of the objects are not copied yet -/
def uncopied (U m : List K) : Nat := (U.filter (fun x => decide (x ∉ m))).length

theorem uncopied_mono {U m m' : List K} (h : ∀ x ∈ m, x ∈ m') : uncopied U m' ≤ uncopied U m := by
  unfold uncopied
  refine (List.monotone_filter_right U ?_).length_le
  intro x hx
  have hx := of_decide_eq_true hx
  exact decide_eq_true (fun hm => hx (h x hm))

theorem uncopied_lt {U m : List K} {x : K} (hx : x ∈ U) (hm : x ∉ m) : uncopied U (m ++ [x]) < uncopied U m := by
  unfold uncopied
  have e : U.filter (fun y => decide (y ∉ m ++ [x])) = (U.filter (fun y => decide (y ∉ m))).filter (fun y => decide (y ≠ x)) := by
    rw [List.filter_filter]
    apply List.filter_congr
    intro y _
    simp only [List.mem_append, List.mem_cons, List.not_mem_nil, or_false]
    by_cases h1 : y ∈ m <;> by_cases h2 : y = x <;> simp [h1, h2]
  rw [e]
  refine List.length_filter_lt_length_iff_exists.2 ⟨x, List.mem_filter.2 ⟨hx, decide_eq_true hm⟩, by simp⟩

/-- with a nested copy for every object not yet copied, copying succeeds; and it copies everything the object refers to -/
theorem copyL_enough {U : List K} (hU : ∀ x ∈ U, ∀ y ∈ refs x, y ∈ U) : ∀ (lim : Nat) (memo : List K) (x : K), x ∈ U → x ∉ memo →
    uncopied U memo ≤ lim → ∃ m, copyL refs lim memo x = .ok m ∧ ∀ y, (y ∈ memo ∨ y = x) → y ∈ m := by
  intro lim
  induction lim with
  | zero =>
    intro memo x hx hm hl
    have := uncopied_lt hx hm
    omega
  | succ lim ih =>
    intro memo x hx hm hl
    have hlt := uncopied_lt hx hm
    have key : ∀ (l m : List K), (∀ y ∈ l, y ∈ U) → uncopied U m ≤ lim → ∃ m', l.foldlM (copyStepL refs lim) m = .ok m' ∧ ∀ y ∈ m, y ∈ m' := by
      intro l
      induction l with
      | nil => intro m _ _; exact ⟨m, rfl, fun _ h => h⟩
      | cons y l ih2 =>
        intro m hl hc
        rw [List.foldlM_cons]
        unfold copyStepL
        split
        · exact ih2 m (fun z hz => hl z (List.mem_cons_of_mem _ hz)) hc
        · rename_i hy
          obtain ⟨m1, e1, h1⟩ := ih m y (hl y List.mem_cons_self) hy hc
          rw [e1]
          have hmono := uncopied_mono (U := U) (fun z hz => h1 z (Or.inl hz))
          obtain ⟨m2, e2, h2⟩ := ih2 m1 (fun z hz => hl z (List.mem_cons_of_mem _ hz)) (by omega)
          exact ⟨m2, e2, fun z hz => h2 z (h1 z (Or.inl hz))⟩
    obtain ⟨m', e, h⟩ := key (refs x) (memo ++ [x]) (hU x hx) (by omega)
    refine ⟨m', by rw [copyL_succ]; exact e, ?_⟩
    rintro y (hy | rfl)
    · exact h y (by simp [hy])
    · exact h y (by simp)

theorem copyAllL_enough {U : List K} (hU : ∀ x ∈ U, ∀ y ∈ refs x, y ∈ U) {lim : Nat} (l : List K) : ∀ (memo : List K), (∀ y ∈ l, y ∈ U) →
    uncopied U memo ≤ lim → ∃ m, copyAllL refs lim memo l = .ok m ∧ ∀ y ∈ memo, y ∈ m := by
  induction l with
  | nil => intro memo _ _; exact ⟨memo, rfl, fun _ h => h⟩
  | cons y l ih =>
    intro memo hl hc
    rw [copyAllL_eq, List.foldlM_cons]
    unfold copyStepL
    split
    · exact ih memo (fun z hz => hl z (List.mem_cons_of_mem _ hz)) hc
    · rename_i hy
      obtain ⟨m1, e1, h1⟩ := copyL_enough hU lim memo y (hl y List.mem_cons_self) hy hc
      rw [e1]
      have hmono := uncopied_mono (U := U) (fun z hz => h1 z (Or.inl hz))
      obtain ⟨m2, e2, h2⟩ := ih m1 (fun z hz => hl z (List.mem_cons_of_mem _ hz)) (by omega)
      exact ⟨m2, e2, fun z hz => h2 z (h1 z (Or.inl hz))⟩

end

/-- an object that leads on to the next one, none of them copied yet, needs as many nested copies as there are objects left in the chain -/
theorem copyL_long {refs : JObj → List JObj} {n : Nat} (hr : ∀ i : Nat, i < n → ∃ l, refs (.node i) = .node (i + 1 : Nat) :: l) :
    ∀ (lim i : Nat) (memo : List JObj), lim + i ≤ n → (∀ j : Nat, i ≤ j → JObj.node j ∉ memo) → copyL refs lim memo (.node i) = .error .recursionError := by
  intro lim
  induction lim with
  | zero => intro i memo _ _; rfl
  | succ lim ih =>
    intro i memo hi hm
    obtain ⟨l, hl⟩ := hr i (by omega)
    have hni : JObj.node ((i + 1 : Nat) : Int) ∉ memo ++ [JObj.node i] := by
      rw [List.mem_append, List.mem_singleton]
      rintro (h | h)
      · exact hm (i + 1) (by omega) h
      · injection h with h; omega
    rw [copyL_succ, hl, List.foldlM_cons]
    unfold copyStepL
    have e := ih (i + 1) (memo ++ [JObj.node (i : Int)]) (by omega) (by
      intro j hj
      rw [List.mem_append, List.mem_singleton]
      rintro (h | h)
      · exact hm j (by omega) h
      · injection h with h; omega)
    rw [if_neg hni, e]
    rfl

end PyBBN
