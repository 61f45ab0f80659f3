import Verif.Model.JoinTree
import Verif.Proofs.Dict
import Mathlib.Data.List.TakeWhile

/-! Injectivity of the textual encodings. -/

namespace PyBBN

theorem toDigits_inj {a b : Nat} (h : Nat.toDigits 10 a = Nat.toDigits 10 b) : a = b := by
  rw [← Nat.ofDigitChars_ten_toDigits (n := a), h, Nat.ofDigitChars_ten_toDigits]

theorem toDigits_isDigit {n : Nat} {c : Char} (h : c ∈ Nat.toDigits 10 n) : c.isDigit = true :=
  Nat.isDigit_of_mem_toDigits (by decide) (by decide) h

theorem minus_not_mem_toDigits (n : Nat) : '-' ∉ Nat.toDigits 10 n := by
  intro h
  have := toDigits_isDigit h
  simp [Char.isDigit] at this

theorem toDigits_ne_cons_minus (n : Nat) (l : List Char) : Nat.toDigits 10 n ≠ '-' :: l := by
  intro h
  exact minus_not_mem_toDigits n (by rw [h]; exact List.mem_cons_self)

theorem strInt_ne_nil (n : Int) : strInt n ≠ [] := by
  unfold strInt
  split
  · simp
  · exact Nat.toDigits_ne_nil

theorem strInt_chars {n : Int} {c : Char} (h : c ∈ strInt n) : c = '-' ∨ c.isDigit = true := by
  unfold strInt at h
  split at h
  · rcases List.mem_cons.1 h with h | h
    · exact Or.inl h
    · exact Or.inr (toDigits_isDigit h)
  · exact Or.inr (toDigits_isDigit h)

/-- digits followed by something that does not start with a digit: unique decomposition -/
theorem digits_append_inj {a b : Nat} {X Y : List Char}
    (hX : ∀ c ∈ X.head?, c.isDigit = false) (hY : ∀ c ∈ Y.head?, c.isDigit = false)
    (h : Nat.toDigits 10 a ++ X = Nat.toDigits 10 b ++ Y) : a = b ∧ X = Y := by
  have aux : ∀ (n : Nat) (Z : List Char), (∀ c ∈ Z.head?, c.isDigit = false) →
      (Nat.toDigits 10 n ++ Z).takeWhile Char.isDigit = Nat.toDigits 10 n := by
    intro n Z hZ
    rw [List.takeWhile_append_of_pos (fun c hc => toDigits_isDigit hc)]
    cases Z with
    | nil => simp
    | cons z Z =>
      have : z.isDigit = false := hZ z (by simp)
      simp [this]
  have e := congrArg (List.takeWhile Char.isDigit) h
  rw [aux a X hX, aux b Y hY] at e
  refine ⟨toDigits_inj e, ?_⟩
  rw [e] at h
  exact List.append_cancel_left h

/-- an integer followed by text that does not start with a digit: unique decomposition -/
theorem strInt_append_inj {a b : Int} {X Y : List Char}
    (hX : ∀ c ∈ X.head?, c.isDigit = false) (hY : ∀ c ∈ Y.head?, c.isDigit = false)
    (h : strInt a ++ X = strInt b ++ Y) : a = b ∧ X = Y := by
  unfold strInt at h
  have hne : ∀ n : Nat, ∀ Z W : List Char, Nat.toDigits 10 n ++ Z ≠ '-' :: W := by
    intro n Z W e
    cases hd : Nat.toDigits 10 n with
    | nil => exact Nat.toDigits_ne_nil hd
    | cons d ds =>
      rw [hd] at e
      simp only [List.cons_append, List.cons.injEq] at e
      exact toDigits_ne_cons_minus n ds (by rw [hd, e.1])
  split at h <;> split at h
  · simp only [List.cons_append, List.cons.injEq, true_and] at h
    obtain ⟨e, e2⟩ := digits_append_inj hX hY h
    refine ⟨?_, e2⟩
    omega
  · exact absurd h.symm (hne _ _ _)
  · exact absurd h (hne _ _ _)
  · obtain ⟨e, e2⟩ := digits_append_inj hX hY h
    refine ⟨?_, e2⟩
    omega

theorem strInt_inj {a b : Int} (h : strInt a = strInt b) : a = b := by
  have := strInt_append_inj (a := a) (b := b) (X := []) (Y := []) (by simp) (by simp) (by simpa using h)
  exact this.1

/-- `"-".join(str(x) for x in l)` determines `l`. -/
theorem joinInts_inj : ∀ {l m : List Int},
    joinStr "-".toList (l.map strInt) = joinStr "-".toList (m.map strInt) → l = m
  | [], [], _ => rfl
  | [], [b], h => by simp [joinStr] at h; exact absurd h (strInt_ne_nil b)
  | [], b :: c :: m, h => by
      simp [joinStr] at h
  | [a], [], h => by simp [joinStr] at h; exact absurd h (strInt_ne_nil a)
  | a :: c :: l, [], h => by
      simp [joinStr] at h
  | [a], [b], h => by
      simp only [List.map_cons, List.map_nil, joinStr] at h
      rw [strInt_inj h]
  | [a], b :: c :: m, h => by
      simp only [List.map_cons, List.map_nil, joinStr] at h
      have h2 : strInt a ++ [] = strInt b ++ (['-'] ++ joinStr ['-'] (strInt c :: m.map strInt)) := by
        simpa using h
      have := (strInt_append_inj (by simp) (by simp [Char.isDigit]) h2).2
      simp at this
  | a :: c :: l, [b], h => by
      simp only [List.map_cons, List.map_nil, joinStr] at h
      have h2 : strInt b ++ [] = strInt a ++ (['-'] ++ joinStr ['-'] (strInt c :: l.map strInt)) := by
        simpa using h.symm
      have := (strInt_append_inj (by simp) (by simp [Char.isDigit]) h2).2
      simp at this
  | a :: c :: l, b :: d :: m, h => by
      simp only [List.map_cons, joinStr] at h
      have h2 : strInt a ++ (['-'] ++ joinStr ['-'] (strInt c :: l.map strInt)) =
          strInt b ++ (['-'] ++ joinStr ['-'] (strInt d :: m.map strInt)) := by
        simpa using h
      obtain ⟨e1, e2⟩ := strInt_append_inj (by simp [Char.isDigit]) (by simp [Char.isDigit]) h2
      have e3 : joinStr ['-'] (strInt c :: l.map strInt) = joinStr ['-'] (strInt d :: m.map strInt) := by
        simpa using e2
      have := joinInts_inj (l := c :: l) (m := d :: m) (by simpa using e3)
      rw [e1, this]

/-! Edge keys -/

theorem edgeKey_directed_inj {a b c d : Int}
    (h : strInt a ++ "->".toList ++ strInt b = strInt c ++ "->".toList ++ strInt d) :
    a = c ∧ b = d := by
  have h2 : strInt a ++ ("->".toList ++ strInt b) = strInt c ++ ("->".toList ++ strInt d) := by
    simpa using h
  obtain ⟨e1, e2⟩ := strInt_append_inj (by simp [Char.isDigit]) (by simp [Char.isDigit]) h2
  exact ⟨e1, strInt_inj (List.append_cancel_left e2)⟩

theorem edgeKey_undirected_inj {a b c d : Int}
    (h : strInt a ++ "--".toList ++ strInt b = strInt c ++ "--".toList ++ strInt d) :
    a = c ∧ b = d := by
  have h2 : strInt a ++ ("--".toList ++ strInt b) = strInt c ++ ("--".toList ++ strInt d) := by
    simpa using h
  obtain ⟨e1, e2⟩ := strInt_append_inj (by simp [Char.isDigit]) (by simp [Char.isDigit]) h2
  exact ⟨e1, strInt_inj (List.append_cancel_left e2)⟩

theorem edgeKey_mixed_ne {a b c d : Int} :
    strInt a ++ "->".toList ++ strInt b ≠ strInt c ++ "--".toList ++ strInt d := by
  intro h
  have h2 : strInt a ++ ("->".toList ++ strInt b) = strInt c ++ ("--".toList ++ strInt d) := by
    simpa using h
  obtain ⟨e1, e2⟩ := strInt_append_inj (by simp [Char.isDigit]) (by simp [Char.isDigit]) h2
  simp at e2

/-! ### sorting integers -/

theorem sortInts_perm (l : List Int) : (sortInts l).Perm l := sortBy_perm _ l

theorem sortInts_sorted (l : List Int) : (sortInts l).Pairwise (· ≤ ·) := by
  have := sortBy_sorted (fun a b : Int => decide (a ≤ b)) (by intro a b; simp; omega)
    (by intro a b c; simp; omega) l
  simpa [sortInts] using this

theorem sortInts_strict {l : List Int} (h : l.Nodup) : (sortInts l).Pairwise (· < ·) := by
  have h1 := sortInts_sorted l
  have h2 : (sortInts l).Nodup := (sortInts_perm l).nodup_iff.2 h
  have := h1.and h2
  exact this.imp (fun hab => lt_of_le_of_ne hab.1 hab.2)

/-- strictly increasing lists with the same members are equal -/
theorem eq_of_strict_of_mem : ∀ {l m : List Int}, l.Pairwise (· < ·) → m.Pairwise (· < ·) →
    (∀ x, x ∈ l ↔ x ∈ m) → l = m
  | [], [], _, _, _ => rfl
  | [], b :: m, _, _, h => by have := (h b).2 (by simp); simp at this
  | a :: l, [], _, _, h => by have := (h a).1 (by simp); simp at this
  | a :: l, b :: m, hl, hm, h => by
      rw [List.pairwise_cons] at hl hm
      have hab : a = b := by
        rcases List.mem_cons.1 ((h a).1 (by simp)) with h1 | h1
        · exact h1
        · rcases List.mem_cons.1 ((h b).2 (by simp)) with h2 | h2
          · exact h2.symm
          · have := hl.1 b h2; have := hm.1 a h1; omega
      subst hab
      congr 1
      refine eq_of_strict_of_mem hl.2 hm.2 ?_
      intro x
      constructor
      · intro hx
        rcases List.mem_cons.1 ((h x).1 (by simp [hx])) with rfl | h3
        · have := hl.1 x hx; omega
        · exact h3
      · intro hx
        rcases List.mem_cons.1 ((h x).2 (by simp [hx])) with rfl | h3
        · have := hm.1 x hx; omega
        · exact h3

theorem sortInts_eq_iff {l m : List Int} (hl : l.Nodup) (hm : m.Nodup) :
    sortInts l = sortInts m ↔ ∀ x, x ∈ l ↔ x ∈ m := by
  constructor
  · intro h x
    rw [← (sortInts_perm l).mem_iff, ← (sortInts_perm m).mem_iff, h]
  · intro h
    refine eq_of_strict_of_mem (sortInts_strict hl) (sortInts_strict hm) ?_
    intro x
    rw [(sortInts_perm l).mem_iff, (sortInts_perm m).mem_iff, h]

/-! ### decoding `L ++ I ++ R` by non-ascents -/

/-- the longest strictly ascending prefix -/
def ascPrefix : List Int → List Int
  | [] => []
  | [a] => [a]
  | a :: b :: l => if a < b then a :: ascPrefix (b :: l) else [a]

theorem ascPrefix_strict : ∀ {l : List Int}, l.Pairwise (· < ·) → ascPrefix l = l
  | [], _ => rfl
  | [a], _ => rfl
  | a :: b :: l, h => by
      have hab : a < b := (List.pairwise_cons.1 h).1 b (by simp)
      simp [ascPrefix, hab, ascPrefix_strict (List.pairwise_cons.1 h).2]

theorem ascPrefix_append : ∀ {L X : List Int}, L.Pairwise (· < ·) → L ≠ [] →
    (∀ a ∈ L.getLast?, ∀ b ∈ X.head?, b ≤ a) → ascPrefix (L ++ X) = L
  | [], _, _, h, _ => absurd rfl h
  | [a], [], _, _, _ => rfl
  | [a], b :: X, _, _, h => by
      have : b ≤ a := h a (by simp) b (by simp)
      simp [ascPrefix, not_lt.2 this]
  | a :: b :: L, X, hL, _, h => by
      have hab : a < b := (List.pairwise_cons.1 hL).1 b (by simp)
      have := ascPrefix_append (L := b :: L) (X := X) (List.pairwise_cons.1 hL).2 (by simp) (by
        intro c hc d hd
        refine h c ?_ d hd
        simpa [List.getLast?_cons_cons] using hc)
      simp only [List.cons_append] at this ⊢
      simp [ascPrefix, hab, this]

theorem le_getLast_of_mem : ∀ {L : List Int}, L.Pairwise (· < ·) → ∀ x ∈ L, ∀ a ∈ L.getLast?, x ≤ a
  | [], _, _, hx, _, _ => by simp at hx
  | [c], _, x, hx, a, ha => by
      simp at hx ha; omega
  | c :: d :: L, h, x, hx, a, ha => by
      rw [List.getLast?_cons_cons] at ha
      have ih := le_getLast_of_mem (List.pairwise_cons.1 h).2
      rcases List.mem_cons.1 hx with rfl | hx
      · have h1 : x < d := (List.pairwise_cons.1 h).1 d (by simp)
        have := ih d (by simp) a ha
        omega
      · exact ih x hx a ha

theorem head_le_of_mem {L : List Int} (h : L.Pairwise (· < ·)) (x : Int) (hx : x ∈ L)
    (a : Int) (ha : a ∈ L.head?) : a ≤ x := by
  cases L with
  | nil => simp at hx
  | cons c L =>
    simp at ha; subst ha
    rcases List.mem_cons.1 hx with rfl | hx
    · exact le_refl _
    · exact le_of_lt ((List.pairwise_cons.1 h).1 x hx)

/-- the three segments of a separation set id can be read back -/
theorem sepList_inj {L I R L' I' R' : List Int}
    (hL : L.Pairwise (· < ·)) (hI : I.Pairwise (· < ·)) (hR : R.Pairwise (· < ·))
    (hL' : L'.Pairwise (· < ·)) (hI' : I'.Pairwise (· < ·)) (hR' : R'.Pairwise (· < ·))
    (hne : I ≠ []) (hne' : I' ≠ [])
    (hIL : ∀ x ∈ I, x ∈ L) (hIR : ∀ x ∈ I, x ∈ R)
    (hIL' : ∀ x ∈ I', x ∈ L') (hIR' : ∀ x ∈ I', x ∈ R')
    (h : L ++ I ++ R = L' ++ I' ++ R') : L = L' ∧ I = I' ∧ R = R' := by
  have nn : ∀ {A B : List Int}, A ≠ [] → (∀ x ∈ A, x ∈ B) → B ≠ [] := by
    intro A B hA hAB hB
    cases A with
    | nil => exact hA rfl
    | cons a A => have := hAB a (by simp); rw [hB] at this; simp at this
  have b1 : ∀ {L I R : List Int}, L.Pairwise (· < ·) → I.Pairwise (· < ·) → I ≠ [] →
      (∀ x ∈ I, x ∈ L) → ∀ a ∈ L.getLast?, ∀ b ∈ (I ++ R).head?, b ≤ a := by
    intro L I R hL hI hne hIL a ha b hb
    cases I with
    | nil => exact absurd rfl hne
    | cons i I =>
      simp at hb; subst hb
      exact le_getLast_of_mem hL i (hIL i (by simp)) a ha
  have b2 : ∀ {I R : List Int}, I.Pairwise (· < ·) → R.Pairwise (· < ·) →
      (∀ x ∈ I, x ∈ R) → ∀ a ∈ I.getLast?, ∀ b ∈ R.head?, b ≤ a := by
    intro I R hI hR hIR a ha b hb
    exact head_le_of_mem hR a (hIR a (List.mem_of_getLast? ha)) b hb
  have e1 : L = L' := by
    rw [← ascPrefix_append (L := L) (X := I ++ R) hL (nn hne hIL) (b1 hL hI hne hIL),
      ← List.append_assoc, h, List.append_assoc,
      ascPrefix_append (L := L') (X := I' ++ R') hL' (nn hne' hIL') (b1 hL' hI' hne' hIL')]
  subst e1
  rw [List.append_assoc, List.append_assoc] at h
  have h := List.append_cancel_left h
  have e2 : I = I' := by
    rw [← ascPrefix_append (L := I) (X := R) hI hne (b2 hI hR hIR), h,
      ascPrefix_append (L := I') (X := R') hI' hne' (b2 hI' hR' hIR')]
  subst e2
  exact ⟨rfl, rfl, List.append_cancel_left h⟩

/-- a strictly ascending list is never of the form `L ++ I ++ R` above -/
theorem sepList_ne_strict {L I R C : List Int} (hC : C.Pairwise (· < ·))
    (hne : I ≠ []) (hIL : ∀ x ∈ I, x ∈ L) : C ≠ L ++ I ++ R := by
  intro e
  rw [e, List.append_assoc, List.pairwise_append] at hC
  cases I with
  | nil => exact hne rfl
  | cons i I =>
    have h1 := hC.2.2 i (hIL i (by simp)) i (by simp)
    omega

end PyBBN
