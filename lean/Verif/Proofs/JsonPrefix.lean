import Verif.Proofs.Json

/-! # JSON text that was cut off is not a document -/

namespace PyBBN
namespace Json

theorem skipWs_append {r q r' : Str} {d : Char} (h : skipWs r = d :: r') : skipWs (r ++ q) = d :: (r' ++ q) := by
  induction r with
  | nil => cases h
  | cons c r ih =>
      unfold skipWs at h ih ⊢
      rw [List.cons_append]
      by_cases hc : isWs c = true
      · rw [List.dropWhile_cons_of_pos hc] at h ⊢
        exact ih h
      · rw [List.dropWhile_cons_of_neg hc] at h ⊢
        cases h
        rfl

theorem numEnd_of_skipWs {r r' : Str} {d : Char} (h : skipWs r = d :: r') (hd : d.isDigit = false ∧ d ≠ '.' ∧ d ≠ 'e' ∧ d ≠ 'E') :
    r ≠ [] ∧ NumEnd r := by
  cases r with
  | nil => cases h
  | cons c r =>
      refine ⟨by simp, numEnd_cons ?_ _⟩
      unfold skipWs at h
      by_cases hc : isWs c = true
      · simp only [isWs, Bool.or_eq_true, decide_eq_true_eq] at hc
        rcases hc with ((rfl | rfl) | rfl) | rfl <;> decide
      · rw [List.dropWhile_cons_of_neg hc] at h
        cases h
        exact hd

theorem scanHex4_append {s r q : Str} {u : Nat} (h : scanHex4 s = some (u, r)) : scanHex4 (s ++ q) = some (u, r ++ q) := by
  match s with
  | [] => cases h
  | [_] => cases h
  | [_, _] => cases h
  | [_, _, _] => cases h
  | a :: b :: c :: d :: s =>
      simp only [List.cons_append, scanHex4, Option.bind_eq_bind, Option.bind_eq_some_iff, Option.some.injEq, Prod.mk.injEq] at h ⊢
      obtain ⟨a', ha, b', hb, c', hc, d', hd, e1, rfl⟩ := h
      exact ⟨a', ha, b', hb, c', hc, d', hd, e1, rfl⟩

theorem scanEscape_append {s r q : Str} {ch : Char} (h : scanEscape s = some (ch, r)) : scanEscape (s ++ q) = some (ch, r ++ q) := by
  match s with
  | [] => cases h
  | e :: s =>
      by_cases hu : e = 'u'
      · subst hu
        rw [List.cons_append]
        rw [scanEscape_u] at h ⊢
        simp only [Option.bind_eq_bind, Option.bind_eq_some_iff] at h
        obtain ⟨⟨u, r1⟩, h1, h2⟩ := h
        rw [scanHex4_append h1]
        simp only [Option.bind_eq_bind, Option.bind_some] at h2 ⊢
        split_ifs at h2 ⊢ with hx hy
        · match r1 with
          | [] => cases h2
          | [_] => cases h2
          | a :: b :: r1 =>
              simp only [List.cons_append] at h2 ⊢
              split_ifs at h2 ⊢ with hz
              simp only [Option.bind_eq_some_iff] at h2
              obtain ⟨⟨w, r2⟩, h3, h4⟩ := h2
              rw [scanHex4_append h3]
              simp only [Option.bind_some] at h4 ⊢
              split_ifs at h4 ⊢ with hw
              simp only [Option.some.injEq, Prod.mk.injEq] at h4
              obtain ⟨e1, e2⟩ := h4
              rw [e1, e2]
        · cases h2
          rfl
      · rw [List.cons_append]
        simp only [scanEscape] at h ⊢
        rw [if_neg hu] at h ⊢
        split_ifs at h ⊢ <;> first | (cases h; rfl) | cases h

theorem scanStr_append {n : Nat} {s t r q : Str} (h : scanStr n s = some (t, r)) : scanStr n (s ++ q) = some (t, r ++ q) := by
  induction n generalizing s t r with
  | zero => cases h
  | succ n ih =>
      match s with
      | [] => cases h
      | c :: s =>
          rw [List.cons_append]
          rw [scanStr] at h ⊢
          split_ifs at h ⊢ with h1 h2 h3
          · cases h
            rfl
          · simp only [Option.bind_eq_bind, Option.bind_eq_some_iff] at h ⊢
            obtain ⟨⟨ch, r1⟩, e1, ⟨t2, r2⟩, e2, e3⟩ := h
            cases e3
            exact ⟨_, scanEscape_append e1, _, ih e2, rfl⟩
          · simp only [Option.bind_eq_bind, Option.bind_eq_some_iff] at h ⊢
            obtain ⟨⟨t2, r2⟩, e2, e3⟩ := h
            cases e3
            exact ⟨_, ih e2, rfl⟩

theorem scanStr_mono {n : Nat} {s t r : Str} (h : scanStr n s = some (t, r)) : scanStr (n + 1) s = some (t, r) := by
  induction n generalizing s t r with
  | zero => cases h
  | succ n ih =>
      match s with
      | [] => cases h
      | c :: s =>
          rw [scanStr] at h ⊢
          split_ifs at h ⊢ with h1 h2 h3
          · exact h
          · simp only [Option.bind_eq_bind, Option.bind_eq_some_iff] at h ⊢
            obtain ⟨⟨ch, r1⟩, e1, ⟨t2, r2⟩, e2, e3⟩ := h
            exact ⟨_, e1, _, ih e2, e3⟩
          · simp only [Option.bind_eq_bind, Option.bind_eq_some_iff] at h ⊢
            obtain ⟨⟨t2, r2⟩, e2, e3⟩ := h
            exact ⟨_, ih e2, e3⟩

/-! ## numbers -/

theorem mem_takeWhile_digit {s : Str} : ∀ c ∈ s.takeWhile Char.isDigit, c.isDigit = true := fun _ hc => List.mem_takeWhile_imp hc

theorem intPart_split {s ip t : Str} (h : intPart s = some (ip, t)) : s = ip ++ t ∧ IntShape ip := by
  match s with
  | [] => cases h
  | c :: s =>
      rw [intPart] at h
      split_ifs at h with h1 h2
      · cases h
        exact ⟨by rw [h1]; rfl, Or.inl rfl⟩
      · cases h
        refine ⟨by simp [List.takeWhile_append_dropWhile], Or.inr ⟨_, _, rfl, h1, ?_⟩⟩
        intro d hd
        rcases List.mem_cons.1 hd with rfl | hd
        · exact h2
        · exact mem_takeWhile_digit d hd

theorem fracPart_split (s : Str) : s = (fracPart s).1 ++ (fracPart s).2 ∧ FracShape (fracPart s).1 := by
  match s with
  | [] => exact ⟨rfl, Or.inl rfl⟩
  | c :: s =>
      simp only [fracPart]
      split_ifs with h
      · exact ⟨by simp [h.1, List.takeWhile_append_dropWhile], Or.inr ⟨_, rfl, h.2, mem_takeWhile_digit⟩⟩
      · exact ⟨rfl, Or.inl rfl⟩

theorem expSign_split (s : Str) : s = (expSign s).1 ++ (expSign s).2 ∧ ((expSign s).1 = [] ∨ (expSign s).1 = ['+'] ∨ (expSign s).1 = ['-']) := by
  match s with
  | [] => exact ⟨rfl, Or.inl rfl⟩
  | c :: s =>
      simp only [expSign]
      split_ifs with h
      · refine ⟨rfl, Or.inr ?_⟩
        rcases h with rfl | rfl <;> simp
      · exact ⟨rfl, Or.inl rfl⟩

theorem expPart_split (s : Str) : s = (expPart s).1 ++ (expPart s).2 ∧ ExpShape (expPart s).1 := by
  match s with
  | [] => exact ⟨rfl, Or.inl rfl⟩
  | c :: s =>
      simp only [expPart]
      split_ifs with h
      · obtain ⟨h1, h2⟩ := expSign_split s
        refine ⟨?_, Or.inr ⟨_, _, _, rfl, h.1, h2, h.2, mem_takeWhile_digit⟩⟩
        show c :: s = c :: (((expSign s).1 ++ _) ++ _)
        rw [List.append_assoc, List.takeWhile_append_dropWhile, ← h1]
      · exact ⟨rfl, Or.inl rfl⟩

theorem minusSign_split (s : Str) : s = (minusSign s).1 ++ (minusSign s).2 ∧ ((minusSign s).1 = [] ∨ (minusSign s).1 = ['-']) := by
  match s with
  | [] => exact ⟨rfl, Or.inl rfl⟩
  | c :: s =>
      simp only [minusSign]
      split_ifs with h
      · exact ⟨by rw [h]; rfl, Or.inr rfl⟩
      · exact ⟨rfl, Or.inl rfl⟩

theorem number_append {jf : JsonFloat} {s r q : Str} {w : JVal} (h : number jf s = some (w, r)) (hr : r ≠ [] ∧ NumEnd r) :
    number jf (s ++ q) = some (w, r ++ q) := by
  obtain ⟨m1, m2⟩ := minusSign_split s
  cases hi : intPart (minusSign s).2 with
  | none => unfold number at h; rw [hi] at h; cases h
  | some it =>
      obtain ⟨ip, t⟩ := it
      obtain ⟨i1, i2⟩ := intPart_split hi
      obtain ⟨f1, f2⟩ := fracPart_split t
      obtain ⟨e1, e2⟩ := expPart_split (fracPart t).2
      have hrest : r = (expPart (fracPart t).2).2 := by
        unfold number at h
        rw [hi] at h
        simp only [Option.bind_eq_bind, Option.bind_some] at h
        split_ifs at h
        · split at h
          · cases h; rfl
          · cases h
        · split at h
          · cases h; rfl
          · cases h
      have hs : s = (minusSign s).1 ++ (ip ++ ((fracPart t).1 ++ ((expPart (fracPart t).2).1 ++ r))) := by
        rw [hrest, ← e1, ← f1, ← i1, ← m1]
      have hr' : NumEnd (r ++ q) := by
        obtain ⟨h1, h2⟩ := hr
        cases r with
        | nil => exact absurd rfl h1
        | cons c r => exact numEnd_cons (h2 c (by simp)) _
      have k1 := number_of jf m2 i2 f2 e2 hr.2
      have k2 := number_of jf m2 i2 f2 e2 hr'
      rw [← hs, h] at k1
      have hs' : s ++ q = (minusSign s).1 ++ (ip ++ ((fracPart t).1 ++ ((expPart (fracPart t).2).1 ++ (r ++ q)))) := by
        conv_lhs => rw [hs]
        simp
      rw [hs', k2]
      revert k1
      generalize (minusSign s).1 = sg
      generalize (fracPart t).1 = fr
      generalize (expPart (fracPart t).2).1 = ex
      intro k1
      split_ifs at k1 ⊢
      · split at k1
        · cases k1; simp
        · cases k1
      · split at k1
        · cases k1; simp
        · cases k1

/-! ## values -/

theorem word_append {w s r q : Str} {v x : JVal} (h : word w v s = some (x, r)) : word w v (s ++ q) = some (x, r ++ q) := by
  unfold word at h ⊢
  split_ifs at h with h1
  obtain ⟨t, rfl⟩ := List.isPrefixOf_iff_prefix.1 h1
  have : w.isPrefixOf (w ++ t ++ q) = true := List.isPrefixOf_iff_prefix.2 ⟨t ++ q, by simp⟩
  rw [if_pos this]
  cases h
  simp

/-- not a number -/
def NotNum (s : Str) : Prop := ∀ c ∈ s.head?, c ≠ '-' ∧ c.isDigit = false

theorem stable (jf : JsonFloat) (q : Str) (n : Nat) :
    (∀ s w r, value jf n s = some (w, r) → (r ≠ [] ∧ NumEnd r) ∨ NotNum s → value jf n (s ++ q) = some (w, r ++ q)) ∧
    (∀ s xs r, items jf n s = some (xs, r) → items jf n (s ++ q) = some (xs, r ++ q)) ∧
    (∀ s xs r, pairs jf n s = some (xs, r) → pairs jf n (s ++ q) = some (xs, r ++ q)) := by
  induction n with
  | zero => exact ⟨fun s w r h => (by rw [value] at h; cases h), fun s w r h => (by rw [items] at h; cases h), fun s w r h => (by rw [pairs] at h; cases h)⟩
  | succ n ih =>
      obtain ⟨ihv, ihi, ihp⟩ := ih
      refine ⟨?_, ?_, ?_⟩
      · intro s w r h hs
        match s with
        | [] => rw [value] at h; cases h
        | c :: s =>
            rw [List.cons_append]
            rw [value] at h ⊢
            split_ifs at h ⊢ with h1 h2 h3 h4 h5 h6
            · rw [Option.map_eq_some_iff] at h ⊢
              obtain ⟨⟨t, r1⟩, e1, e2⟩ := h
              cases e2
              exact ⟨_, scanStr_append e1, rfl⟩
            · cases hk : skipWs s with
              | nil => rw [hk] at h; cases h
              | cons d r1 =>
                  rw [hk] at h
                  rw [skipWs_append hk]
                  simp only [] at h ⊢
                  split_ifs at h ⊢ with hd
                  · cases h; rfl
                  · rw [Option.map_eq_some_iff] at h ⊢
                    obtain ⟨⟨t, r2⟩, e1, e2⟩ := h
                    cases e2
                    exact ⟨_, ihp _ _ _ e1, rfl⟩
            · cases hk : skipWs s with
              | nil => rw [hk] at h; cases h
              | cons d r1 =>
                  rw [hk] at h
                  rw [skipWs_append hk]
                  simp only [] at h ⊢
                  split_ifs at h ⊢ with hd
                  · cases h; rfl
                  · rw [Option.map_eq_some_iff] at h ⊢
                    obtain ⟨⟨t, r2⟩, e1, e2⟩ := h
                    cases e2
                    exact ⟨_, ihi _ _ _ e1, rfl⟩
            · exact word_append h
            · exact word_append h
            · exact word_append h
            · rcases hs with hs | hs
              · exact number_append h hs
              · exfalso
                obtain ⟨k1, k2⟩ := hs c (by simp)
                have : number jf (c :: s) = none := by
                  unfold number
                  simp only [minusSign, if_neg k1, intPart]
                  have h0 : c ≠ '0' := by rintro rfl; exact absurd k2 (by decide)
                  rw [if_neg h0, if_neg (by simp [k2])]
                  rfl
                rw [this] at h
                cases h
      · intro s xs r h
        rw [items] at h ⊢
        simp only [Option.bind_eq_bind, Option.bind_eq_some_iff] at h ⊢
        obtain ⟨⟨x, r1⟩, e1, e2⟩ := h
        cases hk : skipWs r1 with
        | nil => rw [hk] at e2; cases e2
        | cons d r2 =>
            rw [hk] at e2
            simp only [] at e2
            split_ifs at e2 with h1 h2
            · refine ⟨_, ihv _ _ _ e1 (Or.inl (numEnd_of_skipWs hk (by rw [h1]; decide))), ?_⟩
              simp only [skipWs_append hk, if_pos h1]
              cases e2
              rfl
            · refine ⟨_, ihv _ _ _ e1 (Or.inl (numEnd_of_skipWs hk (by rw [h2]; decide))), ?_⟩
              simp only [skipWs_append hk, if_neg h1, if_pos h2]
              simp only [Option.bind_eq_some_iff] at e2 ⊢
              obtain ⟨⟨ys, r3⟩, e3, e4⟩ := e2
              cases e4
              cases hk2 : skipWs r2 with
              | nil =>
                  rw [hk2] at e3
                  exfalso
                  cases n with
                  | zero => rw [items] at e3; cases e3
                  | succ n =>
                      rw [items] at e3
                      cases n <;> simp [value] at e3
              | cons d2 r4 =>
                  rw [skipWs_append hk2]
                  rw [hk2] at e3
                  exact ⟨_, ihi _ _ _ e3, rfl⟩
      · intro s xs r h
        match s with
        | [] => rw [pairs] at h; cases h
        | c :: s =>
            rw [List.cons_append]
            rw [pairs] at h ⊢
            split_ifs at h ⊢ with h1
            simp only [Option.bind_eq_bind, Option.bind_eq_some_iff] at h ⊢
            obtain ⟨⟨k, r1⟩, e1, e2⟩ := h
            refine ⟨_, scanStr_append e1, ?_⟩
            cases hk : skipWs r1 with
            | nil => rw [hk] at e2; cases e2
            | cons d r2 =>
                rw [hk] at e2
                simp only [skipWs_append hk] at e2 ⊢
                split_ifs at e2 ⊢ with h2
                simp only [Option.bind_eq_some_iff] at e2 ⊢
                obtain ⟨⟨x, r3⟩, e3, e4⟩ := e2
                have hne : ∃ d2 r4, skipWs r2 = d2 :: r4 := by
                  cases hk2 : skipWs r2 with
                  | nil =>
                      rw [hk2] at e3
                      cases n <;> simp [value] at e3
                  | cons d2 r4 => exact ⟨_, _, rfl⟩
                obtain ⟨d2, r4, hk2⟩ := hne
                rw [hk2] at e3
                rw [skipWs_append hk2]
                cases hk3 : skipWs r3 with
                | nil => rw [hk3] at e4; cases e4
                | cons d3 r5 =>
                    rw [hk3] at e4
                    simp only [] at e4
                    split_ifs at e4 with h3 h4
                    · refine ⟨_, ihv _ _ _ e3 (Or.inl (numEnd_of_skipWs hk3 (by rw [h3]; decide))), ?_⟩
                      simp only [skipWs_append hk3, if_pos h3]
                      cases e4
                      rfl
                    · refine ⟨_, ihv _ _ _ e3 (Or.inl (numEnd_of_skipWs hk3 (by rw [h4]; decide))), ?_⟩
                      simp only [skipWs_append hk3, if_neg h3, if_pos h4]
                      simp only [Option.bind_eq_some_iff] at e4 ⊢
                      obtain ⟨⟨ys, r6⟩, e5, e6⟩ := e4
                      cases e6
                      cases hk4 : skipWs r5 with
                      | nil =>
                          rw [hk4] at e5
                          exfalso
                          cases n <;> simp [pairs] at e5
                      | cons d4 r7 =>
                          rw [skipWs_append hk4]
                          rw [hk4] at e5
                          exact ⟨_, ihp _ _ _ e5, rfl⟩

theorem mono_step (jf : JsonFloat) (n : Nat) :
    (∀ s x, value jf n s = some x → value jf (n + 1) s = some x) ∧
    (∀ s x, items jf n s = some x → items jf (n + 1) s = some x) ∧
    (∀ s x, pairs jf n s = some x → pairs jf (n + 1) s = some x) := by
  induction n with
  | zero => exact ⟨fun s x h => (by rw [value] at h; cases h), fun s x h => (by rw [items] at h; cases h), fun s x h => (by rw [pairs] at h; cases h)⟩
  | succ n ih =>
      obtain ⟨ihv, ihi, ihp⟩ := ih
      refine ⟨?_, ?_, ?_⟩
      · intro s x h
        match s with
        | [] => rw [value] at h; cases h
        | c :: s =>
            rw [value] at h ⊢
            split_ifs at h ⊢ with h1 h2 h3 h4 h5 h6
            · rw [Option.map_eq_some_iff] at h ⊢
              obtain ⟨⟨t, r1⟩, e1, e2⟩ := h
              exact ⟨_, scanStr_mono e1, e2⟩
            · cases hk : skipWs s with
              | nil => rw [hk] at h; cases h
              | cons d r1 =>
                  rw [hk] at h
                  simp only [] at h ⊢
                  split_ifs at h ⊢ with hd
                  · exact h
                  · rw [Option.map_eq_some_iff] at h ⊢
                    obtain ⟨t, e1, e2⟩ := h
                    exact ⟨_, ihp _ _ e1, e2⟩
            · cases hk : skipWs s with
              | nil => rw [hk] at h; cases h
              | cons d r1 =>
                  rw [hk] at h
                  simp only [] at h ⊢
                  split_ifs at h ⊢ with hd
                  · exact h
                  · rw [Option.map_eq_some_iff] at h ⊢
                    obtain ⟨t, e1, e2⟩ := h
                    exact ⟨_, ihi _ _ e1, e2⟩
            · exact h
            · exact h
            · exact h
            · exact h
      · intro s x h
        rw [items] at h ⊢
        simp only [Option.bind_eq_bind, Option.bind_eq_some_iff] at h ⊢
        obtain ⟨⟨y, r1⟩, e1, e2⟩ := h
        refine ⟨_, ihv _ _ e1, ?_⟩
        cases hk : skipWs r1 with
        | nil => rw [hk] at e2; cases e2
        | cons d r2 =>
            rw [hk] at e2
            simp only [] at e2 ⊢
            split_ifs at e2 ⊢ with h1 h2
            · exact e2
            · simp only [Option.bind_eq_some_iff] at e2 ⊢
              obtain ⟨z, e3, e4⟩ := e2
              exact ⟨_, ihi _ _ e3, e4⟩
      · intro s x h
        match s with
        | [] => rw [pairs] at h; cases h
        | c :: s =>
            rw [pairs] at h ⊢
            split_ifs at h ⊢ with h1
            simp only [Option.bind_eq_bind, Option.bind_eq_some_iff] at h ⊢
            obtain ⟨⟨k, r1⟩, e1, e2⟩ := h
            refine ⟨_, scanStr_mono e1, ?_⟩
            cases hk : skipWs r1 with
            | nil => rw [hk] at e2; cases e2
            | cons d r2 =>
                rw [hk] at e2
                simp only [] at e2 ⊢
                split_ifs at e2 ⊢ with h2
                simp only [Option.bind_eq_some_iff] at e2 ⊢
                obtain ⟨⟨y, r3⟩, e3, e4⟩ := e2
                refine ⟨_, ihv _ _ e3, ?_⟩
                cases hk3 : skipWs r3 with
                | nil => rw [hk3] at e4; cases e4
                | cons d3 r5 =>
                    rw [hk3] at e4
                    simp only [] at e4 ⊢
                    split_ifs at e4 ⊢ with h3 h4
                    · exact e4
                    · simp only [Option.bind_eq_some_iff] at e4 ⊢
                      obtain ⟨z, e5, e6⟩ := e4
                      exact ⟨_, ihp _ _ e5, e6⟩

theorem value_mono {jf : JsonFloat} {n m : Nat} {s : Str} {x : JVal × Str} (h : value jf n s = some x) (hm : n ≤ m) : value jf m s = some x := by
  induction m, hm using Nat.le_induction with
  | base => exact h
  | succ m _ ih => exact (mono_step jf m).1 _ _ ih

/-- a value that is not a number, followed by anything -/
theorem value_dumps_append (jf : JsonFloat) (ind : Option Nat) (v : JVal) (hv : NotNum (dumps jf ind 0 v)) (q : Str) {n : Nat}
    (hn : (dumps jf ind 0 v).length < n) : value jf n (dumps jf ind 0 v ++ q) = some (v.json, q) := by
  have := value_dumps jf ind v 0 n [] (by intro c hc; simp at hc) hn
  rw [List.append_nil] at this
  exact (stable jf q n).1 _ _ _ this (Or.inr hv)

/-- text that was cut off is rejected -/
theorem loads_prefix (jf : JsonFloat) (ind : Option Nat) (v : JVal) (hv : NotNum (dumps jf ind 0 v)) {p q : Str} (h : p ++ q = dumps jf ind 0 v)
    (hq : q ≠ []) : loads jf p = .error .valueError := by
  have hp : ∀ c ∈ p, Printable c := fun c hc => printable_dumps jf ind v 0 c (by rw [← h]; exact List.mem_append_left _ hc)
  unfold loads
  rw [if_neg (not_bom hp)]
  cases p with
  | nil => simp [skipWs, value]
  | cons c p =>
      obtain ⟨c', r, e, h1, _⟩ := dumps_head jf ind 0 v
      have hc : c' = c := by rw [e, List.cons_append] at h; exact (List.cons.inj h).1.symm
      subst hc
      have hs : skipWs (c' :: p) = c' :: p := by simp [skipWs, h1]
      rw [hs]
      cases hval : value jf ((c' :: p).length + 1) (c' :: p) with
      | none => rfl
      | some wr =>
          exfalso
          obtain ⟨w, r1⟩ := wr
          have hn : NotNum (c' :: p) := by
            intro d hd
            exact hv d (by rw [e]; simpa using hd)
          have h2 := (stable jf q _).1 _ _ _ hval (Or.inr hn)
          have h3 := value_mono h2 (show (c' :: p).length + 1 ≤ (dumps jf ind 0 v).length + 1 by rw [← h, List.length_append]; omega)
          have h4 := value_dumps_append jf ind v hv [] (Nat.lt_succ_self _)
          rw [List.append_nil, ← h] at h4
          rw [← h] at h3
          rw [h3] at h4
          simp only [Option.some.injEq, Prod.mk.injEq, List.append_eq_nil_iff] at h4
          exact hq h4.2.2

/-- text with something behind it is rejected -/
theorem loads_junk (jf : JsonFloat) (ind : Option Nat) (v : JVal) (hv : NotNum (dumps jf ind 0 v)) {q : Str} (hq : ∃ c ∈ q, isWs c = false) :
    loads jf (dumps jf ind 0 v ++ q) = .error .valueError := by
  obtain ⟨c, r, e, h1, _⟩ := dumps_head jf ind 0 v
  have hb : (dumps jf ind 0 v ++ q).head? ≠ some (Char.ofNat 0xfeff) := by
    have := not_bom (printable_dumps jf ind v 0)
    rw [e] at this ⊢
    exact this
  have hs : skipWs (dumps jf ind 0 v ++ q) = dumps jf ind 0 v ++ q := by rw [e]; simp [skipWs, h1]
  have hw : skipWs q ≠ [] := by
    obtain ⟨d, hd, hd2⟩ := hq
    intro h0
    have := List.dropWhile_eq_nil_iff.1 h0 d hd
    rw [hd2] at this
    cases this
  unfold loads
  rw [if_neg hb, hs, value_dumps_append jf ind v hv q (by rw [List.length_append]; omega)]
  simp only []
  rw [if_neg hw]

end Json
end PyBBN
