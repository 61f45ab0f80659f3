import Verif.Proofs.Text
import Verif.Props.Evidence
import Mathlib.Data.List.Forall2

/-! # Printed tables: C86 -/

namespace PyBBN
open Relation InferenceController

/-- **C86**, numbers: what is printed is the decimal number nearest to the value; of two, the one with an even last digit. -/
theorem c86_number {k : Nat} (hk : 0 < k) (q : ℚ) :
    ∃ m : ℤ, readNumber (fixedText k q) = some ((m : ℚ) / 10 ^ k) ∧ Nearest k q m := readNumber_fixed hk q

example : readNumber (fixedText 5 (2/3)) = some (66667 / 10 ^ 5) ∧ Nearest 5 (2/3) 66667 ∧ fixedText 5 (2/3) = "0.66667".toList :=
  ⟨by decide +kernel, ⟨by norm_num [abs_of_pos], by norm_num [abs_of_pos]⟩, by decide +kernel⟩

/-- ties go to the even digit, in both directions -/
example : fixedText 5 (1/200000) = "0.00000".toList ∧ fixedText 5 (3/200000) = "0.00002".toList ∧
    fixedText 3 (-1/16) = "-0.062".toList := by decide +kernel

/-- the printed number is determined by the value -/
theorem Nearest.unique {k : Nat} {q q' : ℚ} {m m' : ℤ} (h : Nearest k q m) (h' : Nearest k q' m') (hq : q ≤ q') : m ≤ m' := by
  by_contra hc
  have hlt : m' + 1 ≤ m := by omega
  have hltq : (m' : ℚ) + 1 ≤ m := by exact_mod_cast hlt
  have hp : (0 : ℚ) < 10 ^ k := by positivity
  have hqq : q * 10 ^ k ≤ q' * 10 ^ k := mul_le_mul_of_nonneg_right hq hp.le
  have a1 := abs_le.1 h.near
  have a2 := abs_le.1 h'.near
  have e1 : (m : ℚ) - q * 10 ^ k = 1 / 2 := by linarith [a1.1, a1.2, a2.1, a2.2]
  have e2 : (m' : ℚ) - q' * 10 ^ k = -(1 / 2) := by linarith [a1.1, a1.2, a2.1, a2.2]
  have v1 : Even m := h.even (by rw [e1]; norm_num [abs_of_pos])
  have v2 : Even m' := h'.even (by rw [e2, abs_neg]; norm_num [abs_of_pos])
  have e3 : m = m' + 1 := by
    have : (m : ℚ) = m' + 1 := by linarith
    exact_mod_cast this
  subst e3
  rcases v1 with ⟨a, ha⟩
  rcases v2 with ⟨b, hb⟩
  omega

/-- **C86**: a larger value is never printed as a smaller number. -/
theorem c86_monotone {k : Nat} (hk : 0 < k) {q q' a a' : ℚ} (hq : q ≤ q') (h : readNumber (fixedText k q) = some a)
    (h' : readNumber (fixedText k q') = some a') : a ≤ a' := by
  obtain ⟨m, h1, n1⟩ := c86_number hk q
  obtain ⟨m', h2, n2⟩ := c86_number hk q'
  rw [h1] at h
  rw [h2] at h'
  cases h
  cases h'
  have := n1.unique n2 hq
  have hp : (0 : ℚ) < 10 ^ k := by positivity
  exact div_le_div_of_nonneg_right (by exact_mod_cast this) hp.le

example := c86_monotone (k := 5) (q := 1/7) (q' := 1/3) (a := 14286 / 10 ^ 5) (a' := 33333 / 10 ^ 5) (by decide) (by norm_num)
  (by decide +kernel) (by decide +kernel)

/-- **C86**: numbers with at most `k` decimals are printed exactly. -/
theorem c86_exact {k : Nat} (hk : 0 < k) (n : ℤ) : readNumber (fixedText k ((n : ℚ) / 10 ^ k)) = some ((n : ℚ) / 10 ^ k) := by
  obtain ⟨m, h1, h2⟩ := c86_number hk ((n : ℚ) / 10 ^ k)
  have hp : (10 : ℚ) ^ k ≠ 0 := by positivity
  have h0 : Nearest k ((n : ℚ) / 10 ^ k) n := by
    refine ⟨?_, ?_⟩ <;> rw [div_mul_cancel₀ _ hp, sub_self, abs_zero] <;> norm_num
  rw [h1, le_antisymm (h2.unique h0 le_rfl) (h0.unique h2 le_rfl)]

example := c86_exact (k := 5) (by decide) 12345

/-! ## tables -/

/-- how the row `e` is shown: the values by ascending id, then the value to five decimals -/
def RowShown (line : Option (Str × ℚ)) (e : PEntry) : Prop :=
  ∃ (l : List (Int × Str)) (m : ℤ), l.Perm e.entries ∧ l.Pairwise (fun a b => a.1 ≤ b.1) ∧
    line = some (joinStr ",".toList (l.map (fun kv => strInt kv.1 ++ "=".toList ++ kv.2)), (m : ℚ) / 10 ^ 5) ∧ Nearest 5 e.value m

theorem nl_not_mem_joinStr {c : Char} {sep : Str} (hs : c ∉ sep) : ∀ {l : List Str}, (∀ s ∈ l, c ∉ s) → c ∉ joinStr sep l
  | [], _ => by simp [joinStr]
  | [s], h => h s List.mem_cons_self
  | s :: t :: ts, h => by
      simp only [joinStr, List.mem_append, not_or]
      exact ⟨⟨h s List.mem_cons_self, hs⟩, nl_not_mem_joinStr hs (fun u hu => h u (List.mem_cons_of_mem _ hu))⟩

theorem nl_not_mem_strInt (i : Int) : '\n' ∉ strInt i := by
  intro h
  rcases strInt_chars h with h | h <;> revert h <;> decide

theorem nl_not_mem_text {e : PEntry} (h : ∀ kv ∈ e.entries, '\n' ∉ kv.2) : '\n' ∉ e.text := by
  simp only [PEntry.text, List.mem_append, not_or]
  refine ⟨⟨nl_not_mem_joinStr (by decide) ?_, by decide⟩, nl_not_mem_fixedText _ _⟩
  intro s hs
  obtain ⟨kv, h1, rfl⟩ := List.mem_map.1 hs
  simp only [kvText, List.mem_append, not_or]
  exact ⟨⟨nl_not_mem_strInt _, by decide⟩, h kv ((getEntryKeys_perm e).mem_iff.1 h1)⟩

theorem rowShown_text (e : PEntry) : RowShown (readRow e.text) e := by
  obtain ⟨m, h1, h2⟩ := readNumber_fixed (k := 5) (by decide) e.value
  refine ⟨e.getEntryKeys, m, getEntryKeys_perm e, getEntryKeys_sorted e, ?_, h2⟩
  rw [PEntry.text, readRow_append (bar_not_mem_fixedText _ _), h1, Option.map_some]
  rfl

/-- **C86**, tables: without line breaks in values, a printed table is read back line by line, in order. -/
theorem c86_table {p : Potential} (hne : p ≠ []) (h : ∀ e ∈ p, ∀ kv ∈ e.entries, '\n' ∉ kv.2) :
    List.Forall₂ RowShown (readTable p.text) p := by
  unfold readTable Potential.text
  rw [show "\n".toList = ['\n'] from rfl, splitOn_join (by simpa using hne)]
  · rw [List.map_map, List.forall₂_map_left_iff, List.forall₂_same]
    exact fun e _ => rowShown_text e
  · intro s hs
    obtain ⟨e, he, rfl⟩ := List.mem_map.1 hs
    exact nl_not_mem_text (h e he)

/-- two rows, listed by ascending id -/
example : Potential.text [⟨[(11, "on".toList), (2, "a|b".toList)], 2/3⟩, ⟨[(11, "off".toList), (2, "x=y".toList)], 0⟩] =
      "2=a|b,11=on|0.66667\n2=x=y,11=off|0.00000".toList ∧
    readTable "2=a|b,11=on|0.66667\n2=x=y,11=off|0.00000".toList =
      [some ("2=a|b,11=on".toList, 66667/100000), some ("2=x=y,11=off".toList, 0)] := by decide +kernel

example := c86_table (p := [⟨[(11, "on".toList), (2, "a|b".toList)], 2/3⟩, ⟨[(11, "off".toList), (2, "x=y".toList)], 0⟩])
  (by decide) (by decide +kernel)

/-- line breaks in values do not survive: another table prints the same text -/
example : Potential.text [⟨[(0, "a|0.50000\n0=b".toList)], 1/2⟩] = Potential.text [⟨[(0, "a".toList)], 1/2⟩, ⟨[(0, "b".toList)], 1/2⟩] := by
  decide +kernel

/-! ## reports -/

/-- **C86**: after any history of evidence on a connected network (without ambiguous virtual evidence), printing the potential of a
node shows one line `id=value|p` per value, in the order of the values, where `p` is the exact posterior rounded to five decimals. -/
theorem c86_report {it : SetIter Int} {js : SetIter Str} {ops : List BOp} {jt : JoinTree} (hu : Net.Usable ops)
    (hj : apply it js (Bbn.run ops) = .ok jt) (h : List (SetIter Str × EvOp)) (hp : ∀ op ∈ h, op.2.Ok (Bbn.run ops).vars)
    {v : Variable} (hv : v ∈ (Bbn.run ops).vars) (hne : v.values ≠ []) (hnl : ∀ x ∈ v.values, '\n' ∉ x) :
    ∃ P, (runHist jt h).getBbnPotential v = .ok P ∧
      List.Forall₂ (fun line x => ∃ m : ℤ, line = some (strInt v.id ++ "=".toList ++ x, (m : ℚ) / 10 ^ 5) ∧
        Nearest 5 ((Bbn.run ops).posterior (specHist (Bbn.run ops).vars h) v.id x) m) (readTable P.text) v.values := by
  refine ⟨_, (c18_posteriors_exact_partial hu hj h hp v hv).2, ?_⟩
  have h1 := c86_table (p := posteriorTable (Bbn.run ops) (specHist (Bbn.run ops).vars h) v) (by simpa [posteriorTable] using hne) (by
    intro e he kv hkv
    obtain ⟨x, hx, rfl⟩ := List.mem_map.1 he
    simp only [List.mem_cons, List.not_mem_nil, or_false] at hkv
    subst hkv
    exact hnl x hx)
  rw [posteriorTable, List.forall₂_map_right_iff] at h1
  refine h1.imp ?_
  rintro line x ⟨l, m, a, _, b, c⟩
  refine ⟨m, ?_, c⟩
  rw [List.perm_singleton.1 a] at b
  exact b

/-- **C86**: the numbers shown for a node add up to 1 up to half a unit of the last place per value, unless the evidence is impossible. -/
theorem c86_sum {it : SetIter Int} {js : SetIter Str} {ops : List BOp} {jt : JoinTree} (hu : Net.Usable ops)
    (hj : apply it js (Bbn.run ops) = .ok jt) (h : List (SetIter Str × EvOp)) (hp : ∀ op ∈ h, op.2.Ok (Bbn.run ops).vars)
    (hpos : (Bbn.run ops).total (specHist (Bbn.run ops).vars h) ≠ 0)
    {v : Variable} (hv : v ∈ (Bbn.run ops).vars) (hne : v.values ≠ []) (hnl : ∀ x ∈ v.values, '\n' ∉ x) :
    ∃ (P : Potential) (ps : List (Str × ℚ)), (runHist jt h).getBbnPotential v = .ok P ∧ readTable P.text = ps.map some ∧
      |(ps.map Prod.snd).sum - 1| ≤ v.values.length / 200000 := by
  obtain ⟨P, hP, hF⟩ := c86_report hu hj h hp hv hne hnl
  have hsum : (v.values.map (fun x => (Bbn.run ops).posterior (specHist (Bbn.run ops).vars h) v.id x)).sum = 1 := by
    obtain ⟨Q, hQ, _, _, hs⟩ := c21_distributions_partial hu hj h (fun op ho => (hp op ho).proper.nodes (doms hu.toSane)) v hv
    have := (hs hp).1 hpos
    rw [(c18_posteriors_exact_partial hu hj h hp v hv).2] at hQ
    cases hQ
    simpa [posteriorTable, List.map_map, Function.comp_def] using this
  have key : ∀ (ls : List (Option (Str × ℚ))) (xs : List Str),
      List.Forall₂ (fun line x => ∃ m : ℤ, line = some (strInt v.id ++ "=".toList ++ x, (m : ℚ) / 10 ^ 5) ∧
        Nearest 5 ((Bbn.run ops).posterior (specHist (Bbn.run ops).vars h) v.id x) m) ls xs →
      ∃ ps : List (Str × ℚ), ls = ps.map some ∧
        |(ps.map Prod.snd).sum - (xs.map (fun x => (Bbn.run ops).posterior (specHist (Bbn.run ops).vars h) v.id x)).sum| ≤ xs.length / 200000 := by
    intro ls xs hf
    induction hf with
    | nil => exact ⟨[], rfl, by simp⟩
    | @cons l x ls xs hx _ ih =>
      obtain ⟨m, rfl, hm⟩ := hx
      obtain ⟨ps, rfl, hb⟩ := ih
      refine ⟨(strInt v.id ++ "=".toList ++ x, (m : ℚ) / 10 ^ 5) :: ps, rfl, ?_⟩
      simp only [List.map_cons, List.sum_cons, List.length_cons]
      push_cast
      have a := abs_le.1 hm.near
      have b := abs_le.1 hb
      norm_num at a b ⊢
      rw [abs_le]
      constructor <;> linarith [a.1, a.2, b.1, b.2]
  obtain ⟨ps, h1, h2⟩ := key _ _ hF
  rw [hsum] at h2
  exact ⟨P, ps, hP, h1, h2⟩

/-- the report of node 0 of the example network after its history of evidence -/
example : Net.Usable c16_ops ∧ (∀ op ∈ c18_hist, op.2.Ok (Bbn.run c16_ops).vars) ∧ c16_node 0 ∈ (Bbn.run c16_ops).vars ∧
    (∀ x ∈ (c16_node 0).values, '\n' ∉ x) ∧
    ((apply .rev .same (Bbn.run c16_ops)).val?.bind (fun jt => ((runHist jt c18_hist).getBbnPotential (c16_node 0)).val?)).map
      Potential.text = some "0=on|0.36129\n0=off|0.63871".toList :=
  ⟨c16_usable, c18_hist_ok, by decide +kernel, by decide +kernel, by decide +kernel⟩

example := c86_report c16_usable (c16_jt_ok .rev .same) c18_hist c18_hist_ok (v := c16_node 0) (by decide +kernel) (by decide +kernel)
  (by decide +kernel)
example := c86_sum c16_usable (c16_jt_ok .rev .same) c18_hist c18_hist_ok (by decide +kernel) (v := c16_node 0) (by decide +kernel)
  (by decide +kernel) (by decide +kernel)

end PyBBN
