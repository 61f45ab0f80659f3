import Verif.Proofs.SamplingRun

/-! # Two orders of the parents number the rows of a CPT differently -/

namespace PyBBN

/-- an order of the parents can be read off the numbering of the rows -/
theorem rowIdx_order : ∀ {ns ms : List Variable}, ns.Perm ms → (vids ns).Nodup → (∀ v ∈ ns, v.values.Nodup ∧ 2 ≤ v.values.length) →
    (∀ σ, InDom ns σ → rowIdx ns σ = rowIdx ms σ) → ns = ms := by
  intro ns
  induction ns using List.reverseRecOn with
  | nil =>
    intro ms hp _ _ _
    exact (List.nil_perm.1 hp).symm
  | append_singleton ns v ih =>
    intro ms hp hnd hval heq
    rcases List.eq_nil_or_concat ms with rfl | ⟨ms, w, rfl⟩
    · exact absurd hp.length_eq (by simp)
    rw [List.concat_eq_append] at hp heq ⊢
    have hvn : v ∈ ns ++ [v] := by simp
    have hwn : w ∈ ns ++ [v] := hp.mem_iff.2 (by simp)
    -- everybody at the first value, `v` at the second
    have hfst : ∀ u ∈ ns ++ [v], ∀ a b, u.values[0]? = some a → u.values[1]? = some b → u.values.idxOf a = 0 ∧ u.values.idxOf b = 1 := by
      intro u hu a b ha hb
      obtain ⟨h1, h2⟩ := hval u hu
      obtain ⟨h3, h4⟩ := List.getElem?_eq_some_iff.1 ha
      obtain ⟨h5, h6⟩ := List.getElem?_eq_some_iff.1 hb
      rw [← h4, ← h6]
      exact ⟨h1.idxOf_getElem 0 h3, h1.idxOf_getElem 1 h5⟩
    have hvw : v = w := by
      by_contra hne
      have hid : v.id ≠ w.id := fun e => hne (List.inj_on_of_nodup_map hnd hvn hwn e)
      let val : Int → Nat → Str := fun i k => (((ns ++ [v]).find? (fun u => u.id == i)).map (fun u => u.values.getD k [])).getD []
      have hfind : ∀ u ∈ ns ++ [v], ∀ k, val u.id k = u.values.getD k [] := by
        intro u hu k
        show ((List.find? _ _).map _).getD [] = _
        cases hf : (ns ++ [v]).find? (fun x => x.id == u.id) with
        | none => exact absurd (List.find?_eq_none.1 hf u hu) (by simp)
        | some x =>
          have h1 := List.find?_some hf
          have h2 := List.mem_of_find?_eq_some hf
          rw [List.inj_on_of_nodup_map hnd h2 hu (by simpa using h1)]
          rfl
      let σ : Asg := fun i => if i = v.id then val i 1 else val i 0
      have hget : ∀ u ∈ ns ++ [v], ∀ k < 2, u.values[k]? = some (u.values.getD k []) := by
        intro u hu k hk
        have := (hval u hu).2
        rw [List.getD_eq_getElem?_getD, List.getElem?_eq_getElem (by omega)]
        rfl
      have hix : ∀ u ∈ ns ++ [v], u.values.idxOf (σ u.id) = if u.id = v.id then 1 else 0 := by
        intro u hu
        obtain ⟨h1, h2⟩ := hfst u hu _ _ (hget u hu 0 (by omega)) (hget u hu 1 (by omega))
        show u.values.idxOf (if u.id = v.id then val u.id 1 else val u.id 0) = _
        split
        · rw [hfind u hu, h2]
        · rw [hfind u hu, h1]
      have hdom : InDom (ns ++ [v]) σ := by
        intro u hu
        have h1 := hix u hu
        have h2 := (hval u hu).2
        apply List.idxOf_lt_length_iff.1
        rw [h1]; split <;> omega
      have hzero : ∀ (l : List Variable), (∀ u ∈ l, u ∈ ns ++ [v] ∧ u.id ≠ v.id) → rowIdx l σ = 0 := by
        intro l
        induction l with
        | nil => intro _; rfl
        | cons a l ih =>
          intro h
          rw [rowIdx_cons, ih (fun u hu => h u (List.mem_cons_of_mem _ hu)), hix a (h a List.mem_cons_self).1,
            if_neg (h a List.mem_cons_self).2]
          simp
      have h1 := heq σ hdom
      rw [rowIdx_append, rowIdx_append, hix v hvn, if_pos rfl, hix w hwn, if_neg (Ne.symm hid)] at h1
      rw [hzero ns] at h1
      · have h2 := (hval w hwn).2
        rw [Nat.zero_mul, Nat.zero_add, Nat.add_zero] at h1
        have h3 : w.values.length ∣ 1 := ⟨_, h1.trans (Nat.mul_comm _ _)⟩
        have := Nat.le_of_dvd (by omega) h3
        omega
      · intro u hu
        refine ⟨by simp [hu], ?_⟩
        unfold vids at hnd
        rw [List.map_append, List.nodup_append] at hnd
        exact hnd.2.2 _ (List.mem_map_of_mem hu) _ (by simp)
    subst hvw
    have hp' : ns.Perm ms := (List.perm_append_right_iff [v]).1 hp
    rw [ih hp' (by unfold vids at hnd ⊢; rw [List.map_append] at hnd; exact (List.nodup_append.1 hnd).1)
      (fun u hu => hval u (List.mem_append_left _ hu)) ?_]
    intro σ hσ
    have hne : v.values ≠ [] := by intro e; have := (hval v hvn).2; rw [e] at this; simp at this
    obtain ⟨x, hx⟩ := List.exists_mem_of_ne_nil _ hne
    have hns : ∀ u ∈ ns, u.id ≠ v.id := by
      intro u hu
      unfold vids at hnd
      rw [List.map_append, List.nodup_append] at hnd
      exact hnd.2.2 _ (List.mem_map_of_mem hu) _ (by simp)
    have h1 := heq (Function.update σ v.id x) (by
      intro u hu
      rcases List.mem_append.1 hu with hu | hu
      · rw [Function.update_of_ne (hns u hu)]; exact hσ u hu
      · rw [List.mem_singleton.1 hu, Function.update_self]; exact hx)
    rw [rowIdx_append, rowIdx_append] at h1
    have h2 := Nat.eq_of_mul_eq_mul_right (by have := (hval v hvn).2; omega) (Nat.add_right_cancel h1)
    rw [rowIdx_congr (τ := σ) (fun u hu => Function.update_of_ne (hns u hu) _ _),
      rowIdx_congr (τ := σ) (fun u hu => Function.update_of_ne (hns u (hp'.mem_iff.2 hu)) _ _)] at h2
    exact h2

/-- every row number is the number of some parent values -/
theorem rowIdx_surj {ns : List Variable} (hn : (vids ns).Nodup) (hD : ∀ v ∈ ns, v.values.Nodup) {k : Nat} (hk : k < rows ns) (σ₀ : Asg) :
    ∃ σ, InDom ns σ ∧ rowIdx ns σ = k ∧ ∀ i, i ∉ vids ns → σ i = σ₀ i := by
  rw [← product_vars_length] at hk
  have hg := List.getElem?_eq_getElem hk
  have hm := List.mem_of_getElem? hg
  have h1 := getElem?_rowIdx hn hD hg
  have h2 := over_mem_dom asg0 ns _ hn hm
  refine ⟨fun i => if i ∈ vids ns then over asg0 (vids ns) (product (ns.map Variable.values))[k] i else σ₀ i, ?_, ?_, ?_⟩
  · intro v hv
    show (if v.id ∈ vids ns then _ else _) ∈ _
    rw [if_pos (List.mem_map_of_mem hv)]
    exact h2 v hv
  · refine Eq.trans ?_ h1
    apply rowIdx_congr
    intro v hv
    exact if_pos (List.mem_map_of_mem hv)
  · intro i hi
    exact if_neg hi

/-- half-open intervals inside [0, 1) with the same elements have the same width -/
theorem width_eq {a b c d : ℚ} (ha : 0 ≤ a) (hab : a ≤ b) (hb : b ≤ 1) (hc : 0 ≤ c) (hcd : c ≤ d) (hd : d ≤ 1)
    (h : ∀ p, 0 ≤ p → p < 1 → ((a ≤ p ∧ p < b) ↔ (c ≤ p ∧ p < d))) : b - a = d - c := by
  rcases eq_or_lt_of_le hab with e | hlt
  · rcases eq_or_lt_of_le hcd with e' | hlt'
    · rw [e, e', sub_self, sub_self]
    · have := (h c hc (lt_of_lt_of_le hlt' hd)).2 ⟨le_refl _, hlt'⟩
      exact absurd this.2 (not_lt.2 (e ▸ this.1))
  · have h1 := (h a ha (lt_of_lt_of_le hlt hb)).1 ⟨le_refl _, hlt⟩
    have hlt' : c < d := lt_of_le_of_lt h1.1 h1.2
    have h2 := (h c hc (lt_of_lt_of_le hlt' hd)).2 ⟨le_refl _, hlt'⟩
    have e1 : a = c := le_antisymm h2.1 h1.1
    subst e1
    have e2 : b = d := by
      rcases lt_trichotomy b d with hl | he | hl
      · have := (h b (ha.trans hab) (lt_of_lt_of_le hl hd)).2 ⟨hab, hl⟩
        exact absurd this.2 (lt_irrefl _)
      · exact he
      · have := (h d (hc.trans hcd) (lt_of_lt_of_le hl hb)).1 ⟨hcd, hl⟩
        exact absurd this.2 (lt_irrefl _)
    rw [e2]

/-- rows with the same intervals are equal -/
theorem row_eq_of_intervals {row row' : List ℚ} (hl : row.length = row'.length) (hn : ∀ x ∈ row, 0 ≤ x) (hn' : ∀ x ∈ row', 0 ≤ x)
    (hs : row.sum = 1) (hs' : row'.sum = 1) (h : ∀ i < row.length, ∀ p, 0 ≤ p → p < 1 → (InInterval row i p ↔ InInterval row' i p)) :
    row = row' := by
  have hb : ∀ {r : List ℚ}, (∀ x ∈ r, 0 ≤ x) → r.sum = 1 → ∀ i, 0 ≤ (r.take i).sum ∧ (r.take i).sum ≤ 1 := by
    intro r h1 h2 i
    refine ⟨List.sum_nonneg (fun x hx => h1 x (List.mem_of_mem_take hx)), ?_⟩
    have := sum_take_mono h1 (show i ≤ i + r.length by omega)
    rw [List.take_of_length_le (show r.length ≤ i + r.length by omega), h2] at this
    exact this
  apply List.ext_getElem hl
  intro i h1 h2
  have := width_eq (hb hn hs i).1 (sum_take_mono hn (Nat.le_succ i)) (hb hn hs (i + 1)).2 (hb hn' hs' i).1
    (sum_take_mono hn' (Nat.le_succ i)) (hb hn' hs' (i + 1)).2 (h i h1)
  rw [take_succ_sum, take_succ_sum, add_sub_cancel_left, add_sub_cancel_left] at this
  rw [List.getD_eq_getElem?_getD, List.getD_eq_getElem?_getD, List.getElem?_eq_getElem h1, List.getElem?_eq_getElem h2] at this
  exact this

/-- products of conditional distributions over a list in which parents come first: the factors can be read off the product -/
theorem factors_of_prod {D : List Variable} (f g : BbnNode → Asg → ℚ) : ∀ (L : List BbnNode),
    (∀ n ∈ L, n.var ∈ D) → (L.map (fun n => n.var.id)).Nodup → (vids D).Nodup →
    L.Pairwise (fun m n => ∀ σ x, f m (Function.update σ n.var.id x) = f m σ ∧ g m (Function.update σ n.var.id x) = g m σ) →
    (∀ n ∈ L, ∀ σ, InDom D σ → (n.var.values.map (fun x => f n (Function.update σ n.var.id x))).sum = 1 ∧
      (n.var.values.map (fun x => g n (Function.update σ n.var.id x))).sum = 1) →
    (∀ n ∈ L, ∀ σ, InDom D σ → 0 < f n σ) →
    (∀ σ, InDom D σ → (L.map (fun n => f n σ)).prod = (L.map (fun n => g n σ)).prod) →
    ∀ n ∈ L, ∀ σ, InDom D σ → f n σ = g n σ := by
  intro L
  induction L using List.reverseRecOn with
  | nil => intro _ _ _ _ _ _ _ n hn; simp at hn
  | append_singleton L n ih =>
    intro hD hnd hDn hdep hsum hpos hprod
    have hdep' := List.pairwise_append.1 hdep
    have hL : ∀ σ, InDom D σ → (L.map (fun n => f n σ)).prod = (L.map (fun n => g n σ)).prod := by
      intro σ hσ
      have hupd : ∀ x ∈ n.var.values, InDom D (Function.update σ n.var.id x) := by
        intro x hx v hv
        by_cases e : v.id = n.var.id
        · rw [e, Function.update_self, List.inj_on_of_nodup_map hDn hv (hD n (by simp)) e]; exact hx
        · rw [Function.update_of_ne e]; exact hσ v hv
      have h1 : ∀ x ∈ n.var.values, (L.map (fun n => f n σ)).prod * f n (Function.update σ n.var.id x) =
          (L.map (fun n => g n σ)).prod * g n (Function.update σ n.var.id x) := by
        intro x hx
        have h2 := hprod _ (hupd x hx)
        rw [List.map_append, List.map_append, List.prod_append, List.prod_append] at h2
        simp only [List.map_cons, List.map_nil, List.prod_cons, List.prod_nil, mul_one] at h2
        rw [List.map_congr_left (g := fun m => f m σ) (fun m hm => (hdep'.2.2 m hm n (by simp) σ x).1),
          List.map_congr_left (g := fun m => g m σ) (fun m hm => (hdep'.2.2 m hm n (by simp) σ x).2)] at h2
        exact h2
      have h3 := congrArg List.sum (List.map_congr_left h1)
      rw [List.sum_map_mul_left, List.sum_map_mul_left, (hsum n (by simp) σ hσ).1, (hsum n (by simp) σ hσ).2, mul_one, mul_one] at h3
      exact h3
    intro m hm σ hσ
    rcases List.mem_append.1 hm with hm | hm
    · exact ih (fun m hm => hD m (List.mem_append_left _ hm)) (by rw [List.map_append] at hnd; exact (List.nodup_append.1 hnd).1) hDn hdep'.1
        (fun m hm => hsum m (List.mem_append_left _ hm)) (fun m hm => hpos m (List.mem_append_left _ hm)) hL m hm σ hσ
    · rw [List.mem_singleton] at hm
      subst hm
      have h2 := hprod σ hσ
      rw [List.map_append, List.map_append, List.prod_append, List.prod_append, ← hL σ hσ] at h2
      simp only [List.map_cons, List.map_nil, List.prod_cons, List.prod_nil, mul_one] at h2
      refine mul_left_cancel₀ (ne_of_gt ?_) h2
      have hp : ∀ l : List BbnNode, (∀ m ∈ l, 0 < f m σ) → 0 < (l.map (fun m => f m σ)).prod := by
        intro l
        induction l with
        | nil => intro _; simp
        | cons a l ih =>
          intro h
          rw [List.map_cons, List.prod_cons]
          exact mul_pos (h a List.mem_cons_self) (ih (fun m hm => h m (List.mem_cons_of_mem _ hm)))
      exact hp L (fun m hm => hpos m (List.mem_append_left _ hm) σ hσ)

/-- boxes with the same points in the unit cube are equal if one is not empty -/
theorem box_unique {α : Type} {L : List α} {ids : α → Int} {order : List Int} (hnd : (L.map ids).Nodup) (hp : order.Perm (L.map ids))
    {lo hi lo' hi' : α → ℚ} (hw : ∀ n ∈ L, lo n < hi n) (hb : ∀ n ∈ L, 0 ≤ lo n ∧ hi n ≤ 1)
    (hb' : ∀ n ∈ L, 0 ≤ lo' n ∧ lo' n ≤ hi' n ∧ hi' n ≤ 1)
    (h : ∀ u, Uniform order.length u → ((∀ n ∈ L, ∀ p, (p, ids n) ∈ u.zip order → lo n ≤ p ∧ p < hi n) ↔
      ∀ n ∈ L, ∀ p, (p, ids n) ∈ u.zip order → lo' n ≤ p ∧ p < hi' n)) :
    ∀ n ∈ L, lo n = lo' n ∧ hi n = hi' n := by
  classical
  have hinj : ∀ a ∈ L, ∀ b ∈ L, ids a = ids b → a = b := fun a ha b hb e => List.inj_on_of_nodup_map hnd ha hb e
  -- a point given by its coordinates
  let pt : (α → ℚ) → Int → ℚ := fun q i => ((L.find? (fun n => ids n == i)).map q).getD 0
  have hpt : ∀ q, ∀ n ∈ L, pt q (ids n) = q n := by
    intro q n hn
    show ((L.find? _).map q).getD 0 = q n
    cases hf : L.find? (fun m => ids m == ids n) with
    | none => exact absurd (List.find?_eq_none.1 hf n hn) (by simp)
    | some m =>
      have h1 := List.find?_some hf
      rw [hinj m (List.mem_of_find?_eq_some hf) n hn (by simpa using h1)]
      rfl
  have hzip : ∀ (q : α → ℚ) (n : α) (p : ℚ), n ∈ L → ((p, ids n) ∈ (order.map (pt q)).zip order ↔ p = q n) := by
    intro q n p hn
    have h1 : (order.map (pt q)).zip order = order.map (fun i => (pt q i, i)) := by
      generalize order = l
      induction l with
      | nil => rfl
      | cons a l ih => simp [ih]
    rw [h1, List.mem_map]
    constructor
    · rintro ⟨i, _, e⟩
      obtain ⟨e1, e2⟩ := Prod.mk.inj e
      rw [← e1, e2, hpt q n hn]
    · rintro rfl
      exact ⟨ids n, hp.mem_iff.2 (List.mem_map_of_mem hn), by rw [hpt q n hn]⟩
  have key : ∀ q : α → ℚ, (∀ n ∈ L, 0 ≤ q n ∧ q n < 1) → ((∀ n ∈ L, lo n ≤ q n ∧ q n < hi n) ↔ ∀ n ∈ L, lo' n ≤ q n ∧ q n < hi' n) := by
    intro q hq
    have h1 := h (order.map (pt q)) ⟨List.length_map _, by
      intro p hp'
      obtain ⟨i, hi, rfl⟩ := List.mem_map.1 hp'
      obtain ⟨n, hn, rfl⟩ := List.mem_map.1 (hp.mem_iff.1 hi)
      rw [hpt q n hn]; exact hq n hn⟩
    have h2 : ∀ (f g : α → ℚ), (∀ n ∈ L, ∀ p, (p, ids n) ∈ (order.map (pt q)).zip order → f n ≤ p ∧ p < g n) ↔ ∀ n ∈ L, f n ≤ q n ∧ q n < g n := by
      intro f g
      constructor
      · intro h n hn; exact h n hn _ ((hzip q n _ hn).2 rfl)
      · intro h n hn p hp'; rw [(hzip q n p hn).1 hp']; exact h n hn
    rw [h2, h2] at h1
    exact h1
  have k1 := (key lo (fun n hn => ⟨(hb n hn).1, lt_of_lt_of_le (hw n hn) (hb n hn).2⟩)).1 (fun n hn => ⟨le_refl _, hw n hn⟩)
  have hw' : ∀ n ∈ L, lo' n < hi' n := fun n hn => lt_of_le_of_lt (k1 n hn).1 (k1 n hn).2
  have k2 := (key lo' (fun n hn => ⟨(hb' n hn).1, lt_of_lt_of_le (hw' n hn) (hb' n hn).2.2⟩)).2 (fun n hn => ⟨le_refl _, hw' n hn⟩)
  have hlo : ∀ n ∈ L, lo n = lo' n := fun n hn => le_antisymm (k2 n hn).1 (k1 n hn).1
  intro n hn
  refine ⟨hlo n hn, ?_⟩
  rcases lt_trichotomy (hi n) (hi' n) with hl | he | hl
  · have k3 := (key (fun m => if m = n then hi n else lo m) (by
      intro m hm
      split
      · exact ⟨(hb n hn).1.trans (hw n hn).le, lt_of_lt_of_le hl (hb' n hn).2.2⟩
      · exact ⟨(hb m hm).1, lt_of_lt_of_le (hw m hm) (hb m hm).2⟩)).2 (by
      intro m hm
      split
      · rename_i e; subst e; rw [← hlo m hm]; exact ⟨(hw m hm).le, hl⟩
      · rw [← hlo m hm]; exact ⟨le_refl _, (k1 m hm).2⟩) n hn
    simp at k3
  · exact he
  · have k3 := (key (fun m => if m = n then hi' n else lo m) (by
      intro m hm
      split
      · exact ⟨(hb' n hn).1.trans (hw' n hn).le, lt_of_lt_of_le hl (hb n hn).2⟩
      · exact ⟨(hb m hm).1, lt_of_lt_of_le (hw m hm) (hb m hm).2⟩)).1 (by
      intro m hm
      split
      · rename_i e; subst e; rw [hlo m hm]; exact ⟨(hw' m hm).le, hl⟩
      · exact ⟨le_refl _, hw m hm⟩) n hn
    simp at k3

end PyBBN
