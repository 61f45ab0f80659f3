import Verif.Proofs.Apply
import Verif.Spec.Evidence

/-! Evidence updates keep the join tree calibrated for the stored likelihoods. -/

namespace PyBBN
open Evidence

/-! ### validation -/

theorem overwrite_spec (f : Str → ℚ → ℚ) : ∀ (dom : List Str) (m : Dict Str ℚ), dom.Nodup → (∀ x ∈ dom, x ∈ Dict.keys m) →
    Dict.keys (Evidence.overwrite dom f m) = Dict.keys m ∧
    ∀ x, Dict.get? (Evidence.overwrite dom f m) x = if x ∈ dom then some (f x ((Dict.get? m x).getD 0)) else Dict.get? m x
  | [], m, _, _ => ⟨rfl, fun x => by simp [Evidence.overwrite]⟩
  | v :: dom, m, hn, hd => by
      rw [List.nodup_cons] at hn
      have hk : Dict.keys (Dict.set m v (f v ((Dict.get? m v).getD 0))) = Dict.keys m := by
        rw [Dict.keys_set, if_pos (hd v List.mem_cons_self)]
      obtain ⟨h1, h2⟩ := overwrite_spec f dom (Dict.set m v (f v ((Dict.get? m v).getD 0))) hn.2
        (fun x hx => by rw [hk]; exact hd x (List.mem_cons_of_mem _ hx))
      unfold Evidence.overwrite at h1 h2 ⊢
      rw [List.foldl_cons]
      refine ⟨h1.trans hk, ?_⟩
      intro x
      rw [h2]
      by_cases hxv : x = v
      · subst hxv
        rw [if_neg hn.1, Dict.get?_set_self, if_pos List.mem_cons_self]
      · rw [Dict.get?_set_ne _ _ (fun e => hxv e.symm)]
        simp [hxv]

theorem addMissing_spec : ∀ (dom : List Str) (m : Dict Str ℚ), dom.Nodup →
    Dict.keys (dom.foldl (fun d v => Dict.setDefault d v 0) m) = Dict.keys m ++ dom.filter (fun x => decide (x ∉ Dict.keys m)) ∧
    ∀ x, (Dict.get? (dom.foldl (fun d v => Dict.setDefault d v 0) m) x).getD 0 = (Dict.get? m x).getD 0
  | [], m, _ => by simp
  | v :: dom, m, hn => by
      rw [List.nodup_cons] at hn
      obtain ⟨h1, h2⟩ := addMissing_spec dom (Dict.setDefault m v 0) hn.2
      rw [List.foldl_cons]
      refine ⟨?_, ?_⟩
      · rw [h1, Dict.keys_setDefault]
        by_cases hv : v ∈ Dict.keys m
        · simp [hv]
        · rw [if_neg hv, List.append_assoc]
          congr 1
          rw [List.filter_cons_of_pos (by simpa using hv), List.singleton_append]
          congr 1
          apply List.filter_congr
          intro x hx
          have : x ≠ v := fun e => hn.1 (e ▸ hx)
          simp [this]
      · intro x
        rw [h2, Dict.get?_setDefault]
        by_cases hxv : v = x
        · subst hxv
          cases Dict.get? m v <;> simp
        · simp [hxv]

theorem clamp01_eq (q : ℚ) : Evidence.clamp01 q = max 0 (min 1 q) := by
  unfold Evidence.clamp01
  by_cases h1 : 0 ≤ q
  · by_cases h2 : q ≤ 1
    · rw [if_pos ⟨h1, h2⟩, min_eq_right h2, max_eq_right h1]
    · rw [if_neg (fun h => h2 h.2), if_neg (not_lt.2 h1), min_eq_left (le_of_lt (not_le.1 h2)), max_eq_right zero_le_one]
  · rw [if_neg (fun h => h1 h.1), if_pos (not_le.1 h1)]
    have : min 1 q ≤ 0 := (min_le_right _ _).trans (le_of_lt (not_le.1 h1))
    rw [max_eq_left this]

theorem find?_congr_mem {α : Type} {p q : α → Bool} : ∀ {l : List α}, (∀ a ∈ l, p a = q a) → l.find? p = l.find? q
  | [], _ => rfl
  | x :: l, h => by
      rw [List.find?_cons, List.find?_cons, h x List.mem_cons_self, find?_congr_mem (fun a ha => h a (List.mem_cons_of_mem _ ha))]

/-- the head of a stable descending sort is the first largest -/
theorem sort_head {l : List (Str × ℚ)} {kv : Str × ℚ}
    (h : (sortBy (fun a b : Str × ℚ => decide (b.2 ≤ a.2)) l).head? = some kv) :
    l.find? (fun a => l.all (fun b => decide (b.2 ≤ a.2))) = some kv := by
  induction l generalizing kv with
  | nil => simp [sortBy] at h
  | cons x l ih =>
    rw [sortBy] at h
    cases hs : sortBy (fun a b : Str × ℚ => decide (b.2 ≤ a.2)) l with
    | nil =>
      have hl : l = [] := by
        by_contra hne
        exact sortBy_ne_nil _ hne hs
      rw [hs] at h
      simp only [insertBy, List.head?_cons, Option.some.injEq] at h
      subst h hl
      simp
    | cons y ys =>
      have hy := ih (by rw [hs]; rfl : _ = some y)
      have hyall := List.find?_some hy
      rw [List.all_eq_true] at hyall
      simp only [decide_eq_true_eq] at hyall
      have hym := List.mem_of_find?_eq_some hy
      rw [hs] at h
      unfold insertBy at h
      by_cases hxy : y.2 ≤ x.2
      · rw [if_pos (by simpa using hxy)] at h
        simp only [List.head?_cons, Option.some.injEq] at h
        subst h
        rw [List.find?_cons_of_pos]
        rw [List.all_eq_true]
        intro b hb
        simp only [decide_eq_true_eq]
        rcases List.mem_cons.1 hb with rfl | hb
        · exact le_refl _
        · exact (hyall b hb).trans hxy
      · rw [if_neg (by simpa using hxy)] at h
        simp only [List.head?_cons, Option.some.injEq] at h
        subst h
        rw [List.find?_cons_of_neg]
        · have : l.find? (fun a => (x :: l).all (fun b => decide (b.2 ≤ a.2))) =
              l.find? (fun a => l.all (fun b => decide (b.2 ≤ a.2))) := by
            have hle : x.2 ≤ y.2 := le_of_lt (not_le.1 hxy)
            apply find?_congr_mem
            intro a ha
            rw [List.all_cons]
            by_cases hall : l.all (fun b => decide (b.2 ≤ a.2)) = true
            · rw [hall, Bool.and_true]
              rw [List.all_eq_true] at hall
              have := hall y hym
              simp only [decide_eq_true_eq] at this
              simpa using hle.trans this
            · simp only [Bool.not_eq_true] at hall
              rw [hall, Bool.and_false]
          rw [this]
          exact hy
        · rw [List.all_cons, Bool.and_eq_true]
          rintro ⟨_, hall⟩
          rw [List.all_eq_true] at hall
          have := hall y hym
          simp only [decide_eq_true_eq] at this
          exact hxy this


/-! ### `validate` -/

/-- the map completed with the missing values -/
def Evidence.full (e : Evidence) : Dict Str ℚ := e.node.values.foldl (fun d v => Dict.setDefault d v 0) e.values

theorem Evidence.full_keys (e : Evidence) (hn : e.node.values.Nodup) : Dict.keys e.full = e.order :=
  (addMissing_spec _ _ hn).1

theorem Evidence.full_get (e : Evidence) (hn : e.node.values.Nodup) (x : Str) : (Dict.get? e.full x).getD 0 = e.given x :=
  (addMissing_spec _ _ hn).2 x

theorem Evidence.dom_order (e : Evidence) {x : Str} (hx : x ∈ e.node.values) : x ∈ e.order := by
  unfold Evidence.order
  rw [List.mem_append, List.mem_filter]
  by_cases h : x ∈ Dict.keys e.values
  · exact Or.inl h
  · exact Or.inr ⟨hx, by simpa using h⟩

theorem Evidence.order_nodup (e : Evidence) (hn : e.node.values.Nodup) (hk : (Dict.keys e.values).Nodup) : e.order.Nodup := by
  unfold Evidence.order
  refine List.nodup_append.2 ⟨hk, hn.filter _, ?_⟩
  intro a ha b hb e
  subst e
  have := (List.mem_filter.1 hb).2
  simp at this
  exact this ha

theorem find?_map_fst (d : Dict Str ℚ) (hk : (Dict.keys d).Nodup) :
    (d.find? (fun a => d.all (fun b => decide (b.2 ≤ a.2)))).map Prod.fst =
      (Dict.keys d).find? (fun k => (Dict.keys d).all (fun y => decide ((Dict.get? d y).getD 0 ≤ (Dict.get? d k).getD 0))) := by
  unfold Dict.keys
  rw [List.find?_map]
  congr 1
  apply find?_congr_mem
  intro a ha
  simp only [Function.comp_apply, List.all_map]
  rw [Bool.eq_iff_iff, List.all_eq_true, List.all_eq_true]
  have ga : (Dict.get? d a.1).getD 0 = a.2 := by rw [Dict.get?_of_mem hk (v := a.2) ha]; rfl
  constructor
  · intro h b hb
    have gb : (Dict.get? d b.1).getD 0 = b.2 := by rw [Dict.get?_of_mem hk (v := b.2) hb]; rfl
    have := h b hb
    simp only [Function.comp_apply, ga, gb]
    exact this
  · intro h b hb
    have gb : (Dict.get? d b.1).getD 0 = b.2 := by rw [Dict.get?_of_mem hk (v := b.2) hb]; rfl
    have := h b hb
    simp only [Function.comp_apply, ga, gb] at this
    exact this

theorem Evidence.best_eq (e : Evidence) (hn : e.node.values.Nodup) (hk : (Dict.keys e.values).Nodup) :
    e.best = ((sortBy (fun a b : Str × ℚ => decide (b.2 ≤ a.2)) e.full).head?).map Prod.fst := by
  have hfk : (Dict.keys e.full).Nodup := by rw [e.full_keys hn]; exact e.order_nodup hn hk
  have h1 : (e.full.find? (fun a => e.full.all (fun b => decide (b.2 ≤ a.2)))).map Prod.fst = e.best := by
    rw [find?_map_fst _ hfk, e.full_keys hn]
    unfold Evidence.best
    simp only [e.full_get hn]
  rw [← h1]
  cases hs : (sortBy (fun a b : Str × ℚ => decide (b.2 ≤ a.2)) e.full).head? with
  | none =>
    have : e.full = [] := by
      by_contra hne
      exact sortBy_ne_nil _ hne (List.head?_eq_none_iff.1 hs)
    rw [this]; rfl
  | some kv => rw [sort_head hs]

theorem nodup_sum_zero : ∀ (l : List ℚ), (∀ q ∈ l, 0 ≤ q) → (l.sum = 0 ↔ ∀ q ∈ l, q = 0)
  | [], _ => by simp
  | q :: l, h => by
      have h0 := h q List.mem_cons_self
      have hs : 0 ≤ l.sum := List.sum_nonneg (fun x hx => h x (List.mem_cons_of_mem _ hx))
      rw [List.sum_cons]
      have ih := nodup_sum_zero l (fun x hx => h x (List.mem_cons_of_mem _ hx))
      constructor
      · intro e
        have e1 : q = 0 := by linarith
        have e2 : l.sum = 0 := by linarith
        intro x hx
        rcases List.mem_cons.1 hx with rfl | hx
        · exact e1
        · exact ih.1 e2 x hx
      · intro hz
        rw [hz q List.mem_cons_self, ih.2 (fun x hx => hz x (List.mem_cons_of_mem _ hx)), add_zero]

/-- `validate` on evidence that only mentions values of the node -/
theorem validate_canon (e : Evidence) (hn : e.node.values.Nodup) (hne : e.node.values ≠ []) (hk : (Dict.keys e.values).Nodup)
    (hdom : ∀ k ∈ Dict.keys e.values, k ∈ e.node.values) :
    ∃ m, e.validate = .ok { e with values := m } ∧ Dict.keys m = e.order ∧ ∀ x ∈ e.node.values, Dict.get? m x = some (e.canon x) := by
  have hfk := e.full_keys hn
  have hsub : ∀ x ∈ e.node.values, x ∈ Dict.keys e.full := by
    intro x hx; rw [hfk]; exact e.dom_order hx
  have hord : ∀ x ∈ e.order, x ∈ e.node.values := by
    intro x hx
    rcases List.mem_append.1 hx with hx | hx
    · exact hdom x hx
    · exact (List.mem_filter.1 hx).1
  have hov : ∀ f, (Dict.keys (overwrite e.node.values f e.full) = e.order) ∧
      ∀ x ∈ e.node.values, Dict.get? (overwrite e.node.values f e.full) x = some (f x (e.given x)) := by
    intro f
    obtain ⟨h1, h2⟩ := overwrite_spec f e.node.values e.full hn hsub
    refine ⟨h1.trans hfk, ?_⟩
    intro x hx
    rw [h2, if_pos hx, e.full_get hn]
  suffices ∃ m, validateValues e.node e.type e.values = .ok m ∧ Dict.keys m = e.order ∧
      ∀ x ∈ e.node.values, Dict.get? m x = some (e.canon x) by
    obtain ⟨m, hm, h⟩ := this
    refine ⟨m, ?_, h⟩
    unfold Evidence.validate
    rw [hm]; rfl
  cases ht : e.type with
  | «virtual» =>
    refine ⟨overwrite e.node.values (fun _ x => clamp01 x) e.full, ?_, (hov _).1, ?_⟩
    · rfl
    · intro x hx
      rw [(hov _).2 x hx, clamp01_eq]
      unfold Evidence.canon; rw [ht]
  | finding =>
    have hz := hov (fun _ x => zeroOrOne x)
    have hzk : (Dict.keys (overwrite e.node.values (fun _ x => zeroOrOne x) e.full)).Nodup := by
      rw [hz.1]; exact e.order_nodup hn hk
    have hsum : ((overwrite e.node.values (fun _ x => zeroOrOne x) e.full).map Prod.snd).sum = 0 ↔
        ∀ y ∈ e.node.values, e.given y ≤ 0 := by
      have hval : ∀ kv ∈ overwrite e.node.values (fun _ x => zeroOrOne x) e.full, kv.1 ∈ e.node.values ∧
          kv.2 = zeroOrOne (e.given kv.1) := by
        intro kv hkv
        have h1 : kv.1 ∈ e.node.values := by
          apply hord; rw [← hz.1]; exact List.mem_map_of_mem hkv
        have h2 := Dict.get?_of_mem hzk (v := kv.2) hkv
        rw [hz.2 _ h1] at h2
        exact ⟨h1, (Option.some.inj h2).symm⟩
      rw [nodup_sum_zero]
      · constructor
        · intro h y hy
          have h2 := h _ (List.mem_map_of_mem (f := Prod.snd) (Dict.mem_of_get? (hz.2 y hy)))
          unfold zeroOrOne at h2
          by_contra hc
          rw [if_pos (not_le.1 hc)] at h2
          exact one_ne_zero h2
        · intro h q hq
          obtain ⟨kv, hkv, rfl⟩ := List.mem_map.1 hq
          obtain ⟨h1, h2⟩ := hval kv hkv
          rw [h2]
          unfold zeroOrOne
          rw [if_neg (not_lt.2 (h _ h1))]
      · intro q hq
        obtain ⟨kv, hkv, rfl⟩ := List.mem_map.1 hq
        rw [(hval kv hkv).2]
        unfold zeroOrOne
        split <;> norm_num
    have hz2 : ∀ f, (Dict.keys (overwrite e.node.values f (overwrite e.node.values (fun _ x => zeroOrOne x) e.full)) = e.order) ∧
        ∀ x ∈ e.node.values, ∃ y, Dict.get? (overwrite e.node.values f (overwrite e.node.values (fun _ x => zeroOrOne x) e.full)) x =
          some (f x y) := by
      intro f
      obtain ⟨h1, h2⟩ := overwrite_spec f e.node.values (overwrite e.node.values (fun _ x => zeroOrOne x) e.full) hn (by
        intro x hx; rw [hz.1]; exact e.dom_order hx)
      refine ⟨h1.trans hz.1, ?_⟩
      intro x hx
      exact ⟨_, by rw [h2, if_pos hx]⟩
    by_cases h0 : ∀ y ∈ e.node.values, e.given y ≤ 0
    · refine ⟨overwrite e.node.values (fun _ _ => 1) (overwrite e.node.values (fun _ x => zeroOrOne x) e.full), ?_,
        (hz2 _).1, ?_⟩
      · exact if_pos (hsum.2 h0)
      · intro x hx
        obtain ⟨y, hy⟩ := (hz2 (fun _ _ => 1)).2 x hx
        rw [hy]
        unfold Evidence.canon; rw [ht]
        exact congrArg some (if_pos h0).symm
    · refine ⟨overwrite e.node.values (fun _ x => zeroOrOne x) e.full, ?_, hz.1, ?_⟩
      · exact if_neg (fun h => h0 (hsum.1 h))
      · intro x hx
        rw [hz.2 x hx]
        unfold Evidence.canon; rw [ht]
        exact congrArg some (if_neg h0).symm
  | observation =>
    have hb := e.best_eq hn hk
    cases hs : (sortBy (fun a b : Str × ℚ => decide (b.2 ≤ a.2)) e.full).head? with
    | none =>
      exfalso
      have : e.full = [] := by
        by_contra hne
        exact sortBy_ne_nil _ hne (List.head?_eq_none_iff.1 hs)
      obtain ⟨x, hx⟩ := List.exists_mem_of_ne_nil _ hne
      have := hsub x hx
      rw [‹e.full = []›] at this
      simp [Dict.keys] at this
    | some kv =>
      rw [hs] at hb
      simp only [Option.map_some] at hb
      refine ⟨overwrite e.node.values (fun v _ => if kv.1 = v then 1 else 0) e.full, ?_, (hov _).1, ?_⟩
      · unfold Evidence.full at hs
        unfold validateValues
        simp only [hs]
        rfl
      · intro x hx
        rw [(hov _).2 x hx]
        unfold Evidence.canon; rw [ht]
        simp only [hb, Option.some.injEq]
  | unobserve =>
    refine ⟨overwrite e.node.values (fun _ _ => 1) e.full, ?_, (hov _).1, ?_⟩
    · rfl
    · intro x hx
      rw [(hov _).2 x hx]
      unfold Evidence.canon; rw [ht]

/-- `validate` on any evidence: the values of the node get likelihoods between 0 and 1, no other key is added -/
theorem validate_range (e e' : Evidence) (hn : e.node.values.Nodup) (h : e.validate = .ok e') :
    e'.node = e.node ∧ Dict.keys e'.values = e.order ∧
      ∀ x ∈ e.node.values, ∃ q, Dict.get? e'.values x = some q ∧ 0 ≤ q ∧ q ≤ 1 := by
  have hfk := e.full_keys hn
  have hsub : ∀ x ∈ e.node.values, x ∈ Dict.keys e.full := by
    intro x hx; rw [hfk]; exact e.dom_order hx
  have hov : ∀ f (m : Dict Str ℚ), Dict.keys m = e.order → (∀ x y, 0 ≤ f x y ∧ f x y ≤ 1) →
      (Dict.keys (overwrite e.node.values f m) = e.order) ∧
      ∀ x ∈ e.node.values, ∃ q, Dict.get? (overwrite e.node.values f m) x = some q ∧ 0 ≤ q ∧ q ≤ 1 := by
    intro f m hm hf
    obtain ⟨h1, h2⟩ := overwrite_spec f e.node.values m hn (by intro x hx; rw [hm]; exact e.dom_order hx)
    refine ⟨h1.trans hm, ?_⟩
    intro x hx
    rw [h2, if_pos hx]
    exact ⟨_, rfl, hf _ _⟩
  obtain ⟨m, hm, he⟩ := bind_ok h
  cases he
  refine ⟨rfl, ?_⟩
  change Dict.keys m = e.order ∧ ∀ x ∈ e.node.values, ∃ q, Dict.get? m x = some q ∧ 0 ≤ q ∧ q ≤ 1
  have hzo : ∀ (x : Str) y, 0 ≤ (fun (_ : Str) x => zeroOrOne x) x y ∧ (fun (_ : Str) x => zeroOrOne x) x y ≤ 1 := by
    intro x y; simp only [zeroOrOne]; split <;> norm_num
  cases ht : e.type with
  | «virtual» =>
    rw [ht] at hm
    cases hm
    refine hov _ _ hfk ?_
    intro x y
    simp only [clamp01_eq]
    exact ⟨le_max_left _ _, max_le zero_le_one (min_le_left _ _)⟩
  | finding =>
    rw [ht] at hm
    unfold validateValues at hm
    simp only at hm
    split at hm
    · cases hm
      exact hov _ _ (hov _ _ hfk hzo).1 (by intros; norm_num)
    · cases hm
      exact hov _ _ hfk hzo
  | observation =>
    rw [ht] at hm
    unfold validateValues at hm
    simp only at hm
    split at hm
    · cases hm
    · cases hm
      refine hov _ _ hfk ?_
      intro x y
      split <;> norm_num
  | unobserve =>
    rw [ht] at hm
    cases hm
    exact hov _ _ hfk (by intros; norm_num)

end PyBBN
