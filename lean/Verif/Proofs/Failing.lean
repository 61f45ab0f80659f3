import Verif.Proofs.HistoryRun
import Verif.Spec.Failing

/-! Updates that raise half-way. -/

namespace PyBBN
open Evidence

theorem sum_zeroOrOne (g : Str → ℚ) : ∀ (l : List Str),
    (l.map (fun y => zeroOrOne (g y))).sum = ((l.filter (fun y => decide (0 < g y))).length : ℚ)
  | [] => by simp
  | a :: l => by
      rw [List.map_cons, List.sum_cons, sum_zeroOrOne g l, List.filter_cons]
      unfold zeroOrOne
      by_cases h : 0 < g a
      · simp [h]; ring
      · simp [h]

theorem sum_filter_split (p : Str → Bool) (g : Str → ℚ) : ∀ (l : List Str),
    (l.map g).sum = ((l.filter p).map g).sum + ((l.filter (fun x => !p x)).map g).sum
  | [] => by simp
  | a :: l => by
      rw [List.map_cons, List.sum_cons, sum_filter_split p g l, List.filter_cons, List.filter_cons]
      cases h : p a <;> simp <;> ring

/-- `validate` on any evidence about a node with values -/
theorem validate_written (e : Evidence) (hn : e.node.values.Nodup) (hne : e.node.values ≠ []) (hk : (Dict.keys e.values).Nodup) :
    ∃ m, e.validate = .ok { e with values := m } ∧ Dict.keys m = e.order ∧ ∀ x ∈ e.node.values, Dict.get? m x = some (e.written x) := by
  have hfk := e.full_keys hn
  have hsub : ∀ x ∈ e.node.values, x ∈ Dict.keys e.full := by
    intro x hx; rw [hfk]; exact e.dom_order hx
  have hov : ∀ f, (Dict.keys (overwrite e.node.values f e.full) = e.order) ∧
      (∀ x ∈ e.node.values, Dict.get? (overwrite e.node.values f e.full) x = some (f x (e.given x))) ∧
      ∀ x, x ∉ e.node.values → (Dict.get? (overwrite e.node.values f e.full) x).getD 0 = e.given x := by
    intro f
    obtain ⟨h1, h2⟩ := overwrite_spec f e.node.values e.full hn hsub
    refine ⟨h1.trans hfk, ?_, ?_⟩
    · intro x hx
      rw [h2, if_pos hx, e.full_get hn]
    · intro x hx
      rw [h2, if_neg hx, e.full_get hn]
  suffices ∃ m, validateValues e.node e.type e.values = .ok m ∧ Dict.keys m = e.order ∧
      ∀ x ∈ e.node.values, Dict.get? m x = some (e.written x) by
    obtain ⟨m, hm, h⟩ := this
    refine ⟨m, ?_, h⟩
    unfold Evidence.validate
    rw [hm]; rfl
  cases ht : e.type with
  | «virtual» =>
    refine ⟨overwrite e.node.values (fun _ x => clamp01 x) e.full, rfl, (hov _).1, ?_⟩
    intro x hx
    rw [(hov _).2.1 x hx, clamp01_eq]
    unfold Evidence.written; rw [ht]
  | finding =>
    have hz := hov (fun _ x => zeroOrOne x)
    have hon := e.order_nodup hn hk
    have hsum : ((overwrite e.node.values (fun _ x => zeroOrOne x) e.full).map Prod.snd).sum =
        ((e.node.values.filter (fun y => decide (0 < e.given y))).length : ℚ) +
        (((Dict.keys e.values).filter (fun k => decide (k ∉ e.node.values))).map e.given).sum := by
      have hmap : overwrite e.node.values (fun _ x => zeroOrOne x) e.full =
          e.order.map (fun x => (x, if x ∈ e.node.values then zeroOrOne (e.given x) else e.given x)) := by
        rw [← hz.1]
        apply dict_eq_map
        · rw [hz.1]; exact hon
        · intro x hx
          by_cases hd : x ∈ e.node.values
          · rw [hz.2.1 x hd, if_pos hd]
          · obtain ⟨q, hq⟩ := Dict.exists_get?_of_mem_keys hx
            have := hz.2.2 x hd
            rw [hq] at this
            rw [hq, if_neg hd, ← this]; rfl
      rw [hmap, List.map_map]
      change (e.order.map (fun x => if x ∈ e.node.values then zeroOrOne (e.given x) else e.given x)).sum = _
      rw [sum_filter_split (fun x => decide (x ∈ e.node.values))]
      congr 1
      · rw [← sum_zeroOrOne e.given]
        have h1 : (e.order.filter (fun x => decide (x ∈ e.node.values))).map
            (fun x => if x ∈ e.node.values then zeroOrOne (e.given x) else e.given x) =
            (e.order.filter (fun x => decide (x ∈ e.node.values))).map (fun y => zeroOrOne (e.given y)) := by
          apply List.map_congr_left
          intro x hx
          have := (List.mem_filter.1 hx).2
          simp only [decide_eq_true_eq] at this
          rw [if_pos this]
        rw [h1]
        refine List.Perm.sum_eq (List.Perm.map _ ?_)
        refine (List.perm_ext_iff_of_nodup (hon.filter _) hn).2 ?_
        intro x
        rw [List.mem_filter]
        simp only [decide_eq_true_eq]
        exact ⟨fun h => h.2, fun h => ⟨e.dom_order h, h⟩⟩
      · have h2 : e.order.filter (fun x => !decide (x ∈ e.node.values)) =
            (Dict.keys e.values).filter (fun k => decide (k ∉ e.node.values)) := by
          unfold Evidence.order
          rw [List.filter_append]
          have : (e.node.values.filter (fun x => decide (x ∉ Dict.keys e.values))).filter (fun x => !decide (x ∈ e.node.values)) = [] := by
            rw [List.filter_eq_nil_iff]
            intro x hx
            have := (List.mem_filter.1 hx).1
            simp [this]
          rw [this, List.append_nil]
          apply List.filter_congr
          intro x _
          simp
        rw [h2]
        congr 1
        apply List.map_congr_left
        intro x hx
        have := (List.mem_filter.1 hx).2
        simp only [decide_eq_true_eq] at this
        rw [if_neg this]
    have hz2 : ∀ f, (Dict.keys (overwrite e.node.values f (overwrite e.node.values (fun _ x => zeroOrOne x) e.full)) = e.order) ∧
        ∀ x ∈ e.node.values, ∃ y, Dict.get? (overwrite e.node.values f (overwrite e.node.values (fun _ x => zeroOrOne x) e.full)) x =
          some (f x y) := by
      intro f
      obtain ⟨h1, h2⟩ := overwrite_spec f e.node.values (overwrite e.node.values (fun _ x => zeroOrOne x) e.full) hn (by
        intro x hx; rw [hz.1]; exact e.dom_order hx)
      refine ⟨h1.trans hz.1, ?_⟩
      intro x hx
      exact ⟨_, by rw [h2, if_pos hx]⟩
    by_cases h0 : ((e.node.values.filter (fun y => decide (0 < e.given y))).length : ℚ) +
        (((Dict.keys e.values).filter (fun k => decide (k ∉ e.node.values))).map e.given).sum = 0
    · refine ⟨overwrite e.node.values (fun _ _ => 1) (overwrite e.node.values (fun _ x => zeroOrOne x) e.full), ?_,
        (hz2 _).1, ?_⟩
      · exact if_pos (hsum.trans h0)
      · intro x hx
        obtain ⟨y, hy⟩ := (hz2 (fun _ _ => 1)).2 x hx
        rw [hy]
        unfold Evidence.written; rw [ht]
        exact congrArg some (if_pos h0).symm
    · refine ⟨overwrite e.node.values (fun _ x => zeroOrOne x) e.full, ?_, hz.1, ?_⟩
      · exact if_neg (fun h => h0 (hsum.symm.trans h))
      · intro x hx
        rw [hz.2.1 x hx]
        unfold Evidence.written; rw [ht]
        exact congrArg some (if_neg h0).symm
  | observation =>
    have hb := e.best_eq hn hk
    cases hs : (sortBy (fun a b : Str × ℚ => decide (b.2 ≤ a.2)) e.full).head? with
    | none =>
      exfalso
      have : e.full = [] := by
        by_contra hne
        exact sortBy_ne_nil _ hne (List.head?_eq_none_iff.1 hs)
      obtain ⟨x, hx⟩ := List.exists_mem_of_ne_nil _ hne
      have := hsub x hx
      rw [‹e.full = []›] at this
      simp [Dict.keys] at this
    | some kv =>
      rw [hs] at hb
      simp only [Option.map_some] at hb
      refine ⟨overwrite e.node.values (fun v _ => if kv.1 = v then 1 else 0) e.full, ?_, (hov _).1, ?_⟩
      · unfold Evidence.full at hs
        unfold validateValues
        simp only [hs]
        rfl
      · intro x hx
        rw [(hov _).2.1 x hx]
        unfold Evidence.written; rw [ht]
        simp only [hb, Option.some.injEq]
  | unobserve =>
    refine ⟨overwrite e.node.values (fun _ _ => 1) e.full, rfl, (hov _).1, ?_⟩
    intro x hx
    rw [(hov _).2.1 x hx]
    unfold Evidence.written; rw [ht]

/-- writing stops at the first unknown key -/
theorem writeValues_stop : ∀ (p : Dict Str ℚ) (u : Str) (q : ℚ) (rest : Dict Str ℚ) (m : Dict Str ℚ),
    (∀ k ∈ Dict.keys p, k ∈ Dict.keys m) → (Dict.keys p).Nodup → u ∉ Dict.keys m →
    (JoinTree.writeValues m (p ++ (u, q) :: rest)).2 = some .keyError ∧
    ∀ x, Dict.get? (JoinTree.writeValues m (p ++ (u, q) :: rest)).1 x = if x ∈ Dict.keys p then Dict.get? p x else Dict.get? m x
  | [], u, q, rest, m, _, _, hu => by
      rw [List.nil_append]
      unfold JoinTree.writeValues
      rw [if_neg (fun h => hu ((Dict.has_iff _ _).1 h))]
      exact ⟨rfl, fun x => by simp [Dict.keys]⟩
  | (k, v) :: p, u, q, rest, m, h, hn, hu => by
      have hk : k ∈ Dict.keys m := h k (by simp [Dict.keys])
      have hn' : k ∉ Dict.keys p ∧ (Dict.keys p).Nodup := List.nodup_cons.1 hn
      rw [List.cons_append]
      unfold JoinTree.writeValues
      rw [if_pos ((Dict.has_iff _ _).2 hk)]
      have hkeys : Dict.keys (Dict.set m k v) = Dict.keys m := by rw [Dict.keys_set, if_pos hk]
      obtain ⟨h1, h2⟩ := writeValues_stop p u q rest (Dict.set m k v) (by
        intro k' hk'; rw [hkeys]; exact h k' (by simp [Dict.keys] at hk' ⊢; exact Or.inr hk')) hn'.2 (by rw [hkeys]; exact hu)
      refine ⟨h1, ?_⟩
      intro x
      rw [h2, Dict.get?_set]
      by_cases hx : x ∈ Dict.keys p
      · have hxk : k ≠ x := by rintro rfl; exact hn'.1 hx
        have hx' : x ∈ Dict.keys ((k, v) :: p) := List.mem_cons_of_mem _ hx
        rw [if_pos hx, if_pos hx']
        simp [Dict.get?, hxk]
      · rw [if_neg hx]
        by_cases e : k = x
        · subst e
          rw [if_pos rfl, if_pos (by simp [Dict.keys])]
          simp [Dict.get?]
        · rw [if_neg e, if_neg]
          intro hx'
          rcases List.mem_cons.1 hx' with h | h
          · exact e h.symm
          · exact hx h

section
variable {vars : List Variable}

/-- what is stored and raised when the evidence after proper pieces mentions a string that is no value of its node -/
theorem write_stop (hd : DomsOk vars) {ev : EvMap} (hg : EvGood vars ev) (A : List Evidence) (hA : ∀ a ∈ A, a.Proper vars)
    {e : Evidence} (he : e.node ∈ vars) (hk : (Dict.keys e.values).Nodup) {p r : List Str} {u : Str}
    (hs : Dict.keys e.values = p ++ u :: r) (hp : ∀ x ∈ p, x ∈ e.node.values) (hu : u ∉ e.node.values) (B : List Evidence) :
    (JoinTree.writeEvidences ev (A.map Evidence.validated ++ e.validated :: B)).2 = some .keyError ∧
    ∀ v ∈ vars, Dict.get? (JoinTree.writeEvidences ev (A.map Evidence.validated ++ e.validated :: B)).1 v.id =
      some (v.values.map (fun x => (x, if v = e.node ∧ x ∈ p then e.written x else
        A.foldl (fun (ℓ : Liks) (a : Evidence) => ℓ.put a.node a.canon) (lik ev) v.id x))) := by
  induction A generalizing ev with
  | nil =>
    have hn := hd.vals _ he
    obtain ⟨m, hm1, hm2, hm3⟩ := validate_written e hn (hd.ne _ he) hk
    have hv : e.validated = { e with values := m } := by
      unfold Evidence.validated; rw [hm1]; rfl
    obtain ⟨hst, _⟩ := hg.get hd he
    -- the map after validation starts with the keys given
    have hmm : m = m.take p.length ++ m.drop p.length := (List.take_append_drop _ _).symm
    have hmk : Dict.keys m = p ++ u :: (r ++ e.node.values.filter (fun x => decide (x ∉ Dict.keys e.values))) := by
      rw [hm2]; unfold Evidence.order; rw [hs]; simp
    have hkt : Dict.keys (m.take p.length) = p := by
      unfold Dict.keys at hmk ⊢
      rw [List.map_take, hmk, List.take_left]
    have hkd : Dict.keys (m.drop p.length) = u :: (r ++ e.node.values.filter (fun x => decide (x ∉ Dict.keys e.values))) := by
      unfold Dict.keys at hmk ⊢
      rw [List.map_drop, hmk, List.drop_left]
    obtain ⟨q, rest, hdr⟩ : ∃ q rest, m.drop p.length = (u, q) :: rest := by
      cases hdd : m.drop p.length with
      | nil => rw [hdd] at hkd; cases hkd
      | cons kv rest =>
        rw [hdd] at hkd
        have := (List.cons.inj hkd).1
        exact ⟨kv.2, rest, by rw [← this]⟩
    rw [hdr] at hmm
    have hpn : p.Nodup := by
      rw [hs] at hk; exact (List.nodup_append.1 hk).1
    have hstk : Dict.keys (e.node.values.map (fun x => (x, lik ev e.node.id x))) = e.node.values := keys_map _ _
    obtain ⟨w1, w2⟩ := writeValues_stop (m.take p.length) u q rest (e.node.values.map (fun x => (x, lik ev e.node.id x)))
      (by rw [hkt, hstk]; exact hp) (by rw [hkt]; exact hpn) (by rw [hstk]; exact hu)
    rw [← hmm] at w1 w2
    have hon := e.order_nodup hn hk
    have hgt : ∀ x ∈ p, Dict.get? (m.take p.length) x = some (e.written x) := by
      intro x hx
      obtain ⟨y, hy⟩ := Dict.exists_get?_of_mem_keys (hkt.symm ▸ hx : x ∈ Dict.keys (m.take p.length))
      have hmem := List.mem_of_mem_take (Dict.mem_of_get? hy)
      have := Dict.get?_of_mem (by rw [hm2]; exact hon) hmem
      rw [hm3 x (hp x hx)] at this
      rw [hy, this]
    rw [List.map_nil, List.nil_append]
    unfold JoinTree.writeEvidences
    rw [hv]
    simp only [hst]
    rw [w1]
    refine ⟨rfl, ?_⟩
    intro v hv'
    rw [Dict.get?_set]
    by_cases hvi : e.node.id = v.id
    · rw [if_pos hvi]
      have hve := hd.inj he hv' hvi
      subst hve
      congr 1
      have hwk := writeValues_keys m (e.node.values.map (fun x => (x, lik ev e.node.id x)))
      rw [hstk] at hwk
      rw [List.foldl_nil, show e.node.values.map (fun x => (x, if e.node = e.node ∧ x ∈ p then e.written x else lik ev e.node.id x)) =
        (Dict.keys (JoinTree.writeValues (e.node.values.map (fun x => (x, lik ev e.node.id x))) m).1).map
          (fun x => (x, if e.node = e.node ∧ x ∈ p then e.written x else lik ev e.node.id x)) from by rw [hwk]]
      apply dict_eq_map
      · rw [hwk]; exact hn
      · intro x hx
        rw [hwk] at hx
        rw [w2, hkt]
        by_cases hxp : x ∈ p
        · rw [if_pos hxp, if_pos ⟨rfl, hxp⟩, hgt x hxp]
        · rw [if_neg hxp, if_neg (fun h => hxp h.2), get?_map, if_pos hx]
    · rw [if_neg hvi, (hg.get hd hv').1]
      congr 1
      apply List.map_congr_left
      intro x _
      rw [if_neg (by rintro ⟨h, _⟩; exact hvi (h ▸ rfl))]
      rfl
  | cons a A ih =>
    have hpa := hA a List.mem_cons_self
    obtain ⟨_, h2, ks, h3, h4⟩ := hpa.validated hd
    obtain ⟨hm, _⟩ := hg.get hd hpa.node
    obtain ⟨w1, w2, w3⟩ := write_one hg hd hpa.node h3 (Evidence.Proper.canon_range (e := a)) hm
    obtain ⟨i1, i2⟩ := ih w2 (fun e he => hA e (List.mem_cons_of_mem _ he))
    rw [List.map_cons, List.cons_append]
    unfold JoinTree.writeEvidences
    rw [h2, hm, h4]
    simp only [w1]
    refine ⟨i1, ?_⟩
    intro v hv
    rw [i2 v hv, w3]
    rfl

end

end PyBBN
