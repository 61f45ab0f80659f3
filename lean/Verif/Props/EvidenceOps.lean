import Verif.Props.Orders

/-! # Evidence operations: C22 – C27 -/

namespace PyBBN
open Relation InferenceController

/-! ## C22 -/

/-- the first largest value exists and is largest -/
theorem Evidence.best_spec (e : Evidence) (hne : e.node.values ≠ []) :
    ∃ a, e.best = some a ∧ a ∈ e.order ∧ ∀ y ∈ e.order, e.given y ≤ e.given a := by
  cases hb : e.best with
  | some a =>
    have h1 := List.find?_some hb
    rw [List.all_eq_true] at h1
    exact ⟨a, rfl, List.mem_of_find?_eq_some hb, fun y hy => by simpa using h1 y hy⟩
  | none =>
    exfalso
    obtain ⟨x, hx⟩ := List.exists_mem_of_ne_nil _ hne
    obtain ⟨a, ha, hmax⟩ := Finset.exists_max_image e.order.toFinset e.given ⟨x, List.mem_toFinset.2 (e.dom_order hx)⟩
    have := List.find?_eq_none.1 hb a (List.mem_toFinset.1 ha)
    apply this
    rw [List.all_eq_true]
    intro y hy
    simpa using hmax y (List.mem_toFinset.2 hy)

/-- **C22**. `validate` succeeds, keeps node and type, leaves exactly one likelihood per value of the node, namely the one the
specification gives, and validating again changes nothing. -/
theorem c22_validate (e : Evidence) (hn : e.node.values.Nodup) (hne : e.node.values ≠ []) (hk : (Dict.keys e.values).Nodup)
    (hdom : ∀ k ∈ Dict.keys e.values, k ∈ e.node.values) :
    ∃ e', e.validate = .ok e' ∧ e'.node = e.node ∧ e'.type = e.type ∧ (Dict.keys e'.values).Perm e.node.values ∧
      (∀ x ∈ e.node.values, Dict.get? e'.values x = some (e.canon x)) ∧ e'.validate = .ok e' := by
  obtain ⟨m, h1, h2, h3⟩ := validate_canon e hn hne hk hdom
  have hon := e.order_nodup hn hk
  have hsub : ∀ x ∈ e.order, x ∈ e.node.values := by
    intro x hx
    unfold Evidence.order at hx
    rcases List.mem_append.1 hx with h | h
    · exact hdom x h
    · exact (List.mem_filter.1 h).1
  have hperm : (Dict.keys m).Perm e.node.values := by
    rw [h2]
    exact (List.perm_ext_iff_of_nodup hon hn).2 (fun x => ⟨hsub x, e.dom_order⟩)
  refine ⟨{ e with values := m }, h1, rfl, rfl, hperm, h3, ?_⟩
  have hk' : (Dict.keys ({ e with values := m } : Evidence).values).Nodup := by rw [show Dict.keys ({ e with values := m } : Evidence).values = Dict.keys m from rfl, h2]; exact hon
  obtain ⟨m', g1, g2, g3⟩ := validate_canon { e with values := m } hn hne hk' (fun k hk => hperm.mem_iff.1 hk)
  have hord : ({ e with values := m } : Evidence).order = Dict.keys m := by
    unfold Evidence.order
    simp only
    rw [List.filter_eq_nil_iff.2, List.append_nil]
    intro x hx
    have : x ∈ Dict.keys m := hperm.mem_iff.2 hx
    simpa using this
  have hgiven : ∀ x ∈ e.node.values, ({ e with values := m } : Evidence).given x = e.canon x := by
    intro x hx
    unfold Evidence.given
    rw [show ({ e with values := m } : Evidence).values = m from rfl, h3 x hx]
    rfl
  have hcanon : ∀ x ∈ e.node.values, ({ e with values := m } : Evidence).canon x = e.canon x := by
    intro x hx
    have hg := hgiven x hx
    have hr := Evidence.Proper.canon_range (e := e)
    have hty : e.type = .virtual ∨ e.type = .finding ∨ e.type = .observation ∨ e.type = .unobserve := by cases e.type <;> simp
    rcases hty with ht | ht | ht | ht
    · unfold Evidence.canon at hg ⊢
      simp only [ht] at hg ⊢
      rw [hg, min_eq_right (max_le zero_le_one (min_le_left _ _)), max_eq_right (le_max_left _ _)]
    · have hc : ∀ y, e.canon y = if ∀ y ∈ e.node.values, e.given y ≤ 0 then 1 else if 0 < e.given y then 1 else 0 := by
        intro y; unfold Evidence.canon; rw [ht]
      have hnot : ¬ ∀ y ∈ e.node.values, ({ e with values := m } : Evidence).given y ≤ 0 := by
        intro hall
        by_cases h0 : ∀ y ∈ e.node.values, e.given y ≤ 0
        · have := hall x hx
          rw [hg, hc, if_pos h0] at this
          norm_num at this
        · have h0' := h0
          push Not at h0
          obtain ⟨y, hy, hy0⟩ := h0
          have := hall y hy
          rw [hgiven y hy, hc, if_neg h0', if_pos hy0] at this
          norm_num at this
      have : ({ e with values := m } : Evidence).canon x = if 0 < ({ e with values := m } : Evidence).given x then 1 else 0 := by
        unfold Evidence.canon
        simp only [ht]
        rw [if_neg]
        exact hnot
      rw [this, hg, hc]
      split
      · norm_num
      · split <;> norm_num
    · obtain ⟨a, ha, hao, _⟩ := e.best_spec hne
      have hc : ∀ y, e.canon y = if y = a then 1 else 0 := by
        intro y; unfold Evidence.canon; rw [ht]; simp only; rw [ha]
        by_cases e1 : y = a
        · subst e1; simp
        · rw [if_neg e1, if_neg (fun h => e1 (Option.some.inj h).symm)]
      obtain ⟨b, hb, hbo, hbm⟩ := ({ e with values := m } : Evidence).best_spec hne
      have hba : b = a := by
        by_contra hne'
        have hb' : b ∈ e.node.values := by rw [hord] at hbo; exact hperm.mem_iff.1 hbo
        have := hbm a (by rw [hord, h2]; exact hao)
        rw [hgiven a (hsub a hao), hgiven b hb', hc, hc, if_pos rfl, if_neg hne'] at this
        norm_num at this
      rw [hba] at hb
      have : ({ e with values := m } : Evidence).canon x = if ({ e with values := m } : Evidence).best = some x then 1 else 0 := by
        unfold Evidence.canon; simp only [ht]
      rw [this, hb, hc]
      by_cases e1 : x = a
      · subst e1; simp
      · rw [if_neg e1, if_neg (fun h => e1 (Option.some.inj h).symm)]
    · unfold Evidence.canon
      simp only [ht]
  have hm' : m' = m := by
    have k1 := dict_eq_map (f := e.canon) m' (by rw [g2, hord, h2]; exact hon) (by
      intro x hx
      rw [g2, hord] at hx
      have hx' := hperm.mem_iff.1 hx
      rw [g3 x hx', hcanon x hx'])
    have k2 := dict_eq_map (f := e.canon) m (by rw [h2]; exact hon) (fun x hx => h3 x (hperm.mem_iff.1 hx))
    rw [k1, g2, hord]
    exact k2.symm
  rw [g1, hm']

/-- **C22**, the shapes: virtual likelihoods lie in [0,1] (and are kept if they did); findings are 0/1 and not all 0;
an observation has one 1, at a largest given likelihood, and 0 elsewhere; unobserve evidence is all 1. -/
theorem c22_shapes (e : Evidence) (hne : e.node.values ≠ []) (hdom : ∀ k ∈ Dict.keys e.values, k ∈ e.node.values) :
    (e.type = .virtual → ∀ x, 0 ≤ e.canon x ∧ e.canon x ≤ 1 ∧ (0 ≤ e.given x → e.given x ≤ 1 → e.canon x = e.given x)) ∧
    (e.type = .finding → (∀ x, e.canon x = 0 ∨ e.canon x = 1) ∧ (∃ x ∈ e.node.values, e.canon x = 1) ∧
      ∀ x ∈ e.node.values, 0 < e.given x → e.canon x = 1) ∧
    (e.type = .observation → ∃ a ∈ e.node.values, e.canon a = 1 ∧ (∀ x, x ≠ a → e.canon x = 0) ∧
      ∀ x ∈ e.node.values, e.given x ≤ e.given a) ∧
    (e.type = .unobserve → ∀ x, e.canon x = 1) := by
  refine ⟨?_, ?_, ?_, ?_⟩
  · intro ht x
    refine ⟨(Evidence.Proper.canon_range x).1, (Evidence.Proper.canon_range x).2, ?_⟩
    intro h0 h1
    unfold Evidence.canon
    rw [ht]
    simp only
    rw [min_eq_right h1, max_eq_right h0]
  · intro ht
    have hc : ∀ y, e.canon y = if ∀ y ∈ e.node.values, e.given y ≤ 0 then 1 else if 0 < e.given y then 1 else 0 := by
      intro y; unfold Evidence.canon; rw [ht]
    refine ⟨?_, ?_, ?_⟩
    · intro x
      rw [hc]
      split
      · exact Or.inr rfl
      · split
        · exact Or.inr rfl
        · exact Or.inl rfl
    · by_cases h0 : ∀ y ∈ e.node.values, e.given y ≤ 0
      · obtain ⟨x, hx⟩ := List.exists_mem_of_ne_nil _ hne
        exact ⟨x, hx, by rw [hc, if_pos h0]⟩
      · have h0' := h0
        push Not at h0
        obtain ⟨y, hy, hy0⟩ := h0
        exact ⟨y, hy, by rw [hc, if_neg h0', if_pos hy0]⟩
    · intro x hx h0
      rw [hc, if_neg (fun h => absurd (h x hx) (not_le.2 h0)), if_pos h0]
  · intro ht
    obtain ⟨a, ha, hao, hmax⟩ := e.best_spec hne
    refine ⟨a, ?_, ?_, ?_, fun x hx => hmax x (e.dom_order hx)⟩
    · unfold Evidence.order at hao
      rcases List.mem_append.1 hao with h | h
      · exact hdom a h
      · exact (List.mem_filter.1 h).1
    · unfold Evidence.canon
      rw [ht]
      simp only
      rw [if_pos ha]
    · intro x hx
      unfold Evidence.canon
      rw [ht]
      simp only
      rw [ha, if_neg (fun h => hx (Option.some.inj h).symm)]
  · intro ht x
    unfold Evidence.canon
    rw [ht]

/-- **C22**, nodes without values: `validate` raises `IndexError` for observations and yields the empty map otherwise. -/
theorem c22_empty (e : Evidence) (hv : e.node.values = []) (hm : e.values = []) :
    e.validate = if e.type = .observation then .error .indexError else .ok e := by
  unfold Evidence.validate Evidence.validateValues
  rw [hv, hm]
  cases e with
  | mk node type values =>
    simp only at hv hm
    subst hm
    cases type <;> rfl

/-- C22 is not vacuous: a partial observation with a tie, an out-of-range virtual evidence, a finding without positive likelihood -/
example :
    (Evidence.build ⟨0, "a".toList, ["x".toList, "y".toList, "z".toList]⟩ .observation
      [("z".toList, 2), ("y".toList, 2)]).validate.val?.map Evidence.values =
        some [("z".toList, 1), ("y".toList, 0), ("x".toList, 0)] ∧
    (Evidence.build ⟨0, "a".toList, ["x".toList, "y".toList]⟩ .virtual
      [("x".toList, 2), ("y".toList, -1)]).validate.val?.map Evidence.values = some [("x".toList, 1), ("y".toList, 0)] ∧
    (Evidence.build ⟨0, "a".toList, ["x".toList, "y".toList]⟩ .finding
      [("y".toList, -1)]).validate.val?.map Evidence.values = some [("y".toList, 1), ("x".toList, 1)] := by
  decide +kernel

/-- the theorems of C22 at the partial observation with a tie, and at a node without values -/
example := c22_validate (Evidence.build ⟨0, "a".toList, ["x".toList, "y".toList, "z".toList]⟩ .observation [("z".toList, 2), ("y".toList, 2)])
  (by decide +kernel) (by decide +kernel) (by decide +kernel) (by decide +kernel)
example := (c22_shapes (Evidence.build ⟨0, "a".toList, ["x".toList, "y".toList, "z".toList]⟩ .observation
  [("z".toList, 2), ("y".toList, 2)]) (by decide +kernel) (by decide +kernel)).2.2.1 rfl
example := (c22_shapes (Evidence.build ⟨0, "a".toList, ["x".toList, "y".toList]⟩ .virtual
  [("x".toList, 2), ("y".toList, -1)]) (by decide +kernel) (by decide +kernel)).1 rfl
example := c22_empty (Evidence.build ⟨0, "a".toList, []⟩ .observation []) rfl rfl

/-! ## C23 -/

/-- the evidence "v is observed at x" -/
def obs (v : Variable) (x : Str) : Evidence := Evidence.build v .observation [(x, 1)]

theorem obs_proper {vars : List Variable} {v : Variable} (hv : v ∈ vars) {x : Str} (hx : x ∈ v.values) : (obs v x).Proper vars := by
  refine ⟨hv, ?_, ?_⟩
  · show (Dict.keys [(x, (1 : ℚ))]).Nodup
    simp [Dict.keys]
  · intro k hk
    have : k ∈ Dict.keys [(x, (1 : ℚ))] := hk
    simp [Dict.keys] at this
    subst this
    exact hx

theorem obs_given (v : Variable) (x y : Str) : (obs v x).given y = if y = x then 1 else 0 := by
  show (Dict.get? [(x, (1 : ℚ))] y).getD 0 = _
  by_cases h : x = y
  · subst h; simp [Dict.get?]
  · have h' : ¬ y = x := fun e => h e.symm
    simp [Dict.get?, h, h']

theorem obs_canon {v : Variable} {x : Str} (hx : x ∈ v.values) (y : Str) : (obs v x).canon y = if y = x then 1 else 0 := by
  have hne : (obs v x).node.values ≠ [] := List.ne_nil_of_mem hx
  obtain ⟨a, ha, hao, hmax⟩ := (obs v x).best_spec hne
  have hax : a = x := by
    by_contra h
    have := hmax x ((obs v x).dom_order hx)
    rw [obs_given, obs_given, if_pos rfl, if_neg h] at this
    norm_num at this
  subst hax
  have : (obs v a).canon y = if (obs v a).best = some y then 1 else 0 := rfl
  rw [this, ha]
  by_cases e1 : y = a
  · subst e1; simp
  · rw [if_neg e1, if_neg (fun h => e1 (Option.some.inj h).symm)]

theorem obs_givenOnes (v : Variable) (x : Str) : (obs v x).givenOnes = [x] := by
  unfold Evidence.givenOnes
  show (([(x, (1 : ℚ))] : List (Str × ℚ)).filter (fun kv => decide (kv.2 = 1))).map Prod.fst = [x]
  simp

theorem onesOf_ind {ds : List Str} (hn : ds.Nodup) {x : Str} (hx : x ∈ ds) {c : Str → ℚ} (hc : ∀ y ∈ ds, c y = if y = x then 1 else 0) :
    onesOf ds c = [x] := by
  unfold onesOf
  have : ds.filter (fun y => decide (c y = 1)) = ds.filter (fun y => decide (y = x)) := by
    apply List.filter_congr
    intro y hy
    rw [hc y hy]
    by_cases e : y = x <;> simp [e]
  rw [this]
  induction ds with
  | nil => simp at hx
  | cons d ds ih =>
    rw [List.nodup_cons] at hn
    by_cases e : d = x
    · subst e
      rw [List.filter_cons_of_pos (by simp), List.filter_eq_nil_iff.2]
      intro y hy h
      rw [decide_eq_true_eq] at h
      subst h
      exact hn.1 hy
    · rw [List.filter_cons_of_neg (by simpa using e)]
      have hx' := (List.mem_cons.1 hx).resolve_left (fun h => e h.symm)
      refine ih hn.2 hx' (fun y hy => hc y (List.mem_cons_of_mem _ hy)) ?_
      apply List.filter_congr
      intro y hy
      rw [hc y (List.mem_cons_of_mem _ hy)]
      by_cases e : y = x <;> simp [e]

theorem onesOf_ones {ds : List Str} {c : Str → ℚ} (hc : ∀ y ∈ ds, c y = 1) : onesOf ds c = ds := by
  unfold onesOf
  rw [List.filter_eq_self]
  intro y hy
  simpa using hc y hy

theorem specHist_append (vars : List Variable) (h : List (SetIter Str × EvOp)) (k : SetIter Str) (op : EvOp) :
    specHist vars (h ++ [(k, op)]) = op.spec vars (specHist vars h) := by
  unfold specHist
  rw [List.foldl_append]
  rfl

theorem lawHist_append (vars : List Variable) (h : List (SetIter Str × EvOp)) (k : SetIter Str) (op : EvOp) :
    lawHist vars (h ++ [(k, op)]) = op.law vars (lawHist vars h) := by
  unfold lawHist
  rw [List.foldl_append]
  rfl

theorem runHist_append (jt : JoinTree) (h : List (SetIter Str × EvOp)) (k : SetIter Str) (op : EvOp) :
    runHist jt (h ++ [(k, op)]) = (op.run k (runHist jt h)).1 := by
  unfold runHist
  rw [List.foldl_append]
  rfl

/-- the exception of a proper operation after a proper history -/
theorem law_err {it : SetIter Int} {js : SetIter Str} {ops : List BOp} {jt : JoinTree} (hu : Net.Sane ops)
    (hj : apply it js (Bbn.run ops) = .ok jt) (h : List (SetIter Str × EvOp)) (hp : ∀ op ∈ h, op.2.Proper (Bbn.run ops).vars)
    (k : SetIter Str) (op : EvOp) (ho : op.Proper (Bbn.run ops).vars) :
    (op.run k (runHist jt h)).2 = op.err (specHist (Bbn.run ops).vars h) := by
  have hd := doms hu
  obtain ⟨T, s0, h1, h2, h3, h4, h5, h6⟩ := live_hist hu hj h (fun op ho => (hp op ho).nodes hd)
  obtain ⟨b1, b2, b3⟩ := evHist_law hd h h3 (l := ⟨noEvidence, noEvidence⟩) h1 h2 hp
  rw [Live.hist_err (Bbn.net_ok (bbn_run_inv ops) hu.wf) (live_apply hu hj).choose_spec.2.2 hu.vals h4 h5 k op (ho.nodes hd),
    (evOp_pieces hd b1 ho).2, b2]
  congr 1
  exact lawHist_stored _ h

/-- the stored likelihoods of a node -/
def stored (jt : JoinTree) (v : Variable) (c : Str → ℚ) : Prop :=
  Dict.get? jt.evidences v.id = some (v.values.map (fun x => (x, c x)))

theorem stored_inj {jt : JoinTree} {v : Variable} {c c' : Str → ℚ} (h : stored jt v c) (h' : stored jt v c') : ∀ x ∈ v.values, c x = c' x := by
  unfold stored at h h'
  rw [h] at h'
  have := Option.some.inj h'
  intro x hx
  have h1 := List.map_inj_left.1 this x hx
  exact (Prod.mk.inj h1).2

theorem stored_congr {jt : JoinTree} {v : Variable} {c c' : Str → ℚ} (h : stored jt v c) (e : ∀ x ∈ v.values, c x = c' x) : stored jt v c' := by
  unfold stored at h ⊢
  rw [h]
  congr 1
  apply List.map_congr_left
  intro x hx
  rw [e x hx]

theorem put_at {ℓ : Liks} {v : Variable} {c : Str → ℚ} {x : Str} (hx : x ∈ v.values) : (ℓ.put v c) v.id x = c x := by
  unfold Liks.put; rw [if_pos ⟨rfl, hx⟩]

theorem put_ne {ℓ : Liks} {v : Variable} {c : Str → ℚ} {i : Int} {x : Str} (hi : i ≠ v.id) : (ℓ.put v c) i x = ℓ i x := by
  unfold Liks.put; rw [if_neg (fun h => hi h.1)]

/-- one more proper operation after any history: the law of `Spec/Evidence.lean` -/
theorem live_op {it : SetIter Int} {js : SetIter Str} {ops : List BOp} {jt : JoinTree} (hu : Net.Sane ops)
    (hj : apply it js (Bbn.run ops) = .ok jt) (h : List (SetIter Str × EvOp)) (hn : ∀ op ∈ h, op.2.Nodes (Bbn.run ops).vars)
    (k : SetIter Str) (op : EvOp) (ho : op.Proper (Bbn.run ops).vars) :
    ∃ (T : List SepSet) (s p : Liks), (∀ u ∈ (Bbn.run ops).vars, stored (runHist jt h) u (s u.id)) ∧
      (∀ i, i ∉ vids (Bbn.run ops).vars → Dict.get? (runHist jt h).evidences i = none ∧
        Dict.get? (op.run k (runHist jt h)).1.evidences i = none) ∧
      (op.run k (runHist jt h)).2 = op.err s ∧
      Live (Bbn.run ops).vars (Triangulator.triangulate it (moralize (Bbn.run ops))).1 T (Bbn.run ops).net
        (op.law (Bbn.run ops).vars ⟨s, p⟩).prop (op.run k (runHist jt h)).1 ∧
      ∀ u ∈ (Bbn.run ops).vars, stored (op.run k (runHist jt h)).1 u ((op.law (Bbn.run ops).vars ⟨s, p⟩).stored u.id) := by
  have hd := doms hu
  have hN := Bbn.net_ok (bbn_run_inv ops) hu.wf
  have hne := (live_apply hu hj).choose_spec.2.2
  obtain ⟨T, s0, h1, h2, h3, h4, h5, h6⟩ := live_hist hu hj h hn
  have hg := h4.good.congr h5
  obtain ⟨jt', g1, g2, g3, g4⟩ := h4.step hN hne hu.vals k op (ho.nodes hd)
  obtain ⟨⟨c1, c2⟩, c3⟩ := evOp_congr hd (s := ⟨(runHist jt h).evidences, (evHist (Bbn.run ops).vars s0 h).prop⟩)
    (t := evHist (Bbn.run ops).vars s0 h) h4.good ⟨h5, rfl⟩ h4.calib.ctx.bbnNodes_perm (List.Perm.refl _) op
  obtain ⟨b1, b2, b3⟩ := evOp_law hd hg ho
  have hjt : (op.run k (runHist jt h)).1 = jt' := by rw [g1]
  refine ⟨T, lik (evHist (Bbn.run ops).vars s0 h).ev, (evHist (Bbn.run ops).vars s0 h).prop, ?_, ?_, ?_, ?_, ?_⟩
  · intro u hu'
    unfold stored
    rw [h5, (hg.get hd hu').1]
  · intro i hi
    rw [hjt]
    exact ⟨h4.foreign i hi, g2.foreign i hi⟩
  · rw [g1, c3, (evOp_pieces hd hg ho).2]
  · rw [hjt, ← b3, ← c2]
    exact g2
  · intro u hu'
    unfold stored
    rw [hjt, g3, c1, (b1.get hd hu').1, b2]

/-- **C23**. After any history of operations (also failing ones), setting the observation `v = x` does not raise; if `v` was
observed at `x` (likelihood 1 at `x`, 0 elsewhere) it becomes unobserved (all 1); if it was unobserved or observed at another
value, `x` becomes its only possible value. Other nodes keep their evidence. -/
theorem c23_toggle {it : SetIter Int} {js : SetIter Str} {ops : List BOp} {jt : JoinTree} (hu : Net.Sane ops)
    (hj : apply it js (Bbn.run ops) = .ok jt) (h : List (SetIter Str × EvOp)) (hn : ∀ op ∈ h, op.2.Nodes (Bbn.run ops).vars)
    (k : SetIter Str) {v : Variable} (hv : v ∈ (Bbn.run ops).vars) {x : Str} (hx : x ∈ v.values) :
    ((runHist jt h).setObservation k (obs v x)).2 = none ∧
    (∀ u ∈ (Bbn.run ops).vars, u ≠ v → Dict.get? ((runHist jt h).setObservation k (obs v x)).1.evidences u.id =
      Dict.get? (runHist jt h).evidences u.id) ∧
    (stored (runHist jt h) v (fun y => if y = x then 1 else 0) →
      stored ((runHist jt h).setObservation k (obs v x)).1 v (fun _ => 1)) ∧
    (stored (runHist jt h) v (fun _ => 1) ∨ (∃ z ∈ v.values, z ≠ x ∧ stored (runHist jt h) v (fun y => if y = z then 1 else 0)) →
      stored ((runHist jt h).setObservation k (obs v x)).1 v (fun y => if y = x then 1 else 0)) ∧
    (Net.Usable ops → 2 ≤ v.values.length →
      stored (runHist jt h) v (fun _ => 1) ∨ (∃ z ∈ v.values, stored (runHist jt h) v (fun y => if y = z then 1 else 0)) →
      ∃ ℓ : Liks, (∀ u ∈ (Bbn.run ops).vars, stored ((runHist jt h).setObservation k (obs v x)).1 u (ℓ u.id)) ∧
        ∀ u ∈ (Bbn.run ops).vars, ((runHist jt h).setObservation k (obs v x)).1.getBbnPotential u =
          .ok (posteriorTable (Bbn.run ops) ℓ u)) := by
  have hd := doms hu
  have hop : (EvOp.observe (obs v x)).Proper (Bbn.run ops).vars := obs_proper hv hx
  obtain ⟨T, s, p, hbefore, _, herr, hlive, hlaw⟩ := live_op hu hj h hn k _ hop
  have hvn := hd.vals v hv
  have hspec : (EvOp.observe (obs v x)).spec (Bbn.run ops).vars s =
      if onesOf v.values (s v.id) = [x] then s.put v (fun _ => 1) else s.put v (obs v x).canon := by
    unfold EvOp.spec
    simp only [obs_givenOnes, List.head?_cons]
    change (if (onesOf v.values (s v.id)).length = 1 then
      (if onesOf v.values (s v.id) = [x] then s.put v (fun _ => 1) else s.put v (obs v x).canon)
      else s.put v (obs v x).canon) = _
    by_cases h1 : onesOf v.values (s v.id) = [x]
    · simp [h1]
    · simp [h1]
  have hls : ((EvOp.observe (obs v x)).law (Bbn.run ops).vars ⟨s, p⟩).stored = (EvOp.observe (obs v x)).spec (Bbn.run ops).vars s := rfl
  rw [hls, hspec] at hlaw
  change ∀ u ∈ (Bbn.run ops).vars, stored ((runHist jt h).setObservation k (obs v x)).1 u _ at hlaw
  have hob : ∀ {z : Str}, z ∈ v.values → stored (runHist jt h) v (fun y => if y = z then 1 else 0) → onesOf v.values (s v.id) = [z] := by
    intro z hz hst
    exact onesOf_ind hvn hz (stored_inj (hbefore v hv) hst)
  have hun : stored (runHist jt h) v (fun _ => 1) → onesOf v.values (s v.id) = [x] → v.values = [x] := by
    intro hst e
    rw [onesOf_ones (stored_inj (hbefore v hv) hst)] at e
    exact e
  refine ⟨?_, ?_, ?_, ?_, ?_⟩
  · have : (EvOp.observe (obs v x)).err s = none := by
      unfold EvOp.err
      simp [obs_givenOnes]
    rw [this] at herr
    exact herr
  · intro u hu' huv
    have h1 := hlaw u hu'
    have h2 := hbefore u hu'
    unfold stored at h1 h2
    rw [h1, h2]
    congr 1
    apply List.map_congr_left
    intro y _
    have hne : u.id ≠ v.id := fun e => huv (hd.inj hu' hv e)
    split
    · rw [put_ne hne]
    · rw [put_ne hne]
  · intro hst
    have := hlaw v hv
    rw [if_pos (hob hx hst)] at this
    exact stored_congr this (fun y hy => put_at hy)
  · intro hst
    have := hlaw v hv
    by_cases h1 : onesOf v.values (s v.id) = [x]
    · rw [if_pos h1] at this
      refine stored_congr this (fun y hy => ?_)
      rw [put_at hy]
      rcases hst with hst | ⟨z, hz, hzx, hst⟩
      · rw [hun hst h1, List.mem_singleton] at hy
        rw [if_pos hy]
      · rw [hob hz hst] at h1
        exact absurd (List.cons.inj h1).1 hzx
    · rw [if_neg h1] at this
      exact stored_congr this (fun y hy => by rw [put_at hy, obs_canon hx])
  · intro huse h2 hst
    refine ⟨_, fun u hu' => hlaw u hu', ?_⟩
    intro u hu'
    have hpot := live_posterior huse hlive u hu'
    change ((runHist jt h).setObservation k (obs v x)).1.getBbnPotential u = _ at hpot
    rw [hpot]
    congr 2
    unfold EvOp.law
    rw [hspec]
    simp only
    rw [if_neg]
    intro hall
    have hpc : ∃ e ∈ (EvOp.observe (obs v x)).pieces (Bbn.run ops).vars s, e.node = v ∧
        ((onesOf v.values (s v.id) = [x] ∧ ∀ y ∈ v.values, e.canon y = 1) ∨
          (onesOf v.values (s v.id) ≠ [x] ∧ e = obs v x)) := by
      unfold EvOp.pieces
      simp only [obs_givenOnes, List.head?_cons]
      change ∃ e ∈ (if (onesOf v.values (s v.id)).length = 1 then
        (if onesOf v.values (s v.id) = [x] then [JoinTree.unobservedEvidence v] else [obs v x]) else [obs v x]), _
      by_cases h1 : onesOf v.values (s v.id) = [x]
      · refine ⟨JoinTree.unobservedEvidence v, ?_, rfl, Or.inl ⟨h1, fun y _ => unobserved_canon v y⟩⟩
        rw [if_pos (by rw [h1]; rfl), if_pos h1]
        simp
      · refine ⟨obs v x, ?_, rfl, Or.inr ⟨h1, rfl⟩⟩
        rw [if_neg h1]
        simp
    obtain ⟨e, he, hev, hcase⟩ := hpc
    have hun := hall e he
    unfold Unseen at hun
    rw [hev] at hun
    rcases hcase with ⟨h1, h1'⟩ | ⟨h1, rfl⟩
    · rcases hun with ⟨_, hb⟩ | ⟨a, ha, _⟩
      · rw [onesOf_ones hb] at h1
        rw [h1] at h2
        simp at h2
      · rw [onesOf_ones h1'] at ha
        rw [ha] at h2
        simp at h2
    · have hoo : onesOf v.values (obs v x).canon = [x] := onesOf_ind hvn hx (fun y _ => obs_canon hx y)
      rcases hun with ⟨ha, _⟩ | ⟨a, ha, hb⟩
      · rw [onesOf_ones ha] at hoo
        rw [hoo] at h2
        simp at h2
      · rw [hoo] at ha
        rw [← ha] at hb
        exact h1 hb

/-- the stored likelihoods of a node as a list -/
def likList (jt : JoinTree) (i : Int) : List ℚ := ((Dict.get? jt.evidences i).getD []).map Prod.snd

/-- C23 is not vacuous: node 2 of the example network is observed at `off` after the history of C18, node 0 is unobserved -/
example : Net.Usable c16_ops ∧ (∀ op ∈ c18_hist, op.2.Nodes (Bbn.run c16_ops).vars) ∧
    c16_node 0 ∈ (Bbn.run c16_ops).vars ∧ c16_node 2 ∈ (Bbn.run c16_ops).vars ∧
    ((apply .same .same (Bbn.run c16_ops)).val?.map (fun jt =>
      [likList (runHist jt c18_hist) 2, likList (runHist jt c18_hist) 0])) = some [[0, 1], [1, 1]] ∧
    ((apply .same .same (Bbn.run c16_ops)).val?.map (fun jt =>
      [likList ((runHist jt c18_hist).setObservation .same (obs (c16_node 2) "off".toList)).1 2,
       likList ((runHist jt c18_hist).setObservation .same (obs (c16_node 2) "on".toList)).1 2,
       likList ((runHist jt c18_hist).setObservation .same (obs (c16_node 0) "on".toList)).1 0])) =
    some [[1, 1], [1, 0], [1, 0]] :=
  ⟨c16_usable, fun op ho => (c18_hist_ok op ho).proper.nodes (doms c16_usable.toSane), by decide +kernel, by decide +kernel,
    by decide +kernel, by decide +kernel⟩

example := c23_toggle c16_usable.toSane (c16_jt_ok .same .same) c18_hist c18_hist_nodes .rev
  (v := c16_node 2) (by decide +kernel) (x := "off".toList) (by decide +kernel)

/-! ## C24 -/

/-- what folding evidence does to one node: nothing, or the likelihoods of the last piece about it -/
theorem foldl_put_last : ∀ (es : List Evidence) (ℓ : Liks) (v : Variable), (∀ e ∈ es, e.node.id = v.id → e.node = v) →
    (∀ x ∈ v.values, es.foldl (fun (ℓ : Liks) (e : Evidence) => ℓ.put e.node e.canon) ℓ v.id x = 
      match es.reverse.find? (fun e => decide (e.node.id = v.id)) with
      | none => ℓ v.id x
      | some e => e.canon x)
  | [], ℓ, v, _ => by simp
  | e :: es, ℓ, v, h => by
      intro x hx
      rw [List.foldl_cons, foldl_put_last es _ v (fun e he => h e (List.mem_cons_of_mem _ he)) x hx]
      rw [List.reverse_cons, List.find?_append]
      cases hf : es.reverse.find? (fun e => decide (e.node.id = v.id)) with
      | some e' => simp
      | none =>
        by_cases hi : e.node.id = v.id
        · have := h e List.mem_cons_self hi
          simp only [Option.none_or, List.find?_cons, hi, decide_true]
          rw [this, put_at hx]
        · simp only [Option.none_or, List.find?_cons, List.find?_nil, hi, decide_false]
          rw [put_ne (fun e => hi e.symm)]

theorem foldl_put_out : ∀ (es : List Evidence) (ℓ : Liks) (i : Int) (x : Str), (∀ e ∈ es, e.node.id = i → x ∉ e.node.values) →
    es.foldl (fun (ℓ : Liks) (e : Evidence) => ℓ.put e.node e.canon) ℓ i x = ℓ i x
  | [], ℓ, i, x, _ => rfl
  | e :: es, ℓ, i, x, h => by
      rw [List.foldl_cons, foldl_put_out es _ i x (fun e he => h e (List.mem_cons_of_mem _ he))]
      unfold Liks.put
      rw [if_neg]
      rintro ⟨h1, h2⟩
      exact h e List.mem_cons_self h1.symm h2

/-- the tables never hold evidence about a node whose stored likelihoods are all 1 -/
structure Law.Clean (vars : List Variable) (l : Law) : Prop where
  out : ∀ i x, (∀ v ∈ vars, v.id = i → x ∉ v.values) → l.stored i x = 1 ∧ l.prop i x = 1
  ones : ∀ v ∈ vars, (∀ x ∈ v.values, l.stored v.id x = 1) → ∀ x ∈ v.values, l.prop v.id x = 1

theorem Law.Clean.step {vars : List Variable} (hd : DomsOk vars) {l : Law} (h : l.Clean vars) {op : EvOp} (hp : op.Proper vars) :
    (op.law vars l).Clean vars := by
  have hpc := hp.pieces l.stored
  have hout : ∀ i x, (∀ v ∈ vars, v.id = i → x ∉ v.values) → op.spec vars l.stored i x = 1 := by
    intro i x hx
    rw [EvOp.spec_pieces, foldl_put_out]
    · exact (h.out i x hx).1
    · intro e he hi
      exact hx e.node (hpc e he).node hi
  by_cases hall : ∀ e ∈ op.pieces vars l.stored, Unseen l.stored e
  · have hl : op.law vars l = ⟨op.spec vars l.stored, l.prop⟩ := by
      unfold EvOp.law; rw [if_pos hall]
    rw [hl]
    refine ⟨fun i x hx => ⟨hout i x hx, (h.out i x hx).2⟩, ?_⟩
    intro v hv hones
    apply h.ones v hv
    have hlast := foldl_put_last (op.pieces vars l.stored) l.stored v (fun e he hi => hd.inj (hpc e he).node hv hi)
    simp only at hones
    rw [EvOp.spec_pieces] at hones
    cases hf : (op.pieces vars l.stored).reverse.find? (fun e => decide (e.node.id = v.id)) with
    | none =>
      rw [hf] at hlast
      intro x hx
      have h1 := hlast x hx
      simp only at h1
      rw [← h1]
      exact hones x hx
    | some e =>
      rw [hf] at hlast
      have he : e ∈ op.pieces vars l.stored := List.mem_reverse.1 (List.mem_of_find?_eq_some hf)
      have hi : e.node.id = v.id := by simpa using List.find?_some hf
      have hev := hd.inj (hpc e he).node hv hi
      have hc : ∀ x ∈ v.values, e.canon x = 1 := fun x hx => by
        have h1 := hlast x hx
        simp only at h1
        rw [← h1]
        exact hones x hx
      have hun := hall e he
      unfold Unseen at hun
      rw [hev] at hun
      rcases hun with ⟨_, hb⟩ | ⟨a, ha, hb⟩
      · exact hb
      · rw [onesOf_ones hc] at ha
        intro x hx
        have : x ∈ onesOf v.values (l.stored v.id) := by rw [hb, ← ha]; exact hx
        exact (mem_onesOf.1 this).2
  · have hl : op.law vars l = ⟨op.spec vars l.stored, op.spec vars l.stored⟩ := by
      unfold EvOp.law; rw [if_neg hall]
    rw [hl]
    exact ⟨fun i x hx => ⟨hout i x hx, hout i x hx⟩, fun v hv h1 => h1⟩

theorem lawHist_clean {vars : List Variable} (hd : DomsOk vars) (h : List (SetIter Str × EvOp)) (hp : ∀ op ∈ h, op.2.Proper vars) :
    (lawHist vars h).Clean vars := by
  unfold lawHist
  have : ∀ (h : List (SetIter Str × EvOp)) (l : Law), l.Clean vars → (∀ op ∈ h, op.2.Proper vars) →
      (h.foldl (fun s op => op.2.law vars s) l).Clean vars := by
    intro h
    induction h with
    | nil => intro l hl _; exact hl
    | cons op h ih =>
      intro l hl hp
      exact ih _ (hl.step hd (hp op List.mem_cons_self)) (fun o ho => hp o (List.mem_cons_of_mem _ ho))
  exact this h _ ⟨fun i x _ => ⟨rfl, rfl⟩, fun v hv _ x hx => rfl⟩ hp

/-- **C24**, partial: after any history of evidence about nodes and values of the network (ambiguous evidence included),
`unobserve_all` restores exactly the posteriors of the freshly built join tree. Missing: histories containing updates that mention
a value the node does not have; such an update fails half-way and the claim is then false (`c24_false`). -/
theorem c24_unobserve_all_partial {it : SetIter Int} {js : SetIter Str} {ops : List BOp} {jt : JoinTree} (hu : Net.Sane ops)
    (hj : apply it js (Bbn.run ops) = .ok jt) (h : List (SetIter Str × EvOp)) (hp : ∀ op ∈ h, op.2.Proper (Bbn.run ops).vars)
    (k : SetIter Str) :
    ((runHist jt h).unobserveAll k).2 = none ∧
    ∀ v ∈ (Bbn.run ops).vars, stored ((runHist jt h).unobserveAll k).1 v (fun _ => 1) ∧
      ((runHist jt h).unobserveAll k).1.getBbnPotential v = jt.getBbnPotential v := by
  have hd := doms hu
  have hop : EvOp.unobserveAll.Proper (Bbn.run ops).vars := trivial
  have hp' : ∀ op ∈ h ++ [(k, EvOp.unobserveAll)], op.2.Proper (Bbn.run ops).vars := by
    intro op ho
    rcases List.mem_append.1 ho with ho | ho
    · exact hp op ho
    · rw [List.mem_singleton] at ho; subst ho; exact hop
  obtain ⟨T, hlive, hst, hsame⟩ := live_law hu hj _ hp'
  have hrun : runHist jt (h ++ [(k, EvOp.unobserveAll)]) = ((runHist jt h).unobserveAll k).1 := runHist_append jt h k _
  rw [hrun] at hlive hst hsame
  have hstored : ∀ v ∈ (Bbn.run ops).vars, ∀ x ∈ v.values, specHist (Bbn.run ops).vars (h ++ [(k, EvOp.unobserveAll)]) v.id x = 1 := by
    intro v hv x hx
    rw [specHist_append, EvOp.spec_pieces,
      foldl_put_last _ _ v (fun e he hi => hd.inj ((hop.pieces _) e he).node hv hi) x hx]
    cases hf : (EvOp.unobserveAll.pieces (Bbn.run ops).vars (specHist (Bbn.run ops).vars h)).reverse.find?
        (fun e => decide (e.node.id = v.id)) with
    | none =>
      exfalso
      have := List.find?_eq_none.1 hf (JoinTree.unobservedEvidence v) (List.mem_reverse.2 (List.mem_map_of_mem hv))
      apply this
      simp [JoinTree.unobservedEvidence, Evidence.build]
    | some e =>
      have he : e ∈ (Bbn.run ops).vars.map JoinTree.unobservedEvidence := List.mem_reverse.1 (List.mem_of_find?_eq_some hf)
      obtain ⟨u, _, rfl⟩ := List.mem_map.1 he
      rfl
  have hclean := lawHist_clean hd _ hp'
  have hprop : (lawHist (Bbn.run ops).vars (h ++ [(k, EvOp.unobserveAll)])).prop = noEvidence := by
    funext i x
    by_cases hx : ∀ v ∈ (Bbn.run ops).vars, v.id = i → x ∉ v.values
    · exact (hclean.out i x hx).2
    · push Not at hx
      obtain ⟨v, hv, rfl, hx⟩ := hx
      exact hclean.ones v hv (by rw [lawHist_stored]; exact hstored v hv) x hx
  refine ⟨law_err hu hj h hp k _ hop, ?_⟩
  intro v hv
  obtain ⟨T0, hlive0, _⟩ := live_apply hu hj
  rw [hprop] at hlive
  refine ⟨?_, live_same hu hj hj hsame (SameTree.refl _) hlive hlive0 v hv⟩
  refine stored_congr (stored_get hu hlive v hv) ?_
  intro x hx
  rw [hst]
  exact hstored v hv x hx

/-- an observation, a failing update, and `unobserve_all` -/
def c24_bad : List (SetIter Str × EvOp) :=
  [(.same, .update [obs (c16_node 4) "on".toList]),
   (.same, .update [JoinTree.unobservedEvidence (c16_node 4), obs (c16_node 0) "oops".toList]),
   (.same, .unobserveAll)]

/-- **C24 is false of the code** when an update has failed before: the failing update overwrites the stored likelihoods of node 4
without propagating them, so `unobserve_all` sees no change, and the posteriors stay those given the observation. -/
theorem c24_false : Net.Usable c16_ops ∧ (∀ op ∈ c24_bad, op.2.Nodes (Bbn.run c16_ops).vars) ∧
    ∃ jt P, apply .same .same (Bbn.run c16_ops) = .ok jt ∧
      [0, 1, 2, 3, 4].map (likList (runHist jt c24_bad)) = [[1, 1], [1, 1], [1, 1], [1, 1], [1, 1]] ∧
      (runHist jt c24_bad).getBbnPotential (c16_node 0) = .ok P ∧ P.map PEntry.value = [110 / 447, 337 / 447] ∧
      ∃ Q, jt.getBbnPotential (c16_node 0) = .ok Q ∧ Q.map PEntry.value = [1 / 4, 3 / 4] := by
  have hm : ∀ i ∈ ([0, 4] : List Int), c16_node i ∈ (Bbn.run c16_ops).vars := by decide +kernel
  have hd := doms c16_usable.toSane
  refine ⟨c16_usable, ?_, ?_⟩
  · intro op hop
    simp only [c24_bad, List.mem_cons, List.not_mem_nil, or_false] at hop
    rcases hop with rfl | rfl | rfl
    · intro e he
      rw [List.mem_singleton] at he
      subst he
      exact ⟨⟨fun _ => hm 4 (by simp), hd.vals _ (hm 4 (by simp))⟩, by decide +kernel⟩
    · intro e he
      simp only [List.mem_cons, List.not_mem_nil, or_false] at he
      rcases he with rfl | rfl
      · exact ⟨⟨fun _ => hm 4 (by simp), hd.vals _ (hm 4 (by simp))⟩, by decide +kernel⟩
      · exact ⟨⟨fun _ => hm 0 (by simp), hd.vals _ (hm 0 (by simp))⟩, by decide +kernel⟩
    · trivial
  · obtain ⟨jt, P, h1, h2, h3⟩ := posterior_of_eval (ops := c16_ops) (h := c24_bad) (v := c16_node 0) (l := [110 / 447, 337 / 447])
      (by decide +kernel)
    obtain ⟨jt', Q, g1, g2, g3⟩ := posterior_of_eval (ops := c16_ops) (h := []) (v := c16_node 0) (l := [1 / 4, 3 / 4])
      (by decide +kernel)
    have : jt' = jt := by rw [h1] at g1; cases g1; rfl
    subst this
    have hl : (apply .same .same (Bbn.run c16_ops)).val?.map (fun jt => [0, 1, 2, 3, 4].map (likList (runHist jt c24_bad))) =
        some [[1, 1], [1, 1], [1, 1], [1, 1], [1, 1]] := by decide +kernel
    rw [h1] at hl
    exact ⟨jt', P, h1, Option.some.inj hl, h2, h3, Q, g2, g3⟩

/-- C24 is not vacuous: the history of C18 changes the posterior of node 0, and it is proper -/
example : (∀ op ∈ c18_hist, op.2.Proper (Bbn.run c16_ops).vars) ∧
    ((apply .same .same (Bbn.run c16_ops)).val?.bind (fun jt =>
      (((runHist jt c18_hist).unobserveAll .same).1.getBbnPotential (c16_node 0)).val?)).map (fun P => P.map PEntry.value) =
      some [1 / 4, 3 / 4] :=
  ⟨fun op ho => (c18_hist_ok op ho).proper, by decide +kernel⟩

example := c24_unobserve_all_partial c16_usable.toSane (c16_jt_ok .same .rev) c18_hist c18_hist_proper .rev

/-! ## C25 -/

/-- the pieces of evidence of an operation that does not toggle -/
def EvOp.batch (vars : List Variable) : EvOp → List Evidence
  | .update es => es
  | .observe _ => []
  | .unobserve nodes => nodes.map JoinTree.unobservedEvidence
  | .unobserveAll => vars.map JoinTree.unobservedEvidence

/-- an update with observation, finding or unobserve evidence, or an `unobserve` -/
def EvOp.Plain (vars : List Variable) : EvOp → Prop
  | .update es => ∀ e ∈ es, e.Proper vars ∧ e.type ≠ .virtual
  | .observe _ => False
  | .unobserve nodes => ∀ v ∈ nodes, v ∈ vars
  | .unobserveAll => True

/-- the likelihood of `x` given by the latest evidence about `v`; 1 if there is none -/
def latest (vars : List Variable) (h : List (SetIter Str × EvOp)) (v : Variable) (x : Str) : ℚ :=
  match (h.flatMap (fun op => op.2.batch vars)).reverse.find? (fun e => decide (e.node.id = v.id)) with
  | none => 1
  | some e => e.canon x

/-- likelihoods that are all 0 or 1 are unambiguous -/
theorem unambiguous_of_bits {ds : List Str} {c : Str → ℚ} (h : ∀ x, c x = 0 ∨ c x = 1) : Unambiguous ds c := by
  intro a _ _ h2 b hb hba
  exact (h b).resolve_right (h2 b hb hba)

theorem canon_bits {e : Evidence} (h : e.type ≠ .virtual) (x : Str) : e.canon x = 0 ∨ e.canon x = 1 := by
  unfold Evidence.canon
  cases ht : e.type with
  | «virtual» => exact absurd ht h
  | finding =>
    simp only
    split
    · exact Or.inr rfl
    · split
      · exact Or.inr rfl
      · exact Or.inl rfl
  | observation =>
    simp only
    split
    · exact Or.inr rfl
    · exact Or.inl rfl
  | unobserve => exact Or.inr rfl

theorem EvOp.Plain.ok {vars : List Variable} {op : EvOp} (h : op.Plain vars) : op.Ok vars := by
  cases op with
  | update es => exact fun e he => ⟨(h e he).1, unambiguous_of_bits (canon_bits (h e he).2)⟩
  | observe e => exact h.elim
  | unobserve ns => exact h
  | unobserveAll => trivial

theorem EvOp.Plain.pieces {vars : List Variable} {op : EvOp} (h : op.Plain vars) (ℓ : Liks) : op.pieces vars ℓ = op.batch vars := by
  cases op with
  | observe e => exact h.elim
  | _ => rfl

theorem specHist_latest {vars : List Variable} (hd : DomsOk vars) (h : List (SetIter Str × EvOp)) (hp : ∀ op ∈ h, op.2.Plain vars)
    {v : Variable} (hv : v ∈ vars) {x : Str} (hx : x ∈ v.values) : specHist vars h v.id x = latest vars h v x := by
  have hfold : ∀ (h : List (SetIter Str × EvOp)) (ℓ : Liks), (∀ op ∈ h, op.2.Plain vars) →
      h.foldl (fun ℓ op => op.2.spec vars ℓ) ℓ =
        (h.flatMap (fun op => op.2.batch vars)).foldl (fun (ℓ : Liks) (e : Evidence) => ℓ.put e.node e.canon) ℓ := by
    intro h
    induction h with
    | nil => intro ℓ _; rfl
    | cons op h ih =>
      intro ℓ hp
      rw [List.foldl_cons, ih _ (fun o ho => hp o (List.mem_cons_of_mem _ ho)), List.flatMap_cons, List.foldl_append,
        EvOp.spec_pieces, (hp op List.mem_cons_self).pieces]
  unfold specHist
  rw [hfold h _ hp, foldl_put_last _ _ v _ x hx]
  · rfl
  · intro e he hi
    obtain ⟨op, ho, he⟩ := List.mem_flatMap.1 he
    refine hd.inj ?_ hv hi
    have h1 := (hp op ho).ok.proper.pieces noEvidence
    rw [(hp op ho).pieces] at h1
    exact (h1 e he).node

/-- **C25**. Two histories of observation/finding/unobserve evidence whose latest evidence agrees on every node give the same stored
likelihoods and the same posteriors, whatever the order and batching (and whatever the iteration orders). -/
theorem c25_latest {it it' : SetIter Int} {js js' : SetIter Str} {ops : List BOp} {jt jt' : JoinTree} (hu : Net.Sane ops)
    (hj : apply it js (Bbn.run ops) = .ok jt) (hj' : apply it' js' (Bbn.run ops) = .ok jt') (h h' : List (SetIter Str × EvOp))
    (hp : ∀ op ∈ h, op.2.Plain (Bbn.run ops).vars) (hp' : ∀ op ∈ h', op.2.Plain (Bbn.run ops).vars)
    (hl : ∀ v ∈ (Bbn.run ops).vars, ∀ x ∈ v.values, latest (Bbn.run ops).vars h v x = latest (Bbn.run ops).vars h' v x) :
    ∀ v ∈ (Bbn.run ops).vars, Dict.get? (runHist jt h).evidences v.id = Dict.get? (runHist jt' h').evidences v.id ∧
      (runHist jt h).getBbnPotential v = (runHist jt' h').getBbnPotential v := by
  have hd := doms hu
  intro v hv
  obtain ⟨T, a1, a2, a3⟩ := live_law hu hj h (fun op ho => (hp op ho).ok.proper)
  obtain ⟨T', b1, b2, b3⟩ := live_law hu hj' h' (fun op ho => (hp' op ho).ok.proper)
  rw [(lawHist_ok hd h (fun op ho => (hp op ho).ok)).1] at a1
  rw [(lawHist_ok hd h' (fun op ho => (hp' op ho).ok)).1] at b1
  have e : specHist (Bbn.run ops).vars h = specHist (Bbn.run ops).vars h' := by
    funext i x
    by_cases hx : ∀ v ∈ (Bbn.run ops).vars, v.id = i → x ∉ v.values
    · have c1 := (lawHist_clean hd h (fun op ho => (hp op ho).ok.proper)).out i x hx
      have c2 := (lawHist_clean hd h' (fun op ho => (hp' op ho).ok.proper)).out i x hx
      rw [lawHist_stored] at c1 c2
      rw [c1.1, c2.1]
    · push Not at hx
      obtain ⟨u, hu', rfl, hx⟩ := hx
      rw [specHist_latest hd h hp hu' hx, specHist_latest hd h' hp' hu' hx, hl u hu' x hx]
  refine ⟨?_, ?_⟩
  · rw [stored_get hu a1 v hv, stored_get hu b1 v hv, a2, b2, e]
  · rw [← e] at b1
    exact live_same hu hj hj' a3 b3 a1 b1 v hv

/-- C25 is not vacuous: two histories with the same latest evidence, differing in order, batching and superseded evidence -/
example : ∃ h h' : List (SetIter Str × EvOp), h ≠ [] ∧ h.length ≠ h'.length ∧
    (∀ op ∈ h, op.2.Plain (Bbn.run c16_ops).vars) ∧ (∀ op ∈ h', op.2.Plain (Bbn.run c16_ops).vars) ∧
    (∀ v ∈ (Bbn.run c16_ops).vars, ∀ x ∈ v.values, latest (Bbn.run c16_ops).vars h v x = latest (Bbn.run c16_ops).vars h' v x) ∧
    latest (Bbn.run c16_ops).vars h (c16_node 4) "off".toList = 0 := by
  have hm : ∀ i ∈ ([0, 1, 4] : List Int), c16_node i ∈ (Bbn.run c16_ops).vars := by decide +kernel
  have hpr : ∀ i ∈ ([0, 1, 4] : List Int), ∀ x ∈ ["on".toList, "off".toList], (obs (c16_node i) x).Proper (Bbn.run c16_ops).vars := by
    intro i hi x hx
    apply obs_proper (hm i hi)
    simpa [c16_node, mkNode] using hx
  refine ⟨[(.same, .update [obs (c16_node 4) "off".toList, obs (c16_node 1) "on".toList]), (.rev, .unobserve [c16_node 0]),
      (.same, .update [obs (c16_node 4) "on".toList])],
    [(.same, .update [obs (c16_node 4) "on".toList, obs (c16_node 1) "on".toList])], by simp, by simp, ?_, ?_, ?_, ?_⟩
  · intro op hop
    simp only [List.mem_cons, List.not_mem_nil, or_false] at hop
    rcases hop with rfl | rfl | rfl
    · intro e he
      simp only [List.mem_cons, List.not_mem_nil, or_false] at he
      rcases he with rfl | rfl
      · exact ⟨hpr 4 (by simp) _ (by simp), by decide⟩
      · exact ⟨hpr 1 (by simp) _ (by simp), by decide⟩
    · intro v hv
      rw [List.mem_singleton] at hv
      subst hv
      exact hm 0 (by simp)
    · intro e he
      rw [List.mem_singleton] at he
      subst he
      exact ⟨hpr 4 (by simp) _ (by simp), by decide⟩
  · intro op hop
    rw [List.mem_singleton] at hop
    subst hop
    intro e he
    simp only [List.mem_cons, List.not_mem_nil, or_false] at he
    rcases he with rfl | rfl
    · exact ⟨hpr 4 (by simp) _ (by simp), by decide⟩
    · exact ⟨hpr 1 (by simp) _ (by simp), by decide⟩
  · decide +kernel
  · decide +kernel

/-! ## C26 -/

/-- **C26**, second half: the change type is never `UPDATE`, so propagation without re-initialization never happens. -/
theorem c26_never_update (ev : Dict Int (Dict Str ℚ)) (es : List Evidence) : JoinTree.getChangeType ev es ≠ .ok .update := by
  intro h
  unfold JoinTree.getChangeType at h
  obtain ⟨cs, h1, h2⟩ := bind_ok h
  split at h2
  · cases h2
  · split at h2
    · rename_i hm
      obtain ⟨e, _, he⟩ := mapM_ok_mem h1 _ hm
      obtain ⟨st, _, h3⟩ := bind_ok he
      have : Evidence.compare e.values st = .update := by simpa using h3
      unfold Evidence.compare at this
      split at this
      · cases this
      · split at this
        · split at this <;> cases this
        · cases this
    · cases h2

/-- evidence that changes nothing, and evidence that does: neither is answered with `UPDATE` -/
example : (JoinTree.getChangeType [(4, [("on".toList, 1), ("off".toList, 1)])] [JoinTree.unobservedEvidence (c16_node 4)]).val? = some .none ∧
    (JoinTree.getChangeType [(4, [("on".toList, 1), ("off".toList, 1)])]
      [Evidence.build (c16_node 4) .observation [("on".toList, 1), ("off".toList, 0)]]).val? = some .retraction := by
  decide +kernel

/-- **C26**, partial: after any history of operations (also failing ones), an update with evidence about nodes and values of the
network that changes a stored likelihood is propagated (posteriors afterwards are exact for the likelihoods stored), provided
neither the stored likelihoods of the nodes concerned nor the new ones are ambiguous. Missing: ambiguous ones (`c26_false`). -/
theorem c26_never_missed_partial {it : SetIter Int} {js : SetIter Str} {ops : List BOp} {jt : JoinTree} (hu : Net.Usable ops)
    (hj : apply it js (Bbn.run ops) = .ok jt) (h : List (SetIter Str × EvOp)) (hn : ∀ op ∈ h, op.2.Nodes (Bbn.run ops).vars)
    (k : SetIter Str) (es : List Evidence)
    (hes : ∀ e ∈ es, e.Proper (Bbn.run ops).vars ∧ Unambiguous e.node.values e.canon ∧
      ∃ c, stored (runHist jt h) e.node c ∧ Unambiguous e.node.values c)
    (hch : ∃ i, Dict.get? ((runHist jt h).updateEvidences k es).1.evidences i ≠ Dict.get? (runHist jt h).evidences i) :
    ∃ ℓ : Liks, (∀ u ∈ (Bbn.run ops).vars, stored ((runHist jt h).updateEvidences k es).1 u (ℓ u.id)) ∧
      ∀ u ∈ (Bbn.run ops).vars, ((runHist jt h).updateEvidences k es).1.getBbnPotential u = .ok (posteriorTable (Bbn.run ops) ℓ u) := by
  have hd := doms hu.toSane
  have hop : (EvOp.update es).Proper (Bbn.run ops).vars := fun e he => (hes e he).1
  obtain ⟨T, s, p, hbefore, hfor, herr, hlive, hlaw⟩ := live_op hu.toSane hj h hn k _ hop
  refine ⟨_, fun u hu' => hlaw u hu', ?_⟩
  intro u hu'
  have hpot := live_posterior hu hlive u hu'
  change ((runHist jt h).updateEvidences k es).1.getBbnPotential u = _ at hpot
  rw [hpot]
  congr 2
  unfold EvOp.law
  simp only
  rw [if_neg]
  intro hall
  have hsame : (EvOp.update es).spec (Bbn.run ops).vars s = s := by
    apply foldl_put_same
    intro e he x hx
    obtain ⟨c, hc1, hc2⟩ := (hes e he).2.2
    have hsc := stored_inj (hbefore e.node (hes e he).1.node) hc1
    have hun : Unambiguous e.node.values (s e.node.id) := by
      intro a ha h1 h2 b hb hba
      rw [hsc b hb]
      exact hc2 a ha (by rw [← hsc a ha]; exact h1) (fun b hb hba => by rw [← hsc b hb]; exact h2 b hb hba) b hb hba
    exact compare_unambiguous (hes e he).2.1 hun (hall e he) x hx
  obtain ⟨i, hi⟩ := hch
  apply hi
  by_cases hiv : i ∈ vids (Bbn.run ops).vars
  · obtain ⟨v, hv, rfl⟩ := List.mem_map.1 hiv
    have h1 := hlaw v hv
    have h2 := hbefore v hv
    have hls : ((EvOp.update es).law (Bbn.run ops).vars ⟨s, p⟩).stored = (EvOp.update es).spec (Bbn.run ops).vars s := rfl
    rw [hls, hsame] at h1
    unfold stored at h1 h2
    rw [h2]
    exact h1
  · rw [(hfor i hiv).1]
    exact (hfor i hiv).2

/-- **C26 is false of the code**: the second update of `c18_bad` changes the stored likelihoods of node 4 from `1, 0` to `1, 1/2`,
and no propagation follows: the posterior of node 0 is that of the first update. -/
theorem c26_false : Net.Usable c16_ops ∧ (∀ op ∈ c18_bad, op.2.Proper (Bbn.run c16_ops).vars) ∧
    ∃ jt P, apply .same .same (Bbn.run c16_ops) = .ok jt ∧
      likList (runHist jt (c18_bad.take 1)) 4 = [1, 0] ∧ likList (runHist jt c18_bad) 4 = [1, 1 / 2] ∧
      (runHist jt (c18_bad.take 1)).getBbnPotential (c16_node 0) = .ok P ∧
      (runHist jt c18_bad).getBbnPotential (c16_node 0) = .ok P ∧
      posteriorTable (Bbn.run c16_ops) (specHist (Bbn.run c16_ops).vars c18_bad) (c16_node 0) ≠ P := by
  obtain ⟨h1, h2, jt, P, h3, h4, h5, h6⟩ := c18_false
  have hl : (apply .same .same (Bbn.run c16_ops)).val?.map (fun jt =>
      [likList (runHist jt (c18_bad.take 1)) 4, likList (runHist jt c18_bad) 4]) = some [[1, 0], [1, 1 / 2]] := by decide +kernel
  have hq : (apply .same .same (Bbn.run c16_ops)).val?.map (fun jt =>
      decide (((runHist jt (c18_bad.take 1)).getBbnPotential (c16_node 0)).val? = ((runHist jt c18_bad).getBbnPotential (c16_node 0)).val?)) =
      some true := by decide +kernel
  rw [h3] at hl hq
  have hl' := Option.some.inj hl
  simp only [List.cons.injEq, and_true] at hl'
  have hq' := of_decide_eq_true (Option.some.inj hq)
  rw [h4] at hq'
  refine ⟨h1, h2, jt, P, h3, hl'.1, hl'.2, ?_, h4, ?_⟩
  · cases hg : (runHist jt (c18_bad.take 1)).getBbnPotential (c16_node 0) with
    | error e => rw [hg] at hq'; cases hq'
    | ok Q => rw [hg] at hq'; cases hq'; rfl
  · intro e
    rw [e, h5] at h6
    exact absurd h6 (by decide +kernel)

/-- C26's partial theorem is not vacuous: on the example network, retracting an observation in favour of the other value -/
example : ∃ jt, apply .same .same (Bbn.run c16_ops) = .ok jt ∧
    (∀ e ∈ [obs (c16_node 4) "off".toList], e.Proper (Bbn.run c16_ops).vars ∧ Unambiguous e.node.values e.canon ∧
      ∃ c, stored (runHist jt (c18_bad.take 1)) e.node c ∧ Unambiguous e.node.values c) ∧
    Dict.get? ((runHist jt (c18_bad.take 1)).updateEvidences .same [obs (c16_node 4) "off".toList]).1.evidences 4 ≠
      Dict.get? (runHist jt (c18_bad.take 1)).evidences 4 := by
  obtain ⟨h1, h2, jt, P, h3, hl1, _⟩ := c26_false
  have hv : c16_node 4 ∈ (Bbn.run c16_ops).vars := by decide +kernel
  refine ⟨jt, h3, ?_, ?_⟩
  · intro e he
    rw [List.mem_singleton] at he
    subst he
    have hb : ∀ x, (obs (c16_node 4) "off".toList).canon x = 0 ∨ (obs (c16_node 4) "off".toList).canon x = 1 :=
      canon_bits (by decide)
    refine ⟨obs_proper hv (by decide +kernel), unambiguous_of_bits hb, fun y => if y = "on".toList then 1 else 0, ?_, ?_⟩
    · have := (c18_law h1 h3 (c18_bad.take 1) (fun op ho => h2 op (List.mem_of_mem_take ho)) _ hv).1
      refine stored_congr this ?_
      have : ∀ x ∈ (c16_node 4).values, specHist (Bbn.run c16_ops).vars (c18_bad.take 1) (c16_node 4).id x =
          if x = "on".toList then 1 else 0 := by decide +kernel
      exact this
    · apply unambiguous_of_bits
      intro x
      split
      · exact Or.inr rfl
      · exact Or.inl rfl
  · have hl : (apply .same .same (Bbn.run c16_ops)).val?.map (fun jt =>
        likList ((runHist jt (c18_bad.take 1)).updateEvidences .same [obs (c16_node 4) "off".toList]).1 4) = some [0, 1] := by
      decide +kernel
    rw [h3] at hl
    have hl' := Option.some.inj hl
    simp only at hl'
    intro e
    have : likList ((runHist jt (c18_bad.take 1)).updateEvidences .same [obs (c16_node 4) "off".toList]).1 4 =
        likList (runHist jt (c18_bad.take 1)) 4 := by
      unfold likList; rw [e]
    rw [hl', hl1] at this
    exact absurd this (by decide +kernel)

/-! ## C27 -/

/-- evidence about nodes of the network only mentions their values (nodes outside the network are allowed) -/
def EvOp.Values (vars : List Variable) : EvOp → Prop
  | .update es => ∀ e ∈ es, e.node ∈ vars → ∀ k ∈ Dict.keys e.values, k ∈ e.node.values
  | .observe e => e.node ∈ vars → ∀ k ∈ Dict.keys e.values, k ∈ e.node.values
  | .unobserve _ => True
  | .unobserveAll => True

theorem update_foreign {jt : JoinTree} {es : List Evidence} (k : SetIter Str) {e : Evidence} (he : e ∈ es)
    (hf : Dict.get? jt.evidences e.node.id = none) (hnode : ∀ e ∈ es, e.node.values.Nodup) :
    (jt.updateEvidences k es).1 = jt ∧ (jt.updateEvidences k es).2 ≠ none := by
  unfold JoinTree.updateEvidences
  cases hv : es.mapM Evidence.validate with
  | error e => exact ⟨rfl, by simp⟩
  | ok es' =>
    simp only
    cases hc : JoinTree.getChangeType jt.evidences es' with
    | error e => exact ⟨rfl, by simp⟩
    | ok c =>
      exfalso
      have hget : ∀ (es es' : List Evidence), es.mapM Evidence.validate = .ok es' → ∀ e ∈ es, ∃ e' ∈ es', e.validate = .ok e' := by
        intro es
        induction es with
        | nil => intro es' _ e he; simp at he
        | cons a es ih =>
          intro es' h e he
          rw [List.mapM_cons] at h
          obtain ⟨y, h1, h2⟩ := bind_ok h
          obtain ⟨ys, h3, h4⟩ := bind_ok h2
          cases h4
          rcases List.mem_cons.1 he with rfl | he
          · exact ⟨y, List.mem_cons_self, h1⟩
          · obtain ⟨e', he', hval⟩ := ih ys h3 e he
            exact ⟨e', List.mem_cons_of_mem _ he', hval⟩
      obtain ⟨e', he', hval⟩ := hget es es' hv e he
      have hn := (validate_range e e' (hnode e he) hval).1
      unfold JoinTree.getChangeType at hc
      obtain ⟨cs, h1, _⟩ := bind_ok hc
      have hall : ∀ (es' : List Evidence) (cs : List ChangeType), es'.mapM (fun e => (do
          let stored ← Dict.getItem jt.evidences e.node.id
          .ok (Evidence.compare e.values stored) : Py ChangeType)) = .ok cs → ∀ e ∈ es', ∃ m, Dict.get? jt.evidences e.node.id = some m := by
        intro es'
        induction es' with
        | nil => intro cs _ e he; simp at he
        | cons a es ih =>
          intro cs h e he
          rw [List.mapM_cons] at h
          obtain ⟨y, h1, h2⟩ := bind_ok h
          obtain ⟨ys, h3, h4⟩ := bind_ok h2
          rcases List.mem_cons.1 he with rfl | he
          · obtain ⟨st, h5, _⟩ := bind_ok h1
            unfold Dict.getItem at h5
            cases hg : Dict.get? jt.evidences e.node.id with
            | none => rw [hg] at h5; cases h5
            | some m => exact ⟨m, rfl⟩
          · exact ih ys h3 e he
      obtain ⟨m, hm⟩ := hall es' cs h1 e' he'
      rw [hn, hf] at hm
      cases hm

theorem update_atomic {vars : List Variable} {cs : List Clique} {T : List SepSet} {N : Net} {ℓ : Liks} {jt : JoinTree}
    (hN : NetOk vars N) (hne : cs ≠ []) (hd : DomsOk vars) (h : Live vars cs T N ℓ jt) (k : SetIter Str) (es : List Evidence)
    (hes : ∀ e ∈ es, NodeOk vars e.node ∧ (Dict.keys e.values).Nodup)
    (hv : ∀ e ∈ es, e.node ∈ vars → ∀ k ∈ Dict.keys e.values, k ∈ e.node.values) (herr : (jt.updateEvidences k es).2 ≠ none) :
    (jt.updateEvidences k es).1 = jt := by
  by_cases hall : ∀ e ∈ es, e.node ∈ vars
  · exfalso
    apply herr
    obtain ⟨jt', h1, _⟩ := h.update hN hne hd.ne k es hes
    rw [h1]
    exact (evUpdate_proper hd h.good es (fun e he => ⟨hall e he, (hes e he).2, hv e he (hall e he)⟩)).1
  · push Not at hall
    obtain ⟨e, he, hne'⟩ := hall
    refine (update_foreign k he (h.foreign _ ?_) (fun e he => (hes e he).1.2)).1
    intro hi
    exact hne' ((hes e he).1.1 hi)

/-- **C27**, partial: after any history of operations (also failing ones), an operation that raises an exception leaves the join
tree exactly as it was, provided its evidence about nodes of the network only mentions values these nodes have; in particular an
update with evidence about an unknown node never has an effect. Missing: unknown values of known nodes (`c27_false`). -/
theorem c27_atomic_partial {it : SetIter Int} {js : SetIter Str} {ops : List BOp} {jt : JoinTree} (hu : Net.Sane ops)
    (hj : apply it js (Bbn.run ops) = .ok jt) (h : List (SetIter Str × EvOp)) (hn : ∀ op ∈ h, op.2.Nodes (Bbn.run ops).vars)
    (k : SetIter Str) (op : EvOp) (hop : op.Nodes (Bbn.run ops).vars) (hval : op.Values (Bbn.run ops).vars)
    (herr : (op.run k (runHist jt h)).2 ≠ none) : (op.run k (runHist jt h)).1 = runHist jt h := by
  have hd := doms hu
  have hN := Bbn.net_ok (bbn_run_inv ops) hu.wf
  have hne := (live_apply hu hj).choose_spec.2.2
  obtain ⟨T, s0, _, _, _, h4, _⟩ := live_hist hu hj h hn
  generalize runHist jt h = t at *
  have hunk : ∀ v : Variable, ∀ k ∈ Dict.keys (JoinTree.unobservedEvidence v).values, k ∈ v.values := by
    intro v k hk
    have := ((foldl_set_keys (v.values.map (fun x => (x, (1 : ℚ)))) [] (by simp [Dict.keys])).2 k).1 hk
    simp [Dict.keys] at this
    exact this
  have hunob : ∀ ns : List Variable, (∀ v ∈ ns, NodeOk (Bbn.run ops).vars v) → (t.unobserve k ns).2 ≠ none → (t.unobserve k ns).1 = t := by
    intro ns hns he
    refine update_atomic hN hne hd h4 k _ (unobserved_nodes hns) ?_ he
    intro e he _
    obtain ⟨v, hv, rfl⟩ := List.mem_map.1 he
    exact hunk v
  cases op with
  | update es => exact update_atomic hN hne hd h4 k es hop hval herr
  | unobserve ns => exact hunob ns hop herr
  | unobserveAll =>
    refine hunob _ ?_ herr
    intro v hv
    have := h4.calib.ctx.bbnNodes_perm.mem_iff.1 hv
    exact ⟨fun _ => this, hd.vals v this⟩
  | observe e =>
    have hup : (t.updateEvidences k [e]).2 ≠ none → (t.updateEvidences k [e]).1 = t := by
      intro he
      refine update_atomic hN hne hd h4 k [e] ?_ ?_ he
      · intro e' he'; rw [List.mem_singleton] at he'; subst he'; exact hop
      · intro e' he'; rw [List.mem_singleton] at he'; subst he'; exact hval
    have hun : (t.unobserve k [e.node]).2 ≠ none → (t.unobserve k [e.node]).1 = t :=
      hunob [e.node] (by intro v hv; rw [List.mem_singleton] at hv; subst hv; exact hop.1)
    change (t.setObservation k e).2 ≠ none at herr
    change (t.setObservation k e).1 = t
    unfold JoinTree.setObservation at herr ⊢
    cases hm : Dict.get? t.evidences e.node.id with
    | none => rfl
    | some m =>
      rw [hm] at herr
      simp only at herr ⊢
      split at herr
      · rename_i hl
        rw [if_pos hl]
        split at herr
        · rfl
        · rename_i x hc
          split at herr
          · rename_i hh
            rw [if_pos hh]
            exact hun herr
          · rename_i hh
            rw [if_neg hh]
            exact hup herr
      · rename_i hl
        rw [if_neg hl]
        exact hup herr

/-- **C27 is false of the code**: an update with an unknown value for node 0 raises `KeyError`, but evidence earlier in the list
has been written. -/
theorem c27_false : Net.Usable c16_ops ∧ ∃ jt, apply .same .same (Bbn.run c16_ops) = .ok jt ∧
    (jt.updateEvidences .same [obs (c16_node 4) "on".toList, obs (c16_node 0) "oops".toList]).2 = some .keyError ∧
    likList jt 4 = [1, 1] ∧
    likList (jt.updateEvidences .same [obs (c16_node 4) "on".toList, obs (c16_node 0) "oops".toList]).1 4 = [1, 0] := by
  refine ⟨c16_usable, ?_⟩
  have hl : (apply .same .same (Bbn.run c16_ops)).val?.map (fun jt =>
      ((jt.updateEvidences .same [obs (c16_node 4) "on".toList, obs (c16_node 0) "oops".toList]).2,
       [likList jt 4, likList (jt.updateEvidences .same [obs (c16_node 4) "on".toList, obs (c16_node 0) "oops".toList]).1 4])) =
      some (some .keyError, [[1, 1], [1, 0]]) := by decide +kernel
  cases hj : apply .same .same (Bbn.run c16_ops) with
  | error e => rw [hj] at hl; cases hl
  | ok jt =>
    rw [hj] at hl
    have hl' := Option.some.inj hl
    simp only [Prod.mk.injEq, List.cons.injEq, and_true] at hl'
    exact ⟨jt, rfl, hl'.1, hl'.2.1, hl'.2.2⟩

/-- C27's partial theorem is not vacuous: an update about an unknown node, and a `set_observation` without a likelihood 1 on an
observed node, raise -/
example : (EvOp.update [obs (c16_node 4) "on".toList, obs ⟨9, "z".toList, ["u".toList]⟩ "u".toList]).Values (Bbn.run c16_ops).vars ∧
    ((apply .same .same (Bbn.run c16_ops)).val?.map (fun jt =>
      [((EvOp.update [obs (c16_node 4) "on".toList, obs ⟨9, "z".toList, ["u".toList]⟩ "u".toList]).run .same jt).2,
       ((EvOp.observe (Evidence.build (c16_node 2) .observation [("on".toList, 1/2)])).run .same (runHist jt c18_hist)).2])) =
      some [some .keyError, some .indexError] := by
  refine ⟨?_, by decide +kernel⟩
  intro e he hv
  simp only [List.mem_cons, List.not_mem_nil, or_false] at he
  rcases he with rfl | rfl
  · decide +kernel
  · exact absurd hv (by decide +kernel)

end PyBBN
