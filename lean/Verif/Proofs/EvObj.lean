import Verif.Spec.EvObj
import Verif.Props.EvidenceOps

/-! Evidence objects: the objects of a program and what was asked of them mean the same. -/

namespace PyBBN
open Evidence

/-! ### likelihoods -/

theorem plain_canon {e : Evidence} (ht : e.type = .observation) {a : Str} (ha : a ∈ e.node.values) (h1 : e.given a = 1)
    (h0 : ∀ x, x ≠ a → e.given x = 0) (x : Str) : e.canon x = e.given x := by
  obtain ⟨b, hb, _, hmax⟩ := e.best_spec (List.ne_nil_of_mem ha)
  have hba : b = a := by
    by_contra hne
    have := hmax a (e.dom_order ha)
    rw [h1, h0 b hne] at this
    norm_num at this
  subst hba
  unfold Evidence.canon
  rw [ht]
  simp only
  rw [hb]
  by_cases e1 : x = b
  · subst e1; rw [if_pos rfl, h1]
  · rw [if_neg (fun h => e1 (Option.some.inj h).symm), h0 x e1]

/-- evidence whose likelihoods are those another piece stands for, stands for the same -/
theorem canon_of_fixed {o w : Evidence} (hn : o.node = w.node) (ht : o.type = w.type) (hne : w.node.values ≠ [])
    (hsub : ∀ k ∈ Dict.keys o.values, k ∈ w.node.values)
    (hf : ∀ x ∈ w.node.values, o.given x = w.canon x) (hwd : ∀ k ∈ Dict.keys w.values, k ∈ w.node.values) {x : Str} (hx : x ∈ w.node.values) : o.canon x = w.canon x := by
  have hty : w.type = .virtual ∨ w.type = .finding ∨ w.type = .observation ∨ w.type = .unobserve := by cases w.type <;> simp
  rcases hty with h | h | h | h
  · have := hf x hx
    unfold Evidence.canon at this ⊢
    rw [ht, h]
    simp only [h] at this ⊢
    rw [this, min_eq_right (max_le zero_le_one (min_le_left _ _)), max_eq_right (le_max_left _ _)]
  · have hc : ∀ y, w.canon y = if ∀ y ∈ w.node.values, w.given y ≤ 0 then 1 else if 0 < w.given y then 1 else 0 := by
      intro y; unfold Evidence.canon; rw [h]
    have hnot : ¬ ∀ y ∈ w.node.values, o.given y ≤ 0 := by
      intro hall
      by_cases h0 : ∀ y ∈ w.node.values, w.given y ≤ 0
      · have := hall x hx
        rw [hf x hx, hc, if_pos h0] at this
        norm_num at this
      · have h0' := h0
        push Not at h0
        obtain ⟨y, hy, hy0⟩ := h0
        have := hall y hy
        rw [hf y hy, hc, if_neg h0', if_pos hy0] at this
        norm_num at this
    have : o.canon x = if 0 < o.given x then 1 else 0 := by
      unfold Evidence.canon
      simp only [ht, h]
      rw [if_neg]
      rw [hn]
      exact hnot
    rw [this, hf x hx, hc]
    split
    · norm_num
    · split <;> norm_num
  · obtain ⟨a, ha, hao, _⟩ := w.best_spec hne
    have hav : a ∈ w.node.values := by
      unfold Evidence.order at hao
      rcases List.mem_append.1 hao with h' | h'
      · exact hwd a h'
      · exact (List.mem_filter.1 h').1
    have hc : ∀ y, w.canon y = if y = a then 1 else 0 := by
      intro y; unfold Evidence.canon; rw [h]; simp only; rw [ha]
      by_cases e1 : y = a
      · subst e1; simp
      · rw [if_neg e1, if_neg (fun h => e1 (Option.some.inj h).symm)]
    have hoff : ∀ y, y ∉ w.node.values → o.given y = 0 := by
      intro y hy
      unfold Evidence.given
      rw [(Dict.get?_eq_none_iff _ _).2 (fun hk => hy (hsub y hk))]
      rfl
    rw [plain_canon (ht.trans h) (a := a) (by rw [hn]; exact hav) (by rw [hf a hav, hc, if_pos rfl]) ?_ x, hf x hx]
    intro y hy
    by_cases hyv : y ∈ w.node.values
    · rw [hf y hyv, hc, if_neg hy]
    · exact hoff y hyv
  · unfold Evidence.canon
    simp only [ht, h]


theorem given_off {e : Evidence} {x : Str} (h : x ∉ Dict.keys e.values) : e.given x = 0 := by
  unfold Evidence.given
  rw [(Dict.get?_eq_none_iff _ _).2 h]
  rfl

/-- how the likelihoods of a piece of evidence that is changed after its use relate to those asked for -/
def Rel (o w : Evidence) : Prop :=
  match w.type with
  | .virtual => ∀ x, max 0 (min 1 (o.given x)) = max 0 (min 1 (w.given x))
  | .unobserve => True
  | .finding => ∀ x, (0 < o.given x ↔ 0 < w.given x)
  | .observation => ∀ x, o.given x = w.given x

/-- the content `o` of piece `h` and the evidence `w` asked for -/
structure Same (R : Nat → Prop) (cs : List EvCmd) (h : Nat) (o w : Evidence) : Prop where
  node : o.node = w.node
  type : o.type = w.type
  keys : (Dict.keys o.values).Nodup
  sub : ∀ k ∈ Dict.keys o.values, k ∈ Dict.keys w.values ∨ k ∈ w.node.values
  rel : (R h ∧ Rel o w) ∨ (¬ R h ∧ (o.values = w.values ∨ ((∀ x ∈ w.node.values, o.given x = w.canon x) ∧ ∀ c ∈ cs, c.Spares h)))

section
variable {R : Nat → Prop} {cs : List EvCmd} {h : Nat} {o w : Evidence} {vars : List Variable}

theorem Same.dom (s : Same R cs h o w) (hw : w.Proper vars) : ∀ k ∈ Dict.keys o.values, k ∈ w.node.values :=
  fun k hk => (s.sub k hk).elim (hw.dom k) id

theorem Same.given (s : Same R cs h o w) (hw : w.Proper vars) (ht : w.type = .observation) (hr : w.Reusable) (x : Str) : o.given x = w.given x := by
  unfold Evidence.Reusable at hr
  rw [ht] at hr
  obtain ⟨a, ha, h1, h0⟩ := hr
  rcases s.rel with ⟨_, hr⟩ | ⟨_, hr | ⟨hr, _⟩⟩
  · unfold Rel at hr
    rw [ht] at hr
    exact hr x
  · unfold Evidence.given; rw [hr]
  · by_cases hx : x ∈ w.node.values
    · rw [hr x hx, plain_canon ht ha h1 h0]
    · rw [given_off (fun hk => hx (s.dom hw x hk)), given_off (fun hk => hx (hw.dom x hk))]

/-- whenever it is used, the piece stands for what was asked for -/
theorem Same.canon (s : Same R cs h o w) (hw : w.Proper vars) (hd : DomsOk vars) (hr : R h → w.Reusable) {x : Str} (hx : x ∈ w.node.values) :
    o.canon x = w.canon x := by
  rcases s.rel with ⟨hR, hrel⟩ | ⟨_, hv | ⟨hf, _⟩⟩
  · have hty : w.type = .virtual ∨ w.type = .finding ∨ w.type = .observation ∨ w.type = .unobserve := by cases w.type <;> simp
    rcases hty with h | h | h | h
    · unfold Rel at hrel
      rw [h] at hrel
      unfold Evidence.canon
      rw [s.type, h]
      exact hrel x
    · unfold Rel at hrel
      rw [h] at hrel
      simp only at hrel
      have e1 : (∀ y ∈ o.node.values, o.given y ≤ 0) ↔ ∀ y ∈ w.node.values, w.given y ≤ 0 := by
        rw [s.node]
        exact ⟨fun h y hy => not_lt.1 (fun hl => absurd (h y hy) (not_le.2 ((hrel y).2 hl))),
          fun h y hy => not_lt.1 (fun hl => absurd (h y hy) (not_le.2 ((hrel y).1 hl)))⟩
      unfold Evidence.canon
      rw [s.type, h]
      simp only [e1, hrel x]
    · have hg := s.given hw h (hr hR)
      have hr' := hr hR
      unfold Evidence.Reusable at hr'
      rw [h] at hr'
      obtain ⟨a, ha, h1, h0⟩ := hr'
      rw [plain_canon h ha h1 h0, plain_canon (s.type.trans h) (a := a) (by rw [s.node]; exact ha) (by rw [hg, h1]) (fun y hy => by rw [hg, h0 y hy]), hg]
    · unfold Evidence.canon
      simp only [s.type, h]
  · have : o = w := by
      cases o; cases w
      have h1 := s.node
      have h2 := s.type
      simp only at h1 h2 hv
      subst h1 h2 hv
      rfl
    rw [this]
  · exact canon_of_fixed s.node s.type (hd.ne _ hw.node) (s.dom hw) hf hw.dom hx

/-- the content of an object ready to be used for `w` -/
structure Ready (o w : Evidence) : Prop where
  node : o.node = w.node
  type : o.type = w.type
  keys : (Dict.keys o.values).Nodup
  dom : ∀ k ∈ Dict.keys o.values, k ∈ w.node.values
  canon : ∀ x ∈ w.node.values, o.canon x = w.canon x

/-- the content of an object just validated for `w` -/
structure Final (o w : Evidence) : Prop where
  node : o.node = w.node
  type : o.type = w.type
  vals : ∃ ks : List Str, ks.Perm w.node.values ∧ o.values = ks.map (fun x => (x, w.canon x))

theorem Final.given (f : Final o w) {x : Str} (hx : x ∈ w.node.values) : o.given x = w.canon x := by
  obtain ⟨ks, h1, h2⟩ := f.vals
  unfold Evidence.given
  rw [h2, get?_map, if_pos (h1.mem_iff.2 hx)]
  rfl

theorem Final.keys_iff (f : Final o w) (x : Str) : x ∈ Dict.keys o.values ↔ x ∈ w.node.values := by
  obtain ⟨ks, h1, h2⟩ := f.vals
  rw [h2, keys_map, h1.mem_iff]

theorem Final.nodup (f : Final o w) (hn : w.node.values.Nodup) : (Dict.keys o.values).Nodup := by
  obtain ⟨ks, h1, h2⟩ := f.vals
  rw [h2, keys_map]
  exact h1.nodup_iff.2 hn

theorem Final.ready (f : Final o w) (hd : DomsOk vars) (hw : w.Proper vars) : Ready o w :=
  ⟨f.node, f.type, f.nodup (hd.vals _ hw.node), fun k hk => (f.keys_iff k).1 hk,
    fun _ hx => canon_of_fixed f.node f.type (hd.ne _ hw.node) (fun k hk => (f.keys_iff k).1 hk) (fun _ hx => f.given hx) hw.dom hx⟩

theorem Same.ready (s : Same R cs h o w) (hw : w.Proper vars) (hd : DomsOk vars) (hr : R h → w.Reusable) : Ready o w :=
  ⟨s.node, s.type, s.keys, s.dom hw, fun _ hx => s.canon hw hd hr hx⟩

theorem Ready.validate (r : Ready o w) (hw : w.Proper vars) (hd : DomsOk vars) :
    ∃ m, Evidence.validateValues o.node o.type o.values = .ok m ∧ Final { o with values := m } w := by
  have hn := hd.vals _ hw.node
  obtain ⟨m, h1, h2, h3⟩ := validate_canon o (by rw [r.node]; exact hn) (by rw [r.node]; exact hd.ne _ hw.node) r.keys (by rw [r.node]; exact r.dom)
  unfold Evidence.validate at h1
  obtain ⟨m', h4, h5⟩ := bind_ok h1
  cases h5
  refine ⟨m, h4, r.node, r.type, Dict.keys m, ?_, ?_⟩
  · rw [h2]
    refine (List.perm_ext_iff_of_nodup (o.order_nodup (by rw [r.node]; exact hn) r.keys) hn).2 (fun x => ?_)
    constructor
    · intro hx
      unfold Evidence.order at hx
      rcases List.mem_append.1 hx with h' | h'
      · exact r.dom x h'
      · rw [← r.node]; exact (List.mem_filter.1 h').1
    · intro hx
      exact o.dom_order (by rw [r.node]; exact hx)
  · have hsub : ∀ x ∈ Dict.keys m, x ∈ w.node.values := by
      intro x hx
      rw [h2] at hx
      unfold Evidence.order at hx
      rcases List.mem_append.1 hx with h' | h'
      · exact r.dom x h'
      · rw [← r.node]; exact (List.mem_filter.1 h').1
    refine dict_eq_map m (by rw [h2]; exact o.order_nodup (by rw [r.node]; exact hn) r.keys) (fun x hx => ?_)
    have hx' := hsub x hx
    rw [h3 x (by rw [r.node]; exact hx'), r.canon x hx']

/-- a used piece still stands for what was asked for -/
theorem Final.same (f : Final o w) (hw : w.Proper vars) (hd : DomsOk vars) (hr : R h → w.Reusable) (hs : ¬ R h → ∀ c ∈ cs, c.Spares h) :
    Same R cs h o w := by
  refine ⟨f.node, f.type, f.nodup (hd.vals _ hw.node), fun k hk => Or.inr ((f.keys_iff k).1 hk), ?_⟩
  by_cases hR : R h
  · refine Or.inl ⟨hR, ?_⟩
    have hr := hr hR
    have hoff : ∀ x, x ∉ w.node.values → o.given x = 0 ∧ w.given x = 0 := fun x hx =>
      ⟨given_off (fun hk => hx ((f.keys_iff x).1 hk)), given_off (fun hk => hx (hw.dom x hk))⟩
    unfold Rel
    unfold Evidence.Reusable at hr
    have hty : w.type = .virtual ∨ w.type = .finding ∨ w.type = .observation ∨ w.type = .unobserve := by cases w.type <;> simp
    rcases hty with h | h | h | h
    · rw [h]
      intro x
      by_cases hx : x ∈ w.node.values
      · rw [f.given hx]
        unfold Evidence.canon
        rw [h]
        simp only
        rw [min_eq_right (max_le zero_le_one (min_le_left _ _)), max_eq_right (le_max_left _ _)]
      · rw [(hoff x hx).1, (hoff x hx).2]
    · rw [h] at hr ⊢
      obtain ⟨y, hy, hy0⟩ := hr
      intro x
      by_cases hx : x ∈ w.node.values
      · rw [f.given hx]
        unfold Evidence.canon
        rw [h]
        simp only
        rw [if_neg (fun hall => absurd (hall y hy) (not_le.2 hy0))]
        by_cases h0 : 0 < w.given x
        · rw [if_pos h0]; simp [h0]
        · rw [if_neg h0]; simp [h0]
      · rw [(hoff x hx).1, (hoff x hx).2]
    · rw [h] at hr ⊢
      obtain ⟨a, ha, h1, h0⟩ := hr
      intro x
      by_cases hx : x ∈ w.node.values
      · rw [f.given hx, plain_canon h ha h1 h0]
      · rw [(hoff x hx).1, (hoff x hx).2]
    · rw [h]; trivial
  · exact Or.inr ⟨hR, Or.inr ⟨fun _ hx => f.given hx, hs hR⟩⟩

theorem given_set (v : Variable) (t : EvidenceType) (m : Dict Str ℚ) (k : Str) (x : ℚ) (y : Str) :
    Evidence.given ⟨v, t, Dict.set m k x⟩ y = if k = y then x else Evidence.given ⟨v, t, m⟩ y := by
  unfold Evidence.given
  simp only
  rw [Dict.get?_set]
  split <;> rfl

/-- adding a value -/
theorem Same.add {c : EvCmd} (s : Same R (c :: cs) h o w) (hc : R h ∨ o.values = w.values) (k : Str) (x : ℚ) :
    Same R cs h { o with values := Dict.set o.values k x } { w with values := Dict.set w.values k x } := by
  refine ⟨s.node, s.type, Dict.nodup_keys_set s.keys k x, ?_, ?_⟩
  · intro y hy
    simp only [Dict.mem_keys_set] at hy ⊢
    rcases hy with hy | hy
    · exact Or.inl (Or.inl hy)
    · exact (s.sub y hy).imp Or.inr id
  · rcases s.rel with ⟨hR, hrel⟩ | ⟨hR, _⟩
    · refine Or.inl ⟨hR, ?_⟩
      have hg : ∀ y, Evidence.given { o with values := Dict.set o.values k x } y = if k = y then x else o.given y := fun y => given_set _ _ _ _ _ _
      have hg' : ∀ t y, Evidence.given ⟨w.node, t, Dict.set w.values k x⟩ y = if k = y then x else w.given y := fun t y => given_set _ _ _ _ _ _
      unfold Rel at hrel ⊢
      simp only
      have hty : w.type = .virtual ∨ w.type = .finding ∨ w.type = .observation ∨ w.type = .unobserve := by cases w.type <;> simp
      rcases hty with h | h | h | h <;> rw [h] at hrel ⊢ <;> simp only at hrel ⊢
      · intro y
        rw [hg, hg']
        split
        · rfl
        · exact hrel y
      · intro y
        rw [hg, hg']
        split
        · rfl
        · exact hrel y
      · intro y
        rw [hg, hg']
        split
        · rfl
        · exact hrel y
    · refine Or.inr ⟨hR, Or.inl ?_⟩
      simp only
      rw [hc.resolve_left hR]

theorem Same.tail {c : EvCmd} (s : Same R (c :: cs) h o w) : Same R cs h o w :=
  ⟨s.node, s.type, s.keys, s.sub, s.rel.imp id (fun ⟨a, b⟩ => ⟨a, b.imp id (fun ⟨x, y⟩ => ⟨x, fun c hc => y c (List.mem_cons_of_mem _ hc)⟩)⟩)⟩

end


/-! ### updating a tree -/

theorem compare_perm {ks ks' : List Str} (hp : ks.Perm ks') (c : Str → ℚ) (that : Dict Str ℚ) :
    Evidence.compare (ks.map (fun x => (x, c x))) that = Evidence.compare (ks'.map (fun x => (x, c x))) that := by
  have h1 : isUnobserved (ks.map (fun x => (x, c x))) = isUnobserved (ks'.map (fun x => (x, c x))) := by
    unfold isUnobserved
    rw [((hp.map (fun x => (x, c x))).map Prod.snd).sum_eq, (hp.map (fun x => (x, c x))).length_eq]
  have h2 : isObserved (ks.map (fun x => (x, c x))) = isObserved (ks'.map (fun x => (x, c x))) := by
    rw [Bool.eq_iff_iff, isObserved_iff, isObserved_iff, (onesOf_perm hp c).length_eq]
  unfold Evidence.compare
  rw [h1, h2]
  by_cases ho : isObserved (ks'.map (fun x => (x, c x))) = true
  · have h3 : getObservedValue (ks.map (fun x => (x, c x))) = getObservedValue (ks'.map (fun x => (x, c x))) := by
      rw [getObservedValue_eq, getObservedValue_eq]
      obtain ⟨a, ha⟩ := List.length_eq_one_iff.1 ((isObserved_iff _ _).1 ho)
      have := onesOf_perm hp c
      rw [ha, List.perm_singleton] at this
      rw [this, ha]
    rw [h3]
  · have ho' : isObserved (ks'.map (fun x => (x, c x))) = false := by simpa using ho
    rw [ho', Bool.and_false]
    simp

theorem writeValues_perm {ks ks' : List Str} (hp : ks.Perm ks') (hn : ks.Nodup) (c : Str → ℚ) {m : Dict Str ℚ} (hm : (Dict.keys m).Nodup)
    (hk : ∀ x ∈ ks, x ∈ Dict.keys m) :
    JoinTree.writeValues m (ks.map (fun x => (x, c x))) = JoinTree.writeValues m (ks'.map (fun x => (x, c x))) ∧
      (JoinTree.writeValues m (ks.map (fun x => (x, c x)))).2 = none := by
  obtain ⟨a1, a2⟩ := writeValues_ok (ks.map (fun x => (x, c x))) m (by rw [keys_map]; exact hk) (by rw [keys_map]; exact hn)
  obtain ⟨b1, b2⟩ := writeValues_ok (ks'.map (fun x => (x, c x))) m (by rw [keys_map]; exact fun x hx => hk x (hp.mem_iff.2 hx))
    (by rw [keys_map]; exact hp.nodup_iff.1 hn)
  refine ⟨Prod.ext ?_ (a1.trans b1.symm), a1⟩
  have hg : ∀ x, Dict.get? (JoinTree.writeValues m (ks.map (fun x => (x, c x)))).1 x = Dict.get? (JoinTree.writeValues m (ks'.map (fun x => (x, c x)))).1 x := by
    intro x
    rw [a2, b2, keys_map, keys_map, get?_map, get?_map]
    simp only [hp.mem_iff]
  have ka := writeValues_keys (ks.map (fun x => (x, c x))) m
  have kb := writeValues_keys (ks'.map (fun x => (x, c x))) m
  have hmem : ∀ x ∈ Dict.keys m, ∃ q, Dict.get? (JoinTree.writeValues m (ks'.map (fun x => (x, c x)))).1 x = some q := by
    intro x hx
    rw [← kb] at hx
    cases hq : Dict.get? (JoinTree.writeValues m (ks'.map (fun x => (x, c x)))).1 x with
    | some q => exact ⟨q, rfl⟩
    | none => exact absurd hx ((Dict.get?_eq_none_iff _ _).1 hq)
  have e1 := dict_eq_map (f := fun x => (Dict.get? (JoinTree.writeValues m (ks'.map (fun x => (x, c x)))).1 x).getD 0)
    (JoinTree.writeValues m (ks.map (fun x => (x, c x)))).1 (by rw [ka]; exact hm) (by
      intro x hx
      rw [ka] at hx
      obtain ⟨q, hq⟩ := hmem x hx
      rw [hg, hq]; rfl)
  have e2 := dict_eq_map (f := fun x => (Dict.get? (JoinTree.writeValues m (ks'.map (fun x => (x, c x)))).1 x).getD 0)
    (JoinTree.writeValues m (ks'.map (fun x => (x, c x)))).1 (by rw [kb]; exact hm) (by
      intro x hx
      rw [kb] at hx
      obtain ⟨q, hq⟩ := hmem x hx
      rw [hq]; rfl)
  rw [ka] at e1
  rw [kb] at e2
  rw [e1, ← e2]

/-- the likelihoods of every node of the network are stored -/
def Stores (vars : List Variable) (ev : EvMap) : Prop := ∀ v ∈ vars, ∃ m, Dict.get? ev v.id = some m ∧ Dict.keys m = v.values

section
variable {vars : List Variable}

theorem writeEvidences_final (hd : DomsOk vars) (hinj : ∀ v ∈ vars, ∀ w ∈ vars, v.id = w.id → v = w) :
    ∀ (W : List Evidence) (A B : List Evidence) (ev : EvMap), Stores vars ev → (∀ w ∈ W, w.Proper vars) → List.Forall₂ Final A W → List.Forall₂ Final B W →
      JoinTree.writeEvidences ev A = JoinTree.writeEvidences ev B
  | _, _, _, _, _, _, .nil, .nil => rfl
  | w :: W, a :: A, b :: B, ev, hs, hw, .cons ha hA, .cons hb hB => by
      obtain ⟨ks, p1, v1⟩ := ha.vals
      obtain ⟨ks', p2, v2⟩ := hb.vals
      have hwp := hw w List.mem_cons_self
      obtain ⟨m, hm1, hm2⟩ := hs w.node hwp.node
      have hwn := hd.vals _ hwp.node
      obtain ⟨e1, e2⟩ := writeValues_perm (p1.trans p2.symm) (p1.nodup_iff.2 hwn) w.canon (m := m) (by rw [hm2]; exact hwn)
        (fun x hx => by rw [hm2]; exact p1.mem_iff.1 hx)
      unfold JoinTree.writeEvidences
      rw [ha.node, hb.node, hm1]
      simp only
      rw [v1, v2, ← e1, e2]
      simp only
      refine writeEvidences_final hd hinj W A B _ ?_ (fun w hw' => hw w (List.mem_cons_of_mem _ hw')) hA hB
      intro v hv
      rw [Dict.get?_set]
      split
      · rename_i hid
        refine ⟨_, rfl, ?_⟩
        rw [writeValues_keys, hm2, hinj _ hwp.node _ hv hid]
      · exact hs v hv

theorem getChangeType_final : ∀ (W : List Evidence) (A B : List Evidence) (ev : EvMap), List.Forall₂ Final A W → List.Forall₂ Final B W →
    JoinTree.getChangeType ev A = JoinTree.getChangeType ev B := by
  intro W A B ev hA hB
  have : A.mapM (fun e => (do let stored ← Dict.getItem ev e.node.id; .ok (Evidence.compare e.values stored) : Py ChangeType)) =
      B.mapM (fun e => (do let stored ← Dict.getItem ev e.node.id; .ok (Evidence.compare e.values stored) : Py ChangeType)) := by
    induction hA generalizing B with
    | nil => cases hB; rfl
    | cons ha hA ih =>
      cases hB with
      | cons hb hB =>
        obtain ⟨ks, p1, v1⟩ := ha.vals
        obtain ⟨ks', p2, v2⟩ := hb.vals
        rw [List.mapM_cons, List.mapM_cons, ih _ hB, ha.node, hb.node, v1, v2]
        simp only [compare_perm (p1.trans p2.symm)]
  unfold JoinTree.getChangeType
  rw [this]

theorem updateChecked_final (hd : DomsOk vars) (hinj : ∀ v ∈ vars, ∀ w ∈ vars, v.id = w.id → v = w) {W A : List Evidence} {jt : JoinTree}
    (hs : Stores vars jt.evidences) (hw : ∀ w ∈ W, w.Proper vars) (hA : List.Forall₂ Final A W) (js : SetIter Str) :
    EvWorld.updateChecked js jt A = jt.updateEvidences js W := by
  have hval : W.mapM Evidence.validate = .ok (W.map Evidence.validated) :=
    mapM_ok _ _ _ (fun w h => ((hw w h).validated hd).1)
  have hB : List.Forall₂ Final (W.map Evidence.validated) W := by
    rw [List.forall₂_map_left_iff, List.forall₂_same]
    intro w h
    obtain ⟨h1, h2, h3⟩ := (hw w h).validated hd
    refine ⟨h2, ?_, h3⟩
    unfold Evidence.validate at h1
    obtain ⟨m, _, h5⟩ := bind_ok h1
    injection h5 with h5
    rw [← h5]
  unfold EvWorld.updateChecked JoinTree.updateEvidences
  rw [hval]
  simp only
  rw [getChangeType_final W _ _ _ hA hB, writeEvidences_final hd hinj W _ _ _ hs hw hA hB]
  rfl

/-! ### validating objects -/

theorem validateAll_ok (hd : DomsOk vars) (W : Nat → Evidence) : ∀ (hs : List Nat) (objs : List EvObj),
    (∀ h ∈ hs, (W h).Proper vars ∧ ∃ o e, objs[h]? = some o ∧ EvWorld.content o = some e ∧ Ready e (W h)) →
    (EvWorld.validateAll objs hs).2 = none ∧ (EvWorld.validateAll objs hs).1.length = objs.length ∧
      (∀ h, h ∉ hs → (EvWorld.validateAll objs hs).1[h]? = objs[h]?) ∧
      ∀ h ∈ hs, ∃ o e, (EvWorld.validateAll objs hs).1[h]? = some o ∧ EvWorld.content o = some e ∧ Final e (W h)
  | [], objs, _ => ⟨rfl, rfl, fun _ _ => rfl, fun _ h => absurd h List.not_mem_nil⟩
  | h :: hs, objs, hh => by
      obtain ⟨hp, o, e, h1, h2, h3⟩ := hh h List.mem_cons_self
      obtain ⟨m, h4, h5⟩ := h3.validate hp hd
      unfold EvWorld.content at h2
      obtain ⟨v, hv, he⟩ := Option.map_eq_some_iff.1 h2
      subst he
      have hlt : h < objs.length := by
        by_contra hc
        rw [List.getElem?_eq_none (Nat.le_of_not_lt hc)] at h1
        cases h1
      have hval : Evidence.validateValues v o.type o.values = .ok m := h4
      have hstep : EvWorld.validateAll objs (h :: hs) = EvWorld.validateAll (objs.set h { o with values := m }) hs := by
        conv_lhs => unfold EvWorld.validateAll
        rw [h1]
        simp only
        rw [hv]
        simp only
        rw [hval]
      have hnew : (objs.set h { o with values := m })[h]? = some { o with values := m } := by
        rw [List.getElem?_set_self hlt]
      have hcont : EvWorld.content { o with values := m } = some ⟨v, o.type, m⟩ := by
        unfold EvWorld.content
        simp only [hv, Option.map_some]
      rw [hstep]
      obtain ⟨i1, i2, i3, i4⟩ := validateAll_ok hd W hs (objs.set h { o with values := m }) (by
        intro k hk
        by_cases hkh : k = h
        · subst hkh
          exact ⟨hp, _, _, hnew, hcont, h5.ready hd hp⟩
        · obtain ⟨a1, o', e', a2, a3, a4⟩ := hh k (List.mem_cons_of_mem _ hk)
          exact ⟨a1, o', e', by rw [List.getElem?_set_ne (fun h => hkh h.symm)]; exact a2, a3, a4⟩)
      refine ⟨i1, by rw [i2, List.length_set], ?_, ?_⟩
      · intro k hk
        rw [List.mem_cons, not_or] at hk
        rw [i3 k hk.2, List.getElem?_set_ne (fun h => hk.1 h.symm)]
      · intro k hk
        by_cases hk' : k ∈ hs
        · exact i4 k hk'
        · have : k = h := (List.mem_cons.1 hk).resolve_right hk'
          subst this
          exact ⟨_, _, by rw [i3 k hk']; exact hnew, hcont, h5⟩

end

end PyBBN
