import Verif.Proofs.EvObj

/-! Programs with evidence objects refine their plans. -/

namespace PyBBN
open Evidence InferenceController

/-! ### lists of objects -/

/-- two lists of the same length whose members are related -/
structure Zip {α β : Type} (P : Nat → α → β → Prop) (l : List α) (l' : List β) : Prop where
  len : l.length = l'.length
  rel : ∀ i o a, l[i]? = some o → l'[i]? = some a → P i o a

section
variable {α β : Type} {P Q : Nat → α → β → Prop} {l : List α} {l' : List β}

theorem Zip.imp (h : Zip P l l') (f : ∀ i o a, l[i]? = some o → P i o a → Q i o a) : Zip Q l l' :=
  ⟨h.len, fun i o a h1 h2 => f i o a h1 (h.rel i o a h1 h2)⟩

theorem Zip.get (h : Zip P l l') {i : Nat} {a : β} (ha : l'[i]? = some a) : ∃ o, l[i]? = some o ∧ P i o a := by
  have hi : i < l'.length := by
    by_contra hc
    rw [List.getElem?_eq_none (Nat.le_of_not_lt hc)] at ha
    cases ha
  have hi' : i < l.length := by rw [h.len]; exact hi
  exact ⟨l[i], List.getElem?_eq_getElem hi', h.rel i _ a (List.getElem?_eq_getElem hi') ha⟩

theorem Zip.get' (h : Zip P l l') {i : Nat} {o : α} (ho : l[i]? = some o) : ∃ a, l'[i]? = some a ∧ P i o a := by
  have hi : i < l.length := by
    by_contra hc
    rw [List.getElem?_eq_none (Nat.le_of_not_lt hc)] at ho
    cases ho
  have hi' : i < l'.length := by rw [← h.len]; exact hi
  exact ⟨l'[i], List.getElem?_eq_getElem hi', h.rel i o _ ho (List.getElem?_eq_getElem hi')⟩

theorem Zip.getNone (h : Zip P l l') {i : Nat} (ho : l[i]? = none) : l'[i]? = none := by
  rw [List.getElem?_eq_none_iff] at ho ⊢
  rw [← h.len]; exact ho

theorem Zip.snoc (h : Zip P l l') {o : α} {a : β} (hp : P l.length o a) : Zip P (l ++ [o]) (l' ++ [a]) := by
  refine ⟨by simp [h.len], fun i o' a' h1 h2 => ?_⟩
  by_cases hi : i < l.length
  · rw [List.getElem?_append_left hi] at h1
    rw [List.getElem?_append_left (by rw [← h.len]; exact hi)] at h2
    exact h.rel i o' a' h1 h2
  · have hlt : i < (l ++ [o]).length := by
      by_contra hc
      rw [List.getElem?_eq_none (Nat.le_of_not_lt hc)] at h1
      cases h1
    rw [List.length_append, List.length_singleton] at hlt
    have hi' : i = l.length := by omega
    subst hi'
    rw [List.getElem?_concat_length] at h1
    rw [h.len, List.getElem?_concat_length] at h2
    cases h1; cases h2
    exact hp

theorem Zip.modify (h : Zip P l l') {i : Nat} {o o' : α} {f : β → β} (ho : l[i]? = some o) (hf : ∀ a, P i o a → Q i o' (f a))
    (hother : ∀ j o a, j ≠ i → P j o a → Q j o a) : Zip Q (l.set i o') (l'.modify i f) := by
  have hi : i < l.length := by
    by_contra hc
    rw [List.getElem?_eq_none (Nat.le_of_not_lt hc)] at ho
    cases ho
  refine ⟨by rw [List.length_set, List.length_modify, h.len], fun j x a h1 h2 => ?_⟩
  by_cases hj : i = j
  · subst hj
    rw [List.getElem?_set_self hi] at h1
    rw [List.getElem?_modify] at h2
    cases h1
    obtain ⟨b, hb, hb'⟩ := h.get' ho
    rw [hb] at h2
    simp at h2
    rw [← h2]
    exact hf b hb'
  · rw [List.getElem?_set_ne hj] at h1
    rw [List.getElem?_modify] at h2
    simp only [hj, if_false] at h2
    exact hother j x a (fun e => hj e.symm) (h.rel j x a h1 (by simpa using h2))

theorem Zip.modify_none (h : Zip P l l') {i : Nat} {f : β → β} (ho : l[i]? = none) : l'.modify i f = l' := by
  have := h.getNone ho
  rw [List.getElem?_eq_none_iff] at this
  exact List.ext_getElem? (fun j => by
    rw [List.getElem?_modify]
    by_cases hj : i = j
    · subst hj
      rw [List.getElem?_eq_none this]; rfl
    · simp [hj])

end

/-! ### the invariant -/

/-- the likelihoods in the order of the calls -/
def Ask.values (a : Ask) : Dict Str ℚ := a.pairs.foldl (fun d kv => Dict.set d kv.1 kv.2) []

theorem Ask.values_snoc (a : Ask) (k : Str) (x : ℚ) : ({ a with pairs := a.pairs ++ [(k, x)] } : Ask).values = Dict.set a.values k x := by
  unfold Ask.values
  simp only [List.foldl_append, List.foldl_cons, List.foldl_nil]

theorem nodup_askValues (a : Ask) : (Dict.keys a.values).Nodup := by
  unfold Ask.values
  suffices H : ∀ (l : List (Str × ℚ)) (d : Dict Str ℚ), (Dict.keys d).Nodup → (Dict.keys (l.foldl (fun d kv => Dict.set d kv.1 kv.2) d)).Nodup by
    exact H _ _ List.nodup_nil
  intro l
  induction l with
  | nil => exact fun d h => h
  | cons kv l ih => exact fun d h => ih _ (Dict.nodup_keys_set h _ _)

theorem foldl_set_new : ∀ (m : Dict Str ℚ) (d : Dict Str ℚ), (Dict.keys d ++ Dict.keys m).Nodup →
    m.foldl (fun d kv => Dict.set d kv.1 kv.2) d = d ++ m
  | [], d, _ => by simp
  | (k, x) :: m, d, h => by
      rw [List.foldl_cons]
      have hk : k ∉ Dict.keys d := by
        intro hk
        have := List.disjoint_of_nodup_append h hk
        exact this (by simp [Dict.keys])
      have hset : Dict.set d k x = d ++ [(k, x)] := by
        clear h
        induction d with
        | nil => rfl
        | cons y d ih =>
          obtain ⟨a, b⟩ := y
          have : a ≠ k := fun e => hk (by simp [Dict.keys, e])
          unfold Dict.set
          rw [if_neg this, ih (fun h => hk (by simp only [Dict.keys, List.map_cons, List.mem_cons] at *; exact Or.inr h))]
          rfl
      rw [hset, foldl_set_new m (d ++ [(k, x)]) (by simpa [Dict.keys] using h)]
      simp

structure SameB (o : EvBuilder) (a : Ask) : Prop where
  node : o.node = a.node
  type : o.type = a.type
  values : o.values = a.values

structure SameO (R : Nat → Prop) (cs : List EvCmd) (h : Nat) (o : EvObj) (a : Ask) : Prop where
  node : o.node = a.node
  type : o.type = a.type
  same : ∀ v, a.node = some v → Same R cs h ⟨v, o.type, o.values⟩ (Evidence.build v a.type a.pairs)

structure Inv (jts : List JoinTree) (R : Nat → Prop) (cs : List EvCmd) (w : EvWorld) (p : Plan) (H : Nat → List (SetIter Str × EvOp)) : Prop where
  b : Zip (fun _ => SameB) w.builders p.builders
  e : Zip (SameO R cs) w.evs p.evs
  t : ∀ t, w.trees[t]? = (jts[t]?).map (fun jt => runHist jt (H t))

theorem Rel.refl (w : Evidence) : Rel w w := by
  unfold Rel
  split <;> simp

theorem Same.fresh {R : Nat → Prop} {cs : List EvCmd} {h : Nat} {o w : Evidence} (he : o = w) (hk : (Dict.keys w.values).Nodup) : Same R cs h o w := by
  subst he
  refine ⟨rfl, rfl, hk, fun k hk => Or.inl hk, ?_⟩
  by_cases hR : R h
  · exact Or.inl ⟨hR, Rel.refl _⟩
  · exact Or.inr ⟨hR, Or.inl rfl⟩

theorem SameO.tail {R : Nat → Prop} {cs : List EvCmd} {h : Nat} {o : EvObj} {a : Ask} {c : EvCmd} (s : SameO R (c :: cs) h o a) : SameO R cs h o a :=
  ⟨s.node, s.type, fun v hv => (s.same v hv).tail⟩

section
variable {jts : List JoinTree} {R : Nat → Prop} {cs : List EvCmd} {w : EvWorld} {p : Plan} {H : Nat → List (SetIter Str × EvOp)} {vars : List Variable}

/-- the evidence of an object in use -/
theorem Inv.asked (hi : Inv jts R cs w p H) {h : Nat} {e : Evidence} (he : p.asked h = some e) :
    ∃ o a v, w.evs[h]? = some o ∧ p.evs[h]? = some a ∧ SameO R cs h o a ∧ a.node = some v ∧ e = Evidence.build v a.type a.pairs ∧
      EvWorld.content o = some ⟨v, o.type, o.values⟩ ∧ Same R cs h ⟨v, o.type, o.values⟩ e := by
  unfold Plan.asked at he
  obtain ⟨a, ha, he⟩ := Option.bind_eq_some_iff.1 he
  obtain ⟨o, ho, hs⟩ := hi.e.get ha
  unfold Ask.evidence at he
  obtain ⟨v, hv, rfl⟩ := Option.map_eq_some_iff.1 he
  refine ⟨o, a, v, ho, ha, hs, hv, rfl, ?_, hs.same v hv⟩
  unfold EvWorld.content
  rw [hs.node, hv]
  rfl

theorem mapM_some_map {α β : Type} {f : α → Option β} {g : α → β} : ∀ {l : List α}, (∀ x ∈ l, f x = some (g x)) → l.mapM f = some (l.map g)
  | [], _ => rfl
  | x :: l, h => by
      rw [List.mapM_cons, h x List.mem_cons_self, mapM_some_map (fun y hy => h y (List.mem_cons_of_mem _ hy))]
      rfl

theorem runHist_snoc (jt : JoinTree) (h : List (SetIter Str × EvOp)) (x : SetIter Str × EvOp) :
    runHist jt (h ++ [x]) = (x.2.run x.1 (runHist jt h)).1 := by
  unfold runHist
  rw [List.foldl_append]
  rfl

/-- changing one tree -/
theorem trees_set (ht : ∀ t, w.trees[t]? = (jts[t]?).map (fun jt => runHist jt (H t))) {t : Nat} {jt : JoinTree} (hjt : w.trees[t]? = some jt)
    (x : SetIter Str × EvOp) (new : JoinTree) (hnew : new = (x.2.run x.1 jt).1) :
    ∀ s, (w.trees.set t new)[s]? = (jts[s]?).map (fun jt => runHist jt (H s ++ (if t = s then some x else none).toList)) := by
  intro s
  have hlt : t < w.trees.length := by
    by_contra hc
    rw [List.getElem?_eq_none (Nat.le_of_not_lt hc)] at hjt
    cases hjt
  by_cases hs : t = s
  · subst hs
    rw [List.getElem?_set_self hlt, if_pos rfl]
    rw [ht t] at hjt
    obtain ⟨j0, h0, h1⟩ := Option.map_eq_some_iff.1 hjt
    rw [h0, Option.map_some, Option.toList_some, runHist_snoc, h1, hnew]
  · rw [List.getElem?_set_ne hs, if_neg hs, ht s]
    simp

/-- the validated objects -/
theorem Inv.validate {c : EvCmd} (hi : Inv jts R (c :: cs) w p H) (hd : DomsOk vars) {hs : List Nat}
    (hg : ∀ h ∈ hs, ∃ e, p.asked h = some e ∧ e.Proper vars ∧ (R h → e.Reusable) ∧ (¬ R h → ∀ c ∈ cs, c.Spares h)) :
    ∃ W A : List Evidence, hs.mapM p.asked = some W ∧ (∀ e ∈ W, e.Proper vars) ∧ (EvWorld.validateAll w.evs hs).2 = none ∧
      hs.mapM (fun h => (EvWorld.validateAll w.evs hs).1[h]?.bind EvWorld.content) = some A ∧ List.Forall₂ Final A W ∧
      Zip (SameO R cs) (EvWorld.validateAll w.evs hs).1 p.evs := by
  obtain ⟨f, hf⟩ : ∃ f : Nat → Evidence, ∀ h ∈ hs, p.asked h = some (f h) := by
    refine ⟨fun h => (p.asked h).getD ⟨⟨0, [], []⟩, .unobserve, []⟩, fun h hh => ?_⟩
    obtain ⟨e, he, _⟩ := hg h hh
    simp only [he, Option.getD_some]
  have hg' : ∀ h ∈ hs, (f h).Proper vars ∧ (R h → (f h).Reusable) ∧ (¬ R h → ∀ c ∈ cs, c.Spares h) := by
    intro h hh
    obtain ⟨e, he, h1, h2, h3⟩ := hg h hh
    rw [hf h hh] at he
    cases he
    exact ⟨h1, h2, h3⟩
  obtain ⟨v1, v2, v3, v4⟩ := validateAll_ok hd f hs w.evs (by
    intro h hh
    obtain ⟨o, a, v, h1, _, _, _, _, h6, h7⟩ := hi.asked (hf h hh)
    exact ⟨(hg' h hh).1, o, _, h1, h6, h7.ready (hg' h hh).1 hd (hg' h hh).2.1⟩)
  obtain ⟨g, hgg⟩ : ∃ g : Nat → Evidence, ∀ h ∈ hs, (EvWorld.validateAll w.evs hs).1[h]?.bind EvWorld.content = some (g h) ∧ Final (g h) (f h) := by
    refine ⟨fun h => ((EvWorld.validateAll w.evs hs).1[h]?.bind EvWorld.content).getD ⟨⟨0, [], []⟩, .unobserve, []⟩, fun h hh => ?_⟩
    obtain ⟨o, e, h1, h2, h3⟩ := v4 h hh
    have : (EvWorld.validateAll w.evs hs).1[h]?.bind EvWorld.content = some e := by rw [h1]; exact h2
    simp only [this, Option.getD_some]
    exact ⟨trivial, h3⟩
  refine ⟨hs.map f, hs.map g, mapM_some_map hf, ?_, v1, mapM_some_map (fun h hh => (hgg h hh).1), ?_, ?_⟩
  · intro e he
    obtain ⟨h, hh, rfl⟩ := List.mem_map.1 he
    exact (hg' h hh).1
  · rw [List.forall₂_map_left_iff, List.forall₂_map_right_iff, List.forall₂_same]
    exact fun h hh => (hgg h hh).2
  · refine ⟨v2.trans hi.e.len, fun h o a ho ha => ?_⟩
    by_cases hh : h ∈ hs
    · obtain ⟨o0, a0, v, h1, h2, h3, h4, h5, h6, h7⟩ := hi.asked (hf h hh)
      rw [ha] at h2
      cases h2
      obtain ⟨o', e, k1, k2, k3⟩ := v4 h hh
      rw [ho] at k1
      cases k1
      unfold EvWorld.content at k2
      obtain ⟨v', k4, k5⟩ := Option.map_eq_some_iff.1 k2
      subst k5
      have hv' : v' = v := by have := k3.node; rw [h5] at this; exact this
      subst hv'
      have ht : o.type = a.type := by have := k3.type; rw [h5] at this; exact this
      refine ⟨k4.trans h4.symm, ht, fun u hu => ?_⟩
      rw [h4] at hu
      cases hu
      rw [← h5]
      exact k3.same (hg' h hh).1 hd (hg' h hh).2.1 (hg' h hh).2.2
    · rw [v3 h hh] at ho
      exact (hi.e.rel h o a ho ha).tail

theorem Same.ones {h : Nat} {o e : Evidence} (s : Same R cs h o e) (hp : e.Proper vars) (ht : e.type = .observation) (hr : e.Reusable) :
    ∃ a, (o.values.filter (fun kv => decide (kv.2 = 1))).map Prod.fst = [a] ∧ e.givenOnes = [a] := by
  have hg := s.given hp ht hr
  have hr' := hr
  unfold Evidence.Reusable at hr'
  rw [ht] at hr'
  obtain ⟨a, ha, h1, h0⟩ := hr'
  have key : ∀ (m : Dict Str ℚ), (Dict.keys m).Nodup → (∀ x, (Dict.get? m x).getD 0 = e.given x) →
      (m.filter (fun kv => decide (kv.2 = 1))).map Prod.fst = [a] := by
    intro m hn hm
    have hnd : ((m.filter (fun kv => decide (kv.2 = 1))).map Prod.fst).Nodup := by
      refine List.Nodup.sublist ?_ hn
      exact List.Sublist.map _ List.filter_sublist
    have hmem : ∀ x, x ∈ (m.filter (fun kv => decide (kv.2 = 1))).map Prod.fst ↔ x = a := by
      intro x
      constructor
      · intro hx
        obtain ⟨kv, hkv, rfl⟩ := List.mem_map.1 hx
        obtain ⟨hkv, h2⟩ := List.mem_filter.1 hkv
        have h2 : kv.2 = 1 := by simpa using h2
        by_contra hne
        have h3 := hm kv.1
        rw [Dict.get?_of_mem hn (show (kv.1, kv.2) ∈ m from hkv), h0 _ hne, h2] at h3
        simp at h3
      · rintro rfl
        have h3 := hm x
        rw [h1] at h3
        cases hq : Dict.get? m x with
        | none => rw [hq] at h3; simp at h3
        | some q =>
          rw [hq] at h3
          have : q = 1 := h3
          subst this
          exact List.mem_map.2 ⟨(x, 1), List.mem_filter.2 ⟨Dict.mem_of_get? hq, by simp⟩, rfl⟩
    have := (List.perm_ext_iff_of_nodup hnd (List.nodup_singleton a)).2 (fun x => by rw [hmem x, List.mem_singleton])
    exact List.perm_singleton.1 this
  exact ⟨a, key o.values s.keys hg, key e.values hp.keys (fun _ => rfl)⟩

/-- one call -/
theorem Inv.step {c : EvCmd} (hd : DomsOk vars) (hi : Inv jts R (c :: cs) w p H)
    (hst : ∀ (t : Nat) (jt : JoinTree), w.trees[t]? = some jt → Stores vars jt.evidences) (hg : c.Good vars R p cs) :
    Inv jts R cs (w.step c).1 (p.step c) (fun t => H t ++ (p.op t c).toList) ∧
      (∀ t jt x, w.trees[t]? = some jt → p.op t c = some x → (w.step c).2 = (x.2.run x.1 jt).2) ∧
      ∀ t x, p.op t c = some x → x.2.Proper vars := by
  have hnoop : (∀ t, p.op t c = none) → ∀ t, w.trees[t]? = (jts[t]?).map (fun jt => runHist jt (H t ++ (p.op t c).toList)) := by
    intro h t
    rw [h t, hi.t t]
    simp
  have htail : Zip (SameO R cs) w.evs p.evs := hi.e.imp (fun _ _ _ _ h => h.tail)
  have hinj : ∀ v ∈ vars, ∀ w ∈ vars, v.id = w.id → v = w := fun v hv w hw h => hd.inj hv hw h
  -- an update, possibly through `set_observation`
  have hupd : ∀ (js : SetIter Str) (t : Nat) (jt : JoinTree) (hs : List Nat), w.trees[t]? = some jt →
      (∀ h ∈ hs, ∃ e, p.asked h = some e ∧ e.Proper vars ∧ (R h → e.Reusable) ∧ (¬ R h → ∀ c ∈ cs, c.Spares h)) →
      ∃ (W : List Evidence) (evs : List EvObj), hs.mapM p.asked = some W ∧ (∀ e ∈ W, e.Proper vars) ∧ Zip (SameO R cs) evs p.evs ∧
        EvWorld.update js w t hs = ({ w with evs := evs, trees := w.trees.set t (jt.updateEvidences js W).1 }, (jt.updateEvidences js W).2) := by
    intro js t jt hs hjt hh
    obtain ⟨W, A, a1, a2, a3, a4, a5, a6⟩ := hi.validate hd hh
    refine ⟨W, _, a1, a2, a6, ?_⟩
    unfold EvWorld.update
    rw [hjt]
    simp only
    rw [a3]
    simp only
    rw [a4]
    simp only
    rw [updateChecked_final hd hinj (hst t jt hjt) a2 a5]
  cases c with
  | newBuilder =>
    exact ⟨⟨hi.b.snoc ⟨rfl, rfl, rfl⟩, htail, hnoop (fun _ => rfl)⟩, fun _ _ _ _ h => (by cases h), fun _ _ h => (by cases h)⟩
  | withNode b v =>
    refine ⟨?_, fun _ _ _ _ h => (by cases h), fun _ _ h => (by cases h)⟩
    unfold EvWorld.step Plan.step
    simp only
    cases hb : w.builders[b]? with
    | none => refine ⟨?_, htail, hnoop (fun _ => rfl)⟩; simp only; rw [hi.b.modify_none hb]; exact hi.b
    | some o => exact ⟨hi.b.modify hb (fun a h => ⟨rfl, h.type, h.values⟩) (fun _ _ _ _ h => h), htail, hnoop (fun _ => rfl)⟩
  | withType b t =>
    refine ⟨?_, fun _ _ _ _ h => (by cases h), fun _ _ h => (by cases h)⟩
    unfold EvWorld.step Plan.step
    simp only
    cases hb : w.builders[b]? with
    | none => refine ⟨?_, htail, hnoop (fun _ => rfl)⟩; simp only; rw [hi.b.modify_none hb]; exact hi.b
    | some o => exact ⟨hi.b.modify hb (fun a h => ⟨h.node, rfl, h.values⟩) (fun _ _ _ _ h => h), htail, hnoop (fun _ => rfl)⟩
  | withEvidence b k x =>
    refine ⟨?_, fun _ _ _ _ h => (by cases h), fun _ _ h => (by cases h)⟩
    unfold EvWorld.step Plan.step
    simp only
    cases hb : w.builders[b]? with
    | none => refine ⟨?_, htail, hnoop (fun _ => rfl)⟩; simp only; rw [hi.b.modify_none hb]; exact hi.b
    | some o =>
      refine ⟨hi.b.modify hb (fun a h => ⟨h.node, h.type, ?_⟩) (fun _ _ _ _ h => h), htail, hnoop (fun _ => rfl)⟩
      rw [Ask.values_snoc]
      simp only
      rw [h.values]
  | build b =>
    refine ⟨?_, fun _ _ _ _ h => (by cases h), fun _ _ h => (by cases h)⟩
    unfold EvWorld.step Plan.step
    simp only
    cases hb : w.builders[b]? with
    | none =>
      rw [hi.b.getNone hb]
      refine ⟨hi.b, ?_, hnoop (fun _ => rfl)⟩
      simpa using htail
    | some o =>
      obtain ⟨a, ha, hs⟩ := hi.b.get' hb
      rw [ha]
      refine ⟨hi.b, htail.snoc ⟨hs.node, hs.type, ?_⟩, hnoop (fun _ => rfl)⟩
      intro v hv
      refine Same.fresh ?_ (nodup_askValues a)
      have : o.build.values = a.values := by
        unfold EvBuilder.build
        simp only
        rw [hs.values, foldl_set_new _ _ (by simpa [Dict.keys] using nodup_askValues a)]
        rfl
      rw [this, show o.build.type = a.type from hs.type]
      rfl
  | newEvidence v t =>
    refine ⟨⟨hi.b, htail.snoc ⟨rfl, rfl, ?_⟩, hnoop (fun _ => rfl)⟩, fun _ _ _ _ h => (by cases h), fun _ _ h => (by cases h)⟩
    intro u hu
    exact Same.fresh rfl List.nodup_nil
  | addValue e k x =>
    refine ⟨?_, fun _ _ _ _ h => (by cases h), fun _ _ h => (by cases h)⟩
    unfold EvWorld.step Plan.step
    simp only
    cases hb : w.evs[e]? with
    | none => refine ⟨hi.b, ?_, hnoop (fun _ => rfl)⟩; simp only; rw [hi.e.modify_none hb]; exact htail
    | some o =>
      refine ⟨hi.b, hi.e.modify hb (fun a h => ⟨h.node, h.type, ?_⟩) (fun _ _ _ _ h => h.tail), hnoop (fun _ => rfl)⟩
      intro v hv
      have hs := h.same v hv
      have := hs.add (by
        rcases hs.rel with ⟨hR, _⟩ | ⟨_, h' | ⟨_, h'⟩⟩
        · exact Or.inl hR
        · exact Or.inr h'
        · exact absurd rfl (h' _ List.mem_cons_self)) k x
      have e1 : Evidence.build v a.type (a.pairs ++ [(k, x)]) =
          { Evidence.build v a.type a.pairs with values := Dict.set (Evidence.build v a.type a.pairs).values k x } := by
        unfold Evidence.build
        simp only [List.foldl_append, List.foldl_cons, List.foldl_nil]
      show Same R cs e _ (Evidence.build v a.type (a.pairs ++ [(k, x)]))
      rw [e1]
      exact this
  | update js t hs =>
    have hg' : ∀ h ∈ hs, ∃ e, p.asked h = some e ∧ e.Proper vars ∧ (R h → e.Reusable) ∧ (¬ R h → ∀ c ∈ cs, c.Spares h) := hg
    cases hjt : w.trees[t]? with
    | none =>
      have hstep : w.step (.update js t hs) = (w, some .exception) := by
        unfold EvWorld.step EvWorld.update
        simp only
        rw [hjt]
      obtain ⟨W, A, a1, a2, -⟩ := hi.validate hd hg'
      have hop : ∀ s, p.op s (.update js t hs) = if t = s then some (js, .update W) else none := by
        intro s
        unfold Plan.op
        simp only
        rw [a1]
        rfl
      rw [hstep]
      refine ⟨⟨hi.b, htail, ?_⟩, ?_, ?_⟩
      · intro s
        rw [hop s]
        by_cases hts : t = s
        · subst hts
          have := hi.t t
          rw [hjt] at this
          rw [hjt]
          have h0 : jts[t]? = none := by
            cases h0 : jts[t]? with
            | none => rfl
            | some j => rw [h0] at this; cases this
          rw [h0]; rfl
        · rw [if_neg hts, hi.t s]; simp
      · intro s jt x hs' hx
        rw [hop s] at hx
        split at hx
        · rename_i h
          subst h
          rw [hjt] at hs'
          cases hs'
        · cases hx
      · intro s x hx
        rw [hop s] at hx
        split at hx
        · cases hx; exact a2
        · cases hx
    | some jt =>
      obtain ⟨W, evs, a1, a2, a3, a4⟩ := hupd js t jt hs hjt hg'
      have hop : ∀ s, p.op s (.update js t hs) = if t = s then some (js, .update W) else none := by
        intro s
        unfold Plan.op
        simp only
        rw [a1]
        rfl
      have hstep : w.step (.update js t hs) = EvWorld.update js w t hs := rfl
      rw [hstep, a4]
      refine ⟨⟨hi.b, a3, ?_⟩, ?_, ?_⟩
      · intro s
        rw [hop s]
        exact trees_set hi.t hjt (js, .update W) _ rfl s
      · intro s j x hs' hx
        rw [hop s] at hx
        split at hx
        · rename_i h
          subst h
          rw [hjt] at hs'
          cases hs'
          cases hx
          rfl
        · cases hx
      · intro s x hx
        rw [hop s] at hx
        split at hx
        · cases hx; exact a2
        · cases hx
  | observe js t h =>
    obtain ⟨e, he, hp, hty, hr, hsp⟩ : ∃ e, p.asked h = some e ∧ e.Proper vars ∧ e.type = .observation ∧ e.Reusable ∧ (¬ R h → ∀ c ∈ cs, c.Spares h) := hg
    have hop : ∀ s, p.op s (.observe js t h) = if t = s then some (js, .observe e) else none := by
      intro s
      unfold Plan.op
      simp only
      rw [he]
      rfl
    have hprop : ∀ s x, p.op s (.observe js t h) = some x → x.2.Proper vars := by
      intro s x hx
      rw [hop s] at hx
      split at hx
      · cases hx; exact hp
      · cases hx
    obtain ⟨o, a, v, h1, h2, h3, h4, h5, h6, h7⟩ := hi.asked he
    have hov : o.node = some v := h3.node.trans h4
    have hev : e.node = v := by rw [h5]; rfl
    cases hjt : w.trees[t]? with
    | none =>
      have hstep : w.step (.observe js t h) = (w, some .exception) := by
        unfold EvWorld.step EvWorld.observe
        simp only
        rw [hjt]
      rw [hstep]
      refine ⟨⟨hi.b, htail, ?_⟩, ?_, hprop⟩
      · intro s
        rw [hop s]
        by_cases hts : t = s
        · subst hts
          have := hi.t t
          rw [hjt] at this
          rw [hjt]
          have h0 : jts[t]? = none := by
            cases h0 : jts[t]? with
            | none => rfl
            | some j => rw [h0] at this; cases this
          rw [h0]; rfl
        · rw [if_neg hts, hi.t s]; simp
      · intro s jt x hs' hx
        rw [hop s] at hx
        split at hx
        · rename_i h
          subst h
          rw [hjt] at hs'
          cases hs'
        · cases hx
    | some jt =>
      obtain ⟨a0, o1, o2⟩ := h7.ones hp hty hr
      obtain ⟨stored, hs1, hs2⟩ := hst t jt hjt v (by rw [← hev]; exact hp.node)
      obtain ⟨W, evs, b1, b2, b3, b4⟩ := hupd js t jt [h] hjt (by
        intro k hk
        rw [List.mem_singleton] at hk
        subst hk
        exact ⟨e, he, hp, fun _ => hr, hsp⟩)
      have hW : W = [e] := by
        rw [List.mapM_cons, he] at b1
        simp at b1
        exact b1.symm
      subst hW
      have hfin : ∀ (evs : List EvObj) (r : JoinTree.Outcome), Zip (SameO R cs) evs p.evs → EvOp.run js jt (.observe e) = r →
          w.step (.observe js t h) = ({ w with evs := evs, trees := w.trees.set t r.1 }, r.2) →
          Inv jts R cs (w.step (.observe js t h)).1 (p.step (.observe js t h)) (fun t_1 => H t_1 ++ (p.op t_1 (.observe js t h)).toList) ∧
      (∀ t_1 jt x, w.trees[t_1]? = some jt → p.op t_1 (.observe js t h) = some x → (w.step (.observe js t h)).2 = (x.2.run x.1 jt).2) ∧
      ∀ t_1 x, p.op t_1 (.observe js t h) = some x → x.2.Proper vars := by
        intro evs r hz hr' hstep
        rw [hstep]
        refine ⟨⟨hi.b, hz, ?_⟩, ?_, hprop⟩
        · intro s
          rw [hop s]
          exact trees_set hi.t hjt (js, .observe e) _ (by rw [hr']) s
        · intro s j x hs' hx
          rw [hop s] at hx
          split at hx
          · rename_i h
            subst h
            rw [hjt] at hs'
            cases hs'
            cases hx
            rw [hr']
          · cases hx
      have o2' : (e.values.filter (fun kv => decide (kv.2 = 1))).map Prod.fst = [a0] := o2
      by_cases hlen : ((stored.filter (fun kv => decide (kv.2 = 1))).map Prod.fst).length = 1
      · by_cases hh : ((stored.filter (fun kv => decide (kv.2 = 1))).map Prod.fst).head? = some a0
        · refine hfin w.evs (jt.unobserve js [v]) htail ?_ ?_
          · show jt.setObservation js e = _
            unfold JoinTree.setObservation
            rw [hev, hs1]
            simp only
            rw [if_pos hlen, o2']
            simp only [List.head?_cons]
            rw [if_pos hh]
          · show EvWorld.observe js w t h = _
            unfold EvWorld.observe
            rw [hjt, h1]
            simp only
            rw [hov]
            simp only
            rw [hs1]
            simp only
            rw [if_pos hlen, o1]
            simp only [List.head?_cons]
            rw [if_pos hh]
        · refine hfin evs (jt.updateEvidences js [e]) b3 ?_ ?_
          · show jt.setObservation js e = _
            unfold JoinTree.setObservation
            rw [hev, hs1]
            simp only
            rw [if_pos hlen, o2']
            simp only [List.head?_cons]
            rw [if_neg hh]
          · show EvWorld.observe js w t h = _
            unfold EvWorld.observe
            rw [hjt, h1]
            simp only
            rw [hov]
            simp only
            rw [hs1]
            simp only
            rw [if_pos hlen, o1]
            simp only [List.head?_cons]
            rw [if_neg hh, b4]
      · refine hfin evs (jt.updateEvidences js [e]) b3 ?_ ?_
        · show jt.setObservation js e = _
          unfold JoinTree.setObservation
          rw [hev, hs1]
          simp only
          rw [if_neg hlen]
        · show EvWorld.observe js w t h = _
          unfold EvWorld.observe
          rw [hjt, h1]
          simp only
          rw [hov]
          simp only
          rw [hs1]
          simp only
          rw [if_neg hlen, b4]
  | unobserve js t nodes =>
    have hg' : ∀ v ∈ nodes, v ∈ vars := hg
    have hop : ∀ s, p.op s (.unobserve js t nodes) = if t = s then some (js, .unobserve nodes) else none := fun _ => rfl
    have hprop : ∀ s x, p.op s (.unobserve js t nodes) = some x → x.2.Proper vars := by
      intro s x hx
      rw [hop s] at hx
      split at hx
      · cases hx; exact hg'
      · cases hx
    cases hjt : w.trees[t]? with
    | none =>
      have hstep : w.step (.unobserve js t nodes) = (w, some .exception) := by
        unfold EvWorld.step
        simp only
        rw [hjt]
      rw [hstep]
      refine ⟨⟨hi.b, htail, ?_⟩, ?_, hprop⟩
      · intro s
        rw [hop s]
        by_cases hts : t = s
        · subst hts
          have := hi.t t
          rw [hjt] at this
          rw [hjt]
          have h0 : jts[t]? = none := by
            cases h0 : jts[t]? with
            | none => rfl
            | some j => rw [h0] at this; cases this
          rw [h0]; rfl
        · rw [if_neg hts, hi.t s]; simp
      · intro s jt x hs' hx
        rw [hop s] at hx
        split at hx
        · rename_i h
          subst h
          rw [hjt] at hs'
          cases hs'
        · cases hx
    | some jt =>
      have hstep : w.step (.unobserve js t nodes) = ({ w with trees := w.trees.set t (jt.unobserve js nodes).1 }, (jt.unobserve js nodes).2) := by
        unfold EvWorld.step
        simp only
        rw [hjt]
      rw [hstep]
      refine ⟨⟨hi.b, htail, ?_⟩, ?_, hprop⟩
      · intro s
        rw [hop s]
        exact trees_set hi.t hjt (js, .unobserve nodes) _ rfl s
      · intro s j x hs' hx
        rw [hop s] at hx
        split at hx
        · rename_i h
          subst h
          rw [hjt] at hs'
          cases hs'
          cases hx
          rfl
        · cases hx
  | unobserveAll js t =>
    have hop : ∀ s, p.op s (.unobserveAll js t) = if t = s then some (js, .unobserveAll) else none := fun _ => rfl
    have hprop : ∀ s x, p.op s (.unobserveAll js t) = some x → x.2.Proper vars := by
      intro s x hx
      rw [hop s] at hx
      split at hx
      · cases hx; trivial
      · cases hx
    cases hjt : w.trees[t]? with
    | none =>
      have hstep : w.step (.unobserveAll js t) = (w, some .exception) := by
        unfold EvWorld.step
        simp only
        rw [hjt]
      rw [hstep]
      refine ⟨⟨hi.b, htail, ?_⟩, ?_, hprop⟩
      · intro s
        rw [hop s]
        by_cases hts : t = s
        · subst hts
          have := hi.t t
          rw [hjt] at this
          rw [hjt]
          have h0 : jts[t]? = none := by
            cases h0 : jts[t]? with
            | none => rfl
            | some j => rw [h0] at this; cases this
          rw [h0]; rfl
        · rw [if_neg hts, hi.t s]; simp
      · intro s jt x hs' hx
        rw [hop s] at hx
        split at hx
        · rename_i h
          subst h
          rw [hjt] at hs'
          cases hs'
        · cases hx
    | some jt =>
      have hstep : w.step (.unobserveAll js t) = ({ w with trees := w.trees.set t (jt.unobserveAll js).1 }, (jt.unobserveAll js).2) := by
        unfold EvWorld.step
        simp only
        rw [hjt]
      rw [hstep]
      refine ⟨⟨hi.b, htail, ?_⟩, ?_, hprop⟩
      · intro s
        rw [hop s]
        exact trees_set hi.t hjt (js, .unobserveAll) _ rfl s
      · intro s j x hs' hx
        rw [hop s] at hx
        split at hx
        · rename_i h
          subst h
          rw [hjt] at hs'
          cases hs'
          cases hx
          rfl
        · cases hx

end

end PyBBN
