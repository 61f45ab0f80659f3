import Verif.Proofs.EvidenceStep

/-! Evidence operations on a calibrated join tree. -/

namespace PyBBN
open Evidence

abbrev EvMap := Dict Int (Dict Str ℚ)

/-- the same likelihoods stored (the dictionaries may list the nodes in different orders) -/
def EvEq (a b : EvMap) : Prop := ∀ i, Dict.get? a i = Dict.get? b i

theorem EvEq.refl (a : EvMap) : EvEq a a := fun _ => rfl

theorem EvEq.symm {a b : EvMap} (h : EvEq a b) : EvEq b a := fun i => (h i).symm

theorem EvEq.trans {a b c : EvMap} (h : EvEq a b) (h' : EvEq b c) : EvEq a c := fun i => (h i).trans (h' i)

theorem EvEq.lik {a b : EvMap} (h : EvEq a b) : PyBBN.lik a = PyBBN.lik b := by
  funext i x
  unfold PyBBN.lik
  rw [h i]

/-! ### writing -/

theorem writeValues_keys : ∀ (kvs : List (Str × ℚ)) (m : Dict Str ℚ), Dict.keys (JoinTree.writeValues m kvs).1 = Dict.keys m
  | [], m => rfl
  | (k, v) :: rest, m => by
      unfold JoinTree.writeValues
      split
      · rename_i hk
        rw [writeValues_keys rest, Dict.keys_set, if_pos ((Dict.has_iff _ _).1 hk)]
      · rfl

theorem writeValues_origin : ∀ (kvs : List (Str × ℚ)) (m : Dict Str ℚ) (x : Str) (q : ℚ),
    Dict.get? (JoinTree.writeValues m kvs).1 x = some q → Dict.get? m x = some q ∨ (x, q) ∈ kvs
  | [], m, x, q, h => Or.inl h
  | (k, v) :: rest, m, x, q, h => by
      unfold JoinTree.writeValues at h
      split at h
      · rcases writeValues_origin rest _ x q h with h | h
        · rw [Dict.get?_set] at h
          split at h
          · rename_i e
            cases h
            subst e
            exact Or.inr List.mem_cons_self
          · exact Or.inl h
        · exact Or.inr (List.mem_cons_of_mem _ h)
      · exact Or.inl h

theorem writeValues_ok : ∀ (kvs : Dict Str ℚ) (m : Dict Str ℚ), (∀ k ∈ Dict.keys kvs, k ∈ Dict.keys m) → (Dict.keys kvs).Nodup →
    (JoinTree.writeValues m kvs).2 = none ∧
    ∀ x, Dict.get? (JoinTree.writeValues m kvs).1 x = if x ∈ Dict.keys kvs then Dict.get? kvs x else Dict.get? m x
  | [], m, _, _ => ⟨rfl, fun x => by simp [JoinTree.writeValues, Dict.keys]⟩
  | (k, v) :: rest, m, h, hn => by
      have hk : k ∈ Dict.keys m := h k (by simp [Dict.keys])
      have hn' : k ∉ Dict.keys rest ∧ (Dict.keys rest).Nodup := by
        simpa [Dict.keys, List.nodup_cons] using hn
      obtain ⟨h1, h2⟩ := writeValues_ok rest (Dict.set m k v) (by
        intro y hy
        rw [Dict.keys_set, if_pos hk]
        exact h y (by simp only [Dict.keys, List.map_cons, List.mem_cons] at *; exact Or.inr hy)) hn'.2
      unfold JoinTree.writeValues
      rw [if_pos ((Dict.has_iff _ _).2 hk)]
      refine ⟨h1, ?_⟩
      intro x
      rw [h2]
      by_cases e : k = x
      · subst e
        rw [if_neg hn'.1, Dict.get?_set_self, if_pos (by simp [Dict.keys])]
        simp [Dict.get?]
      · rw [Dict.get?_set_ne _ _ e]
        have : x ∈ Dict.keys ((k, v) :: rest) ↔ x ∈ Dict.keys rest := by
          simp only [Dict.keys, List.map_cons, List.mem_cons]
          exact ⟨fun h => h.resolve_left (fun h => e h.symm), Or.inr⟩
        simp only [this]
        split
        · simp [Dict.get?, e]
        · rfl

theorem writeEvidences_congr : ∀ (es : List Evidence) {a b : EvMap}, EvEq a b →
    EvEq (JoinTree.writeEvidences a es).1 (JoinTree.writeEvidences b es).1 ∧
      (JoinTree.writeEvidences a es).2 = (JoinTree.writeEvidences b es).2
  | [], a, b, h => ⟨h, rfl⟩
  | e :: es, a, b, h => by
      unfold JoinTree.writeEvidences
      rw [h e.node.id]
      cases hb : Dict.get? b e.node.id with
      | none => exact ⟨h, rfl⟩
      | some m =>
        have hset : EvEq (Dict.set a e.node.id (JoinTree.writeValues m e.values).1)
            (Dict.set b e.node.id (JoinTree.writeValues m e.values).1) := by
          intro i; rw [Dict.get?_set, Dict.get?_set, h i]
        simp only
        cases hw : (JoinTree.writeValues m e.values).2 with
        | some err => exact ⟨hset, rfl⟩
        | none => exact writeEvidences_congr es hset

/-- writing keeps the nodes and their values, and every likelihood afterwards is an old one or one of those written -/
theorem writeEvidences_origin : ∀ (es : List Evidence) (ev : EvMap) (i : Int),
    (Dict.get? ev i = none → Dict.get? (JoinTree.writeEvidences ev es).1 i = none) ∧
    ∀ m, Dict.get? ev i = some m → ∃ m', Dict.get? (JoinTree.writeEvidences ev es).1 i = some m' ∧ Dict.keys m' = Dict.keys m ∧
      ∀ x q, Dict.get? m' x = some q → Dict.get? m x = some q ∨ ∃ e ∈ es, e.node.id = i ∧ (x, q) ∈ e.values
  | [], ev, i => ⟨fun h => h, fun m h => ⟨m, h, rfl, fun x q hq => Or.inl hq⟩⟩
  | e :: es, ev, i => by
      unfold JoinTree.writeEvidences
      cases hb : Dict.get? ev e.node.id with
      | none => exact ⟨fun h => h, fun m h => ⟨m, h, rfl, fun x q hq => Or.inl hq⟩⟩
      | some m =>
        have h0 : ∀ i, (Dict.get? ev i = none → Dict.get? (Dict.set ev e.node.id (JoinTree.writeValues m e.values).1) i = none) ∧
            ∀ m0, Dict.get? ev i = some m0 → ∃ m', Dict.get? (Dict.set ev e.node.id (JoinTree.writeValues m e.values).1) i = some m' ∧
              Dict.keys m' = Dict.keys m0 ∧ ∀ x q, Dict.get? m' x = some q → Dict.get? m0 x = some q ∨
                (e.node.id = i ∧ (x, q) ∈ e.values) := by
          intro i
          rw [Dict.get?_set]
          by_cases he : e.node.id = i
          · subst he
            rw [if_pos rfl, hb]
            refine ⟨fun h => (by simp at h), ?_⟩
            intro m0 hm0
            cases hm0
            refine ⟨_, rfl, writeValues_keys _ _, ?_⟩
            intro x q hq
            rcases writeValues_origin _ _ _ _ hq with h | h
            · exact Or.inl h
            · exact Or.inr ⟨rfl, h⟩
          · rw [if_neg he]
            exact ⟨fun h => h, fun m0 h => ⟨m0, h, rfl, fun x q hq => Or.inl hq⟩⟩
        simp only
        cases hw : (JoinTree.writeValues m e.values).2 with
        | some err =>
          refine ⟨(h0 i).1, ?_⟩
          intro m0 hm0
          obtain ⟨m', a1, a2, a3⟩ := (h0 i).2 m0 hm0
          refine ⟨m', a1, a2, ?_⟩
          intro x q hq
          rcases a3 x q hq with h | ⟨h1, h2⟩
          · exact Or.inl h
          · exact Or.inr ⟨e, List.mem_cons_self, h1, h2⟩
        | none =>
          have ih := writeEvidences_origin es (Dict.set ev e.node.id (JoinTree.writeValues m e.values).1) i
          refine ⟨fun h => ih.1 ((h0 i).1 h), ?_⟩
          intro m0 hm0
          obtain ⟨m', a1, a2, a3⟩ := (h0 i).2 m0 hm0
          obtain ⟨m'', b1, b2, b3⟩ := ih.2 m' a1
          refine ⟨m'', b1, b2.trans a2, ?_⟩
          intro x q hq
          rcases b3 x q hq with h | ⟨e', he', h1, h2⟩
          · rcases a3 x q h with h | ⟨h1, h2⟩
            · exact Or.inl h
            · exact Or.inr ⟨e, List.mem_cons_self, h1, h2⟩
          · exact Or.inr ⟨e', List.mem_cons_of_mem _ he', h1, h2⟩

theorem getChangeType_congr (es : List Evidence) {a b : EvMap} (h : EvEq a b) :
    JoinTree.getChangeType a es = JoinTree.getChangeType b es := by
  have : (fun e : Evidence => (do
      let stored ← Dict.getItem a e.node.id
      .ok (Evidence.compare e.values stored) : Py ChangeType)) = fun e : Evidence => (do
      let stored ← Dict.getItem b e.node.id
      .ok (Evidence.compare e.values stored) : Py ChangeType) := by
    funext e
    unfold Dict.getItem
    rw [h]
  unfold JoinTree.getChangeType
  rw [this]

/-! ### the evidence machine

What an update does to the stored likelihoods `ev` and to the likelihoods `ℓ` of the last propagation, without the join tree. -/

structure EvState where
  ev : EvMap
  prop : Liks

def evUpdate (s : EvState) (es : List Evidence) : EvState × Option PyErr :=
  match es.mapM Evidence.validate with
  | .error e => (s, some e)
  | .ok es =>
      match JoinTree.getChangeType s.ev es with
      | .error e => (s, some e)
      | .ok change =>
          let w := JoinTree.writeEvidences s.ev es
          match w.2 with
          | some e => (⟨w.1, s.prop⟩, some e)
          | none => (⟨w.1, if change = .none then s.prop else lik w.1⟩, none)

def EvSame (s t : EvState) : Prop := EvEq s.ev t.ev ∧ s.prop = t.prop

theorem evUpdate_congr {s t : EvState} (h : EvSame s t) (es : List Evidence) :
    EvSame (evUpdate s es).1 (evUpdate t es).1 ∧ (evUpdate s es).2 = (evUpdate t es).2 := by
  unfold evUpdate
  cases es.mapM Evidence.validate with
  | error e => exact ⟨h, rfl⟩
  | ok es =>
    simp only
    rw [getChangeType_congr es h.1]
    cases JoinTree.getChangeType t.ev es with
    | error e => exact ⟨h, rfl⟩
    | ok c =>
      obtain ⟨h1, h2⟩ := writeEvidences_congr es h.1
      simp only
      rw [h2]
      cases (JoinTree.writeEvidences t.ev es).2 with
      | some e => exact ⟨⟨h1, h.2⟩, rfl⟩
      | none => exact ⟨⟨h1, by simp only; rw [h.2, h1.lik]⟩, rfl⟩

theorem mapM_ok_mem {α β : Type} {f : α → Py β} : ∀ {l : List α} {r : List β}, l.mapM f = .ok r → ∀ y ∈ r, ∃ x ∈ l, f x = .ok y
  | [], r, h => by simp [pure, Except.pure] at h; subst h; simp
  | x :: l, r, h => by
      rw [List.mapM_cons] at h
      obtain ⟨y, h1, h2⟩ := bind_ok h
      obtain ⟨ys, h3, h4⟩ := bind_ok h2
      cases h4
      intro z hz
      rcases List.mem_cons.1 hz with rfl | hz
      · exact ⟨x, List.mem_cons_self, h1⟩
      · obtain ⟨a, ha, hb⟩ := mapM_ok_mem h3 z hz
        exact ⟨a, List.mem_cons_of_mem _ ha, hb⟩

/-! ### join trees in use -/

section
variable {vars : List Variable} {cs : List Clique} {T : List SepSet} {N : Net}

/-- a join tree built by `apply`, its tables calibrated for the likelihoods `ℓ` -/
structure Live (vars : List Variable) (cs : List Clique) (T : List SepSet) (N : Net) (ℓ : Liks) (jt : JoinTree) : Prop where
  calib : Calib vars cs T N ℓ jt
  foreign : ∀ i, i ∉ vids vars → Dict.get? jt.evidences i = none
  range : ∀ v ∈ vars, ∀ m, Dict.get? jt.evidences v.id = some m → ∀ x q, Dict.get? m x = some q → 0 ≤ q ∧ q ≤ 1
  listen : jt.listener = true

theorem Live.lik_nonneg {ℓ : Liks} {jt : JoinTree} (h : Live vars cs T N ℓ jt) (i : Int) (x : Str) :
    0 ≤ lik jt.evidences i x ∧ lik jt.evidences i x ≤ 1 := by
  unfold lik
  cases hm : Dict.get? jt.evidences i with
  | none => simp
  | some m =>
    simp only [Option.bind_some]
    cases hq : Dict.get? m x with
    | none => simp
    | some q =>
      have : i ∈ vids vars := by
        by_contra hi
        rw [h.foreign i hi] at hm
        cases hm
      obtain ⟨v, hv, rfl⟩ := List.mem_map.1 this
      exact h.range v hv m hm x q hq

/-- the parts of the join tree that evidence does not touch -/
structure SameTree (a b : JoinTree) : Prop where
  nodes : a.nodes = b.nodes
  edges : a.edges = b.edges
  neighbors : a.neighbors = b.neighbors
  heap : a.heap = b.heap
  parentInfo : a.parentInfo = b.parentInfo

theorem SameTree.refl (a : JoinTree) : SameTree a a := ⟨rfl, rfl, rfl, rfl, rfl⟩

theorem SameTree.trans {a b c : JoinTree} (h : SameTree a b) (h' : SameTree b c) : SameTree a c :=
  ⟨h.nodes.trans h'.nodes, h.edges.trans h'.edges, h.neighbors.trans h'.neighbors, h.heap.trans h'.heap,
    h.parentInfo.trans h'.parentInfo⟩

theorem Calib.withEv {ℓ : Liks} {jt : JoinTree} (h : Calib vars cs T N ℓ jt) {ev : EvMap} (hev : EvOk vars ev) :
    Calib vars cs T N ℓ { jt with evidences := ev } := by
  obtain ⟨χ, R, ks, vs, h1, h2, h3, h4, h5, h6, h7⟩ := h.tabs
  exact ⟨h.ctx.frame rfl rfl, h.done, hev, h.likNonneg, ⟨χ, R, ks, vs, h1, ⟨h2.1, h2.2, h2.3, h2.4, h2.5⟩, h3, h4, h5, h6, h7⟩⟩

/-- an update on a live join tree behaves as the evidence machine says -/
theorem Live.update (hN : NetOk vars N) (hne : cs ≠ []) (hvne : ∀ v ∈ vars, v.values ≠ []) {ℓ : Liks} {jt : JoinTree} (h : Live vars cs T N ℓ jt) (js : SetIter Str)
    (es : List Evidence) (hes : ∀ e ∈ es, NodeOk vars e.node ∧ (Dict.keys e.values).Nodup) :
    ∃ jt', jt.updateEvidences js es = (jt', (evUpdate ⟨jt.evidences, ℓ⟩ es).2) ∧
      Live vars cs T N (evUpdate ⟨jt.evidences, ℓ⟩ es).1.prop jt' ∧
      EvEq jt'.evidences (evUpdate ⟨jt.evidences, ℓ⟩ es).1.ev ∧ SameTree jt' jt := by
  unfold JoinTree.updateEvidences evUpdate
  cases hv : es.mapM Evidence.validate with
  | error e => exact ⟨jt, rfl, h, EvEq.refl _, SameTree.refl _⟩
  | ok es' =>
    simp only
    cases hc : JoinTree.getChangeType jt.evidences es' with
    | error e => exact ⟨jt, rfl, h, EvEq.refl _, SameTree.refl _⟩
    | ok c =>
      simp only
      have horig := writeEvidences_origin es' jt.evidences
      set w := JoinTree.writeEvidences jt.evidences es' with hw
      have hval := mapM_ok_mem hv
      have hrange : ∀ v ∈ vars, ∀ m, Dict.get? w.1 v.id = some m → ∀ x q, Dict.get? m x = some q → 0 ≤ q ∧ q ≤ 1 := by
        intro v hv m hm x q hq
        cases hm0 : Dict.get? jt.evidences v.id with
        | none => rw [(horig v.id).1 hm0] at hm; cases hm
        | some m0 =>
          obtain ⟨m', a1, a2, a3⟩ := (horig v.id).2 m0 hm0
          rw [hm] at a1
          cases a1
          rcases a3 x q hq with h1 | ⟨e', he', hid, hmem⟩
          · exact h.range v hv m0 hm0 x q h1
          · obtain ⟨e, he, hev⟩ := hval e' he'
            obtain ⟨⟨hnode, hnd⟩, hk⟩ := hes e he
            obtain ⟨b1, b2, b3⟩ := validate_range e e' hnd hev
            have hev' : e.node = v := by
              rw [b1] at hid
              exact h.calib.ctx.inj (hnode (by rw [hid]; exact List.mem_map_of_mem hv)) hv hid
            have hx : x ∈ v.values := by
              rw [← h.calib.ev.1 v hv m0 hm0, ← a2]
              exact Dict.mem_keys_of_get? hq
            obtain ⟨q', c1, c2⟩ := b3 x (by rw [hev']; exact hx)
            have := Dict.get?_of_mem (by rw [b2]; exact e.order_nodup hnd hk) hmem
            rw [this] at c1
            cases c1
            exact c2
      have hevok : EvOk vars w.1 := by
        constructor
        · intro v hv m hm
          cases hm0 : Dict.get? jt.evidences v.id with
          | none => rw [(horig v.id).1 hm0] at hm; cases hm
          | some m0 =>
            obtain ⟨m', a1, a2, _⟩ := (horig v.id).2 m0 hm0
            rw [hm] at a1
            cases a1
            rw [a2]
            exact h.calib.ev.1 v hv m0 hm0
        · intro v hv hvne
          obtain ⟨m, hm⟩ := h.calib.ev.2 v hv hvne
          obtain ⟨m', a1, _⟩ := (horig v.id).2 m hm
          exact ⟨m', a1⟩
      have hnone : ∀ i, i ∉ vids vars → Dict.get? w.1 i = none := fun i hi => (horig i).1 (h.foreign i hi)
      have hlive : Live vars cs T N ℓ { jt with evidences := w.1 } := ⟨h.calib.withEv hevok, hnone, hrange, h.listen⟩
      cases hw2 : w.2 with
      | some e => exact ⟨_, rfl, hlive, EvEq.refl _, ⟨rfl, rfl, rfl, rfl, rfl⟩⟩
      | none =>
        simp only
        have hcase : c = .none ∨ c = .retraction ∨ c = .update := by cases c <;> simp
        have hnoupd : c ≠ .update := by
          rintro rfl
          unfold JoinTree.getChangeType at hc
          obtain ⟨changes, h1, h2⟩ := bind_ok hc
          have hall : ∀ ch ∈ changes, ch ≠ ChangeType.update := by
            intro ch hch
            obtain ⟨e, _, he⟩ := mapM_ok_mem h1 ch hch
            obtain ⟨m, _, h3⟩ := bind_ok he
            cases h3
            unfold Evidence.compare
            split
            · simp
            · split
              · split <;> simp
              · simp
          split at h2
          · cases h2
          · split at h2
            · rename_i h3
              exact hall _ h3 rfl
            · cases h2
        rcases hcase with rfl | rfl | rfl
        · refine ⟨{ jt with evidences := w.1 }, ?_, hlive, EvEq.refl _, ⟨rfl, rfl, rfl, rfl, rfl⟩⟩
          unfold JoinTree.notify
          rw [if_pos h.listen]
        · have hl : ∀ i x, 0 ≤ lik w.1 i x := fun i x => (hlive.lik_nonneg i x).1
          obtain ⟨p, heap, ev, a1, a2, a3, a4, a5, a6, a7⟩ := hlive.calib.ctx.run hN hlive.calib.done.ok hevok.1 hl hne js
          have hheap : heap = jt.heap := a3 hlive.calib.done
          have heq : EvEq ev w.1 := by
            intro i
            by_cases hi : i ∈ vids vars
            · obtain ⟨v, hv, rfl⟩ := List.mem_map.1 hi
              cases hm : Dict.get? w.1 v.id with
              | some m => exact a5 v hv m hm
              | none =>
                obtain ⟨m, hm'⟩ := hevok.2 v hv (hvne v hv)
                rw [hm] at hm'
                cases hm'
            · rw [a6 i hi]
          refine ⟨_, ?_, ⟨a7, ?_, ?_, h.listen⟩, heq, ⟨rfl, rfl, rfl, hheap, rfl⟩⟩
          · unfold JoinTree.notify
            rw [if_pos h.listen]
            simp only [a1]
          · intro i hi; rw [heq i]; exact hnone i hi
          · intro v hv m hm; rw [heq] at hm; exact hrange v hv m hm
        · exact absurd rfl hnoupd

end


/-! ### comparing -/

theorem dict_eq_map {f : Str → ℚ} : ∀ (m : Dict Str ℚ), (Dict.keys m).Nodup → (∀ x ∈ Dict.keys m, Dict.get? m x = some (f x)) →
    m = (Dict.keys m).map (fun x => (x, f x))
  | [], _, _ => rfl
  | (k, v) :: m, hn, h => by
      have hn' : k ∉ Dict.keys m ∧ (Dict.keys m).Nodup := by simpa [Dict.keys, List.nodup_cons] using hn
      have h1 := h k (by simp [Dict.keys])
      have h2 : v = f k := by simpa [Dict.get?] using h1
      have ih := dict_eq_map (f := f) m hn'.2 (by
        intro x hx
        have := h x (by simp only [Dict.keys, List.map_cons, List.mem_cons] at *; exact Or.inr hx)
        have hkx : k ≠ x := fun e => hn'.1 (e ▸ hx)
        simpa [Dict.get?, hkx] using this)
      have hk : Dict.keys ((k, v) :: m) = k :: Dict.keys m := rfl
      rw [hk, List.map_cons, ← ih, h2]

theorem sum_eq_length : ∀ (l : List ℚ), (∀ q ∈ l, q ≤ 1) → (l.sum = (l.length : ℚ) ↔ ∀ q ∈ l, q = 1) ∧ l.sum ≤ l.length
  | [], _ => by simp
  | q :: l, h => by
      have hq := h q List.mem_cons_self
      obtain ⟨ih1, ih2⟩ := sum_eq_length l (fun x hx => h x (List.mem_cons_of_mem _ hx))
      rw [List.sum_cons, List.length_cons]
      push_cast
      refine ⟨⟨?_, ?_⟩, by linarith⟩
      · intro e
        have e1 : q = 1 := by linarith
        have e2 : l.sum = l.length := by linarith
        intro x hx
        rcases List.mem_cons.1 hx with rfl | hx
        · exact e1
        · exact ih1.1 e2 x hx
      · intro hz
        rw [hz q List.mem_cons_self, ih1.2 (fun x hx => hz x (List.mem_cons_of_mem _ hx))]
        ring

theorem isUnobserved_iff {ks : List Str} {f : Str → ℚ} (hf : ∀ x ∈ ks, f x ≤ 1) :
    isUnobserved (ks.map (fun x => (x, f x))) = true ↔ ∀ x ∈ ks, f x = 1 := by
  unfold isUnobserved
  rw [decide_eq_true_eq, List.map_map, List.length_map]
  have h := (sum_eq_length (ks.map f) (by
    intro q hq
    obtain ⟨x, hx, rfl⟩ := List.mem_map.1 hq
    exact hf x hx)).1
  rw [List.length_map] at h
  have e : (Prod.snd ∘ fun x => (x, f x)) = f := rfl
  rw [e, h]
  simp

theorem ones_map (ks : List Str) (f : Str → ℚ) :
    ((ks.map (fun x => (x, f x))).filter (fun kv => decide (kv.2 = 1))).map Prod.fst = onesOf ks f := by
  unfold onesOf
  rw [List.filter_map, List.map_map]
  have e : (Prod.fst ∘ fun x => (x, f x)) = (id : Str → Str) := rfl
  rw [e, List.map_id]
  rfl

theorem isObserved_iff (ks : List Str) (f : Str → ℚ) :
    isObserved (ks.map (fun x => (x, f x))) = true ↔ (onesOf ks f).length = 1 := by
  unfold isObserved
  have h1 : ((ks.map (fun x => (x, f x))).filter (fun kv => decide (kv.2 = 1))).length = (onesOf ks f).length := by
    rw [← ones_map, List.length_map]
  have h2 : ((ks.map (fun x => (x, f x))).filter (fun kv => decide (kv.2 = 1))).length +
      ((ks.map (fun x => (x, f x))).filter (fun kv => decide (kv.2 ≠ 1))).length = ks.length := by
    generalize hl : ks.map (fun x => (x, f x)) = l
    have : ks.length = l.length := by rw [← hl, List.length_map]
    rw [this]
    clear hl this h1
    induction l with
    | nil => rfl
    | cons a l ih =>
      by_cases ha : a.2 = 1
      · rw [List.filter_cons_of_pos (by simpa using ha), List.filter_cons_of_neg (by simpa using ha), List.length_cons,
          List.length_cons, ← ih]
        omega
      · rw [List.filter_cons_of_neg (by simpa using ha), List.filter_cons_of_pos (by simpa using ha), List.length_cons,
          List.length_cons, ← ih]
        omega
  simp only [Bool.and_eq_true, decide_eq_true_eq, List.length_map]
  rw [h1] at h2 ⊢
  constructor
  · exact fun h => h.1
  · intro h
    refine ⟨h, ?_⟩
    omega

theorem getObservedValue_eq (ks : List Str) (f : Str → ℚ) :
    getObservedValue (ks.map (fun x => (x, f x))) = (onesOf ks f).head? := by
  unfold getObservedValue
  rw [ones_map]

theorem onesOf_perm {ks ks' : List Str} (h : ks.Perm ks') (f : Str → ℚ) : (onesOf ks f).Perm (onesOf ks' f) := h.filter _

/-- when does `compare` see no change: both all 1, or exactly one 1 at the same value -/
theorem compare_none_iff {ks ds : List Str} (hp : ks.Perm ds) {c s : Str → ℚ} (hc : ∀ x ∈ ds, c x ≤ 1) (hs : ∀ x ∈ ds, s x ≤ 1) :
    Evidence.compare (ks.map (fun x => (x, c x))) (ds.map (fun x => (x, s x))) = .none ↔
      ((∀ x ∈ ds, c x = 1) ∧ ∀ x ∈ ds, s x = 1) ∨ ∃ a, onesOf ds c = [a] ∧ onesOf ds s = [a] := by
  have h1 : isUnobserved (ks.map (fun x => (x, c x))) = true ↔ ∀ x ∈ ds, c x = 1 := by
    rw [isUnobserved_iff (fun x hx => hc x (hp.mem_iff.1 hx))]
    exact ⟨fun h x hx => h x (hp.mem_iff.2 hx), fun h x hx => h x (hp.mem_iff.1 hx)⟩
  have h2 := isUnobserved_iff (ks := ds) hs
  have hpo := onesOf_perm hp c
  unfold Evidence.compare
  by_cases hu : (∀ x ∈ ds, c x = 1) ∧ ∀ x ∈ ds, s x = 1
  · rw [if_pos (by rw [Bool.and_eq_true]; exact ⟨h2.2 hu.2, h1.2 hu.1⟩)]
    simp only [true_iff]
    exact Or.inl hu
  · rw [if_neg (by rw [Bool.and_eq_true]; exact fun h => hu ⟨h1.1 h.2, h2.1 h.1⟩)]
    by_cases ho : (onesOf ds s).length = 1 ∧ (onesOf ds c).length = 1
    · rw [if_pos (by
        rw [Bool.and_eq_true]
        exact ⟨(isObserved_iff _ _).2 ho.1, (isObserved_iff _ _).2 (hpo.length_eq.trans ho.2)⟩)]
      obtain ⟨a, ha⟩ := List.length_eq_one_iff.1 ho.1
      obtain ⟨b, hb⟩ := List.length_eq_one_iff.1 ho.2
      rw [hb, List.perm_singleton] at hpo
      rw [getObservedValue_eq, getObservedValue_eq, hpo, ha, hb]
      simp only [List.head?_cons, Option.some.injEq, List.cons.injEq, and_true]
      by_cases e : a = b
      · rw [if_pos e]
        simp only [true_iff]
        exact Or.inr ⟨b, rfl, e⟩
      · rw [if_neg e]
        constructor
        · intro h; cases h
        · rintro (h | ⟨x, h1, h2⟩)
          · exact absurd h hu
          · exact absurd (h2.trans h1.symm) e
    · rw [if_neg (by
        rw [Bool.and_eq_true]
        rintro ⟨h3, h4⟩
        exact ho ⟨(isObserved_iff _ _).1 h3, hpo.length_eq.symm.trans ((isObserved_iff _ _).1 h4)⟩)]
      constructor
      · intro h; cases h
      · rintro (h | ⟨x, h1, h2⟩)
        · exact absurd h hu
        · exact absurd ⟨by rw [h2]; rfl, by rw [h1]; rfl⟩ ho

theorem mem_onesOf {ds : List Str} {f : Str → ℚ} {x : Str} : x ∈ onesOf ds f ↔ x ∈ ds ∧ f x = 1 := by
  unfold onesOf; rw [List.mem_filter, decide_eq_true_eq]

/-- unambiguous likelihoods that `compare` does not tell apart are equal -/
theorem compare_unambiguous {ds : List Str} {c s : Str → ℚ} (hc : Unambiguous ds c) (hs : Unambiguous ds s)
    (h : ((∀ x ∈ ds, c x = 1) ∧ ∀ x ∈ ds, s x = 1) ∨ ∃ a, onesOf ds c = [a] ∧ onesOf ds s = [a]) : ∀ x ∈ ds, c x = s x := by
  intro x hx
  rcases h with ⟨h1, h2⟩ | ⟨a, h1, h2⟩
  · rw [h1 x hx, h2 x hx]
  · have key : ∀ {f : Str → ℚ}, Unambiguous ds f → onesOf ds f = [a] → f x = if x = a then 1 else 0 := by
      intro f hf h
      have ha : a ∈ ds ∧ f a = 1 := mem_onesOf.1 (by rw [h]; simp)
      by_cases e : x = a
      · rw [if_pos e, e]; exact ha.2
      · rw [if_neg e]
        refine hf a ha.1 ha.2 ?_ x hx e
        intro b hb hba hb1
        have : b ∈ onesOf ds f := mem_onesOf.2 ⟨hb, hb1⟩
        rw [h] at this
        simp at this
        exact hba this
    rw [key hc h1, key hs h2]

/-! ### updates with proper evidence -/

/-- stored likelihoods of the nodes `vars` -/
structure EvGood (vars : List Variable) (ev : EvMap) : Prop where
  ok : EvOk vars ev
  foreign : ∀ i, i ∉ vids vars → Dict.get? ev i = none
  range : ∀ v ∈ vars, ∀ m, Dict.get? ev v.id = some m → ∀ x q, Dict.get? m x = some q → 0 ≤ q ∧ q ≤ 1

theorem Live.good {vars : List Variable} {cs : List Clique} {T : List SepSet} {N : Net} {ℓ : Liks} {jt : JoinTree}
    (h : Live vars cs T N ℓ jt) : EvGood vars jt.evidences := ⟨h.calib.ev, h.foreign, h.range⟩

theorem EvGood.congr {vars : List Variable} {a b : EvMap} (h : EvGood vars a) (e : EvEq a b) : EvGood vars b := by
  refine ⟨⟨?_, ?_⟩, ?_, ?_⟩
  · intro v hv m hm; rw [← e] at hm; exact h.ok.1 v hv m hm
  · intro v hv hne; rw [← e]; exact h.ok.2 v hv hne
  · intro i hi; rw [← e]; exact h.foreign i hi
  · intro v hv m hm; rw [← e] at hm; exact h.range v hv m hm

/-- the sane domains assumed throughout: every node has values, none repeated, and ids are distinct -/
structure DomsOk (vars : List Variable) : Prop where
  vn : (vids vars).Nodup
  vals : ∀ v ∈ vars, v.values.Nodup
  ne : ∀ v ∈ vars, v.values ≠ []

section
variable {vars : List Variable}

theorem DomsOk.inj (hd : DomsOk vars) {u v : Variable} (hu : u ∈ vars) (hv : v ∈ vars) (h : u.id = v.id) : u = v :=
  List.inj_on_of_nodup_map hd.vn hu hv h

theorem EvGood.get (hg : EvGood vars ev) (hd : DomsOk vars) {v : Variable} (hv : v ∈ vars) :
    Dict.get? ev v.id = some (v.values.map (fun x => (x, lik ev v.id x))) ∧
      ∀ x, 0 ≤ lik ev v.id x ∧ lik ev v.id x ≤ 1 := by
  obtain ⟨m, hm⟩ := hg.ok.2 v hv (hd.ne v hv)
  have hk := hg.ok.1 v hv m hm
  have hl : ∀ x, lik ev v.id x = (Dict.get? m x).getD 1 := by
    intro x; unfold lik; rw [hm]; rfl
  refine ⟨?_, ?_⟩
  · rw [hm, ← hk]
    congr 1
    apply dict_eq_map
    · rw [hk]; exact hd.vals v hv
    · intro x hx
      obtain ⟨q, hq⟩ := Dict.exists_get?_of_mem_keys hx
      rw [hl, hq]; rfl
  · intro x
    rw [hl]
    cases hq : Dict.get? m x with
    | none => simp
    | some q => exact hg.range v hv m hm x q hq

/-- stored likelihoods are determined by their values -/
theorem EvGood.eq_of_lik {a b : EvMap} (ha : EvGood vars a) (hb : EvGood vars b) (hd : DomsOk vars)
    (h : ∀ v ∈ vars, ∀ x ∈ v.values, lik a v.id x = lik b v.id x) : EvEq a b := by
  intro i
  by_cases hi : i ∈ vids vars
  · obtain ⟨v, hv, rfl⟩ := List.mem_map.1 hi
    rw [(ha.get hd hv).1, (hb.get hd hv).1]
    congr 1
    apply List.map_congr_left
    intro x hx
    rw [h v hv x hx]
  · rw [ha.foreign i hi, hb.foreign i hi]

theorem EvGood.lik_out {ev : EvMap} (hg : EvGood vars ev) {i : Int} {x : Str} (h : ∀ v ∈ vars, v.id = i → x ∉ v.values) :
    lik ev i x = 1 := by
  unfold lik
  cases hm : Dict.get? ev i with
  | none => rfl
  | some m =>
    simp only [Option.bind_some]
    cases hq : Dict.get? m x with
    | none => rfl
    | some q =>
      exfalso
      have hi : i ∈ vids vars := by
        by_contra hi
        rw [hg.foreign i hi] at hm
        cases hm
      obtain ⟨v, hv, rfl⟩ := List.mem_map.1 hi
      apply h v hv rfl
      rw [← hg.ok.1 v hv m hm]
      exact Dict.mem_keys_of_get? hq

/-- the outcome of validating evidence, as a function -/
def Evidence.validated (e : Evidence) : Evidence := (e.validate.val?).getD e

theorem Evidence.Proper.validated {e : Evidence} (hp : e.Proper vars) (hd : DomsOk vars) :
    e.validate = .ok e.validated ∧ e.validated.node = e.node ∧
      ∃ ks : List Str, ks.Perm e.node.values ∧ e.validated.values = ks.map (fun x => (x, e.canon x)) := by
  have hn := hd.vals _ hp.node
  obtain ⟨m, h1, h2, h3⟩ := validate_canon e hn (hd.ne _ hp.node) hp.keys hp.dom
  have hv : e.validated = { e with values := m } := by
    unfold Evidence.validated; rw [h1]; rfl
  rw [hv]
  have hperm : e.order.Perm e.node.values := by
    refine (List.perm_ext_iff_of_nodup (e.order_nodup hn hp.keys) hn).2 ?_
    intro x
    refine ⟨?_, e.dom_order⟩
    intro hx
    rcases List.mem_append.1 hx with hx | hx
    · exact hp.dom x hx
    · exact (List.mem_filter.1 hx).1
  refine ⟨h1, rfl, e.order, hperm, ?_⟩
  rw [← h2]
  apply dict_eq_map
  · rw [h2]; exact e.order_nodup hn hp.keys
  · intro x hx
    rw [h2] at hx
    exact h3 x (hperm.mem_iff.1 hx)

theorem Evidence.Proper.canon_range {e : Evidence} : ∀ x, 0 ≤ e.canon x ∧ e.canon x ≤ 1 := by
  intro x
  unfold Evidence.canon
  split
  · exact ⟨le_max_left _ _, max_le zero_le_one (min_le_left _ _)⟩
  · split
    · norm_num
    · split <;> norm_num
  · split <;> norm_num
  · norm_num

theorem keys_map (ks : List Str) (f : Str → ℚ) : Dict.keys (ks.map (fun x => (x, f x))) = ks := by
  unfold Dict.keys
  rw [List.map_map]
  exact List.map_id _

theorem get?_map (f : Str → ℚ) : ∀ (ks : List Str) (x : Str), Dict.get? (ks.map (fun x => (x, f x))) x = if x ∈ ks then some (f x) else none
  | [], x => rfl
  | k :: ks, x => by
      rw [List.map_cons]
      by_cases e : k = x
      · subst e; simp [Dict.get?]
      · have := get?_map f ks x
        have hx : x ≠ k := fun h => e h.symm
        simp only [Dict.get?, List.mem_cons, hx, false_or] at this ⊢
        simp [e]
        simpa using this

/-- one proper write -/
theorem write_one {ev : EvMap} (hg : EvGood vars ev) (hd : DomsOk vars) {v : Variable} (hv : v ∈ vars) {ks : List Str}
    (hk : ks.Perm v.values) {c : Str → ℚ} (hc : ∀ x, 0 ≤ c x ∧ c x ≤ 1) {m : Dict Str ℚ} (hm : Dict.get? ev v.id = some m) :
    (JoinTree.writeValues m (ks.map (fun x => (x, c x)))).2 = none ∧
    EvGood vars (Dict.set ev v.id (JoinTree.writeValues m (ks.map (fun x => (x, c x)))).1) ∧
    lik (Dict.set ev v.id (JoinTree.writeValues m (ks.map (fun x => (x, c x)))).1) = Liks.put (lik ev) v c := by
  have hmk := hg.ok.1 v hv m hm
  have hkn : ks.Nodup := hk.nodup_iff.2 (hd.vals v hv)
  obtain ⟨h1, h2⟩ := writeValues_ok (ks.map (fun x => (x, c x))) m (by
    rw [keys_map]; intro k hk'; rw [hmk]; exact hk.mem_iff.1 hk') (by rw [keys_map]; exact hkn)
  have hkeys := writeValues_keys (ks.map (fun x => (x, c x))) m
  set m' := (JoinTree.writeValues m (ks.map (fun x => (x, c x)))).1
  have h3 : ∀ x, Dict.get? m' x = if x ∈ v.values then some (c x) else none := by
    intro x
    rw [h2, keys_map, get?_map]
    by_cases hx : x ∈ v.values
    · rw [if_pos (hk.mem_iff.2 hx), if_pos hx, if_pos (hk.mem_iff.2 hx)]
    · rw [if_neg (fun h => hx (hk.mem_iff.1 h)), if_neg hx]
      rw [Dict.get?_eq_none_iff, hmk]
      exact hx
  refine ⟨h1, ⟨⟨?_, ?_⟩, ?_, ?_⟩, ?_⟩
  · intro u hu mu hmu
    rw [Dict.get?_set] at hmu
    split at hmu
    · rename_i e
      cases hmu
      rw [hkeys, hmk, hd.inj hv hu e]
    · exact hg.ok.1 u hu mu hmu
  · intro u hu hne
    rw [Dict.get?_set]
    split
    · exact ⟨_, rfl⟩
    · exact hg.ok.2 u hu hne
  · intro i hi
    rw [Dict.get?_set, if_neg (by rintro rfl; exact hi (List.mem_map_of_mem hv))]
    exact hg.foreign i hi
  · intro u hu mu hmu x q hq
    rw [Dict.get?_set] at hmu
    split at hmu
    · cases hmu
      rw [h3] at hq
      split at hq
      · cases hq; exact hc x
      · cases hq
    · exact hg.range u hu mu hmu x q hq
  · funext i x
    unfold Liks.put
    by_cases hi : i = v.id
    · subst hi
      have : lik (Dict.set ev v.id m') v.id x = (Dict.get? m' x).getD 1 := by
        unfold lik; rw [Dict.get?_set_self]; rfl
      rw [this, h3]
      by_cases hx : x ∈ v.values
      · rw [if_pos hx, if_pos ⟨rfl, hx⟩]; rfl
      · rw [if_neg hx, if_neg (fun h => hx h.2)]
        have h0 : lik ev v.id x = (Dict.get? m x).getD 1 := by
          unfold lik; rw [hm]; rfl
        rw [h0, (Dict.get?_eq_none_iff _ _).2 (by rw [hmk]; exact hx)]
    · rw [if_neg (fun h => hi h.1)]
      unfold lik
      rw [Dict.get?_set_ne _ _ (fun e => hi e.symm)]

theorem write_all (hd : DomsOk vars) : ∀ (es : List Evidence) {ev : EvMap}, EvGood vars ev → (∀ e ∈ es, e.Proper vars) →
    (JoinTree.writeEvidences ev (es.map Evidence.validated)).2 = none ∧
    EvGood vars (JoinTree.writeEvidences ev (es.map Evidence.validated)).1 ∧
    lik (JoinTree.writeEvidences ev (es.map Evidence.validated)).1 = es.foldl (fun (ℓ : Liks) (e : Evidence) => ℓ.put e.node e.canon) (lik ev)
  | [], ev, hg, _ => ⟨rfl, hg, rfl⟩
  | e :: es, ev, hg, hp => by
      have hpe := hp e List.mem_cons_self
      obtain ⟨_, h2, ks, h3, h4⟩ := hpe.validated hd
      obtain ⟨hm, _⟩ := hg.get hd hpe.node
      obtain ⟨w1, w2, w3⟩ := write_one hg hd hpe.node h3 (Evidence.Proper.canon_range (e := e)) hm
      obtain ⟨i1, i2, i3⟩ := write_all hd es w2 (fun e he => hp e (List.mem_cons_of_mem _ he))
      rw [List.map_cons]
      unfold JoinTree.writeEvidences
      rw [h2, hm, h4]
      simp only [w1]
      refine ⟨i1, i2, ?_⟩
      rw [i3, w3]
      rfl

theorem changeType_proper (hd : DomsOk vars) {ev : EvMap} (hg : EvGood vars ev) (es : List Evidence) (hp : ∀ e ∈ es, e.Proper vars) :
    ∃ c, JoinTree.getChangeType ev (es.map Evidence.validated) = .ok c ∧ (c = .none ↔ ∀ e ∈ es, Unseen (lik ev) e) := by
  have hcmp : ∀ e ∈ es, ∃ m, Dict.get? ev e.node.id = some m ∧
      (Evidence.compare e.validated.values m = .none ↔ Unseen (lik ev) e) := by
    intro e he
    obtain ⟨_, h2, ks, h3, h4⟩ := (hp e he).validated hd
    obtain ⟨hm, hr⟩ := hg.get hd (hp e he).node
    refine ⟨_, hm, ?_⟩
    rw [h4]
    exact compare_none_iff h3 (fun x _ => (Evidence.Proper.canon_range (e := e) x).2) (fun x _ => (hr x).2)
  have hmap : ∃ cs, (es.map Evidence.validated).mapM (fun e => (do
      let stored ← Dict.getItem ev e.node.id
      .ok (Evidence.compare e.values stored) : Py ChangeType)) = .ok cs ∧
      (∀ c ∈ cs, c = .none ∨ c = .retraction) ∧ ((∀ c ∈ cs, c = .none) ↔ ∀ e ∈ es, Unseen (lik ev) e) := by
    clear hg
    induction es with
    | nil => exact ⟨[], rfl, by simp, by simp⟩
    | cons e es ih =>
      obtain ⟨cs, h1, h2, h3⟩ := ih (fun e he => hp e (List.mem_cons_of_mem _ he)) (fun e he => hcmp e (List.mem_cons_of_mem _ he))
      obtain ⟨m, h4, h5⟩ := hcmp e List.mem_cons_self
      refine ⟨Evidence.compare e.validated.values m :: cs, ?_, ?_, ?_⟩
      · rw [List.map_cons, List.mapM_cons, ((hp e List.mem_cons_self).validated hd).2.1, Dict.getItem_of_get? h4, h1]
        rfl
      · intro c hc
        rcases List.mem_cons.1 hc with rfl | hc
        · unfold Evidence.compare
          split
          · simp
          · split
            · split <;> simp
            · simp
        · exact h2 c hc
      · rw [List.forall_mem_cons, List.forall_mem_cons, h3, h5]
  obtain ⟨cs, h1, h2, h3⟩ := hmap
  unfold JoinTree.getChangeType
  rw [h1]
  simp only [bind, Except.bind]
  by_cases hr : ChangeType.retraction ∈ cs
  · rw [if_pos hr]
    refine ⟨_, rfl, ?_⟩
    rw [← h3]
    constructor
    · intro h; cases h
    · intro h; have := h _ hr; cases this
  · rw [if_neg hr, if_neg (by
      intro hu
      rcases h2 _ hu with h | h <;> cases h)]
    refine ⟨_, rfl, ?_⟩
    rw [← h3]
    simp only [true_iff]
    intro c hc
    rcases h2 c hc with h | h
    · exact h
    · exact absurd (h ▸ hc) hr

/-- a batch of proper evidence: no exception, the likelihoods are replaced, and they are propagated unless every piece goes unseen -/
theorem evUpdate_proper (hd : DomsOk vars) {s : EvState} (hg : EvGood vars s.ev) (es : List Evidence) (hp : ∀ e ∈ es, e.Proper vars) :
    (evUpdate s es).2 = none ∧ EvGood vars (evUpdate s es).1.ev ∧
    lik (evUpdate s es).1.ev = es.foldl (fun (ℓ : Liks) (e : Evidence) => ℓ.put e.node e.canon) (lik s.ev) ∧
    ((∀ e ∈ es, Unseen (lik s.ev) e) → (evUpdate s es).1.prop = s.prop) ∧
    (¬ (∀ e ∈ es, Unseen (lik s.ev) e) → (evUpdate s es).1.prop = lik (evUpdate s es).1.ev) := by
  have hval : es.mapM Evidence.validate = .ok (es.map Evidence.validated) :=
    mapM_ok _ _ es (fun e he => ((hp e he).validated hd).1)
  obtain ⟨c, hc, hc'⟩ := changeType_proper hd hg es hp
  obtain ⟨w1, w2, w3⟩ := write_all hd es hg hp
  unfold evUpdate
  simp only [hval, hc, w1]
  refine ⟨trivial, w2, w3, ?_, ?_⟩
  · intro h; rw [if_pos (hc'.2 h)]
  · intro h; rw [if_neg (fun e => h (hc'.1 e))]

/-- replacing likelihoods by the same ones changes nothing -/
theorem put_same {ℓ : Liks} {v : Variable} {c : Str → ℚ} (h : ∀ x ∈ v.values, c x = ℓ v.id x) : ℓ.put v c = ℓ := by
  funext i x
  unfold Liks.put
  split
  · rename_i hi
    rw [hi.1, h x hi.2]
  · rfl

theorem foldl_put_same {ℓ : Liks} : ∀ (es : List Evidence), (∀ e ∈ es, ∀ x ∈ e.node.values, e.canon x = ℓ e.node.id x) →
    es.foldl (fun (ℓ : Liks) (e : Evidence) => ℓ.put e.node e.canon) ℓ = ℓ
  | [], _ => rfl
  | e :: es, h => by
      rw [List.foldl_cons, put_same (h e List.mem_cons_self)]
      exact foldl_put_same es (fun e he => h e (List.mem_cons_of_mem _ he))

theorem unambiguous_put {ℓ : Liks} (hd : DomsOk vars) (h : ∀ v ∈ vars, Unambiguous v.values (ℓ v.id)) {u : Variable} (hu : u ∈ vars)
    {c : Str → ℚ} (hc : Unambiguous u.values c) : ∀ v ∈ vars, Unambiguous v.values ((ℓ.put u c) v.id) := by
  intro v hv
  by_cases e : v.id = u.id
  · have := hd.inj hv hu e
    subst this
    have he : ∀ x ∈ v.values, (ℓ.put v c) v.id x = c x := by
      intro x hx; unfold Liks.put; rw [if_pos ⟨rfl, hx⟩]
    intro a ha h1 h2 b hb hba
    rw [he b hb]
    exact hc a ha (by rw [← he a ha]; exact h1) (fun b hb hba => by rw [← he b hb]; exact h2 b hb hba) b hb hba
  · have he : (ℓ.put u c) v.id = ℓ v.id := by
      funext x; unfold Liks.put; rw [if_neg (fun h => e h.1)]
    rw [he]
    exact h v hv

theorem unambiguous_fold (hd : DomsOk vars) : ∀ (es : List Evidence) {ℓ : Liks},
    (∀ v ∈ vars, Unambiguous v.values (ℓ v.id)) → (∀ e ∈ es, e.Proper vars ∧ Unambiguous e.node.values e.canon) →
    ∀ v ∈ vars, Unambiguous v.values ((es.foldl (fun (ℓ : Liks) (e : Evidence) => ℓ.put e.node e.canon) ℓ) v.id)
  | [], ℓ, h, _ => h
  | e :: es, ℓ, h, hes => by
      rw [List.foldl_cons]
      exact unambiguous_fold hd es (unambiguous_put hd h (hes e List.mem_cons_self).1.node (hes e List.mem_cons_self).2)
        (fun e he => hes e (List.mem_cons_of_mem _ he))

end

end PyBBN
