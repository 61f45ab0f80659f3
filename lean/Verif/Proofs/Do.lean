import Verif.Model.Do
import Verif.Spec.DSep
import Verif.Proofs.Dfs
import Verif.Proofs.GraphInv

/-! `do.py`: paths, triplets, activity. -/

namespace PyBBN
open Relation DSep

/-- the edges of a graph join nodes of the graph -/
def DiG.WF {V : Type} (g : DiG V) : Prop := ∀ e ∈ g.edges, e.1 ∈ g.nodes ∧ e.2 ∈ g.nodes

/-- there is an edge -/
def DiG.E {V : Type} (g : DiG V) (a b : V) : Prop := (a, b) ∈ g.edges

/-- no directed cycle -/
def DiG.Acyclic {V : Type} (g : DiG V) : Prop := ∀ v, ¬ Relation.TransGen g.E v v

/-- no two nodes point at each other, and no node at itself -/
def DiG.NoAnti {V : Type} (g : DiG V) : Prop := ∀ a b, g.E a b → ¬ g.E b a

namespace Do
variable {V : Type} [DecidableEq V] {g : DiG V}

instance (a b : V) : Decidable (g.E a b) := inferInstanceAs (Decidable ((a, b) ∈ g.edges))

theorem mem_successors (x y : V) : y ∈ successors g x ↔ g.E x y := by
  unfold successors DiG.E
  rw [List.mem_map]
  constructor
  · rintro ⟨e, he, rfl⟩
    rw [List.mem_filter, decide_eq_true_eq] at he
    obtain ⟨h1, rfl⟩ := he
    exact h1
  · intro h
    exact ⟨(x, y), List.mem_filter.2 ⟨h, by simp⟩, rfl⟩

theorem mem_descendants (hg : g.WF) {z : V} (hz : z ∈ g.nodes) (v : V) : v ∈ descendants g z ↔ v ≠ z ∧ ReflTransGen g.E z v := by
  have hE : (fun a b => b ∈ successors g a) = g.E := by
    funext a b; exact propext (mem_successors a b)
  have hp := pathExists_iff' (successors g) v g.nodes (by
    intro u _ w hw
    exact (hg _ ((mem_successors u w).1 hw)).2) (g.nodes.length + 1) z hz (Nat.le_succ _)
  rw [hE] at hp
  unfold descendants
  rw [List.mem_filter, Bool.and_eq_true, decide_eq_true_eq, hp]
  constructor
  · rintro ⟨_, h⟩; exact h
  · rintro ⟨h1, h2⟩
    refine ⟨?_, h1, h2⟩
    rcases ReflTransGen.cases_tail h2 with h | ⟨w, _, hw⟩
    · exact absurd h h1
    · exact (hg _ hw).2

theorem mem_neighbors (v c : V) : c ∈ neighbors g v ↔ Adj g.E v c := by
  unfold neighbors
  have key : ∀ (l : List (V × V)) (s : List V), c ∈ l.foldl (fun s e =>
      let s := if e.1 = v then setAdd s e.2 else s
      if e.2 = v then setAdd s e.1 else s) s ↔ c ∈ s ∨ (v, c) ∈ l ∨ (c, v) ∈ l := by
    intro l
    induction l with
    | nil => simp
    | cons e l ih =>
      intro s
      rw [List.foldl_cons, ih]
      obtain ⟨a, b⟩ := e
      simp only [List.mem_cons, Prod.mk.injEq]
      by_cases h1 : a = v <;> by_cases h2 : b = v <;> simp only [h1, h2, if_true, if_false, mem_setAdd] <;>
        (constructor <;> intro h <;> tauto)
  rw [key]
  simp [Adj, DiG.E]

/-! ### simple paths -/

theorem pathsDfs_sound (adj : V → List V) (stop : V) : ∀ (fuel : Nat) (seen : List V) (v : V), v ∈ seen → ∀ p ∈ pathsDfs adj stop fuel seen v,
    ∃ q, p = v :: q ∧ q ≠ [] ∧ p.IsChain (fun a b => b ∈ adj a) ∧ q.Nodup ∧ (∀ u ∈ q, u ∉ seen) ∧ p.getLast? = some stop
  | 0, _, _, _, p, hp => by simp [pathsDfs] at hp
  | fuel + 1, seen, v, hv, p, hp => by
      rw [pathsDfs, List.mem_flatMap] at hp
      obtain ⟨c, hc, hp⟩ := hp
      by_cases h1 : c ∈ seen
      · rw [if_pos h1] at hp; simp at hp
      · rw [if_neg h1] at hp
        by_cases h2 : c = stop
        · rw [if_pos h2, List.mem_singleton] at hp
          subst hp
          refine ⟨[c], rfl, by simp, ?_, by simp, by simpa using h1, by simp [h2]⟩
          simpa using hc
        · rw [if_neg h2, List.mem_map] at hp
          obtain ⟨p', hp', rfl⟩ := hp
          obtain ⟨q, rfl, hq, hch, hnd, hav, hl⟩ := pathsDfs_sound adj stop fuel (c :: seen) c List.mem_cons_self p' hp'
          refine ⟨c :: q, rfl, by simp, ?_, ?_, ?_, ?_⟩
          · exact List.IsChain.cons_cons hc hch
          · rw [List.nodup_cons]
            exact ⟨fun h => hav c h List.mem_cons_self, hnd⟩
          · intro u hu
            rcases List.mem_cons.1 hu with rfl | hu
            · exact h1
            · exact fun h => hav u hu (List.mem_cons_of_mem _ h)
          · rw [List.getLast?_cons_cons]; exact hl

theorem pathsDfs_complete (adj : V → List V) (stop : V) : ∀ (q : List V) (fuel : Nat) (seen : List V) (v : V), q.length ≤ fuel → q ≠ [] →
    (v :: q).IsChain (fun a b => b ∈ adj a) → q.Nodup → (∀ u ∈ q, u ∉ seen) → q.getLast? = some stop →
    v :: q ∈ pathsDfs adj stop fuel seen v
  | [], _, _, _, _, h, _, _, _, _ => absurd rfl h
  | c :: q, 0, _, _, hl, _, _, _, _, _ => by simp at hl
  | c :: q, fuel + 1, seen, v, hl, _, hch, hnd, hav, hst => by
      rw [pathsDfs, List.mem_flatMap]
      rw [List.isChain_cons_cons] at hch
      refine ⟨c, hch.1, ?_⟩
      rw [if_neg (hav c List.mem_cons_self)]
      rw [List.nodup_cons] at hnd
      match q, hl, hch, hnd, hav, hst with
      | [], _, _, _, _, hst =>
        have : c = stop := by simpa using hst
        rw [if_pos this]; simp
      | d :: q, hl, hch, hnd, hav, hst =>
        rw [List.getLast?_cons_cons] at hst
        have hne : c ≠ stop := by
          rintro rfl
          exact hnd.1 (List.mem_of_getLast? hst)
        rw [if_neg hne, List.mem_map]
        refine ⟨c :: d :: q, ?_, rfl⟩
        refine pathsDfs_complete adj stop (d :: q) fuel (c :: seen) c (by simpa using hl) (by simp) hch.2 hnd.2 ?_ hst
        intro u hu hs
        rcases List.mem_cons.1 hs with rfl | hs
        · exact hnd.1 hu
        · exact hav u (List.mem_cons_of_mem _ hu) hs

theorem chain_mem (hg : g.WF) : ∀ (p : List V), p.IsChain (Adj g.E) → 2 ≤ p.length → ∀ v ∈ p, v ∈ g.nodes
  | [], _, h, _, _ => by simp at h
  | [_], _, h, _, _ => by simp at h
  | a :: b :: p, hch, _, v, hv => by
      rw [List.isChain_cons_cons] at hch
      have hab : a ∈ g.nodes ∧ b ∈ g.nodes := by
        rcases hch.1 with h | h
        · exact hg _ h
        · exact (hg _ h).symm
      rcases List.mem_cons.1 hv with rfl | hv
      · exact hab.1
      · match p, hch, hv with
        | [], _, hv => rw [List.mem_singleton] at hv; subst hv; exact hab.2
        | c :: p, hch, hv => exact chain_mem hg (b :: c :: p) hch.2 (by simp) v hv

/-- `get_all_paths` returns exactly the simple paths -/
theorem mem_allPaths (hg : g.WF) {x y : V} (hxy : x ≠ y) (p : List V) : p ∈ allPaths g x y ↔ IsPath g.E x y p := by
  have hadj : (fun a b => b ∈ neighbors g a) = Adj g.E := by
    funext a b; exact propext (mem_neighbors a b)
  unfold allPaths
  constructor
  · intro h
    obtain ⟨q, rfl, h1, h2, h3, h4, h5⟩ := pathsDfs_sound _ _ _ _ _ (List.mem_singleton.2 rfl) p h
    rw [hadj] at h2
    refine ⟨rfl, h5, h2, ?_⟩
    rw [List.nodup_cons]
    exact ⟨fun h => h4 x h (List.mem_singleton.2 rfl), h3⟩
  · rintro ⟨h1, h2, h3, h4⟩
    match p, h1, h2, h3, h4 with
    | [], h1, _, _, _ => simp at h1
    | [a], h1, h2, _, _ =>
      simp at h1 h2
      exact absurd (h1.symm.trans h2) hxy
    | a :: b :: q, h1, h2, h3, h4 =>
      have : a = x := by simpa using h1
      subst this
      rw [List.getLast?_cons_cons] at h2
      rw [List.nodup_cons] at h4
      have hlen : (a :: b :: q).length ≤ g.nodes.length := by
        have hsub : (a :: b :: q) ⊆ g.nodes := chain_mem hg _ h3 (by simp)
        exact (List.subperm_of_subset (by rw [List.nodup_cons]; exact h4) hsub).length_le
      refine pathsDfs_complete _ _ _ _ _ _ ?_ (by simp) (by rw [hadj]; exact h3) h4.2 ?_ h2
      · simp at hlen ⊢; omega
      · intro u hu hs
        rw [List.mem_singleton] at hs
        subst hs
        exact h4.1 hu

/-! ### triplets -/

/-- consecutive triples -/
def trips : List V → List (V × V × V)
  | a :: b :: c :: l => (a, b, c) :: trips (b :: c :: l)
  | _ => []

omit [DecidableEq V] in
theorem windows_eq : ∀ (l : List V), (List.range (l.length - 2)).map (fun i => (l.drop i).take 3) = (trips l).map (fun t => [t.1, t.2.1, t.2.2])
  | [] => rfl
  | [_] => rfl
  | [_, _] => rfl
  | a :: b :: c :: l => by
      have ih := windows_eq (b :: c :: l)
      rw [trips, List.map_cons, ← ih]
      have : (a :: b :: c :: l).length - 2 = ((b :: c :: l).length - 2) + 1 := by simp
      rw [this, List.range_succ_eq_map, List.map_cons, List.map_map]
      rfl

omit [DecidableEq V] in
theorem pathTriplets_eq {p : List V} (h : 3 ≤ p.length) : pathTriplets p = (trips p).map (fun t => [t.1, t.2.1, t.2.2]) := by
  unfold pathTriplets
  rw [if_neg (by omega), windows_eq]

omit [DecidableEq V] in
theorem mem_trips : ∀ (p : List V) (a c b : V), (a, c, b) ∈ trips p ↔ ∃ i, p[i]? = some a ∧ p[i+1]? = some c ∧ p[i+2]? = some b
  | [], a, c, b => by simp [trips]
  | [u], a, c, b => by simp [trips]
  | [u, v], a, c, b => by
      simp only [trips, List.not_mem_nil, false_iff]
      rintro ⟨i, _, _, h⟩
      simp at h
  | u :: v :: w :: l, a, c, b => by
      rw [trips, List.mem_cons, mem_trips (v :: w :: l)]
      constructor
      · rintro (h | ⟨i, h⟩)
        · cases h; exact ⟨0, rfl, rfl, rfl⟩
        · exact ⟨i + 1, by simpa using h⟩
      · rintro ⟨i, h⟩
        cases i with
        | zero => left; simp at h; obtain ⟨rfl, rfl, rfl⟩ := h; rfl
        | succ i => right; exact ⟨i, by simpa using h⟩

omit [DecidableEq V] in
theorem chain_trips {R : V → V → Prop} : ∀ (p : List V), p.IsChain R → ∀ t ∈ trips p, R t.1 t.2.1 ∧ R t.2.1 t.2.2
  | [], _, t, h => by simp [trips] at h
  | [_], _, t, h => by simp [trips] at h
  | [_, _], _, t, h => by simp [trips] at h
  | a :: b :: c :: l, hch, t, h => by
      rw [trips, List.mem_cons] at h
      rw [List.isChain_cons_cons] at hch
      rcases h with rfl | h
      · exact ⟨hch.1, (List.isChain_cons_cons.1 hch.2).1⟩
      · exact chain_trips (b :: c :: l) hch.2 t h

/-- openness in terms of triples -/
theorem open_iff {E : V → V → Prop} {Z : V → Prop} {p : List V} : Open E Z p ↔
    ∀ t ∈ trips p, (E t.1 t.2.1 ∧ E t.2.2 t.2.1 → ∃ d, ReflTransGen E t.2.1 d ∧ Z d) ∧ (¬ (E t.1 t.2.1 ∧ E t.2.2 t.2.1) → ¬ Z t.2.1) := by
  have hcol : ∀ i a c b, p[i]? = some a → p[i+1]? = some c → p[i+2]? = some b → (Collider E p (i+1) ↔ E a c ∧ E b c) := by
    intro i a c b ha hc hb
    unfold Collider
    constructor
    · rintro ⟨a', c', b', h1, h2, h3, h4, h5⟩
      rw [Nat.add_sub_cancel, ha] at h1
      rw [hc] at h2
      rw [hb] at h3
      cases h1; cases h2; cases h3
      exact ⟨h4, h5⟩
    · rintro ⟨h4, h5⟩
      exact ⟨a, c, b, by rw [Nat.add_sub_cancel]; exact ha, hc, hb, h4, h5⟩
  constructor
  · rintro h ⟨a, c, b⟩ ht
    obtain ⟨i, ha, hc, hb⟩ := (mem_trips p a c b).1 ht
    have hlt : i + 2 < p.length := (List.getElem?_eq_some_iff.1 hb).1
    have := h (i + 1) ⟨by omega, by omega⟩ c hc
    rw [hcol i a c b ha hc hb] at this
    exact this
  · intro h i hi c hc
    obtain ⟨i, rfl⟩ : ∃ j, i = j + 1 := ⟨i - 1, by have := hi.1; omega⟩
    have h2 : i + 2 < p.length := hi.2
    have ha : p[i]? = some p[i] := List.getElem?_eq_getElem (by omega)
    have hb : p[i+2]? = some p[i+2] := List.getElem?_eq_getElem h2
    rw [hcol i _ c _ ha hc hb]
    exact h (p[i], c, p[i+2]) ((mem_trips p _ _ _).2 ⟨i, ha, hc, hb⟩)

theorem tripletType_ok (hna : g.NoAnti) {a c b : V} (h1 : Adj g.E a c) (h2 : Adj g.E c b) :
    (g.E a c ∧ g.E b c → tripletType g a c b = .ok .converging) ∧
    (¬ (g.E a c ∧ g.E b c) → tripletType g a c b = .ok .serial ∨ tripletType g a c b = .ok .diverging) := by
  unfold tripletType
  simp only [mem_successors]
  constructor
  · rintro ⟨h3, h4⟩
    have n1 := hna _ _ h3
    have n2 := hna _ _ h4
    rw [if_neg (fun h => n2 h.2), if_neg (fun h => n1 h.2), if_neg (fun h => n1 h.1), if_pos ⟨h3, h4⟩]
  · intro hn
    by_cases s1 : g.E a c ∧ g.E c b
    · rw [if_pos s1]; exact Or.inl rfl
    · rw [if_neg s1]
      by_cases s2 : g.E b c ∧ g.E c a
      · rw [if_pos s2]; exact Or.inl rfl
      · rw [if_neg s2]
        have : g.E c a ∧ g.E c b := by
          rcases h1 with h1 | h1 <;> rcases h2 with h2 | h2 <;> tauto
        rw [if_pos this]; exact Or.inr rfl

/-- one triple of a path is active -/
def tripOpen (g : DiG V) (Z : List V) (t : V × V × V) : Prop :=
  (g.E t.1 t.2.1 ∧ g.E t.2.2 t.2.1 → ∃ d, ReflTransGen g.E t.2.1 d ∧ d ∈ Z) ∧ (¬ (g.E t.1 t.2.1 ∧ g.E t.2.2 t.2.1) → t.2.1 ∉ Z)

theorem isActiveTriplet_ok (hg : g.WF) (hna : g.NoAnti) {a c b : V} (h1 : Adj g.E a c) (h2 : Adj g.E c b) (ev : PyColl V)
    (hev : ev.isSet = true ∨ ¬ (g.E a c ∧ g.E b c)) :
    ∃ r, isActiveTriplet g a c b ev = .ok r ∧ (r = true ↔ tripOpen g ev.elems (a, c, b)) := by
  have hc : c ∈ g.nodes := by
    rcases h1 with h | h
    · exact (hg _ h).2
    · exact (hg _ h).1
  unfold isActiveTriplet tripOpen
  by_cases hcol : g.E a c ∧ g.E b c
  · rw [(tripletType_ok hna h1 h2).1 hcol]
    have hset : ev.isSet = true := hev.resolve_right (fun h => h hcol)
    simp only [hset, if_true]
    refine ⟨_, rfl, ?_⟩
    have : (((setAdd (descendants g c) c).filter (fun d => decide (d ∈ ev.elems))).length > 0) ↔ ∃ d, ReflTransGen g.E c d ∧ d ∈ ev.elems := by
      rw [gt_iff_lt, List.length_pos_iff_exists_mem]
      constructor
      · rintro ⟨d, hd⟩
        rw [List.mem_filter, decide_eq_true_eq, mem_setAdd, mem_descendants hg hc] at hd
        refine ⟨d, ?_, hd.2⟩
        rcases hd.1 with h | h
        · rw [h]
        · exact h.2
      · rintro ⟨d, hd, hz⟩
        refine ⟨d, ?_⟩
        rw [List.mem_filter, decide_eq_true_eq, mem_setAdd, mem_descendants hg hc]
        refine ⟨?_, hz⟩
        by_cases e : d = c
        · exact Or.inl e
        · exact Or.inr ⟨e, hd⟩
    show (if ((setAdd (descendants g c) c).filter (fun d => decide (d ∈ ev.elems))).length > 0 then true else false) = true ↔ _
    by_cases h : ∃ d, ReflTransGen g.E c d ∧ d ∈ ev.elems
    · rw [if_pos (this.2 h)]
      simp only [true_iff]
      exact ⟨fun _ => h, fun h' => absurd hcol h'⟩
    · rw [if_neg (fun h' => h (this.1 h'))]
      simp only [Bool.false_eq_true, false_iff]
      exact fun h' => h (h'.1 hcol)
  · rcases (tripletType_ok hna h1 h2).2 hcol with h | h <;> rw [h] <;> refine ⟨_, rfl, ?_⟩
    · constructor
      · intro h; exact ⟨fun h' => absurd h' hcol, fun _ hm => by simp [hm] at h⟩
      · rintro ⟨_, h⟩; simp [h hcol]
    · constructor
      · intro h; exact ⟨fun h' => absurd h' hcol, fun _ hm => by simp [hm] at h⟩
      · rintro ⟨_, h⟩; simp [h hcol]

theorem activeLoop_ok (hg : g.WF) (hna : g.NoAnti) (ev : PyColl V) : ∀ (ts : List (V × V × V)),
    (∀ t ∈ ts, Adj g.E t.1 t.2.1 ∧ Adj g.E t.2.1 t.2.2) → (ev.isSet = true ∨ ∀ t ∈ ts, ¬ (g.E t.1 t.2.1 ∧ g.E t.2.2 t.2.1)) →
    ∃ r, activeLoop g ev (ts.map (fun t => [t.1, t.2.1, t.2.2])) = .ok r ∧ (r = true ↔ ∀ t ∈ ts, tripOpen g ev.elems t)
  | [], _, _ => ⟨true, rfl, by simp⟩
  | (a, c, b) :: ts, hadj, hev => by
      have h0 := hadj (a, c, b) List.mem_cons_self
      obtain ⟨r, h1, h2⟩ := isActiveTriplet_ok hg hna h0.1 h0.2 ev (hev.imp id (fun h => h (a, c, b) List.mem_cons_self))
      obtain ⟨r', h3, h4⟩ := activeLoop_ok hg hna ev ts (fun t ht => hadj t (List.mem_cons_of_mem _ ht))
        (hev.imp id (fun h t ht => h t (List.mem_cons_of_mem _ ht)))
      rw [List.map_cons, activeLoop, h1]
      cases r with
      | false =>
        refine ⟨false, rfl, ?_⟩
        simp only [Bool.false_eq_true, false_iff]
        intro h
        have := h2.2 (h _ List.mem_cons_self)
        simp at this
      | true =>
        refine ⟨r', h3, ?_⟩
        rw [h4, List.forall_mem_cons]
        simp [h2.1 rfl]

/-- `is_active_path` on a path with an interior node -/
theorem isActivePath_ok (hg : g.WF) (hna : g.NoAnti) {p : List V} (h3 : 3 ≤ p.length) (hch : p.IsChain (Adj g.E)) (ev : PyColl V)
    (hev : ev.isSet = true ∨ ∀ t ∈ trips p, ¬ (g.E t.1 t.2.1 ∧ g.E t.2.2 t.2.1)) :
    ∃ r, isActivePath g p ev = .ok r ∧ (r = true ↔ Open g.E (· ∈ ev.elems) p) := by
  unfold isActivePath
  rw [if_neg (by omega), pathTriplets_eq h3]
  obtain ⟨r, h1, h2⟩ := activeLoop_ok hg hna ev (trips p) (chain_trips p hch) hev
  refine ⟨r, h1, ?_⟩
  rw [h2, open_iff]
  rfl

theorem colliderLoop_ok (hna : g.NoAnti) : ∀ (ts : List (V × V × V)), (∀ t ∈ ts, Adj g.E t.1 t.2.1 ∧ Adj g.E t.2.1 t.2.2) →
    colliderLoop g (ts.map (fun t => [t.1, t.2.1, t.2.2])) =
      .ok ((ts.filter (fun t => decide (g.E t.1 t.2.1 ∧ g.E t.2.2 t.2.1))).map (fun t => t.2.1))
  | [], _ => rfl
  | (a, c, b) :: ts, hadj => by
      have h0 := hadj (a, c, b) List.mem_cons_self
      rw [List.map_cons, colliderLoop, colliderLoop_ok hna ts (fun t ht => hadj t (List.mem_cons_of_mem _ ht))]
      by_cases hcol : g.E a c ∧ g.E b c
      · rw [(tripletType_ok hna h0.1 h0.2).1 hcol, List.filter_cons_of_pos (by simpa using hcol)]
        rfl
      · rw [List.filter_cons_of_neg (by simpa using hcol)]
        rcases (tripletType_ok hna h0.1 h0.2).2 hcol with h | h <;> rw [h] <;> rfl

/-- `get_colliders` returns the colliders of a path, in order -/
theorem colliders_ok (hna : g.NoAnti) {p : List V} (hch : p.IsChain (Adj g.E)) :
    colliders g p = .ok (((trips p).filter (fun t => decide (g.E t.1 t.2.1 ∧ g.E t.2.2 t.2.1))).map (fun t => t.2.1)) := by
  unfold colliders
  by_cases h : p.length < 3
  · rw [if_pos h]
    match p, h with
    | [], _ => rfl
    | [_], _ => rfl
    | [_, _], _ => rfl
    | _ :: _ :: _ :: _, h => simp at h; omega
  · rw [if_neg h, pathTriplets_eq (by omega)]
    exact colliderLoop_ok hna _ (chain_trips p hch)

/-! ### path metadata -/

theorem mem_foldl_setAdd : ∀ (l s : List V) (n : V), n ∈ l.foldl setAdd s ↔ n ∈ s ∨ n ∈ l
  | [], s, n => by simp
  | a :: l, s, n => by
      rw [List.foldl_cons, mem_foldl_setAdd l, mem_setAdd, List.mem_cons]; tauto

theorem nodup_foldl_setAdd : ∀ (l s : List V), s.Nodup → (l.foldl setAdd s).Nodup
  | [], _, h => h
  | a :: l, s, h => nodup_foldl_setAdd l _ (nodup_setAdd h a)

omit [DecidableEq V] in
theorem colliderOn_iff {E : V → V → Prop} {p : List V} {n : V} :
    ColliderOn E p n ↔ ∃ t ∈ trips p, t.2.1 = n ∧ E t.1 t.2.1 ∧ E t.2.2 t.2.1 := by
  constructor
  · rintro ⟨i, ⟨a, c, b, h1, h2, h3, h4, h5⟩, hn, hi⟩
    obtain ⟨i, rfl⟩ : ∃ j, i = j + 1 := ⟨i - 1, by omega⟩
    have hcn : c = n := Option.some.inj (h2.symm.trans hn)
    subst hcn
    exact ⟨(a, c, b), (mem_trips p a c b).2 ⟨i, by simpa using h1, h2, h3⟩, rfl, h4, h5⟩
  · rintro ⟨⟨a, c, b⟩, ht, rfl, h4, h5⟩
    obtain ⟨i, h1, h2, h3⟩ := (mem_trips p a c b).1 ht
    exact ⟨i + 1, ⟨a, c, b, by simpa using h1, h2, h3, h4, h5⟩, h2, by omega⟩

/-- without evidence a path is open exactly when it has no collider -/
theorem open_none {E : V → V → Prop} {p : List V} : Open E DSep.none p ↔ ∀ n, ¬ ColliderOn E p n := by
  rw [open_iff]
  constructor
  · intro h n hn
    obtain ⟨t, ht, _, h4, h5⟩ := colliderOn_iff.1 hn
    obtain ⟨_, _, h⟩ := (h t ht).1 ⟨h4, h5⟩
    exact h
  · intro h t ht
    exact ⟨fun hc => absurd (colliderOn_iff.2 ⟨t, ht, rfl, hc.1, hc.2⟩) (h _), fun _ hz => hz⟩

/-- what `get_paths` says about a path -/
structure MetaOk (g : DiG V) (x y : V) (m : PathMeta V) : Prop where
  isPath : IsPath g.E x y m.path
  active : m.isActive = true ↔ Open g.E DSep.none m.path
  colliders : ∀ n, n ∈ m.colliders ↔ ColliderOn g.E m.path n
  backdoor : m.backdoor = true ↔ Backdoor g.E m.path
  frontdoor : m.frontdoor = true ↔ Frontdoor g.E m.path
  z : ∀ n, n ∈ m.z ↔ n ∈ m.path ∧ n ≠ x ∧ n ≠ y ∧ ¬ ColliderOn g.E m.path n

omit [DecidableEq V] in
theorem path_cons {E : V → V → Prop} {x y : V} {p : List V} (h : IsPath E x y p) (hxy : x ≠ y) : ∃ b l, p = x :: b :: l := by
  match p, h.start, h.stop with
  | [], h1, _ => simp at h1
  | [a], h1, h2 =>
    simp at h1 h2
    exact absurd (h1.symm.trans h2) hxy
  | a :: b :: l, h1, _ =>
    have : a = x := by simpa using h1
    exact ⟨b, l, by rw [this]⟩

theorem isActive_none (hg : g.WF) (hna : g.NoAnti) {x y : V} (hxy : x ≠ y) {p : List V} (hp : IsPath g.E x y p) :
    ∃ r, isActivePath g p ⟨true, []⟩ = .ok r ∧ (r = true ↔ Open g.E DSep.none p) := by
  by_cases h3 : 3 ≤ p.length
  · obtain ⟨r, h1, h2⟩ := isActivePath_ok hg hna h3 hp.chain ⟨true, []⟩ (Or.inl rfl)
    refine ⟨r, h1, ?_⟩
    rw [h2]
    have : (fun n => n ∈ ([] : List V)) = DSep.none := by funext n; simp [DSep.none]
    rw [← this]
  · obtain ⟨b, l, rfl⟩ := path_cons hp hxy
    have : l = [] := by
      cases l with
      | nil => rfl
      | cons a l => exfalso; simp at h3
    subst this
    refine ⟨true, by simp [isActivePath], ?_⟩
    simp only [true_iff]
    intro i hi
    have := hi.1; have := hi.2
    simp at this
    omega

theorem pathMetadata_ok (it : SetIter V) (hg : g.WF) (hna : g.NoAnti) {x y : V} (hxy : x ≠ y) {p : List V} (hp : IsPath g.E x y p) :
    ∃ m, pathMetadata it g x y p = .ok m ∧ m.path = p ∧ MetaOk g x y m := by
  obtain ⟨r, hr, hract⟩ := isActive_none hg hna hxy hp
  obtain ⟨b, l, rfl⟩ := path_cons hp hxy
  unfold pathMetadata
  rw [colliders_ok hna hp.chain, hr]
  have hcol : ∀ n, n ∈ ((trips (x :: b :: l)).filter (fun t => decide (g.E t.1 t.2.1 ∧ g.E t.2.2 t.2.1))).map (fun t => t.2.1) ↔
      ColliderOn g.E (x :: b :: l) n := by
    intro n
    rw [colliderOn_iff, List.mem_map]
    constructor
    · rintro ⟨t, ht, rfl⟩
      rw [List.mem_filter, decide_eq_true_eq] at ht
      exact ⟨t, ht.1, rfl, ht.2⟩
    · rintro ⟨t, ht, rfl, h⟩
      exact ⟨t, List.mem_filter.2 ⟨ht, by simpa using h⟩, rfl⟩
  refine ⟨_, rfl, rfl, hp, hract, hcol, ?_, ?_, ?_⟩
  · show hasEdge g b x = true ↔ _
    unfold hasEdge
    rw [decide_eq_true_eq]
    constructor
    · intro h; exact ⟨x, b, l, rfl, h⟩
    · rintro ⟨a, c, q, he, h⟩
      cases he; exact h
  · show hasEdge g x b = true ↔ _
    unfold hasEdge
    rw [decide_eq_true_eq]
    constructor
    · intro h; exact ⟨x, b, l, rfl, h⟩
    · rintro ⟨a, c, q, he, h⟩
      cases he; exact h
  · intro n
    show n ∈ it.iter 0 x _ ↔ _
    rw [(it.perm _ _ _).mem_iff, List.mem_filter, decide_eq_true_eq, mem_foldl_setAdd, hcol]
    simp

theorem getPaths_inj (it : SetIter V) (hg : g.WF) (hna : g.NoAnti) {x y : V} (hxy : x ≠ y) :
    ∃ ms, getPaths it g x y = .ok ms ∧ (∀ m ∈ ms, MetaOk g x y m) ∧ (∀ p, IsPath g.E x y p → ∃ m ∈ ms, m.path = p) ∧
      ∀ m ∈ ms, ∀ k ∈ ms, m.path = k.path → m = k := by
  unfold getPaths
  have key : ∀ l : List (List V), (∀ p ∈ l, IsPath g.E x y p) →
      ∃ ms, l.mapM (pathMetadata it g x y) = .ok ms ∧ (∀ m ∈ ms, MetaOk g x y m) ∧ (∀ p ∈ l, ∃ m ∈ ms, m.path = p) ∧
        ∀ m ∈ ms, pathMetadata it g x y m.path = .ok m := by
    intro l
    induction l with
    | nil => intro _; exact ⟨[], rfl, by simp, by simp, by simp⟩
    | cons p l ih =>
      intro h
      obtain ⟨ms, h1, h2, h3, h7⟩ := ih (fun q hq => h q (List.mem_cons_of_mem _ hq))
      obtain ⟨m, h4, h5, h6⟩ := pathMetadata_ok it hg hna hxy (h p List.mem_cons_self)
      refine ⟨m :: ms, by rw [List.mapM_cons, h4, h1]; rfl, ?_, ?_, ?_⟩
      · intro k hk
        rcases List.mem_cons.1 hk with rfl | hk
        · exact h6
        · exact h2 k hk
      · intro q hq
        rcases List.mem_cons.1 hq with rfl | hq
        · exact ⟨m, List.mem_cons_self, h5⟩
        · obtain ⟨k, hk, e⟩ := h3 q hq
          exact ⟨k, List.mem_cons_of_mem _ hk, e⟩
      · intro k hk
        rcases List.mem_cons.1 hk with rfl | hk
        · rw [h5, h4]
        · exact h7 k hk
  obtain ⟨ms, h1, h2, h3, h4⟩ := key _ (fun p hp => (mem_allPaths hg hxy p).1 hp)
  refine ⟨ms, h1, h2, fun p hp => h3 p ((mem_allPaths hg hxy p).2 hp), ?_⟩
  intro m hm k hk e
  have h5 := h4 m hm
  rw [e, h4 k hk] at h5
  exact (Except.ok.inj h5).symm

theorem getPaths_ok (it : SetIter V) (hg : g.WF) (hna : g.NoAnti) {x y : V} (hxy : x ≠ y) :
    ∃ ms, getPaths it g x y = .ok ms ∧ (∀ m ∈ ms, MetaOk g x y m) ∧ ∀ p, IsPath g.E x y p → ∃ m ∈ ms, m.path = p := by
  obtain ⟨ms, h1, h2, h3, _⟩ := getPaths_inj it hg hna hxy
  exact ⟨ms, h1, h2, h3⟩

/-! ### confounders and mediators -/

omit [DecidableEq V] in
/-- an interior node sits in the middle of a triple -/
theorem trip_of_interior {E : V → V → Prop} {x y : V} {p : List V} (hp : IsPath E x y p) {n : V} (hn : n ∈ p) (hx : n ≠ x) (hy : n ≠ y) :
    ∃ t ∈ trips p, t.2.1 = n := by
  obtain ⟨i, hi, rfl⟩ := List.getElem_of_mem hn
  have h0 : i ≠ 0 := by
    rintro rfl
    have := hp.start
    rw [List.head?_eq_getElem?, List.getElem?_eq_getElem hi] at this
    exact hx (Option.some.inj this)
  have hl : i ≠ p.length - 1 := by
    rintro rfl
    have := hp.stop
    rw [List.getLast?_eq_getElem?, List.getElem?_eq_getElem hi] at this
    exact hy (Option.some.inj this)
  obtain ⟨j, rfl⟩ : ∃ j, i = j + 1 := ⟨i - 1, by omega⟩
  refine ⟨(p[j], p[j+1], p[j+2]'(by omega)), (mem_trips p _ _ _).2 ⟨j, ?_, ?_, ?_⟩, rfl⟩ <;> exact List.getElem?_eq_getElem _

/-- one interior node of a path without colliders blocks it -/
theorem blocked_by {E : V → V → Prop} {x y : V} {p : List V} (hp : IsPath E x y p) (ha : Open E DSep.none p) {n : V} (hn : n ∈ p)
    (hx : n ≠ x) (hy : n ≠ y) {Z : V → Prop} (hZ : Z n) : ¬ Open E Z p := by
  intro ho
  obtain ⟨t, ht, rfl⟩ := trip_of_interior hp hn hx hy
  have h1 := (open_iff.1 ho t ht).2
  refine h1 ?_ hZ
  rintro ⟨h4, h5⟩
  exact open_none.1 ha _ (colliderOn_iff.2 ⟨t, ht, rfl, h4, h5⟩)

theorem isActive_list (hg : g.WF) (hna : g.NoAnti) {x y : V} {p : List V} (hp : IsPath g.E x y p) (ha : Open g.E DSep.none p) {n : V}
    (hn : n ∈ p) (hx : n ≠ x) (hy : n ≠ y) : isActivePath g p ⟨false, [n]⟩ = .ok false := by
  have h3 : 3 ≤ p.length := by
    obtain ⟨t, ht, _⟩ := trip_of_interior hp hn hx hy
    obtain ⟨i, _, _, h⟩ := (mem_trips p t.1 t.2.1 t.2.2).1 ht
    have := (List.getElem?_eq_some_iff.1 h).1
    omega
  obtain ⟨r, h1, h2⟩ := isActivePath_ok hg hna h3 hp.chain ⟨false, [n]⟩ (Or.inr (by
    intro t ht hc
    exact open_none.1 ha _ (colliderOn_iff.2 ⟨t, ht, rfl, hc.1, hc.2⟩)))
  rw [h1]
  cases r with
  | false => rfl
  | true => exact absurd (h2.1 rfl) (blocked_by hp ha hn hx hy (by simp))

theorem keepLoop_ok (hg : g.WF) (hna : g.NoAnti) {x y : V} {p : List V} (hp : IsPath g.E x y p) (ha : Open g.E DSep.none p) {z : List V}
    (hz : ∀ n ∈ z, n ∈ p ∧ n ≠ x ∧ n ≠ y) : keepLoop g p z [] = .ok (z.head?.toList) := by
  cases z with
  | nil => rfl
  | cons c cs =>
    obtain ⟨h1, h2, h3⟩ := hz c List.mem_cons_self
    unfold keepLoop
    rw [show ([] : List V) ++ [c] = [c] from rfl, isActive_list hg hna hp ha h1 h2 h3]
    rfl

/-- the interior of a path with at least three nodes is not empty -/
theorem interior_exists {E : V → V → Prop} {x y : V} {p : List V} (hp : IsPath E x y p) (h3 : 3 ≤ p.length) :
    ∃ n ∈ p, n ≠ x ∧ n ≠ y := by
  match p, hp, h3 with
  | a :: b :: c :: l, hp, _ =>
    have hx : a = x := by simpa using hp.start
    have hn := hp.simple
    refine ⟨b, by simp, ?_, ?_⟩
    · rintro rfl; rw [hx] at hn; simp at hn
    · rintro rfl
      have hs := hp.stop
      rw [List.getLast?_cons_cons, List.getLast?_cons_cons] at hs
      have := List.mem_of_getLast? hs
      rw [List.nodup_cons, List.nodup_cons] at hn
      exact hn.2.1 this

/-- what `get_minimal_confounders` returns: one inner node of every open backdoor path that has one -/
theorem minimalConfounders_choice (it : SetIter V) (hg : g.WF) (hna : g.NoAnti) {x y : V} (hxy : x ≠ y) :
    ∃ r, minimalConfounders it g x y = .ok r ∧ r.Nodup ∧
      ∃ c : List V → V, (∀ p, IsPath g.E x y p → Backdoor g.E p → Open g.E DSep.none p → 3 ≤ p.length → c p ∈ p ∧ c p ≠ x ∧ c p ≠ y) ∧
        ∀ n, n ∈ r ↔ ∃ p, IsPath g.E x y p ∧ Backdoor g.E p ∧ Open g.E DSep.none p ∧ 3 ≤ p.length ∧ c p = n := by
  obtain ⟨ms, h1, h2, h3, hinj⟩ := getPaths_inj it hg hna hxy
  set act := ms.filter (fun p => p.isActive && p.backdoor) with hact
  have hmem : ∀ m ∈ act, m ∈ ms ∧ Open g.E DSep.none m.path ∧ Backdoor g.E m.path := by
    intro m hm
    rw [hact, List.mem_filter, Bool.and_eq_true] at hm
    exact ⟨hm.1, (h2 m hm.1).active.1 hm.2.1, (h2 m hm.1).backdoor.1 hm.2.2⟩
  have hmap : act.mapM (fun p => findMinimalConfounders g p.path p.z) = .ok (act.map (fun m => m.z.head?.toList)) := by
    have : ∀ l : List (PathMeta V), (∀ m ∈ l, m ∈ act) → l.mapM (fun p => findMinimalConfounders g p.path p.z) =
        .ok (l.map (fun m => m.z.head?.toList)) := by
      intro l
      induction l with
      | nil => intro _; rfl
      | cons m l ih =>
        intro h
        obtain ⟨k1, k2, k3⟩ := hmem m (h m List.mem_cons_self)
        rw [List.mapM_cons, ih (fun q hq => h q (List.mem_cons_of_mem _ hq)), findMinimalConfounders,
          keepLoop_ok hg hna (h2 m k1).isPath k2 (fun n hn => by
            have := ((h2 m k1).z n).1 hn
            exact ⟨this.1, this.2.1, this.2.2.1⟩)]
        rfl
    exact this act (fun _ h => h)
  unfold minimalConfounders
  rw [h1]
  show ∃ r, (act.mapM (fun p => findMinimalConfounders g p.path p.z) >>= _) = Except.ok r ∧ _
  rw [hmap]
  have hr : ∀ n, n ∈ it.iter 1 x (((act.map (fun m => m.z.head?.toList)).flatten).foldl setAdd []) ↔ ∃ m ∈ act, m.z.head? = some n := by
    intro n
    rw [(it.perm _ _ _).mem_iff, mem_foldl_setAdd]
    simp
  have hlen : ∀ m ∈ act, ∀ n, m.z.head? = some n → 3 ≤ m.path.length := by
    intro m hm n hh
    have hz := ((h2 m (hmem m hm).1).z n).1 (List.mem_of_mem_head? hh)
    obtain ⟨t, ht, _⟩ := trip_of_interior (h2 m (hmem m hm).1).isPath hz.1 hz.2.1 hz.2.2.1
    obtain ⟨i, _, _, h⟩ := (mem_trips m.path t.1 t.2.1 t.2.2).1 ht
    have := (List.getElem?_eq_some_iff.1 h).1
    omega
  have hpath : ∀ p, IsPath g.E x y p → Backdoor g.E p → Open g.E DSep.none p → 3 ≤ p.length → ∃ m ∈ act, m.path = p ∧ ∃ n, m.z.head? = some n := by
    intro p hp hb ho hlen
    obtain ⟨m, hm, rfl⟩ := h3 p hp
    have hma : m ∈ act := by
      rw [hact, List.mem_filter, Bool.and_eq_true]
      exact ⟨hm, (h2 m hm).active.2 ho, (h2 m hm).backdoor.2 hb⟩
    obtain ⟨k, hk1, hk2, hk3⟩ := interior_exists hp hlen
    have hkz : k ∈ m.z := ((h2 m hm).z k).2 ⟨hk1, hk2, hk3, open_none.1 ho k⟩
    refine ⟨m, hma, rfl, ?_⟩
    cases hz : m.z with
    | nil => rw [hz] at hkz; simp at hkz
    | cons n z => exact ⟨n, rfl⟩
  classical
  let c : List V → V := fun p => if h : ∃ n, ∃ m ∈ act, m.path = p ∧ m.z.head? = some n then h.choose else x
  have hc : ∀ m ∈ act, ∀ n, m.z.head? = some n → c m.path = n := by
    intro m hm n hh
    have hex : ∃ n, ∃ k ∈ act, k.path = m.path ∧ k.z.head? = some n := ⟨n, m, hm, rfl, hh⟩
    have : c m.path = hex.choose := dif_pos hex
    rw [this]
    obtain ⟨k, hk, e, hk'⟩ := hex.choose_spec
    have := hinj k (hmem k hk).1 m (hmem m hm).1 e
    rw [this, hh] at hk'
    exact (Option.some.inj hk').symm
  refine ⟨_, rfl, ?_, c, ?_, ?_⟩
  · exact ((it.perm _ _ _).nodup_iff).2 (nodup_foldl_setAdd _ _ List.nodup_nil)
  · intro p hp hb ho h3'
    obtain ⟨m, hm, rfl, n, hn⟩ := hpath p hp hb ho h3'
    rw [hc m hm n hn]
    have := ((h2 m (hmem m hm).1).z n).1 (List.mem_of_mem_head? hn)
    exact ⟨this.1, this.2.1, this.2.2.1⟩
  · intro n
    rw [hr n]
    constructor
    · rintro ⟨m, hm, hn⟩
      obtain ⟨k1, k2, k3⟩ := hmem m hm
      exact ⟨m.path, (h2 m k1).isPath, k3, k2, hlen m hm n hn, hc m hm n hn⟩
    · rintro ⟨p, hp, hb, ho, h3', rfl⟩
      obtain ⟨m, hm, rfl, n, hn⟩ := hpath p hp hb ho h3'
      exact ⟨m, hm, by rw [hn, hc m hm n hn]⟩

theorem minimalConfounders_ok (it : SetIter V) (hg : g.WF) (hna : g.NoAnti) {x y : V} (hxy : x ≠ y) :
    ∃ r, minimalConfounders it g x y = .ok r ∧ r.Nodup ∧
      (∀ n ∈ r, n ≠ x ∧ n ≠ y ∧ ∃ p, IsPath g.E x y p ∧ Backdoor g.E p ∧ Open g.E DSep.none p ∧ n ∈ p) ∧
      ∀ p, IsPath g.E x y p → Backdoor g.E p → Open g.E DSep.none p → 3 ≤ p.length → ∃ n ∈ r, n ∈ p ∧ n ≠ x ∧ n ≠ y := by
  obtain ⟨r, h1, h2, c, h3, h4⟩ := minimalConfounders_choice it hg hna hxy
  refine ⟨r, h1, h2, ?_, ?_⟩
  · intro n hn
    obtain ⟨p, hp, hb, ho, hl, rfl⟩ := (h4 n).1 hn
    have := h3 p hp hb ho hl
    exact ⟨this.2.1, this.2.2, p, hp, hb, ho, this.1⟩
  · intro p hp hb ho hl
    exact ⟨c p, (h4 _).2 ⟨p, hp, hb, ho, hl, rfl⟩, h3 p hp hb ho hl⟩

theorem allConfounders_ok (it : SetIter V) (hg : g.WF) (hna : g.NoAnti) {x y : V} (hxy : x ≠ y) (hx : x ∈ g.nodes) :
    ∃ r, allConfounders it g x y = .ok r ∧ r.Nodup ∧ ∀ n, n ∈ r ↔
      (∃ p, IsPath g.E x y p ∧ Backdoor g.E p ∧ Open g.E DSep.none p ∧ n ∈ p) ∧ n ≠ y ∧ ¬ ReflTransGen g.E x n ∧
      ∀ p, IsPath g.E x y p → Backdoor g.E p → ¬ Open g.E DSep.none p → ¬ ColliderOn g.E p n := by
  obtain ⟨ms, h1, h2, h3⟩ := getPaths_ok it hg hna hxy
  unfold allConfounders
  rw [h1]
  refine ⟨_, rfl, nodup_foldl_setAdd _ _ List.nodup_nil, ?_⟩
  intro n
  rw [mem_foldl_setAdd]
  simp only [List.not_mem_nil, false_or, List.mem_flatMap, List.mem_filter, Bool.and_eq_true, Bool.not_eq_true', decide_eq_true_eq]
  rw [mem_descendants hg hx]
  constructor
  · rintro ⟨m, ⟨hm, ha, hb⟩, hnp, hcol, hd, hnx, hny⟩
    refine ⟨⟨m.path, (h2 m hm).isPath, (h2 m hm).backdoor.1 hb, (h2 m hm).active.1 ha, hnp⟩, hny, fun h => hd ⟨hnx, h⟩, ?_⟩
    intro p hp hbp hop hc
    obtain ⟨k, hk, rfl⟩ := h3 p hp
    apply hcol
    refine ⟨k, ⟨hk, ?_, (h2 k hk).backdoor.2 hbp⟩, ((h2 k hk).colliders n).2 hc⟩
    cases hka : k.isActive with
    | false => rfl
    | true => exact absurd ((h2 k hk).active.1 hka) hop
  · rintro ⟨⟨p, hp, hb, ho, hn⟩, hny, hd, hcol⟩
    obtain ⟨m, hm, rfl⟩ := h3 p hp
    refine ⟨m, ⟨hm, (h2 m hm).active.2 ho, (h2 m hm).backdoor.2 hb⟩, hn, ?_, fun h => hd h.2, fun e => hd (e ▸ ReflTransGen.refl), hny⟩
    rintro ⟨k, ⟨hk, ha, hb⟩, hc⟩
    refine hcol k.path (h2 k hk).isPath ((h2 k hk).backdoor.1 hb) (fun h => ?_) (((h2 k hk).colliders n).1 hc)
    rw [(h2 k hk).active.2 h] at ha
    cases ha

/-- a path that starts forward and has no collider is directed -/
theorem directed_of_open {E : V → V → Prop} : ∀ (p : List V), p.IsChain (Adj E) → Frontdoor E p → Open E DSep.none p → p.IsChain E
  | [], _, _, _ => List.IsChain.nil
  | [a], _, _, _ => List.IsChain.singleton a
  | [a, b], _, hf, _ => by
      obtain ⟨_, _, _, he, h⟩ := hf
      cases he
      exact List.isChain_cons_cons.2 ⟨h, List.IsChain.singleton b⟩
  | a :: b :: c :: l, hch, hf, ho => by
      obtain ⟨_, _, _, he, h⟩ := hf
      cases he
      rw [List.isChain_cons_cons] at hch
      have hbc : E b c := by
        rcases (List.isChain_cons_cons.1 hch.2).1 with h' | h'
        · exact h'
        · exact absurd (colliderOn_iff.2 ⟨(a, b, c), by simp [trips], rfl, h, h'⟩) (open_none.1 ho b)
      refine List.isChain_cons_cons.2 ⟨h, directed_of_open (b :: c :: l) hch.2 ⟨b, c, l, rfl, hbc⟩ ?_⟩
      rw [open_none]
      intro n hn
      obtain ⟨t, ht, h1, h2, h3⟩ := colliderOn_iff.1 hn
      exact open_none.1 ho n (colliderOn_iff.2 ⟨t, by simp only [trips]; exact List.mem_cons_of_mem _ ht, h1, h2, h3⟩)

omit [DecidableEq V] in
theorem directed_reach {E : V → V → Prop} : ∀ (p : List V) (a y : V), (a :: p).IsChain E → (a :: p).getLast? = some y → ∀ n ∈ p,
    TransGen E a n ∧ ReflTransGen E n y
  | [], _, _, _, _, n, hn => by simp at hn
  | b :: p, a, y, hch, hl, n, hn => by
      rw [List.isChain_cons_cons] at hch
      rw [List.getLast?_cons_cons] at hl
      rcases List.mem_cons.1 hn with rfl | hn
      · refine ⟨TransGen.single hch.1, ?_⟩
        cases p with
        | nil => simp at hl; rw [hl]
        | cons c p =>
          have hy : y ∈ c :: p := by
            rw [List.getLast?_cons_cons] at hl; exact List.mem_of_getLast? hl
          exact (directed_reach (c :: p) n y hch.2 hl y hy).1.to_reflTransGen
      · have := directed_reach p b y hch.2 hl n hn
        exact ⟨TransGen.head hch.1 this.1, this.2⟩

/-- what `get_minimal_mediators` returns: one inner node of every directed path that has one, except for colliders of any path -/
theorem minimalMediators_choice (it : SetIter V) (hg : g.WF) (hna : g.NoAnti) {x y : V} (hxy : x ≠ y) :
    ∃ r, minimalMediators it g x y = .ok r ∧ r.Nodup ∧
      ∃ c : List V → V, (∀ p, IsPath g.E x y p → p.IsChain g.E → 3 ≤ p.length → c p ∈ p ∧ c p ≠ x ∧ c p ≠ y) ∧
        ∀ n, n ∈ r ↔ (∃ p, IsPath g.E x y p ∧ p.IsChain g.E ∧ 3 ≤ p.length ∧ c p = n) ∧ ∀ p, IsPath g.E x y p → ¬ ColliderOn g.E p n := by
  obtain ⟨ms, h1, h2, h3, hinj⟩ := getPaths_inj it hg hna hxy
  set act := ms.filter (fun p => p.isActive && p.frontdoor) with hact
  have hmem : ∀ m ∈ act, m ∈ ms ∧ Open g.E DSep.none m.path ∧ Frontdoor g.E m.path := by
    intro m hm
    rw [hact, List.mem_filter, Bool.and_eq_true] at hm
    exact ⟨hm.1, (h2 m hm.1).active.1 hm.2.1, (h2 m hm.1).frontdoor.1 hm.2.2⟩
  -- the candidates on a path, in iteration order
  let cand : PathMeta V → List V := fun m => it.iter 2 x ((m.path.foldl setAdd []).filter (fun n => decide (n ≠ x ∧ n ≠ y ∧
    n ∉ ((trips m.path).filter (fun t => decide (g.E t.1 t.2.1 ∧ g.E t.2.2 t.2.1))).map (fun t => t.2.1))))
  have hcand : ∀ m ∈ act, ∀ n, n ∈ cand m ↔ n ∈ m.path ∧ n ≠ x ∧ n ≠ y := by
    intro m hm n
    obtain ⟨k1, k2, k3⟩ := hmem m hm
    show n ∈ it.iter 2 x _ ↔ _
    rw [(it.perm _ _ _).mem_iff, List.mem_filter, decide_eq_true_eq, mem_foldl_setAdd]
    constructor
    · rintro ⟨h, h4, h5, _⟩
      exact ⟨by simpa using h, h4, h5⟩
    · rintro ⟨h, h4, h5⟩
      refine ⟨Or.inr h, h4, h5, ?_⟩
      intro hc
      obtain ⟨t, ht, rfl⟩ := List.mem_map.1 hc
      rw [List.mem_filter, decide_eq_true_eq] at ht
      exact open_none.1 k2 _ (colliderOn_iff.2 ⟨t, ht.1, rfl, ht.2.1, ht.2.2⟩)
  have hmap : act.mapM (fun p => findMinimalMediator it g p.path x y) = .ok (act.map (fun m => (cand m).head?.toList)) := by
    have : ∀ l : List (PathMeta V), (∀ m ∈ l, m ∈ act) → l.mapM (fun p => findMinimalMediator it g p.path x y) =
        .ok (l.map (fun m => (cand m).head?.toList)) := by
      intro l
      induction l with
      | nil => intro _; rfl
      | cons m l ih =>
        intro h
        obtain ⟨k1, k2, k3⟩ := hmem m (h m List.mem_cons_self)
        have : findMinimalMediator it g m.path x y = .ok ((cand m).head?.toList) := by
          unfold findMinimalMediator
          rw [colliders_ok hna (h2 m k1).isPath.chain]
          exact keepLoop_ok hg hna (h2 m k1).isPath k2 (fun n hn => (hcand m (h m List.mem_cons_self) n).1 hn)
        rw [List.mapM_cons, ih (fun q hq => h q (List.mem_cons_of_mem _ hq)), this]
        rfl
    exact this act (fun _ h => h)
  unfold minimalMediators
  rw [h1]
  show ∃ r, (act.mapM (fun p => findMinimalMediator it g p.path x y) >>= _) = Except.ok r ∧ _
  rw [hmap]
  have hr : ∀ n, n ∈ it.iter 3 x ((((act.map (fun m => (cand m).head?.toList)).flatten).foldl setAdd []).filter
      (fun n => decide (n ∉ ms.flatMap PathMeta.colliders))) ↔
      (∃ m ∈ act, (cand m).head? = some n) ∧ ∀ p, IsPath g.E x y p → ¬ ColliderOn g.E p n := by
    intro n
    rw [(it.perm _ _ _).mem_iff, List.mem_filter, mem_foldl_setAdd, decide_eq_true_eq]
    refine and_congr (by simp) ?_
    rw [List.mem_flatMap]
    constructor
    · intro h p hp hc
      obtain ⟨m, hm, rfl⟩ := h3 p hp
      exact h ⟨m, hm, ((h2 m hm).colliders n).2 hc⟩
    · rintro h ⟨m, hm, hc⟩
      exact h m.path (h2 m hm).isPath (((h2 m hm).colliders n).1 hc)
  have hlen : ∀ m ∈ act, ∀ n, (cand m).head? = some n → 3 ≤ m.path.length := by
    intro m hm n hh
    have hz := (hcand m hm n).1 (List.mem_of_mem_head? hh)
    obtain ⟨t, ht, _⟩ := trip_of_interior (h2 m (hmem m hm).1).isPath hz.1 hz.2.1 hz.2.2
    obtain ⟨i, _, _, h⟩ := (mem_trips m.path t.1 t.2.1 t.2.2).1 ht
    have := (List.getElem?_eq_some_iff.1 h).1
    omega
  have hpath : ∀ p, IsPath g.E x y p → p.IsChain g.E → 3 ≤ p.length → ∃ m ∈ act, m.path = p ∧ ∃ n, (cand m).head? = some n := by
    intro p hp hd hlen
    obtain ⟨m, hm, rfl⟩ := h3 p hp
    have hf : Frontdoor g.E m.path := by
      obtain ⟨b, l, e⟩ := path_cons hp hxy
      rw [e] at hd
      exact ⟨x, b, l, e, (List.isChain_cons_cons.1 hd).1⟩
    have ho : Open g.E DSep.none m.path := by
      rw [open_none]
      intro n hn
      obtain ⟨t, ht, _, h4, h5⟩ := colliderOn_iff.1 hn
      exact hna _ _ h5 (chain_trips _ hd t ht).2
    have hma : m ∈ act := by
      rw [hact, List.mem_filter, Bool.and_eq_true]
      exact ⟨hm, (h2 m hm).active.2 ho, (h2 m hm).frontdoor.2 hf⟩
    obtain ⟨k, hk1, hk2, hk3⟩ := interior_exists hp hlen
    have hkz : k ∈ cand m := (hcand m hma k).2 ⟨hk1, hk2, hk3⟩
    refine ⟨m, hma, rfl, ?_⟩
    cases hz : cand m with
    | nil => rw [hz] at hkz; simp at hkz
    | cons n z => exact ⟨n, rfl⟩
  classical
  let c : List V → V := fun p => if h : ∃ n, ∃ m ∈ act, m.path = p ∧ (cand m).head? = some n then h.choose else x
  have hc : ∀ m ∈ act, ∀ n, (cand m).head? = some n → c m.path = n := by
    intro m hm n hh
    have hex : ∃ n, ∃ k ∈ act, k.path = m.path ∧ (cand k).head? = some n := ⟨n, m, hm, rfl, hh⟩
    have : c m.path = hex.choose := dif_pos hex
    rw [this]
    obtain ⟨k, hk, e, hk'⟩ := hex.choose_spec
    have := hinj k (hmem k hk).1 m (hmem m hm).1 e
    rw [this, hh] at hk'
    exact (Option.some.inj hk').symm
  refine ⟨_, rfl, ?_, c, ?_, ?_⟩
  · exact ((it.perm _ _ _).nodup_iff).2 ((nodup_foldl_setAdd _ _ List.nodup_nil).filter _)
  · intro p hp hd h3'
    obtain ⟨m, hm, rfl, n, hn⟩ := hpath p hp hd h3'
    rw [hc m hm n hn]
    exact (hcand m hm n).1 (List.mem_of_mem_head? hn)
  · intro n
    rw [hr n]
    refine and_congr_left (fun _ => ?_)
    constructor
    · rintro ⟨m, hm, hn⟩
      obtain ⟨k1, k2, k3⟩ := hmem m hm
      exact ⟨m.path, (h2 m k1).isPath, directed_of_open _ (h2 m k1).isPath.chain k3 k2, hlen m hm n hn, hc m hm n hn⟩
    · rintro ⟨p, hp, hd, h3', rfl⟩
      obtain ⟨m, hm, rfl, n, hn⟩ := hpath p hp hd h3'
      exact ⟨m, hm, by rw [hn, hc m hm n hn]⟩

theorem minimalMediators_ok (it : SetIter V) (hg : g.WF) (hna : g.NoAnti) {x y : V} (hxy : x ≠ y) :
    ∃ r, minimalMediators it g x y = .ok r ∧ r.Nodup ∧
      (∀ n ∈ r, (∃ p, IsPath g.E x y p ∧ p.IsChain g.E ∧ n ∈ p ∧ n ≠ x ∧ n ≠ y) ∧ ∀ p, IsPath g.E x y p → ¬ ColliderOn g.E p n) ∧
      ∀ p, IsPath g.E x y p → p.IsChain g.E → 3 ≤ p.length →
        ∃ n ∈ p, n ≠ x ∧ n ≠ y ∧ (n ∈ r ∨ ∃ q, IsPath g.E x y q ∧ ColliderOn g.E q n) := by
  obtain ⟨r, h1, h2, c, h3, h4⟩ := minimalMediators_choice it hg hna hxy
  refine ⟨r, h1, h2, ?_, ?_⟩
  · intro n hn
    obtain ⟨⟨p, hp, hd, hl, rfl⟩, hcol⟩ := (h4 n).1 hn
    exact ⟨⟨p, hp, hd, h3 p hp hd hl⟩, hcol⟩
  · intro p hp hd hl
    obtain ⟨k1, k2, k3⟩ := h3 p hp hd hl
    refine ⟨c p, k1, k2, k3, ?_⟩
    by_cases hc : ∃ q, IsPath g.E x y q ∧ ColliderOn g.E q (c p)
    · exact Or.inr hc
    · exact Or.inl ((h4 _).2 ⟨⟨p, hp, hd, hl, rfl⟩, fun q hq hcq => hc ⟨q, hq, hcq⟩⟩)

end Do
end PyBBN
