import Verif.Proofs.Do

/-!
From connection in the moral graph of the ancestors to an open path (soundness of d-separation, the part about graphs).
-/

namespace PyBBN.DSep
open Relation Do
variable {V : Type} {E : V → V → Prop} {Z : V → Prop}

/-- some descendant is in `Z` -/
def Anc (E : V → V → Prop) (Z : V → Prop) (c : V) : Prop := ∃ d, ReflTransGen E c d ∧ Z d

theorem Anc.head {a c : V} (h : E a c) (hc : Anc E Z c) : Anc E Z a := by
  obtain ⟨d, h1, h2⟩ := hc
  exact ⟨d, ReflTransGen.head h h1, h2⟩

/-- the condition on three consecutive nodes of an open path -/
def Pass (E : V → V → Prop) (Z : V → Prop) (t : V × V × V) : Prop :=
  (E t.1 t.2.1 ∧ E t.2.2 t.2.1 → Anc E Z t.2.1) ∧ (¬ (E t.1 t.2.1 ∧ E t.2.2 t.2.1) → ¬ Z t.2.1)

/-- every three consecutive nodes pass -/
def OpenL (E : V → V → Prop) (Z : V → Prop) (p : List V) : Prop := ∀ t ∈ trips p, Pass E Z t

/-! ### consecutive triples -/

theorem mem_trips_infix : ∀ (p : List V) (a c b : V), (a, c, b) ∈ trips p ↔ ∃ s r, p = s ++ a :: c :: b :: r
  | [], a, c, b => by simp [trips]
  | [u], a, c, b => by
      simp only [trips, List.not_mem_nil, false_iff]
      rintro ⟨s, r, h⟩
      have := congrArg List.length h
      simp at this
      omega
  | [u, v], a, c, b => by
      simp only [trips, List.not_mem_nil, false_iff]
      rintro ⟨s, r, h⟩
      have := congrArg List.length h
      simp at this
      omega
  | u :: v :: w :: l, a, c, b => by
      rw [trips, List.mem_cons, mem_trips_infix (v :: w :: l)]
      constructor
      · rintro (h | ⟨s, r, h⟩)
        · cases h; exact ⟨[], l, rfl⟩
        · exact ⟨u :: s, r, by rw [h]; rfl⟩
      · rintro ⟨s, r, h⟩
        cases s with
        | nil => left; simp at h; obtain ⟨rfl, rfl, rfl, _⟩ := h; rfl
        | cons s0 s =>
          right
          rw [List.cons_append, List.cons.injEq] at h
          exact ⟨s, r, h.2⟩

theorem trips_append {p q s r : List V} (h : q = s ++ p ++ r) {t : V × V × V} (ht : t ∈ trips p) : t ∈ trips q := by
  obtain ⟨a, c, b⟩ := t
  obtain ⟨s', r', rfl⟩ := (mem_trips_infix p a c b).1 ht
  exact (mem_trips_infix q a c b).2 ⟨s ++ s', r' ++ r, by rw [h]; simp⟩

theorem trips_split : ∀ (l : List V) (w : V) (m : List V) (t : V × V × V), t ∈ trips (l ++ w :: m) →
    t ∈ trips (l ++ [w]) ∨ t ∈ trips (w :: m) ∨ ∃ l' a b m', l = l' ++ [a] ∧ m = b :: m' ∧ t = (a, w, b)
  | [], w, m, t, h => Or.inr (Or.inl h)
  | [a], w, m, t, h => by
      cases m with
      | nil => simp [trips] at h
      | cons b m =>
        change t ∈ trips (a :: w :: b :: m) at h
        rw [trips, List.mem_cons] at h
        rcases h with h | h
        · exact Or.inr (Or.inr ⟨[], a, b, m, rfl, rfl, h⟩)
        · exact Or.inr (Or.inl h)
  | a :: b :: l, w, m, t, h => by
      have ih := trips_split (b :: l) w m t
      have hc : ∃ c k k', l ++ w :: m = c :: k ∧ l ++ [w] = c :: k' := by
        cases l with
        | nil => exact ⟨w, m, [], rfl, rfl⟩
        | cons c l => exact ⟨c, l ++ w :: m, l ++ [w], rfl, rfl⟩
      obtain ⟨c, k, k', h1, h2⟩ := hc
      have e1 : a :: b :: l ++ w :: m = a :: b :: c :: k := by rw [← h1]; rfl
      have e2 : a :: b :: l ++ [w] = a :: b :: c :: k' := by rw [← h2]; rfl
      have e3 : b :: l ++ w :: m = b :: c :: k := by rw [← h1]; rfl
      have e4 : b :: l ++ [w] = b :: c :: k' := by rw [← h2]; rfl
      rw [e1, trips, List.mem_cons] at h
      rw [e3, e4] at ih
      rw [e2, trips, List.mem_cons]
      rcases h with h | h
      · exact Or.inl (Or.inl h)
      · rcases ih h with h | h | ⟨l', a', b', m', h3, h4, h5⟩
        · exact Or.inl (Or.inr h)
        · exact Or.inr (Or.inl h)
        · exact Or.inr (Or.inr ⟨a :: l', a', b', m', by rw [h3]; rfl, h4, h5⟩)

theorem not_nodup_split : ∀ (p : List V), ¬ p.Nodup → ∃ l1 w l2 l3, p = l1 ++ w :: (l2 ++ w :: l3)
  | [], h => absurd List.nodup_nil h
  | a :: p, h => by
      by_cases ha : a ∈ p
      · obtain ⟨l2, l3, rfl⟩ := List.append_of_mem ha
        exact ⟨[], a, l2, l3, rfl⟩
      · have : ¬ p.Nodup := fun hp => h (List.nodup_cons.2 ⟨ha, hp⟩)
        obtain ⟨l1, w, l2, l3, rfl⟩ := not_nodup_split p this
        exact ⟨a :: l1, w, l2, l3, rfl⟩

/-! ### from a walk to a path -/

/-- a walk that starts with the edges and ends against them has a collider below its start -/
theorem anc_of_turn (hna : ∀ a b, E a b → ¬ E b a) : ∀ (l : List V) (a b : V), (a :: b :: l).IsChain (Adj E) → OpenL E Z (a :: b :: l) → E a b →
    (∃ s u v, a :: b :: l = s ++ [u, v] ∧ E v u) → Anc E Z a
  | [], a, b, _, _, hab, ⟨s, u, v, h, hvu⟩ => by
      have : s = [] := by
        have := congrArg List.length h
        rw [List.length_append] at this
        simp only [List.length_cons, List.length_nil] at this
        exact List.length_eq_zero_iff.1 (by omega)
      subst this
      simp at h
      obtain ⟨rfl, rfl⟩ := h
      exact absurd hvu (hna _ _ hab)
  | c :: l, a, b, hch, ho, hab, ⟨s, u, v, h, hvu⟩ => by
      rw [List.isChain_cons_cons] at hch
      have hbc := (List.isChain_cons_cons.1 hch.2).1
      rcases hbc with hbc | hcb
      · refine Anc.head hab (anc_of_turn hna l b c hch.2 ?_ hbc ?_)
        · intro t ht
          exact ho t (trips_append (s := [a]) (r := []) (by simp) ht)
        · cases s with
          | nil => simp at h
          | cons s0 s =>
            rw [List.cons_append, List.cons.injEq] at h
            exact ⟨s, u, v, h.2, hvu⟩
      · refine Anc.head hab ((ho (a, b, c) ?_).1 ⟨hab, hcb⟩)
        rw [trips]
        exact List.mem_cons_self

/-- an open walk can be shortened to an open path -/
theorem exists_simple (hna : ∀ a b, E a b → ¬ E b a) {x y : V} : ∀ (k : Nat) (p : List V), p.length = k → p.head? = some x → p.getLast? = some y →
    p.IsChain (Adj E) → OpenL E Z p → ∃ q : List V, IsPath E x y q ∧ OpenL E Z q := by
  intro k
  induction k using Nat.strong_induction_on with
  | _ k ih =>
    intro p hk hx hy hch ho
    by_cases hn : p.Nodup
    · exact ⟨p, ⟨hx, hy, hch, hn⟩, ho⟩
    · obtain ⟨l1, w, l2, l3, rfl⟩ := not_nodup_split p hn
      refine ih (l1 ++ w :: l3).length ?_ (l1 ++ w :: l3) rfl ?_ ?_ ?_ ?_
      · rw [← hk]; simp; omega
      · cases l1 with
        | nil => exact hx
        | cons a l1 => exact hx
      · rw [List.getLast?_append_of_ne_nil _ (by simp)] at hy ⊢
        rw [show w :: (l2 ++ w :: l3) = (w :: l2) ++ w :: l3 from rfl, List.getLast?_append_of_ne_nil _ (by simp)] at hy
        exact hy
      · rw [List.isChain_append] at hch ⊢
        refine ⟨hch.1, ?_, ?_⟩
        · have h2 : ((w :: l2) ++ (w :: l3)).IsChain (Adj E) := hch.2.1
          rw [List.isChain_append] at h2
          exact h2.2.1
        · exact hch.2.2
      · intro t ht
        rcases trips_split l1 w l3 t ht with h | h | ⟨l', a, b, m', h1, h2, rfl⟩
        · exact ho t (trips_append (s := []) (r := l2 ++ w :: l3) (by simp) h)
        · exact ho t (trips_append (s := l1 ++ w :: l2) (r := []) (by simp) h)
        · subst h1 h2
          have hinner : (w :: (l2 ++ [w])).IsChain (Adj E) := by
            have : (l' ++ [a] ++ (w :: (l2 ++ [w]) ++ (b :: m'))).IsChain (Adj E) := by
              have e : l' ++ [a] ++ (w :: (l2 ++ [w]) ++ (b :: m')) = l' ++ [a] ++ w :: (l2 ++ w :: b :: m') := by simp
              rw [e]; exact hch
            rw [List.isChain_append] at this
            have := this.2.1
            rw [List.isChain_append] at this
            exact this.1
          have hopen : OpenL E Z (w :: (l2 ++ [w])) := fun t ht =>
            ho t (trips_append (s := l' ++ [a]) (r := b :: m') (by simp) ht)
          cases l2 with
          | nil =>
            exfalso
            have := (List.isChain_cons_cons.1 hinner).1
            rcases this with h | h
            · exact hna _ _ h h
            · exact hna _ _ h h
          | cons c l2 =>
            obtain ⟨l2', d, hd⟩ : ∃ l2' d, c :: l2 = l2' ++ [d] := by
              rcases List.eq_nil_or_concat (c :: l2) with h | ⟨l, d, h⟩
              · simp at h
              · exact ⟨l, d, by rw [h, List.concat_eq_append]⟩
            have t1 : (a, w, c) ∈ trips (l' ++ [a] ++ w :: (c :: l2 ++ w :: b :: m')) :=
              (mem_trips_infix _ _ _ _).2 ⟨l', l2 ++ w :: b :: m', by simp⟩
            have t2 : (d, w, b) ∈ trips (l' ++ [a] ++ w :: (c :: l2 ++ w :: b :: m')) :=
              (mem_trips_infix _ _ _ _).2 ⟨l' ++ [a] ++ w :: l2', m', by rw [hd]; simp⟩
            have p1 := ho _ t1
            have p2 := ho _ t2
            have hwc : Adj E w c := (List.isChain_cons_cons.1 hinner).1
            have hdw : Adj E d w := by
              have e : w :: (c :: l2 ++ [w]) = (w :: l2') ++ [d, w] := by rw [hd]; simp
              rw [e, List.isChain_append] at hinner
              exact (List.isChain_cons_cons.1 hinner.2.1).1
            refine ⟨?_, ?_⟩
            · rintro ⟨haw, hbw⟩
              change Anc E Z w
              by_contra hw
              have k1 : ¬ E c w := fun h => hw (p1.1 ⟨haw, h⟩)
              have k2 : ¬ E d w := fun h => hw (p2.1 ⟨h, hbw⟩)
              have hwc' : E w c := hwc.resolve_right k1
              have hwd' : E w d := hdw.resolve_left k2
              refine hw (anc_of_turn hna (l2 ++ [w]) w c hinner hopen hwc' ⟨w :: l2', d, w, ?_, hwd'⟩)
              have : w :: c :: (l2 ++ [w]) = w :: ((c :: l2) ++ [w]) := rfl
              rw [this, hd]; simp
            · intro hnc hw
              apply hnc
              have k1 : E a w ∧ E c w := by
                by_contra h
                exact p1.2 h hw
              have k2 : E d w ∧ E b w := by
                by_contra h
                exact p2.2 h hw
              exact ⟨k1.1, k2.2⟩

/-! ### walks as states -/

/-- there is an open walk from `x`; the flag says whether its last edge points at its end -/
inductive OpenTo (E : V → V → Prop) (Z : V → Prop) (x : V) : V → Bool → Prop
  | out {v : V} : E x v → OpenTo E Z x v true
  | inn {v : V} : E v x → OpenTo E Z x v false
  | fwd {u v : V} {d : Bool} : OpenTo E Z x u d → ¬ Z u → E u v → OpenTo E Z x v true
  | bwd {u v : V} : OpenTo E Z x u false → ¬ Z u → E v u → OpenTo E Z x v false
  | coll {u v : V} : OpenTo E Z x u true → Anc E Z u → E v u → OpenTo E Z x v false

/-- such a walk as a list, from its end to `x` -/
theorem OpenTo.list (hna : ∀ a b, E a b → ¬ E b a) {x v : V} {d : Bool} (h : OpenTo E Z x v d) :
    ∃ u l, (v :: u :: l).getLast? = some x ∧ (v :: u :: l).IsChain (Adj E) ∧ OpenL E Z (v :: u :: l) ∧ (if d then E u v else E v u) := by
  have ext : ∀ {v u : V} {l : List V} (w : V), (v :: u :: l).getLast? = some x → (v :: u :: l).IsChain (Adj E) → OpenL E Z (v :: u :: l) →
      Adj E w v → Pass E Z (w, v, u) → (w :: v :: u :: l).getLast? = some x ∧ (w :: v :: u :: l).IsChain (Adj E) ∧ OpenL E Z (w :: v :: u :: l) := by
    intro v u l w h1 h2 h3 hadj hp
    refine ⟨by rw [List.getLast?_cons_cons]; exact h1, List.isChain_cons_cons.2 ⟨hadj, h2⟩, ?_⟩
    intro t ht
    rw [trips, List.mem_cons] at ht
    rcases ht with rfl | ht
    · exact hp
    · exact h3 t ht
  induction h with
  | @out v h => exact ⟨x, [], rfl, List.isChain_cons_cons.2 ⟨Or.inr h, List.isChain_singleton _⟩, fun t ht => by simp [trips] at ht, h⟩
  | @inn v h => exact ⟨x, [], rfl, List.isChain_cons_cons.2 ⟨Or.inl h, List.isChain_singleton _⟩, fun t ht => by simp [trips] at ht, h⟩
  | @fwd u v d _ hu hE ih =>
    obtain ⟨w, l, h1, h2, h3, _⟩ := ih
    obtain ⟨k1, k2, k3⟩ := ext v h1 h2 h3 (Or.inr hE) ⟨fun h => absurd h.1 (hna _ _ hE), fun _ => hu⟩
    exact ⟨u, w :: l, k1, k2, k3, hE⟩
  | @bwd u v _ hu hE ih =>
    obtain ⟨w, l, h1, h2, h3, h4⟩ := ih
    obtain ⟨k1, k2, k3⟩ := ext v h1 h2 h3 (Or.inl hE) ⟨fun h => absurd h.2 (hna _ _ h4), fun _ => hu⟩
    exact ⟨u, w :: l, k1, k2, k3, hE⟩
  | @coll u v _ hu hE ih =>
    obtain ⟨w, l, h1, h2, h3, h4⟩ := ih
    obtain ⟨k1, k2, k3⟩ := ext v h1 h2 h3 (Or.inl hE) ⟨fun _ => hu, fun h => absurd ⟨hE, h4⟩ h⟩
    exact ⟨u, w :: l, k1, k2, k3, hE⟩

theorem trips_reverse {p : List V} {a c b : V} (h : (a, c, b) ∈ trips p.reverse) : (b, c, a) ∈ trips p := by
  obtain ⟨s, r, e⟩ := (mem_trips_infix _ _ _ _).1 h
  refine (mem_trips_infix _ _ _ _).2 ⟨r.reverse, s.reverse, ?_⟩
  rw [← List.reverse_reverse p, e]
  simp

theorem openL_reverse {p : List V} (h : OpenL E Z p) : OpenL E Z p.reverse := by
  rintro ⟨a, c, b⟩ ht
  have := h _ (trips_reverse ht)
  exact ⟨fun k => this.1 ⟨k.2, k.1⟩, fun k => this.2 (fun k' => k ⟨k'.2, k'.1⟩)⟩

/-- an open walk gives an open path -/
theorem OpenTo.path [DecidableEq V] (hna : ∀ a b, E a b → ¬ E b a) {x v : V} {d : Bool} (h : OpenTo E Z x v d) : ∃ p, IsPath E x v p ∧ Open E Z p := by
  obtain ⟨u, l, h1, h2, h3, _⟩ := h.list hna
  obtain ⟨q, hq, ho⟩ := exists_simple (Z := Z) hna (x := x) (y := v) _ (v :: u :: l).reverse rfl (by rw [List.head?_reverse]; exact h1)
    (by rw [List.getLast?_reverse]; rfl) (by
      rw [List.isChain_reverse]
      refine h2.imp ?_
      intro a b hab
      exact hab.symm) (openL_reverse h3)
  exact ⟨q, hq, open_iff.2 ho⟩

/-! ### connection in the moral graph of the ancestors -/

/-- the node leads to `x`, to `Y` or to `Z` -/
def Rel (E : V → V → Prop) (x : V) (Y Z : V → Prop) (c : V) : Prop := ∃ t, ReflTransGen E c t ∧ (t = x ∨ Y t ∨ Z t)

theorem Rel.head {x : V} {Y : V → Prop} {a c : V} (h : E a c) (hc : Rel E x Y Z c) : Rel E x Y Z a := by
  obtain ⟨d, h1, h2⟩ := hc
  exact ⟨d, ReflTransGen.head h h1, h2⟩

/-- two nodes outside `Z` occur together in the family of a relevant node -/
def Mor (E : V → V → Prop) (x : V) (Y Z : V → Prop) (u v : V) : Prop :=
  ¬ Z u ∧ ¬ Z v ∧ ∃ c, Rel E x Y Z c ∧ (u = c ∨ E u c) ∧ (v = c ∨ E v c)

theorem openTo_back {x u : V} (h : ReflTransGen E u x) (hu : ¬ Anc E Z u) : u = x ∨ OpenTo E Z x u false := by
  induction h using ReflTransGen.head_induction_on with
  | refl => exact Or.inl rfl
  | @head a c hac _ ih =>
    have hc : ¬ Anc E Z c := fun h => hu (h.head hac)
    right
    rcases ih hc with rfl | ih
    · exact .inn hac
    · exact .bwd ih (fun h => hc ⟨c, .refl, h⟩) hac

theorem openTo_forth {x u y : V} (h : ReflTransGen E u y) : ∀ {d : Bool}, OpenTo E Z x u d → ¬ Anc E Z u → ∃ d, OpenTo E Z x y d := by
  induction h using ReflTransGen.head_induction_on with
  | refl => exact fun h _ => ⟨_, h⟩
  | @head a c hac _ ih =>
    intro d h hu
    exact ih (.fwd h (fun hz => hu ⟨a, .refl, hz⟩) hac) (fun h => hu (h.head hac))

section
variable {x : V} {Y : V → Prop}

theorem coll_step {c v : V} (h : OpenTo E Z x c true) (hc : Rel E x Y Z c) (hv : E v c) :
    OpenTo E Z x v false ∨ ∃ y d, Y y ∧ OpenTo E Z x y d := by
  by_cases ha : Anc E Z c
  · exact Or.inl (.coll h ha hv)
  · obtain ⟨t, h1, h2 | h2 | h2⟩ := hc
    · subst h2
      left
      rcases openTo_back h1 ha with rfl | h'
      · exact .inn hv
      · exact .bwd h' (fun hz => ha ⟨c, .refl, hz⟩) hv
    · obtain ⟨d, h3⟩ := openTo_forth h1 h ha
      exact Or.inr ⟨t, d, h2, h3⟩
    · exact absurd ⟨t, h1, h2⟩ ha

theorem openTo_of_mor {v : V} (h : ReflTransGen (Mor E x Y Z) x v) :
    v = x ∨ (∃ d, OpenTo E Z x v d) ∨ ∃ y d, Y y ∧ OpenTo E Z x y d := by
  induction h with
  | refl => exact Or.inl rfl
  | @tail u v _ hs ih =>
    obtain ⟨hu, hv, c, hc, h1, h2⟩ := hs
    have fwd : ∀ w, E u w → u = x ∨ (∃ d, OpenTo E Z x u d) → OpenTo E Z x w true := by
      rintro w hw (rfl | ⟨d, h⟩)
      · exact .out hw
      · exact .fwd h hu hw
    rcases ih with ih | ih | ih
    · rcases h1 with rfl | h1
      · rcases h2 with rfl | h2
        · exact Or.inl ih
        · subst ih; exact Or.inr (Or.inl ⟨_, .inn h2⟩)
      · have h3 := fwd c h1 (Or.inl ih)
        rcases h2 with rfl | h2
        · exact Or.inr (Or.inl ⟨_, h3⟩)
        · rcases coll_step h3 hc h2 with h | h
          · exact Or.inr (Or.inl ⟨_, h⟩)
          · exact Or.inr (Or.inr h)
    · rcases h1 with rfl | h1
      · rcases h2 with rfl | h2
        · exact Or.inr (Or.inl ih)
        · obtain ⟨d, h⟩ := ih
          cases d with
          | false => exact Or.inr (Or.inl ⟨_, .bwd h hu h2⟩)
          | true =>
            rcases coll_step h hc h2 with h | h
            · exact Or.inr (Or.inl ⟨_, h⟩)
            · exact Or.inr (Or.inr h)
      · have h3 := fwd c h1 (Or.inr ih)
        rcases h2 with rfl | h2
        · exact Or.inr (Or.inl ⟨_, h3⟩)
        · rcases coll_step h3 hc h2 with h | h
          · exact Or.inr (Or.inl ⟨_, h⟩)
          · exact Or.inr (Or.inr h)
    · exact Or.inr (Or.inr ih)

/-- when every path to `Y` is blocked, nothing of `Y` is connected with `x` -/
theorem not_mor_of_blocked [DecidableEq V] (hna : ∀ a b, E a b → ¬ E b a) (hx : ¬ Y x)
    (hb : ∀ y, Y y → ∀ p, IsPath E x y p → ¬ Open E Z p) {v : V} (h : ReflTransGen (Mor E x Y Z) x v) : ¬ Y v := by
  intro hv
  rcases openTo_of_mor h with rfl | ⟨d, h⟩ | ⟨y, d, hy, h⟩
  · exact hx hv
  · obtain ⟨p, h1, h2⟩ := h.path hna
    exact hb v hv p h1 h2
  · obtain ⟨p, h1, h2⟩ := h.path hna
    exact hb y hy p h1 h2

end
end PyBBN.DSep
