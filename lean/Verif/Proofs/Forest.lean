import Mathlib.Data.Finset.Card
import Mathlib.Data.Finset.Image
import Mathlib.Logic.Relation

/-! Forests, Kruskal's algorithm and counting of components, for edges given by two endpoint functions. -/

set_option linter.unusedSectionVars false

namespace PyBBN
open Relation

section
variable {V E : Type} [DecidableEq V]

/-- connected by edges of `T` -/
def Conn (l r : E → V) (T : List E) (x y : V) : Prop :=
  EqvGen (fun a b => ∃ e ∈ T, l e = a ∧ r e = b) x y

variable {l r : E → V}

theorem Conn.refl (T : List E) (x : V) : Conn l r T x x := EqvGen.refl x
theorem Conn.symm {T : List E} {x y : V} (h : Conn l r T x y) : Conn l r T y x := EqvGen.symm _ _ h
theorem Conn.trans {T : List E} {x y z : V} (h : Conn l r T x y) (h' : Conn l r T y z) : Conn l r T x z :=
  EqvGen.trans _ _ _ h h'
theorem Conn.edge {T : List E} {e : E} (h : e ∈ T) : Conn l r T (l e) (r e) := EqvGen.rel _ _ ⟨e, h, rfl, rfl⟩

/-- connection is determined by what the edges connect -/
theorem Conn.lift {T T' : List E} (h : ∀ e ∈ T, Conn l r T' (l e) (r e)) {x y : V} (hc : Conn l r T x y) :
    Conn l r T' x y := by
  induction hc with
  | rel a b hab => obtain ⟨e, he, rfl, rfl⟩ := hab; exact h e he
  | refl a => exact Conn.refl _ _
  | symm a b _ ih => exact ih.symm
  | trans a b c _ _ ih1 ih2 => exact ih1.trans ih2

theorem Conn.lift' {E' : Type} {l' r' : E' → V} {T : List E} {T' : List E'}
    (h : ∀ e ∈ T, Conn l' r' T' (l e) (r e)) {x y : V} (hc : Conn l r T x y) : Conn l' r' T' x y := by
  induction hc with
  | rel a b hab => obtain ⟨e, he, rfl, rfl⟩ := hab; exact h e he
  | refl a => exact Conn.refl _ _
  | symm a b _ ih => exact ih.symm
  | trans a b c _ _ ih1 ih2 => exact ih1.trans ih2

theorem Conn.mono {T T' : List E} (h : ∀ e ∈ T, e ∈ T') {x y : V} (hc : Conn l r T x y) : Conn l r T' x y :=
  hc.lift (fun e he => Conn.edge (h e he))

/-- any relation closed under equivalence that contains the edges contains `Conn` -/
theorem Conn.elim {T : List E} {R : V → V → Prop} (hr : ∀ x, R x x) (hs : ∀ x y, R x y → R y x)
    (ht : ∀ x y z, R x y → R y z → R x z) (he : ∀ e ∈ T, R (l e) (r e)) {x y : V} (hc : Conn l r T x y) : R x y := by
  induction hc with
  | rel a b hab => obtain ⟨e, h, rfl, rfl⟩ := hab; exact he e h
  | refl a => exact hr a
  | symm a b _ ih => exact hs _ _ ih
  | trans a b c _ _ ih1 ih2 => exact ht _ _ _ ih1 ih2

/-- component labels -/
def labs (l r : E → V) : List E → V → V
  | [], x => x
  | e :: T, x => if labs l r T x = labs l r T (r e) then labs l r T (l e) else labs l r T x

theorem labs_iff (T : List E) (x y : V) : labs l r T x = labs l r T y ↔ Conn l r T x y := by
  induction T generalizing x y with
  | nil =>
    constructor
    · intro h
      simp only [labs] at h
      subst h
      exact Conn.refl _ _
    · intro h
      exact Conn.elim (R := fun x y => labs l r [] x = labs l r [] y) (fun _ => rfl) (fun _ _ h => h.symm)
        (fun _ _ _ h h' => h.trans h') (by simp) h
  | cons e T ih =>
    constructor
    · intro h
      have up : ∀ {a b}, Conn l r T a b → Conn l r (e :: T) a b := fun h => h.mono (fun _ h => List.mem_cons_of_mem _ h)
      have he : Conn l r (e :: T) (l e) (r e) := Conn.edge List.mem_cons_self
      simp only [labs] at h
      split at h
      · rename_i h1
        split at h
        · rename_i h2
          exact up ((ih _ _).1 (h1.trans h2.symm))
        · exact (up ((ih _ _).1 h1)).trans (he.symm.trans (up ((ih _ _).1 h)))
      · split at h
        · rename_i h2
          exact (up ((ih _ _).1 h)).trans (he.trans (up ((ih _ _).1 h2)).symm)
        · exact up ((ih _ _).1 h)
    · intro h
      refine Conn.elim (R := fun x y => labs l r (e :: T) x = labs l r (e :: T) y) (fun _ => rfl) (fun _ _ h => h.symm)
        (fun _ _ _ h h' => h.trans h') ?_ h
      intro f hf
      rcases List.mem_cons.1 hf with rfl | hf
      · simp [labs]
      · have := (ih (l f) (r f)).2 (Conn.edge hf)
        simp only [labs, this]

/-- number of components of the vertices `S` -/
def comp (l r : E → V) (S : Finset V) (T : List E) : Nat := (S.image (labs l r T)).card

theorem comp_nil (S : Finset V) : comp l r S ([] : List E) = S.card := by
  have : labs l r ([] : List E) = id := by funext x; rfl
  rw [comp, this, Finset.image_id]

theorem comp_cons_conn {S : Finset V} {T : List E} {e : E} (h : Conn l r T (l e) (r e)) :
    comp l r S (e :: T) = comp l r S T := by
  have : labs l r (e :: T) = labs l r T := by
    funext x
    simp only [labs]
    split
    · rename_i h1; rw [h1]; exact (labs_iff _ _ _).2 h
    · rfl
  rw [comp, this]; rfl

theorem comp_cons_new {S : Finset V} {T : List E} {e : E} (h : ¬ Conn l r T (l e) (r e)) (hl : l e ∈ S) (hr : r e ∈ S) :
    comp l r S (e :: T) + 1 = comp l r S T := by
  have hne : labs l r T (l e) ≠ labs l r T (r e) := fun c => h ((labs_iff _ _ _).1 c)
  have : S.image (labs l r (e :: T)) = (S.image (labs l r T)).erase (labs l r T (r e)) := by
    ext v
    simp only [Finset.mem_image, Finset.mem_erase, labs]
    constructor
    · rintro ⟨x, hx, rfl⟩
      split
      · exact ⟨hne, l e, hl, rfl⟩
      · rename_i h1; exact ⟨h1, x, hx, rfl⟩
    · rintro ⟨h1, x, hx, rfl⟩
      exact ⟨x, hx, by rw [if_neg h1]⟩
  unfold comp
  rw [this, Finset.card_erase_of_mem (Finset.mem_image_of_mem _ hr)]
  have : 0 < (S.image (labs l r T)).card := Finset.card_pos.2 ⟨_, Finset.mem_image_of_mem _ hr⟩
  omega

/-- every edge joined two components of the edges after it in the list -/
def Forest (l r : E → V) : List E → Prop
  | [] => True
  | e :: T => ¬ Conn l r T (l e) (r e) ∧ Forest l r T

theorem Forest.sublist {T T' : List E} (h : T'.Sublist T) : Forest l r T → Forest l r T' := by
  induction h with
  | slnil => exact fun h => h
  | cons e _ ih => exact fun h => ih h.2
  | cons_cons e hs ih =>
    intro h
    refine ⟨?_, ih h.2⟩
    intro hc
    exact h.1 (hc.mono (fun f hf => hs.subset hf))

theorem Forest.count {S : Finset V} : ∀ {T : List E}, Forest l r T → (∀ e ∈ T, l e ∈ S ∧ r e ∈ S) →
    comp l r S T + T.length = S.card
  | [], _, _ => by rw [comp_nil]; simp
  | e :: T, h, hm => by
      have := Forest.count h.2 (fun f hf => hm f (List.mem_cons_of_mem _ hf))
      have h2 := comp_cons_new h.1 (hm e List.mem_cons_self).1 (hm e List.mem_cons_self).2
      simp only [List.length_cons]
      omega

/-- connecting more gives fewer components (the two edge lists may be of different types) -/
theorem comp_le {E' : Type} {l' r' : E' → V} {S : Finset V} {T : List E} {T' : List E'}
    (h : ∀ e ∈ T, Conn l' r' T' (l e) (r e)) : comp l' r' S T' ≤ comp l r S T := by
  classical
  unfold comp
  have : S.image (labs l' r' T') ⊆ (S.image (labs l r T)).image (fun v =>
      if hv : ∃ x ∈ S, labs l r T x = v then labs l' r' T' hv.choose else v) := by
    intro v hv
    obtain ⟨x, hx, rfl⟩ := Finset.mem_image.1 hv
    refine Finset.mem_image.2 ⟨labs l r T x, Finset.mem_image_of_mem _ hx, ?_⟩
    have hex : ∃ y ∈ S, labs l r T y = labs l r T x := ⟨x, hx, rfl⟩
    rw [dif_pos hex]
    exact (labs_iff _ _ _).2 (Conn.lift' h ((labs_iff _ _ _).1 hex.choose_spec.2))
  exact (Finset.card_le_card this).trans Finset.card_image_le

theorem Forest.remove [DecidableEq E] {T : List E} (h : Forest l r T) {e : E} (he : e ∈ T) :
    ¬ Conn l r (T.erase e) (l e) (r e) := by
  intro hc
  let S : Finset V := (T.map l ++ T.map r).toFinset
  have hS : ∀ f ∈ T, l f ∈ S ∧ r f ∈ S := by
    intro f hf
    simp only [S, List.mem_toFinset, List.mem_append]
    exact ⟨Or.inl (List.mem_map_of_mem hf), Or.inr (List.mem_map_of_mem hf)⟩
  have h1 := h.count hS
  have h2 := (h.sublist (List.erase_sublist (a := e))).count (S := S) (fun f hf => hS f (List.mem_of_mem_erase hf))
  have h3 : comp l r S (T.erase e) ≤ comp l r S T := by
    apply comp_le
    intro f hf
    by_cases hfe : f = e
    · subst hfe; exact hc
    · exact Conn.edge ((List.mem_erase_of_ne hfe).2 hf)
  have h4 : (T.erase e).length + 1 = T.length := by
    rw [List.length_erase_of_mem he]
    have : 0 < T.length := List.length_pos_of_mem he
    omega
  omega

/-- a vertex that is no endpoint is connected to itself only -/
theorem Conn.isolated {T : List E} {z : V} (hz : ∀ e ∈ T, l e ≠ z ∧ r e ≠ z) {x y : V} (h : Conn l r T x y) :
    x = z ↔ y = z :=
  Conn.elim (R := fun x y => x = z ↔ y = z) (fun _ => Iff.rfl) (fun _ _ h => h.symm) (fun _ _ _ h h' => h.trans h')
    (fun e he => ⟨fun c => absurd c (hz e he).1, fun c => absurd c (hz e he).2⟩) h

/-- one component: everything is connected -/
theorem conn_of_comp_le_one {S : Finset V} {T : List E} (h : comp l r S T ≤ 1) {x y : V} (hx : x ∈ S) (hy : y ∈ S) :
    Conn l r T x y := by
  rw [← labs_iff]
  exact Finset.card_le_one.1 h _ (Finset.mem_image_of_mem _ hx) _ (Finset.mem_image_of_mem _ hy)

/-! ### Kruskal -/

/-- a run of Kruskal's algorithm: `Kruskal T es T'` scans `es`, keeping an edge if it joins two components (latest first) -/
inductive Kruskal (l r : E → V) : List E → List E → List E → Prop
  | nil (T) : Kruskal l r T [] T
  | skip {T es T'} (e) (h : Conn l r T (l e) (r e)) (ht : Kruskal l r T es T') : Kruskal l r T (e :: es) T'
  | keep {T es T'} (e) (h : ¬ Conn l r T (l e) (r e)) (ht : Kruskal l r (e :: T) es T') : Kruskal l r T (e :: es) T'

theorem Kruskal.forest {T es T' : List E} (h : Kruskal l r T es T') : Forest l r T → Forest l r T' := by
  induction h with
  | nil T => exact fun h => h
  | skip e h ht ih => exact ih
  | keep e h ht ih => exact fun hf => ih ⟨h, hf⟩

theorem Kruskal.sub {T es T' : List E} (h : Kruskal l r T es T') :
    (∀ e ∈ T, e ∈ T') ∧ (∀ e ∈ T', e ∈ T ∨ e ∈ es) := by
  induction h with
  | nil T => exact ⟨fun _ h => h, fun _ h => Or.inl h⟩
  | skip e h ht ih =>
    refine ⟨ih.1, fun f hf => ?_⟩
    rcases ih.2 f hf with h | h
    · exact Or.inl h
    · exact Or.inr (List.mem_cons_of_mem _ h)
  | keep e h ht ih =>
    refine ⟨fun f hf => ih.1 f (List.mem_cons_of_mem _ hf), fun f hf => ?_⟩
    rcases ih.2 f hf with h | h
    · rcases List.mem_cons.1 h with rfl | h
      · exact Or.inr List.mem_cons_self
      · exact Or.inl h
    · exact Or.inr (List.mem_cons_of_mem _ h)

/-- every scanned edge is connected by kept edges that are at least as heavy -/
theorem Kruskal.heavy {w : E → Nat} {T es T' : List E} (h : Kruskal l r T es T') :
    es.Pairwise (fun a b => w b ≤ w a) → (∀ a ∈ T, ∀ b ∈ es, w b ≤ w a) →
    ∀ e ∈ es, Conn l r (T'.filter (fun f => decide (w e ≤ w f))) (l e) (r e) := by
  induction h with
  | nil T => intro _ _ e he; simp at he
  | @skip T es T' e h ht ih =>
    intro hp hw f hf
    rw [List.pairwise_cons] at hp
    rcases List.mem_cons.1 hf with rfl | hf
    · refine h.mono ?_
      intro g hg
      refine List.mem_filter.2 ⟨ht.sub.1 g hg, ?_⟩
      simpa using hw g hg f List.mem_cons_self
    · exact ih hp.2 (fun a ha b hb => hw a ha b (List.mem_cons_of_mem _ hb)) f hf
  | @keep T es T' e h ht ih =>
    intro hp hw f hf
    rw [List.pairwise_cons] at hp
    rcases List.mem_cons.1 hf with rfl | hf
    · refine Conn.edge (List.mem_filter.2 ⟨ht.sub.1 f List.mem_cons_self, ?_⟩)
      simp
    · refine ih hp.2 ?_ f hf
      intro a ha b hb
      rcases List.mem_cons.1 ha with rfl | ha
      · exact hp.1 b hb
      · exact hw a ha b (List.mem_cons_of_mem _ hb)

/-- every scanned edge is connected by kept edges that are scanned no later -/
theorem Kruskal.before {le : E → E → Bool} (hrefl : ∀ a, le a a = true) {T es T' : List E} (h : Kruskal l r T es T') :
    es.Pairwise (fun a b => le a b = true) → (∀ a ∈ T, ∀ b ∈ es, le a b = true) →
    ∀ e ∈ es, Conn l r (T'.filter (fun f => le f e)) (l e) (r e) := by
  induction h with
  | nil T => intro _ _ e he; simp at he
  | @skip T es T' e h ht ih =>
    intro hp hw f hf
    rw [List.pairwise_cons] at hp
    rcases List.mem_cons.1 hf with rfl | hf
    · refine h.mono ?_
      intro g hg
      exact List.mem_filter.2 ⟨ht.sub.1 g hg, hw g hg f List.mem_cons_self⟩
    · exact ih hp.2 (fun a ha b hb => hw a ha b (List.mem_cons_of_mem _ hb)) f hf
  | @keep T es T' e h ht ih =>
    intro hp hw f hf
    rw [List.pairwise_cons] at hp
    rcases List.mem_cons.1 hf with rfl | hf
    · exact Conn.edge (List.mem_filter.2 ⟨ht.sub.1 f List.mem_cons_self, hrefl f⟩)
    · refine ih hp.2 ?_ f hf
      intro a ha b hb
      rcases List.mem_cons.1 ha with rfl | ha
      · exact hp.1 b hb
      · exact hw a ha b (List.mem_cons_of_mem _ hb)

end

/-! ### sums by level -/

theorem nat_sum_add {α : Type} (f g : α → Nat) : ∀ T : List α,
    (T.map f).sum + (T.map g).sum = (T.map (fun a => f a + g a)).sum
  | [] => rfl
  | a :: T => by
      have := nat_sum_add f g T
      simp only [List.map_cons, List.sum_cons]
      omega

theorem nat_sum_le {α : Type} (f g : α → Nat) : ∀ T : List α, (∀ a ∈ T, f a ≤ g a) → (T.map f).sum ≤ (T.map g).sum
  | [], _ => Nat.le_refl _
  | a :: T, h => by
      have := nat_sum_le f g T (fun b hb => h b (List.mem_cons_of_mem _ hb))
      have := h a List.mem_cons_self
      simp only [List.map_cons, List.sum_cons]
      omega

theorem sum_levels {α : Type} (w : α → Nat) : ∀ (T : List α) (M : Nat), (∀ e ∈ T, w e ≤ M) →
    (T.map w).sum = ((List.range M).map (fun t => (T.filter (fun e => decide (t + 1 ≤ w e))).length)).sum
  | [], M, _ => by simp
  | e :: T, M, h => by
      have ih := sum_levels w T M (fun f hf => h f (List.mem_cons_of_mem _ hf))
      rw [List.map_cons, List.sum_cons, ih]
      have h1 : ∀ k, k ≤ M → w e = k →
          k = ((List.range M).map (fun t => if t + 1 ≤ k then 1 else 0)).sum := by
        intro k hk _
        clear ih h
        induction M generalizing k with
        | zero => simp; omega
        | succ M ihM =>
          rw [List.range_succ, List.map_append, List.sum_append]
          by_cases hkM : k ≤ M
          · rw [← ihM k hkM (by assumption)]
            simp; omega
          · have : k = M + 1 := by omega
            subst this
            have e1 : (List.range M).map (fun t => if t + 1 ≤ M + 1 then 1 else 0) = (List.range M).map (fun _ => 1) := by
              apply List.map_congr_left
              intro t ht
              rw [List.mem_range] at ht
              rw [if_pos (by omega)]
            rw [e1]
            simp
      have h2 := h1 (w e) (h e List.mem_cons_self) rfl
      conv_lhs => rw [h2]
      rw [nat_sum_add]
      congr 1
      apply List.map_congr_left
      intro t _
      rw [List.filter_cons]
      by_cases hc : t + 1 ≤ w e
      · simp [hc, Nat.add_comm]
      · simp [hc]

theorem sum_le_of_levels {α β : Type} (w : α → Nat) (u : β → Nat) (T : List α) (J : List β)
    (h : ∀ t, (J.filter (fun e => decide (t + 1 ≤ u e))).length ≤ (T.filter (fun e => decide (t + 1 ≤ w e))).length) :
    (J.map u).sum ≤ (T.map w).sum := by
  have bound : ∀ {γ : Type} (v : γ → Nat) (L : List γ), ∃ M, ∀ e ∈ L, v e ≤ M := by
    intro γ v L
    induction L with
    | nil => exact ⟨0, by simp⟩
    | cons x L ih =>
      obtain ⟨M, hM⟩ := ih
      refine ⟨max M (v x), fun e he => ?_⟩
      rcases List.mem_cons.1 he with rfl | he
      · exact Nat.le_max_right _ _
      · exact (hM e he).trans (Nat.le_max_left _ _)
  obtain ⟨M1, h1⟩ := bound w T
  obtain ⟨M2, h2⟩ := bound u J
  rw [sum_levels w T (max M1 M2) (fun e he => (h1 e he).trans (Nat.le_max_left _ _)),
    sum_levels u J (max M1 M2) (fun e he => (h2 e he).trans (Nat.le_max_right _ _))]
  exact nat_sum_le _ _ _ (fun t _ => h t)

end PyBBN
