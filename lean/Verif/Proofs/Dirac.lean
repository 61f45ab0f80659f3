import Verif.Spec.Chordal
import Mathlib.Data.Finset.Card
import Mathlib.Data.Finset.Union
import Mathlib.Logic.Relation
import Mathlib.Data.Nat.Find

/-! A chordal graph has a node whose neighbors are pairwise joined (Dirac); moral graphs of polytrees are chordal. -/

namespace PyBBN.Chord
open Relation DSep

variable {V : Type}

/-- a walk as a function on positions -/
theorem exists_walk {r : V → V → Prop} {a b : V} (h : ReflTransGen r a b) : ∃ n, ∃ f : Nat → V, f 0 = a ∧ f n = b ∧ ∀ i < n, r (f i) (f (i + 1)) := by
  induction h with
  | refl => exact ⟨0, fun _ => a, rfl, rfl, by simp⟩
  | @tail b c _ hbc ih =>
    obtain ⟨n, f, h0, hn, hf⟩ := ih
    refine ⟨n + 1, fun i => if i ≤ n then f i else c, by simpa using h0, by simp, ?_⟩
    intro i hi
    rcases Nat.lt_or_eq_of_le (Nat.lt_succ_iff.1 hi) with h | rfl
    · simp only [show i ≤ n by omega, if_true, show i + 1 ≤ n by omega]
      exact hf i h
    · simp only [le_refl, if_true, show ¬ i + 1 ≤ i by omega, if_false]
      rw [hn]; exact hbc

/-- `n` nodes with property `H` lead from `x` to `y` -/
def Through (A : V → V → Prop) (H : V → Prop) (x y : V) (n : Nat) : Prop :=
  ∃ p : Nat → V, p 0 = x ∧ p (n + 1) = y ∧ (∀ i, 1 ≤ i → i ≤ n → H (p i)) ∧ ∀ i ≤ n, A (p i) (p (i + 1))

/-- leaving out a part of the way -/
theorem Through.skip {A : V → V → Prop} {H : V → Prop} {x y : V} {n : Nat} {p : Nat → V} (h0 : p 0 = x) (hn : p (n + 1) = y)
    (hH : ∀ i, 1 ≤ i → i ≤ n → H (p i)) (hA : ∀ i ≤ n, A (p i) (p (i + 1))) {a d : Nat} (had : a + d ≤ n) (hd : A (p a) (p (a + d + 1))) :
    Through A H x y (n - d) := by
  refine ⟨fun i => if i ≤ a then p i else p (i + d), by simpa using h0, ?_, ?_, ?_⟩
  · simp only [show ¬ n - d + 1 ≤ a by omega, if_false]
    rw [show n - d + 1 + d = n + 1 by omega]; exact hn
  · intro i h1 h2
    by_cases h : i ≤ a
    · simp only [h, if_true]; exact hH i h1 (by omega)
    · simp only [h, if_false]; exact hH _ (by omega) (by omega)
  · intro i hi
    by_cases h : i + 1 ≤ a
    · simp only [h, show i ≤ a by omega, if_true]; exact hA i (by omega)
    · by_cases h' : i ≤ a
      · have : i = a := by omega
        subst this
        simp only [le_refl, if_true, show ¬ i + 1 ≤ i by omega, if_false]
        rw [show i + 1 + d = i + d + 1 by omega]; exact hd
      · simp only [h, h', if_false]
        have := hA (i + d) (by omega)
        rwa [show i + d + 1 = i + 1 + d by omega] at this

/-- nodes that surround `v` and are linked outside of its neighborhood are joined -/
theorem joined_of_through {A : V → V → Prop} (hs : ∀ x y, A x y → A y x) (hi : ∀ x, ¬ A x x) (hc : Chordal A) {H : V → Prop} {v x y : V}
    (hH : ∀ h, H h → h ≠ v ∧ ¬ A v h) (hx : A v x) (hy : A v y) (hxy : x ≠ y) (hp : ∃ n, Through A H x y n) : A x y := by
  classical
  by_contra hno
  obtain ⟨p, h0, hn, hh, hA⟩ := Nat.find_spec hp
  set n := Nat.find hp with hn0
  have hmin : ∀ m < n, ¬ Through A H x y m := fun m hm => Nat.find_min hp hm
  have hn1 : 1 ≤ n := by
    by_contra h
    have h00 : n = 0 := by omega
    rw [h00] at hn hA
    have := hA 0 (le_refl _)
    rw [h0] at this
    simp only [zero_add] at this hn
    rw [hn] at this
    exact hno this
  have hpv : ∀ i ≤ n + 1, p i ≠ v := by
    intro i hi' e
    by_cases h1 : i = 0
    · subst h1; rw [h0] at e; subst e; exact hi _ hx
    · by_cases h2 : i = n + 1
      · subst h2; rw [hn] at e; subst e; exact hi _ hy
      · exact (hH _ (hh i (by omega) (by omega))).1 e
  have hinj : ∀ i ≤ n + 1, ∀ j ≤ n + 1, i < j → p i ≠ p j := by
    intro i hi' j hj hij e
    by_cases hij1 : j = n + 1
    · subst hij1
      by_cases hi0 : i = 0
      · subst hi0; rw [h0, hn] at e; exact hxy e
      · have h1 := hA (i - 1) (by omega)
        rw [show i - 1 + 1 = i by omega, e] at h1
        have := Through.skip (H := H) h0 hn hh hA (a := i - 1) (d := n + 1 - i) (by omega) (by
          rw [show i - 1 + (n + 1 - i) + 1 = n + 1 by omega]; exact h1)
        exact hmin _ (by omega) this
    · have h1 := hA j (by omega)
      rw [← e] at h1
      have := Through.skip (H := H) h0 hn hh hA (a := i) (d := j - i) (by omega) (by
        rw [show i + (j - i) + 1 = j + 1 by omega]; exact h1)
      exact hmin _ (by omega) this
  have hcyc : Cycle A (n + 3) (fun i => if i = 0 then v else p (i - 1)) := by
    refine ⟨?_, ?_, ?_⟩
    · intro i hi' j hj e
      simp only at e
      by_cases h1 : i = 0
      · by_cases h2 : j = 0
        · omega
        · simp only [h1, h2, if_true, if_false] at e
          exact absurd e.symm (hpv _ (by omega))
      · by_cases h2 : j = 0
        · simp only [h1, h2, if_true, if_false] at e
          exact absurd e (hpv _ (by omega))
        · simp only [h1, h2, if_false] at e
          rcases Nat.lt_trichotomy (i - 1) (j - 1) with h | h | h
          · exact absurd e (hinj _ (by omega) _ (by omega) h)
          · omega
          · exact absurd e.symm (hinj _ (by omega) _ (by omega) h)
    · intro i hi'
      by_cases h1 : i = 0
      · subst h1
        simp only [if_true, zero_add, one_ne_zero, if_false, Nat.sub_self]
        rw [h0]; exact hx
      · simp only [h1, if_false, show ¬ i + 1 = 0 by omega, Nat.add_sub_cancel]
        have := hA (i - 1) (by omega)
        rwa [show i - 1 + 1 = i by omega] at this
    · simp only [show ¬ n + 3 - 1 = 0 by omega, if_false, if_true]
      rw [show n + 3 - 1 - 1 = n + 1 by omega, hn]
      exact hs _ _ hy
  obtain ⟨i, j, h1, h2, h3, h4⟩ := hc _ _ (by omega) hcyc
  simp only [show ¬ j = 0 by omega, if_false] at h4
  by_cases hi0 : i = 0
  · subst hi0
    simp only [if_true] at h4
    exact (hH _ (hh (j - 1) (by omega) (by omega))).2 h4
  · simp only [hi0, if_false] at h4
    have := Through.skip (H := H) h0 hn hh hA (a := i - 1) (d := j - i - 1) (by omega) (by
      rw [show i - 1 + (j - i - 1) + 1 = j - 1 by omega]; exact h4)
    exact hmin _ (by omega) this

/-- the neighbors of `w` in `T` are pairwise joined -/
def Simplicial (A : V → V → Prop) (T : Finset V) (w : V) : Prop := ∀ x ∈ T, ∀ y ∈ T, A w x → A w y → x ≠ y → A x y

/-- **Dirac's theorem** -/
theorem exists_simplicial [DecidableEq V] {A : V → V → Prop} (hs : ∀ x y, A x y → A y x) (hi : ∀ x, ¬ A x x) (hc : Chordal A) : ∀ (k : Nat) (T : Finset V),
    T.card ≤ k → (T.Nonempty → ∃ w ∈ T, Simplicial A T w) ∧
    ∀ v ∈ T, ∀ u ∈ T, u ≠ v → ¬ A v u → ∃ w ∈ T, w ≠ v ∧ ¬ A v w ∧ Simplicial A T w := by
  classical
  intro k
  induction k with
  | zero =>
    intro T hT
    have : T = ∅ := Finset.card_eq_zero.1 (by omega)
    subst this
    simp
  | succ k ih =>
    intro T hT
    have hb : ∀ v ∈ T, ∀ u ∈ T, u ≠ v → ¬ A v u → ∃ w ∈ T, w ≠ v ∧ ¬ A v w ∧ Simplicial A T w := by
      intro v hv u hu huv hAu
      set r : V → V → Prop := fun x y => A x y ∧ y ∈ T ∧ y ≠ v ∧ ¬ A v y with hr
      set H := T.filter (fun h => ReflTransGen r u h) with hHd
      have hHp : ∀ h ∈ H, h ∈ T ∧ h ≠ v ∧ ¬ A v h := by
        intro h hh
        obtain ⟨h1, h2⟩ := Finset.mem_filter.1 hh
        rcases ReflTransGen.cases_tail h2 with e | ⟨z, _, hz⟩
        · subst e; exact ⟨hu, huv, hAu⟩
        · exact ⟨hz.2.1, hz.2.2.1, hz.2.2.2⟩
      have huH : u ∈ H := Finset.mem_filter.2 ⟨hu, .refl⟩
      set S := T.filter (fun s => s ∉ H ∧ ∃ h ∈ H, A h s) with hSd
      have hnb : ∀ h ∈ H, ∀ y ∈ T, A h y → y ∈ H ∨ y ∈ S := by
        intro h hh y hy hhy
        by_cases hyH : y ∈ H
        · exact Or.inl hyH
        · exact Or.inr (Finset.mem_filter.2 ⟨hy, hyH, h, hh, hhy⟩)
      have hSv : ∀ s ∈ S, A v s := by
        intro s hsS
        obtain ⟨h1, h2, h, hh, hA⟩ := Finset.mem_filter.1 hsS
        by_contra hno
        have hsv : s ≠ v := by
          rintro rfl
          exact (hHp h hh).2.2 (hs _ _ hA)
        exact h2 (Finset.mem_filter.2 ⟨h1, (Finset.mem_filter.1 hh).2.tail ⟨hA, h1, hsv, hno⟩⟩)
      -- walks inside H
      have hwalk : ∀ h ∈ H, ReflTransGen (fun x y => A x y ∧ x ∈ H ∧ y ∈ H) u h := by
        intro h hh
        have h2 := (Finset.mem_filter.1 hh).2
        clear hh
        induction h2 with
        | refl => exact .refl
        | @tail b c hb hbc ihb =>
          refine ihb.tail ⟨hbc.1, ?_, ?_⟩
          · refine Finset.mem_filter.2 ⟨?_, hb⟩
            rcases ReflTransGen.cases_tail hb with e | ⟨z, _, hz⟩
            · subst e; exact hu
            · exact hz.2.1
          · exact Finset.mem_filter.2 ⟨hbc.2.1, hb.tail hbc⟩
      have hback : ∀ {a b : V}, ReflTransGen (fun x y => A x y ∧ x ∈ H ∧ y ∈ H) a b → ReflTransGen (fun x y => A x y ∧ x ∈ H ∧ y ∈ H) b a := by
        intro a b h
        induction h with
        | refl => exact .refl
        | tail _ hbc ihb => exact ReflTransGen.head ⟨hs _ _ hbc.1, hbc.2.2, hbc.2.1⟩ ihb
      have hScl : ∀ x ∈ S, ∀ y ∈ S, x ≠ y → A x y := by
        intro x hx y hy hxy
        refine joined_of_through hs hi hc (H := fun h => h ∈ H) (fun h hh => (hHp h hh).2) (hSv x hx) (hSv y hy) hxy ?_
        obtain ⟨_, _, h, hh, hhx⟩ := Finset.mem_filter.1 hx
        obtain ⟨_, _, g, hg, hgy⟩ := Finset.mem_filter.1 hy
        obtain ⟨n, f, f0, fn, hf⟩ := exists_walk ((hback (hwalk h hh)).trans (hwalk g hg))
        have hfH : ∀ i ≤ n, f i ∈ H := by
          intro i hi'
          by_cases h0 : i = n
          · subst h0; rw [fn]; exact hg
          · exact (hf i (by omega)).2.1
        refine ⟨n + 1, fun i => if i = 0 then x else if i = n + 2 then y else f (i - 1), by simp, by simp, ?_, ?_⟩
        · intro i h1 h2
          simp only [show ¬ i = 0 by omega, show ¬ i = n + 2 by omega, if_false]
          exact hfH _ (by omega)
        · intro i hi'
          by_cases h0 : i = 0
          · subst h0
            simp only [if_true, zero_add, one_ne_zero, if_false, show ¬ 1 = n + 2 by omega, Nat.sub_self]
            rw [f0]; exact hs _ _ hhx
          · by_cases h1 : i = n + 1
            · subst h1
              simp only [show ¬ n + 1 = 0 by omega, show ¬ n + 1 = n + 2 by omega, show ¬ n + 1 + 1 = 0 by omega, if_false,
                show n + 1 + 1 = n + 2 by omega, if_true, Nat.add_sub_cancel]
              rw [fn]; exact hgy
            · simp only [h0, show ¬ i = n + 2 by omega, show ¬ i + 1 = 0 by omega, show ¬ i + 1 = n + 2 by omega, if_false, Nat.add_sub_cancel]
              have := (hf (i - 1) (by omega)).1
              rwa [show i - 1 + 1 = i by omega] at this
      have hvT : v ∉ H ∪ S := by
        intro h
        rcases Finset.mem_union.1 h with h | h
        · exact (hHp v h).2.1 rfl
        · exact hi _ (hSv v h)
      have hsubT : H ∪ S ⊆ T := Finset.union_subset (Finset.filter_subset _ _) (Finset.filter_subset _ _)
      have hlt : (H ∪ S).card < T.card := Finset.card_lt_card ⟨hsubT, fun h => hvT (h hv)⟩
      have hltH : H.card ≤ (H ∪ S).card := Finset.card_le_card Finset.subset_union_left
      by_cases hun : ∃ s ∈ S, ∃ t ∈ H ∪ S, t ≠ s ∧ ¬ A s t
      · obtain ⟨s, hsS, t, ht, hts, hst⟩ := hun
        obtain ⟨w, hw, hws, hsw, hsim⟩ := (ih (H ∪ S) (by omega)).2 s (Finset.mem_union_right _ hsS) t ht hts hst
        have hwH : w ∈ H := by
          rcases Finset.mem_union.1 hw with h | h
          · exact h
          · exact absurd (hScl s hsS w h hws.symm) hsw
        refine ⟨w, (hHp w hwH).1, (hHp w hwH).2.1, (hHp w hwH).2.2, ?_⟩
        intro x hx y hy hwx hwy hxy
        exact hsim x (Finset.mem_union.2 (hnb w hwH x hx hwx)) y (Finset.mem_union.2 (hnb w hwH y hy hwy)) hwx hwy hxy
      · push Not at hun
        obtain ⟨w, hwH, hsim⟩ := (ih H (by omega)).1 ⟨u, huH⟩
        refine ⟨w, (hHp w hwH).1, (hHp w hwH).2.1, (hHp w hwH).2.2, ?_⟩
        intro x hx y hy hwx hwy hxy
        rcases hnb w hwH x hx hwx with hx' | hx'
        · rcases hnb w hwH y hy hwy with hy' | hy'
          · exact hsim x hx' y hy' hwx hwy hxy
          · exact hs _ _ (hun y hy' x (Finset.mem_union_left _ hx') hxy)
        · exact hun x hx' y (Finset.mem_union.2 (hnb w hwH y hy hwy)) hxy.symm
    refine ⟨?_, hb⟩
    intro hne
    by_cases hun : ∃ v ∈ T, ∃ u ∈ T, u ≠ v ∧ ¬ A v u
    · obtain ⟨v, hv, u, hu, huv, hA⟩ := hun
      obtain ⟨w, hw, _, _, hsim⟩ := hb v hv u hu huv hA
      exact ⟨w, hw, hsim⟩
    · push Not at hun
      obtain ⟨w, hw⟩ := hne
      exact ⟨w, hw, fun x hx y hy _ _ hxy => hun x hx y hy hxy.symm⟩

/-! ### polytrees -/

/-- `x` is `f` or a parent of `f` -/
def Fam (E : V → V → Prop) (f x : V) : Prop := x = f ∨ E x f

/-- a simple path inside a relation -/
theorem exists_simple_path [DecidableEq V] {E : V → V → Prop} {x y : V} (h : ReflTransGen E x y) :
    ∃ p : List V, p.head? = some x ∧ p.getLast? = some y ∧ p.IsChain E ∧ p.Nodup := by
  induction h with
  | refl => exact ⟨[x], rfl, rfl, by simp, by simp⟩
  | @tail b c _ hbc ih =>
    obtain ⟨p, h1, h2, h3, h4⟩ := ih
    by_cases hc : c ∈ p
    · obtain ⟨s, t, rfl⟩ := List.append_of_mem hc
      refine ⟨s ++ [c], ?_, by simp, ?_, ?_⟩
      · cases s with
        | nil => simpa using h1
        | cons a s => simpa using h1
      · exact h3.prefix ⟨t, by simp⟩
      · exact h4.sublist (by simp)
    · refine ⟨p ++ [c], ?_, by simp, ?_, ?_⟩
      · cases p with
        | nil => simp at h1
        | cons a p => simpa using h1
      · rw [List.isChain_append]
        refine ⟨h3, by simp, ?_⟩
        intro a ha d hd
        rw [h2] at ha
        simp at ha hd
        subst ha; subst hd
        exact hbc
      · rw [List.nodup_append]
        refine ⟨h4, by simp, ?_⟩
        intro a ha b' hb'
        simp at hb'
        subst hb'
        rintro rfl
        exact hc ha

/-- an edge of a polytree is the only connection of its two ends -/
theorem Polytree.bridge {E : V → V → Prop} (h : Polytree E) {a b : V} (hab : E a b)
    (hw : ReflTransGen (fun x y => Adj E x y ∧ ¬ (x = a ∧ y = b) ∧ ¬ (x = b ∧ y = a)) b a) : False := by
  classical
  obtain ⟨p, h1, h2, h3, h4⟩ := exists_simple_path hw
  have hne : b ≠ a := by rintro rfl; exact h.1 _ _ hab hab
  have e := h.2 b a p [b, a] ⟨h1, h2, h3.imp (fun _ _ h => h.1), h4⟩ ⟨rfl, rfl, by simp [Adj, hab], by simp [hne]⟩
  subst e
  simp at h3

/-- a step along an edge that does not end in `f` -/
def Aside (E : V → V → Prop) (f a b : V) : Prop := (E a b ∧ b ≠ f) ∨ (E b a ∧ a ≠ f)

theorem Aside.back {E : V → V → Prop} {f a b : V} (h : ReflTransGen (Aside E f) a b) : ReflTransGen (Aside E f) b a := by
  induction h with
  | refl => exact .refl
  | tail _ hbc ih => exact ReflTransGen.head (hbc.symm) ih

theorem Polytree.no_detour {E : V → V → Prop} (h : Polytree E) {f x y : V} (hx : Fam E f x) (hy : E y f) (hxy : x ≠ y)
    (hw : ReflTransGen (Aside E f) x y) : False := by
  have hyf : y ≠ f := by rintro rfl; exact h.1 _ _ hy hy
  refine h.bridge hy (ReflTransGen.trans (b := x) ?_ (ReflTransGen.mono ?_ _ _ hw))
  · rcases hx with e | hx
    · rw [e]
    · exact .single ⟨Or.inr hx, fun e => hyf e.1.symm, fun e => hxy e.2⟩
  · rintro a b (⟨hab, hb⟩ | ⟨hba, ha⟩)
    · exact ⟨Or.inl hab, fun e => hb e.2, fun e => h.1 _ _ hy (e.1 ▸ e.2 ▸ hab)⟩
    · exact ⟨Or.inr hba, fun e => h.1 _ _ hy (e.1 ▸ e.2 ▸ hba), fun e => ha e.1⟩

/-- two members of a family are not linked through other families -/
theorem Polytree.fam_bridge {E : V → V → Prop} (h : Polytree E) {f x y : V} (hx : Fam E f x) (hy : Fam E f y) (hxy : x ≠ y)
    (hw : ReflTransGen (fun a b => ∃ g, g ≠ f ∧ Fam E g a ∧ Fam E g b) x y) : False := by
  have hlift : ReflTransGen (Aside E f) x y := by
    refine ReflTransGen.lift' id ?_ _ _ hw
    rintro b c ⟨g, hg, hb, hc⟩
    refine ReflTransGen.trans (b := g) ?_ ?_
    · rcases hb with e | hb
      · rw [e]; exact .refl
      · exact .single (Or.inl ⟨hb, hg⟩)
    · rcases hc with e | hc
      · rw [e]; exact .refl
      · exact .single (Or.inr ⟨hc, hg⟩)
  rcases hy with e | hy'
  · rcases hx with e' | hx'
    · exact hxy (e'.trans e.symm)
    · exact h.no_detour (Or.inl e) hx' hxy.symm (Aside.back hlift)
  · exact h.no_detour hx hy' hxy hlift

/-- the moral graph: two different members of a family -/
def InFam (E : V → V → Prop) (x y : V) : Prop := x ≠ y ∧ ∃ f, Fam E f x ∧ Fam E f y

theorem InFam.symm {E : V → V → Prop} {x y : V} (h : InFam E x y) : InFam E y x :=
  ⟨h.1.symm, h.2.elim fun f hf => ⟨f, hf.2, hf.1⟩⟩

/-- the moral graph of a polytree is chordal -/
theorem Polytree.chordal {E : V → V → Prop} (h : Polytree E) : Chordal (InFam E) := by
  intro n c hn hcyc
  by_contra hno
  obtain ⟨h1, h2, h3⟩ := hcyc
  have hch : ∀ i j, i + 1 < j → j < n → ¬ (i = 0 ∧ j + 1 = n) → ∀ f, Fam E f (c i) → Fam E f (c j) → False := by
    intro i j hij hj hh f hi' hj'
    refine hno ⟨i, j, hij, hj, hh, ?_, f, hi', hj'⟩
    intro e
    have := h1 i (by omega) j hj e
    omega
  obtain ⟨hne, f, f0, f1⟩ := h2 0 (by omega)
  simp only [zero_add] at f1 hne
  -- the other links use other families
  have hstep : ∀ i, 1 ≤ i → i + 1 < n → ∃ g, g ≠ f ∧ Fam E g (c i) ∧ Fam E g (c (i + 1)) := by
    intro i hi hi'
    obtain ⟨_, g, g0, g1⟩ := h2 i hi'
    refine ⟨g, ?_, g0, g1⟩
    rintro rfl
    by_cases hi1 : i = 1
    · subst hi1
      exact hch 0 2 (by omega) (by omega) (by omega) g f0 g1
    · exact hch 0 i (by omega) (by omega) (by omega) g f0 g0
  have hlast : ∃ g, g ≠ f ∧ Fam E g (c (n - 1)) ∧ Fam E g (c 0) := by
    obtain ⟨_, g, g0, g1⟩ := h3
    refine ⟨g, ?_, g0, g1⟩
    rintro rfl
    exact hch 1 (n - 1) (by omega) (by omega) (by omega) g f1 g0
  have hwalk : ∀ k, 1 ≤ k → k < n → ReflTransGen (fun a b => ∃ g, g ≠ f ∧ Fam E g a ∧ Fam E g b) (c 1) (c k) := by
    intro k
    induction k with
    | zero => omega
    | succ k ih =>
      intro _ hk
      by_cases hk0 : k = 0
      · subst hk0; exact .refl
      · exact (ih (by omega) (by omega)).tail (hstep k (by omega) hk)
  exact h.fam_bridge f1 f0 hne.symm ((hwalk (n - 1) (by omega) (by omega)).tail hlast)

/-- nodes of a polytree that are pairwise in a family are all in one -/
theorem Polytree.helly {E : V → V → Prop} (h : Polytree E) {Q : V → Prop} (hQ : Complete (InFam E) Q) {x : V} (hx : Q x) :
    ∃ f, ∀ y, Q y → Fam E f y := by
  by_cases hy : ∃ y, Q y ∧ y ≠ x
  · obtain ⟨y, hy, hyx⟩ := hy
    obtain ⟨_, f, fx, fy⟩ := hQ x y hx hy hyx.symm
    refine ⟨f, ?_⟩
    intro z hz
    by_contra hfz
    have hzx : z ≠ x := by rintro rfl; exact hfz fx
    have hzy : z ≠ y := by rintro rfl; exact hfz fy
    obtain ⟨_, g, gx, gz⟩ := hQ x z hx hz hzx.symm
    obtain ⟨_, k, kz, ky⟩ := hQ z y hz hy hzy
    have hg : g ≠ f := by rintro rfl; exact hfz gz
    have hk : k ≠ f := by rintro rfl; exact hfz kz
    exact h.fam_bridge fx fy hyx.symm ((ReflTransGen.single ⟨g, hg, gx, gz⟩).tail ⟨k, hk, kz, ky⟩)
  · push Not at hy
    exact ⟨x, fun y hQy => Or.inl (hy y hQy)⟩

end PyBBN.Chord
