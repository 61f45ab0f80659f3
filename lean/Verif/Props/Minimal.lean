import Verif.Props.Do

/-!
# Are minimal confounders and mediators minimal? (C115)
-/

namespace PyBBN
open Relation Do DSep

section
variable {V : Type} [DecidableEq V] {g : DiG V}

/-- `Z` blocks every path of the family -/
def Blocks (E : V → V → Prop) (F : List V → Prop) (Z : V → Prop) : Prop := ∀ p, F p → ¬ Open E Z p

/-- no two paths of the family share a node other than `x` and `y` -/
def Apart (F : List V → Prop) (x y : V) : Prop := ∀ p q, F p → F q → ∀ n ∈ p, n ∈ q → n ≠ x → n ≠ y → p = q

/-- the backdoor paths from `x` to `y` with an inner node that are open without evidence -/
def OpenBackdoor (E : V → V → Prop) (x y : V) (p : List V) : Prop := IsPath E x y p ∧ Backdoor E p ∧ Open E DSep.none p ∧ 3 ≤ p.length

/-- the directed paths from `x` to `y` with an inner node -/
def DirectedPath (E : V → V → Prop) (x y : V) (p : List V) : Prop := IsPath E x y p ∧ p.IsChain E ∧ 3 ≤ p.length

/-- a path without colliders is blocked only by one of its inner nodes -/
theorem inner_of_blocked {E : V → V → Prop} {x y : V} {p : List V} (hp : IsPath E x y p) (ho : Open E DSep.none p) {Z : V → Prop}
    (hb : ¬ Open E Z p) : ∃ n ∈ p, n ≠ x ∧ n ≠ y ∧ Z n := by
  by_contra hno
  push Not at hno
  apply hb
  rw [open_iff]
  intro t ht
  refine ⟨fun hc => absurd (colliderOn_iff.2 ⟨t, ht, rfl, hc.1, hc.2⟩) (open_none.1 ho _), fun _ hz => ?_⟩
  obtain ⟨i, h1, h2, h3⟩ := (mem_trips p t.1 t.2.1 t.2.2).1 ht
  have hn := hp.simple
  obtain ⟨i0, e0⟩ := List.getElem?_eq_some_iff.1 h1
  obtain ⟨i1, e1⟩ := List.getElem?_eq_some_iff.1 h2
  obtain ⟨i2, e2⟩ := List.getElem?_eq_some_iff.1 h3
  refine hno t.2.1 (List.mem_of_getElem? h2) ?_ ?_ hz
  · intro e
    have hs := hp.start
    rw [List.head?_eq_getElem?, List.getElem?_eq_getElem (by omega : 0 < p.length), ← e, ← e1] at hs
    have := (hn.getElem_inj_iff).1 (Option.some.inj hs)
    omega
  · intro e
    have hs := hp.stop
    rw [List.getLast?_eq_getElem?, List.getElem?_eq_getElem (by omega : p.length - 1 < p.length), ← e, ← e1] at hs
    have := (hn.getElem_inj_iff).1 (Option.some.inj hs)
    omega

/-- sets that consist of one inner node per path -/
theorem choice_minimal {E : V → V → Prop} {F : List V → Prop} {x y : V} (hF : ∀ p, F p → IsPath E x y p ∧ Open E DSep.none p) {c : List V → V}
    (hc : ∀ p, F p → c p ∈ p ∧ c p ≠ x ∧ c p ≠ y) {r : List V} (hr : r.Nodup) (hrc : ∀ n ∈ r, ∃ p, F p ∧ c p = n) :
    (∀ ps : List (List V), (∀ p, F p → p ∈ ps) → r.length ≤ ps.length) ∧
    (Apart F x y → (∀ Z : V → Prop, (∀ n, Z n → n ∈ r) → ∀ n ∈ r, ¬ Z n → ¬ Blocks E F Z) ∧
      ∀ zs : List V, Blocks E F (· ∈ zs) → r.length ≤ zs.length) := by
  choose! f hf1 hf2 using hrc
  have hfi : ∀ a ∈ r, ∀ b ∈ r, f a = f b → a = b := by
    intro a ha b hb e
    rw [← hf2 a ha, ← hf2 b hb, e]
  have hlen : ∀ {W : Type} (h : V → W) (ws : List W), (∀ n ∈ r, h n ∈ ws) → (∀ a ∈ r, ∀ b ∈ r, h a = h b → a = b) → r.length ≤ ws.length := by
    intro W h ws h1 h2
    have hnd : (r.map h).Nodup := (List.nodup_map_iff_inj_on hr).2 h2
    have := (hnd.subperm (l₂ := ws) (by
      intro w hw
      obtain ⟨n, hn, rfl⟩ := List.mem_map.1 hw
      exact h1 n hn)).length_le
    rwa [List.length_map] at this
  refine ⟨fun ps hps => hlen f ps (fun n hn => hps _ (hf1 n hn)) hfi, fun hap => ⟨?_, ?_⟩⟩
  · intro Z hZ n hn hnZ hbl
    obtain ⟨h1, h2⟩ := hF _ (hf1 n hn)
    obtain ⟨m, hm1, hm2, hm3, hm4⟩ := inner_of_blocked h1 h2 (hbl _ (hf1 n hn))
    have hmr := hZ m hm4
    have hmp : m ∈ f m := by have := (hc _ (hf1 m hmr)).1; rwa [hf2 m hmr] at this
    have e := hap _ _ (hf1 n hn) (hf1 m hmr) m hm1 hmp hm2 hm3
    rw [hfi n hn m hmr e] at hnZ
    exact hnZ hm4
  · intro zs hbl
    have hz : ∀ n ∈ r, ∃ m, m ∈ f n ∧ m ≠ x ∧ m ≠ y ∧ m ∈ zs := by
      intro n hn
      obtain ⟨h1, h2⟩ := hF _ (hf1 n hn)
      obtain ⟨m, hm1, hm2, hm3, hm4⟩ := inner_of_blocked h1 h2 (hbl _ (hf1 n hn))
      exact ⟨m, hm1, hm2, hm3, hm4⟩
    choose! k hk using hz
    refine hlen k zs (fun n hn => (hk n hn).2.2.2) ?_
    intro a ha b hb e
    refine hfi a ha b hb (hap _ _ (hf1 a ha) (hf1 b hb) (k a) (hk a ha).1 ?_ (hk a ha).2.1 (hk a ha).2.2.1)
    rw [e]
    exact (hk b hb).1

/-- **C115, partial**, confounders. Full statement (false of the code, see `c115_false`): no proper subset of what
`get_minimal_confounders` returns blocks the backdoor paths that are open without evidence, and no smaller set does. Proved here: the
returned set blocks these paths and has at most one node for each of them; when no two of them share an inner node, leaving out any node
unblocks a path, and no set with fewer nodes blocks them all. Missing: paths that share nodes. -/
theorem c115_confounders_partial (it : SetIter V) (hg : g.WF) (hac : g.Acyclic) {x y : V} (hxy : x ≠ y) :
    ∃ r, minimalConfounders it g x y = .ok r ∧ r.Nodup ∧ Blocks g.E (OpenBackdoor g.E x y) (· ∈ r) ∧
      (∀ ps : List (List V), (∀ p, OpenBackdoor g.E x y p → p ∈ ps) → r.length ≤ ps.length) ∧
      (Apart (OpenBackdoor g.E x y) x y →
        (∀ Z : V → Prop, (∀ n, Z n → n ∈ r) → ∀ n ∈ r, ¬ Z n → ¬ Blocks g.E (OpenBackdoor g.E x y) Z) ∧
        ∀ zs : List V, Blocks g.E (OpenBackdoor g.E x y) (· ∈ zs) → r.length ≤ zs.length) := by
  obtain ⟨r, h1, h2, c, h3, h4⟩ := minimalConfounders_choice it hg hac.noAnti hxy
  have hcp : ∀ p, OpenBackdoor g.E x y p → c p ∈ p ∧ c p ≠ x ∧ c p ≠ y := fun p hp => h3 p hp.1 hp.2.1 hp.2.2.1 hp.2.2.2
  refine ⟨r, h1, h2, ?_, choice_minimal (F := OpenBackdoor g.E x y) (fun p hp => ⟨hp.1, hp.2.2.1⟩) hcp h2 ?_⟩
  · intro p hp
    obtain ⟨k1, k2, k3⟩ := hcp p hp
    exact blocked_by hp.1 hp.2.2.1 k1 k2 k3 ((h4 _).2 ⟨p, hp.1, hp.2.1, hp.2.2.1, hp.2.2.2, rfl⟩)
  · intro n hn
    obtain ⟨p, k1, k2, k3, k4, k5⟩ := (h4 n).1 hn
    exact ⟨p, ⟨k1, k2, k3, k4⟩, k5⟩

/-- **C115, partial**, mediators: the same for `get_minimal_mediators` and the directed paths, except that directed paths may be left
unblocked (`c55_false`). -/
theorem c115_mediators_partial (it : SetIter V) (hg : g.WF) (hac : g.Acyclic) {x y : V} (hxy : x ≠ y) :
    ∃ r, minimalMediators it g x y = .ok r ∧ r.Nodup ∧
      (∀ ps : List (List V), (∀ p, DirectedPath g.E x y p → p ∈ ps) → r.length ≤ ps.length) ∧
      (Apart (DirectedPath g.E x y) x y →
        (∀ Z : V → Prop, (∀ n, Z n → n ∈ r) → ∀ n ∈ r, ¬ Z n → ¬ Blocks g.E (DirectedPath g.E x y) Z) ∧
        ∀ zs : List V, Blocks g.E (DirectedPath g.E x y) (· ∈ zs) → r.length ≤ zs.length) := by
  obtain ⟨r, h1, h2, c, h3, h4⟩ := minimalMediators_choice it hg hac.noAnti hxy
  refine ⟨r, h1, h2, choice_minimal (F := DirectedPath g.E x y) (c := c) (fun p hp => ⟨hp.1, ?_⟩) (fun p hp => h3 p hp.1 hp.2.1 hp.2.2) h2 ?_⟩
  · rw [open_none]
    intro m hm
    obtain ⟨t, ht, _, k5, k6⟩ := colliderOn_iff.1 hm
    exact hac.noAnti _ _ k6 (chain_trips _ hp.2.1 t ht).2
  · intro n hn
    obtain ⟨⟨p, k1, k2, k3, k4⟩, _⟩ := (h4 n).1 hn
    exact ⟨p, ⟨k1, k2, k3⟩, k4⟩

end

/-! ### concrete graphs -/

/-- 0 ← 2 → 3 and 0 ← 2 ← 1 → 3 -/
def c115_g : DiG Nat := diG [(2, 0), (2, 3), (1, 2), (1, 3)]

/-- 0 → 2 → 3 and 0 → 2 → 1 → 3 -/
def c115_h : DiG Nat := diG [(0, 2), (2, 3), (2, 1), (1, 3)]

theorem c115_g_acyclic : c115_g.Acyclic := DiG.acyclic_of_rank (fun n => if n = 1 then 0 else if n = 2 then 1 else 2) (by decide)

theorem c115_h_acyclic : c115_h.Acyclic := DiG.acyclic_of_rank (fun n => if n = 0 then 0 else if n = 2 then 1 else if n = 1 then 2 else 3) (by decide)

/-- **C115 is false of the code**: both nodes are returned although 2 alone blocks everything, and what is returned depends on the order
in which a set is iterated -/
theorem c115_false :
    (c115_g.WF ∧ c115_g.Acyclic ∧ (minimalConfounders .rev c115_g 0 3).val? = some [1, 2] ∧
      (minimalConfounders .same c115_g 0 3).val? = some [2] ∧ Blocks c115_g.E (OpenBackdoor c115_g.E 0 3) (· ∈ [2])) ∧
    (c115_h.WF ∧ c115_h.Acyclic ∧ (minimalMediators .rev c115_h 0 3).val? = some [1, 2] ∧
      (minimalMediators .same c115_h 0 3).val? = some [2] ∧ Blocks c115_h.E (DirectedPath c115_h.E 0 3) (· ∈ [2])) := by
  refine ⟨⟨diG_wf _, c115_g_acyclic, by decide +kernel, by decide +kernel, ?_⟩, diG_wf _, c115_h_acyclic, by decide +kernel, by decide +kernel, ?_⟩
  · intro p hp
    have h2 : 2 ∈ p := by
      have := (c39_all_paths (g := c115_g) (diG_wf _) (by decide) p).2 hp.1
      have e : ∀ p ∈ allPaths c115_g 0 3, 2 ∈ p := by decide +kernel
      exact e p this
    exact blocked_by hp.1 hp.2.2.1 h2 (by decide) (by decide) (by simp)
  · intro p hp
    have h2 : 2 ∈ p := by
      have := (c39_all_paths (g := c115_h) (diG_wf _) (by decide) p).2 hp.1
      have e : ∀ p ∈ allPaths c115_h 0 3, 2 ∈ p := by decide +kernel
      exact e p this
    refine blocked_by hp.1 ?_ h2 (by decide) (by decide) (by simp)
    rw [open_none]
    intro m hm
    obtain ⟨t, ht, _, k5, k6⟩ := colliderOn_iff.1 hm
    exact c115_h_acyclic.noAnti _ _ k6 (chain_trips _ hp.2.1 t ht).2

/-- 0 ← 1 → 5, 0 ← 2 → 5, 0 → 3 → 5 and 0 → 4 → 5: no two paths meet -/
def c115_k : DiG Nat := diG [(1, 0), (1, 5), (2, 0), (2, 5), (0, 3), (3, 5), (0, 4), (4, 5)]

theorem c115_k_acyclic : c115_k.Acyclic := DiG.acyclic_of_rank (fun n => if n = 0 then 1 else if n < 3 then 0 else if n = 5 then 3 else 2) (by decide)

theorem c115_k_apart (F : List Nat → Prop) (hF : ∀ p, F p → IsPath c115_k.E 0 5 p) : Apart F 0 5 := by
  intro p q hp hq n hn hn' h0 h5
  have h1 := (c39_all_paths (g := c115_k) (diG_wf _) (by decide) p).2 (hF p hp)
  have h2 := (c39_all_paths (g := c115_k) (diG_wf _) (by decide) q).2 (hF q hq)
  have e : ∀ p ∈ allPaths c115_k 0 5, ∀ q ∈ allPaths c115_k 0 5, ∀ n ∈ p, n ∈ q → n ≠ 0 → n ≠ 5 → p = q := by decide +kernel
  exact e p h1 q h2 n hn hn' h0 h5

/-- C115 is not vacuous: two confounders and two mediators are returned, and no set of one node would do -/
example : (minimalConfounders .same c115_k 0 5).val? = some [1, 2] ∧ (minimalMediators .same c115_k 0 5).val? = some [3, 4] ∧
    (∀ zs : List Nat, Blocks c115_k.E (OpenBackdoor c115_k.E 0 5) (· ∈ zs) → 2 ≤ zs.length) ∧
    (∀ zs : List Nat, Blocks c115_k.E (DirectedPath c115_k.E 0 5) (· ∈ zs) → 2 ≤ zs.length) := by
  have e1 : (minimalConfounders .same c115_k 0 5).val? = some [1, 2] := by decide +kernel
  have e2 : (minimalMediators .same c115_k 0 5).val? = some [3, 4] := by decide +kernel
  refine ⟨e1, e2, ?_, ?_⟩
  · obtain ⟨r, h1, _, _, _, h⟩ := c115_confounders_partial .same (g := c115_k) (diG_wf _) c115_k_acyclic (x := 0) (y := 5) (by decide)
    rw [h1] at e1
    cases Option.some.inj e1
    exact (h (c115_k_apart _ (fun p hp => hp.1))).2
  · obtain ⟨r, h1, _, _, h⟩ := c115_mediators_partial .same (g := c115_k) (diG_wf _) c115_k_acyclic (x := 0) (y := 5) (by decide)
    rw [h1] at e2
    cases Option.some.inj e2
    exact (h (c115_k_apart _ (fun p hp => hp.1))).2

end PyBBN
