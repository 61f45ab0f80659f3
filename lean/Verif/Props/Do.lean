import Verif.Proofs.Do

/-!
# `pybbn/causality/do.py`: path activity, confounders, mediators (C39, C40, C41, C55)
-/

namespace PyBBN
open Relation DSep Do
variable {V : Type} [DecidableEq V] {g : DiG V}

omit [DecidableEq V] in
theorem DiG.Acyclic.noAnti (h : g.Acyclic) : g.NoAnti := fun a _ h1 h2 => h a (TransGen.head h1 (TransGen.single h2))

/-- **C39**: on a path with an interior node, `is_active_path` with a set as evidence never raises and answers whether the path is
open; `get_all_paths` lists exactly the simple paths, and `get_colliders` the colliders -/
theorem c39_path_activity (hg : g.WF) (hac : g.Acyclic) {x y : V} {p : List V} (hp : IsPath g.E x y p) (h3 : 3 ≤ p.length) (ev : List V) :
    ∃ r, isActivePath g p ⟨true, ev⟩ = .ok r ∧ (r = true ↔ Open g.E (· ∈ ev) p) :=
  isActivePath_ok hg hac.noAnti h3 hp.chain ⟨true, ev⟩ (Or.inl rfl)

/-- **C39**: on an edge, it answers whether both ends are outside the evidence -/
theorem c39_edge {x y : V} (ev : PyColl V) :
    ∃ r, isActivePath g [x, y] ev = .ok r ∧ (r = true ↔ x ∉ ev.elems ∧ y ∉ ev.elems) := by
  refine ⟨_, by simp only [isActivePath]; rfl, ?_⟩
  simp [not_or]

/-- **C39**: `get_all_paths` lists the simple paths between two nodes, and nothing else -/
theorem c39_all_paths (hg : g.WF) {x y : V} (hxy : x ≠ y) (p : List V) : p ∈ allPaths g x y ↔ IsPath g.E x y p := mem_allPaths hg hxy p

/-- **C39**: `get_paths` describes every simple path correctly -/
theorem c39_get_paths (it : SetIter V) (hg : g.WF) (hac : g.Acyclic) {x y : V} (hxy : x ≠ y) :
    ∃ ms, getPaths it g x y = .ok ms ∧ (∀ p, IsPath g.E x y p ↔ ∃ m ∈ ms, m.path = p) ∧ ∀ m ∈ ms,
      (m.isActive = true ↔ Open g.E DSep.none m.path) ∧ (∀ n, n ∈ m.colliders ↔ ColliderOn g.E m.path n) ∧
      (m.backdoor = true ↔ Backdoor g.E m.path) ∧ (m.frontdoor = true ↔ Frontdoor g.E m.path) ∧
      ∀ n, n ∈ m.z ↔ n ∈ m.path ∧ n ≠ x ∧ n ≠ y ∧ ¬ ColliderOn g.E m.path n := by
  obtain ⟨ms, h1, h2, h3⟩ := getPaths_ok it hg hac.noAnti hxy
  refine ⟨ms, h1, fun p => ⟨h3 p, ?_⟩, fun m hm => ⟨(h2 m hm).active, (h2 m hm).colliders, (h2 m hm).backdoor, (h2 m hm).frontdoor, (h2 m hm).z⟩⟩
  rintro ⟨m, hm, rfl⟩
  exact (h2 m hm).isPath

/-- **C40** (partial: `c40_false` below shows that the returned set need not be an adjustment set): `get_minimal_confounders` never
raises; what it returns are inner nodes of backdoor paths that are open without evidence, each such path with an inner node is blocked
by the returned set; and the returned set satisfies the back-door criterion exactly when it has no descendant of `x` and opens no path,
provided `y` does not point at `x` -/
theorem c40_minimal_confounders_partial (it : SetIter V) (hg : g.WF) (hac : g.Acyclic) {x y : V} (hxy : x ≠ y) :
    ∃ r, minimalConfounders it g x y = .ok r ∧ r.Nodup ∧
      (∀ n ∈ r, n ≠ x ∧ n ≠ y ∧ ∃ p, IsPath g.E x y p ∧ Backdoor g.E p ∧ Open g.E DSep.none p ∧ n ∈ p) ∧
      (∀ p, IsPath g.E x y p → Backdoor g.E p → Open g.E DSep.none p → 3 ≤ p.length → ¬ Open g.E (· ∈ r) p) ∧
      (¬ g.E y x → (ValidAdjustment g.E x y (· ∈ r) ↔ (∀ n ∈ r, ¬ ReflTransGen g.E x n) ∧
        ∀ p, IsPath g.E x y p → Backdoor g.E p → ¬ Open g.E DSep.none p → ¬ Open g.E (· ∈ r) p)) := by
  obtain ⟨r, h1, h2, h3, h4⟩ := minimalConfounders_ok it hg hac.noAnti hxy
  have hb : ∀ p, IsPath g.E x y p → Backdoor g.E p → Open g.E DSep.none p → 3 ≤ p.length → ¬ Open g.E (· ∈ r) p := by
    intro p hp hbp ho hl
    obtain ⟨n, hn, k1, k2, k3⟩ := h4 p hp hbp ho hl
    exact blocked_by hp ho k1 k2 k3 hn
  refine ⟨r, h1, h2, h3, hb, fun hyx => ?_⟩
  constructor
  · rintro ⟨k1, k2⟩
    exact ⟨k1, fun p hp hbp _ => k2 p hp hbp⟩
  · rintro ⟨k1, k2⟩
    refine ⟨k1, fun p hp hbp => ?_⟩
    by_cases ho : Open g.E DSep.none p
    · refine hb p hp hbp ho ?_
      obtain ⟨b, l, rfl⟩ := path_cons hp hxy
      cases l with
      | cons c l => simp
      | nil =>
        exfalso
        have hs := hp.stop
        simp at hs
        subst hs
        obtain ⟨_, _, _, e, h⟩ := hbp
        cases e
        exact hyx h
    · exact k2 p hp hbp ho

/-- **C41**: `get_all_confounders` never raises and returns exactly the nodes on backdoor paths open without evidence that are neither `y`
nor `x` nor a descendant of `x`, nor a collider on a backdoor path closed without evidence -/
theorem c41_all_confounders (it : SetIter V) (hg : g.WF) (hac : g.Acyclic) {x y : V} (hxy : x ≠ y) (hx : x ∈ g.nodes) :
    ∃ r, allConfounders it g x y = .ok r ∧ r.Nodup ∧ ∀ n, n ∈ r ↔
      (∃ p, IsPath g.E x y p ∧ Backdoor g.E p ∧ Open g.E DSep.none p ∧ n ∈ p) ∧ n ≠ y ∧ ¬ ReflTransGen g.E x n ∧
      ∀ p, IsPath g.E x y p → Backdoor g.E p → ¬ Open g.E DSep.none p → ¬ ColliderOn g.E p n :=
  allConfounders_ok it hg hac.noAnti hxy hx

/-- **C55** (partial: `c55_false` below shows that a directed path may be left unblocked): `get_minimal_mediators` never raises; what
it returns lies strictly between `x` and `y` on a directed path, and is a collider on no path between them; a directed path none of
whose inner nodes is a collider on another path is blocked by the returned set -/
theorem c55_minimal_mediators_partial (it : SetIter V) (hg : g.WF) (hac : g.Acyclic) {x y : V} (hxy : x ≠ y) :
    ∃ r, minimalMediators it g x y = .ok r ∧ r.Nodup ∧
      (∀ n ∈ r, TransGen g.E x n ∧ TransGen g.E n y ∧ ∀ p, IsPath g.E x y p → ¬ ColliderOn g.E p n) ∧
      ∀ p, IsPath g.E x y p → p.IsChain g.E → 3 ≤ p.length →
        (∀ n ∈ p, n ≠ x → n ≠ y → ∀ q, IsPath g.E x y q → ¬ ColliderOn g.E q n) → ¬ Open g.E (· ∈ r) p := by
  obtain ⟨r, h1, h2, h3, h4⟩ := minimalMediators_ok it hg hac.noAnti hxy
  refine ⟨r, h1, h2, ?_, ?_⟩
  · intro n hn
    obtain ⟨⟨p, hp, hd, hnp, hnx, hny⟩, hc⟩ := h3 n hn
    obtain ⟨b, l, rfl⟩ := path_cons hp hxy
    have := directed_reach (b :: l) x y hd hp.stop n (by
      rcases List.mem_cons.1 hnp with h | h
      · exact absurd h hnx
      · exact h)
    refine ⟨this.1, ?_, hc⟩
    rcases (reflTransGen_iff_eq_or_transGen.1 this.2) with h | h
    · exact absurd h.symm hny
    · exact h
  · intro p hp hd hl hcol
    obtain ⟨n, k1, k2, k3, k4⟩ := h4 p hp hd hl
    have hr : n ∈ r := by
      rcases k4 with h | ⟨q, hq, hc⟩
      · exact h
      · exact absurd hc (hcol n k1 k2 k3 q hq)
    refine blocked_by hp ?_ k1 k2 k3 hr
    rw [open_none]
    intro m hm
    obtain ⟨t, ht, _, k5, k6⟩ := colliderOn_iff.1 hm
    exact hac.noAnti _ _ k6 (chain_trips _ hd t ht).2

/-! ### concrete graphs -/

omit [DecidableEq V] in
theorem DiG.acyclic_of_rank (rank : V → Nat) (h : ∀ e ∈ g.edges, rank e.1 < rank e.2) : g.Acyclic := by
  have : ∀ a b, TransGen g.E a b → rank a < rank b := by
    intro a b hab
    induction hab with
    | single h' => exact h _ h'
    | tail _ h' ih => exact lt_trans ih (h _ h')
  exact fun v hv => absurd (this v v hv) (lt_irrefl _)

/-- the graph with the given edges -/
def diG (es : List (Nat × Nat)) : DiG Nat := ⟨(es.flatMap (fun e => [e.1, e.2])).foldl setAdd [], es⟩

theorem diG_wf (es : List (Nat × Nat)) : (diG es).WF := by
  intro e he
  simp only [diG, mem_foldl_setAdd, List.mem_flatMap]
  exact ⟨Or.inr ⟨e, he, by simp⟩, Or.inr ⟨e, he, by simp⟩⟩

/-- 2 ← 1 → 0 → 3 and 2 → 0: the treatment 2 has the mediator 0 and the confounder 1 -/
def c40_g1 : DiG Nat := diG [(1, 2), (1, 0), (0, 3), (2, 0)]

theorem c40_g1_acyclic : c40_g1.Acyclic := DiG.acyclic_of_rank (fun n => if n = 1 then 0 else if n = 2 then 1 else if n = 0 then 2 else 3) (by decide)

/-- 3 ← 2 → 0 ← 1 → 4 and 0 → 3 -/
def c40_g2 : DiG Nat := diG [(2, 3), (2, 0), (1, 0), (1, 4), (0, 3)]

theorem c40_g2_acyclic : c40_g2.Acyclic :=
  DiG.acyclic_of_rank (fun n => if n = 1 then 0 else if n = 2 then 0 else if n = 0 then 1 else 2) (by decide)

theorem c40_g2_path : IsPath c40_g2.E 3 4 [3, 2, 0, 1, 4] := by
  refine ⟨rfl, rfl, ?_, by decide⟩
  simp only [List.isChain_cons_cons, List.isChain_singleton, and_true, Adj, DiG.E, c40_g2, diG]
  decide

/-- **C40 is false of the code**, in both ways. In the first graph the set iterated as `{0, 1}` gives `[0]`, a descendant of the treatment
`2`. In the second graph it gives `[0]`, which opens the backdoor path `3 ← 2 → 0 ← 1 → 4`. -/
theorem c40_false :
    (c40_g1.WF ∧ c40_g1.Acyclic ∧ ¬ c40_g1.E 3 2 ∧ (minimalConfounders .rev c40_g1 2 3).val? = some [0] ∧
      ¬ ValidAdjustment c40_g1.E 2 3 (· ∈ [0])) ∧
    (c40_g2.WF ∧ c40_g2.Acyclic ∧ ¬ c40_g2.E 4 3 ∧ (minimalConfounders .same c40_g2 3 4).val? = some [0] ∧ ¬ ReflTransGen c40_g2.E 3 0 ∧
      ¬ ValidAdjustment c40_g2.E 3 4 (· ∈ [0])) := by
  refine ⟨⟨diG_wf _, c40_g1_acyclic, by decide, by decide +kernel, ?_⟩, diG_wf _, c40_g2_acyclic, by decide, by decide +kernel, ?_, ?_⟩
  · intro h
    exact h.1 0 (by simp) (ReflTransGen.single (by unfold DiG.E; decide))
  · intro h
    rcases ReflTransGen.cases_head h with h | ⟨b, h, _⟩
    · cases h
    · simp [DiG.E, c40_g2, diG] at h
  · intro h
    refine h.2 _ c40_g2_path ⟨3, 2, _, rfl, by unfold DiG.E; decide⟩ ?_
    obtain ⟨r, h1, h2⟩ := c39_path_activity (g := c40_g2) (diG_wf _) c40_g2_acyclic c40_g2_path (by decide) [0]
    have h3 : (isActivePath c40_g2 [3, 2, 0, 1, 4] ⟨true, [0]⟩).val? = some true := by decide +kernel
    rw [h1] at h3
    exact h2.1 (Option.some.inj h3)

/-- C39, C40, C41, C55 are not vacuous: paths, evidence and answers in the two graphs -/
example : IsPath c40_g2.E 3 4 [3, 2, 0, 1, 4] ∧ (isActivePath c40_g2 [3, 2, 0, 1, 4] ⟨true, []⟩).val? = some false ∧
    (isActivePath c40_g2 [3, 2, 0, 1, 4] ⟨true, [3]⟩).val? = some true ∧
    (isActivePath c40_g2 [3, 2, 0, 1, 4] ⟨true, [0, 1]⟩).val? = some false ∧
    allPaths c40_g2 3 4 = [[3, 2, 0, 1, 4], [3, 0, 1, 4]] ∧
    (allConfounders .same c40_g2 3 4).val? = some [1] ∧ (allConfounders .same c40_g1 2 3).val? = some [1] ∧
    (minimalConfounders .same c40_g1 2 3).val? = some [1] ∧ (minimalMediators .same c40_g1 2 3).val? = some [0] :=
  ⟨c40_g2_path, by decide +kernel, by decide +kernel, by decide +kernel, by decide +kernel, by decide +kernel, by decide +kernel,
    by decide +kernel, by decide +kernel⟩

/-- the theorems at these graphs: the path 3 ← 2 → 0 ← 1 → 4, an edge, the treatment 2 with outcome 3 -/
example := c39_path_activity (diG_wf _) c40_g2_acyclic c40_g2_path (by decide) [3]
example := c39_edge (g := c40_g2) (x := 2) (y := 0) ⟨true, [2]⟩
example := c39_all_paths (diG_wf _ : c40_g2.WF) (x := 3) (y := 4) (by decide) [3, 0, 1, 4]
example := c39_get_paths .rev (diG_wf _) c40_g2_acyclic (x := 3) (y := 4) (by decide)
example := c40_minimal_confounders_partial .rev (diG_wf _) c40_g1_acyclic (x := 2) (y := 3) (by decide)
example := c41_all_confounders .same (diG_wf _) c40_g2_acyclic (x := 3) (y := 4) (by decide) (by decide)
example := c55_minimal_mediators_partial .same (diG_wf _) c40_g1_acyclic (x := 2) (y := 3) (by decide)

/-- on 0 → 1 → 2 → 3 either inner node can be returned -/
example : (diG [(0, 1), (1, 2), (2, 3)]).Acyclic ∧ (minimalMediators .same (diG [(0, 1), (1, 2), (2, 3)]) 0 3).val? = some [1] ∧
    (minimalMediators .rev (diG [(0, 1), (1, 2), (2, 3)]) 0 3).val? = some [2] :=
  ⟨DiG.acyclic_of_rank id (by decide), by decide +kernel, by decide +kernel⟩

/-- 0 → 1 → 3, and a common cause 2 of the mediator 1 and of 3 -/
def c55_g : DiG Nat := diG [(0, 1), (1, 3), (2, 1), (2, 3)]

theorem c55_g_acyclic : c55_g.Acyclic := DiG.acyclic_of_rank (fun n => if n = 2 then 0 else n) (by decide)

/-- **C55 is false of the code**: the only directed path from 0 to 3 goes through 1, but no mediator is returned, because 1 is a collider
on `0 → 1 ← 2 → 3`; so the directed path stays open -/
theorem c55_false : c55_g.WF ∧ c55_g.Acyclic ∧ (minimalMediators .same c55_g 0 3).val? = some [] ∧
    IsPath c55_g.E 0 3 [0, 1, 3] ∧ [0, 1, 3].IsChain c55_g.E ∧ Open c55_g.E (· ∈ []) [0, 1, 3] := by
  have hp : IsPath c55_g.E 0 3 [0, 1, 3] := by
    refine ⟨rfl, rfl, ?_, by decide⟩
    simp only [List.isChain_cons_cons, List.isChain_singleton, and_true, Adj, DiG.E, c55_g, diG]
    decide
  refine ⟨diG_wf _, c55_g_acyclic, by decide +kernel, hp, ?_, ?_⟩
  · simp only [List.isChain_cons_cons, List.isChain_singleton, and_true, DiG.E, c55_g, diG]
    decide
  · obtain ⟨r, h1, h2⟩ := c39_path_activity (g := c55_g) (diG_wf _) c55_g_acyclic hp (by decide) []
    have h3 : (isActivePath c55_g [0, 1, 3] ⟨true, []⟩).val? = some true := by decide +kernel
    rw [h1] at h3
    exact h2.1 (Option.some.inj h3)

end PyBBN
