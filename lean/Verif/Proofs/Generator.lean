import Verif.Model.Generator
import Verif.Proofs.Polytree

/-! The generated structures. -/

namespace PyBBN
open Relation DSep

namespace Rnd
variable {α β : Type}

/-- the computation never raises, and whenever it finishes its result satisfies `P` -/
def Always (x : Rnd α) (P : α → Prop) : Prop := ∀ ds, (∀ e, x ds ≠ .raised e) ∧ ∀ a rest, x ds = .done a rest → P a

theorem always_pure {P : α → Prop} {a : α} (h : P a) : (pure a).Always P := fun ds =>
  ⟨fun e he => (by cases he), fun b rest hb => by cases hb; exact h⟩

theorem Always.bind {P : α → Prop} {Q : β → Prop} {x : Rnd α} {f : α → Rnd β} (hx : x.Always P) (hf : ∀ a, P a → (f a).Always Q) :
    (Rnd.bind x f).Always Q := by
  intro ds
  unfold Rnd.bind
  obtain ⟨h1, h2⟩ := hx ds
  cases h : x ds with
  | done a rest => exact hf a (h2 a rest h) rest
  | raised e => exact absurd h (h1 e)
  | waiting => exact ⟨fun e he => (by cases he), fun b rest hb => (by cases hb)⟩

theorem Always.mono {P Q : α → Prop} {x : Rnd α} (hx : x.Always P) (h : ∀ a, P a → Q a) : x.Always Q := fun ds =>
  ⟨(hx ds).1, fun a r e => h a ((hx ds).2 a r e)⟩

theorem always_lift {P : α → Prop} {y : Py α} {a : α} (hy : y = .ok a) (h : P a) : (lift y).Always P := by
  subst hy; exact always_pure h

theorem always_draw : draw.Always (fun _ => True) := by
  intro ds
  cases ds with
  | nil => exact ⟨fun e he => (by cases he), fun _ _ _ => trivial⟩
  | cons d ds => exact ⟨fun e he => (by cases he), fun _ _ _ => trivial⟩

theorem always_randint {lo hi : Int} (h : lo < hi) : (randint lo hi).Always (fun r => lo ≤ r ∧ r < hi) := by
  unfold randint
  rw [if_neg (by omega)]
  refine always_draw.bind ?_
  intro d _
  refine always_pure ?_
  have h1 := Int.emod_nonneg (d : Int) (b := hi - lo) (by omega)
  have h2 := Int.emod_lt_of_pos (d : Int) (b := hi - lo) (by omega)
  omega

theorem Always.times {P : α → Prop} {x : Rnd α} (hx : x.Always P) : ∀ n, (times x n).Always (fun as => as.length = n ∧ ∀ a ∈ as, P a)
  | 0 => always_pure ⟨rfl, by simp⟩
  | n + 1 => by
      unfold Rnd.times
      refine hx.bind ?_
      intro a ha
      refine (Always.times hx n).bind ?_
      intro as has
      refine always_pure ⟨by simp [has.1], ?_⟩
      intro b hb
      rcases List.mem_cons.1 hb with rfl | hb
      · exact ha
      · exact has.2 b hb

end Rnd

namespace Gen
open Rnd

theorem mem_range {n x : Int} : x ∈ range n ↔ 0 ≤ x ∧ x < n := by
  unfold range
  rw [List.mem_map]
  constructor
  · rintro ⟨k, hk, rfl⟩
    rw [List.mem_range] at hk
    change 0 ≤ (k : Int) ∧ (k : Int) < n
    omega
  · rintro ⟨h1, h2⟩
    exact ⟨x.toNat, List.mem_range.2 (by omega), Int.toNat_of_nonneg h1⟩

theorem nodup_range (n : Int) : (range n).Nodup := List.Nodup.map Int.ofNat_injective List.nodup_range

theorem length_range (n : Int) : (range n).length = n.toNat := by simp [range]

theorem setAdd_of_mem {K : Type} [DecidableEq K] {s : List K} {x : K} (h : x ∈ s) : setAdd s x = s := if_pos h

theorem setAdd_of_not_mem {K : Type} [DecidableEq K] {s : List K} {x : K} (h : x ∉ s) : setAdd s x = s ++ [x] := if_neg h

theorem foldl_setAdd_nodup {K : Type} [DecidableEq K] : ∀ (l s : List K), l.Nodup → (∀ x ∈ l, x ∉ s) → l.foldl setAdd s = s ++ l
  | [], s, _, _ => by simp
  | x :: l, s, hn, hs => by
      rw [List.nodup_cons] at hn
      rw [List.foldl_cons, setAdd_of_not_mem (hs x List.mem_cons_self), foldl_setAdd_nodup l _ hn.2 (by
        intro y hy
        rw [List.mem_append, List.mem_singleton, not_or]
        exact ⟨hs y (List.mem_cons_of_mem _ hy), fun e => hn.1 (e ▸ hy)⟩)]
      simp

theorem foldl_addNode : ∀ (l : List Int) (g : DiG Int), l.foldl addNode g = ⟨l.foldl setAdd g.nodes, g.edges⟩
  | [], _ => rfl
  | x :: l, g => by rw [List.foldl_cons, foldl_addNode l]; rfl

theorem foldl_addEdgeRaw : ∀ (l : List Int) (g : DiG Int), l.Nodup → (∀ i ∈ l, i ∈ g.nodes ∧ i + 1 ∈ g.nodes ∧ (i, i + 1) ∉ g.edges) →
    l.foldl (fun g i => addEdgeRaw g i (i + 1)) g = ⟨g.nodes, g.edges ++ l.map (fun i => (i, i + 1))⟩
  | [], g, _, _ => by simp
  | i :: l, g, hn, h => by
      rw [List.nodup_cons] at hn
      obtain ⟨h1, h2, h3⟩ := h i List.mem_cons_self
      have e : addEdgeRaw g i (i + 1) = ⟨g.nodes, g.edges ++ [(i, i + 1)]⟩ := by
        unfold addEdgeRaw
        rw [setAdd_of_mem h1, setAdd_of_mem h2, setAdd_of_not_mem h3]
      rw [List.foldl_cons, e, foldl_addEdgeRaw l _ hn.2]
      · simp
      · intro k hk
        obtain ⟨a, b, c⟩ := h k (List.mem_cons_of_mem _ hk)
        refine ⟨a, b, ?_⟩
        rw [List.mem_append, List.mem_singleton, not_or]
        refine ⟨c, ?_⟩
        intro e
        rw [Prod.mk.injEq] at e
        exact hn.1 (e.1 ▸ hk)

theorem simpleOrderedTree_eq (n : Int) : simpleOrderedTree n = ⟨range n, (range (n - 1)).map (fun i => (i, i + 1))⟩ := by
  unfold simpleOrderedTree
  rw [foldl_addNode, foldl_setAdd_nodup _ _ (nodup_range n) (by simp)]
  rw [foldl_addEdgeRaw _ _ (nodup_range _)]
  · simp
  · intro i hi
    rw [mem_range] at hi
    refine ⟨?_, ?_, by simp⟩
    · simp only [List.nil_append, mem_range]; omega
    · simp only [List.nil_append, mem_range]; omega

theorem reach_symm {V : Type} {E : V → V → Prop} {x y : V} (h : ReflTransGen (Adj E) x y) : ReflTransGen (Adj E) y x := by
  induction h with
  | refl => exact ReflTransGen.refl
  | tail _ h ih => exact ReflTransGen.head h.symm ih

/-- what both structure generators keep -/
structure Inv (n : Int) (g : DiG Int) : Prop where
  nodes : g.nodes = range n
  wf : g.WF
  nodup : g.edges.Nodup
  conn : g.Connected

theorem Connected.mono {V : Type} {g h : DiG V} (hn : h.nodes = g.nodes) (hE : ∀ a b, g.E a b → h.E a b) (hc : g.Connected) : h.Connected := by
  intro x hx y hy
  rw [hn] at hx hy
  exact ReflTransGen.mono (fun a b h => h.imp (hE a b) (hE b a)) _ _ (hc x hx y hy)

theorem Acyclic.anti {V : Type} {g h : DiG V} (hE : ∀ a b, h.E a b → g.E a b) (hc : g.Acyclic) : h.Acyclic :=
  fun x hx => hc x (TransGen.mono hE _ _ hx)

theorem tree_inv {n : Int} : Inv n (simpleOrderedTree n) := by
  rw [simpleOrderedTree_eq]
  have hwf : DiG.WF ⟨range n, (range (n - 1)).map (fun i => (i, i + 1))⟩ := by
    intro e he
    obtain ⟨i, hi, rfl⟩ := List.mem_map.1 he
    rw [mem_range] at hi
    simp only [mem_range]
    omega
  refine ⟨rfl, hwf, ?_, ?_⟩
  · exact List.Nodup.map (fun a b h => (Prod.mk.inj h).1) (nodup_range _)
  · have key : ∀ k : Nat, (k : Int) < n → ReflTransGen (Adj (DiG.E ⟨range n, (range (n - 1)).map (fun i => (i, i + 1))⟩)) 0 (k : Int) := by
      intro k
      induction k with
      | zero => intro _; exact ReflTransGen.refl
      | succ k ih =>
        intro h
        refine (ih (by omega)).tail (Or.inl ?_)
        exact List.mem_map.2 ⟨k, mem_range.2 (by omega), by simp⟩
    intro x hx y hy
    rw [mem_range] at hx hy
    have h1 := key x.toNat (by omega)
    have h2 := key y.toNat (by omega)
    rw [Int.toNat_of_nonneg hx.1] at h1
    rw [Int.toNat_of_nonneg hy.1] at h2
    exact (reach_symm h1).trans h2

theorem tree_acyclic {n : Int} : (simpleOrderedTree n).Acyclic := by
  rw [simpleOrderedTree_eq]
  have key : ∀ a b, TransGen (DiG.E ⟨range n, (range (n - 1)).map (fun i => (i, i + 1))⟩) a b → a < b := by
    have h1 : ∀ a b, DiG.E ⟨range n, (range (n - 1)).map (fun i => (i, i + 1))⟩ a b → a < b := by
      intro a b h
      obtain ⟨i, _, e⟩ := List.mem_map.1 h
      rw [Prod.mk.injEq] at e
      omega
    intro a b h
    induction h with
    | single h => exact h1 _ _ h
    | tail _ h ih => exact lt_trans ih (h1 _ _ h)
  intro x hx
  exact lt_irrefl _ (key x x hx)

/-! ## the networkx functions -/

theorem joined_iff {g : DiG Int} (hwf : g.WF) {a : Int} (ha : a ∈ g.nodes) (b : Int) : joined g a b = true ↔ ReflTransGen (Adj g.E) a b := by
  have hE : (fun a b => b ∈ Do.neighbors g a) = Adj g.E := by
    funext a b; exact propext (Do.mem_neighbors a b)
  have := pathExists_iff' (Do.neighbors g) b g.nodes (by
    intro u _ v hv
    rcases (Do.mem_neighbors u v).1 hv with h | h
    · exact (hwf _ h).2
    · exact (hwf _ h).1) (g.nodes.length + 1) a ha (Nat.le_succ _)
  rw [hE] at this
  exact this

theorem isConnected_ok {g : DiG Int} (hwf : g.WF) (hne : g.nodes ≠ []) : ∃ c, isConnected g = .ok c ∧ (c = true ↔ g.Connected) := by
  unfold isConnected
  cases h : g.nodes with
  | nil => exact absurd h hne
  | cons v l =>
    refine ⟨_, rfl, ?_⟩
    have hv : v ∈ g.nodes := by rw [h]; exact List.mem_cons_self
    rw [List.all_eq_true]
    constructor
    · intro hc x hx y hy
      have h1 := (joined_iff hwf hv x).1 (hc x (h ▸ hx))
      have h2 := (joined_iff hwf hv y).1 (hc y (h ▸ hy))
      exact (reach_symm h1).trans h2
    · intro hc w hw
      exact (joined_iff hwf hv w).2 (hc v hv w (h ▸ hw))

theorem isDag_iff {g : DiG Int} (hwf : g.WF) : isDag g = true ↔ g.Acyclic := by
  have hE : (fun a b => b ∈ Do.successors g a) = g.E := by
    funext a b; exact propext (Do.mem_successors a b)
  have hp : ∀ a ∈ g.nodes, ∀ b, pathExists (Do.successors g) (g.nodes.length + 1) a b = true ↔ ReflTransGen g.E a b := by
    intro a ha b
    have := pathExists_iff' (Do.successors g) b g.nodes (by
      intro u _ v hv
      exact (hwf _ ((Do.mem_successors u v).1 hv)).2) (g.nodes.length + 1) a ha (Nat.le_succ _)
    rw [hE] at this
    exact this
  unfold isDag
  rw [List.all_eq_true]
  constructor
  · intro h x hx
    obtain ⟨y, hxy, hyx⟩ := TransGen.head'_iff.1 hx
    have := h (x, y) hxy
    rw [Bool.not_eq_true', ← Bool.not_eq_true, hp _ (hwf _ hxy).2] at this
    exact this hyx
  · rintro h ⟨a, b⟩ he
    rw [Bool.not_eq_true', ← Bool.not_eq_true, hp _ (hwf _ he).2]
    intro hba
    exact h a (TransGen.head'_iff.2 ⟨b, he, hba⟩)

theorem E_addEdgeRaw (g : DiG Int) (i j a b : Int) : (addEdgeRaw g i j).E a b ↔ g.E a b ∨ (a = i ∧ b = j) := by
  unfold addEdgeRaw DiG.E
  rw [mem_setAdd, Prod.mk.injEq]
  exact or_comm

theorem nodes_addEdgeRaw {g : DiG Int} {i j : Int} (hi : i ∈ g.nodes) (hj : j ∈ g.nodes) : (addEdgeRaw g i j).nodes = g.nodes := by
  unfold addEdgeRaw
  simp only
  rw [setAdd_of_mem hi, setAdd_of_mem hj]

theorem wf_addEdgeRaw {g : DiG Int} {i j : Int} (hi : i ∈ g.nodes) (hj : j ∈ g.nodes) (hwf : g.WF) : (addEdgeRaw g i j).WF := by
  rintro ⟨a, b⟩ he
  rw [nodes_addEdgeRaw hi hj]
  rcases (E_addEdgeRaw g i j a b).1 he with h | ⟨rfl, rfl⟩
  · exact hwf _ h
  · exact ⟨hi, hj⟩

theorem nodup_addEdgeRaw {g : DiG Int} (i j : Int) (h : g.edges.Nodup) : (addEdgeRaw g i j).edges.Nodup := nodup_setAdd h _

theorem length_addEdgeRaw {g : DiG Int} {i j : Int} (h : ¬ g.E i j) : (addEdgeRaw g i j).edges.length = g.edges.length + 1 := by
  unfold addEdgeRaw
  simp only
  rw [setAdd_of_not_mem h]
  simp

theorem hasEdge_iff (g : DiG Int) (i j : Int) : Do.hasEdge g i j = true ↔ g.E i j := by
  unfold Do.hasEdge DiG.E
  rw [decide_eq_true_eq]

/-- the graph without the edge -/
def without (g : DiG Int) (i j : Int) : DiG Int := { g with edges := g.edges.filter (fun e => decide (e ≠ (i, j))) }

theorem removeEdge_ok {g : DiG Int} {i j : Int} (h : g.E i j) : removeEdge g i j = .ok (without g i j) := by
  unfold removeEdge without
  rw [if_pos ((hasEdge_iff g i j).2 h)]

theorem E_without (g : DiG Int) (i j a b : Int) : (without g i j).E a b ↔ g.E a b ∧ ¬ (a = i ∧ b = j) := by
  unfold without DiG.E
  simp only
  rw [List.mem_filter, decide_eq_true_eq, ne_eq, Prod.mk.injEq]

theorem wf_without {g : DiG Int} {i j : Int} (hwf : g.WF) : (without g i j).WF := fun e he =>
  hwf e (List.mem_of_mem_filter he)

theorem nodup_without {g : DiG Int} {i j : Int} (h : g.edges.Nodup) : (without g i j).edges.Nodup := h.filter _

theorem length_without {g : DiG Int} {i j : Int} (hn : g.edges.Nodup) (h : g.E i j) : (without g i j).edges.length + 1 = g.edges.length := by
  unfold without
  simp only
  have e : g.edges.filter (fun e => decide (e ≠ (i, j))) = g.edges.erase (i, j) := by
    rw [hn.erase_eq_filter]
    congr 1
    funext e
    by_cases h : e = (i, j) <;> simp [h]
  rw [e, List.length_erase_of_mem h]
  have : 0 < g.edges.length := List.length_pos_of_mem h
  omega

/-! ## random pairs -/

theorem always_drawOther {n i : Int} (hn : 0 < n) : Always (drawOther n i) (fun j => (0 ≤ j ∧ j < n) ∧ j ≠ i) := by
  intro ds
  induction ds with
  | nil => exact ⟨fun e he => (by cases he), fun _ _ h => (by cases h)⟩
  | cons d ds ih =>
    unfold drawOther
    split_ifs with h
    · exact ih
    · refine ⟨fun e he => (by cases he), fun j _ hj => ?_⟩
      cases hj
      exact ⟨⟨Int.emod_nonneg _ (by omega), Int.emod_lt_of_pos _ hn⟩, h⟩

theorem always_pair {n : Int} (hn : 0 < n) : (randomNodePair n).Always (fun p => p.1 ∈ range n ∧ p.2 ∈ range n ∧ p.1 ≠ p.2) := by
  unfold randomNodePair
  refine (always_randint hn).bind ?_
  intro i hi
  refine (always_drawOther hn).bind ?_
  intro j hj
  exact always_pure ⟨mem_range.2 hi, mem_range.2 hj.1, Ne.symm hj.2⟩

theorem always_loop {P : DiG Int → Prop} {step : DiG Int → Rnd (DiG Int)} (h : ∀ g, P g → (step g).Always P) :
    ∀ k g, P g → (loop step k g).Always P
  | 0, _, hg => always_pure hg
  | k + 1, g, hg => (h g hg).bind (fun g' hg' => always_loop h k g' hg')

/-! ## multi-connected structures -/

theorem delEdge_ok {n : Int} {g : DiG Int} (h : Inv n g) (hac : g.Acyclic) {i j : Int} (he : g.E i j) :
    ∃ g', delEdge i j g = .ok g' ∧ Inv n g' ∧ g'.Acyclic := by
  obtain ⟨hi, hj⟩ := h.wf _ he
  have hne : (without g i j).nodes ≠ [] := List.ne_nil_of_mem hi
  obtain ⟨c, hc1, hc2⟩ := isConnected_ok (wf_without h.wf (i := i) (j := j)) hne
  unfold delEdge
  rw [if_pos ((hasEdge_iff g i j).2 he), removeEdge_ok he]
  simp only [Bind.bind, Except.bind, hc1]
  refine ⟨_, rfl, ?_⟩
  cases c with
  | true =>
    simp only [Bool.true_eq_false, if_false]
    exact ⟨⟨h.nodes, wf_without h.wf, nodup_without h.nodup, hc2.1 rfl⟩, Acyclic.anti (fun a b hab => ((E_without g i j a b).1 hab).1) hac⟩
  | false =>
    simp only [if_true]
    have hE : ∀ a b, (addEdgeRaw (without g i j) i j).E a b ↔ g.E a b := by
      intro a b
      rw [E_addEdgeRaw, E_without]
      constructor
      · rintro (h | ⟨rfl, rfl⟩)
        · exact h.1
        · exact he
      · intro hab
        by_cases hh : a = i ∧ b = j
        · exact Or.inr hh
        · exact Or.inl ⟨hab, hh⟩
    have hnodes : (addEdgeRaw (without g i j) i j).nodes = g.nodes := nodes_addEdgeRaw (g := without g i j) hi hj
    exact ⟨⟨hnodes.trans h.nodes, wf_addEdgeRaw (g := without g i j) hi hj (wf_without h.wf),
      nodup_addEdgeRaw _ _ (nodup_without h.nodup), Connected.mono hnodes (fun a b => (hE a b).2) h.conn⟩,
      Acyclic.anti (fun a b => (hE a b).1) hac⟩

theorem addEdge_ok {n : Int} {g : DiG Int} (h : Inv n g) (hac : g.Acyclic) {i j : Int} (hi : i ∈ g.nodes) (hj : j ∈ g.nodes) (he : ¬ g.E i j) :
    ∃ g', addEdge i j g = .ok g' ∧ Inv n g' ∧ g'.Acyclic := by
  have hnodes := nodes_addEdgeRaw hi hj
  have hwf := wf_addEdgeRaw hi hj h.wf
  unfold addEdge
  simp only
  cases hd : isDag (addEdgeRaw g i j) with
  | true =>
    simp only [Bool.true_eq_false, if_false]
    exact ⟨_, rfl, ⟨hnodes.trans h.nodes, hwf, nodup_addEdgeRaw _ _ h.nodup,
      Connected.mono hnodes (fun a b hab => (E_addEdgeRaw g i j a b).2 (Or.inl hab)) h.conn⟩, (isDag_iff hwf).1 hd⟩
  | false =>
    simp only [if_true]
    rw [removeEdge_ok ((E_addEdgeRaw g i j i j).2 (Or.inr ⟨rfl, rfl⟩))]
    have hE : ∀ a b, (without (addEdgeRaw g i j) i j).E a b ↔ g.E a b := by
      intro a b
      rw [E_without, E_addEdgeRaw]
      constructor
      · rintro ⟨h1 | h1, h2⟩
        · exact h1
        · exact absurd h1 h2
      · intro hab
        refine ⟨Or.inl hab, ?_⟩
        rintro ⟨rfl, rfl⟩
        exact he hab
    exact ⟨_, rfl, ⟨hnodes.trans h.nodes, wf_without hwf, nodup_without (nodup_addEdgeRaw _ _ h.nodup),
      Connected.mono hnodes (fun a b => (hE a b).2) h.conn⟩, Acyclic.anti (fun a b => (hE a b).1) hac⟩

theorem always_multi {n : Int} (hn : 0 < n) (maxIter : Int) : (multiStructure n maxIter).Always (fun g => Inv n g ∧ g.Acyclic) := by
  unfold multiStructure
  refine always_loop ?_ _ _ ⟨tree_inv, tree_acyclic⟩
  rintro g ⟨hg, hac⟩
  unfold multiStep
  refine (always_pair hn).bind ?_
  rintro ⟨i, j⟩ ⟨hi, hj, _⟩
  rw [← hg.nodes] at hi hj
  simp only
  split_ifs with he
  · obtain ⟨g', h1, h2⟩ := delEdge_ok hg hac ((hasEdge_iff g i j).1 he)
    exact always_lift h1 h2
  · obtain ⟨g', h1, h2⟩ := addEdge_ok hg hac hi hj (fun h => he ((hasEdge_iff g i j).2 h))
    exact always_lift h1 h2

/-! ## singly-connected structures -/

/-- what the singly generator keeps on top -/
structure SInv (n : Int) (g : DiG Int) : Prop extends Inv n g where
  anti : g.NoAnti
  len : g.edges.length + 1 = g.nodes.length

theorem mem_predecessors (g : DiG Int) (k j : Int) : k ∈ predecessors g j ↔ g.E k j := by
  unfold predecessors DiG.E
  rw [List.mem_map]
  constructor
  · rintro ⟨e, he, rfl⟩
    rw [List.mem_filter, decide_eq_true_eq] at he
    obtain ⟨h1, rfl⟩ := he
    exact h1
  · intro h
    exact ⟨(k, j), List.mem_filter.2 ⟨h, by simp⟩, rfl⟩

/-- remove `k → j`, add `x → y`; go back if that disconnects the graph -/
theorem swap_ok {n : Int} {g : DiG Int} (h : SInv n g) {k j x y : Int} (hk : g.E k j) (hx : x ∈ g.nodes) (hy : y ∈ g.nodes) (hxy : x ≠ y)
    (h1 : ¬ g.E x y) (h2 : ¬ g.E y x) : ∃ c, isConnected (addEdgeRaw (without g k j) x y) = .ok c ∧
      (c = true → SInv n (addEdgeRaw (without g k j) x y)) ∧
      ∃ g', removeEdge (addEdgeRaw (addEdgeRaw (without g k j) x y) k j) x y = .ok g' ∧ SInv n g' := by
  have hkn := (h.wf _ hk).1
  have hjn := (h.wf _ hk).2
  have hn1 : (addEdgeRaw (without g k j) x y).nodes = g.nodes := nodes_addEdgeRaw (g := without g k j) hx hy
  have hwf1 : (addEdgeRaw (without g k j) x y).WF := wf_addEdgeRaw (g := without g k j) hx hy (wf_without h.wf)
  obtain ⟨c, hc1, hc2⟩ := isConnected_ok hwf1 (by rw [hn1]; exact List.ne_nil_of_mem hx)
  refine ⟨c, hc1, ?_, ?_⟩
  · intro hc
    refine ⟨⟨hn1.trans h.nodes, hwf1, nodup_addEdgeRaw _ _ (nodup_without h.nodup), hc2.1 hc⟩, ?_, ?_⟩
    · intro a b hab hba
      rw [E_addEdgeRaw, E_without] at hab hba
      rcases hab with hab | ⟨rfl, rfl⟩
      · rcases hba with hba | ⟨rfl, rfl⟩
        · exact h.anti _ _ hab.1 hba.1
        · exact h2 hab.1
      · rcases hba with hba | ⟨e, _⟩
        · exact h2 hba.1
        · exact hxy e.symm
    · rw [length_addEdgeRaw (fun hh => h1 ((E_without g k j x y).1 hh).1), length_without h.nodup hk, hn1, ← h.len]
  · have hn2 : (addEdgeRaw (addEdgeRaw (without g k j) x y) k j).nodes = g.nodes := by
      rw [nodes_addEdgeRaw (by rw [hn1]; exact hkn) (by rw [hn1]; exact hjn), hn1]
    have hE : ∀ a b, (without (addEdgeRaw (addEdgeRaw (without g k j) x y) k j) x y).E a b ↔ g.E a b := by
      intro a b
      rw [E_without, E_addEdgeRaw, E_addEdgeRaw, E_without]
      constructor
      · rintro ⟨(hh | hh) | ⟨rfl, rfl⟩, hne⟩
        · exact hh.1
        · exact absurd hh hne
        · exact hk
      · intro hab
        refine ⟨?_, ?_⟩
        · by_cases e : a = k ∧ b = j
          · exact Or.inr e
          · exact Or.inl (Or.inl ⟨hab, e⟩)
        · rintro ⟨rfl, rfl⟩; exact h1 hab
    have hxe : (addEdgeRaw (addEdgeRaw (without g k j) x y) k j).E x y := by
      rw [E_addEdgeRaw, E_addEdgeRaw]; exact Or.inl (Or.inr ⟨rfl, rfl⟩)
    have hnd : (addEdgeRaw (addEdgeRaw (without g k j) x y) k j).edges.Nodup :=
      nodup_addEdgeRaw _ _ (nodup_addEdgeRaw _ _ (nodup_without h.nodup))
    refine ⟨_, removeEdge_ok hxe, ⟨⟨hn2.trans h.nodes, ?_, nodup_without hnd, ?_⟩, ?_, ?_⟩⟩
    · exact wf_without (wf_addEdgeRaw (by rw [hn1]; exact hkn) (by rw [hn1]; exact hjn) hwf1)
    · exact Connected.mono hn2 (fun a b => (hE a b).2) h.conn
    · intro a b hab hba
      exact h.anti _ _ ((hE a b).1 hab) ((hE b a).1 hba)
    · have l1 := length_without hnd hxe
      have l2 : (addEdgeRaw (addEdgeRaw (without g k j) x y) k j).edges.length = (addEdgeRaw (without g k j) x y).edges.length + 1 := by
        refine length_addEdgeRaw ?_
        rw [E_addEdgeRaw, E_without]
        rintro (⟨_, hh⟩ | ⟨rfl, rfl⟩)
        · exact hh ⟨rfl, rfl⟩
        · exact h1 hk
      have l3 : (addEdgeRaw (without g k j) x y).edges.length = (without g k j).edges.length + 1 :=
        length_addEdgeRaw (fun hh => h1 ((E_without g k j x y).1 hh).1)
      have l4 := length_without h.nodup hk
      have l5 := h.len
      have : (without (addEdgeRaw (addEdgeRaw (without g k j) x y) k j) x y).nodes.length = g.nodes.length := congrArg List.length hn2
      omega

theorem rewire_ok {n : Int} {g : DiG Int} (h : SInv n g) {i j k : Int} (b : Bool) (hi : i ∈ g.nodes) (hj : j ∈ g.nodes) (hij : i ≠ j)
    (h1 : ¬ g.E i j) (h2 : ¬ g.E j i) (hk : g.E k j) : ∃ g', rewire i j k b g = .ok g' ∧ SInv n g' := by
  unfold rewire
  rw [removeEdge_ok hk]
  cases b with
  | true =>
    obtain ⟨c, hc1, hc2, g', hg1, hg2⟩ := swap_ok h hk hj hi (Ne.symm hij) h2 h1
    simp only [Bind.bind, Except.bind, if_true, hc1]
    cases c with
    | true => exact ⟨_, rfl, hc2 rfl⟩
    | false => exact ⟨g', hg1, hg2⟩
  | false =>
    obtain ⟨c, hc1, hc2, g', hg1, hg2⟩ := swap_ok h hk hi hj hij h1 h2
    simp only [Bind.bind, Except.bind, Bool.false_eq_true, if_false, hc1]
    cases c with
    | true => exact ⟨_, rfl, hc2 rfl⟩
    | false => exact ⟨g', hg1, hg2⟩

theorem tree_sinv {n : Int} (hn : 0 < n) : SInv n (simpleOrderedTree n) := by
  refine ⟨tree_inv, ?_, ?_⟩
  · intro a b hab hba
    exact tree_acyclic a (TransGen.head hab (TransGen.single hba))
  · rw [simpleOrderedTree_eq]
    simp only [List.length_map, length_range]
    omega

theorem always_singly {n : Int} (hn : 0 < n) (maxIter : Int) : (singlyStructure n maxIter).Always (SInv n) := by
  unfold singlyStructure
  refine always_loop ?_ _ _ (tree_sinv hn)
  intro g hg
  unfold singlyStep
  refine (always_pair hn).bind ?_
  rintro ⟨i, j⟩ ⟨hi, hj, hij⟩
  rw [← hg.nodes] at hi hj
  simp only
  split_ifs with he
  · exact always_pure hg
  · rw [Bool.or_eq_true, not_or, hasEdge_iff, hasEdge_iff] at he
    refine always_draw.bind ?_
    intro p _
    cases hf : findPredecessor i j g with
    | none => exact always_pure hg
    | some k =>
      have hk : g.E k j := (mem_predecessors g k j).1 (List.mem_of_find?_eq_some hf)
      obtain ⟨g', h1, h2⟩ := rewire_ok hg (decide (p % 2 = 0)) hi hj hij he.1 he.2 hk
      exact always_lift h1 h2

end Gen
end PyBBN
