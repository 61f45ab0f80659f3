import Mathlib.Combinatorics.SimpleGraph.Acyclic
import Verif.Proofs.Do

/-! A connected graph with one edge less than nodes is a polytree: one path between any two nodes, no directed cycle. -/

namespace PyBBN
open Relation DSep

/-- any two nodes are joined by edges, in either direction -/
def DiG.Connected {V : Type} (g : DiG V) : Prop := ∀ x ∈ g.nodes, ∀ y ∈ g.nodes, ReflTransGen (Adj g.E) x y

variable {V : Type} [DecidableEq V] {g : DiG V}

theorem card_list {α : Type} [DecidableEq α] (l : List α) : Nat.card {x // x ∈ l} = l.toFinset.card := by
  have e : {x // x ∈ l} ≃ {x // x ∈ l.toFinset} := Equiv.subtypeEquivRight (fun x => List.mem_toFinset.symm)
  rw [Nat.card_congr e, Nat.card_eq_fintype_card, Fintype.card_coe]

/-- the underlying undirected graph on the nodes of `g` -/
def DiG.simple (g : DiG V) (hna : g.NoAnti) : SimpleGraph {x // x ∈ g.nodes} where
  Adj a b := Adj g.E a.1 b.1
  symm := ⟨fun _ _ h => h.symm⟩
  loopless := ⟨fun a h => by rcases h with h | h <;> exact hna _ _ h h⟩

theorem DiG.simple_connected (hwf : g.WF) (hna : g.NoAnti) (hne : g.nodes ≠ []) (hc : g.Connected) : (g.simple hna).Connected := by
  obtain ⟨v, hv⟩ := List.exists_mem_of_ne_nil _ hne
  have : Nonempty {x // x ∈ g.nodes} := ⟨⟨v, hv⟩⟩
  refine ⟨?_⟩
  rintro ⟨x, hx⟩ ⟨y, hy⟩
  have h := hc x hx y hy
  induction h with
  | refl => exact SimpleGraph.Reachable.refl _
  | @tail b c hab hbc ih =>
    have hb : b ∈ g.nodes := by
      rcases hbc with h | h
      · exact (hwf _ h).1
      · exact (hwf _ h).2
    exact (ih hb).trans (SimpleGraph.Adj.reachable hbc)

theorem DiG.simple_card (hwf : g.WF) (hna : g.NoAnti) : Nat.card (g.simple hna).edgeSet ≤ g.edges.length := by
  let f : {e // e ∈ g.edges} → (g.simple hna).edgeSet := fun e =>
    ⟨s(⟨e.1.1, (hwf _ e.2).1⟩, ⟨e.1.2, (hwf _ e.2).2⟩), by
      rw [SimpleGraph.mem_edgeSet]; exact Or.inl e.2⟩
  have hf : Function.Surjective f := by
    rintro ⟨e, he⟩
    induction e using Sym2.ind with
    | _ a b =>
      rw [SimpleGraph.mem_edgeSet] at he
      rcases he with h | h
      · exact ⟨⟨(a.1, b.1), h⟩, rfl⟩
      · exact ⟨⟨(b.1, a.1), h⟩, Subtype.ext (Sym2.eq_swap)⟩
  have : Finite {e // e ∈ g.edges} := (List.finite_toSet g.edges).to_subtype
  refine (Nat.card_le_card_of_surjective f hf).trans ?_
  rw [card_list]
  exact List.toFinset_card_le _

theorem DiG.simple_tree (hwf : g.WF) (hna : g.NoAnti) (hnd : g.nodes.Nodup) (hc : g.Connected) (hl : g.edges.length + 1 = g.nodes.length) :
    (g.simple hna).IsTree := by
  have hne : g.nodes ≠ [] := by intro e; rw [e] at hl; simp at hl
  have h1 := DiG.simple_connected hwf hna hne hc
  have h2 := DiG.simple_card hwf hna
  have h3 : Nat.card {x // x ∈ g.nodes} = g.nodes.length := by
    rw [card_list, List.toFinset_card_of_nodup hnd]
  have : Finite {x // x ∈ g.nodes} := (List.finite_toSet g.nodes).to_subtype
  rw [SimpleGraph.isTree_iff_connected_and_card]
  refine ⟨h1, ?_⟩
  have h4 := h1.card_vert_le_card_edgeSet_add_one
  omega

/-- **polytree**: between any two nodes there is exactly one path -/
theorem DiG.existsUnique_path (hwf : g.WF) (hna : g.NoAnti) (hnd : g.nodes.Nodup) (hc : g.Connected)
    (hl : g.edges.length + 1 = g.nodes.length) {x y : V} (hx : x ∈ g.nodes) (hy : y ∈ g.nodes) : ∃! p, IsPath g.E x y p := by
  have ht := DiG.simple_tree hwf hna hnd hc hl
  have huniq := ht.existsUnique_path ⟨x, hx⟩ ⟨y, hy⟩
  obtain ⟨w, hw, hu⟩ := huniq
  have hmem : ∀ p, IsPath g.E x y p → ∀ v ∈ p, v ∈ g.nodes := by
    intro p hp v hv
    by_cases h2 : 2 ≤ p.length
    · exact Do.chain_mem hwf p hp.chain h2 v hv
    · match p, hp, h2, hv with
      | [], _, _, hv => simp at hv
      | _ :: _ :: _, _, h2, _ => simp at h2
      | [a], hp, _, hv =>
        have := hp.start
        rw [List.head?_cons] at this
        rw [List.mem_singleton] at hv
        rw [hv, Option.some.inj this]; exact hx
  refine ⟨w.support.map Subtype.val, ?_, ?_⟩
  · refine ⟨?_, ?_, ?_, ?_⟩
    · rw [List.head?_map, List.head?_eq_some_head w.support_ne_nil, w.head_support]; rfl
    · rw [List.getLast?_map, List.getLast?_eq_some_getLast w.support_ne_nil, w.getLast_support]; rfl
    · rw [List.isChain_map]
      exact w.isChain_adj_support
    · exact (List.nodup_map_iff Subtype.val_injective).2 ((SimpleGraph.Walk.isPath_def w).1 hw)
  · intro q hq
    have hm := hmem q hq
    obtain ⟨q', rfl⟩ : ∃ q' : List {x // x ∈ g.nodes}, q'.map Subtype.val = q := ⟨q.attach.map (fun v => ⟨v.1, hm v.1 v.2⟩), by simp⟩
    have hq0 : q' ≠ [] := by
      intro e; subst e; have := hq.start; simp at this
    have hch : q'.IsChain (g.simple hna).Adj := by
      have := hq.chain
      rw [List.isChain_map] at this
      exact this
    have hh : q'.head hq0 = ⟨x, hx⟩ := by
      have := hq.start
      rw [List.head?_map, List.head?_eq_some_head hq0] at this
      exact Subtype.ext (Option.some.inj this)
    have hlast : q'.getLast hq0 = ⟨y, hy⟩ := by
      have := hq.stop
      rw [List.getLast?_map, List.getLast?_eq_some_getLast hq0] at this
      exact Subtype.ext (Option.some.inj this)
    let w' := (SimpleGraph.Walk.ofSupport q' hq0 hch).copy hh hlast
    have hs : w'.support = q' := by
      simp only [w', SimpleGraph.Walk.support_copy, SimpleGraph.Walk.support_ofSupport]
    have hp : w'.IsPath := by
      rw [SimpleGraph.Walk.isPath_def, hs]
      exact (List.nodup_map_iff Subtype.val_injective).1 hq.simple
    rw [← hs, hu w' hp]

/-- a directed walk contains a simple directed path -/
theorem exists_directed_path {E : V → V → Prop} {x y : V} (h : ReflTransGen E x y) : ∃ p : List V, p.head? = some x ∧ p.getLast? = some y ∧ p.IsChain E ∧ p.Nodup := by
  induction h using ReflTransGen.head_induction_on with
  | refl => exact ⟨[y], rfl, rfl, List.isChain_singleton _, List.nodup_singleton _⟩
  | @head a c hac _ ih =>
    obtain ⟨p, h1, h2, h3, h4⟩ := ih
    by_cases ha : a ∈ p
    · obtain ⟨s, t, rfl⟩ := List.append_of_mem ha
      refine ⟨a :: t, rfl, ?_, h3.right_of_append, (List.nodup_append.1 h4).2.1⟩
      rw [List.getLast?_append] at h2
      simpa using h2
    · cases p with
      | nil => simp at h1
      | cons b p =>
        rw [List.head?_cons] at h1
        have := Option.some.inj h1
        subst this
        exact ⟨a :: b :: p, rfl, by simpa using h2, List.isChain_cons_cons.2 ⟨hac, h3⟩, List.nodup_cons.2 ⟨ha, h4⟩⟩

/-- … and no directed cycle -/
theorem DiG.acyclic_of_path (hwf : g.WF) (hna : g.NoAnti)
    (hu : ∀ x ∈ g.nodes, ∀ y ∈ g.nodes, ∃! p, IsPath g.E x y p) : g.Acyclic := by
  intro x hx
  obtain ⟨y, hxy, hyx⟩ := TransGen.head'_iff.1 hx
  obtain ⟨p, h1, h2, h3, h4⟩ := exists_directed_path hyx
  have hmx := (hwf _ hxy).1
  have hmy := (hwf _ hxy).2
  have hne : x ≠ y := by rintro rfl; exact hna _ _ hxy hxy
  have hp : IsPath g.E y x p := ⟨h1, h2, h3.imp (fun _ _ h => Or.inl h), h4⟩
  have hq : IsPath g.E y x [y, x] := ⟨rfl, rfl, List.isChain_pair.2 (Or.inr hxy), by simp [Ne.symm hne]⟩
  have := (hu y hmy x hmx).unique hp hq
  subst this
  exact hna _ _ hxy (List.isChain_pair.1 h3)

end PyBBN
