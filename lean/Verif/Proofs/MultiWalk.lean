import Verif.Proofs.DagWalk

/-! One iteration of the multi-connected generator as a step of the walk on sets of edges. -/

namespace PyBBN
open Classical Relation DSep DagWalk

namespace Gen
open Rnd
variable {n : Nat}

/-- the edges as a set -/
noncomputable def edgeSet (n : Nat) (g : DiG Int) : Edges n := Finset.univ.filter (fun q => g.E (q.1 : Nat) (q.2 : Nat))

theorem mem_edgeSet {g : DiG Int} {a b : Fin n} : (a, b) ∈ edgeSet n g ↔ g.E (a : Nat) (b : Nat) := by simp [edgeSet]

theorem has_iff {g : DiG Int} {E : Edges n} : g.Has E ↔ edgeSet n g = E := by
  constructor
  · intro h; ext ⟨a, b⟩; rw [mem_edgeSet]; exact h a b
  · rintro rfl a b; exact mem_edgeSet.symm

theorem fin_of_mem {x : Int} (h : x ∈ range (n : Int)) : ∃ a : Fin n, x = (a : Nat) := by
  rw [mem_range] at h
  exact ⟨⟨x.toNat, by omega⟩, by simp; omega⟩

theorem noCycle_iff {g : DiG Int} (hn : g.nodes = range n) (hwf : g.WF) : NoCycle (edgeSet n g) ↔ g.Acyclic := by
  constructor
  · intro h v hv
    have key : ∀ x y, TransGen g.E x y → ∃ a b : Fin n, x = (a : Nat) ∧ y = (b : Nat) ∧ TransGen (fun a b => (a, b) ∈ edgeSet n g) a b := by
      intro x y hxy
      induction hxy with
      | single h' =>
        obtain ⟨h1, h2⟩ := hwf _ h'
        rw [hn] at h1 h2
        obtain ⟨a, ha⟩ := fin_of_mem h1
        obtain ⟨b, hb⟩ := fin_of_mem h2
        simp only at ha hb
        exact ⟨a, b, ha, hb, TransGen.single (mem_edgeSet.2 (ha ▸ hb ▸ h'))⟩
      | tail _ h' ih =>
        obtain ⟨a, b, ha, hb, hab⟩ := ih
        obtain ⟨_, h2⟩ := hwf _ h'
        rw [hn] at h2
        obtain ⟨c, hc⟩ := fin_of_mem h2
        simp only at hc
        exact ⟨a, c, ha, hc, hab.tail (mem_edgeSet.2 (hb ▸ hc ▸ h'))⟩
    obtain ⟨a, b, ha, hb, hab⟩ := key v v hv
    have : a = b := Fin.ext (by rw [ha] at hb; exact_mod_cast hb)
    exact h a (this ▸ hab)
  · intro h a ha
    have : ∀ b, TransGen (fun a b => (a, b) ∈ edgeSet n g) a b → TransGen g.E ((a : Nat) : Int) ((b : Nat) : Int) := by
      intro b hb
      induction hb with
      | single h' => exact TransGen.single (mem_edgeSet.1 h')
      | tail _ h' ih => exact ih.tail (mem_edgeSet.1 h')
    exact h _ (this a ha)

theorem joins_iff {g : DiG Int} (hn : g.nodes = range n) (hwf : g.WF) : AllJoined (edgeSet n g) ↔ g.Connected := by
  constructor
  · intro h x hx y hy
    rw [hn] at hx hy
    obtain ⟨a, rfl⟩ := fin_of_mem hx
    obtain ⟨b, rfl⟩ := fin_of_mem hy
    have : ∀ b, ReflTransGen (fun a b => (a, b) ∈ edgeSet n g ∨ (b, a) ∈ edgeSet n g) a b →
        ReflTransGen (Adj g.E) ((a : Nat) : Int) ((b : Nat) : Int) := by
      intro b hb
      induction hb with
      | refl => exact ReflTransGen.refl
      | tail _ h' ih => exact ih.tail (h'.imp mem_edgeSet.1 mem_edgeSet.1)
    exact this b (h a b)
  · intro h a b
    have ha : ((a : Nat) : Int) ∈ g.nodes := by rw [hn, mem_range]; omega
    have hb : ((b : Nat) : Int) ∈ g.nodes := by rw [hn, mem_range]; omega
    have key : ∀ y, ReflTransGen (Adj g.E) ((a : Nat) : Int) y → ∃ c : Fin n, y = (c : Nat) ∧
        ReflTransGen (fun a b => (a, b) ∈ edgeSet n g ∨ (b, a) ∈ edgeSet n g) a c := by
      intro y hy
      induction hy with
      | refl => exact ⟨a, rfl, ReflTransGen.refl⟩
      | @tail y z _ h' ih =>
        obtain ⟨c, rfl, hc⟩ := ih
        have hz : z ∈ g.nodes := by
          rcases h' with h' | h'
          · exact (hwf _ h').2
          · exact (hwf _ h').1
        rw [hn] at hz
        obtain ⟨d, rfl⟩ := fin_of_mem hz
        exact ⟨d, rfl, hc.tail (h'.imp mem_edgeSet.2 mem_edgeSet.2)⟩
    obtain ⟨c, hc1, hc2⟩ := key _ (h _ ha _ hb)
    have : b = c := Fin.ext (by exact_mod_cast hc1)
    rw [this]; exact hc2

/-- the edges after an attempt to delete one -/
theorem delEdge_edges {N : Int} {g g' : DiG Int} (h : Inv N g) {i j : Int} (he : g.E i j) (hg : delEdge i j g = .ok g') :
    ((without g i j).Connected → ∀ a b, g'.E a b ↔ (without g i j).E a b) ∧ (¬ (without g i j).Connected → ∀ a b, g'.E a b ↔ g.E a b) := by
  obtain ⟨hi, hj⟩ := h.wf _ he
  have hne : (without g i j).nodes ≠ [] := List.ne_nil_of_mem hi
  obtain ⟨c, hc1, hc2⟩ := isConnected_ok (wf_without h.wf (i := i) (j := j)) hne
  unfold delEdge at hg
  rw [if_pos ((hasEdge_iff g i j).2 he), removeEdge_ok he] at hg
  simp only [Bind.bind, Except.bind, hc1, Except.ok.injEq] at hg
  cases c with
  | true =>
    simp only [Bool.true_eq_false, if_false] at hg
    exact ⟨fun _ a b => by rw [← hg], fun hn => absurd (hc2.1 rfl) hn⟩
  | false =>
    simp only [if_true] at hg
    refine ⟨fun hc => absurd (hc2.2 hc) (by simp), fun _ a b => ?_⟩
    rw [← hg, E_addEdgeRaw, E_without]
    constructor
    · rintro (h | ⟨rfl, rfl⟩)
      · exact h.1
      · exact he
    · intro hab
      by_cases hh : a = i ∧ b = j
      · exact Or.inr hh
      · exact Or.inl ⟨hab, hh⟩

/-- the edges after an attempt to add one -/
theorem addEdge_edges {N : Int} {g g' : DiG Int} (h : Inv N g) {i j : Int} (hi : i ∈ g.nodes) (hj : j ∈ g.nodes) (he : ¬ g.E i j)
    (hg : addEdge i j g = .ok g') :
    ((addEdgeRaw g i j).Acyclic → ∀ a b, g'.E a b ↔ (addEdgeRaw g i j).E a b) ∧ (¬ (addEdgeRaw g i j).Acyclic → ∀ a b, g'.E a b ↔ g.E a b) := by
  have hwf := wf_addEdgeRaw hi hj h.wf
  unfold addEdge at hg
  simp only at hg
  cases hd : isDag (addEdgeRaw g i j) with
  | true =>
    rw [hd] at hg
    simp only [Bool.true_eq_false, if_false, Except.ok.injEq] at hg
    exact ⟨fun _ a b => by rw [← hg], fun hn => absurd ((isDag_iff hwf).1 hd) hn⟩
  | false =>
    rw [hd] at hg
    simp only [if_true] at hg
    rw [removeEdge_ok ((E_addEdgeRaw g i j i j).2 (Or.inr ⟨rfl, rfl⟩)), Except.ok.injEq] at hg
    refine ⟨fun hc => absurd ((isDag_iff hwf).2 hc) (by simp [hd]), fun _ a b => ?_⟩
    rw [← hg, E_without, E_addEdgeRaw]
    constructor
    · rintro ⟨h1 | h1, h2⟩
      · exact h1
      · exact absurd h1 h2
    · intro hab
      refine ⟨Or.inl hab, ?_⟩
      rintro ⟨rfl, rfl⟩
      exact he hab

/-- the graph after one iteration with a given pair -/
def turned (q : Pair n) (g : DiG Int) : DiG Int :=
  match (if Do.hasEdge g (q.1.1 : Nat) (q.1.2 : Nat) then delEdge (q.1.1 : Nat) (q.1.2 : Nat) g else addEdge (q.1.1 : Nat) (q.1.2 : Nat) g) with
  | .ok g' => g'
  | .error _ => g

theorem edgeSet_congr {g g' : DiG Int} (h : ∀ a b, g'.E a b ↔ g.E a b) : edgeSet n g' = edgeSet n g := by
  ext ⟨a, b⟩; rw [mem_edgeSet, mem_edgeSet]; exact h _ _

theorem edgeSet_without (g : DiG Int) (a b : Fin n) : edgeSet n (without g (a : Nat) (b : Nat)) = (edgeSet n g).erase (a, b) := by
  ext ⟨x, y⟩
  rw [mem_edgeSet, Finset.mem_erase, mem_edgeSet, E_without, and_comm]
  apply and_congr_left'
  rw [ne_eq, Prod.mk.injEq, Fin.ext_iff, Fin.ext_iff]
  push_cast
  omega

theorem edgeSet_add (g : DiG Int) (a b : Fin n) : edgeSet n (addEdgeRaw g (a : Nat) (b : Nat)) = insert (a, b) (edgeSet n g) := by
  ext ⟨x, y⟩
  rw [mem_edgeSet, Finset.mem_insert, mem_edgeSet, E_addEdgeRaw, or_comm]
  apply or_congr_left
  rw [Prod.mk.injEq, Fin.ext_iff, Fin.ext_iff]
  push_cast
  omega

/-- … is a turn of its set of edges -/
theorem turned_spec (q : Pair n) {g : DiG Int} (h : Inv n g) (hac : g.Acyclic) :
    (if Do.hasEdge g (q.1.1 : Nat) (q.1.2 : Nat) then delEdge (q.1.1 : Nat) (q.1.2 : Nat) g else addEdge (q.1.1 : Nat) (q.1.2 : Nat) g) = .ok (turned q g) ∧
    Inv n (turned q g) ∧ (turned q g).Acyclic ∧ edgeSet n (turned q g) = turn q (edgeSet n g) := by
  obtain ⟨⟨a, b⟩, hab⟩ := q
  have ha : ((a : Nat) : Int) ∈ g.nodes := by rw [h.nodes, mem_range]; omega
  have hb : ((b : Nat) : Int) ∈ g.nodes := by rw [h.nodes, mem_range]; omega
  by_cases he : g.E (a : Nat) (b : Nat)
  · obtain ⟨g', h1, h2, h3⟩ := delEdge_ok h hac he
    have ht : turned ⟨(a, b), hab⟩ g = g' := by
      simp only [turned, (hasEdge_iff g (a : Nat) (b : Nat)).2 he, if_true, h1]
    rw [ht]
    refine ⟨by simp only [(hasEdge_iff g (a : Nat) (b : Nat)).2 he, if_true, h1], h2, h3, ?_⟩
    obtain ⟨hc1, hc2⟩ := delEdge_edges h he h1
    have hj := joins_iff (n := n) (g := without g (a : Nat) (b : Nat)) h.nodes (wf_without h.wf)
    rw [edgeSet_without] at hj
    rw [turn, if_pos (mem_edgeSet.2 he)]
    by_cases hc : (without g (a : Nat) (b : Nat)).Connected
    · rw [if_pos (hj.2 hc), edgeSet_congr (hc1 hc), edgeSet_without]
    · rw [if_neg (fun h' => hc (hj.1 h')), edgeSet_congr (hc2 hc)]
  · obtain ⟨g', h1, h2, h3⟩ := addEdge_ok h hac ha hb he
    have hf : Do.hasEdge g (a : Nat) (b : Nat) = false := by
      rw [Bool.eq_false_iff]; exact fun h' => he ((hasEdge_iff g _ _).1 h')
    have ht : turned ⟨(a, b), hab⟩ g = g' := by
      simp only [turned, hf, Bool.false_eq_true, if_false, h1]
    rw [ht]
    refine ⟨by simp only [hf, Bool.false_eq_true, if_false, h1], h2, h3, ?_⟩
    obtain ⟨hc1, hc2⟩ := addEdge_edges h ha hb he h1
    have hj := noCycle_iff (n := n) (g := addEdgeRaw g (a : Nat) (b : Nat)) ((nodes_addEdgeRaw ha hb).trans h.nodes) (wf_addEdgeRaw ha hb h.wf)
    rw [edgeSet_add] at hj
    rw [turn, if_neg (fun h' => he (mem_edgeSet.1 h'))]
    by_cases hc : (addEdgeRaw g (a : Nat) (b : Nat)).Acyclic
    · rw [if_pos (hj.2 hc), edgeSet_congr (hc1 hc), edgeSet_add]
    · rw [if_neg (fun h' => hc (hj.1 h')), edgeSet_congr (hc2 hc)]

theorem edgeSet_tree : edgeSet n (simpleOrderedTree n) = chain n := by
  ext ⟨a, b⟩
  rw [mem_edgeSet, mem_chain, simpleOrderedTree_eq]
  unfold DiG.E
  simp only [List.mem_map, mem_range, Prod.mk.injEq]
  constructor
  · rintro ⟨i, _, h1, h2⟩; omega
  · intro h; exact ⟨(a : Nat), by omega, rfl, by omega⟩

variable {M : Nat}

theorem prob_multi_of (hM : 0 < M) (hn : 2 ≤ n) (hd : n ∣ M) (K : Nat) (p : DiG Int → Prop) :
    Prob M (multiStructure n K) p (Walk.mean (turned (n := n)) K (fun g => if p g then 1 else 0) (simpleOrderedTree n)) :=
  prob_loop (Q := Pair n) (X := fun g => Inv n g ∧ g.Acyclic) (body := multiStep n) (next := turned) hM
    (fun q g hg => ⟨(turned_spec q hg.1 hg.2).2.1, (turned_spec q hg.1 hg.2).2.2.1⟩)
    (fun g hg f p r hr => by
      have := prob_pair hM hn hd (f := fun q => Rnd.bind (if Do.hasEdge g q.1 q.2 then Rnd.lift (delEdge q.1 q.2 g) else Rnd.lift (addEdge q.1 q.2 g)) f)
        (p := p) (r := r) (fun q => by
          have hs := (turned_spec q hg.1 hg.2).1
          have e : (if Do.hasEdge g (q.1.1 : Nat) (q.1.2 : Nat) then Rnd.lift (delEdge (q.1.1 : Nat) (q.1.2 : Nat) g)
              else Rnd.lift (addEdge (q.1.1 : Nat) (q.1.2 : Nat) g)) = Rnd.pure (turned q g) := by
            rw [show (Rnd.pure (turned q g)) = Rnd.lift (.ok (turned q g)) from rfl, ← hs]
            split <;> rfl
          rw [e]
          exact hr q)
      rw [← rnd_assoc] at this
      exact this)
    p K (g := simpleOrderedTree n) ⟨tree_inv, tree_acyclic⟩

/-- the probability of the structure after `K` iterations is the mean of the walk on sets of edges -/
theorem prob_multi (hM : 0 < M) (hn : 2 ≤ n) (hd : n ∣ M) (K : Nat) (E : Edges n) :
    Prob M (multiStructure n K) (fun g => g.Has E) (Walk.mean turn K (fun F => if F = E then 1 else 0) (chain n)) := by
  have h1 := prob_multi_of hM hn hd K (fun g => g.Has E)
  have h2 : ∀ (K : Nat) (g : DiG Int), Inv n g → g.Acyclic →
      Walk.mean (turned (n := n)) K (fun g => if g.Has E then (1 : ℚ) else 0) g = Walk.mean turn K (fun F => if F = E then 1 else 0) (edgeSet n g) := by
    intro K
    induction K with
    | zero => intro g _ _; simp only [Walk.mean, has_iff]
    | succ K ih =>
      intro g hg hac
      simp only [Walk.mean]
      congr 1
      apply Finset.sum_congr rfl
      intro q _
      obtain ⟨_, h2, h3, h4⟩ := turned_spec q hg hac
      rw [ih _ h2 h3, h4]
  rw [h2 K _ tree_inv tree_acyclic, edgeSet_tree] at h1
  exact h1

end Gen
end PyBBN
