import Verif.Proofs.Ug
import Verif.Spec.Elim
import Mathlib.Data.Finset.Basic
import Mathlib.Data.Finset.Dedup
import Mathlib.Data.Finset.Lattice.Basic

/-! The elimination game played by the triangulator. -/

namespace PyBBN

/-- the variable ids of a clique as a set -/
def Clique.fs (c : Clique) : Finset Int := c.nodeIds.toFinset

theorem Clique.mem_fs (c : Clique) (i : Int) : i ∈ c.fs ↔ i ∈ c.nodeIds := by simp [Clique.fs]

/-- A run of the elimination game on the variables `S` with adjacency `R`: the cliques formed, in order. -/
inductive ElimSeq : List Variable → (Int → Int → Prop) → List Clique → Prop
  | nil (R) : ElimSeq [] R []
  | cons {S : List Variable} {R R' : Int → Int → Prop} {cs : List Clique} (v : Variable) (c : Clique)
      (hv : v ∈ S) (hsub : ∀ u ∈ c.nodes, u ∈ S) (hnd : c.nodeIds.Nodup)
      (hmem : ∀ i, i ∈ c.nodeIds ↔ i = v.id ∨ R v.id i)
      (hmin : ∀ u ∈ S, u.id ≠ v.id → Elim.Cheaper S R v u)
      (hR : ∀ x y, R' x y ↔ x ≠ v.id ∧ y ≠ v.id ∧ x ≠ y ∧ (R x y ∨ (R v.id x ∧ R v.id y)))
      (ht : ElimSeq (S.filter (fun u => decide (u.id ≠ v.id))) R' cs) : ElimSeq S R (c :: cs)

/-- record a clique unless it is contained in a recorded one -/
def record (cliques : List Clique) (c : Clique) : List Clique :=
  if Triangulator.isSubset cliques c then cliques else cliques ++ [c]

theorem isSubset_iff (cliques : List Clique) (c : Clique) :
    Triangulator.isSubset cliques c = true ↔ ∃ d ∈ cliques, c.fs ⊆ d.fs := by
  unfold Triangulator.isSubset Clique.isSuperset
  simp only [List.any_eq_true, List.all_eq_true, decide_eq_true_eq]
  constructor
  · rintro ⟨d, hd, h⟩
    exact ⟨d, hd, fun i hi => (d.mem_fs i).2 (h i ((c.mem_fs i).1 hi))⟩
  · rintro ⟨d, hd, h⟩
    exact ⟨d, hd, fun i hi => (d.mem_fs i).1 (h ((c.mem_fs i).2 hi))⟩

/-! ### one step of the loop -/

section Step
variable {vs : List Variable} {mm : Graph Variable}

theorem getNodes_nodeDict (hg : mm.nodes = nodeDict vs) : mm.getNodes = vs := by
  unfold Graph.getNodes
  rw [hg]
  simp [nodeDict, Dict.values, Function.comp_def]

theorem neighborNodes_spec (h : UInv mm) (hn : (vids vs).Nodup) (hg : mm.nodes = nodeDict vs)
    (it : SetIter Int) (t : Nat) (n : Variable) :
    (vids (Triangulator.neighborNodes it t mm n)).Nodup ∧
    (∀ u ∈ Triangulator.neighborNodes it t mm n, u ∈ vs) ∧
    (∀ i, i ∈ vids (Triangulator.neighborNodes it t mm n) ↔ emRel mm n.id i) := by
  have key : ∀ l : List Int, (∀ i ∈ l, i ∈ vids vs) →
      vids (l.filterMap (fun i => Dict.get? mm.nodes i)) = l ∧
      ∀ u ∈ l.filterMap (fun i => Dict.get? mm.nodes i), u ∈ vs := by
    intro l
    induction l with
    | nil => simp
    | cons i l ih =>
      intro hl
      obtain ⟨v, hv, hvi⟩ := List.mem_map.1 (hl i List.mem_cons_self)
      have hget : Dict.get? mm.nodes i = some v := by
        rw [hg, nodeDict_get hn]; exact ⟨hv, hvi⟩
      obtain ⟨h1, h2⟩ := ih (fun j hj => hl j (List.mem_cons_of_mem _ hj))
      rw [List.filterMap_cons, hget]
      refine ⟨?_, ?_⟩
      · rw [vids_cons, h1, hvi]
      · intro u hu
        rcases List.mem_cons.1 hu with rfl | hu
        · exact hv
        · exact h2 u hu
  have hmem : ∀ i, i ∈ it.iter t n.id (mm.getNeighbors n.id) ↔ emRel mm n.id i := by
    intro i
    rw [it.mem, h.nb]
  obtain ⟨h1, h2⟩ := key (it.iter t n.id (mm.getNeighbors n.id)) (by
    intro i hi
    have := (h.ginv.emNodes _ _ ((hmem i).1 hi)).2
    rw [hg, nodeDict_keys] at this
    exact this)
  unfold Triangulator.neighborNodes
  rw [h1]
  exact ⟨it.nodup t _ (h.ginv.nbNodup _), h2, hmem⟩

theorem removeNode_inv (h : UInv mm) (i : Int) : UInv (mm.removeNode i) := by
  refine ⟨h.ginv.removeNode i, ?_, ?_⟩
  · intro a b
    unfold emRel
    rw [removeNode_em, removeNode_em]
    rintro ⟨h1, h2, h3⟩
    exact ⟨h2, h1, h.sym _ _ h3⟩
  · intro a
    unfold emRel
    rw [removeNode_em]
    rintro ⟨_, _, h3⟩
    exact h.irr _ h3

theorem removeNode_nodes (hg : mm.nodes = nodeDict vs) (i : Int) :
    (mm.removeNode i).nodes = nodeDict (vs.filter (fun u => decide (u.id ≠ i))) := by
  unfold Graph.removeNode
  simp only
  rw [hg]
  unfold Dict.pop nodeDict
  rw [List.filter_map]
  rfl

theorem selectNode_spec (it : SetIter Int) (t : Nat) (hg : mm.nodes = nodeDict vs) (hne : vs ≠ []) :
    ∃ n ∈ vs, Triangulator.selectNode it t mm = some ⟨n, Triangulator.neighborNodes it t mm n,
      Triangulator.getWeight it t n mm, Triangulator.getEdgesToAdd it t n mm⟩ := by
  unfold Triangulator.selectNode
  have hgc : Triangulator.generateCliques it t mm ≠ [] := by
    unfold Triangulator.generateCliques
    rw [getNodes_nodeDict hg]
    simpa using hne
  have hs := sortBy_ne_nil Triangulator.keyLe hgc
  cases hh : (sortBy Triangulator.keyLe (Triangulator.generateCliques it t mm)).head? with
  | none => exact absurd (List.head?_eq_none_iff.1 hh) hs
  | some nc =>
    have hm : nc ∈ sortBy Triangulator.keyLe (Triangulator.generateCliques it t mm) := by
      exact List.mem_of_mem_head? hh
    rw [mem_sortBy] at hm
    unfold Triangulator.generateCliques at hm
    rw [getNodes_nodeDict hg] at hm
    obtain ⟨n, hn, rfl⟩ := List.mem_map.1 hm
    exact ⟨n, hn, rfl⟩

theorem length_missing {α : Type} (p : α → α → Bool) (hs : ∀ a b, p a b = p b a) (hi : ∀ a, p a a = false) : ∀ l : List α,
    (l.flatMap (fun a => l.filter (p a))).length = 2 * ((pairs l).filter (fun q => p q.1 q.2)).length
  | [] => rfl
  | a :: l => by
      have h1 : ∀ k : List α, (k.flatMap (fun x => (a :: l).filter (p x))).length = (k.filter (p a)).length + (k.flatMap (fun x => l.filter (p x))).length := by
        intro k
        induction k with
        | nil => rfl
        | cons x k ih =>
          rw [List.flatMap_cons, List.flatMap_cons, List.length_append, ih, List.length_append, List.filter_cons, List.filter_cons, hs x a]
          cases p a x <;> simp <;> omega
      have h2 : (((l.map (fun y => (a, y))).filter (fun q : α × α => p q.1 q.2)).length) = (l.filter (p a)).length := by
        rw [List.filter_map, List.length_map]; rfl
      rw [h1, List.filter_cons, hi, List.flatMap_cons, List.length_append, length_missing p hs hi l, pairs, List.filter_append, List.length_append, h2]
      simp
      omega

theorem pairs_ne {l : List Variable} (h : (vids l).Nodup) {q : Variable × Variable} (hq : q ∈ pairs l) : q.1.id ≠ q.2.id := by
  induction l with
  | nil => simp [pairs] at hq
  | cons a l ih =>
    rw [vids_cons, List.nodup_cons] at h
    rw [pairs, List.mem_append] at hq
    rcases hq with hq | hq
    · obtain ⟨y, hy, rfl⟩ := List.mem_map.1 hq
      exact fun e => h.1 (e ▸ List.mem_map_of_mem hy)
    · exact ih h.2 hq

theorem length_missing_perm {α : Type} (p : α → α → Bool) {l l' : List α} (h : l.Perm l') :
    (l.flatMap (fun a => l.filter (p a))).length = (l'.flatMap (fun a => l'.filter (p a))).length := by
  rw [List.length_flatMap, List.length_flatMap]
  have : (fun a => (l.filter (p a)).length) = fun a => (l'.filter (p a)).length := by
    funext a; exact (h.filter _).length_eq
  rw [this]
  exact (h.map _).sum_eq

open Classical in
theorem neighborNodes_perm (h : UInv mm) (hn : (vids vs).Nodup) (hg : mm.nodes = nodeDict vs) (it : SetIter Int) (t : Nat) (n : Variable) :
    (Triangulator.neighborNodes it t mm n).Perm (Elim.nbrs vs (emRel mm) n) := by
  obtain ⟨h1, h2, h3⟩ := neighborNodes_spec h hn hg it t n
  have hvs : vs.Nodup := List.Nodup.of_map _ hn
  unfold Elim.nbrs
  rw [List.perm_ext_iff_of_nodup (List.Nodup.of_map _ h1) (hvs.filter _)]
  intro u
  rw [List.mem_filter, decide_eq_true_eq]
  constructor
  · intro hu
    exact ⟨h2 u hu, (h3 _).1 (List.mem_map_of_mem hu)⟩
  · rintro ⟨hu, hr⟩
    obtain ⟨w, hw, e⟩ := List.mem_map.1 ((h3 _).2 hr)
    have : w = u := List.inj_on_of_nodup_map hn (h2 w hw) hu e
    exact this ▸ hw

theorem getWeight_eq (h : UInv mm) (hn : (vids vs).Nodup) (hg : mm.nodes = nodeDict vs) (it : SetIter Int) (t : Nat) (n : Variable) :
    Triangulator.getWeight it t n mm = Elim.weight vs (emRel mm) n := by
  unfold Triangulator.getWeight Elim.weight
  rw [((neighborNodes_perm h hn hg it t n).map _).prod_eq]

open Classical in
theorem edgesToAdd_length (h : UInv mm) (hn : (vids vs).Nodup) (hg : mm.nodes = nodeDict vs) (it : SetIter Int) (t : Nat) (n : Variable) :
    Elim.missing vs (emRel mm) n = 2 * (Triangulator.getEdgesToAdd it t n mm).length := by
  unfold Elim.missing
  rw [← length_missing_perm (fun a b : Variable => decide (a.id ≠ b.id ∧ ¬ emRel mm a.id b.id)) (neighborNodes_perm h hn hg it t n),
    length_missing]
  · unfold Triangulator.getEdgesToAdd
    rw [List.length_map]
    congr 2
    apply List.filter_congr
    intro q hq
    have hne : q.1.id ≠ q.2.id := pairs_ne (neighborNodes_spec h hn hg it t n).1 hq
    rw [Bool.eq_iff_iff]
    simp only [ne_eq, decide_eq_true_eq, Bool.not_eq_true', ← Bool.not_eq_true, h.edgeExists]
    exact ⟨fun k => k.2, fun k => ⟨hne, k⟩⟩
  · intro a b
    rw [Bool.eq_iff_iff, decide_eq_true_eq, decide_eq_true_eq]
    exact ⟨fun k => ⟨fun e => k.1 e.symm, fun r => k.2 (h.sym _ _ r)⟩, fun k => ⟨fun e => k.1 e.symm, fun r => k.2 (h.sym _ _ r)⟩⟩
  · intro a; simp

theorem keyLe_total (a b : NodeClique) : Triangulator.keyLe a b = true ∨ Triangulator.keyLe b a = true := by
  unfold Triangulator.keyLe
  split_ifs <;> simp <;> omega

theorem keyLe_trans (a b c : NodeClique) (h1 : Triangulator.keyLe a b = true) (h2 : Triangulator.keyLe b c = true) :
    Triangulator.keyLe a c = true := by
  unfold Triangulator.keyLe at *
  split_ifs at * <;> simp at * <;> omega

theorem selectNode_cheapest (h : UInv mm) (hn : (vids vs).Nodup) (hg : mm.nodes = nodeDict vs) (it : SetIter Int) (t : Nat) {n : Variable}
    (hs : Triangulator.selectNode it t mm = some ⟨n, Triangulator.neighborNodes it t mm n, Triangulator.getWeight it t n mm,
      Triangulator.getEdgesToAdd it t n mm⟩) : ∀ u ∈ vs, u.id ≠ n.id → Elim.Cheaper vs (emRel mm) n u := by
  intro u hu hne
  unfold Triangulator.selectNode at hs
  have hsort := sortBy_sorted Triangulator.keyLe keyLe_total keyLe_trans (Triangulator.generateCliques it t mm)
  obtain ⟨rest, hr⟩ := List.head?_eq_some_iff.1 hs
  have hm : (⟨u, Triangulator.neighborNodes it t mm u, Triangulator.getWeight it t u mm, Triangulator.getEdgesToAdd it t u mm⟩ : NodeClique) ∈
      sortBy Triangulator.keyLe (Triangulator.generateCliques it t mm) := by
    rw [mem_sortBy]
    unfold Triangulator.generateCliques
    rw [getNodes_nodeDict hg]
    exact List.mem_map.2 ⟨u, hu, rfl⟩
  rw [hr] at hsort hm
  rw [List.pairwise_cons] at hsort
  rcases List.mem_cons.1 hm with e | hm
  · exact absurd (congrArg (fun c : NodeClique => c.node.id) e) hne
  · have hk := hsort.1 _ hm
    unfold Elim.Cheaper
    rw [edgesToAdd_length h hn hg it t n, edgesToAdd_length h hn hg it t u, ← getWeight_eq h hn hg it t n, ← getWeight_eq h hn hg it t u]
    unfold Triangulator.keyLe at hk
    simp only at hk
    split_ifs at hk with k1 k2 k3 k4
    · left; omega
    · right; exact ⟨by omega, Or.inl k3⟩
    · right
      have := of_decide_eq_true hk
      exact ⟨by omega, Or.inr ⟨by omega, by omega⟩⟩

theorem edgesToAdd_rel (h : UInv mm) (hn : (vids vs).Nodup) (hg : mm.nodes = nodeDict vs)
    (it : SetIter Int) (t : Nat) (n : Variable) :
    (∀ e ∈ Triangulator.getEdgesToAdd it t n mm, e.type = .undirected ∧
      (e.i ∈ vs ∧ emRel mm n.id e.i.id) ∧ (e.j ∈ vs ∧ emRel mm n.id e.j.id)) ∧
    (∀ x y, emRel mm n.id x → emRel mm n.id y → x ≠ y →
      emRel mm x y ∨ ∃ e ∈ Triangulator.getEdgesToAdd it t n mm, eRel e x y) := by
  obtain ⟨_, h2, h3⟩ := neighborNodes_spec h hn hg it t n
  unfold Triangulator.getEdgesToAdd
  constructor
  · intro e he
    obtain ⟨⟨p, q⟩, hpq, rfl⟩ := List.mem_map.1 he
    obtain ⟨hp, hq⟩ := mem_pairs (List.mem_filter.1 hpq).1
    exact ⟨rfl, ⟨h2 p hp, (h3 _).1 (List.mem_map_of_mem hp)⟩, ⟨h2 q hq, (h3 _).1 (List.mem_map_of_mem hq)⟩⟩
  · intro x y hx hy hxy
    by_cases hr : emRel mm x y
    · exact Or.inl hr
    · right
      obtain ⟨u, hu, rfl⟩ := List.mem_map.1 ((h3 x).2 hx)
      obtain ⟨w, hw, rfl⟩ := List.mem_map.1 ((h3 y).2 hy)
      have hne : u ≠ w := fun e => hxy (e ▸ rfl)
      rcases pairs_of_mem hu hw hne with hp | hp
      · refine ⟨uedge u w, List.mem_map.2 ⟨(u, w), List.mem_filter.2 ⟨hp, ?_⟩, rfl⟩, ?_⟩
        · simp only [Bool.not_eq_true', ← Bool.not_eq_true, h.edgeExists]; exact hr
        · unfold eRel uedge; simp only; exact ⟨hxy, by tauto⟩
      · refine ⟨uedge w u, List.mem_map.2 ⟨(w, u), List.mem_filter.2 ⟨hp, ?_⟩, rfl⟩, ?_⟩
        · simp only [Bool.not_eq_true', ← Bool.not_eq_true, h.edgeExists]
          exact fun hc => hr (h.sym _ _ hc)
        · unfold eRel uedge; simp only; exact ⟨fun e => hxy e.symm, by tauto⟩

end Step

/-- the loop plays the elimination game, records cliques, and adds the fill-in edges to `m` -/
theorem loop_spec (it : SetIter Int) : ∀ (fuel : Nat) (cliques : List Clique) (m mm : Graph Variable)
    (vs : List Variable), UInv m → UInv mm → mm.nodes = nodeDict vs → (vids vs).Nodup → vs.length = fuel →
    (∀ x y, emRel mm x y → emRel m x y) → (∀ i ∈ vids vs, i ∈ Dict.keys m.nodes) →
    ∃ cs, ElimSeq vs (emRel mm) cs ∧ (Triangulator.loop it fuel cliques m mm).1 = cs.foldl record cliques ∧
      (∀ x y, emRel m x y → emRel (Triangulator.loop it fuel cliques m mm).2 x y) ∧
      (∀ c ∈ cs, ∀ x ∈ c.nodeIds, ∀ y ∈ c.nodeIds, x ≠ y → emRel (Triangulator.loop it fuel cliques m mm).2 x y) ∧
      (Triangulator.loop it fuel cliques m mm).2.nodes = m.nodes ∧
      (∀ x y, emRel (Triangulator.loop it fuel cliques m mm).2 x y →
        emRel m x y ∨ (x ≠ y ∧ ∃ c ∈ cs, x ∈ c.nodeIds ∧ y ∈ c.nodeIds)) ∧
      UInv (Triangulator.loop it fuel cliques m mm).2
  | 0, cliques, m, mm, vs, hm0, _, hg, _, hl, _, _ => by
      have : vs = [] := List.length_eq_zero_iff.1 hl
      subst this
      exact ⟨[], ElimSeq.nil _, rfl, fun _ _ h => h, by simp, rfl, fun _ _ h => Or.inl h, hm0⟩
  | fuel + 1, cliques, m, mm, vs, hm, hmm, hg, hn, hl, hsub, hkeys => by
      have hne : vs ≠ [] := by rintro rfl; simp at hl
      obtain ⟨n, hnv, hsel⟩ := selectNode_spec it fuel hg hne
      obtain ⟨hb1, hb2, hb3⟩ := neighborNodes_spec hmm hn hg it fuel n
      obtain ⟨he1, he2⟩ := edgesToAdd_rel hmm hn hg it fuel n
      set es := Triangulator.getEdgesToAdd it fuel n mm with hes
      set c : Clique := ⟨Triangulator.neighborNodes it fuel mm n ++ [n]⟩ with hc
      set vs' := vs.filter (fun u => decide (u.id ≠ n.id)) with hvs'
      have hne_n : ∀ i, emRel mm n.id i → i ≠ n.id := fun i hi e => hmm.irr _ (e ▸ hi)
      have hcmem : ∀ i, i ∈ c.nodeIds ↔ i = n.id ∨ emRel mm n.id i := by
        intro i
        have : c.nodeIds = vids (Triangulator.neighborNodes it fuel mm n) ++ [n.id] := by
          simp [hc, Clique.nodeIds]
        rw [this, List.mem_append, hb3]
        simp; tauto
      have hcnd : c.nodeIds.Nodup := by
        have : c.nodeIds = vids (Triangulator.neighborNodes it fuel mm n) ++ [n.id] := by
          simp [hc, Clique.nodeIds]
        rw [this]
        refine List.Nodup.append hb1 (by simp) ?_
        intro a ha hb
        simp at hb
        exact hne_n a ((hb3 a).1 ha) hb
      have hcsub : ∀ u ∈ c.nodes, u ∈ vs := by
        intro u hu
        rcases List.mem_append.1 hu with hu | hu
        · exact hb2 u hu
        · simp at hu; subst hu; exact hnv
      -- the reduced graph
      have hrem := removeNode_inv hmm n.id
      have hremn := removeNode_nodes hg n.id
      have hvsids : ∀ u ∈ vs, u.id ≠ n.id → u.id ∈ vids vs' := by
        intro u hu hun
        exact List.mem_map_of_mem (List.mem_filter.2 ⟨hu, by simpa using hun⟩)
      obtain ⟨hf1, hf2, hf3, _⟩ := ufold es (mm.removeNode n.id) hrem (by
        intro e he
        obtain ⟨h1, ⟨h2, h3⟩, ⟨h4, h5⟩⟩ := he1 e he
        rw [hremn, nodeDict_keys]
        exact ⟨h1, hvsids _ h2 (hne_n _ h3), hvsids _ h4 (hne_n _ h5)⟩)
      obtain ⟨hm1, hm2, hm3, _⟩ := ufold es m hm (by
        intro e he
        obtain ⟨h1, ⟨h2, _⟩, ⟨h4, _⟩⟩ := he1 e he
        exact ⟨h1, hkeys _ (List.mem_map_of_mem h2), hkeys _ (List.mem_map_of_mem h4)⟩)
      set mm' := es.foldl (fun g e => g.addEdge e) (mm.removeNode n.id) with hmm'
      set m' := es.foldl (fun g e => g.addEdge e) m with hm'
      have hR : ∀ x y, emRel mm' x y ↔ x ≠ n.id ∧ y ≠ n.id ∧ x ≠ y ∧
          (emRel mm x y ∨ (emRel mm n.id x ∧ emRel mm n.id y)) := by
        intro x y
        rw [hf3]
        constructor
        · rintro (h1 | ⟨e, he, hr⟩)
          · unfold emRel at h1
            rw [removeNode_em] at h1
            refine ⟨h1.1, h1.2.1, ?_, Or.inl h1.2.2⟩
            rintro rfl
            exact hmm.irr _ h1.2.2
          · obtain ⟨_, ⟨_, h3⟩, ⟨_, h5⟩⟩ := he1 e he
            unfold eRel at hr
            rcases hr with ⟨hne', ⟨rfl, rfl⟩ | ⟨rfl, rfl⟩⟩
            · exact ⟨hne_n _ h3, hne_n _ h5, hne', Or.inr ⟨h3, h5⟩⟩
            · exact ⟨hne_n _ h5, hne_n _ h3, fun e => hne' e.symm, Or.inr ⟨h5, h3⟩⟩
        · rintro ⟨h1, h2, h3, h4⟩
          have hleft : emRel mm x y → emRel (mm.removeNode n.id) x y := by
            intro hr
            unfold emRel
            rw [removeNode_em]
            exact ⟨h1, h2, hr⟩
          rcases h4 with h4 | ⟨h4, h5⟩
          · exact Or.inl (hleft h4)
          · rcases he2 x y h4 h5 h3 with h6 | h6
            · exact Or.inl (hleft h6)
            · exact Or.inr h6
      have hsub' : ∀ x y, emRel mm' x y → emRel m' x y := by
        intro x y hxy
        rw [hf3] at hxy
        rw [hm3]
        rcases hxy with h1 | h1
        · unfold emRel at h1
          rw [removeNode_em] at h1
          exact Or.inl (hsub x y h1.2.2)
        · exact Or.inr h1
      have hvn : (vids vs').Nodup := by
        rw [hvs']
        exact List.Nodup.sublist (List.Sublist.map _ List.filter_sublist) hn
      have hvl : vs'.length = fuel := by
        have h1 : vids vs' = (vids vs).filter (fun i => decide (i ≠ n.id)) := by
          rw [hvs']; unfold vids; rw [List.filter_map]; rfl
        have h2 : (vids vs').length = fuel := by
          have hmem : n.id ∈ vids vs := List.mem_map_of_mem hnv
          have e1 : (vids vs).filter (fun i => decide (i ≠ n.id)) = (vids vs).erase n.id := by
            rw [List.Nodup.erase_eq_filter hn]
            apply List.filter_congr
            intro x _
            by_cases h : x = n.id <;> simp [h, bne]
          rw [h1, e1, List.length_erase_of_mem hmem]
          simp [hl]
        simpa using h2
      obtain ⟨cs, k1, k2, k3, k4, k5, k6, k7⟩ := loop_spec it fuel (record cliques c) m' mm' vs' hm1 hf1 (hf2.trans hremn) hvn hvl hsub'
        (by
          intro i hi
          rw [hm2]
          obtain ⟨u, hu, rfl⟩ := List.mem_map.1 hi
          exact hkeys _ (List.mem_map_of_mem (List.mem_filter.1 hu).1))
      have hloop : Triangulator.loop it (fuel + 1) cliques m mm =
          Triangulator.loop it fuel (record cliques c) m' mm' := by
        rw [Triangulator.loop, hsel]
        rfl
      rw [hloop]
      refine ⟨c :: cs, ElimSeq.cons n c hnv hcsub hcnd hcmem (selectNode_cheapest hmm hn hg it fuel hsel) hR k1, k2, ?_, ?_, k5.trans hm2, ?_, k7⟩
      · intro x y hxy
        exact k3 x y ((hm3 x y).2 (Or.inl hxy))
      · intro d hd x hx y hy hxy
        rcases List.mem_cons.1 hd with rfl | hd
        · apply k3
          rw [hm3]
          rw [hcmem] at hx hy
          rcases hx with rfl | hx
          · rcases hy with rfl | hy
            · exact absurd rfl hxy
            · exact Or.inl (hsub _ _ hy)
          · rcases hy with rfl | hy
            · exact Or.inl (hm.sym _ _ (hsub _ _ hx))
            · rcases he2 x y hx hy hxy with h6 | h6
              · exact Or.inl (hsub _ _ h6)
              · exact Or.inr h6
        · exact k4 d hd x hx y hy hxy
      · intro x y hxy
        rcases k6 x y hxy with h1 | ⟨hne', d, hd, h1⟩
        · rw [hm3] at h1
          rcases h1 with h1 | ⟨e, he, hr⟩
          · exact Or.inl h1
          · right
            obtain ⟨_, ⟨_, h3⟩, ⟨_, h5⟩⟩ := he1 e he
            unfold eRel at hr
            rcases hr with ⟨hne', ⟨rfl, rfl⟩ | ⟨rfl, rfl⟩⟩
            · exact ⟨hne', c, List.mem_cons_self, (hcmem _).2 (Or.inr h3), (hcmem _).2 (Or.inr h5)⟩
            · exact ⟨fun e => hne' e.symm, c, List.mem_cons_self, (hcmem _).2 (Or.inr h5), (hcmem _).2 (Or.inr h3)⟩
        · exact Or.inr ⟨hne', d, List.mem_cons_of_mem _ hd, h1⟩

end PyBBN
