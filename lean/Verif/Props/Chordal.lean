import Verif.Proofs.Chordal
import Verif.Props.Greedy
import Verif.Props.Generator
import Mathlib.Algebra.BigOperators.Group.Multiset.Basic
import Mathlib.Data.List.Perm.Subperm

/-! # What the triangulation gives: C88, and polytrees: C89 -/

namespace PyBBN
open Relation Chord DSep InferenceController

theorem filled_iff (it : SetIter Int) (ops : List BOp) (x y : Int) :
    (Triangulator.triangulate it (moralize (Bbn.run ops))).2.edgeExists x y = true ↔
      Filled (Triangulator.triangulate it (moralize (Bbn.run ops))).1 x y := by
  obtain ⟨_, hf, _, hu⟩ := triangulate_spec it (bbn_run_inv ops)
  rw [hu.edgeExists, hf]
  rfl

/-- **C88**: the filled-in graph is chordal -/
theorem c88_chordal (it : SetIter Int) (ops : List BOp) :
    Chordal (fun x y => (Triangulator.triangulate it (moralize (Bbn.run ops))).2.edgeExists x y = true) := by
  obtain ⟨cs, h1, h2, _⟩ := triangulate_elim it (bbn_run_inv ops)
  have e : (fun x y => (Triangulator.triangulate it (moralize (Bbn.run ops))).2.edgeExists x y = true) = Filled cs := by
    funext x y
    exact propext ((filled_iff it ops x y).trans (h2 x y))
  rw [e]
  exact h1.filled_chordal (moralAdj_relOn (bbn_run_inv ops))

/-- **C88**: the cliques are exactly the maximal sets of pairwise joined nodes of the filled-in graph -/
theorem c88_maximal_cliques (it : SetIter Int) (ops : List BOp) (Q : Finset Int) :
    let r := Triangulator.triangulate it (moralize (Bbn.run ops))
    let F := fun x y => r.2.edgeExists x y = true
    (∃ c ∈ r.1, c.idSet = Q) ↔
      Q.Nonempty ∧ (∀ i ∈ Q, i ∈ (Bbn.run ops).vars.map Variable.id) ∧ Complete F (· ∈ Q) ∧
      ∀ Q' : Finset Int, Q ⊆ Q' → (∀ i ∈ Q', i ∈ (Bbn.run ops).vars.map Variable.id) → Complete F (· ∈ Q') → Q' = Q := by
  intro r F
  have hinv := bbn_run_inv ops
  obtain ⟨cs, h1, h2, h3⟩ := triangulate_elim it hinv
  have hs := (triangulate_spec it hinv).1
  have hF : ∀ x y, F x y ↔ Filled r.1 x y := filled_iff it ops
  have hcov : ∀ Q : Finset Int, Q.Nonempty → (∀ i ∈ Q, i ∈ (Bbn.run ops).vars.map Variable.id) → Complete F (· ∈ Q) →
      ∃ c ∈ r.1, Q ⊆ c.idSet := by
    intro Q ⟨i, hi⟩ hQ hc
    obtain ⟨c, hc, hq⟩ := h1.filled_covers (moralAdj_relOn hinv) (· ∈ Q) ⟨i, hi⟩ hQ
      (fun x y hx hy hxy => (h2 x y).1 ((hF x y).1 (hc x y hx hy hxy)))
    obtain ⟨d, hd, hcd⟩ := h3 c hc
    exact ⟨d, hd, fun i hi => hcd ((c.mem_fs i).2 (hq i hi))⟩
  have hcomp : ∀ c ∈ r.1, Complete F (· ∈ c.idSet) := by
    intro c hc x y hx hy hxy
    exact (hF x y).2 ⟨hxy, c, hc, List.mem_toFinset.1 hx, List.mem_toFinset.1 hy⟩
  have hsub : ∀ c ∈ r.1, ∀ i ∈ c.idSet, i ∈ (Bbn.run ops).vars.map Variable.id := by
    intro c hc i hi
    obtain ⟨u, hu, rfl⟩ := List.mem_map.1 (List.mem_toFinset.1 hi)
    exact List.mem_map_of_mem (hs.sub c hc u hu)
  constructor
  · rintro ⟨c, hc, rfl⟩
    have hne : c.idSet.Nonempty := by
      cases hn : c.nodeIds with
      | nil => exact absurd hn (hs.ne c hc)
      | cons i l => exact ⟨i, (c.mem_fs i).2 (by rw [hn]; simp)⟩
    refine ⟨hne, hsub c hc, hcomp c hc, ?_⟩
    intro Q' hQ' h4 h5
    obtain ⟨d, hd, hd'⟩ := hcov Q' (hne.mono hQ') h4 h5
    have := antichain_eq hs.anti hc hd (hQ'.trans hd')
    subst this
    exact Finset.Subset.antisymm hd' hQ'
  · rintro ⟨hne, hQ, hc, hmax⟩
    obtain ⟨c, hcr, hsub'⟩ := hcov Q hne hQ hc
    exact ⟨c, hcr, hmax _ hsub' (hsub c hcr) (hcomp c hcr)⟩

/-- **C88**: no edge is added exactly when the moral graph is chordal already -/
theorem c88_no_fill (it : SetIter Int) (ops : List BOp) :
    (∀ x y, (Triangulator.triangulate it (moralize (Bbn.run ops))).2.edgeExists x y = (moralize (Bbn.run ops)).edgeExists x y) ↔
      Chordal (Moral (fun p c => (p, c) ∈ BOp.edges ops)) := by
  have hm := (c12_moral_graph ops).2.2.1
  have hinv := bbn_run_inv ops
  constructor
  · intro h
    have := c88_chordal it ops
    have e : (fun x y => (Triangulator.triangulate it (moralize (Bbn.run ops))).2.edgeExists x y = true) =
        Moral (fun p c => (p, c) ∈ BOp.edges ops) := by
      funext x y
      rw [h x y]
      exact propext (hm x y)
    rwa [e] at this
  · intro hc x y
    obtain ⟨cs, h1, h2, _⟩ := triangulate_elim it hinv
    have e : Moral (fun p c => (p, c) ∈ BOp.edges ops) = MoralAdj (Bbn.run ops) := by
      funext x y; exact propext (moralAdj_iff ops x y).symm
    rw [Bool.eq_iff_iff, filled_iff, hm, h2, e]
    rw [e] at hc
    exact ⟨h1.no_fill (moralAdj_relOn hinv) hc x y, fun h => h1.filled_of_rel (moralAdj_relOn hinv) h⟩

/-- not vacuous: the six-node network of C13 has a cycle 1, 2, 4, 3 without chord in its moral graph, so an edge is added; {2, 3, 4} is a clique
of the result and {2, 3} is complete but not maximal -/
theorem c88_cycle : ¬ Chordal (Moral (fun p c => (p, c) ∈ BOp.edges c13_ops)) := by
  rw [← c88_no_fill .same]
  intro h
  have h1 := h 2 3
  revert h1
  decide +kernel

example : ¬ (∀ x y, (Triangulator.triangulate .rev (moralize (Bbn.run c13_ops))).2.edgeExists x y = (moralize (Bbn.run c13_ops)).edgeExists x y) :=
  fun h => c88_cycle ((c88_no_fill .rev c13_ops).1 h)
example := c88_chordal .rev c13_ops
example := (c88_maximal_cliques .same c13_ops {2, 3, 4}).1 (by decide +kernel)
example := (c88_maximal_cliques .same c13_ops {2, 3}).not.1 (by decide +kernel)

/-- … and the moral graph of the five-node network of C16 is chordal, because no edge was added -/
example : Chordal (Moral (fun p c => (p, c) ∈ BOp.edges c16_ops)) := by
  rw [← c88_no_fill .same]
  intro x y
  rw [Bool.eq_iff_iff, filled_iff, (c12_moral_graph c16_ops).2.2.1]
  constructor
  · rintro ⟨h, c, hc, hx, hy⟩
    have key : ∀ c ∈ (Triangulator.triangulate .same (moralize (Bbn.run c16_ops))).1, ∀ x ∈ c.nodeIds, ∀ y ∈ c.nodeIds, x ≠ y →
        (moralize (Bbn.run c16_ops)).edgeExists x y = true := by decide +kernel
    exact ((c12_moral_graph c16_ops).2.2.1 x y).1 (key c hc x hx y hy h)
  · intro h
    exact (filled_iff .same c16_ops x y).1 ((c13_triangulation .same c16_ops).2.2.2.2.2.1 x y h)

/-! ## C89 -/

theorem moral_iff_inFam (E : Int → Int → Prop) (x y : Int) : Moral E x y ↔ InFam E x y := by
  constructor
  · rintro ⟨h, h1 | h1 | ⟨c, h1, h2⟩⟩
    · exact ⟨h, y, Or.inr h1, Or.inl rfl⟩
    · exact ⟨h, x, Or.inl rfl, Or.inr h1⟩
    · exact ⟨h, c, Or.inr h1, Or.inr h2⟩
  · rintro ⟨h, f, rfl | h1, rfl | h2⟩
    · exact absurd rfl h
    · exact ⟨h, Or.inr (Or.inl h2)⟩
    · exact ⟨h, Or.inl h1⟩
    · exact ⟨h, Or.inr (Or.inr ⟨f, h1, h2⟩)⟩

/-- **C89**: on a polytree no edge is added -/
theorem c89_no_fill (it : SetIter Int) (ops : List BOp) (hp : Polytree (fun p c => (p, c) ∈ BOp.edges ops)) (x y : Int) :
    (Triangulator.triangulate it (moralize (Bbn.run ops))).2.edgeExists x y = (moralize (Bbn.run ops)).edgeExists x y := by
  refine (c88_no_fill it ops).2 ?_ x y
  have e : Moral (fun p c => (p, c) ∈ BOp.edges ops) = InFam (fun p c => (p, c) ∈ BOp.edges ops) := by
    funext x y
    exact propext (moral_iff_inFam _ x y)
  rw [e]
  exact hp.chordal

/-- **C89**: on a polytree every clique is a node together with its parents -/
theorem c89_families (it : SetIter Int) (ops : List BOp) (hp : Polytree (fun p c => (p, c) ∈ BOp.edges ops)) :
    ∀ c ∈ (Triangulator.triangulate it (moralize (Bbn.run ops))).1, ∃ v ∈ (Bbn.run ops).vars,
      ∀ i, i ∈ c.nodes.map Variable.id ↔ i = v.id ∨ (i, v.id) ∈ BOp.edges ops := by
  intro c hc
  have hinv := bbn_run_inv ops
  obtain ⟨k1, k2, _, k4, k5, _, _⟩ := c13_triangulation it ops
  have hs := (triangulate_spec it hinv).1
  have hirr : ∀ a b, (a, b) ∈ BOp.edges ops → a ≠ b := fun a b h e => hp.1 a b h (e ▸ e ▸ h)
  have hcomp : Complete (InFam (fun p c => (p, c) ∈ BOp.edges ops)) (fun i => i ∈ c.nodes.map Variable.id) := by
    intro x y hx hy hxy
    rw [← moral_iff_inFam, ← (c12_moral_graph ops).2.2.1, ← c89_no_fill it ops hp x y]
    exact (k5 x y).2 ⟨hxy, c, hc, hx, hy⟩
  obtain ⟨h1, h2, h3⟩ := k1 c hc
  obtain ⟨u, l, hul⟩ := List.exists_cons_of_ne_nil h1
  have hu : u ∈ c.nodes := by rw [hul]; simp
  obtain ⟨f, hf⟩ := hp.helly hcomp (x := u.id) (List.mem_map_of_mem hu)
  -- the common family is that of a node
  have hfv : ∃ v ∈ (Bbn.run ops).vars, v.id = f := by
    rcases hf u.id (List.mem_map_of_mem hu) with e | e
    · exact ⟨u, h3 u hu, e⟩
    · have := (moralAdj_relOn hinv).mem f u.id ((moralAdj_iff ops f u.id).2 ⟨(hirr _ _ e).symm, Or.inr (Or.inl e)⟩)
      obtain ⟨v, hv, e⟩ := List.mem_map.1 this
      exact ⟨v, hv, e⟩
  obtain ⟨v, hv, rfl⟩ := hfv
  obtain ⟨d, hd, hvd, hpd⟩ := k2 v hv
  have hfd : ∀ i, Fam (fun p c => (p, c) ∈ BOp.edges ops) v.id i → i ∈ d.nodes.map Variable.id := by
    rintro i (rfl | hi)
    · exact List.mem_map_of_mem hvd
    · exact hpd i hi
  have : c = d := antichain_eq hs.anti hc hd (fun i hi => (d.mem_fs i).2 (hfd i (hf i ((c.mem_fs i).1 hi))))
  subst this
  exact ⟨v, hv, fun i => ⟨hf i, hfd i⟩⟩

theorem tab_length (ns : List Variable) (f : Asg → ℚ) : (tab ns f).length = (ns.map (fun v => v.values.length)).prod := by
  unfold tab
  rw [List.length_map, product_length_eq, List.map_map]
  rfl

/-- the sizes of the tables of the join tree, on every network and after every history -/
theorem table_sizes {it : SetIter Int} {js : SetIter Str} {ops : List BOp} {jt : JoinTree} (hu : Net.Sane ops)
    (hj : apply it js (Bbn.run ops) = .ok jt) (h : List (SetIter Str × EvOp)) (hn : ∀ op ∈ h, op.2.Nodes (Bbn.run ops).vars) :
    ∀ k n, Dict.get? (runHist jt h).nodes k = some n → ∃ P, Dict.get? (runHist jt h).potentials k = some P ∧
      P.length = (n.vars.map (fun v => v.values.length)).prod ∧
      ∃ c ∈ (Triangulator.triangulate it (moralize (Bbn.run ops))).1, P.length ≤ c.rows ∧ (∀ d, n = .clique d → d = c ∧ P.length = c.rows) := by
  intro k n hk
  obtain ⟨T, s0, h1, h2, h3, h4, h5, h6⟩ := live_hist hu hj h hn
  obtain ⟨χ, R, ks, vs, _, _, hT, _⟩ := h4.calib.tabs
  have hsc : (runHist jt h).scope k = n.vars := by
    unfold JoinTree.scope; rw [hk]; rfl
  have hP := hT k (Dict.mem_keys_of_get? hk)
  rw [hsc] at hP
  have hspec := h4.calib.ctx.spec
  refine ⟨_, hP, tab_length _ _, ?_⟩
  rcases (hspec.shape.node k n).1 hk with ⟨c, hc, _, rfl⟩ | ⟨s, hs, _, rfl⟩
  · refine ⟨c, hc, (tab_length _ _).le, ?_⟩
    intro d hd
    cases hd
    exact ⟨rfl, tab_length _ _⟩
  · have hg := hspec.shape.good s hs
    refine ⟨s.left, hg.left, ?_, by intro d hd; cases hd⟩
    rw [tab_length]
    refine Nat.le_of_dvd ?_ (hg.nodes_sub.map _).prod_dvd_prod
    rw [Nat.pos_iff_ne_zero]
    intro h0
    unfold Clique.rows at h0
    rw [List.prod_eq_zero_iff] at h0
    obtain ⟨v, hv, e⟩ := List.mem_map.1 h0
    exact hu.vals v (h4.calib.ctx.sub _ hg.left v hv) (List.length_eq_zero_iff.1 e)

/-- **C89**: on a polytree, after `apply` and every history of evidence operations, no table of the join tree is larger than the CPT of some
node; the table of a clique has one row per combination of the values of a node and its parents -/
theorem c89_tables {it : SetIter Int} {js : SetIter Str} {ops : List BOp} {jt : JoinTree} (hp : Polytree (fun p c => (p, c) ∈ BOp.edges ops))
    (hu : Net.Sane ops) (hj : apply it js (Bbn.run ops) = .ok jt) (h : List (SetIter Str × EvOp))
    (hn : ∀ op ∈ h, op.2.Nodes (Bbn.run ops).vars) :
    ∀ k n, Dict.get? (runHist jt h).nodes k = some n → ∃ P, Dict.get? (runHist jt h).potentials k = some P ∧
      ∃ m ∈ (Bbn.run ops).toGraph.getNodes, P.length ≤ m.probs.length ∧
        ∀ c, n = .clique c → P.length = (((Bbn.run ops).parentVars m.var.id ++ [m.var]).map (fun v => v.values.length)).prod := by
  intro k n hk
  have hinv := bbn_run_inv ops
  obtain ⟨P, hP, _, c, hc, hle, heq⟩ := table_sizes hu hj h hn k n hk
  obtain ⟨v, hv, hfam⟩ := c89_families it ops hp c hc
  obtain ⟨m, hm, rfl⟩ := List.mem_map.1 hv
  have hs := (triangulate_spec it hinv).1
  have hrows : c.rows = (((Bbn.run ops).parentVars m.var.id ++ [m.var]).map (fun v => v.values.length)).prod := by
    have hperm : c.nodes.Perm ((Bbn.run ops).parentVars m.var.id ++ [m.var]) := by
      have e1 : ∀ u ∈ (Bbn.run ops).parentVars m.var.id ++ [m.var], u ∈ (Bbn.run ops).vars := by
        intro u hu
        rcases List.mem_append.1 hu with h | h
        · exact parentVars_sub hinv _ u h
        · rw [List.mem_singleton.1 h]; exact hv
      have e2 : ∀ i, i ∈ ((Bbn.run ops).parentVars m.var.id ++ [m.var]).map Variable.id ↔ i ∈ c.nodes.map Variable.id := by
        intro i
        rw [hfam, List.map_append, List.mem_append, ← parents_requested, ← vids_parentVars hinv]
        simp [vids, or_comm]
      have e3 : (((Bbn.run ops).parentVars m.var.id ++ [m.var]).map Variable.id).Nodup := by
        rw [List.map_append, List.nodup_append]
        have hv' : (Bbn.run ops).parentVars m.var.id |>.map Variable.id |>.Nodup := by
          have := vids_parentVars hinv m.var.id
          unfold vids at this
          rw [this]
          exact (c07_parents_first_insertion ops _).2.1
        refine ⟨hv', by simp, ?_⟩
        intro a ha b hb e
        have ha' : a ∈ ddGet (Bbn.run ops).parents m.var.id := by rw [← vids_parentVars hinv]; exact ha
        rw [parents_requested] at ha'
        have : b = m.var.id := by simpa using hb
        subst e; subst this
        exact hp.1 _ _ ha' ha'
      have inj : ∀ a ∈ (Bbn.run ops).vars, ∀ b ∈ (Bbn.run ops).vars, a.id = b.id → a = b :=
        fun a ha b hb e => List.inj_on_of_nodup_map (vars_nodup hinv) ha hb e
      rw [List.perm_ext_iff_of_nodup (List.Nodup.of_map _ (hs.nodup c hc)) (List.Nodup.of_map _ e3)]
      intro u
      constructor
      · intro hu
        obtain ⟨w, hw, e⟩ := List.mem_map.1 ((e2 u.id).2 (List.mem_map_of_mem hu))
        rw [← inj w (e1 w hw) u (hs.sub c hc u hu) e]; exact hw
      · intro hu
        obtain ⟨w, hw, e⟩ := List.mem_map.1 ((e2 u.id).1 (List.mem_map_of_mem hu))
        rw [← inj w (hs.sub c hc w hw) u (e1 u hu) e]; exact hw
    exact (hperm.map _).prod_eq
  refine ⟨P, hP, m, hm, ?_, ?_⟩
  · exact hle.trans (hrows ▸ hu.wf.cpt m hm)
  · intro d hd
    rw [(heq d hd).2, hrows]

theorem polytree_of_unique {E : Int → Int → Prop} {ns : List Int} (hwf : ∀ a b, E a b → a ∈ ns ∧ b ∈ ns) (hna : ∀ a b, E a b → ¬ E b a)
    (hu : ∀ x ∈ ns, ∀ y ∈ ns, ∃! p, IsPath E x y p) : Polytree E := by
  refine ⟨hna, ?_⟩
  have key : ∀ x y p, IsPath E x y p → x ∉ ns ∨ y ∉ ns → p = [x] ∧ x = y := by
    rintro x y p ⟨h1, h2, h3, h4⟩ hxy
    match p, h1, h2, h3 with
    | [a], h1, h2, _ =>
      simp at h1 h2
      exact ⟨by rw [h1], h1.symm.trans h2⟩
    | a :: b :: l, h1, h2, h3 =>
      exfalso
      have ha : a = x := by simpa using h1
      subst ha
      have hall : ∀ z ∈ a :: b :: l, z ∈ ns := by
        have : ∀ (l : List Int) (a b : Int), (a :: b :: l).IsChain (Adj E) → ∀ z ∈ a :: b :: l, z ∈ ns := by
          intro l
          induction l with
          | nil =>
            intro a b h z hz
            have hab : Adj E a b := by simpa using h
            simp at hz
            rcases hab with h | h <;> rcases hz with rfl | rfl
            · exact (hwf _ _ h).1
            · exact (hwf _ _ h).2
            · exact (hwf _ _ h).2
            · exact (hwf _ _ h).1
          | cons c l ih =>
            intro a b h z hz
            rw [List.isChain_cons_cons] at h
            rcases List.mem_cons.1 hz with rfl | hz
            · rcases h.1 with h | h
              · exact (hwf _ _ h).1
              · exact (hwf _ _ h).2
            · exact ih b c h.2 z hz
        exact this l a b h3
      rcases hxy with h | h
      · exact h (hall a (by simp))
      · exact h (hall y (List.mem_of_getLast? h2))
  intro x y p q hp hq
  by_cases h : x ∈ ns ∧ y ∈ ns
  · exact (hu x h.1 y h.2).unique hp hq
  · have h' : x ∉ ns ∨ y ∉ ns := by
      by_contra hc
      push Not at hc
      exact h hc
    rw [(key x y p hp h').1, (key x y q hq h').1]

theorem unique_of_allPaths {g : DiG Int} (hwf : g.WF) (h : ∀ x ∈ g.nodes, ∀ y ∈ g.nodes, x ≠ y → (Do.allPaths g x y).length = 1) :
    ∀ x ∈ g.nodes, ∀ y ∈ g.nodes, ∃! p, IsPath g.E x y p := by
  intro x hx y hy
  by_cases hxy : x = y
  · subst hxy
    refine ⟨[x], ⟨rfl, rfl, by simp, by simp⟩, ?_⟩
    rintro p ⟨h1, h2, _, h4⟩
    match p, h1, h2, h4 with
    | [a], h1, _, _ => simp at h1; rw [h1]
    | a :: b :: l, h1, h2, h4 =>
      have ha : a = x := by simpa using h1
      subst ha
      have : a ∈ b :: l := List.mem_of_getLast? (by rw [List.getLast?_cons_cons] at h2; exact h2)
      rw [List.nodup_cons] at h4
      exact absurd this h4.1
  · obtain ⟨p, hp⟩ := List.length_eq_one_iff.1 (h x hx y hy hxy)
    refine ⟨p, (Do.mem_allPaths hwf hxy p).1 (by rw [hp]; simp), ?_⟩
    intro q hq
    have := (Do.mem_allPaths hwf hxy q).2 hq
    rw [hp] at this
    simpa using this

/-- 0 → 2 ← 1, 2 → 3 ← 4 -/
def c89_ops : List BOp :=
  [.addEdge (mkNode 0 "a" [1/4, 3/4]) (mkNode 2 "c" [1/10, 9/10, 1/5, 4/5, 3/10, 7/10, 0, 1]),
   .addEdge (mkNode 1 "b" [1/2, 1/2]) (mkNode 2 "c" [1/10, 9/10, 1/5, 4/5, 3/10, 7/10, 0, 1]),
   .addEdge (mkNode 2 "c" [1/10, 9/10, 1/5, 4/5, 3/10, 7/10, 0, 1]) (mkNode 3 "d" [1/3, 2/3, 3/4, 1/4, 1/2, 1/2, 1/6, 5/6]),
   .addEdge (mkNode 4 "e" [1/3, 2/3]) (mkNode 3 "d" [1/3, 2/3, 3/4, 1/4, 1/2, 1/2, 1/6, 5/6])]

theorem c89_polytree : Polytree (fun p c => (p, c) ∈ BOp.edges c89_ops) := by
  have hwf : DiG.WF (⟨[0, 1, 2, 3, 4], BOp.edges c89_ops⟩ : DiG Int) := by unfold DiG.WF; decide +kernel
  refine polytree_of_unique (E := DiG.E (⟨[0, 1, 2, 3, 4], BOp.edges c89_ops⟩ : DiG Int)) (fun a b h => hwf _ h) ?_
    (unique_of_allPaths hwf (by decide +kernel))
  intro a b h
  have key : ∀ e ∈ BOp.edges c89_ops, (e.2, e.1) ∉ BOp.edges c89_ops := by decide +kernel
  exact key _ h

theorem c89_sane : Net.Sane c89_ops := ⟨wf_of_check (by decide +kernel) (by decide +kernel), by decide +kernel⟩

/-- not vacuous: the cliques of this polytree are the families of 2 and 3; in the network of C16, which is not a polytree, the clique 0, 1, 2 is
not a family -/
example : (Triangulator.triangulate .same (moralize (Bbn.run c89_ops))).1.map Clique.nodeIds = [[2, 1, 0], [3, 4, 2]] ∧
    (Triangulator.triangulate .same (moralize (Bbn.run c16_ops))).1.map Clique.nodeIds = [[3, 4], [1, 2, 0], [3, 2, 1]] := by decide +kernel
example := c89_families .rev c89_ops c89_polytree
example := c89_no_fill .rev c89_ops c89_polytree 0 1
example {jt : JoinTree} (hj : apply .same .rev (Bbn.run c89_ops) = .ok jt) := c89_tables c89_polytree c89_sane hj
  [(.rev, .update [Evidence.build (c16_node 2) .virtual [("on".toList, 1/2), ("off".toList, 1/3)]])] (by
    intro op ho
    rw [List.mem_singleton] at ho
    subst ho
    intro e he
    rw [List.mem_singleton] at he
    subst he
    unfold NodeOk
    decide +kernel)
example : (apply .same .same (Bbn.run c89_ops)).val?.map (fun jt => jt.potentials.map (fun kP => (kP.1, kP.2.length))) =
    some [("0-1-2".toList, 8), ("2-3-4".toList, 8), ("0-1-2-2-2-3-4".toList, 2)] := by decide +kernel

/-- **C89**: so inference on the networks of `generate_singly_bbn` never needs a table larger than the CPTs that were generated -/
theorem c89_generated (D : Dirichlet) {n maxValues maxAlpha : Int} (hn : 0 < n) (hv : 0 < maxValues) (ha : 0 < maxAlpha) (maxIter : Int) :
    (Gen.generateSingly D n maxIter maxValues maxAlpha).Always (fun r => ∃ b, Gen.convert r.1 r.2 = .ok b ∧
      ∀ (it : SetIter Int) (js : SetIter Str), ∃ jt, apply it js b = .ok jt ∧ ∀ k t, Dict.get? jt.nodes k = some t →
        ∃ P, Dict.get? jt.potentials k = some P ∧ ∃ m ∈ b.toGraph.getNodes, P.length ≤ m.probs.length) := by
  unfold Gen.generateSingly
  refine (Gen.always_singly hn maxIter).bind ?_
  intro g hg
  refine (Gen.always_parameters D hg.toInv hv ha).bind ?_
  rintro ps ⟨card, hf, _⟩
  refine Rnd.always_pure ?_
  have hnd : g.nodes.Nodup := by rw [hg.nodes]; exact Gen.nodup_range n
  have hun : ∀ x ∈ g.nodes, ∀ y ∈ g.nodes, ∃! p, IsPath g.E x y p := fun x hx y hy =>
    DiG.existsUnique_path hg.wf hg.anti hnd hg.conn hg.len hx hy
  have hac := DiG.acyclic_of_path hg.wf hg.anti hun
  obtain ⟨b, hb, hr⟩ := ready_of hn hg.toInv hac hf
  have hgood := Gen.convert_good hg.toInv hac hf
  have e := Gen.convert_ok hnd hg.wf hf
  rw [e] at hb
  cases hb
  refine ⟨_, e, ?_⟩
  intro it js
  obtain ⟨jt, hj, _⟩ := hr.apply it js
  refine ⟨jt, hj, ?_⟩
  have hE : (fun p c => (p, c) ∈ BOp.edges (Gen.convertOps g ps)) = g.E := by
    funext p c
    rw [Gen.convert_edges]
    exact propext (Gen.mem_edges hg.wf p c)
  intro k t hk
  obtain ⟨P, hP, m, hm, hle, _⟩ := c89_tables (by rw [hE]; exact polytree_of_unique (fun a b h => hg.wf _ h) hg.anti hun)
    hgood.usable.toSane hj [] (by simp) k t hk
  exact ⟨P, hP, m, hm, hle⟩

/-- not vacuous: a run of the generator that ends -/
example (D : Dirichlet) := c89_generated D (n := 4) (maxValues := 2) (maxAlpha := 3) (by omega) (by omega) (by omega) 2

end PyBBN
