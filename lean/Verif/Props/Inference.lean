import Verif.Proofs.Exact
import Verif.Props.JoinTrees
import Verif.Props.Potentials

/-! # Exact priors: C16, C17 -/

namespace PyBBN
open Relation InferenceController

/-- the cliques of a connected network are connected in the join tree -/
theorem connected_cliques {ops : List BOp} (hconn : ConnectedOps ops) {cs : List Clique} {T : List SepSet} {jt : JoinTree}
    (hs : CliqueSpec (Bbn.run ops) cs) (h : JTSpec cs T jt) : ∀ c ∈ cs, ∀ d ∈ cs, Conn sl sr T c.fs d.fs := by
  intro c hc d hd
  obtain ⟨x, hx⟩ := List.exists_mem_of_ne_nil _ (hs.ne c hc)
  obtain ⟨y, hy⟩ := List.exists_mem_of_ne_nil _ (hs.ne d hd)
  obtain ⟨u, hu, rfl⟩ := List.mem_map.1 hx
  obtain ⟨w, hw, rfl⟩ := List.mem_map.1 hy
  have := hconn u (hs.sub c hc u hu) w (hs.sub d hd w hw)
  refine h.conn_vars hs (bbn_run_inv ops) (x := u.id) (y := w.id) ?_ c hc d hd hx hy
  have hE : (fun p c => p ∈ ddGet (Bbn.run ops).parents c) = fun p c => (p, c) ∈ BOp.edges ops := by
    funext p c
    exact propext (parents_requested ops p c)
  rw [hE]
  exact this

/-- the posterior table of node `v`: one entry per value, in the order of the values -/
def posteriorTable (b : Bbn) (lik : Int → Str → ℚ) (v : Variable) : Potential :=
  v.values.map (fun x => ⟨[(v.id, x)], b.posterior lik v.id x⟩)

theorem exactAnswer_eq {b : Bbn} (h : BbnInv b) (ℓ : Int → Str → ℚ) (v : Variable) :
    exactAnswer b.vars (b.net.W ℓ b.vars) v = posteriorTable b ℓ v := by
  unfold exactAnswer posteriorTable Bbn.posterior Bbn.mass Bbn.total
  rw [Bbn.weight_eq h]
  rfl

theorem leftover_nil (b : Bbn) (cs : List Clique) : LeftoverOk b cs [] := fun _ _ => Or.inl rfl

/-- **C16**. For a connected network with non-negative CPTs of the right length `apply` succeeds and `get_bbn_potential` returns
the exact prior of every node, whatever the iteration order of the sets. (For the network without nodes `apply` raises
`IndexError`.) -/
theorem c16_exact_priors (it : SetIter Int) (js : SetIter Str) (ops : List BOp) (wf : (Bbn.run ops).WF)
    (hconn : ConnectedOps ops) :
    ((Bbn.run ops).vars ≠ [] → ∃ jt, apply it js (Bbn.run ops) = .ok jt ∧
      ∀ v ∈ (Bbn.run ops).vars, jt.getBbnPotential v = .ok (posteriorTable (Bbn.run ops) noEvidence v)) ∧
    ((Bbn.run ops).vars = [] → apply it js (Bbn.run ops) = .error .indexError) := by
  have h := bbn_run_inv ops
  constructor
  · intro hne
    obtain ⟨T, jt, a1, a2, _⟩ := applyWith_spec it js h wf hne (leftover_nil _ _)
    refine ⟨jt, a1, ?_⟩
    intro v hv
    rw [a2.posterior_conn (Bbn.net_ok h wf) (connected_cliques hconn (triangulate_spec it h).1 a2.ctx.spec) hv, exactAnswer_eq h]
  · intro hnil
    have hn : (Bbn.run ops).toGraph.getNodes = [] := List.map_eq_nil_iff.1 hnil
    have hcs : (Triangulator.triangulate it (moralize (Bbn.run ops))).1 = [] := by
      have hs := (triangulate_spec it h).1
      by_contra hc
      obtain ⟨c, hc⟩ := List.exists_mem_of_ne_nil _ hc
      obtain ⟨i, hi⟩ := List.exists_mem_of_ne_nil _ (hs.ne c hc)
      obtain ⟨u, hu, _⟩ := List.mem_map.1 hi
      have := hs.sub c hc u hu
      rw [hnil] at this
      simp at this
    simp only [apply, applyWith, potentialInit, moralParents, initialHeap, hn, hcs, List.foldlM_nil, List.map_nil, bind, Except.bind,
      pure, Except.pure]
    rfl

/-! ## get_posteriors -/

theorem foldl_set_values (i : Int) (f : Str → ℚ) : ∀ (xs : List Str) (m : Dict Str ℚ), xs.Nodup → (∀ x ∈ xs, x ∉ Dict.keys m) →
    (xs.map (fun x => (⟨[(i, x)], f x⟩ : PEntry))).foldl (fun m e => Dict.set m ((e.entries.map Prod.snd).flatten) e.value) m =
      m ++ xs.map (fun x => (x, f x))
  | [], m, _, _ => by simp
  | x :: xs, m, hn, hm => by
      rw [List.nodup_cons] at hn
      rw [List.map_cons, List.foldl_cons]
      have e : (([(i, x)] : List (Int × Str)).map Prod.snd).flatten = x := by simp
      simp only [e]
      rw [Dict.set_of_not_mem (hm x List.mem_cons_self), foldl_set_values i f xs _ hn.2 (by
        intro y hy
        simp only [Dict.keys, List.map_append, List.map_cons, List.map_nil, List.mem_append, List.mem_cons, List.not_mem_nil,
          or_false, not_or]
        exact ⟨hm y (List.mem_cons_of_mem _ hy), fun e => hn.1 (e ▸ hy)⟩)]
      simp

/-- `get_posteriors` collects the tables of `get_bbn_potential` under the node names -/
theorem getPosteriors_spec {jt : JoinTree} {b : Bbn} {ℓ : Int → Str → ℚ} (hperm : jt.getBbnNodes.Perm b.vars)
    (hp : ∀ v ∈ b.vars, jt.getBbnPotential v = .ok (posteriorTable b ℓ v)) (hval : ∀ v ∈ b.vars, v.values.Nodup)
    (hname : (b.vars.map Variable.name).Nodup) :
    ∃ d, jt.getPosteriors = .ok d ∧ (∀ k, k ∈ Dict.keys d ↔ k ∈ b.vars.map Variable.name) ∧
      ∀ v ∈ b.vars, Dict.get? d v.name = some (v.values.map (fun x => (x, b.posterior ℓ v.id x))) := by
  have key : ∀ (l : List Variable) (d : Dict Str (Dict Str ℚ)), (∀ v ∈ l, v ∈ b.vars) → (l.map Variable.name).Nodup →
      (∀ v ∈ l, v.name ∉ Dict.keys d) →
      l.foldlM (fun (d : Dict Str (Dict Str ℚ)) (node : Variable) => (do
        let p ← jt.getBbnPotential node
        let m := p.foldl (fun m (e : PEntry) => Dict.set m ((e.entries.map Prod.snd).flatten) e.value) []
        .ok (Dict.set d node.name m) : Py (Dict Str (Dict Str ℚ)))) d =
      .ok (d ++ l.map (fun (v : Variable) => (v.name, v.values.map (fun x => (x, b.posterior ℓ v.id x))))) := by
    intro l
    induction l with
    | nil => intro d _ _ _; simp [pure, Except.pure]
    | cons v l ih =>
      intro d hl hn hd
      rw [List.map_cons, List.nodup_cons] at hn
      rw [List.foldlM_cons, hp v (hl v List.mem_cons_self)]
      simp only [bind, Except.bind]
      unfold posteriorTable
      rw [foldl_set_values v.id (fun x => b.posterior ℓ v.id x) v.values [] (hval v (hl v List.mem_cons_self)) (by simp [Dict.keys]),
        Dict.set_of_not_mem (hd v List.mem_cons_self)]
      have := ih (d ++ [(v.name, [] ++ v.values.map (fun x => (x, b.posterior ℓ v.id x)))])
        (fun u hu => hl u (List.mem_cons_of_mem _ hu)) hn.2 (by
          intro u hu
          simp only [Dict.keys, List.map_append, List.map_cons, List.map_nil, List.mem_append, List.mem_cons, List.not_mem_nil,
            or_false, not_or]
          exact ⟨hd u (List.mem_cons_of_mem _ hu), fun e => hn.1 (e ▸ List.mem_map_of_mem hu)⟩)
      simp only [bind, Except.bind, posteriorTable] at this
      rw [this]
      simp
  have hn : (jt.getBbnNodes.map Variable.name).Nodup := (hperm.map _).nodup_iff.2 hname
  have := key jt.getBbnNodes [] (fun v hv => hperm.mem_iff.1 hv) hn (by simp [Dict.keys])
  refine ⟨_, this, ?_, ?_⟩
  · intro k
    rw [List.nil_append, Dict.keys, List.map_map]
    exact (hperm.map _).mem_iff
  · intro v hv
    refine Dict.get?_of_mem ?_ ?_
    · rw [List.nil_append, Dict.keys, List.map_map]
      exact hn
    · exact List.mem_map.2 ⟨v, hperm.mem_iff.2 hv, rfl⟩

/-- **C16** for `get_posteriors`: when names are distinct it returns, for every node name, the exact prior by value. -/
theorem c16_get_posteriors (it : SetIter Int) (js : SetIter Str) (ops : List BOp) (wf : (Bbn.run ops).WF)
    (hconn : ConnectedOps ops) (hne : (Bbn.run ops).vars ≠ []) (hname : ((Bbn.run ops).vars.map Variable.name).Nodup) :
    ∃ jt d, apply it js (Bbn.run ops) = .ok jt ∧ jt.getPosteriors = .ok d ∧
      (∀ k, k ∈ Dict.keys d ↔ k ∈ (Bbn.run ops).vars.map Variable.name) ∧
      ∀ v ∈ (Bbn.run ops).vars, Dict.get? d v.name =
        some (v.values.map (fun x => (x, (Bbn.run ops).posterior noEvidence v.id x))) := by
  have h := bbn_run_inv ops
  obtain ⟨T, jt, a1, a2, _⟩ := applyWith_spec it js h wf hne (leftover_nil _ _)
  obtain ⟨d, d1, d2, d3⟩ := getPosteriors_spec (b := Bbn.run ops) (ℓ := noEvidence) a2.ctx.bbnNodes_perm (by
    intro v hv
    rw [a2.posterior_conn (Bbn.net_ok h wf) (connected_cliques hconn (triangulate_spec it h).1 a2.ctx.spec) hv, exactAnswer_eq h])
    (fun v hv => values_nodup wf hv) hname
  exact ⟨jt, d, a1, d1, d2, d3⟩

/-- the network of the examples: a diamond 0 → 1, 0 → 2, 1 → 3, 2 → 3 with a tail 3 → 4 -/
def c16_ops : List BOp :=
  [.addEdge (mkNode 0 "a" [1/4, 3/4]) (mkNode 1 "b" [1/2, 1/2, 1/4, 3/4]),
   .addEdge (mkNode 0 "a" [1/4, 3/4]) (mkNode 2 "c" [1/5, 4/5, 2/5, 3/5]),
   .addEdge (mkNode 2 "c" [1/5, 4/5, 2/5, 3/5]) (mkNode 3 "d" [1/10, 9/10, 1/5, 4/5, 3/10, 7/10, 0, 1]),
   .addEdge (mkNode 1 "b" [1/2, 1/2, 1/4, 3/4]) (mkNode 3 "d" [1/10, 9/10, 1/5, 4/5, 3/10, 7/10, 0, 1]),
   .addEdge (mkNode 3 "d" [1/10, 9/10, 1/5, 4/5, 3/10, 7/10, 0, 1]) (mkNode 4 "e" [1/3, 2/3, 3/4, 1/4])]

theorem c16_wf : (Bbn.run c16_ops).WF := wf_of_check (by decide +kernel) (by decide +kernel)

theorem c16_connected : ConnectedOps c16_ops := by
  have hv : ∀ u ∈ (Bbn.run c16_ops).vars, EqvGen (fun p c => (p, c) ∈ BOp.edges c16_ops) 0 u.id := by
    have e : ∀ p c, (p, c) ∈ BOp.edges c16_ops → EqvGen (fun p c => (p, c) ∈ BOp.edges c16_ops) p c :=
      fun p c h => EqvGen.rel _ _ h
    have h1 := e 0 1 (by decide +kernel)
    have h2 := e 0 2 (by decide +kernel)
    have h3 := EqvGen.trans _ _ _ h1 (e 1 3 (by decide +kernel))
    have h4 := EqvGen.trans _ _ _ h3 (e 3 4 (by decide +kernel))
    have hid : (Bbn.run c16_ops).vars.map Variable.id = [0, 1, 2, 3, 4] := by decide +kernel
    intro u hu
    have : u.id ∈ (Bbn.run c16_ops).vars.map Variable.id := List.mem_map.2 ⟨u, hu, rfl⟩
    rw [hid] at this
    simp only [List.mem_cons, List.not_mem_nil, or_false] at this
    rcases this with h | h | h | h | h <;> rw [h]
    · exact EqvGen.refl _
    all_goals assumption
  intro u hu v hv'
  exact EqvGen.trans _ _ _ (EqvGen.symm _ _ (hv u hu)) (hv v hv')

/-- C16 is not vacuous; the table computed for node 4 is the specified one -/
example : (Bbn.run c16_ops).WF ∧ ConnectedOps c16_ops ∧ (Bbn.run c16_ops).vars ≠ [] ∧
    ((Bbn.run c16_ops).vars.map Variable.name).Nodup ∧
    ((apply .rev .same (Bbn.run c16_ops)).val?.bind (fun jt => (jt.getBbnPotential (mkNode 4 "e" []).var).val?)).map
      (fun P => P.map PEntry.value) = some [447 / 640, 193 / 640] ∧
    (posteriorTable (Bbn.run c16_ops) noEvidence (mkNode 4 "e" []).var).map PEntry.value = [447 / 640, 193 / 640] :=
  ⟨c16_wf, c16_connected, by decide +kernel, by decide +kernel, by decide +kernel, by decide +kernel⟩

/-- the theorems at this network -/
example := (c16_exact_priors .rev .same c16_ops c16_wf c16_connected).1 (by decide +kernel)
example := c16_get_posteriors .same .rev c16_ops c16_wf c16_connected (by decide +kernel) (by decide +kernel)

/-- a join tree of the example network -/
theorem c16_runs (it : SetIter Int) (js : SetIter Str) : ∃ jt, apply it js (Bbn.run c16_ops) = .ok jt :=
  ((c16_exact_priors it js c16_ops c16_wf c16_connected).1 (by decide +kernel)).imp (fun _ h => h.1)

noncomputable def c16_jt (it : SetIter Int) (js : SetIter Str) : JoinTree := Classical.choose (c16_runs it js)

theorem c16_jt_ok (it : SetIter Int) (js : SetIter Str) : apply it js (Bbn.run c16_ops) = .ok (c16_jt it js) :=
  Classical.choose_spec (c16_runs it js)

/-! ## C17: several components -/

/-- two components: 0 → 1 and 2 → 3 → 4 -/
def c17_ops : List BOp :=
  [.addEdge (mkNode 0 "a" [1/4, 3/4]) (mkNode 1 "b" [1/2, 1/2, 1/4, 3/4]),
   .addEdge (mkNode 2 "c" [1/5, 4/5]) (mkNode 3 "d" [1/10, 9/10, 1/5, 4/5]),
   .addEdge (mkNode 3 "d" [1/10, 9/10, 1/5, 4/5]) (mkNode 4 "e" [1/3, 2/3, 3/4, 1/4])]

theorem c17_wf : (Bbn.run c17_ops).WF := wf_of_check (by decide +kernel) (by decide +kernel)

/-- **C17 is false of the code**: with two components `apply` returns a join tree whose table for node 4 is not its prior. -/
theorem c17_false : (Bbn.run c17_ops).WF ∧
    ∃ jt P, apply .same .same (Bbn.run c17_ops) = .ok jt ∧ jt.getBbnPotential (mkNode 4 "e" []).var = .ok P ∧
      P.map PEntry.value = [13/24, 11/24] ∧
      (posteriorTable (Bbn.run c17_ops) noEvidence (mkNode 4 "e" []).var).map PEntry.value = [27/40, 13/40] := by
  refine ⟨c17_wf, ?_⟩
  have h1 : ((apply .same .same (Bbn.run c17_ops)).val?.bind (fun jt => (jt.getBbnPotential (mkNode 4 "e" []).var).val?)).map
      (fun P => P.map PEntry.value) = some [13/24, 11/24] := by decide +kernel
  have h2 : (posteriorTable (Bbn.run c17_ops) noEvidence (mkNode 4 "e" []).var).map PEntry.value = [27/40, 13/40] := by
    decide +kernel
  cases hj : apply .same .same (Bbn.run c17_ops) with
  | error e => rw [hj] at h1; cases h1
  | ok jt =>
    cases hP : jt.getBbnPotential (mkNode 4 "e" []).var with
    | error e => rw [hj] at h1; simp [Py.val?, hP] at h1
    | ok P =>
      rw [hj] at h1
      simp only [Py.val?, Option.bind_some, hP, Option.map_some, Option.some.injEq] at h1
      exact ⟨jt, P, rfl, hP, h1, h2⟩

/-- the case analysis behind C17, for any calibrated join tree of the network -/
theorem calib_component (it : SetIter Int) (ops : List BOp) (wf : (Bbn.run ops).WF) {T : List SepSet} {ℓ : Int → Str → ℚ}
    {jt : JoinTree}
    (a2 : Calib (Bbn.run ops).vars (Triangulator.triangulate it (moralize (Bbn.run ops))).1 T (Bbn.run ops).net ℓ jt)
    (hpos : (Bbn.run ops).total ℓ ≠ 0) :
    let E := fun p c => (p, c) ∈ BOp.edges ops
    ∀ v ∈ (Bbn.run ops).vars,
      (∃ R ∈ jt.getCliques, (∀ d ∈ jt.getCliques, strLe R.id d.id = true) ∧ ∃ u ∈ R.nodes, EqvGen E u.id v.id) ∨
      (∀ x ∈ (Bbn.run ops).vars, ∀ y ∈ (Bbn.run ops).vars, EqvGen E v.id x.id → EqvGen E v.id y.id → x.id ≠ y.id →
        Moral E x.id y.id) →
      jt.getBbnPotential v = .ok (posteriorTable (Bbn.run ops) ℓ v) := by
  intro E v hv hcase
  have h := bbn_run_inv ops
  have hN := Bbn.net_ok h wf
  have hs := (triangulate_spec it h).1
  set cs := (Triangulator.triangulate it (moralize (Bbn.run ops))).1 with hcs
  have hE : (fun p c => p ∈ ddGet (Bbn.run ops).parents c) = E := by
    funext p c
    exact propext (parents_requested ops p c)
  have hpos' : totalOf (Bbn.run ops).vars ((Bbn.run ops).net.W ℓ (Bbn.run ops).vars) ≠ 0 := by
    rw [← Bbn.weight_eq h]; exact hpos
  have hspec := a2.ctx.spec
  rw [← exactAnswer_eq h]
  rcases hcase with ⟨R, hR, hmin, u, hu, huv⟩ | hall
  · have hRc := (hspec.shape.mem_getCliques _).1 hR
    obtain ⟨R', hR', hst⟩ := a2.start
    have hRR : R' = R := by
      have hmem := List.mem_of_mem_head? (show R' ∈ startClique jt from hst)
      have hsort := sortBy_sorted (fun a b => strLe (Clique.id a) (Clique.id b)) (fun a b => strLe_total _ _)
        (fun a b c => strLe_trans _ _ _) jt.getCliques
      unfold startClique at hst
      cases hl : sortBy (fun a b => strLe (Clique.id a) (Clique.id b)) jt.getCliques with
      | nil => rw [hl] at hst; cases hst
      | cons y ys =>
        rw [hl] at hst hsort
        simp only [List.head?_cons, Option.some.injEq] at hst
        subst hst
        have h1 : R ∈ y :: ys := by rw [← hl, mem_sortBy]; exact hR
        have h2 : strLe y.id R.id = true := by
          rcases List.mem_cons.1 h1 with rfl | h1
          · exact strLe_refl _
          · exact (List.pairwise_cons.1 hsort).1 R h1
        exact (hspec.fam.id_iff hR' hRc).1 (strLe_antisymm _ _ h2 (hmin y ((hspec.shape.mem_getCliques _).2 hR')))
    subst hRR
    obtain ⟨c, hc, hvc⟩ := a2.ctx.cover v hv
    refine a2.posterior_start hN hv hst hc hvc ?_ (Or.inl hpos')
    refine hspec.conn_vars hs h (x := u.id) (y := v.id) ?_ _ hR' c hc (List.mem_map_of_mem hu) (List.mem_map_of_mem hvc)
    rw [hE]
    exact huv
  · classical
    set Q := ((Bbn.run ops).vars.map Variable.id).toFinset.filter (fun i => EqvGen E v.id i) with hQ
    have memQ : ∀ i, i ∈ Q ↔ i ∈ (Bbn.run ops).vars.map Variable.id ∧ EqvGen E v.id i := by
      intro i; rw [hQ, Finset.mem_filter, List.mem_toFinset]
    have hvQ : v.id ∈ Q := (memQ _).2 ⟨List.mem_map_of_mem hv, EqvGen.refl _⟩
    obtain ⟨c, hc, hQc⟩ := hs.covers Q ⟨v.id, hvQ⟩ (fun i hi => ((memQ i).1 hi).1) (by
      intro x hx y hy hxy
      obtain ⟨hx1, hx2⟩ := (memQ _).1 hx
      obtain ⟨hy1, hy2⟩ := (memQ _).1 hy
      obtain ⟨a, ha, rfl⟩ := List.mem_map.1 hx1
      obtain ⟨b, hb, rfl⟩ := List.mem_map.1 hy1
      exact (moralAdj_iff ops _ _).2 (hall a ha b hb hx2 hy2 hxy))
    have hvi := (c.mem_fs _).1 (hQc hvQ)
    have hvc : v ∈ c.nodes := by
      obtain ⟨u, hu, e⟩ := List.mem_map.1 hvi
      have := List.inj_on_of_nodup_map (vars_nodup h) (hs.sub c hc u hu) hv e
      exact this ▸ hu
    have hcomp : ∀ d ∈ cs, ∀ x ∈ d.nodeIds, ∀ y ∈ d.nodeIds, EqvGen E x y := by
      intro d hd x hx y hy
      rw [← hE]
      exact MoralAdj.eqv (hs.comp d hd x hx y hy)
    have hno : ∀ s ∈ T, ∀ d ∈ cs, Joins s c d → d = c := by
      intro s hsT d hd hj
      have hg := hspec.shape.good s hsT
      obtain ⟨i, hi⟩ := hg.common
      have hic : i ∈ c.nodeIds ∧ i ∈ d.nodeIds := by
        rcases hj with ⟨e1, e2⟩ | ⟨e1, e2⟩
        · rw [e1, e2] at hi; exact hi
        · rw [e1, e2] at hi; exact ⟨hi.2, hi.1⟩
      refine antichain_eq hs.anti hd hc ?_
      intro j hj'
      have hjd := (d.mem_fs j).1 hj'
      apply hQc
      rw [memQ]
      obtain ⟨u, hu, rfl⟩ := List.mem_map.1 hjd
      refine ⟨List.mem_map_of_mem (hs.sub d hd u hu), ?_⟩
      exact EqvGen.trans _ _ _ (hcomp c hc _ hvi _ hic.1) (hcomp d hd _ hic.2 _ hjd)
    refine a2.posterior_single hN hv hc hvc ?_ hpos'
    intro d hd hcd
    have hz := Conn.isolated (l := sl) (r := sr) (T := T) (z := c.fs) (by
      intro s hsT
      have hg := hspec.shape.good s hsT
      constructor
      · intro e
        have e1 : s.left = c := hspec.fam.fs_inj hg.left hc e
        have e2 := hno s hsT s.right hg.right (Or.inl ⟨e1, rfl⟩)
        exact hg.ne (e1.trans e2.symm)
      · intro e
        have e1 : s.right = c := hspec.fam.fs_inj hg.right hc e
        have e2 := hno s hsT s.left hg.left (Or.inr ⟨rfl, e1⟩)
        exact hg.ne (e2.trans e1.symm)) hcd
    exact hspec.fam.fs_inj hd hc (hz.1 rfl)

/-- **C17**, what holds: for every network (of positive total weight) `apply` succeeds, and the tables are exact for the nodes
connected with a node of the clique with the smallest id, and for the nodes whose component is small enough that all its nodes
are pairwise adjacent or co-parents (for instance an isolated node, two nodes, or a child with its parents). Missing: the other
nodes (their tables can be wrong, `c17_false`). -/
theorem c17_disconnected_partial (it : SetIter Int) (js : SetIter Str) (ops : List BOp) (wf : (Bbn.run ops).WF)
    (hne : (Bbn.run ops).vars ≠ []) (hpos : (Bbn.run ops).total noEvidence ≠ 0) :
    let E := fun p c => (p, c) ∈ BOp.edges ops
    ∃ jt, apply it js (Bbn.run ops) = .ok jt ∧ ∀ v ∈ (Bbn.run ops).vars,
      (∃ R ∈ jt.getCliques, (∀ d ∈ jt.getCliques, strLe R.id d.id = true) ∧ ∃ u ∈ R.nodes, EqvGen E u.id v.id) ∨
      (∀ x ∈ (Bbn.run ops).vars, ∀ y ∈ (Bbn.run ops).vars, EqvGen E v.id x.id → EqvGen E v.id y.id → x.id ≠ y.id →
        Moral E x.id y.id) →
      jt.getBbnPotential v = .ok (posteriorTable (Bbn.run ops) noEvidence v) := by
  intro E
  obtain ⟨T, jt, a1, a2, _⟩ := applyWith_spec it js (bbn_run_inv ops) wf hne (leftover_nil _ _)
  exact ⟨jt, a1, calib_component it ops wf a2 hpos⟩

/-- C17 (what holds) is not vacuous: in the two-component network the total weight is 1, and nodes 0 and 1 meet the first
alternative (the smallest clique is `0-1`). -/
example : (Bbn.run c17_ops).WF ∧ (Bbn.run c17_ops).vars ≠ [] ∧ (Bbn.run c17_ops).total noEvidence = 1 ∧
    ((apply .same .same (Bbn.run c17_ops)).val?.map (fun jt => jt.getCliques.map (fun c => (c.nodes.map Variable.id, c.id)))) =
      some [([1, 0], "0-1".toList), ([3, 2], "2-3".toList), ([4, 3], "3-4".toList)] :=
  ⟨c17_wf, by decide +kernel, by decide +kernel, by decide +kernel⟩

example := c17_disconnected_partial .same .rev c17_ops c17_wf (by decide +kernel)
  (by rw [show (Bbn.run c17_ops).total noEvidence = 1 by decide +kernel]; exact one_ne_zero)

end PyBBN
