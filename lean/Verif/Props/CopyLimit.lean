import Verif.Proofs.CopyLimit
import Verif.Props.Greedy
import Verif.Props.Limit
import Verif.Props.Copy

/-! # C110: copies of join trees of any size, and Python's recursion limit -/

namespace PyBBN
open Relation InferenceController

/-! ## enough nested copies -/

theorem runHist_sameTree {ops : List BOp} {it : SetIter Int} {js : SetIter Str} {jt : JoinTree} (hu : Net.Sane ops)
    (hj : apply it js (Bbn.run ops) = .ok jt) : ∀ (h : List (SetIter Str × EvOp)), (∀ op ∈ h, op.2.Nodes (Bbn.run ops).vars) →
    SameTree (runHist jt h) jt := by
  obtain ⟨T, hl, _⟩ := held_apply_cliques hu hj
  have hN := Bbn.net_ok (bbn_run_inv ops) hu.wf
  have key : ∀ (h : List (SetIter Str × EvOp)) (jt0 : JoinTree) (ℓ : Liks), (∀ op ∈ h, op.2.Nodes (Bbn.run ops).vars) →
      Live (Bbn.run ops).vars (Triangulator.triangulate it (moralize (Bbn.run ops))).1 T (Bbn.run ops).net ℓ jt0 → SameTree (runHist jt0 h) jt0 := by
    intro h
    induction h with
    | nil => intro jt0 _ _ _; exact SameTree.refl _
    | cons op h ih =>
      intro jt0 ℓ hop hlive
      obtain ⟨jt', h1, h2, _, h4⟩ := hlive.step hN hl.ne hu.vals op.1 op.2 (hop op List.mem_cons_self)
      have e : runHist jt0 (op :: h) = runHist jt' h := by
        show runHist (op.2.run op.1 jt0).1 h = _
        rw [h1]
      rw [e]
      exact (ih jt' _ (fun o ho => hop o (List.mem_cons_of_mem _ ho)) h2).trans h4
  exact fun h hop => key h jt _ hop hl.live

/-- the objects of a join tree: the nodes of the network, the cliques and the separation sets -/
def JoinTree.objects (jt : JoinTree) (b : Bbn) : List JObj := b.vars.map (fun v => .node v.id) ++ (Dict.keys jt.nodes).map .jnode

theorem apply_objects {ops : List BOp} {it : SetIter Int} {js : SetIter Str} {jt : JoinTree} (hu : Net.Sane ops)
    (hj : apply it js (Bbn.run ops) = .ok jt) :
    (∀ x ∈ jt.objects (Bbn.run ops), ∀ y ∈ jt.refs x, y ∈ jt.objects (Bbn.run ops)) ∧
    (∀ s ∈ Dict.values jt.edges, ∀ y ∈ [JObj.jnode s.left.id, .jnode s.right.id, .jnode s.id], y ∈ jt.objects (Bbn.run ops)) ∧
    (jt.objects (Bbn.run ops)).length ≤ 3 * (Bbn.run ops).vars.length := by
  have hi := bbn_run_inv ops
  obtain ⟨T, hl, _⟩ := held_apply_cliques hu hj
  have hsp := hl.live.calib.ctx.spec
  have hctx := hl.live.calib.ctx
  set cs := (Triangulator.triangulate it (moralize (Bbn.run ops))).1 with hcs
  have hnode : ∀ v ∈ (Bbn.run ops).vars, JObj.node v.id ∈ jt.objects (Bbn.run ops) :=
    fun v hv => List.mem_append_left _ (List.mem_map.2 ⟨v, hv, rfl⟩)
  have hj' : ∀ k n, Dict.get? jt.nodes k = some n → JObj.jnode k ∈ jt.objects (Bbn.run ops) :=
    fun k n hk => List.mem_append_right _ (List.mem_map.2 ⟨k, Dict.mem_keys_of_get? hk, rfl⟩)
  have hcl : ∀ c ∈ cs, JObj.jnode c.id ∈ jt.objects (Bbn.run ops) :=
    fun c hc => hj' _ _ ((hsp.shape.node _ _).2 (Or.inl ⟨c, hc, rfl, rfl⟩))
  have hss : ∀ s ∈ T, JObj.jnode s.id ∈ jt.objects (Bbn.run ops) :=
    fun s hs => hj' _ _ ((hsp.shape.node _ _).2 (Or.inr ⟨s, hs, rfl, rfl⟩))
  refine ⟨?_, ?_, ?_⟩
  · intro x hx y hy
    unfold JoinTree.refs at hy
    cases x with
    | node i =>
      simp only at hy
      cases ho : Dict.get? jt.heap i with
      | none => rw [ho] at hy; cases hy
      | some o =>
        rw [ho] at hy
        simp only at hy
        obtain ⟨p1, p2⟩ := apply_pc hi hu.wf hj i o ho
        rcases List.mem_append.1 hy with hy | hy
        · rw [p1] at hy
          obtain ⟨p, hp, rfl⟩ := List.mem_map.1 hy
          obtain ⟨n, hn, rfl⟩ := List.mem_map.1 hp
          exact hnode _ (List.mem_map_of_mem ((mem_parentNodes hi _ _).1 hn).1)
        · obtain ⟨k, hk, rfl⟩ := List.mem_map.1 hy
          have hk : o.parentClique = some k := by
            cases e : o.parentClique with
            | none => rw [e] at hk; cases hk
            | some k' => rw [e] at hk; simp at hk; rw [hk]
          have hm := p2 k hk
          unfold minClique at hm
          obtain ⟨c, hc, rfl⟩ := Option.map_eq_some_iff.1 hm
          have hc := List.mem_of_mem_head? hc
          rw [mem_sortBy] at hc
          exact hcl c (List.mem_of_mem_filter hc)
    | jnode k =>
      simp only at hy
      cases hn : Dict.get? jt.nodes k with
      | none => rw [hn] at hy; cases hy
      | some n =>
        rw [hn] at hy
        rcases (hsp.shape.node _ _).1 hn with ⟨c, hc, _, rfl⟩ | ⟨s, hs, _, rfl⟩
        · simp only at hy
          obtain ⟨v, hv, rfl⟩ := List.mem_map.1 hy
          exact hnode v (hctx.sub c hc v hv)
        · simp only at hy
          have hg := hsp.shape.good s hs
          rcases List.mem_append.1 hy with hy | hy
          · obtain ⟨v, hv, rfl⟩ := List.mem_map.1 hy
            have := hctx.scope_sub k v (by unfold JoinTree.scope; rw [hn]; exact hv)
            exact hnode v this
          · simp only [List.mem_cons, List.not_mem_nil, or_false] at hy
            rcases hy with rfl | rfl
            · exact hcl _ hg.left
            · exact hcl _ hg.right
  · intro s hs y hy
    have hs : s ∈ T := hl.edges.perm.mem_iff.1 hs
    have hg := hsp.shape.good s hs
    simp only [List.mem_cons, List.not_mem_nil, or_false] at hy
    rcases hy with rfl | rfl | rfl
    · exact hcl _ hg.left
    · exact hcl _ hg.right
    · exact hss s hs
  · have h1 : jt.nodes.length ≤ 2 * cs.length := hsp.shape.length_le hsp.fam hsp.forest
    have h2 : cs.length ≤ (Bbn.run ops).vars.length := triangulate_length it hi
    unfold JoinTree.objects
    rw [List.length_append, List.length_map, List.length_map]
    unfold Dict.keys
    rw [List.length_map]
    omega

/-- **C110**, the part that holds: after any history of evidence, `copy.deepcopy` raises `RecursionError` or returns the copy, and it returns the copy
if as many nested copies fit as there are nodes, cliques and separation sets, or three times as many as the network has nodes; likewise `reapply` -/
theorem c110_copy_partial (lim : Nat) {ops : List BOp} {it : SetIter Int} {js : SetIter Str} {jt : JoinTree} (hu : Net.Sane ops)
    (hj : apply it js (Bbn.run ops) = .ok jt) (h : List (SetIter Str × EvOp)) (hh : ∀ op ∈ h, op.2.Nodes (Bbn.run ops).vars) (js' : SetIter Str)
    (cpts : Dict Int (List ℚ)) :
    ((runHist jt h).deepcopyL lim = .error .recursionError ∨ (runHist jt h).deepcopyL lim = .ok (runHist jt h).deepcopy) ∧
    (reapplyL lim js' (runHist jt h) cpts = .error .recursionError ∨ reapplyL lim js' (runHist jt h) cpts = reapply js' (runHist jt h) cpts) ∧
    ((Bbn.run ops).vars.length + jt.nodes.length ≤ lim ∨ 3 * (Bbn.run ops).vars.length ≤ lim →
      (runHist jt h).deepcopyL lim = .ok (runHist jt h).deepcopy ∧
      reapplyL lim js' (runHist jt h) cpts = reapply js' (runHist jt h) cpts) := by
  have hre : reapply js' (runHist jt h).deepcopy cpts = reapply js' (runHist jt h) cpts := rfl
  have hst := runHist_sameTree hu hj h hh
  obtain ⟨h1, h2, h3⟩ := apply_objects hu hj
  have hrefs : (runHist jt h).refs = jt.refs := by
    funext x
    unfold JoinTree.refs
    rw [hst.nodes, hst.heap]
  have hstart : ∀ x ∈ (Dict.keys (runHist jt h).nodes).map JObj.jnode, x ∈ jt.objects (Bbn.run ops) := by
    rw [hst.nodes]
    exact fun x hx => List.mem_append_right _ hx
  have hedge : ∀ x ∈ (Dict.values (runHist jt h).edges).flatMap (fun s => [JObj.jnode s.left.id, .jnode s.right.id, .jnode s.id]),
      x ∈ jt.objects (Bbn.run ops) := by
    rw [hst.edges]
    intro x hx
    obtain ⟨s, hs, hx⟩ := List.mem_flatMap.1 hx
    exact h2 s hs x hx
  have hcut : (runHist jt h).deepcopyL lim = .error .recursionError ∨ (runHist jt h).deepcopyL lim = .ok (runHist jt h).deepcopy := by
    unfold JoinTree.deepcopyL
    rcases copyAllL_error (runHist jt h).refs lim ((Dict.keys (runHist jt h).nodes).map JObj.jnode) [] with e | ⟨m, e⟩
    · left; rw [e]; rfl
    · rcases copyAllL_error (runHist jt h).refs lim ((Dict.values (runHist jt h).edges).flatMap
        (fun s => [JObj.jnode s.left.id, .jnode s.right.id, .jnode s.id])) m with e' | ⟨m', e'⟩
      · left; rw [e]; simp only [bind, Except.bind]; rw [e']
      · right; rw [e]; simp only [bind, Except.bind]; rw [e']
  refine ⟨hcut, ?_, ?_⟩
  · unfold reapplyL
    rcases hcut with e | e
    · left; rw [e]; rfl
    · right; rw [e]; exact hre
  · intro hl
    have hl : (jt.objects (Bbn.run ops)).length ≤ lim := by
      rcases hl with hl | hl
      · unfold JoinTree.objects Dict.keys
        simpa using hl
      · omega
    have hun : ∀ m : List JObj, uncopied (jt.objects (Bbn.run ops)) m ≤ lim := fun m => (List.length_filter_le _ _).trans hl
    have hok : (runHist jt h).deepcopyL lim = .ok (runHist jt h).deepcopy := by
      obtain ⟨m, e, _⟩ := copyAllL_enough (refs := jt.refs) h1 (lim := lim) _ [] hstart (hun _)
      obtain ⟨m', e', _⟩ := copyAllL_enough (refs := jt.refs) h1 (lim := lim) _ m hedge (hun _)
      unfold JoinTree.deepcopyL
      rw [hrefs, e]
      simp only [bind, Except.bind]
      rw [e']
    refine ⟨hok, ?_⟩
    unfold reapplyL
    rw [hok]
    exact hre

/-! ## a chain whose ids run against the arrows -/

/-- node `i` of the chain n → n − 1 → … → 0 -/
def downNode (n i : Nat) : BbnNode :=
  ⟨⟨i, strInt i, ["on".toList, "off".toList]⟩, if i = n then [1/2, 1/2] else [3/4, 1/4, 1/4, 3/4]⟩

/-- the network n → n − 1 → … → 0 -/
def downOps (n : Nat) : List BOp := (List.range n).map (fun i => .addEdge (downNode n (i + 1)) (downNode n i))

theorem down_edges (n : Nat) (p c : Int) : (p, c) ∈ BOp.edges (downOps n) ↔ 0 ≤ c ∧ c < n ∧ p = c + 1 := by
  unfold BOp.edges downOps
  rw [List.filterMap_map]
  simp only [List.mem_filterMap, List.mem_range, Function.comp, Option.some.injEq, Prod.mk.injEq]
  constructor
  · rintro ⟨i, hi, rfl, rfl⟩
    simp only [downNode]
    omega
  · rintro ⟨h1, h2, rfl⟩
    refine ⟨c.toNat, by omega, ?_, ?_⟩ <;> simp only [downNode] <;> omega

theorem down_nodes (n : Nat) (x : BbnNode) (h : x ∈ BOp.nodes (downOps n)) : ∃ i ≤ n, x = downNode n i := by
  unfold BOp.nodes downOps at h
  rw [List.flatMap_map] at h
  obtain ⟨i, hi, h⟩ := List.mem_flatMap.1 h
  rw [List.mem_range] at hi
  simp only [List.mem_cons, List.not_mem_nil, or_false] at h
  rcases h with rfl | rfl
  · exact ⟨i + 1, by omega, rfl⟩
  · exact ⟨i, by omega, rfl⟩

theorem down_getNodes (n : Nat) (x : BbnNode) (h : x ∈ (Bbn.run (downOps n)).toGraph.getNodes) : ∃ i ≤ n, x = downNode n i := by
  have := (getNodes_eq (bbn_run_inv _) x).1 h
  rw [get?_run] at this
  exact down_nodes n x (List.mem_of_find?_eq_some this)

theorem down_mem (n i : Nat) (hn : 0 < n) (hi : i ≤ n) : (downNode n i).var ∈ (Bbn.run (downOps n)).vars := by
  have hmem : downNode n i ∈ BOp.nodes (downOps n) := by
    unfold BOp.nodes downOps
    rw [List.flatMap_map]
    rw [List.mem_flatMap]
    by_cases h : i < n
    · exact ⟨i, List.mem_range.2 h, by simp⟩
    · refine ⟨i - 1, List.mem_range.2 (by omega), ?_⟩
      have : i - 1 + 1 = i := by omega
      simp [this]
  rw [mem_vars (bbn_run_inv _), get?_run]
  cases hf : (BOp.nodes (downOps n)).find? (fun m => decide (m.var.id = (downNode n i).var.id)) with
  | none =>
    rw [List.find?_eq_none] at hf
    exact absurd (decide_eq_true rfl) (hf _ hmem)
  | some x =>
    obtain ⟨j, _, rfl⟩ := down_nodes n x (List.mem_of_find?_eq_some hf)
    have := List.find?_some hf
    have this : ((j : Nat) : Int) = (i : Nat) := of_decide_eq_true this
    have e : j = i := by omega
    subst e
    exact ⟨_, rfl, rfl⟩

theorem down_wf (n : Nat) : (Bbn.run (downOps n)).WF := by
  refine ⟨?_, ?_, ?_, ?_⟩
  · intro id h
    rw [parents_requested, down_edges] at h
    omega
  · intro x hx
    obtain ⟨i, _, rfl⟩ := down_getNodes n x hx
    simp [downNode]
  · intro x hx
    obtain ⟨i, hin, rfl⟩ := down_getNodes n x hx
    have hinv := bbn_run_inv (downOps n)
    have h1 := vids_parentVars hinv (downNode n i).var.id
    have hpar : ∀ p ∈ ddGet (Bbn.run (downOps n)).parents (downNode n i).var.id, p = (i : Int) + 1 ∧ i < n := by
      intro p hp
      rw [parents_requested, down_edges] at hp
      simp only [downNode] at hp
      omega
    have hnd := hinv.parNodup (downNode n i).var.id
    have hval : ∀ v ∈ (Bbn.run (downOps n)).parentVars (downNode n i).var.id, v.values.length = 2 := by
      intro v hv
      have := parentVars_sub hinv _ v hv
      obtain ⟨x, hx, rfl⟩ := List.mem_map.1 this
      obtain ⟨j, _, rfl⟩ := down_getNodes n x hx
      rfl
    have hlen : ((Bbn.run (downOps n)).parentVars (downNode n i).var.id).length =
        (ddGet (Bbn.run (downOps n)).parents (downNode n i).var.id).length := by
      rw [← h1]; simp [vids]
    generalize hP : (Bbn.run (downOps n)).parentVars (downNode n i).var.id = P at *
    generalize hD : ddGet (Bbn.run (downOps n)).parents (downNode n i).var.id = D at *
    by_cases hi : i = n
    · have : D = [] := by
        cases D with
        | nil => rfl
        | cons a l => have := hpar a (by simp); omega
      subst this
      have : P = [] := List.eq_nil_of_length_eq_zero (by simpa using hlen)
      subst this
      simp [downNode, hi]
    · have hD1 : D.length ≤ 1 := by
        match D, hnd, hpar with
        | [], _, _ => simp
        | [_], _, _ => simp
        | a :: b :: l, hnd, hpar =>
          have ha := hpar a (by simp)
          have hb := hpar b (by simp)
          have : a = b := by omega
          subst this
          simp at hnd
      match P, hlen, hval with
      | [], _, _ => simp [downNode, hi]
      | [v], _, hval =>
        have := hval v (by simp)
        simp [downNode, hi, this]
      | a :: b :: l, hlen, _ => simp at hlen; omega
  · intro x hx
    obtain ⟨i, _, rfl⟩ := down_getNodes n x hx
    intro p hp
    simp only [downNode] at hp
    split at hp <;> simp at hp
    · subst hp; norm_num
    · rcases hp with rfl | rfl | rfl | rfl <;> norm_num

theorem down_usable (n : Nat) : Net.Usable (downOps n) := by
  refine ⟨⟨down_wf n, ?_⟩, ?_⟩
  · intro v hv
    obtain ⟨x, hx, rfl⟩ := List.mem_map.1 hv
    obtain ⟨j, _, rfl⟩ := down_getNodes n x hx
    simp [downNode]
  · have key : ∀ i : Nat, i ≤ n → EqvGen (fun p c => (p, c) ∈ BOp.edges (downOps n)) 0 (i : Int) := by
      intro i
      induction i with
      | zero => intro _; exact EqvGen.refl _
      | succ i ih =>
        intro hi
        refine EqvGen.trans _ _ _ (ih (by omega)) (EqvGen.symm _ _ (EqvGen.rel _ _ ?_))
        rw [down_edges]
        omega
    intro u hu v hv
    obtain ⟨x, hx, rfl⟩ := List.mem_map.1 hu
    obtain ⟨y, hy, rfl⟩ := List.mem_map.1 hv
    obtain ⟨i, hi, rfl⟩ := down_getNodes n x hx
    obtain ⟨j, hj, rfl⟩ := down_getNodes n y hy
    exact EqvGen.trans _ _ _ (EqvGen.symm _ _ (key i hi)) (key j hj)

theorem down_moral (n : Nat) (x y : Int) : Moral (fun p c => (p, c) ∈ BOp.edges (downOps n)) x y ↔
    0 ≤ x ∧ x ≤ n ∧ 0 ≤ y ∧ y ≤ n ∧ (x = y + 1 ∨ y = x + 1) := by
  constructor
  · rintro ⟨hne, h | h | ⟨c, h1, h2⟩⟩
    · rw [down_edges] at h; omega
    · rw [down_edges] at h; omega
    · rw [down_edges] at h1 h2; omega
  · rintro ⟨h1, h2, h3, h4, h | h⟩
    · exact ⟨by omega, Or.inl ((down_edges n _ _).2 (by omega))⟩
    · exact ⟨by omega, Or.inr (Or.inl ((down_edges n _ _).2 (by omega)))⟩

section
open Classical

theorem down_two (n : Nat) {v : Variable} (hv : v ∈ (Bbn.run (downOps n)).vars) : v.values.length = 2 ∧ ∃ i : Nat, i ≤ n ∧ v = (downNode n i).var := by
  obtain ⟨x, hx, rfl⟩ := List.mem_map.1 hv
  obtain ⟨j, hj, rfl⟩ := down_getNodes n x hx
  exact ⟨rfl, j, hj, rfl⟩

/-- the node eliminated first is node 0 -/
theorem down_cheapest (n : Nat) (hn : 0 < n) {v : Variable} (hv : v ∈ (Bbn.run (downOps n)).vars)
    (hmin : ∀ u ∈ (Bbn.run (downOps n)).vars, u.id ≠ v.id →
      Elim.Cheaper (Bbn.run (downOps n)).vars (Moral (fun p c => (p, c) ∈ BOp.edges (downOps n))) v u) : v.id = 0 := by
  by_contra hne
  have h0 := down_mem n 0 hn (by omega)
  have hc := hmin _ h0 (by simpa [downNode] using fun e => hne e.symm)
  set S := (Bbn.run (downOps n)).vars with hS
  set R := Moral (fun p c => (p, c) ∈ BOp.edges (downOps n)) with hR
  obtain ⟨_, i, hi, rfl⟩ := down_two n hv
  have hnb : ∀ u ∈ Elim.nbrs S R (downNode n 0).var, u ∈ S ∧ u.id = 1 := by
    intro u hu
    obtain ⟨h1, h2⟩ := List.mem_filter.1 hu
    have h2 := (down_moral n _ _).1 (of_decide_eq_true h2)
    simp only [downNode] at h2
    exact ⟨h1, by omega⟩
  have hmiss : Elim.missing S R (downNode n 0).var = 0 := by
    unfold Elim.missing
    rw [List.length_eq_zero_iff, List.flatMap_eq_nil_iff]
    intro a ha
    rw [List.filter_eq_nil_iff]
    intro b hb hab
    have hab := (of_decide_eq_true hab).1
    exact hab ((hnb a ha).2.trans (hnb b hb).2.symm)
  have hw0 : Elim.weight S R (downNode n 0).var ≤ 4 := by
    have hnd : (vids (Elim.nbrs S R (downNode n 0).var)).Nodup :=
      List.Nodup.sublist (List.Sublist.map _ List.filter_sublist) (vars_nodup (bbn_run_inv (downOps n)))
    unfold Elim.weight
    have e2 : (downNode n 0).var.values.length = 2 := rfl
    rw [e2]
    match hL : Elim.nbrs S R (downNode n 0).var with
    | [] => simp
    | [a] =>
      have := (down_two n (hnb a (by rw [hL]; simp)).1).1
      simp [this]
    | a :: b :: l =>
      exfalso
      have ha := (hnb a (by rw [hL]; simp)).2
      have hb := (hnb b (by rw [hL]; simp)).2
      rw [hL] at hnd
      simp [vids, ha, hb] at hnd
  have hwi : 4 ≤ Elim.weight S R (downNode n i).var := by
    unfold Elim.weight
    have e2 : (downNode n i).var.values.length = 2 := rfl
    rw [e2]
    have hex : ∃ u, u ∈ Elim.nbrs S R (downNode n i).var := by
      by_cases h : i = n
      · refine ⟨(downNode n (n - 1)).var, List.mem_filter.2 ⟨down_mem n (n - 1) hn (by omega), decide_eq_true ((down_moral n _ _).2 ?_)⟩⟩
        simp only [downNode]; omega
      · refine ⟨(downNode n (i + 1)).var, List.mem_filter.2 ⟨down_mem n (i + 1) hn (by omega), decide_eq_true ((down_moral n _ _).2 ?_)⟩⟩
        simp only [downNode]; omega
    have hall : ∀ u ∈ Elim.nbrs S R (downNode n i).var, u.values.length = 2 := fun u hu => (down_two n (List.mem_of_mem_filter hu)).1
    obtain ⟨u, hu⟩ := hex
    match hL : Elim.nbrs S R (downNode n i).var with
    | [] => rw [hL] at hu; cases hu
    | a :: l =>
      rw [hL] at hall
      have h1 := hall a (by simp)
      have h2 : 1 ≤ (l.map (fun u => u.values.length)).prod := by
        apply Nat.one_le_iff_ne_zero.2
        rw [Ne, List.prod_eq_zero_iff]
        intro h
        obtain ⟨w, hw, e⟩ := List.mem_map.1 h
        have := hall w (by simp [hw])
        omega
      simp only [List.map_cons, List.prod_cons, h1]
      omega
  rcases hc with h | ⟨_, h | ⟨_, h⟩⟩
  · omega
  · omega
  · simp only [downNode] at h; omega

theorem keep_head (c : Finset Int) : ∀ (l kept : List (Finset Int)), (l.foldl Elim.keep (c :: kept)).head? = some c
  | [], _ => rfl
  | d :: l, kept => by
      rw [List.foldl_cons]
      unfold Elim.keep
      split
      · exact keep_head c l kept
      · exact keep_head c l (kept ++ [d])

/-- the first clique is that of node 0 -/
theorem down_first (n : Nat) (hn : 0 < n) (it : SetIter Int) :
    ∃ c cs, (Triangulator.triangulate it (moralize (Bbn.run (downOps n)))).1 = c :: cs ∧ c.nodes ≠ [] ∧ ∀ v ∈ c.nodes, v.id = 0 ∨ v.id = 1 := by
  obtain ⟨fs, hg, hm⟩ := c54_greedy it (downOps n)
  have h0 := down_mem n 0 hn (by omega)
  generalize hS : (Bbn.run (downOps n)).vars = S at hg
  cases hg with
  | nil => rw [hS] at h0; cases h0
  | @cons _ _ fs v hv hmin ht =>
    subst hS
    have hv0 := down_cheapest n hn hv hmin
    rw [List.foldl_cons] at hm
    have hk := keep_head (insert v.id ((Elim.nbrs (Bbn.run (downOps n)).vars (Moral (fun p c => (p, c) ∈ BOp.edges (downOps n))) v).map Variable.id).toFinset)
      fs []
    have e : Elim.keep [] (insert v.id ((Elim.nbrs (Bbn.run (downOps n)).vars (Moral (fun p c => (p, c) ∈ BOp.edges (downOps n))) v).map Variable.id).toFinset) =
        [insert v.id ((Elim.nbrs (Bbn.run (downOps n)).vars (Moral (fun p c => (p, c) ∈ BOp.edges (downOps n))) v).map Variable.id).toFinset] := by
      unfold Elim.keep
      rw [if_neg (by simp)]
      rfl
    rw [e] at hm
    rw [← hm] at hk
    cases hT : (Triangulator.triangulate it (moralize (Bbn.run (downOps n)))).1 with
    | nil => rw [hT] at hk; cases hk
    | cons c cs =>
      rw [hT] at hk
      simp only [List.map_cons, List.head?_cons, Option.some.injEq] at hk
      refine ⟨c, cs, rfl, ?_, ?_⟩
      · intro e
        rw [e] at hk
        have : v.id ∈ (([] : List Variable).map Variable.id).toFinset := by rw [hk]; exact Finset.mem_insert_self _ _
        simp at this
      · intro w hw
        have : w.id ∈ (c.nodes.map Variable.id).toFinset := List.mem_toFinset.2 (List.mem_map_of_mem hw)
        rw [hk, Finset.mem_insert, List.mem_toFinset] at this
        rcases this with h | h
        · left; omega
        · right
          obtain ⟨u, hu, e⟩ := List.mem_map.1 h
          have := (down_moral n _ _).1 (of_decide_eq_true (List.mem_filter.1 hu).2)
          omega

end

theorem setDefault_head {V : Type} {d : Dict Str V} {a : Str} (h : (Dict.keys d).head? = some a) (k : Str) (v : V) :
    (Dict.keys (Dict.setDefault d k v)).head? = some a := by
  rw [Dict.keys_setDefault]
  split
  · exact h
  · cases hd : Dict.keys d with
    | nil => rw [hd] at h; cases h
    | cons b l => rw [hd] at h; exact h

theorem transform_head (js : SetIter Str) (c : Clique) (cs : List Clique) : (Dict.keys (Transformer.transform js (c :: cs)).nodes).head? = some c.id := by
  have h1 : ∀ (l : List Clique) (jt : JoinTree), (Dict.keys jt.nodes).head? = some c.id → (Dict.keys (l.foldl Transformer.addClique jt).nodes).head? = some c.id := by
    intro l
    induction l with
    | nil => exact fun jt h => h
    | cons d l ih => exact fun jt h => ih _ (setDefault_head h _ _)
  have h2 : ∀ (l : List SepSet) (jt : JoinTree), (Dict.keys jt.nodes).head? = some c.id →
      (Dict.keys (l.foldl (fun jt s => jt.addEdge js s) jt).nodes).head? = some c.id := by
    intro l
    induction l with
    | nil => exact fun jt h => h
    | cons s l ih =>
      intro jt h
      refine ih _ ?_
      simp only [JoinTree.addEdge]
      split
      · exact setDefault_head (setDefault_head (setDefault_head h _ _) _ _) _ _
      · exact h
  exact h2 _ _ (h1 cs _ rfl)

/-- **C110** is false of the code: whatever the recursion limit is, neither `copy.deepcopy` nor `reapply` works on the join tree of a long enough chain
n → n − 1 → … → 0 of two-valued nodes with full tables, although `apply` does; for every order in which sets are iterated and after every history of
evidence -/
theorem c110_chain (lim n : Nat) (hn : 0 < n) (hl : lim ≤ n) (it : SetIter Int) (js : SetIter Str) :
    Net.Usable (downOps n) ∧ ∃ jt, apply it js (Bbn.run (downOps n)) = .ok jt ∧
      ∀ h : List (SetIter Str × EvOp), (∀ op ∈ h, op.2.Nodes (Bbn.run (downOps n)).vars) →
        (runHist jt h).deepcopyL lim = .error .recursionError ∧
        ∀ js' cpts, reapplyL lim js' (runHist jt h) cpts = .error .recursionError := by
  have hu := down_usable n
  have hi := bbn_run_inv (downOps n)
  have h0 := down_mem n 0 hn (by omega)
  obtain ⟨jt, hj⟩ := apply_ok it js hu.toSane (List.ne_nil_of_mem h0)
  refine ⟨hu, jt, hj, ?_⟩
  intro h hh
  have hst := runHist_sameTree hu.toSane hj h hh
  have hrefs : (runHist jt h).refs = jt.refs := by
    funext x
    unfold JoinTree.refs
    rw [hst.nodes, hst.heap]
  obtain ⟨T, hlive, _⟩ := held_apply_cliques hu.toSane hj
  obtain ⟨c, cs, hcs, hne, hids⟩ := down_first n hn it
  have hnext : ∀ i : Nat, i < n → ∃ l, jt.refs (.node i) = .node (i + 1 : Nat) :: l := by
    intro i hin
    have hv := down_mem n i hn (by omega)
    obtain ⟨o, ho, _⟩ := hlive.live.calib.done _ hv
    have ho : Dict.get? jt.heap (i : Int) = some o := ho
    have hp := (apply_pc hi hu.toSane.wf hj _ o ho).1
    have hall : ∀ p ∈ o.parents.getD [], p = ((i + 1 : Nat) : Int) := by
      rw [hp]
      intro p hp
      obtain ⟨m, hm, rfl⟩ := List.mem_map.1 hp
      have := ((mem_parentNodes hi _ _).1 hm).2
      rw [parents_requested, down_edges] at this
      push_cast
      omega
    have hex : ∃ p, p ∈ o.parents.getD [] := by
      rw [hp]
      have hv' := down_mem n (i + 1) hn (by omega)
      obtain ⟨m, hm, e⟩ := List.mem_map.1 hv'
      refine ⟨m.var.id, List.mem_map.2 ⟨m, (mem_parentNodes hi _ _).2 ⟨hm, ?_⟩, rfl⟩⟩
      rw [parents_requested, down_edges, e]
      simp only [downNode]
      push_cast
      omega
    unfold JoinTree.refs
    simp only [ho]
    cases hL : o.parents.getD [] with
    | nil => rw [hL] at hex; obtain ⟨p, hp⟩ := hex; cases hp
    | cons p l =>
      have := hall p (by rw [hL]; simp)
      subst this
      exact ⟨_, rfl⟩
  have hnodes : jt.nodes = (Transformer.transform js (c :: cs)).nodes := by
    obtain ⟨T', jt', a1, _, _, _, _, _, _, a8, _, _⟩ := applyWith_spec it js hi hu.toSane.wf (List.ne_nil_of_mem h0) (leftover_nil _ _)
    have e : apply it js (Bbn.run (downOps n)) = .ok jt' := a1
    rw [hj] at e
    cases e
    rw [a8, hcs]
  have hclique : Dict.get? jt.nodes c.id = some (.clique c) := by
    refine (hlive.live.calib.ctx.spec.shape.node _ _).2 (Or.inl ⟨c, ?_, rfl, rfl⟩)
    rw [hcs]; exact List.mem_cons_self
  have hcopy : (runHist jt h).deepcopyL lim = .error .recursionError := by
    unfold JoinTree.deepcopyL
    have key : copyAllL jt.refs lim [] ((Dict.keys jt.nodes).map .jnode) = .error .recursionError := by
      have hh := transform_head js c cs
      rw [← hnodes] at hh
      cases hk : Dict.keys jt.nodes with
      | nil => rw [hk] at hh; cases hh
      | cons k ks =>
        rw [hk] at hh
        simp only [List.head?_cons, Option.some.injEq] at hh
        subst hh
        rw [copyAllL_eq, List.map_cons, List.foldlM_cons]
        have : copyStepL jt.refs lim [] (.jnode c.id) = .error .recursionError := by
          unfold copyStepL
          rw [if_neg (by simp)]
          cases lim with
          | zero => rfl
          | succ lim =>
            rw [copyL_succ]
            have hr : jt.refs (.jnode c.id) = c.nodes.map (fun v => .node v.id) := by
              unfold JoinTree.refs
              simp only [hclique]
            rw [hr]
            cases hcn : c.nodes with
            | nil => exact absurd hcn hne
            | cons v vs =>
              rw [List.map_cons, List.foldlM_cons]
              unfold copyStepL
              rw [if_neg (by simp)]
              have hv := hids v (by rw [hcn]; simp)
              have e : v.id = ((v.id.toNat : Nat) : Int) := by omega
              have := copyL_long (refs := jt.refs) (n := n) hnext lim v.id.toNat ([] ++ [JObj.jnode c.id]) (by omega) (by simp)
              rw [← e] at this
              rw [this]
              rfl
        rw [this]
        rfl
    rw [hrefs, hst.nodes, key]
    rfl
  refine ⟨hcopy, ?_⟩
  intro js' cpts
  unfold reapplyL
  rw [hcopy]
  rfl

theorem c110_false : ¬ ∃ lim : Nat, ∀ (it : SetIter Int) (js : SetIter Str) (ops : List BOp) (jt : JoinTree), Net.Usable ops →
    apply it js (Bbn.run ops) = .ok jt → jt.deepcopyL lim = .ok jt.deepcopy := by
  rintro ⟨lim, h⟩
  obtain ⟨hu, jt, hj, he⟩ := c110_chain lim (lim + 1) (by omega) (by omega) .same .same
  have := (he [] (by simp)).1
  rw [show runHist jt [] = jt from rfl, h .same .same _ jt hu hj] at this
  cases this

/-- not vacuous: the tree of the example network of C16 (five nodes) can be copied with fifteen nested copies, not with two; that of 4 → 3 → 2 → 1 → 0 cannot
be copied with four, that of the chain 0 → 1 → 2 → 3 → 4 can -/
example : ((apply .same .rev (Bbn.run c16_ops)).val?.bind (fun jt => (jt.deepcopyL 15).val?)).isSome = true ∧
    ((apply .same .rev (Bbn.run c16_ops)).val?.bind (fun jt => (jt.deepcopyL 2).err?)) = some .recursionError ∧
    ((apply .rev .same (Bbn.run (downOps 4))).val?.bind (fun jt => (jt.deepcopyL 4).err?)) = some .recursionError ∧
    ((apply .rev .same (Bbn.run (chainOps 4))).val?.bind (fun jt => (jt.deepcopyL 4).val?)).isSome = true := by decide +kernel

end PyBBN
