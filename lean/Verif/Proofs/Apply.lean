import Verif.Proofs.Posterior

/-! `InferenceController.apply` on a well-formed network. -/

namespace PyBBN
open InferenceController

/-- the local functions of a network -/
def Bbn.net (b : Bbn) : Net where
  fam := b.family
  loc v σ := match Dict.get? b.nodes v.id with
    | some n => cptAt n.probs (b.parentVars v.id) v σ
    | none => 1

theorem getD_mem_or {l : List ℚ} (i : Nat) : l.getD i 0 ∈ l ∨ l.getD i 0 = 0 := by
  rw [List.getD_eq_getElem?_getD]
  cases h : l[i]? with
  | none => right; rfl
  | some a => left; exact List.mem_of_getElem? h

theorem cptAt_dep (probs : List ℚ) (parents : List Variable) (v : Variable) :
    Dep (fun i => i ∈ vids (parents ++ [v])) (cptAt probs parents v) := by
  intro σ τ h
  unfold cptAt
  rw [cptIndex_eq, cptIndex_eq]
  have : rowIdx (parents ++ [v]) σ = rowIdx (parents ++ [v]) τ := by
    unfold rowIdx
    apply List.foldl_ext
    intro a p hp
    rw [h p.id (List.mem_map_of_mem hp)]
  rw [this]

theorem transform_evidences (js : SetIter Str) (cs : List Clique) : (Transformer.transform js cs).evidences = [] := by
  have h1 : ∀ (l : List Clique) (jt : JoinTree), (l.foldl Transformer.addClique jt).evidences = jt.evidences := by
    intro l
    induction l with
    | nil => intro jt; rfl
    | cons c l ih =>
      intro jt
      rw [List.foldl_cons, ih]
      rfl
  have h2 : ∀ (l : List SepSet) (jt : JoinTree), (l.foldl (fun jt s => jt.addEdge js s) jt).evidences = jt.evidences := by
    intro l
    induction l with
    | nil => intro jt; rfl
    | cons c l ih =>
      intro jt
      rw [List.foldl_cons, ih]
      unfold JoinTree.addEdge
      split <;> rfl
  unfold Transformer.transform
  rw [h2, h1]

theorem Calib.listen {vars : List Variable} {cs : List Clique} {T : List SepSet} {N : Net} {ℓ : Int → Str → ℚ} {jt : JoinTree}
    (h : Calib vars cs T N ℓ jt) (l : Bool) : Calib vars cs T N ℓ { jt with listener := l } := by
  obtain ⟨χ, R, ks, vs, h1, h2, h3, h4, h5, h6, h7⟩ := h.tabs
  exact ⟨h.ctx.frame rfl rfl, h.done, h.ev, h.likNonneg, χ, R, ks, vs, h1, ⟨h2.root, h2.ksNodup, h2.mem, h2.vsNodup, h2.memV⟩,
    h3, h4, h5, h6, h7⟩

theorem ok_of_val? {α : Type} {m : Py α} {a : α} (h : m.val? = some a) : m = .ok a := by
  cases m with
  | error e => cases h
  | ok b => rw [Option.some.inj h]

theorem error_of_err? {α : Type} {m : Py α} {e : PyErr} (h : m.err? = some e) : m = .error e := by
  cases m with
  | error e' => rw [Option.some.inj h]
  | ok b => cases h

theorem bind_ok {α β : Type} {x : Py α} {f : α → Py β} {y : β} (h : (x >>= f) = .ok y) : ∃ a, x = .ok a ∧ f a = .ok y := by
  cases x with
  | error e => cases h
  | ok a => exact ⟨a, rfl, h⟩

section
variable {b : Bbn}

theorem Bbn.net_loc (h : BbnInv b) {n : BbnNode} (hn : n ∈ b.toGraph.getNodes) :
    b.net.loc n.var = cptAt n.probs (b.parentVars n.var.id) n.var := by
  funext σ
  show (match Dict.get? b.nodes n.var.id with | some n' => cptAt n'.probs (b.parentVars n.var.id) n.var σ | none => 1) = _
  rw [(getNodes_eq h n).1 hn]

theorem Bbn.net_ok (h : BbnInv b) (wf : b.WF) : NetOk b.vars b.net where
  nodup := fun v _ => family_nodup h wf v
  sub := fun _ hv => family_sub h hv
  self := fun v _ => List.mem_append_right _ List.mem_cons_self
  dep := by
    intro v hv
    obtain ⟨n, hn, rfl⟩ := List.mem_map.1 hv
    rw [Bbn.net_loc h hn]
    exact cptAt_dep _ _ _
  nonneg := by
    intro v hv σ
    obtain ⟨n, hn, rfl⟩ := List.mem_map.1 hv
    rw [Bbn.net_loc h hn]
    unfold cptAt
    rcases getD_mem_or (l := n.probs) (cptIndex (b.parentVars n.var.id) n.var σ) with h1 | h1
    · exact wf.nonneg n hn _ h1
    · rw [h1]

theorem Bbn.weight_eq (h : BbnInv b) (ℓ : Int → Str → ℚ) : b.weight ℓ = b.net.W ℓ b.vars := by
  funext σ
  unfold Bbn.weight Net.W Bbn.vars
  rw [List.map_map]
  congr 1
  apply List.map_congr_left
  intro n hn
  simp only [Function.comp, Net.w, Bbn.net_loc h hn]

theorem CliqueSpec.ctx {cs : List Clique} {T : List SepSet} {jt : JoinTree} (h : BbnInv b) (wf : b.WF) (hs : CliqueSpec b cs)
    (ht : JTSpec cs T jt) : Ctx b.vars cs T jt where
  spec := ht
  vn := vars_nodup h
  vals := fun _ hv => values_nodup wf hv
  sub := hs.sub
  cover := by
    intro v hv
    obtain ⟨c, hc, hi⟩ := family_covered h hs hv
    obtain ⟨u, hu, e⟩ := List.mem_map.1 (hi v.id List.mem_cons_self)
    have := List.inj_on_of_nodup_map (vars_nodup h) (hs.sub c hc u hu) hv e
    exact ⟨c, hc, this ▸ hu⟩
  ne := by
    intro c hc e
    apply hs.ne c hc
    unfold Clique.nodeIds
    rw [e]; rfl

theorem CliqueSpec.cs_ne {cs : List Clique} (h : BbnInv b) (hs : CliqueSpec b cs) (hne : b.vars ≠ []) : cs ≠ [] := by
  obtain ⟨v, hv⟩ := List.exists_mem_of_ne_nil _ hne
  obtain ⟨c, hc, _⟩ := family_covered h hs hv
  exact List.ne_nil_of_mem hc

theorem family_sub_clique {cs : List Clique} (h : BbnInv b) (hs : CliqueSpec b cs) {c : Clique} (hc : c ∈ cs) {v : Variable}
    (hv : v ∈ b.vars) (hi : ∀ i ∈ vids (b.family v), i ∈ c.nodeIds) : ∀ u ∈ b.family v, u ∈ c.nodes := by
  intro u hu
  obtain ⟨w, hw, e⟩ := List.mem_map.1 (hi u.id (List.mem_map_of_mem hu))
  have := List.inj_on_of_nodup_map (vars_nodup h) (hs.sub c hc w hw) (family_sub h hv u hu) e
  exact this ▸ hw

/-- earlier calls left no parent clique on the node objects, or one that still holds the node's family -/
def LeftoverOk (b : Bbn) (cs : List Clique) (leftover : Dict Int NodeObj) : Prop :=
  ∀ v ∈ b.vars, (Dict.get? leftover v.id).bind NodeObj.parentClique = none ∨
    ∃ c ∈ cs, (Dict.get? leftover v.id).bind NodeObj.parentClique = some c.id ∧ ∀ u ∈ b.family v, u ∈ c.nodes

/-- the node objects before the join tree is initialized -/
theorem heap_spec (h : BbnInv b) (wf : b.WF) (leftover : Dict Int NodeObj) :
    ∃ heap1 heap2, potentialInit b (initialHeap b leftover) = .ok heap1 ∧ moralParents b heap1 = .ok heap2 ∧
      Dict.keys heap2 = b.toGraph.getNodes.map (fun n => n.var.id) ∧
      ∀ n ∈ b.toGraph.getNodes, Dict.get? heap2 n.var.id = some
        { probs := n.probs, potential := some (b.localTab n),
          parents := some ((parentNodes b n.var.id).map (fun p => p.var.id)),
          parentClique := (Dict.get? leftover n.var.id).bind NodeObj.parentClique } := by
  have hk0 : ∀ n ∈ b.toGraph.getNodes, n.var.id ∈ Dict.keys (initialHeap b leftover) := by
    intro n hn; rw [initialHeap_keys h]; exact List.mem_map_of_mem hn
  obtain ⟨heap1, a1, a2, a3⟩ := potentialInit_spec h wf (initialHeap b leftover) hk0
  obtain ⟨heap2, b1, b2, b3, _⟩ := foldlM_upd
    (fun n o => { o with parents := some ((parentNodes b n.var.id).map (fun p => p.var.id)) })
    (fun heap n => do
      let o ← Dict.getItem heap n.var.id
      .ok (Dict.set heap n.var.id { o with parents := some ((parentNodes b n.var.id).map (fun p => p.var.id)) }))
    b.toGraph.getNodes (node_ids_nodup h) (by
      intro n hn heap o ho
      simp only [bind, Except.bind, Dict.getItem_of_get? ho])
    heap1 (fun n hn => by rw [a2]; exact hk0 n hn)
  refine ⟨heap1, heap2, a1, b1, by rw [b2, a2, initialHeap_keys h], ?_⟩
  intro n hn
  rw [b3 n hn, a3 n hn, initialHeap_get h leftover hn]
  rfl

theorem heap_ok {cs : List Clique} (h : BbnInv b) (hs : CliqueSpec b cs) {leftover : Dict Int NodeObj}
    (hl : LeftoverOk b cs leftover) {heap : Dict Int NodeObj}
    (hh : ∀ n ∈ b.toGraph.getNodes, Dict.get? heap n.var.id = some
        { probs := n.probs, potential := some (b.localTab n),
          parents := some ((parentNodes b n.var.id).map (fun p => p.var.id)),
          parentClique := (Dict.get? leftover n.var.id).bind NodeObj.parentClique }) : HeapOk b.vars cs b.net heap := by
  intro v hv
  obtain ⟨n, hn, rfl⟩ := List.mem_map.1 hv
  refine ⟨_, hh n hn, ?_, ?_⟩
  · show some (b.localTab n) = some (tab (b.family n.var) (b.net.loc n.var))
    rw [Bbn.net_loc h hn]; rfl
  · have hpar : ∀ i, i ∈ (parentNodes b n.var.id).map (fun p => p.var.id) ++ [n.var.id] ↔ i ∈ vids (b.family n.var) := by
      intro i
      unfold Bbn.family
      rw [List.mem_append, vids, List.map_append, List.mem_append]
      have : i ∈ (parentNodes b n.var.id).map (fun p => p.var.id) ↔ i ∈ vids (b.parentVars n.var.id) := by
        rw [vids_parentVars h, List.mem_map]
        constructor
        · rintro ⟨p, hp, rfl⟩; exact ((mem_parentNodes h _ p).1 hp).2
        · intro hi
          obtain ⟨p, hp, rfl⟩ := parent_node h hi
          exact ⟨p, (mem_parentNodes h _ p).2 ⟨(getNodes_eq h p).2 hp, hi⟩, rfl⟩
      rw [this]; rfl
    rcases hl n.var hv with h0 | ⟨c, hc, e, hf⟩
    · refine Or.inr ⟨h0, ?_, ?_⟩
      · intro c hc hi
        refine family_sub_clique h hs hc hv ?_
        intro i hi'
        exact hi i ((hpar i).2 hi')
      · obtain ⟨c, hc, hi⟩ := family_covered h hs hv
        refine ⟨c, hc, ?_⟩
        intro i hi'
        apply hi
        have := (hpar i).1 hi'
        unfold Bbn.family at this
        rw [vids, List.map_append, List.mem_append] at this
        rcases this with h1 | h1
        · rw [← vids, vids_parentVars h] at h1
          exact List.mem_cons_of_mem _ h1
        · simp at h1; subst h1; exact List.mem_cons_self
    · exact Or.inl ⟨c, hc, e, hf⟩

theorem applyWith_eq {it : SetIter Int} {js : SetIter Str} {leftover heap1 heap2 : Dict Int NodeObj} {j1 j2 : JoinTree}
    (h1 : potentialInit b (initialHeap b leftover) = .ok heap1) (h2 : moralParents b heap1 = .ok heap2)
    (h3 : Initializer.initializeJt { Transformer.transform js (Triangulator.triangulate it (moralize b)).1 with
      parentInfo := parentInfoOf b, heap := heap2 } = .ok j1)
    (h4 : Propagator.propagate js j1 = .ok j2) : applyWith it js leftover b = .ok { j2 with listener := true } := by
  unfold applyWith
  simp only [h1, h2, h3, h4, bind, Except.bind]

/-- what `apply` returns -/
theorem applyWith_spec (it : SetIter Int) (js : SetIter Str) (h : BbnInv b) (wf : b.WF) (hne : b.vars ≠ [])
    {leftover : Dict Int NodeObj} (hl : LeftoverOk b (Triangulator.triangulate it (moralize b)).1 leftover) :
    ∃ T jt, applyWith it js leftover b = .ok jt ∧ Calib b.vars (Triangulator.triangulate it (moralize b)).1 T b.net noEvidence jt ∧
      lik jt.evidences = noEvidence ∧ (∀ i, i ∉ vids b.vars → Dict.get? jt.evidences i = none) ∧ jt.listener = true ∧ jt.parentInfo = parentInfoOf b ∧
      (∀ n ∈ b.toGraph.getNodes, ∃ o, Dict.get? jt.heap n.var.id = some o ∧ o.probs = n.probs) ∧
      jt.nodes = (Transformer.transform js (Triangulator.triangulate it (moralize b)).1).nodes ∧
      jt.edges = (Transformer.transform js (Triangulator.triangulate it (moralize b)).1).edges ∧
      jt.neighbors = (Transformer.transform js (Triangulator.triangulate it (moralize b)).1).neighbors := by
  have hs := (triangulate_spec it h).1
  set cs := (Triangulator.triangulate it (moralize b)).1 with hcs
  obtain ⟨T, ht⟩ := transform_spec js hs
  obtain ⟨heap1, heap2, a1, a2, a3, a4⟩ := heap_spec h wf leftover
  have hok := heap_ok h hs hl a4
  set jt0 : JoinTree := { Transformer.transform js cs with parentInfo := parentInfoOf b, heap := heap2 } with hjt0
  have hev0 : jt0.evidences = [] := transform_evidences js cs
  have hctx : Ctx b.vars cs T jt0 := (hs.ctx h wf ht).frame rfl rfl
  have hpre : EvPre b.vars jt0.evidences := by
    rw [hev0]; intro v _ m hm; simp [Dict.get?] at hm
  have hlik : lik jt0.evidences = noEvidence := by rw [hev0]; rfl
  obtain ⟨p, heap, ev, c1, c2, _, c4, _, c7, c6⟩ := hctx.run (Bbn.net_ok h wf) hok hpre (by
    intro i x; rw [hlik]; exact zero_le_one) (hs.cs_ne h hne) js
  refine ⟨T, { { jt0 with potentials := p, heap := heap, evidences := ev } with listener := true }, ?_, ?_, ?_, ?_, rfl, rfl, ?_,
    rfl, rfl, rfl⟩
  · obtain ⟨j1, d1, d2⟩ := bind_ok c1
    exact applyWith_eq a1 a2 d1 d2
  · rw [hlik] at c6; exact c6.listen true
  · change lik ev = _; rw [c4, hlik]
  · intro i hi
    rw [c7 i hi, hev0]; rfl
  · intro n hn
    obtain ⟨q, hq, _⟩ := c2.2 _ _ (a4 n hn)
    exact ⟨_, hq, rfl⟩

end

end PyBBN
