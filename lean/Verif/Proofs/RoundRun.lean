import Verif.Proofs.RoundInit
import Verif.Proofs.Limit

/-! # Bounds on rounding counts: `apply`, histories and reports -/

namespace PyBBN
open Propagator InferenceController

/-- bound for the clique tables after initialisation and a full propagation: `N` variables, at most `R` rows per table, inputs of cost at most `w` -/
def tableBound (κ w : ℚ) (R N : ℕ) : ℚ :=
  (2 * N * (w + 1) + N * (κ * R + 2)) + N * (2 * (2 * N * (w + 1) + N * (κ * R + 2)) + κ * R + 2)

/-- bound for the reported numbers -/
def readBound (κ w : ℚ) (R N : ℕ) : ℚ := 2 * tableBound κ w R N + 3 * (κ * R) + 1

section
variable {A : Arith} {κ w : ℚ} {R : ℕ} {Good : ℚ → Prop} {vars : List Variable} {cs : List Clique} {T : List SepSet} {N : Net}

/-- everything that is bounded -/
structure Bnd (w Ψ : ℚ) (R : ℕ) (jt : JoinTree) : Prop where
  heap : HeapB w jt
  tabs : Bd R (fun _ => Ψ) jt

theorem InitB.frame_cliques {S : ℚ} {jt : JoinTree} (hc : Ctx vars cs T jt) (h : InitB R S jt) :
    ∃ β : Str → ℚ, (∀ k, 0 ≤ β k) ∧ (∀ k, k ∉ cs.map Clique.id → β k = 0) ∧ ((cs.map Clique.id).map β).sum ≤ S ∧ Bd R β jt := by
  obtain ⟨β, h1, h2, h3, h4⟩ := h
  have hp := hc.spec.getCliques_perm.map Clique.id
  exact ⟨β, h1, fun k hk => h2 k (fun hk' => hk (hp.mem_iff.1 hk')), by rw [← (hp.map β).sum_eq]; exact h3, h4⟩

/-- initialisation and propagation -/
theorem Cost.global (h : Cost A κ) (hw : 0 ≤ w) (hinp : ∀ x, Good x → A.inp x ≤ w) (h1 : Good 1) {jt j1 jt' : JoinTree} (hc : Ctx vars cs T jt)
    (hM : cs.length ≤ vars.length) (hz : Sizes R jt) (hh : HeapB w jt) (hg : GoodEv Good jt.evidences) (js : SetIter Str)
    (hi : A.initializeJt jt = .ok j1) (hp : A.propagate js j1 = .ok jt') :
    SameN jt' jt ∧ Bnd w (tableBound κ w R vars.length) R jt' := by
  obtain ⟨a1, a2, a3, a4⟩ := h.initializeJt hw hinp h1 hc hz hh hg hi
  have hc1 := hc.frame a1.nodes a1.neighbors
  have hz1 : Sizes R j1 := ⟨by rw [a1.nodes]; exact hz.rows, by rw [a1.nodes]; exact hz.vars⟩
  obtain ⟨β, b1, b2, b3, b4⟩ := a4.frame_cliques hc1
  obtain ⟨⟨p, rfl⟩, c2⟩ := h.propagate hc1 hz1 js hp b1 b2 b4 b3 hM
  exact ⟨⟨a1.nodes, a1.neighbors⟩, ⟨a2.pot, a2.clique⟩, c2⟩

theorem Cost.notify (h : Cost A κ) (hw : 0 ≤ w) (hinp : ∀ x, Good x → A.inp x ≤ w) (h1 : Good 1) {jt : JoinTree} (hc : Ctx vars cs T jt)
    (hM : cs.length ≤ vars.length) (hz : Sizes R jt) (hb : Bnd w (tableBound κ w R vars.length) R jt) (hg : GoodEv Good jt.evidences) (js : SetIter Str)
    {t : ChangeType} (ht : t ≠ .update) :
    SameN (A.notify js jt t).1 jt ∧ Bnd w (tableBound κ w R vars.length) R (A.notify js jt t).1 := by
  unfold Arith.notify
  split
  · cases t with
    | none => exact ⟨SameN.refl _, hb⟩
    | update => exact absurd rfl ht
    | retraction =>
      cases hr : (do let jt ← A.initializeJt jt
                     A.propagate js jt : Py JoinTree) with
      | error e => simp only [hr]; exact ⟨SameN.refl _, hb⟩
      | ok jt' =>
        simp only [hr]
        obtain ⟨j1, e1, e2⟩ := bind_ok hr
        exact h.global hw hinp h1 hc hM hz hb.heap hg js e1 e2
  · exact ⟨SameN.refl _, hb⟩

theorem Cost.updateEvidences (h : Cost A κ) (hw : 0 ≤ w) (hinp : ∀ x, Good x → A.inp x ≤ w) (h1 : Good 1) {jt : JoinTree} (hc : Ctx vars cs T jt)
    (hM : cs.length ≤ vars.length) (hz : Sizes R jt) (hb : Bnd w (tableBound κ w R vars.length) R jt) (js : SetIter Str) (es : List Evidence)
    (hg : ∀ es' t, es.mapM Evidence.validate = .ok es' → JoinTree.getChangeType jt.evidences es' = .ok t →
      GoodEv Good (JoinTree.writeEvidences jt.evidences es').1) :
    SameN (A.updateEvidences js jt es).1 jt ∧ Bnd w (tableBound κ w R vars.length) R (A.updateEvidences js jt es).1 := by
  unfold Arith.updateEvidences
  cases he : es.mapM Evidence.validate with
  | error e => exact ⟨SameN.refl _, hb⟩
  | ok es' =>
    simp only
    cases ht : JoinTree.getChangeType jt.evidences es' with
    | error e => exact ⟨SameN.refl _, hb⟩
    | ok t =>
      simp only
      have hb' : Bnd w (tableBound κ w R vars.length) R { jt with evidences := (JoinTree.writeEvidences jt.evidences es').1 } :=
        ⟨⟨hb.heap.pot, hb.heap.clique⟩, hb.tabs⟩
      cases (JoinTree.writeEvidences jt.evidences es').2 with
      | some e => exact ⟨⟨rfl, rfl⟩, hb'⟩
      | none =>
        have := h.notify hw hinp h1 (jt := { jt with evidences := (JoinTree.writeEvidences jt.evidences es').1 }) (hc.frame rfl rfl) hM
          ⟨hz.rows, hz.vars⟩ hb' (hg es' t he ht) js (t := t) (by
            rintro rfl
            exact c26_never_update _ _ ht)
        exact ⟨⟨this.1.nodes, this.1.neighbors⟩, this.2⟩

/-- every evidence call is one call of `update_evidences` or raises at once; which one does not depend on the tables -/
theorem runOp_update (a : JoinTree) (hc : Ctx vars cs T a) (op : EvOp) (hop : op.Nodes vars) :
    (∃ e, (∀ (A : Arith) (js : SetIter Str) (c : JoinTree), c.nodes = a.nodes → c.evidences = a.evidences → A.runOp js c op = (c, some e)) ∧
      (∀ ℓ : Liks, evOp a.getBbnNodes ⟨a.evidences, ℓ⟩ op = (⟨a.evidences, ℓ⟩, some e))) ∨
    ∃ es : List Evidence, (∀ e ∈ es, NodeOk vars e.node ∧ (Dict.keys e.values).Nodup) ∧
      (∀ (A : Arith) (js : SetIter Str) (c : JoinTree), c.nodes = a.nodes → c.evidences = a.evidences → A.runOp js c op = A.updateEvidences js c es) ∧
      (∀ ℓ : Liks, evOp a.getBbnNodes ⟨a.evidences, ℓ⟩ op = evUpdate ⟨a.evidences, ℓ⟩ es) := by
  cases op with
  | update es => exact Or.inr ⟨es, hop, fun A js c _ _ => rfl, fun _ => rfl⟩
  | unobserve ns => exact Or.inr ⟨_, unobserved_nodes hop, fun A js c _ _ => rfl, fun _ => rfl⟩
  | unobserveAll =>
    refine Or.inr ⟨a.getBbnNodes.map JoinTree.unobservedEvidence, unobserved_nodes ?_, ?_, fun _ => rfl⟩
    · intro v hv
      have hv' := hc.bbnNodes_perm.mem_iff.1 hv
      exact ⟨fun _ => hv', hc.vals v hv'⟩
    · intro A js c h1 _
      have e : c.getBbnNodes = a.getBbnNodes := by
        unfold JoinTree.getBbnNodes JoinTree.bbnNodeDict JoinTree.getCliques; rw [h1]
      unfold Arith.runOp Arith.unobserve
      simp only
      rw [e]
  | observe e =>
    replace hop : NodeOk vars e.node ∧ (Dict.keys e.values).Nodup := hop
    have hu1 : ∀ e' ∈ [e], NodeOk vars e'.node ∧ (Dict.keys e'.values).Nodup := by
      intro e' he'; rw [List.mem_singleton] at he'; subst he'; exact hop
    have hu2 : ∀ e' ∈ [e.node].map JoinTree.unobservedEvidence, NodeOk vars e'.node ∧ (Dict.keys e'.values).Nodup :=
      unobserved_nodes (by intro v hv; rw [List.mem_singleton] at hv; subst hv; exact hop.1)
    cases hs : Dict.get? a.evidences e.node.id with
    | none =>
      refine Or.inl ⟨.keyError, fun A js c _ h2 => ?_, fun ℓ => ?_⟩
      · unfold Arith.runOp Arith.setObservation
        simp only
        rw [h2, hs]
      · unfold evOp
        simp only
        rw [hs]
    | some stored =>
      by_cases hl : ((stored.filter (fun kv => decide (kv.2 = 1))).map Prod.fst).length = 1
      · cases hcu : ((e.values.filter (fun kv => decide (kv.2 = 1))).map Prod.fst).head? with
        | none =>
          refine Or.inl ⟨.indexError, fun A js c _ h2 => ?_, fun ℓ => ?_⟩
          · unfold Arith.runOp Arith.setObservation
            simp only
            rw [h2, hs]
            simp only
            rw [if_pos hl, hcu]
          · unfold evOp
            simp only
            rw [hs]
            simp only
            rw [if_pos hl, show e.givenOnes.head? = none from hcu]
        | some curr =>
          by_cases hh : ((stored.filter (fun kv => decide (kv.2 = 1))).map Prod.fst).head? = some curr
          · refine Or.inr ⟨_, hu2, fun A js c _ h2 => ?_, fun ℓ => ?_⟩
            · unfold Arith.runOp Arith.setObservation Arith.unobserve
              simp only
              rw [h2, hs]
              simp only
              rw [if_pos hl, hcu]
              simp only
              rw [if_pos hh]
            · unfold evOp
              simp only
              rw [hs]
              simp only
              rw [if_pos hl, show e.givenOnes.head? = some curr from hcu]
              simp only
              rw [if_pos hh]
              rfl
          · refine Or.inr ⟨_, hu1, fun A js c _ h2 => ?_, fun ℓ => ?_⟩
            · unfold Arith.runOp Arith.setObservation
              simp only
              rw [h2, hs]
              simp only
              rw [if_pos hl, hcu]
              simp only
              rw [if_neg hh]
            · unfold evOp
              simp only
              rw [hs]
              simp only
              rw [if_pos hl, show e.givenOnes.head? = some curr from hcu]
              simp only
              rw [if_neg hh]
      · refine Or.inr ⟨_, hu1, fun A js c _ h2 => ?_, fun ℓ => ?_⟩
        · unfold Arith.runOp Arith.setObservation
          simp only
          rw [h2, hs]
          simp only
          rw [if_neg hl]
        · unfold evOp
          simp only
          rw [hs]
          simp only
          rw [if_neg hl]

/-- the likelihoods written by a call are those stored after it -/
theorem Live.writes_stored (hN : NetOk vars N) (hne : cs ≠ []) (hvne : ∀ v ∈ vars, v.values ≠ []) {ℓ : Liks} {jt : JoinTree}
    (h : Live vars cs T N ℓ jt) (js : SetIter Str) (es : List Evidence) (hes : ∀ e ∈ es, NodeOk vars e.node ∧ (Dict.keys e.values).Nodup)
    (hg : GoodEv Good (jt.updateEvidences js es).1.evidences) :
    ∀ es' t, es.mapM Evidence.validate = .ok es' → JoinTree.getChangeType jt.evidences es' = .ok t →
      GoodEv Good (JoinTree.writeEvidences jt.evidences es').1 := by
  intro es' t h1 h2
  obtain ⟨jt', a1, a2, a3, _⟩ := h.update hN hne hvne js es hes
  rw [a1] at hg
  have he : (evUpdate ⟨jt.evidences, ℓ⟩ es).1.ev = (JoinTree.writeEvidences jt.evidences es').1 := by
    unfold evUpdate
    rw [h1]
    simp only
    rw [h2]
    simp only
    cases (JoinTree.writeEvidences jt.evidences es').2 <;> rfl
  rw [he] at a3
  intro i m hm
  rw [← a3 i] at hm
  exact hg i m hm

/-- the same control flow in all arithmetics -/
theorem closed_any (A : Arith) : Closed (fun _ => True) (fun _ _ _ => True) Arith.exact A A :=
  ⟨fun _ _ => trivial, trivial, fun _ _ _ _ _ _ _ _ => trivial, fun _ _ _ _ _ _ _ _ => trivial, fun _ _ _ _ => trivial, fun _ _ _ _ _ _ _ _ => trivial⟩

theorem Cost.runHist (h : Cost A κ) (hw : 0 ≤ w) (hinp : ∀ x, Good x → A.inp x ≤ w) (h1 : Good 1)
    (hN : NetOk vars N) (hne : cs ≠ []) (hvne : ∀ v ∈ vars, v.values ≠ []) (hM : cs.length ≤ vars.length) :
    ∀ (hist : List (SetIter Str × EvOp)) {ℓ : Liks} {a c : JoinTree}, Live vars cs T N ℓ a → JT3 (fun _ _ _ => True) a c c → Sizes R c →
      Bnd w (tableBound κ w R vars.length) R c → (∀ op ∈ hist, op.2.Nodes vars) → (∀ n, GoodEv Good (PyBBN.runHist a (hist.take n)).evidences) →
      Sizes R (A.runHist c hist) ∧ Bnd w (tableBound κ w R vars.length) R (A.runHist c hist)
  | [], _, _, _, _, _, hz, hb, _, _ => ⟨hz, hb⟩
  | op :: hist, ℓ, a, c, hl, h3, hz, hb, hops, hgs => by
      have hop := hops op List.mem_cons_self
      have hj := (closed_any A).runOp (fun _ _ _ => trivial) hN hne hvne hl h3 op.1 op.2 hop
      obtain ⟨a', e1, l1, _⟩ := hl.step hN hne hvne op.1 op.2 hop
      have hj2 := hj.1
      rw [Arith.exact_runOp, e1] at hj2
      have hc : Ctx vars cs T c := hl.calib.ctx.frame h3.nodes.1 h3.neighbors.1
      have hgood : GoodEv Good a'.evidences := by
        have := hgs 1
        simp only [List.take_succ_cons, List.take_zero, PyBBN.runHist, List.foldl_cons, List.foldl_nil, e1] at this
        exact this
      have hstep : SameN (A.runOp op.1 c op.2).1 c ∧ Bnd w (tableBound κ w R vars.length) R (A.runOp op.1 c op.2).1 := by
        rcases runOp_update a hl.calib.ctx op.2 hop with ⟨e, he, _⟩ | ⟨es, hes, he, _⟩
        · rw [he A op.1 c h3.nodes.1 h3.evidences.1]
          exact ⟨SameN.refl _, hb⟩
        · rw [he A op.1 c h3.nodes.1 h3.evidences.1]
          refine h.updateEvidences hw hinp h1 hc hM hz hb op.1 es ?_
          rw [h3.evidences.1]
          refine hl.writes_stored hN hne hvne op.1 es hes ?_
          have e2 := he Arith.exact op.1 a rfl rfl
          rw [Arith.exact_runOp, Arith.exact_updateEvidences] at e2
          rw [← e2, e1]
          exact hgood
      have e : A.runHist c (op :: hist) = A.runHist (A.runOp op.1 c op.2).1 hist := rfl
      rw [e]
      refine Cost.runHist h hw hinp h1 hN hne hvne hM hist l1 hj2 ⟨by rw [hstep.1.nodes]; exact hz.rows, by rw [hstep.1.nodes]; exact hz.vars⟩ hstep.2
        (fun o ho => hops o (List.mem_cons_of_mem _ ho)) ?_
      intro n
      have := hgs (n + 1)
      simp only [List.take_succ_cons, PyBBN.runHist, List.foldl_cons, e1] at this
      exact this

/-- what is reported for a node -/
theorem Cost.getBbnPotential (h : Cost A κ) {Ψ : ℚ} (hΨ : 0 ≤ Ψ) {jt : JoinTree} (hb : Bnd w Ψ R jt) (hc : Ctx vars cs T jt) {v : Variable} (hv : v.values.length ≤ R) {Q : Potential}
    (hq : A.getBbnPotential jt v = .ok Q) : ∀ e ∈ Q, e.value ≤ 2 * Ψ + 3 * (κ * R) + 1 := by
  unfold Arith.getBbnPotential at hq
  obtain ⟨o, h1, hq⟩ := bind_ok hq
  rw [Dict.getItem_ok_iff] at h1
  cases hcl : o.parentClique with
  | none => rw [hcl] at hq; cases hq
  | some cid =>
    rw [hcl] at hq
    obtain ⟨p, h2, hq⟩ := bind_ok hq
    cases hq
    unfold Arith.marginalizeFor at h2
    have hcid : cid ∈ Dict.keys jt.nodes := by
      obtain ⟨c, hcm, e⟩ := List.mem_map.1 (hb.heap.clique _ _ _ h1 hcl)
      have := hc.spec.get_clique ((hc.spec.shape.mem_getCliques c).1 hcm)
      rw [e] at this
      exact Dict.mem_keys_of_get? this
    cases hp : Dict.get? jt.potentials cid with
    | none =>
      rw [hp] at h2
      simp only at h2
      split at h2
      · cases h2
        intro e he
        cases he
      · cases h2
    | some p0 =>
      rw [hp] at h2
      cases h2
      obtain ⟨b1, b2⟩ := hb.tabs cid hcid p0 hp
      have hk0 : 0 ≤ κ * R := mul_nonneg h.nonneg (Nat.cast_nonneg _)
      have hm := h.marginalize hΨ b1 b2 [v]
      have hl : (A.marginalize p0 [v]).length ≤ R := by
        have : (A.marginalize p0 [v]).length = (product ([v].map Variable.values)).length := by
          unfold Arith.marginalize
          rw [List.length_map, fromNodes_length]
        rw [this, product_length_eq]
        simpa using hv
      intro e he
      have := h.normalize (by linarith) hl hm e he
      linarith

/-! ### `apply` -/

theorem moralParents_pot (b : Bbn) : ∀ (l : List BbnNode) {heap heap' : Dict Int NodeObj} {P : NodeObj → Prop},
    (∀ o ps, P o → P { o with parents := ps }) → (∀ i o, Dict.get? heap i = some o → P o) →
    l.foldlM (fun (heap : Dict Int NodeObj) (n : BbnNode) => do
      let o ← Dict.getItem heap n.var.id
      .ok (Dict.set heap n.var.id { o with parents := some ((parentNodes b n.var.id).map (fun p : BbnNode => p.var.id)) })) heap = .ok heap' →
    ∀ i o, Dict.get? heap' i = some o → P o
  | [], _, _, _, _, h, e => by cases e; exact h
  | n :: l, heap, heap', P, hP, h, e => by
      rw [List.foldlM_cons] at e
      obtain ⟨h1, e1, e⟩ := bind_ok e
      obtain ⟨o, e2, e1⟩ := bind_ok e1
      cases e1
      rw [Dict.getItem_ok_iff] at e2
      refine moralParents_pot b l hP ?_ e
      intro i o' ho'
      by_cases hi : n.var.id = i
      · subst hi
        rw [Dict.get?_set_self] at ho'
        cases ho'
        exact hP _ _ (h _ _ e2)
      · rw [Dict.get?_set_ne _ _ hi] at ho'
        exact h _ _ ho'

theorem getPotential_parts {v : Variable} {probs : List ℚ} {ps : List Variable} {p : Potential} (h : A.getPotential v probs ps = .ok p) :
    p.map PEntry.entries = (A.fromNodes (ps ++ [v])).map PEntry.entries ∧ ∀ e ∈ p, ∃ x ∈ probs, e.value = A.inp x := by
  unfold Arith.getPotential PotentialUtil.merge at h
  have key : ∀ (l : List (PEntry × Nat)) (p : Potential), l.mapM (fun ei =>
      match probs[ei.2]? with
      | some p => (Except.ok { ei.1 with value := A.inp p } : Py PEntry)
      | none => .error .indexError) = .ok p →
      p.map PEntry.entries = l.map (fun ei => ei.1.entries) ∧ ∀ e ∈ p, ∃ x ∈ probs, e.value = A.inp x := by
    intro l
    induction l with
    | nil => intro p hp; cases hp; exact ⟨rfl, by simp⟩
    | cons ei l ih =>
      intro p hp
      rw [List.mapM_cons] at hp
      obtain ⟨e, h1, hp⟩ := bind_ok hp
      obtain ⟨q, h2, hp⟩ := bind_ok hp
      cases hp
      obtain ⟨i1, i2⟩ := ih q h2
      cases hx : probs[ei.2]? with
      | none => rw [hx] at h1; cases h1
      | some x =>
        rw [hx] at h1
        cases h1
        refine ⟨by rw [List.map_cons, List.map_cons, i1], ?_⟩
        intro e he
        rcases List.mem_cons.1 he with rfl | he
        · exact ⟨x, List.mem_of_getElem? hx, rfl⟩
        · exact i2 e he
  obtain ⟨k1, k2⟩ := key _ p h
  refine ⟨?_, k2⟩
  rw [k1, ← List.zipIdx_map_fst 0 (A.fromNodes (ps ++ [v])), List.map_map, List.zipIdx_map_fst]
  rfl

theorem startObj_noClique (b : Bbn) (h : BbnInv b) (i : Int) (o : NodeObj) (ho : Dict.get? (initialHeap b []) i = some o) :
    o.potential = none ∧ o.parentClique = none := by
  rw [initialHeap_eq h] at ho
  obtain ⟨n, _, e⟩ := List.mem_map.1 (Dict.mem_of_get? ho)
  cases e
  exact ⟨rfl, rfl⟩

/-- the tables at the node objects before initialisation -/
theorem Cost.heap (hinp : ∀ x, Good x → A.inp x ≤ w) {b : Bbn} (h : BbnInv b) (wf : b.WF) (hg : ∀ n ∈ b.toGraph.getNodes, ∀ x ∈ n.probs, Good x)
    {heap1 heap2 : Dict Int NodeObj} (e1 : A.potentialInit b (initialHeap b []) = .ok heap1) (e2 : moralParents b heap1 = .ok heap2) :
    ∀ i o, Dict.get? heap2 i = some o → (∀ p, o.potential = some p → Uniq p ∧ ∀ e ∈ p, e.value ≤ w) ∧ o.parentClique = none := by
  refine moralParents_pot b b.toGraph.getNodes (P := fun o => (∀ p, o.potential = some p → Uniq p ∧ ∀ e ∈ p, e.value ≤ w) ∧ o.parentClique = none)
    (fun o ps ho => ho) ?_ e2
  have key : ∀ (l : List BbnNode), (∀ n ∈ l, n ∈ b.toGraph.getNodes) → ∀ {ha hb : Dict Int NodeObj},
      (∀ i o, Dict.get? ha i = some o → (∀ p, o.potential = some p → Uniq p ∧ ∀ e ∈ p, e.value ≤ w) ∧ o.parentClique = none) →
      l.foldlM (A.initNode b) ha = .ok hb →
      ∀ i o, Dict.get? hb i = some o → (∀ p, o.potential = some p → Uniq p ∧ ∀ e ∈ p, e.value ≤ w) ∧ o.parentClique = none := by
    intro l
    induction l with
    | nil => intro _ ha hb h0 e; cases e; exact h0
    | cons n l ih =>
      intro hl ha hb h0 e
      rw [List.foldlM_cons] at e
      obtain ⟨hc, f1, e⟩ := bind_ok e
      refine ih (fun m hm => hl m (List.mem_cons_of_mem _ hm)) ?_ e
      unfold Arith.initNode at f1
      obtain ⟨ps, g1, f1⟩ := bind_ok f1
      obtain ⟨pot, g2, f1⟩ := bind_ok f1
      obtain ⟨o, g3, f1⟩ := bind_ok f1
      cases f1
      rw [Dict.getItem_ok_iff] at g3
      have hn := hl n List.mem_cons_self
      obtain ⟨ps', k1, k2⟩ := parents_mapM h n.var.id
      rw [g1] at k1
      cases k1
      rw [k2] at g2
      obtain ⟨m1, m2⟩ := getPotential_parts g2
      intro i o' ho'
      by_cases hi : n.var.id = i
      · subst hi
        rw [Dict.get?_set_self] at ho'
        cases ho'
        refine ⟨?_, (h0 _ _ g3).2⟩
        intro p hp
        simp only at hp
        cases hp
        refine ⟨uniq_congr m1.symm (uniq_fromNodes A (family_nodup h wf n.var)
          (fun u hu => values_nodup wf (family_sub h (List.mem_map_of_mem hn) u hu))), ?_⟩
        intro e he
        obtain ⟨x, hx, e'⟩ := m2 e he
        rw [e']
        exact hinp x (hg n hn x hx)
      · rw [Dict.get?_set_ne _ _ hi] at ho'
        exact h0 _ _ ho'
  refine key _ (fun n hn => hn) ?_ e1
  intro i o ho
  obtain ⟨a1, a2⟩ := startObj_noClique b h i o ho
  exact ⟨fun p hp => absurd (a1.symm.trans hp) (by simp), a2⟩

theorem prod_sublist_le {l m : List ℕ} (h : l.Sublist m) (hm : ∀ x ∈ m, 1 ≤ x) : l.prod ≤ m.prod := by
  induction h with
  | slnil => exact le_refl _
  | cons a h ih =>
    rw [List.prod_cons]
    have := ih (fun x hx => hm x (List.mem_cons_of_mem _ hx))
    exact this.trans (Nat.le_mul_of_pos_left _ (hm a List.mem_cons_self))
  | cons_cons a h ih =>
    rw [List.prod_cons, List.prod_cons]
    exact Nat.mul_le_mul_left _ (ih (fun x hx => hm x (List.mem_cons_of_mem _ hx)))

/-- the rows of the clique tables bound all sizes -/
theorem sizes_of_cliques {jt : JoinTree} (hc : Ctx vars cs T jt) (hvne : ∀ v ∈ vars, v.values ≠ [])
    (hR : ∀ c ∈ cs, (c.nodes.map (fun v => v.values.length)).prod ≤ R) : Sizes R jt ∧ ∀ v ∈ vars, v.values.length ≤ R := by
  have hpos : ∀ c ∈ cs, ∀ x ∈ c.nodes.map (fun v => v.values.length), 1 ≤ x := by
    intro c hcm x hx
    obtain ⟨v, hv, rfl⟩ := List.mem_map.1 hx
    exact List.length_pos_iff.2 (hvne v (hc.sub c hcm v hv))
  refine ⟨⟨?_, ?_⟩, ?_⟩
  · intro k n hn
    rw [product_length_eq, List.map_map]
    rcases (hc.spec.shape.node _ _).1 hn with ⟨c, hcm, _, rfl⟩ | ⟨s, hs, _, rfl⟩
    · exact hR c hcm
    · have hg := hc.spec.shape.good s hs
      exact (prod_sublist_le (hg.nodes_sub.map _) (hpos _ hg.left)).trans (hR _ hg.left)
  · intro k n hn
    have e : n.vars = jt.scope k := by unfold JoinTree.scope; rw [hn]; rfl
    rw [e]
    exact ⟨hc.spec.scope_nodup k, fun v hv => hc.vals v (hc.scope_sub k v hv)⟩
  · intro v hv
    obtain ⟨c, hcm, hvc⟩ := hc.cover v hv
    have : [v.values.length].Sublist (c.nodes.map (fun v => v.values.length)) := by
      rw [List.singleton_sublist]
      exact List.mem_map_of_mem hvc
    have := (prod_sublist_le this (hpos c hcm)).trans (hR c hcm)
    simpa using this

theorem Cost.apply (h : Cost A κ) (hw : 0 ≤ w) (hinp : ∀ x, Good x → A.inp x ≤ w) (h1 : Good 1) {b : Bbn} (hi : BbnInv b) (wf : b.WF)
    (hvne : ∀ v ∈ b.vars, v.values ≠ []) (hg : ∀ n ∈ b.toGraph.getNodes, ∀ x ∈ n.probs, Good x) {it : SetIter Int} {js : SetIter Str} {jc : JoinTree}
    (hR : ∀ c ∈ (Triangulator.triangulate it (moralize b)).1, (c.nodes.map (fun v => v.values.length)).prod ≤ R)
    (hj : A.apply it js b = .ok jc) : Sizes R jc ∧ Bnd w (tableBound κ w R b.vars.length) R jc := by
  unfold Arith.apply at hj
  obtain ⟨heap1, e1, hj⟩ := bind_ok hj
  obtain ⟨heap2, e2, hj⟩ := bind_ok hj
  obtain ⟨j1, e3, hj⟩ := bind_ok hj
  obtain ⟨j2, e4, hj⟩ := bind_ok hj
  cases hj
  have hh := Cost.heap hinp hi wf hg e1 e2
  have hs := (triangulate_spec it hi).1
  have hM := triangulate_length it hi
  set cs := (Triangulator.triangulate it (moralize b)).1 with hcs
  obtain ⟨t1, _⟩ := transform_ev js cs
  obtain ⟨T, ht⟩ := transform_spec js hs
  set jt0 : JoinTree := { Transformer.transform js cs with parentInfo := parentInfoOf b, heap := heap2 } with hjt0
  have hctx : Ctx b.vars cs T jt0 := (hs.ctx hi wf ht).frame rfl rfl
  have hz := (sizes_of_cliques hctx hvne hR).1
  have hheap : HeapB w jt0 := by
    refine ⟨fun i o p ho => (hh i o ho).1 p, ?_⟩
    intro i o c ho hcl
    exact absurd ((hh i o ho).2.symm.trans hcl) (by simp)
  obtain ⟨a1, a2⟩ := h.global hw hinp h1 hctx hM hz hheap (by
    have : jt0.evidences = [] := t1
    rw [this]
    intro i m hm
    simp [Dict.get?] at hm) js e3 e4
  exact ⟨⟨by rw [a1.nodes]; exact hz.rows, by rw [a1.nodes]; exact hz.vars⟩, ⟨a2.heap.pot, a2.heap.clique⟩, a2.tabs⟩

theorem tableBound_nonneg (h : Cost A κ) (hw : 0 ≤ w) (R N : ℕ) : 0 ≤ tableBound κ w R N := by
  have := h.nonneg
  unfold tableBound
  positivity

/-- **the bound for whole sessions**: `apply` and any history of evidence calls in the arithmetic `A` -/
theorem Cost.session (h : Cost A κ) (hw : 0 ≤ w) (hinp : ∀ x, Good x → A.inp x ≤ w) (h1 : Good 1) {ops : List BOp} {it : SetIter Int} {js : SetIter Str}
    {jt : JoinTree} (hu : Net.Sane ops) (hj : InferenceController.apply it js (Bbn.run ops) = .ok jt) (hist : List (SetIter Str × EvOp)) (hn : ∀ op ∈ hist, op.2.Nodes (Bbn.run ops).vars)
    (hR : ∀ c ∈ jt.getCliques, (c.nodes.map (fun v => v.values.length)).prod ≤ R)
    (hg : ∀ n ∈ (Bbn.run ops).toGraph.getNodes, ∀ x ∈ n.probs, Good x) (hgs : ∀ n, GoodEv Good (PyBBN.runHist jt (hist.take n)).evidences)
    {jc : JoinTree} (hc : A.apply it js (Bbn.run ops) = .ok jc) {v : Variable} (hv : v ∈ (Bbn.run ops).vars) {Q : Potential}
    (hq : A.getBbnPotential (A.runHist jc hist) v = .ok Q) : ∀ e ∈ Q, e.value ≤ readBound κ w R (Bbn.run ops).vars.length := by
  have hi := bbn_run_inv ops
  have hN := Bbn.net_ok hi hu.wf
  obtain ⟨T, l1, l2, l3⟩ := live_apply hu hj
  have hperm := l1.calib.ctx.spec.getCliques_perm
  have hR' : ∀ c ∈ (Triangulator.triangulate it (moralize (Bbn.run ops))).1, (c.nodes.map (fun v => v.values.length)).prod ≤ R :=
    fun c hcm => hR c (hperm.mem_iff.2 hcm)
  obtain ⟨z1, z2⟩ := h.apply hw hinp h1 hi hu.wf hu.vals hg hR' hc
  have hjt := (closed_any A).apply trivial it js (Bbn.run ops) (fun _ _ _ _ => trivial)
  rw [Arith.exact_apply, hj, hc] at hjt
  cases hjt with
  | ok h3 =>
    have hfin := (closed_any A).runHist (fun _ _ _ => trivial) hN l3 hu.vals hist l1 h3 hn
    rw [Arith.exact_runHist] at hfin
    obtain ⟨a, _, _⟩ := Live.hist hN l3 hu.vals hist (s := ⟨jt.evidences, noEvidence⟩) l1 (EvEq.refl _) hn
    obtain ⟨y1, y2⟩ := h.runHist hw hinp h1 hN l3 hu.vals (triangulate_length it hi) hist l1 h3 z1 z2 hn hgs
    have hctx : Ctx (Bbn.run ops).vars (Triangulator.triangulate it (moralize (Bbn.run ops))).1 T (A.runHist jc hist) :=
      a.calib.ctx.frame hfin.nodes.1 hfin.neighbors.1
    exact h.getBbnPotential (tableBound_nonneg h hw _ _) y2 hctx ((sizes_of_cliques hctx hu.vals hR').2 v hv) hq

end

end PyBBN
