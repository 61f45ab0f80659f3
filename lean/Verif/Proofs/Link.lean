import Verif.Spec.Link
import Verif.Props.Surgery
import Verif.Props.SameJoint

/-! # Proofs: edges that say nothing -/

namespace PyBBN
open Relation

theorem setCpt_nodes (i : Int) (probs : List ℚ) (ops : List BOp) :
    BOp.nodes (ops.map (BOp.setCpt i probs)) = (BOp.nodes ops).map (BbnNode.withPrior i probs) := by
  induction ops with
  | nil => rfl
  | cons op ops ih =>
    have e1 : BOp.nodes (op :: ops) = BOp.nodes [op] ++ BOp.nodes ops := by
      unfold BOp.nodes; rw [← List.flatMap_append]; rfl
    have e2 : BOp.nodes ((op :: ops).map (BOp.setCpt i probs)) = BOp.nodes [BOp.setCpt i probs op] ++ BOp.nodes (ops.map (BOp.setCpt i probs)) := by
      unfold BOp.nodes; rw [← List.flatMap_append]; rfl
    rw [e1, e2, ih, List.map_append]
    congr 1
    cases op <;> rfl

theorem setCpt_edges (i : Int) (probs : List ℚ) (ops : List BOp) : BOp.edges (ops.map (BOp.setCpt i probs)) = BOp.edges ops := by
  induction ops with
  | nil => rfl
  | cons op ops ih =>
    have e1 : BOp.edges (op :: ops) = BOp.edges [op] ++ BOp.edges ops := by
      unfold BOp.edges; rw [← List.filterMap_append]; rfl
    have e2 : BOp.edges ((op :: ops).map (BOp.setCpt i probs)) = BOp.edges [BOp.setCpt i probs op] ++ BOp.edges (ops.map (BOp.setCpt i probs)) := by
      unfold BOp.edges; rw [← List.filterMap_append]; rfl
    rw [e1, e2, ih]
    congr 1
    cases op with
    | addNode n => rfl
    | addEdge p c => simp [BOp.edges, BOp.setCpt, withPrior_var]

theorem link_edges (p c : BbnNode) (ops : List BOp) : BOp.edges (linkOps p c ops) = BOp.edges ops ++ [(p.var.id, c.var.id)] := by
  unfold linkOps
  rw [setCpt_edges]
  unfold BOp.edges
  rw [List.filterMap_append]
  rfl

section
variable {p c : BbnNode} {ops : List BOp}

/-- the CPT of the child after linking -/
def linkProbs (p c : BbnNode) : List ℚ := repeatRows c.var.values.length p.var.values.length c.probs

theorem link_get (hl : CanLink p c ops) (k : Int) : Dict.get? (Bbn.run (linkOps p c ops)).nodes k =
    (Dict.get? (Bbn.run ops).nodes k).map (BbnNode.withPrior c.var.id (linkProbs p c)) := by
  have hi := bbn_run_inv ops
  rw [get?_run, get?_run]
  unfold linkOps
  rw [setCpt_nodes, List.find?_map]
  have e : BOp.nodes (ops ++ [BOp.addEdge p c]) = BOp.nodes ops ++ [p, c] := by
    unfold BOp.nodes; rw [List.flatMap_append]; rfl
  have hf : (fun n : BbnNode => decide (n.var.id = k)) ∘ BbnNode.withPrior c.var.id (linkProbs p c) = fun n => decide (n.var.id = k) := by
    funext n
    simp only [Function.comp, withPrior_var]
  change Option.map (BbnNode.withPrior c.var.id (linkProbs p c)) (List.find? ((fun n : BbnNode => decide (n.var.id = k)) ∘
    BbnNode.withPrior c.var.id (linkProbs p c)) _) = _
  rw [hf, e, List.find?_append]
  congr 1
  cases hfd : (BOp.nodes ops).find? (fun n => decide (n.var.id = k)) with
  | some n => rfl
  | none =>
    have hp1 := (mem_getNodes hi p).1 hl.parent
    have hc1 := (mem_getNodes hi c).1 hl.child
    rw [get?_run] at hp1 hc1
    have hpk : p.var.id ≠ k := fun e => by rw [e, hfd] at hp1; cases hp1
    have hck : c.var.id ≠ k := fun e => by rw [e, hfd] at hc1; cases hc1
    simp [hpk, hck]

theorem link_getNodes (hl : CanLink p c ops) : (Bbn.run (linkOps p c ops)).toGraph.getNodes.Perm
    ((Bbn.run ops).toGraph.getNodes.map (BbnNode.withPrior c.var.id (linkProbs p c))) := by
  have hi := bbn_run_inv ops
  have hi' := bbn_run_inv (linkOps p c ops)
  have hnd : ((Bbn.run ops).toGraph.getNodes.map (BbnNode.withPrior c.var.id (linkProbs p c))).Nodup := by
    refine List.Nodup.of_map (fun n : BbnNode => n.var.id) ?_
    rw [List.map_map]
    simpa only [Function.comp_def, withPrior_var] using node_ids_nodup hi
  rw [List.perm_ext_iff_of_nodup (getNodes_nodup hi') hnd]
  intro n
  rw [mem_getNodes hi', link_get hl, Option.map_eq_some_iff, List.mem_map]
  constructor
  · rintro ⟨m, h1, rfl⟩
    rw [withPrior_var] at h1
    exact ⟨m, (mem_getNodes hi m).2 h1, rfl⟩
  · rintro ⟨m, h1, rfl⟩
    rw [withPrior_var]
    exact ⟨m, (mem_getNodes hi m).1 h1, rfl⟩

theorem link_vars (hl : CanLink p c ops) : (Bbn.run (linkOps p c ops)).vars.Perm (Bbn.run ops).vars := by
  have := (link_getNodes hl).map BbnNode.var
  rw [List.map_map] at this
  simp only [Function.comp_def, withPrior_var] at this
  exact this

theorem link_parents_self (hl : CanLink p c ops) :
    ddGet (Bbn.run (linkOps p c ops)).parents c.var.id = ddGet (Bbn.run ops).parents c.var.id ++ [p.var.id] := by
  rw [(c07_parents_first_insertion _ _).1, (c07_parents_first_insertion ops _).1, link_edges, List.filter_append, List.map_append]
  have e : ([(p.var.id, c.var.id)].filter (fun pc => decide (pc.2 = c.var.id))).map Prod.fst = [p.var.id] := by simp
  rw [e, firsts_append, if_neg]
  intro h
  obtain ⟨⟨a, b⟩, h1, h2⟩ := List.mem_map.1 h
  rw [List.mem_filter] at h1
  have h3 := of_decide_eq_true h1.2
  simp only at h2 h3
  subst h2
  subst h3
  exact hl.new h1.1

theorem link_parents_ne {i : Int} (h : i ≠ c.var.id) : ddGet (Bbn.run (linkOps p c ops)).parents i = ddGet (Bbn.run ops).parents i := by
  rw [(c07_parents_first_insertion _ _).1, (c07_parents_first_insertion ops _).1, link_edges, List.filter_append, List.map_append]
  have e : ([(p.var.id, c.var.id)].filter (fun pc => decide (pc.2 = i))).map Prod.fst = [] := by simp [Ne.symm h]
  rw [e, List.append_nil]

theorem link_lookup (hl : CanLink p c ops) (L : List Int) :
    L.filterMap (fun q => (Dict.get? (Bbn.run (linkOps p c ops)).nodes q).map BbnNode.var) =
    L.filterMap (fun q => (Dict.get? (Bbn.run ops).nodes q).map BbnNode.var) := by
  congr 1
  funext q
  rw [link_get hl, Option.map_map]
  congr 1
  funext n
  exact withPrior_var n

theorem link_parentVars_self (hl : CanLink p c ops) : (Bbn.run (linkOps p c ops)).parentVars c.var.id = (Bbn.run ops).parentVars c.var.id ++ [p.var] := by
  unfold Bbn.parentVars
  rw [link_parents_self hl, link_lookup hl, List.filterMap_append]
  congr 1
  simp [(mem_getNodes (bbn_run_inv ops) p).1 hl.parent]

theorem link_parentVars_ne (hl : CanLink p c ops) {i : Int} (h : i ≠ c.var.id) : (Bbn.run (linkOps p c ops)).parentVars i = (Bbn.run ops).parentVars i := by
  unfold Bbn.parentVars
  rw [link_parents_ne h, link_lookup hl]

theorem length_repeatRows (k m : Nat) (l : List ℚ) : (repeatRows k m l).length = l.length * m := by
  unfold repeatRows
  rw [List.length_map, List.length_range]

theorem repeatRows_nonneg {k m : Nat} {l : List ℚ} (h : ∀ q ∈ l, 0 ≤ q) : ∀ q ∈ repeatRows k m l, 0 ≤ q := by
  intro q hq
  unfold repeatRows at hq
  obtain ⟨t, _, rfl⟩ := List.mem_map.1 hq
  rw [List.getD_eq_getElem?_getD]
  cases hg : l[t / (k * m) * k + t % k]? with
  | none => exact le_refl _
  | some a => exact h a (List.mem_of_getElem? hg)

theorem getD_repeatRows {k m r j i : Nat} {l : List ℚ} (hj : j < m) (hi : i < k) (hr : (r + 1) * k ≤ l.length) :
    (repeatRows k m l).getD ((r * m + j) * k + i) 0 = l.getD (r * k + i) 0 := by
  have hlt : (r * m + j) * k + i < l.length * m := by
    calc (r * m + j) * k + i < (r * m + j) * k + k := by omega
      _ = (r * m + (j + 1)) * k := by ring
      _ ≤ (r * m + m) * k := Nat.mul_le_mul_right _ (by omega)
      _ = (r + 1) * k * m := by ring
      _ ≤ l.length * m := Nat.mul_le_mul_right _ hr
  unfold repeatRows
  rw [List.getD_eq_getElem?_getD, List.getElem?_map, List.getElem?_range hlt]
  simp only [Option.map_some, Option.getD_some]
  have hk : 0 < k := by omega
  have hm : 0 < m := by omega
  have e1 : ((r * m + j) * k + i) / (k * m) = r := by
    rw [← Nat.div_div_eq_div_mul]
    have : ((r * m + j) * k + i) / k = r * m + j := by
      rw [Nat.add_comm, Nat.add_mul_div_right _ _ hk, Nat.div_eq_of_lt hi, Nat.zero_add]
    rw [this, Nat.add_comm, Nat.add_mul_div_right _ _ hm, Nat.div_eq_of_lt hj, Nat.zero_add]
  have e2 : ((r * m + j) * k + i) % k = i := by
    rw [Nat.add_comm, Nat.add_mul_mod_self_right, Nat.mod_eq_of_lt hi]
  rw [e1, e2]

theorem link_mem (hl : CanLink p c ops) {n : BbnNode} (hn : n ∈ (Bbn.run (linkOps p c ops)).toGraph.getNodes) :
    ∃ m ∈ (Bbn.run ops).toGraph.getNodes, n = m.withPrior c.var.id (linkProbs p c) := by
  obtain ⟨m, hm, e⟩ := List.mem_map.1 ((link_getNodes hl).mem_iff.1 hn)
  exact ⟨m, hm, e.symm⟩

theorem link_self (hl : CanLink p c ops) {m : BbnNode} (hm : m ∈ (Bbn.run ops).toGraph.getNodes) (e : m.var.id = c.var.id) : m = c :=
  List.inj_on_of_nodup_map (node_ids_nodup (bbn_run_inv ops)) hm hl.child e

theorem link_sane (hl : CanLink p c ops) (hs : Net.Sane ops) : Net.Sane (linkOps p c ops) := by
  refine ⟨⟨?_, ?_, ?_, ?_⟩, ?_⟩
  · intro i
    by_cases e : i = c.var.id
    · subst e
      rw [link_parents_self hl, List.mem_append]
      rintro (h | h)
      · exact hs.wf.noLoop _ h
      · exact hl.ne (List.mem_singleton.1 h).symm
    · rw [link_parents_ne e]; exact hs.wf.noLoop i
  · intro n hn
    obtain ⟨m, hm, rfl⟩ := link_mem hl hn
    rw [withPrior_var]; exact hs.wf.values m hm
  · intro n hn
    obtain ⟨m, hm, rfl⟩ := link_mem hl hn
    rw [withPrior_var]
    by_cases e : m.var.id = c.var.id
    · have := link_self hl hm e
      subst this
      rw [withPrior_eq rfl, link_parentVars_self hl]
      have h1 := hs.wf.cpt m hm
      simp only [linkProbs, length_repeatRows]
      simp only [List.map_append, List.prod_append, List.map_cons, List.map_nil, List.prod_cons, List.prod_nil, mul_one] at h1 ⊢
      calc _ = ((((Bbn.run ops).parentVars m.var.id).map (fun v => v.values.length)).prod * m.var.values.length) * p.var.values.length := by ring
        _ ≤ _ := Nat.mul_le_mul_right _ h1
    · rw [withPrior_ne e, link_parentVars_ne hl e]; exact hs.wf.cpt m hm
  · intro n hn
    obtain ⟨m, hm, rfl⟩ := link_mem hl hn
    by_cases e : m.var.id = c.var.id
    · have := link_self hl hm e
      subst this
      rw [withPrior_eq rfl]
      exact repeatRows_nonneg (hs.wf.nonneg m hm)
    · rw [withPrior_ne e]; exact hs.wf.nonneg m hm
  · intro v hv
    exact hs.vals v ((link_vars hl).mem_iff.1 hv)

theorem link_cptAt (hl : CanLink p c ops) (hs : Net.Sane ops) {σ : Asg} (hσ : InDom (Bbn.run ops).vars σ) :
    cptAt (linkProbs p c) ((Bbn.run ops).parentVars c.var.id ++ [p.var]) c.var σ = cptAt c.probs ((Bbn.run ops).parentVars c.var.id) c.var σ := by
  unfold cptAt cptIndex
  rw [rowIdx_append]
  have hp : p.var ∈ (Bbn.run ops).vars := List.mem_map_of_mem hl.parent
  have hc : c.var ∈ (Bbn.run ops).vars := List.mem_map_of_mem hl.child
  refine getD_repeatRows (List.idxOf_lt_length_iff.2 (hσ _ hp)) (List.idxOf_lt_length_iff.2 (hσ _ hc)) ?_
  have h1 := hs.wf.cpt c hl.child
  have h2 := rowIdx_lt σ ((Bbn.run ops).parentVars c.var.id) (fun v hv => hσ v (parentVars_sub (bbn_run_inv ops) _ v hv))
  rw [List.map_append, List.prod_append] at h1
  simp only [List.map_cons, List.map_nil, List.prod_cons, List.prod_nil, mul_one] at h1
  exact le_trans (Nat.mul_le_mul_right _ h2) h1

theorem link_weight (hl : CanLink p c ops) (hs : Net.Sane ops) (ℓ : Int → Str → ℚ) {σ : Asg} (hσ : InDom (Bbn.run ops).vars σ) :
    (Bbn.run (linkOps p c ops)).weight ℓ σ = (Bbn.run ops).weight ℓ σ := by
  unfold Bbn.weight
  rw [((link_getNodes hl).map _).prod_eq, List.map_map]
  refine congrArg List.prod (List.map_congr_left ?_)
  intro m hm
  simp only [Function.comp_apply, withPrior_var]
  congr 1
  by_cases e : m.var.id = c.var.id
  · have := link_self hl hm e
    subst this
    rw [withPrior_eq rfl, link_parentVars_self hl]
    exact link_cptAt hl hs hσ
  · rw [withPrior_ne e, link_parentVars_ne hl e]

theorem linked_same {ops' : List BOp} (h : Linked ops ops') (hs : Net.Sane ops) :
    Net.Sane ops' ∧ SameJoint (Bbn.run ops) (Bbn.run ops') := by
  induction h with
  | refl => exact ⟨hs, List.Perm.refl _, 1, one_ne_zero, fun σ _ => (one_mul _).symm⟩
  | step h hl ih =>
    obtain ⟨h1, h2, k, hk, h3⟩ := ih
    refine ⟨link_sane hl h1, (link_vars hl).trans h2, k, hk, ?_⟩
    intro σ hσ
    rw [link_weight hl h1 _ (fun v hv => hσ v (h2.mem_iff.1 hv)), h3 σ hσ]

theorem linked_edges {ops' : List BOp} (h : Linked ops ops') : ∀ e ∈ BOp.edges ops, e ∈ BOp.edges ops' := by
  induction h with
  | refl => exact fun e he => he
  | step h hl ih =>
    intro e he
    rw [link_edges]
    exact List.mem_append_left _ (ih e he)

theorem link_acyclic (hac : AcyclicOps ops) (hn : ¬ EqvGen (fun a b => (a, b) ∈ BOp.edges ops) p.var.id c.var.id) : AcyclicOps (linkOps p c ops) := by
  have up : ∀ {a b : Int}, ReflTransGen (fun a b => (a, b) ∈ BOp.edges ops) a b → EqvGen (fun a b => (a, b) ∈ BOp.edges ops) a b := by
    intro a b h
    induction h with
    | refl => exact EqvGen.refl _
    | tail _ h ih => exact EqvGen.trans _ _ _ ih (EqvGen.rel _ _ h)
  have key : ∀ a b : Int, TransGen (fun a b => (a, b) ∈ BOp.edges (linkOps p c ops)) a b →
      TransGen (fun a b => (a, b) ∈ BOp.edges ops) a b ∨
      (ReflTransGen (fun a b => (a, b) ∈ BOp.edges ops) a p.var.id ∧ ReflTransGen (fun a b => (a, b) ∈ BOp.edges ops) c.var.id b) := by
    intro a b h
    induction h with
    | single h =>
      rw [link_edges, List.mem_append, List.mem_singleton, Prod.mk.injEq] at h
      rcases h with h | ⟨rfl, rfl⟩
      · exact Or.inl (.single h)
      · exact Or.inr ⟨.refl, .refl⟩
    | tail _ h ih =>
      rw [link_edges, List.mem_append, List.mem_singleton, Prod.mk.injEq] at h
      rcases h with h | ⟨rfl, rfl⟩
      · rcases ih with ih | ⟨i1, i2⟩
        · exact Or.inl (.tail ih h)
        · exact Or.inr ⟨i1, .tail i2 h⟩
      · rcases ih with ih | ⟨i1, i2⟩
        · exact Or.inr ⟨ih.to_reflTransGen, .refl⟩
        · exact absurd (EqvGen.symm _ _ (up i2)) hn
  intro a ha
  rcases key a a ha with h | ⟨h1, h2⟩
  · exact hac a h
  · exact hn (EqvGen.symm _ _ (up (h2.trans h1)))

theorem link_all (hs : Net.Sane ops) (hac : AcyclicOps ops) {r : Variable} (hr : r ∈ (Bbn.run ops).vars) :
    ∀ L : List Variable, (∀ u ∈ L, u ∈ (Bbn.run ops).vars) → ∃ ops', Linked ops ops' ∧ AcyclicOps ops' ∧
      ∀ u ∈ L, EqvGen (fun a b => (a, b) ∈ BOp.edges ops') r.id u.id
  | [], _ => ⟨ops, .refl, hac, by simp⟩
  | u :: L, h => by
      obtain ⟨ops', hl, ha, hc⟩ := link_all hs hac hr L (fun u hu => h u (List.mem_cons_of_mem _ hu))
      by_cases e : EqvGen (fun a b => (a, b) ∈ BOp.edges ops') r.id u.id
      · refine ⟨ops', hl, ha, ?_⟩
        intro w hw
        rcases List.mem_cons.1 hw with rfl | hw
        · exact e
        · exact hc w hw
      · have hv := (linked_same hl hs).2.vars
        obtain ⟨p, hp, rfl⟩ := List.mem_map.1 (hv.mem_iff.2 hr)
        obtain ⟨c, hc1, rfl⟩ := List.mem_map.1 (hv.mem_iff.2 (h u List.mem_cons_self))
        have hcl : CanLink p c ops' := ⟨hp, hc1, fun e' => e (by rw [e']; exact EqvGen.refl _), fun he => e (EqvGen.rel _ _ he)⟩
        refine ⟨linkOps p c ops', .step hl hcl, link_acyclic ha e, ?_⟩
        intro w hw
        rcases List.mem_cons.1 hw with rfl | hw
        · refine EqvGen.rel _ _ ?_
          rw [link_edges]
          simp
        · refine (hc w hw).mono ?_
          intro a b hab
          rw [link_edges]
          exact List.mem_append_left _ hab

end
end PyBBN
