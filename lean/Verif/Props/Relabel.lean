import Verif.Proofs.Relabel

/-! # C124: the names and the order of the values of a node do not matter -/

namespace PyBBN
open Relation InferenceController

variable {f : Variable → Variable} {ρ : Int → Str → Str}

/-- the posterior of the value under its other name -/
theorem posterior_relabel {b b' : Bbn} (hi : BbnInv b) (hi' : BbnInv b') (hs : SameVars f ρ b.vars b'.vars)
    (hn : ∀ v ∈ b'.vars, v.values.Nodup)
    (hw : ∃ k : ℚ, k ≠ 0 ∧ ∀ σ, InDom b.vars σ → b'.weight noEvidence (relabelAsg ρ σ) = k * b.weight noEvidence σ)
    {ℓ ℓ' : Liks} (hl : LikRel ρ b.vars ℓ ℓ') {v : Variable} (hv : v ∈ b.vars) {x : Str} (hx : x ∈ v.values) :
    b'.posterior ℓ' v.id (ρ v.id x) = b.posterior ℓ v.id x := by
  obtain ⟨k, hk, hw⟩ := hw
  have hV := vars_nodup hi
  have hV' := vars_nodup hi'
  have hids : ∀ w ∈ b'.vars, ∃ u ∈ b.vars, u.id = w.id := by
    intro w hw'
    obtain ⟨u, hu, rfl⟩ := List.mem_map.1 (hs.vars.mem_iff.1 hw')
    exact ⟨u, hu, (hs.id u hu).symm⟩
  have hW : ∀ σ ∈ allAsg b.vars, b'.weight ℓ' (relabelAsg ρ σ) = k * b.weight ℓ σ := by
    intro σ hσ
    have hd := allAsg_mem_dom b.vars hV σ hσ
    rw [weight_noEvidence_mul, weight_noEvidence_mul b, hw σ hd, (hs.vars.map (fun v => ℓ' v.id (relabelAsg ρ σ v.id))).prod_eq,
      List.map_map, mul_assoc]
    refine congrArg (fun t => k * (b.weight noEvidence σ * t)) (congrArg List.prod (List.map_congr_left ?_))
    intro u hu
    simp only [Function.comp_apply, hs.id u hu]
    exact hl u hu _ (hd u hu)
  have hsum : ∀ F : Asg → ℚ, (∀ τ τ', (∀ v ∈ b'.vars, τ v.id = τ' v.id) → F τ = F τ') →
      ((allAsg b'.vars).map F).sum = ((allAsg b.vars).map (fun σ => F (relabelAsg ρ σ))).sum := by
    intro F hF
    rw [sum_allAsg_perm hV' hs.vars]
    refine sum_allAsg_relabel b.vars hV (fun u hu => ⟨hs.id u hu, hs.values u hu⟩) F ?_
    intro τ τ' h
    refine hF τ τ' ?_
    intro w hw'
    obtain ⟨u, hu, e⟩ := hids w hw'
    rw [← e]
    exact h u hu
  have hvm : f v ∈ b'.vars := hs.vars.mem_iff.2 (List.mem_map_of_mem hv)
  have hm : b'.mass ℓ' v.id (ρ v.id x) = k * b.mass ℓ v.id x := by
    rw [mass_eq, mass_eq, hsum _ ?_, ← List.sum_map_mul_left]
    · refine congrArg List.sum (List.map_congr_left ?_)
      intro σ hσ
      have hd := allAsg_mem_dom b.vars hV σ hσ
      have e : relabelAsg ρ σ v.id = ρ v.id x ↔ σ v.id = x :=
        ⟨fun h => hs.inj hn hv _ (hd v hv) _ hx h, fun h => by rw [← h]; rfl⟩
      by_cases h : σ v.id = x
      · rw [if_pos h, if_pos (e.2 h), hW σ hσ]
      · rw [if_neg h, if_neg (fun h' => h (e.1 h')), mul_zero]
    · intro τ τ' h
      have h1 := h (f v) hvm
      rw [hs.id v hv] at h1
      rw [h1, weight_dep hi' ℓ' h]
  have ht : b'.total ℓ' = k * b.total ℓ := by
    unfold Bbn.total
    rw [hsum _ (fun τ τ' h => weight_dep hi' ℓ' h), ← List.sum_map_mul_left]
    exact congrArg List.sum (List.map_congr_left hW)
  unfold Bbn.posterior
  rw [hm, ht, mul_div_mul_left _ _ hk]

/-- the joint weights agree when the CPTs do -/
theorem weight_relabel {b b' : Bbn} (hi : BbnInv b) (hi' : BbnInv b') (hs : SameVars f ρ b.vars b'.vars) (ht : SameEntries ρ b b') {σ : Asg}
    (hσ : InDom b.vars σ) : b'.weight noEvidence (relabelAsg ρ σ) = b.weight noEvidence σ := by
  have e : ∀ (b : Bbn) σ, b.weight noEvidence σ = (b.toGraph.getNodes.map (fun n => cptAt n.probs (b.parentVars n.var.id) n.var σ)).prod := by
    intro b σ
    unfold Bbn.weight noEvidence
    simp only [mul_one]
  rw [e, e]
  let G : Int → ℚ := fun i => ((b.toGraph.getNodes.find? (fun n => decide (n.var.id = i))).map
    (fun n => cptAt n.probs (b.parentVars n.var.id) n.var σ)).getD 1
  have hV := vars_nodup hi
  have hG : ∀ n ∈ b.toGraph.getNodes, G n.var.id = cptAt n.probs (b.parentVars n.var.id) n.var σ := by
    intro n hm
    have hN : (b.toGraph.getNodes.map (fun n => n.var.id)).Nodup := by
      have := hV
      unfold vids Bbn.vars at this
      rwa [List.map_map] at this
    change ((b.toGraph.getNodes.find? (fun m => decide (m.var.id = n.var.id))).map _).getD 1 = _
    cases hf : b.toGraph.getNodes.find? (fun m => decide (m.var.id = n.var.id)) with
    | none => exact absurd (List.find?_eq_none.1 hf n hm) (by simp)
    | some m =>
      have h1 := List.mem_of_find?_eq_some hf
      have h2 := List.find?_some hf
      rw [decide_eq_true_eq] at h2
      rw [List.inj_on_of_nodup_map hN h1 hm h2]
      rfl
  have h1 : b.toGraph.getNodes.map (fun n => cptAt n.probs (b.parentVars n.var.id) n.var σ) = (b.vars.map Variable.id).map G := by
    unfold Bbn.vars
    rw [List.map_map, List.map_map]
    exact List.map_congr_left (fun n hm => (hG n hm).symm)
  have h2 : b'.toGraph.getNodes.map (fun n => cptAt n.probs (b'.parentVars n.var.id) n.var (relabelAsg ρ σ)) = (b'.vars.map Variable.id).map G := by
    unfold Bbn.vars
    rw [List.map_map, List.map_map]
    refine List.map_congr_left ?_
    intro n' hm'
    simp only [Function.comp_apply]
    have hv' : n'.var ∈ b'.vars := List.mem_map_of_mem hm'
    obtain ⟨u, hu, e⟩ := List.mem_map.1 (hs.vars.mem_iff.1 hv')
    obtain ⟨n, hm, rfl⟩ := List.mem_map.1 hu
    have hid : n'.var.id = n.var.id := by rw [← e, hs.id _ hu]
    rw [ht n hm n' hm' hid σ hσ, hid, hG n hm]
  rw [h1, h2]
  refine (List.Perm.map G ?_).prod_eq
  refine (hs.vars.map Variable.id).trans (List.Perm.of_eq ?_)
  rw [List.map_map]
  exact List.map_congr_left (fun v hv => hs.id v hv)

section
variable {it it' : SetIter Int} {js js' : SetIter Str} {ops ops' : List BOp} {jt jt' : JoinTree}

theorem relabel_core (hu : Net.Usable ops) (hu' : Net.Usable ops') (hs : SameVars f ρ (Bbn.run ops).vars (Bbn.run ops').vars)
    (hw : ∃ k : ℚ, k ≠ 0 ∧ ∀ σ, InDom (Bbn.run ops).vars σ →
      (Bbn.run ops').weight noEvidence (relabelAsg ρ σ) = k * (Bbn.run ops).weight noEvidence σ)
    (hj : apply it js (Bbn.run ops) = .ok jt) (hj' : apply it' js' (Bbn.run ops') = .ok jt')
    (h h' : List (SetIter Str × EvOp)) (hp : ∀ op ∈ h, op.2.Proper (Bbn.run ops).vars) (hk : ∀ op ∈ h, op.2.Kept f ρ)
    (he : h'.map Prod.snd = h.map (fun op => op.2.relabel f ρ))
    {v : Variable} (hv : v ∈ (Bbn.run ops).vars) {x : Str} (hx : x ∈ v.values) :
    ∃ p, Reports (runHist jt h) v x p ∧ Reports (runHist jt' h') (f v) (ρ v.id x) p := by
  have hi := bbn_run_inv ops
  have hi' := bbn_run_inv ops'
  have hn : ∀ v ∈ (Bbn.run ops').vars, v.values.Nodup := fun v hv => values_nodup hu'.wf hv
  have hp' : ∀ op ∈ h', op.2.Proper (Bbn.run ops').vars := by
    intro op ho
    have : op.2 ∈ h.map (fun op => op.2.relabel f ρ) := by rw [← he]; exact List.mem_map_of_mem ho
    obtain ⟨o, ho, e⟩ := List.mem_map.1 this
    rw [← e]
    exact (hp o ho).relabel hs hn
  have hl := (lawHist_relabel hs (vars_nodup hi) hn h h' hp hk he).2
  refine ⟨_, reports_law hu hj h hp hv hx, ?_⟩
  have h1 := reports_law hu' hj' h' hp' (hs.vars.mem_iff.2 (List.mem_map_of_mem hv)) ((hs.mem_values hv).2 ⟨x, hx, rfl⟩)
  rwa [hs.id v hv, posterior_relabel hi hi' hs hn hw hl hv hx] at h1

/-- **C124**. Two connected networks whose nodes have the same ids and the same values under other names and in another order, and whose
CPTs have the same entries for the same values (whatever the order of the parents): after the same history of evidence, in which each
observation gives some value a positive likelihood, they report the same probability for the same value. -/
theorem c124_tables (hu : Net.Usable ops) (hu' : Net.Usable ops') (hs : SameVars f ρ (Bbn.run ops).vars (Bbn.run ops').vars)
    (ht : SameEntries ρ (Bbn.run ops) (Bbn.run ops'))
    (hj : apply it js (Bbn.run ops) = .ok jt) (hj' : apply it' js' (Bbn.run ops') = .ok jt')
    (h h' : List (SetIter Str × EvOp)) (hp : ∀ op ∈ h, op.2.Proper (Bbn.run ops).vars) (hd : ∀ op ∈ h, op.2.Definite)
    (he : h'.map Prod.snd = h.map (fun op => op.2.relabel f ρ))
    {v : Variable} (hv : v ∈ (Bbn.run ops).vars) {x : Str} (hx : x ∈ v.values) :
    ∃ p, Reports (runHist jt h) v x p ∧ Reports (runHist jt' h') (f v) (ρ v.id x) p := by
  refine relabel_core hu hu' hs ⟨1, one_ne_zero, fun σ hσ => ?_⟩ hj hj' h h' hp ?_ he hv hx
  · rw [one_mul]
    exact weight_relabel (bbn_run_inv _) (bbn_run_inv _) hs ht hσ
  · intro op ho
    have := hd op ho
    cases hop : op.2 with
    | update es => rw [hop] at this; exact fun e he => Or.inr (this e he)
    | observe e => rw [hop] at this; exact Or.inr this
    | unobserve ns => trivial
    | unobserveAll => trivial

theorem idxOf_map_inj {r : Str → Str} {x : Str} : ∀ (l : List Str), (∀ y ∈ l, r y = r x → y = x) → (l.map r).idxOf (r x) = l.idxOf x
  | [], _ => rfl
  | y :: l, h => by
      rw [List.map_cons, List.idxOf_cons, List.idxOf_cons, idxOf_map_inj l (fun z hz => h z (List.mem_cons_of_mem _ hz))]
      by_cases e : y = x
      · subst e
        simp
      · have e' : r y ≠ r x := fun h' => e (h y List.mem_cons_self h')
        simp only [beq_eq_false_iff_ne.2 e, beq_eq_false_iff_ne.2 e']

/-- **C124**, names only. A connected network and a copy in which the values of the nodes have other names (different values of a node
have different names), with the same CPTs: after any history of evidence they report the same probability for the same value. -/
theorem c124_rename (hu : Net.Usable ops) (hu' : Net.Usable ops')
    (hnodes : (Bbn.run ops').toGraph.getNodes.Perm ((Bbn.run ops).toGraph.getNodes.map (fun n => ⟨n.var.rename ρ, n.probs⟩)))
    (hpar : ∀ n ∈ (Bbn.run ops).toGraph.getNodes,
      (Bbn.run ops').parentVars n.var.id = ((Bbn.run ops).parentVars n.var.id).map (Variable.rename ρ))
    (hj : apply it js (Bbn.run ops) = .ok jt) (hj' : apply it' js' (Bbn.run ops') = .ok jt')
    (h h' : List (SetIter Str × EvOp)) (hp : ∀ op ∈ h, op.2.Proper (Bbn.run ops).vars)
    (he : h'.map Prod.snd = h.map (fun op => op.2.relabel (Variable.rename ρ) ρ))
    {v : Variable} (hv : v ∈ (Bbn.run ops).vars) {x : Str} (hx : x ∈ v.values) :
    ∃ p, Reports (runHist jt h) v x p ∧ Reports (runHist jt' h') (v.rename ρ) (ρ v.id x) p := by
  have hi := bbn_run_inv ops
  have hn : ∀ v ∈ (Bbn.run ops').vars, v.values.Nodup := fun v hv => values_nodup hu'.wf hv
  have hs : SameVars (Variable.rename ρ) ρ (Bbn.run ops).vars (Bbn.run ops').vars := by
    refine ⟨?_, fun _ _ => rfl, fun _ _ => List.Perm.refl _⟩
    have := hnodes.map BbnNode.var
    rw [List.map_map] at this
    unfold Bbn.vars
    rw [List.map_map]
    exact this
  have ht : SameEntries ρ (Bbn.run ops) (Bbn.run ops') := by
    intro n hm n' hm' hid σ hσ
    obtain ⟨m, hmm, e⟩ := List.mem_map.1 (hnodes.mem_iff.1 hm')
    have hN : ((Bbn.run ops).toGraph.getNodes.map (fun n => n.var.id)).Nodup := by
      have := vars_nodup hi
      unfold vids Bbn.vars at this
      rwa [List.map_map] at this
    have hmn : m = n := by
      refine List.inj_on_of_nodup_map hN hmm hm ?_
      rw [← hid, ← e]
      rfl
    subst hmn
    subst e
    have hidx : ∀ u ∈ (Bbn.run ops).vars, (u.rename ρ).values.idxOf (relabelAsg ρ σ u.id) = u.values.idxOf (σ u.id) := by
      intro u hu
      exact idxOf_map_inj _ (fun y hy h => hs.inj hn hu y hy _ (hσ u hu) h)
    have hlen : ∀ u : Variable, (u.rename ρ).values.length = u.values.length := fun u => List.length_map _
    have hrow : ∀ (ns : List Variable) (a : Nat), (∀ u ∈ ns, u ∈ (Bbn.run ops).vars) →
        (ns.map (Variable.rename ρ)).foldl (fun acc p => acc * p.values.length + p.values.idxOf (relabelAsg ρ σ p.id)) a =
          ns.foldl (fun acc p => acc * p.values.length + p.values.idxOf (σ p.id)) a := by
      intro ns
      induction ns with
      | nil => exact fun _ _ => rfl
      | cons u ns ih =>
        intro a hns
        rw [List.map_cons, List.foldl_cons, List.foldl_cons, hlen]
        have : (u.rename ρ).id = u.id := rfl
        rw [this, hidx u (hns u List.mem_cons_self)]
        exact ih _ (fun w hw => hns w (List.mem_cons_of_mem _ hw))
    have e1 : (Variable.rename ρ m.var).id = m.var.id := rfl
    unfold cptAt cptIndex rowIdx
    dsimp only
    rw [e1, hpar m hm, hrow _ _ (fun u hu => parentVars_sub hi _ u hu), hlen, hidx _ (List.mem_map_of_mem hm)]
  refine relabel_core hu hu' hs ⟨1, one_ne_zero, fun σ hσ => ?_⟩ hj hj' h h' hp ?_ he hv hx
  · rw [one_mul]
    exact weight_relabel hi (bbn_run_inv _) hs ht hσ
  · intro op ho
    cases op.2 with
    | update es => exact fun e he => Or.inl rfl
    | observe e => exact Or.inl rfl
    | unobserve ns => trivial
    | unobserveAll => trivial

end

/-! ### examples -/

/-- `a` and `c` with values `on`, `off` are the parents of `b` with values `low`, `mid`, `high` … -/
def c124_a : BbnNode := mkNode 0 "a" [1/4, 3/4]
def c124_c : BbnNode := mkNode 1 "c" [2/3, 1/3]
def c124_b : BbnNode := ⟨⟨2, "b".toList, ["low".toList, "mid".toList, "high".toList]⟩,
  [1/2, 1/4, 1/4, 1/3, 1/3, 1/3, 1/5, 2/5, 2/5, 0, 1/10, 9/10]⟩
def c124_ops : List BOp := [.addEdge c124_a c124_b, .addEdge c124_c c124_b]

/-- … and the same network with the values `no`, `yes` for `a` and `h`, `l`, `m` for `b`, whose parents are now `c` and `a` -/
def c124_a' : BbnNode := ⟨⟨0, "a".toList, ["no".toList, "yes".toList]⟩, [3/4, 1/4]⟩
def c124_b' : BbnNode := ⟨⟨2, "b".toList, ["h".toList, "l".toList, "m".toList]⟩,
  [2/5, 1/5, 2/5, 1/4, 1/2, 1/4, 9/10, 0, 1/10, 1/3, 1/3, 1/3]⟩
def c124_ops' : List BOp := [.addEdge c124_c c124_b', .addEdge c124_a' c124_b']

/-- the nodes of the second network -/
def c124_f (v : Variable) : Variable := if v.id = 0 then c124_a'.var else if v.id = 2 then c124_b'.var else v

/-- the names of the values in the second network -/
def c124_ρ (i : Int) (x : Str) : Str :=
  if i = 0 then (if x = "on".toList then "yes".toList else "no".toList)
  else if i = 2 then x.take 1 else x

theorem c124_vars : SameVars c124_f c124_ρ (Bbn.run c124_ops).vars (Bbn.run c124_ops').vars :=
  ⟨by decide +kernel, by decide +kernel, by decide +kernel⟩

theorem c124_same : SameEntries c124_ρ (Bbn.run c124_ops) (Bbn.run c124_ops') := by
  intro n hn n' hn' hid σ hσ
  have key : ∀ n ∈ (Bbn.run c124_ops).toGraph.getNodes, ∀ n' ∈ (Bbn.run c124_ops').toGraph.getNodes, n'.var.id = n.var.id →
      ∀ a ∈ c124_a.var.values, ∀ c ∈ c124_c.var.values, ∀ b ∈ c124_b.var.values,
      cptAt n'.probs ((Bbn.run c124_ops').parentVars n'.var.id) n'.var (relabelAsg c124_ρ (fun i => if i = 0 then a else if i = 1 then c else b)) =
      cptAt n.probs ((Bbn.run c124_ops).parentVars n.var.id) n.var (fun i => if i = 0 then a else if i = 1 then c else b) := by decide +kernel
  have h0 : σ 0 ∈ c124_a.var.values := hσ c124_a.var (by decide +kernel)
  have h1 : σ 1 ∈ c124_c.var.values := hσ c124_c.var (by decide +kernel)
  have h2 : σ 2 ∈ c124_b.var.values := hσ c124_b.var (by decide +kernel)
  have h3 := key n hn n' hn' hid _ h0 _ h1 _ h2
  have hv : ∀ n ∈ (Bbn.run c124_ops).toGraph.getNodes, ∀ i ∈ vids ((Bbn.run c124_ops).parentVars n.var.id ++ [n.var]), i = 0 ∨ i = 1 ∨ i = 2 := by
    decide +kernel
  have hv' : ∀ n ∈ (Bbn.run c124_ops').toGraph.getNodes, ∀ i ∈ vids ((Bbn.run c124_ops').parentVars n.var.id ++ [n.var]), i = 0 ∨ i = 1 ∨ i = 2 := by
    decide +kernel
  rw [cptAt_dep _ _ _ (relabelAsg c124_ρ σ) (relabelAsg c124_ρ (fun i => if i = 0 then σ 0 else if i = 1 then σ 1 else σ 2)),
    cptAt_dep _ _ _ σ (fun i => if i = 0 then σ 0 else if i = 1 then σ 1 else σ 2)]
  · exact h3
  · intro i hi
    rcases hv n hn i hi with rfl | rfl | rfl <;> rfl
  · intro i hi
    rcases hv' n' hn' i hi with rfl | rfl | rfl <;> rfl

theorem c124_connected {ops : List BOp} (hid : ∀ u ∈ (Bbn.run ops).vars, u.id = 0 ∨ u.id = 1 ∨ u.id = 2) (h1 : ((0 : Int), (2 : Int)) ∈ BOp.edges ops)
    (h2 : ((1 : Int), (2 : Int)) ∈ BOp.edges ops) : ConnectedOps ops := by
  have hv : ∀ u ∈ (Bbn.run ops).vars, EqvGen (fun p c => (p, c) ∈ BOp.edges ops) u.id 2 := by
    intro u hu
    rcases hid u hu with h | h | h <;> rw [h]
    · exact EqvGen.rel _ _ h1
    · exact EqvGen.rel _ _ h2
    · exact EqvGen.refl _
  intro u hu v hw
  exact EqvGen.trans _ _ _ (hv u hu) (EqvGen.symm _ _ (hv v hw))

theorem c124_usable : Net.Usable c124_ops ∧ Net.Usable c124_ops' :=
  ⟨⟨⟨wf_of_check (by decide +kernel) (by decide +kernel), by decide +kernel⟩, c124_connected (by decide +kernel) (by decide +kernel) (by decide +kernel)⟩,
   ⟨⟨wf_of_check (by decide +kernel) (by decide +kernel), by decide +kernel⟩, c124_connected (by decide +kernel) (by decide +kernel) (by decide +kernel)⟩⟩

/-- a history with an observation, a finding and a virtual evidence -/
def c124_hist : List (SetIter Str × EvOp) :=
  [(.same, .update [obs c124_b.var "low".toList]),
   (.rev, .observe (Evidence.build c124_b.var .observation [("mid".toList, 1)])),
   (.same, .update [Evidence.build c124_c.var .virtual [("on".toList, 1/2), ("off".toList, 1/3)]])]

/-- C124: the two networks, the history, and what both report for `a` afterwards -/
example : Net.Usable c124_ops ∧ Net.Usable c124_ops' ∧ SameVars c124_f c124_ρ (Bbn.run c124_ops).vars (Bbn.run c124_ops').vars ∧
    SameEntries c124_ρ (Bbn.run c124_ops) (Bbn.run c124_ops') ∧
    (∀ op ∈ c124_hist, op.2.Proper (Bbn.run c124_ops).vars) ∧ (∀ op ∈ c124_hist, op.2.Definite) ∧
    ((apply .same .same (Bbn.run c124_ops)).val?.map (fun jt => reportOf (runHist jt c124_hist) c124_a.var "on".toList)) = some (some (5 / 23)) ∧
    ((apply .rev .same (Bbn.run c124_ops')).val?.map (fun jt =>
      reportOf (runHist jt (c124_hist.map (fun op => (op.1, op.2.relabel c124_f c124_ρ)))) c124_a'.var "yes".toList)) = some (some (5 / 23)) := by
  refine ⟨c124_usable.1, c124_usable.2, c124_vars, c124_same, ?_, ?_, by decide +kernel, by decide +kernel⟩
  · intro op ho
    simp only [c124_hist, List.mem_cons, List.not_mem_nil, or_false] at ho
    rcases ho with rfl | rfl | rfl
    · intro e he
      simp only [List.mem_cons, List.not_mem_nil, or_false] at he
      subst he
      exact ⟨by decide +kernel, by decide +kernel, by decide +kernel⟩
    · exact ⟨by decide +kernel, by decide +kernel, by decide +kernel⟩
    · intro e he
      simp only [List.mem_cons, List.not_mem_nil, or_false] at he
      subst he
      exact ⟨by decide +kernel, by decide +kernel, by decide +kernel⟩
  · intro op ho
    simp only [c124_hist, List.mem_cons, List.not_mem_nil, or_false] at ho
    rcases ho with rfl | rfl | rfl
    · intro e he
      simp only [List.mem_cons, List.not_mem_nil, or_false] at he
      subst he
      exact fun _ => ⟨("low".toList, 1), by decide +kernel, by decide +kernel⟩
    · exact fun _ => ⟨("mid".toList, 1), by decide +kernel, by decide +kernel⟩
    · intro e he
      simp only [List.mem_cons, List.not_mem_nil, or_false] at he
      subst he
      exact fun h => absurd h (by decide +kernel)

/-- **C124**, why observations need a positive likelihood: an observation of `a` that names no value fixes the first value of `a`, which is
`on` in the first network and `no` (that is, `off`) in the second. -/
theorem c124_indefinite :
    ((apply .same .same (Bbn.run c124_ops)).val?.map (fun jt =>
      reportOf (runHist jt [(.same, .update [Evidence.build c124_a.var .observation []])]) c124_a.var "on".toList)) = some (some 1) ∧
    ((apply .same .same (Bbn.run c124_ops')).val?.map (fun jt =>
      reportOf (runHist jt [(.same, .update [Evidence.build c124_a'.var .observation []])]) c124_a'.var "yes".toList)) = some (some 0) ∧
    (Evidence.build c124_a.var .observation []).relabel c124_f c124_ρ = Evidence.build c124_a'.var .observation [] := by
  refine ⟨by decide +kernel, by decide +kernel, by decide +kernel⟩

/-- the first network with other names for the values, in the same order -/
def c124_ops'' : List BOp :=
  [.addEdge ⟨c124_a.var.rename c124_ρ, c124_a.probs⟩ ⟨c124_b.var.rename c124_ρ, c124_b.probs⟩,
   .addEdge ⟨c124_c.var.rename c124_ρ, c124_c.probs⟩ ⟨c124_b.var.rename c124_ρ, c124_b.probs⟩]

/-- C124, names only: all hypotheses about the networks hold, the values have other names, and an observation that names no value is
treated alike -/
example : Net.Usable c124_ops ∧ Net.Usable c124_ops'' ∧
    (Bbn.run c124_ops'').toGraph.getNodes.Perm ((Bbn.run c124_ops).toGraph.getNodes.map (fun n => ⟨n.var.rename c124_ρ, n.probs⟩)) ∧
    (∀ n ∈ (Bbn.run c124_ops).toGraph.getNodes,
      (Bbn.run c124_ops'').parentVars n.var.id = ((Bbn.run c124_ops).parentVars n.var.id).map (Variable.rename c124_ρ)) ∧
    (c124_b.var.rename c124_ρ).values = ["l".toList, "m".toList, "h".toList] ∧
    ((apply .same .same (Bbn.run c124_ops)).val?.map (fun jt =>
      reportOf (runHist jt [(.same, .update [Evidence.build c124_a.var .observation []])]) c124_b.var "low".toList)) = some (some (4 / 9)) ∧
    ((apply .same .same (Bbn.run c124_ops'')).val?.map (fun jt =>
      reportOf (runHist jt [(.same, .update [Evidence.build (c124_a.var.rename c124_ρ) .observation []])]) (c124_b.var.rename c124_ρ) "l".toList)) =
      some (some (4 / 9)) :=
  ⟨c124_usable.1, ⟨⟨wf_of_check (by decide +kernel) (by decide +kernel), by decide +kernel⟩,
    c124_connected (by decide +kernel) (by decide +kernel) (by decide +kernel)⟩, by decide +kernel, by decide +kernel, by decide +kernel,
    by decide +kernel, by decide +kernel⟩

end PyBBN
