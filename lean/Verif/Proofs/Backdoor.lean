import Verif.Proofs.DSepProb
import Verif.Proofs.Adjust

/-!
Soundness of the back-door criterion: adjusting for a set that satisfies it gives the effect of setting a node.
-/

namespace PyBBN
open Relation DSep Do

/-! ### graphs: paths that leave `x` backwards -/

/-- the graph without the edges out of `x` -/
def DSep.Cut {V : Type} (E : V → V → Prop) (x : V) (p c : V) : Prop := E p c ∧ p ≠ x

/-- with the edges out of `x` removed, every path from `x` is blocked -/
theorem cut_blocked {V : Type} [DecidableEq V] {E : V → V → Prop} (hna : ∀ a b, E a b → ¬ E b a) {x y : V} (hxy : x ≠ y) {Z : V → Prop}
    (hv : ValidAdjustment E x y Z) {p : List V} (hp : IsPath (Cut E x) x y p) : ¬ Open (Cut E x) Z p := by
  intro ho
  have hp' : IsPath E x y p := ⟨hp.start, hp.stop, hp.chain.imp (fun {a b} h => h.imp (fun h => h.1) (fun h => h.1)), hp.simple⟩
  obtain ⟨b, l, rfl⟩ := path_cons hp hxy
  have hbx : E b x := by
    rcases (List.isChain_cons_cons.1 hp.chain).1 with h | h
    · exact absurd rfl h.2
    · exact h.1
  refine hv.2 _ hp' ⟨x, b, l, rfl, hbx⟩ ?_
  rw [open_iff] at ho ⊢
  intro t ht
  have hch := chain_trips _ hp.chain t ht
  have key : E t.1 t.2.1 ∧ E t.2.2 t.2.1 → Cut E x t.1 t.2.1 ∧ Cut E x t.2.2 t.2.1 := by
    rintro ⟨h1, h2⟩
    refine ⟨?_, ?_⟩
    · rcases hch.1 with h | h
      · exact h
      · exact absurd h.1 (hna _ _ h1)
    · rcases hch.2 with h | h
      · exact absurd h.1 (hna _ _ h2)
      · exact h
  refine ⟨fun h => ?_, fun h => (ho t ht).2 (fun k => h ⟨k.1.1, k.2.1⟩)⟩
  obtain ⟨d, h1, h2⟩ := (ho t ht).1 (key h)
  exact ⟨d, h1.lift id (fun _ _ h => h.1), h2⟩

/-! ### probabilities -/

theorem prod_filter_ite {α : Type} (p : α → Prop) [DecidablePred p] (f : α → ℚ) : ∀ l : List α,
    ((l.filter (fun n => decide (p n))).map f).prod = (l.map (fun n => if p n then f n else 1)).prod
  | [] => rfl
  | a :: l => by
      by_cases h : p a
      · rw [List.filter_cons_of_pos (by simpa using h)]
        simp [h, prod_filter_ite p f l]
      · rw [List.filter_cons_of_neg (by simpa using h)]
        simp [h, prod_filter_ite p f l]

section
variable {b : Bbn}

/-- with `Z` and `x` fixed, the joint weight with and without the CPT of `x` differ by a factor that does not see `y` -/
theorem backdoor_factor (hb : b.Proper) {n : BbnNode} (hn : n ∈ b.toGraph.getNodes) (a : Str) {y : Int} (hyn : y ∈ b.ids)
    (hxy : n.var.id ≠ y) {Z : List Variable} (hZ : ∀ z ∈ Z, z ∈ b.vars) (hyZ : y ∉ vids Z)
    (hval : ValidAdjustment b.Par n.var.id y (· ∈ vids Z)) (τ : Asg) :
    ∃ p q : ℚ, ∀ e : Str → ℚ, ∃ r : ℚ,
      ((allAsg b.vars).map (fun σ => ((if agree Z τ σ then 1 else 0) * isVal n.var.id a σ) * (e (σ y) * b.weight noEvidence σ))).sum = p * r ∧
      ((allAsg b.vars).map (fun σ => ((if agree Z τ σ then 1 else 0) * isVal n.var.id a σ) * (e (σ y) * b.others n.var.id σ))).sum = q * r := by
  classical
  set x := n.var.id with hxdef
  let E' := Cut b.Par x
  have hna : ∀ a b', b.Par a b' → ¬ b.Par b' a := fun u v h1 h2 => hb.acyclic u (TransGen.head h1 (TransGen.single h2))
  have hxZ : x ∉ vids Z := fun h => hval.1 x h .refl
  have hsep : ∀ v, ReflTransGen (Mor E' x (· = y) (· ∈ vids Z)) x v → v ≠ y := by
    intro v hv
    refine not_mor_of_blocked (Y := (· = y)) (fun u v h1 h2 => hna u v h1.1 h2.1) hxy ?_ hv
    rintro _ rfl p hp
    exact cut_blocked hna hxy hval hp
  have hRx : DSep.Rel E' x (· = y) (· ∈ vids Z) x := ⟨x, .refl, Or.inl rfl⟩
  obtain ⟨L, M, hp, hpw, hL, hM⟩ := order_split hb.inv hb.acyclic (A := DSep.Rel E' x (· = y) (· ∈ vids Z)) (by
    intro p c h1 h2
    by_cases h : p = x
    · rw [h]; exact hRx
    · exact h2.head ⟨h1, h⟩)
  let C : Int → Prop := fun v => ReflTransGen (Mor E' x (· = y) (· ∈ vids Z)) x v
  have hCx : C x := .refl
  have hCZ : ∀ v, C v → v ∉ vids Z := by
    intro v hv
    rcases ReflTransGen.cases_tail hv with h | ⟨u, _, h⟩
    · rw [h]; exact hxZ
    · exact h.2.1
  let T : BbnNode → Prop := fun m => ∃ i, (i = m.var.id ∨ E' i m.var.id) ∧ C i
  have hLn : ∀ m ∈ L, m ∈ b.toGraph.getNodes := fun m hm => hp.mem_iff.1 (List.mem_append_left _ hm)
  have hmemL : ∀ i ∈ b.ids, DSep.Rel E' x (· = y) (· ∈ vids Z) i → i ∈ L.map (fun m => m.var.id) := by
    intro i hi hr
    obtain ⟨m, hm, rfl⟩ := mem_ids.1 hi
    rcases List.mem_append.1 (hp.mem_iff.2 hm) with h | h
    · exact List.mem_map_of_mem h
    · exact absurd hr (hM m h)
  have hnd : ((L ++ M).map (fun m => m.var.id)).Nodup := (hp.map _).nodup_iff.2 (node_ids_nodup hb.inv)
  have hndL : (L.map (fun m => m.var.id)).Nodup := by
    rw [List.map_append, List.nodup_append] at hnd; exact hnd.1
  let ids : List Int := L.map (fun m => m.var.id)
  let Zs := ids.filter (fun i => decide (i ∈ vids Z ∨ i = x))
  let Xs := ids.filter (fun i => decide (C i ∧ i ≠ x))
  let Ys := ids.filter (fun i => decide (¬ C i ∧ i ∉ vids Z))
  have mZ : ∀ {i}, i ∈ Zs ↔ i ∈ ids ∧ (i ∈ vids Z ∨ i = x) := by intro i; simp [Zs, List.mem_filter]
  have mX : ∀ {i}, i ∈ Xs ↔ i ∈ ids ∧ C i ∧ i ≠ x := by intro i; simp [Xs, List.mem_filter]
  have mY : ∀ {i}, i ∈ Ys ↔ i ∈ ids ∧ ¬ C i ∧ i ∉ vids Z := by intro i; simp [Ys, List.mem_filter]
  have hxids : x ∈ ids := hmemL x (mem_ids.2 ⟨n, hn, rfl⟩) hRx
  have hyids : y ∈ ids := hmemL y hyn ⟨y, .refl, Or.inr (Or.inl rfl)⟩
  have hZids : ∀ z ∈ Z, z.id ∈ ids := by
    intro z hz
    obtain ⟨m, hm, rfl⟩ := List.mem_map.1 (hZ z hz)
    exact hmemL _ (mem_ids.2 ⟨m, hm, rfl⟩) ⟨_, .refl, Or.inr (Or.inr (List.mem_map_of_mem hz))⟩
  have hdis1 : ∀ i ∈ Xs, i ∉ Ys := fun i h1 h2 => (mY.1 h2).2.1 (mX.1 h1).2.1
  have hdis2 : ∀ i ∈ Xs, i ∉ Zs := by
    intro i h1 h2
    rcases (mZ.1 h2).2 with h | h
    · exact hCZ i (mX.1 h1).2.1 h
    · exact (mX.1 h1).2.2 h
  have hdis3 : ∀ i ∈ Ys, i ∉ Zs := by
    intro i h1 h2
    rcases (mZ.1 h2).2 with h | h
    · exact (mY.1 h1).2.2 h
    · exact (mY.1 h1).2.1 (h ▸ hCx)
  have hperm : (ids).Perm (Zs ++ (Xs ++ Ys)) := by
    refine (List.perm_ext_iff_of_nodup hndL ?_).2 ?_
    · refine List.Nodup.append (hndL.filter _) (List.Nodup.append (hndL.filter _) (hndL.filter _) ?_) ?_
      · exact fun i h1 h2 => hdis1 i h1 h2
      · intro i h1 h2
        rcases List.mem_append.1 h2 with h2 | h2
        · exact hdis2 i h2 h1
        · exact hdis3 i h2 h1
    · intro i
      rw [List.mem_append, List.mem_append, mZ, mX, mY]
      have := hCZ i
      tauto
  have hfam : ∀ m ∈ L, ∀ i, (i ∈ ddGet b.parents m.var.id ∨ i = m.var.id) → i ∈ ids := by
    rintro m hm i (h | rfl)
    · refine hmemL i (parent_mem_ids hb.inv h) ?_
      by_cases hix : i = x
      · rw [hix]; exact hRx
      · exact (hL m hm).head ⟨h, hix⟩
    · exact List.mem_map_of_mem hm
  have hdepT : ∀ m ∈ L, T m → Dep (fun i => i ∈ Xs ∨ i ∈ Zs) (b.w m) := by
    intro m hm hT
    refine (b.w_dep hb.inv m).mono ?_
    intro i hi
    obtain ⟨u, hu, hCu⟩ := hT
    by_cases hz : i ∈ vids Z ∨ i = x
    · exact Or.inr (mZ.2 ⟨hfam m hm i hi, hz⟩)
    · rw [not_or] at hz
      refine Or.inl (mX.2 ⟨hfam m hm i hi, ?_, hz.2⟩)
      refine ReflTransGen.tail hCu ⟨hCZ u hCu, hz.1, m.var.id, hL m hm, hu, ?_⟩
      rcases hi with hi | hi
      · exact Or.inr ⟨hi, hz.2⟩
      · exact Or.inl hi
  have hdepN : ∀ m ∈ L, ¬ T m → Dep (fun i => i ∈ Ys ∨ i ∈ Zs) (b.w m) := by
    intro m hm hT
    refine (b.w_dep hb.inv m).mono ?_
    intro i hi
    by_cases hz : i ∈ vids Z ∨ i = x
    · exact Or.inr (mZ.2 ⟨hfam m hm i hi, hz⟩)
    · rw [not_or] at hz
      refine Or.inl (mY.2 ⟨hfam m hm i hi, fun hc => hT ⟨i, ?_, hc⟩, hz.1⟩)
      rcases hi with hi | hi
      · exact Or.inr ⟨hi, hz.2⟩
      · exact Or.inl hi
  let F1 : Asg → ℚ := fun σ => (L.map (fun m => if T m then b.w m σ else 1)).prod
  let F2 : Asg → ℚ := fun σ => (L.map (fun m => if T m ∧ m.var.id ≠ x then b.w m σ else 1)).prod
  let G : (Str → ℚ) → Asg → ℚ := fun e σ => e (σ y) * (L.map (fun m => if T m then 1 else b.w m σ)).prod
  let H : Asg → ℚ := fun σ => (if agree Z τ σ then 1 else 0) * isVal x a σ
  have hF1 : Dep (fun i => i ∈ Xs ∨ i ∈ Zs) F1 := by
    refine Dep.listProd ?_
    intro m hm
    by_cases h : T m
    · simp only [h, if_true]; exact hdepT m hm h
    · simp only [h, if_false]; exact Dep.const 1
  have hF2 : Dep (fun i => i ∈ Xs ∨ i ∈ Zs) F2 := by
    refine Dep.listProd ?_
    intro m hm
    by_cases h : T m ∧ m.var.id ≠ x
    · simp only [if_pos h]; exact hdepT m hm h.1
    · simp only [if_neg h]; exact Dep.const 1
  have hG : ∀ e, Dep (fun i => i ∈ Ys ∨ i ∈ Zs) (G e) := by
    intro e
    refine Dep.mul ?_ (Dep.listProd ?_)
    · intro σ σ' hst
      show e (σ y) = e (σ' y)
      rw [hst y (Or.inl (mY.2 ⟨hyids, fun hc => hsep y hc rfl, hyZ⟩))]
    · intro m hm
      by_cases h : T m
      · simp only [h, if_true]; exact Dep.const 1
      · simp only [h, if_false]; exact hdepN m hm h
  have hH : Dep (fun i => i ∈ Zs) H := by
    refine Dep.mul ?_ ?_
    · intro σ σ' hst
      have : agree Z τ σ = agree Z τ σ' := by
        unfold agree
        congr 1
        apply propext
        refine forall_congr' (fun z => forall_congr' (fun hz => ?_))
        rw [hst z.id (mZ.2 ⟨hZids z hz, Or.inl (List.mem_map_of_mem hz)⟩)]
      show (if agree Z τ σ = true then (1 : ℚ) else 0) = if agree Z τ σ' = true then 1 else 0
      rw [this]
    · intro σ σ' hst
      unfold isVal
      rw [hst x (mZ.2 ⟨hxids, Or.inr rfl⟩)]
  have hτ : ∀ σ : Asg, (∀ i ∈ Zs, σ i ∈ b.dom i) → H σ ≠ 0 → ∀ i ∈ Zs, σ i = Function.update τ x a i := by
    intro σ _ h0 i hi
    have h1 : agree Z τ σ = true := by
      by_contra h; exact h0 (by simp [H, h])
    have h2 : σ x = a := by
      by_contra h; exact h0 (by simp [H, isVal, h])
    rcases (mZ.1 hi).2 with h | h
    · rw [Function.update_of_ne (fun e : i = x => hxZ (e ▸ h))]
      obtain ⟨z, hz, rfl⟩ := List.mem_map.1 h
      unfold agree at h1
      rw [decide_eq_true_eq] at h1
      exact h1 z hz
    · rw [h, Function.update_self, h2]
  have hout : ∀ S : Asg → ℚ, Dep (fun i => i ∈ Xs ∨ i ∈ Ys ∨ i ∈ Zs) S → Dep (fun i => i ∉ M.map (fun m => m.var.id)) S := by
    intro S hS
    refine hS.mono ?_
    intro i hi hm
    have hi' : i ∈ ids := by
      rcases hi with h | h | h
      · exact (mX.1 h).1
      · exact (mY.1 h).1
      · exact (mZ.1 h).1
    rw [List.map_append, List.nodup_append] at hnd
    exact hnd.2.2 i hi' i hm rfl
  have hFGH : ∀ (e : Str → ℚ) (F' : Asg → ℚ), Dep (fun i => i ∈ Xs ∨ i ∈ Zs) F' →
      ((allAsg b.vars).map (fun σ => (H σ * (F' σ * G e σ)) * (M.map (fun m => b.w m σ)).prod)).sum =
      elim b.dom Xs F' (Function.update τ x a) * (elim b.dom Ys (G e) (Function.update τ x a) * elim b.dom Zs H asg0) := by
    intro e F' hF'
    rw [sum_prefix hb.inv hb.wf hb.nonempty hb.normalized hp hpw, elim_perm hperm, elim_split hF' (hG e) hH hdis1 hdis2 hdis3 hτ]
    refine hout _ (Dep.mul (hH.mono (fun i h => Or.inr (Or.inr h))) (Dep.mul (hF'.mono ?_) ((hG e).mono ?_)))
    · rintro i (h | h)
      · exact Or.inl h
      · exact Or.inr (Or.inr h)
    · rintro i (h | h)
      · exact Or.inr (Or.inl h)
      · exact Or.inr (Or.inr h)
  refine ⟨elim b.dom Xs F1 (Function.update τ x a), elim b.dom Xs F2 (Function.update τ x a), fun e =>
    ⟨elim b.dom Ys (G e) (Function.update τ x a) * elim b.dom Zs H asg0, ?_, ?_⟩⟩
  · rw [← hFGH e F1 hF1]
    congr 1
    apply List.map_congr_left
    intro σ _
    have e1 : b.weight noEvidence σ = ((L ++ M).map (fun m => b.w m σ)).prod := by
      rw [weight_noEvidence]; exact ((hp.map _).prod_eq).symm
    have e2 : (L.map (fun m => b.w m σ)).prod = F1 σ * (L.map (fun m => if T m then 1 else b.w m σ)).prod := by
      show _ = (L.map _).prod * _
      rw [← List.prod_map_mul]
      congr 1
      apply List.map_congr_left
      intro m _
      by_cases h : T m <;> simp [h]
    rw [e1, List.map_append, List.prod_append, e2]
    show _ = (_ * (_ * (_ * _))) * _
    ring
  · rw [← hFGH e F2 hF2]
    congr 1
    apply List.map_congr_left
    intro σ _
    have e1 : b.others x σ = ((L ++ M).map (fun m => if m.var.id ≠ x then b.w m σ else 1)).prod := by
      have : b.others x σ = ((b.toGraph.getNodes.filter (fun m => decide (m.var.id ≠ x))).map (fun m => b.w m σ)).prod := rfl
      rw [this, prod_filter_ite (fun m : BbnNode => m.var.id ≠ x)]
      exact ((hp.map _).prod_eq).symm
    have e2 : (L.map (fun m => if m.var.id ≠ x then b.w m σ else 1)).prod =
        F2 σ * (L.map (fun m => if T m then 1 else b.w m σ)).prod := by
      show _ = (L.map _).prod * _
      rw [← List.prod_map_mul]
      congr 1
      apply List.map_congr_left
      intro m _
      by_cases h : T m
      · by_cases h' : m.var.id = x <;> simp [h, h']
      · have h' : m.var.id ≠ x := fun e => h ⟨x, Or.inl e.symm, hCx⟩
        simp [h, h']
    have e3 : (M.map (fun m => if m.var.id ≠ x then b.w m σ else 1)).prod = (M.map (fun m => b.w m σ)).prod := by
      congr 1
      apply List.map_congr_left
      intro m hm
      rw [if_pos]
      intro e
      exact hM m hm (e ▸ hRx)
    rw [e1, List.map_append, List.prod_append, e2, e3]
    show _ = (_ * (_ * (_ * _))) * _
    ring

/-- **back-door adjustment**: averaging the conditional probabilities given `x` and `Z` with the joint probability of `Z` gives the effect of
setting `x`, when `Z` satisfies the back-door criterion -/
theorem backdoor_adjustment (hb : b.Proper) {n : BbnNode} (hn : n ∈ b.toGraph.getNodes) {a : Str} (ha : a ∈ n.var.values)
    {y : Int} (hyn : y ∈ b.ids) (hxy : n.var.id ≠ y) {Z : List Variable} (hZn : (vids Z).Nodup) (hZ : ∀ z ∈ Z, z ∈ b.vars)
    (hyZ : y ∉ vids Z) (hval : ValidAdjustment b.Par n.var.id y (· ∈ vids Z))
    (hpos : ∀ τ ∈ allAsg Z, b.pr (agree Z τ) ≠ 0 → b.pr (fun σ => isAt n.var.id a σ && agree Z τ σ) ≠ 0) (yv : Str) :
    ((allAsg Z).map (fun τ => b.prGiven (isAt y yv) (fun σ => isAt n.var.id a σ && agree Z τ σ) * b.pr (agree Z τ))).sum =
      b.prDo n.var.id a (isAt y yv) := by
  have htot : b.weightOf (fun _ => true) = 1 := by rw [weightOf_true, total_one hb]
  have hpr : ∀ F : Asg → Bool, b.pr F = b.weightOf F := by
    intro F; unfold Bbn.pr; rw [htot, div_one]
  rw [prDo_eq, ← sum_split hb.inv hb.wf hZn hZ]
  congr 1
  apply List.map_congr_left
  intro τ hτ
  obtain ⟨p, q, hpq⟩ := backdoor_factor hb hn a hyn hxy hZ hyZ hval τ
  obtain ⟨r, h1, h2⟩ := hpq (fun u => if u = yv then 1 else 0)
  obtain ⟨s, h3, h4⟩ := hpq (fun _ => 1)
  have hdep : Dep (fun i => ¬ ReflTransGen b.Par n.var.id i) (fun σ => if agree Z τ σ then (1 : ℚ) else 0) := by
    intro σ σ' hst
    have : agree Z τ σ = agree Z τ σ' := by
      unfold agree
      congr 1
      apply propext
      refine forall_congr' (fun z => forall_congr' (fun hz => ?_))
      rw [hst z.id (hval.1 _ (List.mem_map_of_mem hz))]
    show (if agree Z τ σ = true then (1 : ℚ) else 0) = if agree Z τ σ' = true then 1 else 0
    rw [this]
  have hoth := sum_others hb hn ha hdep
  have e1 : b.weightOf (agree Z τ) = ((allAsg b.vars).map (fun σ => (if agree Z τ σ then (1 : ℚ) else 0) * b.weight noEvidence σ)).sum :=
    weightOf_eq _
  have k1 : b.weightOf (fun σ => isAt y yv σ && (isAt n.var.id a σ && agree Z τ σ)) = p * r := by
    rw [weightOf_eq, ← h1]
    congr 1
    apply List.map_congr_left
    intro σ _
    unfold isAt isVal
    by_cases g1 : σ n.var.id = a <;> by_cases g2 : agree Z τ σ = true <;> by_cases g3 : σ y = yv <;> simp [g1, g2, g3]
  have k3 : b.weightOf (fun σ => isAt n.var.id a σ && agree Z τ σ) = p * s := by
    rw [weightOf_eq, ← h3]
    congr 1
    apply List.map_congr_left
    intro σ _
    unfold isAt isVal
    by_cases g1 : σ n.var.id = a <;> by_cases g2 : agree Z τ σ = true <;> simp [g1, g2]
  have k4 : b.weightOf (agree Z τ) = q * s := by
    rw [e1, ← hoth, ← h4]
    congr 1
    apply List.map_congr_left
    intro σ _
    rw [one_mul]
  have k2 : ((allAsg b.vars).map (fun σ => (if agree Z τ σ then (1 : ℚ) else 0) *
        ((if isAt y yv σ then 1 else 0) * isVal n.var.id a σ * b.others n.var.id σ))).sum = q * r := by
    rw [← h2]
    congr 1
    apply List.map_congr_left
    intro σ _
    unfold isAt
    by_cases g3 : σ y = yv <;> simp [g3]
  rw [prGiven_eq hb.wf, hpr, k1, k3, k4, k2]
  by_cases h0 : q * s = 0
  · rw [h0, mul_zero]
    symm
    have hle : q * r ≤ q * s := by
      rw [← h2, ← h4]
      apply List.sum_le_sum
      intro σ _
      have h1 := others_nonneg hb.wf n.var.id σ
      unfold isVal
      by_cases h2 : agree Z τ σ = true <;> by_cases h3 : σ y = yv <;> by_cases h4 : σ n.var.id = a <;> simp [h2, h3, h4, h1]
    refine le_antisymm (h0 ▸ hle) ?_
    rw [← h2]
    apply List.sum_nonneg
    intro z hz
    obtain ⟨σ, _, rfl⟩ := List.mem_map.1 hz
    have h1 := others_nonneg hb.wf n.var.id σ
    unfold isVal
    by_cases h2 : agree Z τ σ = true <;> by_cases h3 : σ y = yv <;> by_cases h4 : σ n.var.id = a <;> simp [h2, h3, h4, h1]
  · have hps : p * s ≠ 0 := by
      have := hpos τ hτ (by rw [hpr, k4]; exact h0)
      rwa [hpr, k3] at this
    have hp0 : p ≠ 0 := left_ne_zero_of_mul hps
    have hs0 : s ≠ 0 := right_ne_zero_of_mul hps
    rw [mul_div_mul_left _ _ hp0, mul_comm q s, ← mul_assoc, div_mul_cancel₀ _ hs0, mul_comm]

end
end PyBBN
