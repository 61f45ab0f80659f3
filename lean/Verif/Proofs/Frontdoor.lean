import Verif.Props.Surgery
import Verif.Props.Ancestral
import Verif.Props.Backdoor
import Verif.Proofs.RowOrder

/-! # Front-door adjustment: helper lemmas (C119) -/

namespace PyBBN
open Relation InferenceController DSep

/-- a CPT that makes `a` certain -/
def point (x : Variable) (a : Str) : List ℚ := x.values.map (fun v => if v = a then 1 else 0)

theorem point_getD {x : Variable} {a : Str} (ha : a ∈ x.values) (u : Str) : (point x a).getD (x.values.idxOf u) 0 = if u = a then 1 else 0 := by
  unfold point
  by_cases hu : u ∈ x.values
  · have hl := List.idxOf_lt_length_of_mem hu
    rw [List.getD_eq_getElem?_getD, List.getElem?_map, List.getElem?_eq_getElem hl]
    simp
  · rw [List.getD_eq_getElem?_getD, List.getElem?_map, List.idxOf_eq_length hu, List.getElem?_eq_none le_rfl, if_neg (fun e : u = a => hu (e ▸ ha))]
    rfl

theorem point_sum {x : Variable} {a : Str} (ha : a ∈ x.values) (hnd : x.values.Nodup) : (point x a).sum = 1 := by
  unfold point
  have : ∀ l : List Str, l.Nodup → (l.map (fun v => if v = a then (1 : ℚ) else 0)).sum = if a ∈ l then 1 else 0 := by
    intro l hl
    induction l with
    | nil => simp
    | cons b l ih =>
      rw [List.nodup_cons] at hl
      rw [List.map_cons, List.sum_cons, ih hl.2]
      by_cases e : b = a
      · subst e; simp [hl.1]
      · have : a ≠ b := fun h => e h.symm
        simp [e, this]
  rw [this _ hnd, if_pos ha]

section
variable {ops : List BOp} {x : Variable} {a : Str}

theorem cut_acyclic (hac : AcyclicOps ops) (i : Int) (prior : List ℚ) : AcyclicOps (cutOps i prior ops) := by
  refine acyclic_mono hac ?_
  intro p c h
  rw [cut_edges] at h
  exact (List.mem_filter.1 h).1

theorem cut_par (i : Int) (prior : List ℚ) (p c : Int) : (Bbn.run (cutOps i prior ops)).Par p c ↔ (Bbn.run ops).Par p c ∧ c ≠ i := by
  rw [par_iff, par_iff, cut_edges, List.mem_filter, decide_eq_true_eq]

theorem point_cut_sane (hs : Net.Sane ops) (hx : x ∈ (Bbn.run ops).vars) (a : Str) : Net.Sane (cutOps x.id (point x a) ops) :=
  cut_sane hs hx (by unfold point; simp) (by
    intro p hp
    obtain ⟨u, _, rfl⟩ := List.mem_map.1 hp
    split <;> norm_num)

theorem cut_normalized (hs : Net.Sane ops) (hn : (Bbn.run ops).Normalized (Bbn.run ops).parentVars) (hx : x ∈ (Bbn.run ops).vars)
    (ha : a ∈ x.values) :
    (Bbn.run (cutOps x.id (point x a) ops)).Normalized (Bbn.run (cutOps x.id (point x a) ops)).parentVars := by
  intro n hnn σ hσ
  obtain ⟨m, hm, rfl⟩ := List.mem_map.1 (cut_getNodes.mem_iff.1 hnn)
  rw [withPrior_var]
  by_cases e : m.var.id = x.id
  · have e' : m.var = x := List.inj_on_of_nodup_map (vars_nodup (bbn_run_inv ops)) (List.mem_map_of_mem hm) hx e
    rw [withPrior_eq e, e', cut_parentVars_self]
    have hv : x.values.Nodup := e' ▸ hs.wf.values m hm
    have e2 : cptRow (point x a) [] x σ = point x a := by
      unfold cptRow rowIdx
      refine List.ext_getElem (by simp [point]) ?_
      intro i h1 h2
      rw [List.getElem_map, List.getElem_range, List.foldl_nil, Nat.zero_mul, Nat.zero_add, List.getD_eq_getElem?_getD, List.getElem?_eq_getElem h2]
      rfl
    rw [e2, point_sum ha hv]
  · rw [withPrior_ne e, cut_parentVars_ne e]
    exact hn m hm σ (fun v hv => hσ v (cut_vars.mem_iff.2 hv))

theorem cut_proper (hs : Net.Sane ops) (hac : AcyclicOps ops) (hn : (Bbn.run ops).Normalized (Bbn.run ops).parentVars)
    (hx : x ∈ (Bbn.run ops).vars) (ha : a ∈ x.values) : (Bbn.run (cutOps x.id (point x a) ops)).Proper :=
  proper_of (point_cut_sane hs hx a) (cut_acyclic hac _ _) (cut_normalized hs hn hx ha)

theorem pr_weightOf {b : Bbn} (hb : b.Proper) (E : Asg → Bool) : b.pr E = b.weightOf E := by
  unfold Bbn.pr; rw [weightOf_true, total_one hb, div_one]

/-- setting a node, as a network -/
theorem cut_pr (hs : Net.Sane ops) (hac : AcyclicOps ops) (hn : (Bbn.run ops).Normalized (Bbn.run ops).parentVars)
    (hx : x ∈ (Bbn.run ops).vars) (ha : a ∈ x.values) (E : Asg → Bool) :
    (Bbn.run (cutOps x.id (point x a) ops)).pr E = (Bbn.run ops).prDo x.id a E := by
  rw [pr_weightOf (cut_proper hs hac hn hx ha), weightOf_eq, prDo_eq, sum_allAsg_perm (vars_nodup (bbn_run_inv _)) cut_vars]
  refine congrArg List.sum (List.map_congr_left ?_)
  intro σ _
  rw [cut_weight hx, point_getD ha, weightDo_noEvidence]
  unfold isVal noEvidence
  ring

end

theorem parentVars_par {b : Bbn} (h : BbnInv b) {c : Int} {p : Variable} (hp : p ∈ b.parentVars c) : b.Par p.id c := by
  unfold Bbn.Par
  rw [← vids_parentVars h]
  exact List.mem_map_of_mem hp

theorem rows_of_normalized {b : Bbn} (hb : b.Proper) {n : BbnNode} (hn : n ∈ b.toGraph.getNodes) : RowsSumToOne (b.parentVars n.var.id) n := by
  intro k hk
  obtain ⟨σ₀, h0⟩ := inDom_exists hb.nonempty hb.inv
  have hsub := parentVars_sub hb.inv n.var.id
  have hval : ∀ v ∈ b.vars, v.values.Nodup := by
    intro v hv
    obtain ⟨m, hm, rfl⟩ := List.mem_map.1 hv
    exact hb.wf.values m hm
  obtain ⟨σ, h1, h2, h3⟩ := rowIdx_surj (ns := b.parentVars n.var.id) (by rw [vids_parentVars hb.inv]; exact hb.inv.parNodup _)
    (fun v hv => hval v (hsub v hv)) hk σ₀
  have hd : InDom b.vars σ := by
    intro v hv
    by_cases hm : v.id ∈ vids (b.parentVars n.var.id)
    · obtain ⟨w, hw, e⟩ := List.mem_map.1 hm
      have : w = v := List.inj_on_of_nodup_map (vars_nodup hb.inv) (hsub w hw) hv e
      exact this ▸ h1 w hw
    · rw [h3 _ hm]; exact h0 v hv
  have := hb.normalized n hn σ hd
  unfold cptRow at this
  rwa [h2] at this

/-- leaving out edges keeps back-door sets valid -/
theorem ValidAdjustment.sub {V : Type} {E E' : V → V → Prop} (hna : ∀ a b, E a b → ¬ E b a) (hsub : ∀ a b, E' a b → E a b) {x y : V} {Z : V → Prop}
    (h : ValidAdjustment E x y Z) : ValidAdjustment E' x y Z := by
  refine ⟨fun n hn hr => h.1 n hn (ReflTransGen.mono hsub _ _ hr), ?_⟩
  intro p hp hb ho
  have hp' : IsPath E x y p := ⟨hp.start, hp.stop, hp.chain.imp (fun {a b} h => h.imp (hsub _ _) (hsub _ _)), hp.simple⟩
  have hb' : Backdoor E p := by
    obtain ⟨a, b, l, e, hab⟩ := hb
    exact ⟨a, b, l, e, hsub _ _ hab⟩
  refine h.2 p hp' hb' ?_
  intro i hi c hc
  have hadj : ∀ j u v, p[j]? = some u → p[j+1]? = some v → Adj E' u v := by
    intro j u v hu hv
    obtain ⟨h1, e1⟩ := List.getElem?_eq_some_iff.1 hu
    obtain ⟨h2, e2⟩ := List.getElem?_eq_some_iff.1 hv
    have := List.isChain_iff_getElem.1 hp.chain j h2
    rwa [e1, e2] at this
  have hcol : Collider E p i ↔ Collider E' p i := by
    constructor
    · rintro ⟨u, d, v, h1, h2, h3, h4, h5⟩
      refine ⟨u, d, v, h1, h2, h3, ?_, ?_⟩
      · have h6 := hadj (i-1) u d h1 (by rw [Nat.sub_add_cancel hi.1]; exact h2)
        rcases h6 with h6 | h6
        · exact h6
        · exact absurd (hsub _ _ h6) (hna _ _ h4)
      · have h6 := hadj i d v h2 h3
        rcases h6 with h6 | h6
        · exact absurd (hsub _ _ h6) (hna _ _ h5)
        · exact h6
    · rintro ⟨u, d, v, h1, h2, h3, h4, h5⟩
      exact ⟨u, d, v, h1, h2, h3, hsub _ _ h4, hsub _ _ h5⟩
  obtain ⟨h1, h2⟩ := ho i hi c hc
  refine ⟨fun hk => ?_, fun hk => h2 (fun h3 => hk (hcol.2 h3))⟩
  obtain ⟨d, hd, hz⟩ := h1 (hcol.1 hk)
  exact ⟨d, ReflTransGen.mono hsub _ _ hd, hz⟩

section
variable {ops : List BOp} {x m : Variable} {a c : Str} {y : Int}

/-- what happens to `x` does not matter for `y` when `m` is set and every directed path from `x` to `y` leads through `m` -/
theorem set_both (hs : Net.Sane ops) (hac : AcyclicOps ops) (hn : (Bbn.run ops).Normalized (Bbn.run ops).parentVars)
    (hx : x ∈ (Bbn.run ops).vars) (hm : m ∈ (Bbn.run ops).vars) (ha : a ∈ x.values) (hc : c ∈ m.values)
    (hdir : ¬ ReflTransGen (fun p q => (Bbn.run ops).Par p q ∧ q ≠ m.id) x.id y) (yv : Str) :
    (Bbn.run (cutOps x.id (point x a) ops)).prDo m.id c (isAt y yv) = (Bbn.run ops).prDo m.id c (isAt y yv) := by
  have hs1 := point_cut_sane hs hx a
  have hac1 := cut_acyclic hac x.id (point x a)
  have hn1 := cut_normalized hs hn hx ha
  have hm1 : m ∈ (Bbn.run (cutOps x.id (point x a) ops)).vars := cut_vars.mem_iff.2 hm
  have p1 := cut_proper hs1 hac1 hn1 hm1 hc
  have p2 := cut_proper hs hac hn hm hc
  rw [← cut_pr hs1 hac1 hn1 hm1 hc, ← cut_pr hs hac hn hm hc]
  have hpost : ∀ {b : Bbn}, b.pr (isAt y yv) = b.posterior noEvidence y yv := by
    intro b
    unfold Bbn.pr Bbn.posterior
    rw [weightOf_true]
    rfl
  rw [hpost, hpost]
  let A : Int → Prop := fun i => ReflTransGen (fun p q => (Bbn.run ops).Par p q ∧ q ≠ m.id) i y
  have hAx : ∀ {i}, A i → i ≠ x.id := fun h e => hdir (e ▸ h)
  have hrows : ∀ {b : Bbn}, b.Proper → ProperOutside A b := by
    intro b hb
    refine ⟨?_, acyclic_mono hb.acyclic (fun p c h => h.1)⟩
    intro n hn _
    exact rows_of_normalized hb hn
  refine AgreeOn.posterior (A := A) ?_ p2.inv p1.inv p2.wf p1.wf p2.nonempty p1.nonempty (hrows p2) (hrows p1) (fun _ _ _ _ => rfl) (fun _ _ _ _ => rfl)
    (fun _ _ _ _ _ => rfl) (ReflTransGen.refl) yv
  refine ⟨?_, ?_, ?_⟩
  · intro n hA
    have hne := hAx hA
    rw [cut_getNodes.mem_iff, cut_getNodes.mem_iff, List.mem_map, List.mem_map]
    constructor
    · rintro ⟨k, hk, rfl⟩
      rw [withPrior_var] at hne
      exact ⟨k, cut_getNodes.mem_iff.2 (List.mem_map.2 ⟨k, hk, withPrior_ne hne⟩), rfl⟩
    · rintro ⟨k, hk, rfl⟩
      rw [withPrior_var] at hne
      obtain ⟨j, hj, rfl⟩ := List.mem_map.1 (cut_getNodes.mem_iff.1 hk)
      rw [withPrior_var] at hne
      rw [withPrior_ne hne]
      exact ⟨j, hj, rfl⟩
  · intro n _ hA
    by_cases e : n.var.id = m.id
    · rw [e, cut_parentVars_self, cut_parentVars_self]
    · rw [cut_parentVars_ne e, cut_parentVars_ne e, cut_parentVars_ne (hAx hA)]
  · intro n hnn hA p hp
    by_cases e : n.var.id = m.id
    · rw [e, cut_parentVars_self] at hp; simp at hp
    · rw [cut_parentVars_ne e] at hp
      have : (Bbn.run ops).Par p.id n.var.id := parentVars_par (bbn_run_inv ops) hp
      exact ReflTransGen.head ⟨this, e⟩ hA


theorem sum_pick {l : List Str} (hl : l.Nodup) {a : Str} (ha : a ∈ l) (f : Str → ℚ) : (l.map (fun u => if u = a then f u else 0)).sum = f a := by
  induction l with
  | nil => simp at ha
  | cons b l ih =>
    rw [List.nodup_cons] at hl
    rw [List.map_cons, List.sum_cons]
    by_cases e : b = a
    · subst e
      have : (l.map (fun u => if u = b then f u else 0)) = l.map (fun _ => (0 : ℚ)) := by
        refine List.map_congr_left ?_
        intro u hu
        rw [if_neg]
        rintro rfl
        exact hl.1 hu
      rw [this]
      simp
    · rw [if_neg e, zero_add]
      exact ih hl.2 ((List.mem_cons.1 ha).resolve_left (fun h => e h.symm))

/-- a network in which `x` is certainly `a` -/
theorem prDo_and_self {b : Bbn} (x : Variable) (a : Str) (E : Asg → Bool) (τ : Asg) :
    b.prDo x.id a (fun σ => E σ && agree [x] τ σ) = if τ x.id = a then b.prDo x.id a E else 0 := by
  rw [prDo_eq]
  by_cases h : τ x.id = a
  · rw [if_pos h, prDo_eq]
    refine congrArg List.sum (List.map_congr_left ?_)
    intro σ _
    unfold isVal agree
    by_cases h1 : σ x.id = a
    · simp [h1, h]
    · simp [h1]
  · rw [if_neg h]
    refine (congrArg List.sum (List.map_congr_left (g := fun _ => (0 : ℚ)) ?_)).trans (by simp)
    intro σ _
    unfold isVal agree
    by_cases h1 : σ x.id = a
    · have : ¬ a = τ x.id := fun e => h e.symm
      simp [h1, this]
    · simp [h1]

theorem prDo_true (hs : Net.Sane ops) (hac : AcyclicOps ops) (hn : (Bbn.run ops).Normalized (Bbn.run ops).parentVars)
    (hx : x ∈ (Bbn.run ops).vars) (ha : a ∈ x.values) : (Bbn.run ops).prDo x.id a (fun _ => true) = 1 := by
  rw [← cut_pr hs hac hn hx ha, pr_weightOf (cut_proper hs hac hn hx ha), weightOf_true, total_one (cut_proper hs hac hn hx ha)]

/-- the effect of `x` on `y` goes through `m` -/
theorem mediated (hs : Net.Sane ops) (hac : AcyclicOps ops) (hn : (Bbn.run ops).Normalized (Bbn.run ops).parentVars)
    (hx : x ∈ (Bbn.run ops).vars) (hm : m ∈ (Bbn.run ops).vars) (hy : y ∈ (Bbn.run ops).ids) (hxy : x.id ≠ y) (hmy : m.id ≠ y)
    (ha : a ∈ x.values) (hdir : ¬ ReflTransGen (fun p q => (Bbn.run ops).Par p q ∧ q ≠ m.id) x.id y)
    (hval : ValidAdjustment (Bbn.run ops).Par m.id y (· ∈ vids [x])) (yv : Str) :
    (Bbn.run ops).prDo x.id a (isAt y yv) =
      (m.values.map (fun c => (Bbn.run ops).prDo x.id a (isAt m.id c) * (Bbn.run ops).prDo m.id c (isAt y yv))).sum := by
  have hi := bbn_run_inv ops
  have hb := cut_proper hs hac hn hx ha
  have hpr := cut_pr hs hac hn hx ha
  have hval' : ∀ v ∈ (Bbn.run ops).vars, v.values.Nodup := by
    intro v hv
    obtain ⟨k, hk, rfl⟩ := List.mem_map.1 hv
    exact hs.wf.values k hk
  have hm' : m ∈ (Bbn.run (cutOps x.id (point x a) ops)).vars := cut_vars.mem_iff.2 hm
  obtain ⟨k, hk, ek⟩ := List.mem_map.1 hm'
  have hy' : y ∈ (Bbn.run (cutOps x.id (point x a) ops)).ids := by
    obtain ⟨n, hnn, e⟩ := mem_ids.1 hy
    exact mem_ids.2 ⟨_, cut_getNodes.mem_iff.2 (List.mem_map_of_mem hnn), by rw [withPrior_var]; exact e⟩
  have hacy : Acyclic (Bbn.run ops).Par := (proper_of hs hac hn).acyclic
  have hv' : ValidAdjustment (Bbn.run (cutOps x.id (point x a) ops)).Par k.var.id y (· ∈ vids [x]) := by
    rw [ek]
    exact ValidAdjustment.sub (fun p q h1 h2 => hacy p (TransGen.head h1 (TransGen.single h2))) (fun p q h => ((cut_par _ _ p q).1 h).1) hval
  have key : ∀ c ∈ m.values, (Bbn.run ops).prDo x.id a (fun σ => isAt y yv σ && isAt m.id c σ) =
      (Bbn.run ops).prDo x.id a (isAt m.id c) * (Bbn.run ops).prDo m.id c (isAt y yv) := by
    intro c hc
    by_cases h0 : (Bbn.run ops).prDo x.id a (isAt m.id c) = 0
    · rw [h0, zero_mul, ← hpr, pr_weightOf hb]
      refine le_antisymm ?_ (weightOf_nonneg hb.wf _)
      rw [← h0, ← hpr, pr_weightOf hb]
      exact weightOf_mono hb.wf (fun σ h => by simp only [Bool.and_eq_true] at h; exact h.2)
    · have hadj := backdoor_adjustment hb hk (a := c) (by rw [ek]; exact hc) hy' (by rw [ek]; exact hmy) (Z := [x]) (by simp [vids])
        (by simpa using cut_vars.mem_iff.2 hx) (by simpa [vids] using fun e => hxy e.symm) hv' (by
          intro τ _ h1
          rw [hpr] at h1 ⊢
          have e1 := prDo_and_self (b := Bbn.run ops) x a (fun _ => true) τ
          simp only [Bool.true_and] at e1
          rw [show (Bbn.run ops).prDo x.id a (agree [x] τ) = _ from e1] at h1
          rw [prDo_and_self, ek]
          by_cases e : τ x.id = a
          · rw [if_pos e]; exact h0
          · rw [if_neg e] at h1; exact absurd rfl h1) yv
      rw [ek, set_both hs hac hn hx hm ha hc hdir] at hadj
      have e2 : ((allAsg [x]).map (fun τ => (Bbn.run (cutOps x.id (point x a) ops)).prGiven (isAt y yv) (fun σ => isAt m.id c σ && agree [x] τ σ) *
          (Bbn.run (cutOps x.id (point x a) ops)).pr (agree [x] τ))).sum =
          (Bbn.run ops).prDo x.id a (fun σ => isAt y yv σ && isAt m.id c σ) / (Bbn.run ops).prDo x.id a (isAt m.id c) := by
        have e3 : ∀ τ, (Bbn.run (cutOps x.id (point x a) ops)).prGiven (isAt y yv) (fun σ => isAt m.id c σ && agree [x] τ σ) *
            (Bbn.run (cutOps x.id (point x a) ops)).pr (agree [x] τ) =
            if τ x.id = a then (Bbn.run ops).prDo x.id a (fun σ => isAt y yv σ && isAt m.id c σ) / (Bbn.run ops).prDo x.id a (isAt m.id c) else 0 := by
          intro τ
          have e1 := prDo_and_self (b := Bbn.run ops) x a (fun _ => true) τ
          simp only [Bool.true_and] at e1
          rw [hpr, show (Bbn.run ops).prDo x.id a (agree [x] τ) = _ from e1]
          by_cases e : τ x.id = a
          · rw [if_pos e, if_pos e, prDo_true hs hac hn hx ha, mul_one]
            unfold Bbn.prGiven
            rw [hpr, hpr, prDo_and_self, if_pos e]
            simp only [← Bool.and_assoc]
            rw [prDo_and_self x a (fun σ => isAt y yv σ && isAt m.id c σ), if_pos e]
          · rw [if_neg e, if_neg e, mul_zero]
        simp only [e3]
        have e4 : allAsg [x] = x.values.map (fun u => Function.update (fun _ => []) x.id u) := by
          simp [allAsg, List.flatMap_singleton']
          rw [List.flatMap_def]
          induction x.values with
          | nil => rfl
          | cons u l ih => simp [ih]
        rw [e4, List.map_map]
        simp only [Function.comp_def, Function.update_self]
        exact sum_pick (hval' x hx) ha (fun _ => _)
      rw [e2] at hadj
      rw [← hadj, mul_div_cancel₀ _ h0]
  rw [← List.map_congr_left key]
  simp only [prDo_eq]
  rw [sum_comm_list]
  refine congrArg List.sum (List.map_congr_left ?_)
  intro σ hσ
  have hd := allAsg_mem_dom _ (vars_nodup hi) σ hσ m hm
  have : ∀ c, (if (isAt y yv σ && isAt m.id c σ) = true then (1 : ℚ) else 0) * isVal x.id a σ * (Bbn.run ops).others x.id σ =
      if c = σ m.id then (if isAt y yv σ = true then (1 : ℚ) else 0) * isVal x.id a σ * (Bbn.run ops).others x.id σ else 0 := by
    intro c
    unfold isAt
    by_cases h1 : c = σ m.id
    · subst h1; simp
    · have : ¬ σ m.id = c := fun e => h1 e.symm
      simp [h1, this]
  simp only [this]
  exact (sum_pick (hval' m hm) hd (fun _ => _)).symm

/-- a directed walk that never enters `m` gives a directed path that avoids `m` -/
theorem avoiding_path {E : Int → Int → Prop} (hac : Acyclic E) {x y m : Int} (hxm : x ≠ m) (h : ReflTransGen (fun p q => E p q ∧ q ≠ m) x y) :
    ∃ p, IsPath E x y p ∧ p.IsChain E ∧ m ∉ p := by
  induction h using ReflTransGen.head_induction_on with
  | refl => exact ⟨[y], ⟨rfl, rfl, List.isChain_singleton _, by simp⟩, List.isChain_singleton _, by simpa using fun e => hxm e.symm⟩
  | head h1 h2 ih =>
    rename_i u v
    obtain ⟨p, hp, hch, hmp⟩ := ih h1.2
    obtain ⟨l, rfl⟩ : ∃ l, p = v :: l := by
      cases p with
      | nil => have := hp.start; simp at this
      | cons w l => have := hp.start; simp at this; exact ⟨l, by rw [this]⟩
    have hreach : ∀ w ∈ v :: l, ReflTransGen E v w := by
      have : ∀ (l : List Int) (v : Int), (v :: l).IsChain E → ∀ w ∈ v :: l, ReflTransGen E v w := by
        intro l
        induction l with
        | nil => intro v _ w hw; simp at hw; subst hw; exact .refl
        | cons z l ih =>
          intro v hc w hw
          rw [List.isChain_cons_cons] at hc
          rcases List.mem_cons.1 hw with rfl | hw
          · exact .refl
          · exact ReflTransGen.head hc.1 (ih z hc.2 w hw)
      exact this l v hch
    have hu : u ∉ v :: l := fun hu => hac u (TransGen.head' h1.1 (hreach u hu))
    have hchain : (u :: v :: l).IsChain E := List.isChain_cons_cons.2 ⟨h1.1, hch⟩
    refine ⟨u :: v :: l, ⟨rfl, ?_, hchain.imp (fun {a b} h => Or.inl h), List.nodup_cons.2 ⟨hu, hp.simple⟩⟩, hchain, ?_⟩
    · have := hp.stop; rw [List.getLast?_cons_cons]; exact this
    · intro hmem
      rcases List.mem_cons.1 hmem with e | e
      · exact hxm e.symm
      · exact hmp e

end

end PyBBN
