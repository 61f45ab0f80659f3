import Verif.Proofs.Markov
import Verif.Props.EvidenceOps
import Verif.Model.Ace
import Verif.Spec.Causal

/-! `Ace.get_ace`: what the loops compute. -/

namespace PyBBN
open Relation InferenceController

/-! ### probabilities of events -/

section
variable {b : Bbn}

theorem weightOf_eq (E : Asg → Bool) :
    b.weightOf E = ((allAsg b.vars).map (fun σ => (if E σ then 1 else 0) * b.weight noEvidence σ)).sum := by
  unfold Bbn.weightOf
  rw [sum_filter_map]
  congr 1
  apply List.map_congr_left
  intro σ _
  by_cases h : E σ = true <;> simp [h]

theorem weightOf_nonneg (wf : b.WF) (E : Asg → Bool) : 0 ≤ b.weightOf E := by
  apply List.sum_nonneg
  intro x hx
  obtain ⟨σ, _, rfl⟩ := List.mem_map.1 hx
  exact weight_noEvidence_nonneg wf σ

theorem weightOf_mono (wf : b.WF) {E F : Asg → Bool} (h : ∀ σ, E σ = true → F σ = true) : b.weightOf E ≤ b.weightOf F := by
  rw [weightOf_eq, weightOf_eq]
  apply List.sum_le_sum
  intro σ _
  refine mul_le_mul_of_nonneg_right ?_ (weight_noEvidence_nonneg wf σ)
  by_cases h1 : E σ = true
  · simp [h1, h σ h1]
  · by_cases h2 : F σ = true <;> simp [h1, h2]

theorem weightOf_true : b.weightOf (fun _ => true) = b.total noEvidence := by
  unfold Bbn.weightOf Bbn.total
  rw [List.filter_eq_self.2 (fun _ _ => rfl)]

theorem prGiven_eq (wf : b.WF) (E F : Asg → Bool) :
    b.prGiven E F = b.weightOf (fun σ => E σ && F σ) / b.weightOf F := by
  unfold Bbn.prGiven Bbn.pr
  by_cases h : b.weightOf (fun _ => true) = 0
  · have h1 : b.weightOf F = 0 :=
      le_antisymm (h ▸ weightOf_mono wf (fun _ _ => rfl)) (weightOf_nonneg wf F)
    rw [h1, h]; simp
  · exact div_div_div_cancel_right₀ h _ _

/-- likelihoods that observe the nodes `ns` at the values of `τ` -/
def pinned (ns : List Variable) (τ : Asg) : Liks := fun i u => if i ∈ vids ns then (if u = τ i then 1 else 0) else 1

theorem weight_congr {ℓ ℓ' : Liks} (h : ∀ v ∈ b.vars, ∀ x ∈ v.values, ℓ v.id x = ℓ' v.id x) {σ : Asg} (hσ : InDom b.vars σ) :
    b.weight ℓ σ = b.weight ℓ' σ := by
  unfold Bbn.weight
  congr 1
  apply List.map_congr_left
  intro n hn
  have hv : n.var ∈ b.vars := List.mem_map_of_mem hn
  rw [h n.var hv _ (hσ n.var hv)]

theorem posterior_congr (hinv : BbnInv b) {ℓ ℓ' : Liks} (h : ∀ v ∈ b.vars, ∀ x ∈ v.values, ℓ v.id x = ℓ' v.id x) (i : Int) (x : Str) :
    b.posterior ℓ i x = b.posterior ℓ' i x := by
  have hd : ∀ σ ∈ allAsg b.vars, b.weight ℓ σ = b.weight ℓ' σ :=
    fun σ hσ => weight_congr h (allAsg_mem_dom b.vars (vars_nodup hinv) σ hσ)
  unfold Bbn.posterior Bbn.mass Bbn.total
  rw [List.map_congr_left hd, List.map_congr_left (fun σ hσ => hd σ (List.mem_filter.1 hσ).1)]

theorem weight_pinned {ns : List Variable} (hns : ∀ v ∈ ns, v ∈ b.vars) (τ σ : Asg) :
    b.weight (pinned ns τ) σ = (if agree ns τ σ then 1 else 0) * b.weight noEvidence σ := by
  have hmul : ∀ (l : List BbnNode) (f g : BbnNode → ℚ), (l.map (fun n => f n * g n)).prod = (l.map f).prod * (l.map g).prod := by
    intro l f g
    induction l with
    | nil => simp
    | cons a l ih => simp only [List.map_cons, List.prod_cons, ih]; ring
  unfold Bbn.weight
  rw [hmul, hmul]
  have h1 : (b.toGraph.getNodes.map (fun n => noEvidence n.var.id (σ n.var.id))).prod = 1 := by
    apply List.prod_eq_one
    intro x hx
    obtain ⟨n, _, rfl⟩ := List.mem_map.1 hx
    rfl
  have h2 : (b.toGraph.getNodes.map (fun n => pinned ns τ n.var.id (σ n.var.id))).prod = if agree ns τ σ then 1 else 0 := by
    by_cases h : agree ns τ σ = true
    · rw [if_pos h]
      unfold agree at h
      rw [decide_eq_true_eq] at h
      apply List.prod_eq_one
      intro x hx
      obtain ⟨n, _, rfl⟩ := List.mem_map.1 hx
      unfold pinned
      by_cases hm : n.var.id ∈ vids ns
      · obtain ⟨v, hv, e⟩ := List.mem_map.1 hm
        rw [if_pos hm, ← e, if_pos (h v hv)]
      · rw [if_neg hm]
    · rw [if_neg h]
      unfold agree at h
      rw [decide_eq_true_eq] at h
      push Not at h
      obtain ⟨v, hv, hne⟩ := h
      obtain ⟨n, hn, e⟩ := List.mem_map.1 (hns v hv)
      apply List.prod_eq_zero
      refine List.mem_map.2 ⟨n, hn, ?_⟩
      unfold pinned
      rw [e, if_pos (List.mem_map_of_mem hv), if_neg hne]
  rw [h1, h2]; ring

theorem posterior_pinned (wf : b.WF) {ns : List Variable} (hns : ∀ v ∈ ns, v ∈ b.vars) (τ : Asg) (i : Int) (x : Str) :
    b.posterior (pinned ns τ) i x = b.prGiven (isAt i x) (agree ns τ) := by
  rw [prGiven_eq wf]
  unfold Bbn.posterior
  congr 1
  · unfold Bbn.mass
    rw [sum_filter_map, weightOf_eq]
    congr 1
    apply List.map_congr_left
    intro σ _
    rw [weight_pinned hns]
    unfold isAt
    by_cases h1 : σ i = x <;> by_cases h2 : agree ns τ σ = true <;> simp [h1, h2]
  · unfold Bbn.total
    rw [weightOf_eq]
    congr 1
    apply List.map_congr_left
    intro σ _
    rw [weight_pinned hns]

theorem posterior_prior (i : Int) (x : Str) : b.posterior noEvidence i x = b.pr (isAt i x) := by
  unfold Bbn.posterior Bbn.pr
  rw [weightOf_true]
  rfl

end

/-! ### the operations on the join tree -/

/-- evidence that observes a node at `x` (before or after validation) -/
structure ObsAt (vars : List Variable) (v : Variable) (x : Str) (e : Evidence) : Prop where
  proper : e.Proper vars
  node : e.node = v
  canon : ∀ u ∈ v.values, e.canon u = if u = x then 1 else 0

theorem ObsAt.ok {vars : List Variable} {v : Variable} {x : Str} {e : Evidence} (h : ObsAt vars v x e) :
    e.Proper vars ∧ Unambiguous e.node.values e.canon := by
  refine ⟨h.proper, ?_⟩
  intro a ha h1 _ c hc hca
  rw [h.node] at ha hc
  rw [h.canon a ha] at h1
  rw [h.canon c hc]
  by_cases e1 : a = x
  · subst e1; rw [if_neg hca]
  · rw [if_neg e1] at h1; norm_num at h1

theorem ObsAt.validate {vars : List Variable} {v : Variable} {x : Str} {e : Evidence} (h : ObsAt vars v x e) (hd : DomsOk vars) :
    ∃ e', e.validate = .ok e' ∧ ObsAt vars v x e' := by
  have hv : e.node ∈ vars := h.proper.node
  obtain ⟨e', h1, h2, h3, h4, h5, h6⟩ := c22_validate e (hd.vals _ hv) (hd.ne _ hv) h.proper.keys h.proper.dom
  have hk : (Dict.keys e'.values).Nodup := h4.nodup_iff.2 (hd.vals _ hv)
  have hdom : ∀ k ∈ Dict.keys e'.values, k ∈ e'.node.values := by
    intro k hk'; rw [h2]; exact h4.mem_iff.1 hk'
  obtain ⟨e'', g1, g2, g3, g4, g5, g6⟩ := c22_validate e' (by rw [h2]; exact hd.vals _ hv) (by rw [h2]; exact hd.ne _ hv) hk hdom
  rw [h6] at g1
  cases g1
  refine ⟨e', h1, ⟨⟨by rw [h2]; exact hv, hk, hdom⟩, h2.trans h.node, ?_⟩⟩
  intro u hu
  have hu' : u ∈ e.node.values := by rw [h.node]; exact hu
  have a1 := h5 u hu'
  have a2 := g5 u (by rw [h2]; exact hu')
  rw [a1] at a2
  rw [← Option.some.inj a2]
  exact h.canon u hu

theorem obs_obsAt {vars : List Variable} {v : Variable} (hv : v ∈ vars) {x : Str} (hx : x ∈ v.values) : ObsAt vars v x (obs v x) :=
  ⟨obs_proper hv hx, rfl, fun u _ => obs_canon hx u⟩

/-- likelihoods after observing several nodes -/
theorem update_obs {vars : List Variable} (τ : Asg) : ∀ (es : List Evidence) (ns : List Variable) (ℓ : Liks),
    List.Forall₂ (fun e v => ObsAt vars v (τ v.id) e) es ns → (∀ v ∈ ns, v ∈ vars) → (vids vars).Nodup →
    ∀ v ∈ vars, ∀ u ∈ v.values, (es.foldl (fun ℓ e => ℓ.put e.node e.canon) ℓ) v.id u =
      if v.id ∈ vids ns then (if u = τ v.id then 1 else 0) else ℓ v.id u
  | [], _, ℓ, h, _, _, v, _, u, _ => by
      cases h
      simp
  | e :: es, _, ℓ, h, hns, hn, v, hv, u, hu => by
      cases h with
      | @cons _ w _ ns h1 h2 =>
        rw [List.foldl_cons, update_obs τ es ns _ h2 (fun k hk => hns k (List.mem_cons_of_mem _ hk)) hn v hv u hu]
        by_cases hm : v.id ∈ vids ns
        · have hm' : v.id ∈ vids (w :: ns) := by rw [vids_cons]; exact List.mem_cons_of_mem _ hm
          rw [if_pos hm, if_pos hm']
        · rw [if_neg hm]
          by_cases e1 : v.id = w.id
          · have : v = w := List.inj_on_of_nodup_map hn hv (hns w List.mem_cons_self) e1
            subst this
            rw [if_pos (by simp), h1.node, put_at hu, h1.canon u hu]
          · rw [put_ne (by rw [h1.node]; exact e1), if_neg]
            rw [vids_cons, List.mem_cons, not_or]
            exact ⟨e1, hm⟩

section
variable {it : SetIter Int} {js : SetIter Str} {ops : List BOp} {jt : JoinTree}

/-- a join tree that some history of unambiguous evidence leads to -/
def Reach (ops : List BOp) (jt s : JoinTree) (ℓ : Liks) : Prop :=
  ∃ h : List (SetIter Str × EvOp), (∀ op ∈ h, op.2.Ok (Bbn.run ops).vars) ∧ s = runHist jt h ∧
    ∀ v ∈ (Bbn.run ops).vars, ∀ x ∈ v.values, specHist (Bbn.run ops).vars h v.id x = ℓ v.id x

theorem Reach.unobserveAll (hu : Net.Usable ops) (hj : apply it js (Bbn.run ops) = .ok jt) {s : JoinTree} {ℓ : Liks} (hs : Reach ops jt s ℓ)
    (k : SetIter Str) : ∃ s', JtM.call (fun jt => jt.unobserveAll k) s = (s', .ok ()) ∧ Reach ops jt s' noEvidence := by
  obtain ⟨h, h1, rfl, _⟩ := hs
  have herr := law_err hu.toSane hj h (fun op ho => (h1 op ho).proper) k .unobserveAll trivial
  refine ⟨_, ?_, h ++ [(k, .unobserveAll)], ?_, (runHist_append jt h k _).symm, ?_⟩
  · unfold JtM.call
    have : (runHist jt h).unobserveAll k = ((EvOp.unobserveAll.run k (runHist jt h)).1, none) := by
      rw [← show (EvOp.unobserveAll.run k (runHist jt h)).2 = none from herr]
      rfl
    simp only [this]
  · intro op ho
    rcases List.mem_append.1 ho with ho | ho
    · exact h1 op ho
    · rw [List.mem_singleton] at ho; subst ho; trivial
  · intro v hv x hx
    rw [specHist_append]
    show ((Bbn.run ops).vars.foldl (fun ℓ v => ℓ.put v (fun _ => 1)) (specHist (Bbn.run ops).vars h)) v.id x = 1
    have key : ∀ (l : List Variable) (ℓ : Liks), v ∈ l ∨ ℓ v.id x = 1 → (l.foldl (fun ℓ v => ℓ.put v (fun _ => 1)) ℓ) v.id x = 1 := by
      intro l
      induction l with
      | nil => intro ℓ h; simpa using h
      | cons w l ih =>
        intro ℓ h
        rw [List.foldl_cons]
        apply ih
        by_cases e : v = w
        · right; subst e; exact put_at hx
        · rcases h with h | h
          · left; exact (List.mem_cons.1 h).resolve_left e
          · right
            unfold Liks.put
            split <;> simp [h]
    exact key _ _ (Or.inl hv)

theorem Reach.update (hu : Net.Usable ops) (hj : apply it js (Bbn.run ops) = .ok jt) {s : JoinTree} (hs : Reach ops jt s noEvidence)
    (k : SetIter Str) {es : List Evidence} {ns : List Variable} {τ : Asg} (hns : ∀ v ∈ ns, v ∈ (Bbn.run ops).vars)
    (hes : List.Forall₂ (fun e v => ObsAt (Bbn.run ops).vars v (τ v.id) e) es ns) :
    ∃ s', JtM.call (fun jt => jt.updateEvidences k es) s = (s', .ok ()) ∧ Reach ops jt s' (pinned ns τ) := by
  obtain ⟨h, h1, rfl, h3⟩ := hs
  have hok : (EvOp.update es).Ok (Bbn.run ops).vars := by
    intro e he
    obtain ⟨i, hi, rfl⟩ := List.getElem_of_mem he
    have := hes.get hi (by rw [← hes.length_eq]; exact hi)
    exact ObsAt.ok this
  have herr := law_err hu.toSane hj h (fun op ho => (h1 op ho).proper) k (.update es) hok.proper
  refine ⟨_, ?_, h ++ [(k, .update es)], ?_, (runHist_append jt h k _).symm, ?_⟩
  · unfold JtM.call
    have : (runHist jt h).updateEvidences k es = (((EvOp.update es).run k (runHist jt h)).1, none) := by
      rw [← show ((EvOp.update es).run k (runHist jt h)).2 = none from herr]
      rfl
    simp only [this]
  · intro op ho
    rcases List.mem_append.1 ho with ho | ho
    · exact h1 op ho
    · rw [List.mem_singleton] at ho; subst ho; exact hok
  · intro v hv x hx
    rw [specHist_append]
    show (es.foldl (fun ℓ e => ℓ.put e.node e.canon) (specHist (Bbn.run ops).vars h)) v.id x = _
    rw [update_obs τ es ns _ hes hns (vars_nodup (bbn_run_inv ops)) v hv x hx]
    unfold pinned
    by_cases hm : v.id ∈ vids ns
    · rw [if_pos hm, if_pos hm]
    · rw [if_neg hm, if_neg hm]; exact h3 v hv x hx

theorem Reach.posteriors (hu : Net.Usable ops) (hj : apply it js (Bbn.run ops) = .ok jt)
    (hname : ((Bbn.run ops).vars.map Variable.name).Nodup) {s : JoinTree} {ℓ : Liks} (hs : Reach ops jt s ℓ) :
    ∃ d, s.getPosteriors = .ok d ∧ (∀ k, k ∈ Dict.keys d ↔ k ∈ (Bbn.run ops).vars.map Variable.name) ∧
      ∀ v ∈ (Bbn.run ops).vars, Dict.get? d v.name = some (v.values.map (fun x => (x, (Bbn.run ops).posterior ℓ v.id x))) := by
  obtain ⟨h, h1, rfl, h3⟩ := hs
  obtain ⟨T, l1, _, _⟩ := live_law hu.toSane hj h (fun op ho => (h1 op ho).proper)
  obtain ⟨d, d1, d2, d3⟩ := getPosteriors_spec (b := Bbn.run ops) (ℓ := specHist (Bbn.run ops).vars h) l1.calib.ctx.bbnNodes_perm
    (fun v hv => (c18_posteriors_exact_partial hu hj h h1 v hv).2) (fun v hv => values_nodup hu.wf hv) hname
  refine ⟨d, d1, d2, ?_⟩
  intro v hv
  rw [d3 v hv]
  congr 1
  apply List.map_congr_left
  intro x _
  rw [posterior_congr (bbn_run_inv ops) h3]

theorem Reach.byName (hu : Net.Usable ops) (hj : apply it js (Bbn.run ops) = .ok jt)
    (hname : ((Bbn.run ops).vars.map Variable.name).Nodup) {s : JoinTree} {ℓ : Liks} (hs : Reach ops jt s ℓ) {v : Variable}
    (hv : v ∈ (Bbn.run ops).vars) : s.getBbnNodeByName v.name = some v := by
  obtain ⟨h, h1, rfl, h3⟩ := hs
  obtain ⟨T, l1, _, _⟩ := live_law hu.toSane hj h (fun op ho => (h1 op ho).proper)
  have hcl := l1.calib.ctx
  unfold JoinTree.getBbnNodeByName
  refine get?_foldl_of (f := Variable.name) (g := fun v => v) ?_ ?_
  · obtain ⟨c, hc, hvc⟩ := hcl.cover v hv
    exact ⟨v, List.mem_flatMap.2 ⟨c, (hcl.spec.shape.mem_getCliques c).2 hc, hvc⟩, rfl⟩
  · intro u hu' e
    obtain ⟨c, hc, huc⟩ := List.mem_flatMap.1 hu'
    have := hcl.sub c ((hcl.spec.shape.mem_getCliques c).1 hc) u huc
    exact List.inj_on_of_nodup_map hname this hv e

theorem Reach.evidence (hu : Net.Usable ops) (hj : apply it js (Bbn.run ops) = .ok jt)
    (hname : ((Bbn.run ops).vars.map Variable.name).Nodup) {s : JoinTree} {ℓ : Liks} (hs : Reach ops jt s ℓ) {v : Variable}
    (hv : v ∈ (Bbn.run ops).vars) (x : Str) : Ace.getEvidence v.name x s = .ok (obs v x) := by
  unfold Ace.getEvidence
  rw [hs.byName hu hj hname hv]
  rfl

theorem getItem_map {f : Str → ℚ} {l : List Str} {x : Str} (hx : x ∈ l) : Dict.getItem (l.map (fun u => (u, f u))) x = .ok (f x) := by
  unfold Dict.getItem
  have : Dict.get? (l.map (fun u => (u, f u))) x = some (f x) := by
    induction l with
    | nil => simp at hx
    | cons y l ih =>
      rw [List.map_cons]
      by_cases e : y = x
      · subst e; simp [Dict.get?]
      · have := ih ((List.mem_cons.1 hx).resolve_left (fun h => e h.symm))
        simpa [Dict.get?, e] using this
  rw [this]

/-! ### the loops -/

theorem JtM.bind_ok' {α β : Type} {m : JtM α} {f : α → JtM β} {s s' : JoinTree} {a : α} (h : m s = (s', .ok a)) :
    (m >>= f) s = f a s' := by
  show (match m s with | (jt, .ok a) => f a jt | (jt, .error e) => (jt, .error e)) = _
  rw [h]

theorem JtM.bind_err {α β : Type} {m : JtM α} {f : α → JtM β} {s s' : JoinTree} {e : PyErr} (h : m s = (s', .error e)) :
    (m >>= f) s = (s', .error e) := by
  show (match m s with | (jt, .ok a) => f a jt | (jt, .error e) => (jt, .error e)) = _
  rw [h]

theorem JtM.read_ok {α : Type} {f : JoinTree → Py α} {s : JoinTree} {a : α} (h : f s = .ok a) : JtM.read f s = (s, .ok a) := by
  unfold JtM.read
  rw [h]

/-- the node `v` set to `x` and the nodes `Z` at the values of `τ` -/
def setTo (v : Variable) (x : Str) (τ : Asg) : Asg := Function.update τ v.id x

theorem agree_setTo {Z : List Variable} {v : Variable} (hv : v.id ∉ vids Z) (x : Str) (τ σ : Asg) :
    agree (v :: Z) (setTo v x τ) σ = (isAt v.id x σ && agree Z τ σ) := by
  unfold agree isAt setTo
  rw [← Bool.decide_and]
  congr 1
  rw [List.forall_mem_cons, Function.update_self]
  apply propext
  refine and_congr_right (fun _ => forall_congr' (fun w => forall_congr' (fun hw => ?_)))
  rw [Function.update_of_ne]
  intro e
  exact hv (e ▸ List.mem_map_of_mem hw)

/-- the summand of the loop over the values of the parents -/
def Bbn.aceTerm (b : Bbn) (v y : Variable) (xv yv : Str) (Z : List Variable) (τ : Asg) : ℚ :=
  b.prGiven (isAt y.id yv) (fun σ => isAt v.id xv σ && agree Z τ σ) * (Z.map (fun z => b.pr (isAt z.id (τ z.id)))).prod

theorem pieces {v : Variable} {xv : Str} {Z : List Variable} {τ : Asg} (hv : v ∈ (Bbn.run ops).vars)
    (hZ : ∀ z ∈ Z, z ∈ (Bbn.run ops).vars) (hvZ : v.id ∉ vids Z) (hτ : ∀ z ∈ Z, τ z.id ∈ z.values) {e : Evidence}
    (he : ObsAt (Bbn.run ops).vars v xv e) : (∀ w ∈ v :: Z, w ∈ (Bbn.run ops).vars) ∧
      List.Forall₂ (fun e w => ObsAt (Bbn.run ops).vars w (setTo v xv τ w.id) e) (e :: Z.map (fun z => obs z (τ z.id))) (v :: Z) := by
  have hns : ∀ w ∈ v :: Z, w ∈ (Bbn.run ops).vars := by
    intro w hw
    rcases List.mem_cons.1 hw with rfl | hw
    · exact hv
    · exact hZ w hw
  have hne : ∀ z ∈ Z, setTo v xv τ z.id = τ z.id := by
    intro z hz
    unfold setTo
    rw [Function.update_of_ne]
    intro e
    exact hvZ (e ▸ List.mem_map_of_mem hz)
  refine ⟨hns, ?_⟩
  show List.Forall₂ (fun e w => ObsAt (Bbn.run ops).vars w (setTo v xv τ w.id) e) (e :: Z.map (fun z => obs z (τ z.id))) (v :: Z)
  refine List.Forall₂.cons ?_ ?_
  · unfold setTo; rw [Function.update_self]; exact he
  · rw [List.forall₂_map_left_iff, List.forall₂_same]
    intro z hz
    rw [hne z hz]
    exact obs_obsAt (hZ z hz) (hτ z hz)

theorem yxzProb_ok (hu : Net.Usable ops) (hj : apply it js (Bbn.run ops) = .ok jt)
    (hname : ((Bbn.run ops).vars.map Variable.name).Nodup) (k : SetIter Str) {v y : Variable} {yv xv : Str} {Z : List Variable} {τ : Asg}
    (hv : v ∈ (Bbn.run ops).vars) (hy : y ∈ (Bbn.run ops).vars) (hyv : yv ∈ y.values)
    (hZ : ∀ z ∈ Z, z ∈ (Bbn.run ops).vars) (hvZ : v.id ∉ vids Z) (hτ : ∀ z ∈ Z, τ z.id ∈ z.values)
    {s : JoinTree} {ℓ : Liks} (hs : Reach ops jt s ℓ) {e : Evidence} (he : ObsAt (Bbn.run ops).vars v xv e) :
    ∃ s' e', Ace.yxzProb k y.name yv e (Z.map (fun z => obs z (τ z.id))) s =
        (s', .ok ((Bbn.run ops).prGiven (isAt y.id yv) (fun σ => isAt v.id xv σ && agree Z τ σ), e')) ∧
      ObsAt (Bbn.run ops).vars v xv e' ∧ Reach ops jt s' (pinned (v :: Z) (setTo v xv τ)) := by
  obtain ⟨s1, a1, r1⟩ := hs.unobserveAll hu hj k
  obtain ⟨hns, hes⟩ := pieces hv hZ hvZ hτ he
  obtain ⟨s2, a2, r2⟩ := r1.update hu hj k hns hes
  obtain ⟨e', a3, o3⟩ := he.validate (doms hu.toSane)
  obtain ⟨d, a4, _, a5⟩ := r2.posteriors hu hj hname
  refine ⟨s2, e', ?_, o3, r2⟩
  unfold Ace.yxzProb
  rw [JtM.bind_ok' a1, JtM.bind_ok' a2, JtM.bind_ok' (JtM.read_ok a3), JtM.bind_ok' (JtM.read_ok a4)]
  rw [JtM.bind_ok' (JtM.read_ok (a := y.values.map (fun x => (x, (Bbn.run ops).posterior (pinned (v :: Z) (setTo v xv τ)) y.id x)))
    (by unfold Dict.getItem; rw [a5 y hy]))]
  rw [JtM.bind_ok' (JtM.read_ok (getItem_map hyv))]
  rw [posterior_pinned hu.wf hns]
  have : (fun σ => isAt v.id xv σ && agree Z τ σ) = agree (v :: Z) (setTo v xv τ) := by
    funext σ; rw [agree_setTo hvZ]
  rw [this]
  rfl

theorem zProb_ok (hu : Net.Usable ops) (hj : apply it js (Bbn.run ops) = .ok jt)
    (hname : ((Bbn.run ops).vars.map Variable.name).Nodup) (k : SetIter Str) {Z : List Variable} {τ : Asg}
    (hZ : ∀ z ∈ Z, z ∈ (Bbn.run ops).vars) (hτ : ∀ z ∈ Z, τ z.id ∈ z.values)
    {s : JoinTree} {ℓ : Liks} (hs : Reach ops jt s ℓ) :
    ∃ s', Ace.zProb k (Z.map (fun z => (z.name, τ z.id))) s =
        (s', .ok ((Z.map (fun z => (Bbn.run ops).pr (isAt z.id (τ z.id)))).prod)) ∧ Reach ops jt s' noEvidence := by
  obtain ⟨s1, a1, r1⟩ := hs.unobserveAll hu hj k
  obtain ⟨d, a4, _, a5⟩ := r1.posteriors hu hj hname
  refine ⟨s1, ?_, r1⟩
  have hl : (Z.map (fun z => (z.name, τ z.id))).mapM (Ace.lookup d) = .ok (Z.map (fun z => (Bbn.run ops).pr (isAt z.id (τ z.id)))) := by
    clear hs a1 r1 a4
    induction Z with
    | nil => rfl
    | cons z Z ih =>
      rw [List.map_cons, List.mapM_cons, ih (fun w hw => hZ w (List.mem_cons_of_mem _ hw)) (fun w hw => hτ w (List.mem_cons_of_mem _ hw))]
      have : Ace.lookup d (z.name, τ z.id) = .ok ((Bbn.run ops).pr (isAt z.id (τ z.id))) := by
        unfold Ace.lookup
        have h1 : Dict.getItem d z.name = .ok (z.values.map (fun x => (x, (Bbn.run ops).posterior noEvidence z.id x))) := by
          unfold Dict.getItem
          rw [a5 z (hZ z List.mem_cons_self)]
        rw [h1]
        show Dict.getItem _ (τ z.id) = _
        rw [getItem_map (hτ z List.mem_cons_self), posterior_prior]
      rw [this]
      rfl
  unfold Ace.zProb
  rw [JtM.bind_ok' a1, JtM.bind_ok' (JtM.read_ok a4), JtM.bind_ok' (JtM.read_ok hl), List.prod_eq_foldl]
  rfl

theorem Reach.evidences (hu : Net.Usable ops) (hj : apply it js (Bbn.run ops) = .ok jt)
    (hname : ((Bbn.run ops).vars.map Variable.name).Nodup) {s : JoinTree} {ℓ : Liks} (hs : Reach ops jt s ℓ) {Z : List Variable}
    (hZ : ∀ z ∈ Z, z ∈ (Bbn.run ops).vars) (τ : Asg) :
    Ace.getEvidences (Z.map (fun z => (z.name, τ z.id))) s = .ok (Z.map (fun z => obs z (τ z.id))) := by
  unfold Ace.getEvidences
  induction Z with
  | nil => rfl
  | cons z Z ih =>
    rw [List.map_cons, List.mapM_cons, ih (fun w hw => hZ w (List.mem_cons_of_mem _ hw)),
      hs.evidence hu hj hname (hZ z List.mem_cons_self)]
    rfl

theorem yxzProb_err (hu : Net.Usable ops) (hj : apply it js (Bbn.run ops) = .ok jt)
    (hname : ((Bbn.run ops).vars.map Variable.name).Nodup) (k : SetIter Str) {v : Variable} {y yv xv : Str} {Z : List Variable} {τ : Asg}
    (hv : v ∈ (Bbn.run ops).vars) (hy : ∀ w ∈ (Bbn.run ops).vars, w.name = y → yv ∉ w.values)
    (hZ : ∀ z ∈ Z, z ∈ (Bbn.run ops).vars) (hvZ : v.id ∉ vids Z) (hτ : ∀ z ∈ Z, τ z.id ∈ z.values)
    {s : JoinTree} {ℓ : Liks} (hs : Reach ops jt s ℓ) {e : Evidence} (he : ObsAt (Bbn.run ops).vars v xv e) :
    ∃ s', Ace.yxzProb k y yv e (Z.map (fun z => obs z (τ z.id))) s = (s', .error .keyError) := by
  obtain ⟨s1, a1, r1⟩ := hs.unobserveAll hu hj k
  obtain ⟨hns, hes⟩ := pieces hv hZ hvZ hτ he
  obtain ⟨s2, a2, r2⟩ := r1.update hu hj k hns hes
  obtain ⟨e', a3, o3⟩ := he.validate (doms hu.toSane)
  obtain ⟨d, a4, a6, a5⟩ := r2.posteriors hu hj hname
  refine ⟨s2, ?_⟩
  unfold Ace.yxzProb
  rw [JtM.bind_ok' a1, JtM.bind_ok' a2, JtM.bind_ok' (JtM.read_ok a3), JtM.bind_ok' (JtM.read_ok a4)]
  by_cases hk : y ∈ (Bbn.run ops).vars.map Variable.name
  · obtain ⟨w, hw, rfl⟩ := List.mem_map.1 hk
    rw [JtM.bind_ok' (JtM.read_ok (a := w.values.map (fun x => (x, (Bbn.run ops).posterior (pinned (v :: Z) (setTo v xv τ)) w.id x)))
      (by unfold Dict.getItem; rw [a5 w hw]))]
    apply JtM.bind_err
    unfold JtM.read Dict.getItem
    have : Dict.get? (w.values.map (fun x => (x, (Bbn.run ops).posterior (pinned (v :: Z) (setTo v xv τ)) w.id x))) yv = none := by
      rw [Dict.get?_eq_none_iff]
      unfold Dict.keys
      rw [List.map_map]
      intro hm
      obtain ⟨u, hu', e⟩ := List.mem_map.1 hm
      exact hy w hw rfl (e ▸ hu')
    rw [this]
  · apply JtM.bind_err
    unfold JtM.read Dict.getItem
    rw [(Dict.get?_eq_none_iff _ _).2 (fun h => hk ((a6 y).1 h))]

theorem zLoop_ok (hu : Net.Usable ops) (hj : apply it js (Bbn.run ops) = .ok jt)
    (hname : ((Bbn.run ops).vars.map Variable.name).Nodup) (k : SetIter Str) {v y : Variable} {yv xv : Str} {Z : List Variable}
    (hv : v ∈ (Bbn.run ops).vars) (hy : y ∈ (Bbn.run ops).vars) (hyv : yv ∈ y.values)
    (hZ : ∀ z ∈ Z, z ∈ (Bbn.run ops).vars) (hvZ : v.id ∉ vids Z) : ∀ (τs : List Asg), (∀ τ ∈ τs, ∀ z ∈ Z, τ z.id ∈ z.values) →
    ∀ {s : JoinTree} {ℓ : Liks}, Reach ops jt s ℓ → ∀ {e : Evidence}, ObsAt (Bbn.run ops).vars v xv e → ∀ total : ℚ,
    ∃ s' ℓ', Ace.zLoop k y.name yv (τs.map (fun τ => Z.map (fun z => (z.name, τ z.id)))) e total s =
        (s', .ok (total + (τs.map ((Bbn.run ops).aceTerm v y xv yv Z)).sum)) ∧ Reach ops jt s' ℓ' ∧ (τs ≠ [] ∨ ℓ = noEvidence → ℓ' = noEvidence)
  | [], _, s, ℓ, hs, e, _, total => by
      refine ⟨s, ℓ, ?_, hs, by simp⟩
      show (s, Except.ok total) = _
      simp
  | τ :: τs, hτ, s, ℓ, hs, e, he, total => by
      obtain ⟨s1, e1, a1, o1, r1⟩ := yxzProb_ok hu hj hname k hv hy hyv hZ hvZ (hτ τ List.mem_cons_self) hs he
      obtain ⟨s2, a2, r2⟩ := zProb_ok hu hj hname k hZ (hτ τ List.mem_cons_self) r1
      obtain ⟨s3, ℓ3, a3, r3, n3⟩ := zLoop_ok hu hj hname k hv hy hyv hZ hvZ τs (fun τ' h => hτ τ' (List.mem_cons_of_mem _ h)) r2 o1
        (total + (Bbn.run ops).aceTerm v y xv yv Z τ)
      refine ⟨s3, ℓ3, ?_, r3, ?_⟩
      · rw [List.map_cons]
        unfold Ace.zLoop
        rw [JtM.bind_ok' (JtM.read_ok (hs.evidences hu hj hname hZ τ)), JtM.bind_ok' a1, JtM.bind_ok' a2]
        rw [List.map_cons, List.sum_cons, ← add_assoc]
        exact a3
      · intro _
        exact n3 (Or.inr rfl)

/-- the sum over the values of the parents -/
def Bbn.aceSum (b : Bbn) (v y : Variable) (xv yv : Str) (Z : List Variable) : ℚ :=
  ((allAsg Z).map (b.aceTerm v y xv yv Z)).sum

theorem tuples_eq {Z : List Variable} (hZn : (vids Z).Nodup) :
    (product (Z.map Variable.values)).map (fun tup => (Z.map Variable.name).zip tup) =
      ((product (Z.map Variable.values)).map (over asg0 (vids Z))).map (fun τ => Z.map (fun z => (z.name, τ z.id))) := by
  rw [List.map_map]
  apply List.map_congr_left
  intro tup ht
  have := vals_eq_map asg0 (vids Z) tup hZn (product_length ht)
  show (Z.map Variable.name).zip tup = Z.map (fun z => (z.name, over asg0 (vids Z) tup z.id))
  conv_lhs => rw [this]
  unfold vids
  rw [List.map_map, List.zip_map']
  rfl

theorem sum_tuples {Z : List Variable} (hZn : (vids Z).Nodup) (g : Asg → ℚ) :
    (((product (Z.map Variable.values)).map (over asg0 (vids Z))).map g).sum = ((allAsg Z).map g).sum := by
  have hD : DomOk (fun i => ((Z.find? (fun v => v.id = i)).map Variable.values).getD []) Z := by
    intro v hv
    have : Z.find? (fun w => w.id = v.id) = some v := by
      cases hf : Z.find? (fun w => w.id = v.id) with
      | none => exact absurd (List.find?_eq_none.1 hf v hv) (by simp)
      | some w =>
        have h1 := List.find?_some hf
        rw [List.inj_on_of_nodup_map hZn (List.mem_of_find?_eq_some hf) hv (by simpa using h1)]
    simp only [this]
    rfl
  rw [sum_allAsg Z hZn hD, ← sum_product g Z hD asg0, List.map_map]
  rfl

theorem tuples_ne {vars : List Variable} (hd : DomsOk vars) {Z : List Variable} (hZ : ∀ z ∈ Z, z ∈ vars) :
    (product (Z.map Variable.values)).map (over asg0 (vids Z)) ≠ [] := by
  intro h
  have : product (Z.map Variable.values) = [] := by simpa using h
  have h2 : (product (Z.map Variable.values)).length = 0 := by rw [this]; rfl
  rw [product_length_eq, List.map_map, List.prod_eq_zero_iff] at h2
  obtain ⟨z, hz, e⟩ := List.mem_map.1 h2
  exact hd.ne z (hZ z hz) (List.length_eq_zero_iff.1 e)

theorem xLoop_ok (hu : Net.Usable ops) (hj : apply it js (Bbn.run ops) = .ok jt)
    (hname : ((Bbn.run ops).vars.map Variable.name).Nodup) (k : SetIter Str) {v y : Variable} {yv : Str} {Z : List Variable}
    (hv : v ∈ (Bbn.run ops).vars) (hy : y ∈ (Bbn.run ops).vars) (hyv : yv ∈ y.values)
    (hZ : ∀ z ∈ Z, z ∈ (Bbn.run ops).vars) (hZn : (vids Z).Nodup) (hvZ : v.id ∉ vids Z) :
    ∀ (xs : List Str), (∀ x ∈ xs, x ∈ v.values) → xs.Nodup → ∀ (res : Dict Str ℚ), (∀ x ∈ xs, x ∉ Dict.keys res) →
    ∀ {s : JoinTree} {ℓ : Liks}, Reach ops jt s ℓ →
    ∃ s' ℓ', Ace.xLoop k v.name y.name yv ((product (Z.map Variable.values)).map (fun tup => (Z.map Variable.name).zip tup)) xs res s =
        (s', .ok (res ++ xs.map (fun x => (x, (Bbn.run ops).aceSum v y x yv Z)))) ∧ Reach ops jt s' ℓ' ∧
      (xs ≠ [] ∨ ℓ = noEvidence → ℓ' = noEvidence)
  | [], _, _, res, _, s, ℓ, hs => by
      refine ⟨s, ℓ, ?_, hs, by simp⟩
      show (s, Except.ok res) = _
      simp
  | x :: xs, hx, hn, res, hres, s, ℓ, hs => by
      rw [List.nodup_cons] at hn
      have hτ : ∀ τ ∈ (product (Z.map Variable.values)).map (over asg0 (vids Z)), ∀ z ∈ Z, τ z.id ∈ z.values := by
        intro τ hτ z hz
        obtain ⟨tup, ht, rfl⟩ := List.mem_map.1 hτ
        exact over_mem_dom asg0 Z tup hZn ht z hz
      obtain ⟨s1, ℓ1, a1, r1, n1⟩ := zLoop_ok hu hj hname k hv hy hyv hZ hvZ _ hτ hs (obs_obsAt hv (hx x List.mem_cons_self)) 0
      rw [← tuples_eq hZn, zero_add, sum_tuples hZn] at a1
      have hnew : Dict.set res x ((Bbn.run ops).aceSum v y x yv Z) = res ++ [(x, (Bbn.run ops).aceSum v y x yv Z)] :=
        Dict.set_of_not_mem (hres x List.mem_cons_self) _
      obtain ⟨s2, ℓ2, a2, r2, n2⟩ := xLoop_ok hu hj hname k hv hy hyv hZ hZn hvZ xs (fun w h => hx w (List.mem_cons_of_mem _ h)) hn.2
        (Dict.set res x ((Bbn.run ops).aceSum v y x yv Z)) (by
          intro w hw
          rw [hnew]
          unfold Dict.keys
          rw [List.map_append, List.mem_append, not_or]
          refine ⟨hres w (List.mem_cons_of_mem _ hw), ?_⟩
          simp only [List.map_cons, List.map_nil, List.mem_singleton]
          rintro rfl
          exact hn.1 hw) r1
      refine ⟨s2, ℓ2, ?_, r2, ?_⟩
      · unfold Ace.xLoop
        rw [JtM.bind_ok' (JtM.read_ok (hs.evidence hu hj hname hv x)), JtM.bind_ok' a1]
        refine a2.trans ?_
        rw [hnew, List.map_cons, List.append_assoc]
        rfl
      · intro _
        apply n2
        right
        apply n1
        left
        exact tuples_ne (doms hu.toSane) hZ

/-- the parents as `get_parents` lists them -/
theorem causes_spec {b : Bbn} (h : BbnInv b) (i : Int) :
    vids (b.causes i) = b.toGraph.getParents i ∧ (vids (b.causes i)).Nodup ∧ (∀ z ∈ b.causes i, z ∈ b.vars) ∧
      ∀ p, p ∈ vids (b.causes i) ↔ b.Par p i := by
  have hmem : ∀ p, p ∈ b.toGraph.getParents i ↔ p ∈ ddGet b.parents i := by
    intro p
    rw [mem_getParents b.toGraph h.emNodup, h.par]
  have h1 : vids (b.causes i) = b.toGraph.getParents i := by
    unfold Bbn.causes vids
    have : ∀ l : List Int, (∀ p ∈ l, p ∈ b.toGraph.getParents i) →
        (l.filterMap (fun p => (Dict.get? b.nodes p).map BbnNode.var)).map Variable.id = l := by
      intro l
      induction l with
      | nil => simp
      | cons p l ih =>
        intro hl
        obtain ⟨n, hn, hid⟩ := parent_node h ((hmem p).1 (hl p List.mem_cons_self))
        rw [List.filterMap_cons_some (b := n.var) (by rw [hn]; rfl), List.map_cons, hid, ih (fun q hq => hl q (List.mem_cons_of_mem _ hq))]
    exact this _ (fun _ h => h)
  refine ⟨h1, ?_, ?_, ?_⟩
  · rw [h1]
    unfold Graph.getParents
    exact h.emNodup.sublist (List.Sublist.map _ List.filter_sublist)
  · intro z hz
    obtain ⟨p, hp, e⟩ := List.mem_filterMap.1 hz
    cases hg : Dict.get? b.nodes p with
    | none => rw [hg] at e; simp at e
    | some n =>
      rw [hg] at e
      have : n ∈ b.toGraph.getNodes := (Dict.mem_values_iff h.ginv.nodup _).2 ⟨p, hg⟩
      rw [← Option.some.inj e]
      exact List.mem_map_of_mem this
  · intro p
    rw [h1]; exact hmem p

theorem getItem_some {K V : Type} [DecidableEq K] {d : Dict K V} {k : K} {v : V} (h : Dict.get? d k = some v) : Dict.getItem d k = .ok v := by
  unfold Dict.getItem; rw [h]

theorem plan_ok (hname : ((Bbn.run ops).vars.map Variable.name).Nodup) {v : Variable} (hv : v ∈ (Bbn.run ops).vars) :
    Ace.plan (Bbn.run ops) v.name = .ok ((product (((Bbn.run ops).causes v.id).map Variable.values)).map
      (fun tup => (((Bbn.run ops).causes v.id).map Variable.name).zip tup), v.values) := by
  have h := bbn_run_inv ops
  obtain ⟨n, hn, rfl⟩ := List.mem_map.1 hv
  have hnm : ((Bbn.run ops).toGraph.getNodes.map (fun n => n.var.name)).Nodup := by
    unfold Bbn.vars at hname
    rw [List.map_map] at hname
    exact hname
  have e1 : Dict.getItem (Bbn.run ops).getN2i n.var.name = .ok n.var.id :=
    getItem_some ((c51_inverse ops hnm _ _).2 ((c51_i2n ops _ _).2 ⟨n, hn, rfl, rfl⟩))
  obtain ⟨g1, g2, g3, g4⟩ := causes_spec h n.var.id
  have hnode : ∀ p ∈ (Bbn.run ops).toGraph.getParents n.var.id, ∃ m, Dict.get? (Bbn.run ops).nodes p = some m ∧ m.var.id = p := by
    intro p hp
    rw [← g1] at hp
    exact parent_node h ((g4 p).1 hp)
  have key : ∀ l : List Int, (∀ p ∈ l, p ∈ (Bbn.run ops).toGraph.getParents n.var.id) →
      ∃ ms : List BbnNode, l.mapM (fun z => Dict.getItem (Bbn.run ops).nodes z) = .ok ms ∧
        l.mapM (fun z => Dict.getItem (Bbn.run ops).getI2n z) = .ok (ms.map (fun m => m.var.name)) ∧
        l.filterMap (fun p => (Dict.get? (Bbn.run ops).nodes p).map BbnNode.var) = ms.map BbnNode.var := by
    intro l
    induction l with
    | nil => intro _; exact ⟨[], rfl, rfl, rfl⟩
    | cons p l ih =>
      intro hl
      obtain ⟨ms, k1, k2, k3⟩ := ih (fun q hq => hl q (List.mem_cons_of_mem _ hq))
      obtain ⟨m, hm, hid⟩ := hnode p (hl p List.mem_cons_self)
      have hmm : m ∈ (Bbn.run ops).toGraph.getNodes := (Dict.mem_values_iff h.ginv.nodup _).2 ⟨p, hm⟩
      refine ⟨m :: ms, ?_, ?_, ?_⟩
      · rw [List.mapM_cons, k1, getItem_some hm]; rfl
      · rw [List.mapM_cons, k2, getItem_some ((c51_i2n ops _ _).2 ⟨m, hmm, hid, rfl⟩)]; rfl
      · rw [List.filterMap_cons_some (b := m.var) (by rw [hm]; rfl), k3, List.map_cons]
  obtain ⟨ms, k1, k2, k3⟩ := key _ (fun _ h => h)
  unfold Ace.plan
  rw [e1]
  show ((((Bbn.run ops).toGraph.getParents n.var.id).mapM (fun z => Dict.getItem (Bbn.run ops).getI2n z)) >>= _) = _
  rw [k2]
  show ((((Bbn.run ops).toGraph.getParents n.var.id).mapM (fun z => Dict.getItem (Bbn.run ops).nodes z)) >>= _) = _
  rw [k1]
  show (Dict.getItem (Bbn.run ops).nodes n.var.id >>= _) = _
  rw [getItem_some ((getNodes_eq h n).1 hn)]
  have : (Bbn.run ops).causes n.var.id = ms.map BbnNode.var := k3
  rw [this, List.map_map, List.map_map]
  rfl

theorem getAce_ok (hu : Net.Usable ops) (hj : apply it js (Bbn.run ops) = .ok jt)
    (hname : ((Bbn.run ops).vars.map Variable.name).Nodup) (k : SetIter Str) {v y : Variable} {yv : Str}
    (hv : v ∈ (Bbn.run ops).vars) (hy : y ∈ (Bbn.run ops).vars) (hyv : yv ∈ y.values) (hself : ¬ (Bbn.run ops).Par v.id v.id)
    {s : JoinTree} {ℓ : Liks} (hs : Reach ops jt s ℓ) :
    ∃ s', Ace.getAce k ⟨Bbn.run ops, s⟩ v.name y.name yv =
        (s', .ok (v.values.map (fun x => (x, (Bbn.run ops).aceSum v y x yv ((Bbn.run ops).causes v.id))))) ∧ Reach ops jt s' noEvidence := by
  obtain ⟨g1, g2, g3, g4⟩ := causes_spec (bbn_run_inv ops) v.id
  have hd := doms hu.toSane
  obtain ⟨s', ℓ', a1, r1, n1⟩ := xLoop_ok hu hj hname k hv hy hyv g3 g2 (fun h => hself ((g4 _).1 h)) v.values (fun _ h => h)
    (hd.vals v hv) [] (by simp [Dict.keys]) hs
  refine ⟨s', ?_, ?_⟩
  · unfold Ace.getAce
    rw [plan_ok hname hv]
    exact a1
  · rw [← n1 (Or.inl (hd.ne v hv))]; exact r1

end
end PyBBN
