import Verif.Proofs.FaithReal

/-!
# d-separation is exact (C103)

C63 says that evidence has no influence along inactive paths. Here the converse: when `do.py` finds an active path, the structure of the
network does not exclude an influence.
-/

namespace PyBBN
open Relation InferenceController DSep Faith

variable {ops : List BOp}

/-- observe the nodes of `vs` at the values of `τ`, in one call of `update_evidences` -/
def observeAll (vs : List Variable) (τ : Asg) : List (SetIter Str × EvOp) := [(.same, .update (vs.map (fun v => obs v (τ v.id))))]

theorem observeAll_forall₂ {vars : List Variable} {τ : Asg} : ∀ (vs : List Variable), (∀ v ∈ vs, v ∈ vars) → (∀ v ∈ vs, τ v.id ∈ v.values) →
    List.Forall₂ (fun e v => ObsAt vars v (τ v.id) e) (vs.map (fun v => obs v (τ v.id))) vs
  | [], _, _ => .nil
  | v :: vs, h1, h2 => .cons (obs_obsAt (h1 v List.mem_cons_self) (h2 v List.mem_cons_self))
      (observeAll_forall₂ vs (fun w hw => h1 w (List.mem_cons_of_mem _ hw)) (fun w hw => h2 w (List.mem_cons_of_mem _ hw)))

theorem observeAll_ok {vars vs : List Variable} {τ : Asg} (h1 : ∀ v ∈ vs, v ∈ vars) (h2 : ∀ v ∈ vs, τ v.id ∈ v.values) :
    ∀ op ∈ observeAll vs τ, op.2.Ok vars := by
  intro op hop
  simp only [observeAll, List.mem_singleton] at hop
  subst hop
  intro e he
  obtain ⟨v, hv, rfl⟩ := List.mem_map.1 he
  exact ObsAt.ok (obs_obsAt (h1 v hv) (h2 v hv))

theorem observeAll_spec {vars vs : List Variable} {τ : Asg} (hn : (vids vars).Nodup) (h1 : ∀ v ∈ vs, v ∈ vars) (h2 : ∀ v ∈ vs, τ v.id ∈ v.values) :
    ∀ v ∈ vars, ∀ u ∈ v.values, specHist vars (observeAll vs τ) v.id u = if v.id ∈ vids vs then (if u = τ v.id then 1 else 0) else 1 := by
  intro v hv u hu
  exact update_obs τ _ vs noEvidence (observeAll_forall₂ vs h1 h2) h1 hn v hv u hu

/-- the nodes of a network with an id in the list -/
def Bbn.among (b : Bbn) (zs : List Int) : List Variable := b.vars.filter (fun v => decide (v.id ∈ zs))

/-- **C103**. On a connected acyclic network with distinct names: if `do.py` finds an active path between `x` and `y` given `zs`, there is a
network made by the same calls with other values and other CPTs, whose CPT rows sum to one, and possible observations of the nodes of `zs`
and of `y`, such that `get_posteriors` answers for `x` differently with and without the observation of `y`. -/
theorem c103_active_path (hconn : ConnectedOps ops) (hac : AcyclicOps ops) (hname : ((Bbn.run ops).vars.map Variable.name).Nodup)
    {x : Variable} (hx : x ∈ (Bbn.run ops).vars) {y : Int} (hxy : x.id ≠ y) {zs : List Int} (hxz : x.id ∉ zs) (hyz : y ∉ zs)
    {p : List Int} (hp : p ∈ Do.allPaths (Bbn.run ops).toNxGraph.1 x.id y)
    (hact : Do.isActivePath (Bbn.run ops).toNxGraph.1 p ⟨true, zs⟩ = .ok true) :
    ∃ ops', SameStructure ops ops' ∧ Net.Usable ops' ∧ (Bbn.run ops').Normalized (Bbn.run ops').parentVars ∧
      ∃ τ : Asg, InDom (Bbn.run ops').vars τ ∧
        (Bbn.run ops').total (specHist (Bbn.run ops').vars (observeAll ((Bbn.run ops').among zs) τ)) ≠ 0 ∧
        (Bbn.run ops').total (specHist (Bbn.run ops').vars (observeAll ((Bbn.run ops').among (y :: zs)) τ)) ≠ 0 ∧
        ∀ it js, ∃ jt, apply it js (Bbn.run ops') = .ok jt ∧ ∃ d d',
          (runHist jt (observeAll ((Bbn.run ops').among zs) τ)).getPosteriors = .ok d ∧
          (runHist jt (observeAll ((Bbn.run ops').among (y :: zs)) τ)).getPosteriors = .ok d' ∧
          Dict.get? d x.name ≠ Dict.get? d' x.name := by
  have hinv := bbn_run_inv ops
  have hacyc : Acyclic (Bbn.run ops).Par := by
    have : (Bbn.run ops).Par = fun p c => (p, c) ∈ BOp.edges ops := by funext p c; exact propext (par_iff ops p c)
    rw [this]; exact hac
  -- the path is open
  have hpath : IsPath (Bbn.run ops).Par x.id y p := by
    rw [← nxGraph_E]; exact (c39_all_paths (nxGraph_wf ops) hxy p).1 hp
  have hopen : Open (Bbn.run ops).Par (fun i => decide (i ∈ zs) = true) p := by
    have hopen' : Open (Bbn.run ops).Par (· ∈ zs) p := by
      by_cases h3 : 3 ≤ p.length
      · rw [← nxGraph_E] at hpath ⊢
        obtain ⟨r, k1, k2⟩ := c39_path_activity (nxGraph_wf ops) (nxGraph_acyclic hac) hpath h3 zs
        rw [k1] at hact
        cases hact
        exact k2.1 rfl
      · intro i hi
        exact absurd hi.2 (by have := hi.1; omega)
    have e : (fun i => decide (i ∈ zs) = true) = (· ∈ zs) := by funext i; simp
    rw [e]; exact hopen'
  -- an order with children first
  obtain ⟨L0, hL0, hpw0⟩ := order_exists' hinv hacyc
  let L := L0.reverse
  have hL : L.Perm (Bbn.run ops).toGraph.getNodes := (List.reverse_perm _).trans hL0
  have hpw : L.Pairwise (fun n m => ¬ (Bbn.run ops).Par n.var.id m.var.id) := by
    rw [List.pairwise_reverse]
    exact hpw0
  let l := L.map (fun n => n.var.id)
  have hnodes : ∀ i, i ∈ l ↔ i ∈ (Bbn.run ops).ids := by
    intro i
    exact (hL.map _).mem_iff
  have hlp : ∀ p c, (Bbn.run ops).Par p c → p ∈ l ∧ c ∈ l := by
    intro p c h
    have h1 := hinv.ginv.emNodes p c ((hinv.par p c).1 h)
    have e : (Bbn.run ops).ids = Dict.keys (Bbn.run ops).nodes := by
      rw [← vids_vars hinv]
      unfold Bbn.ids vids Bbn.vars
      rw [List.map_map]
      rfl
    rw [hnodes, hnodes, e]
    exact h1
  have hxl : x.id ∈ l := by
    rw [hnodes]
    obtain ⟨n, hn, rfl⟩ := List.mem_map.1 hx
    exact mem_ids.2 ⟨n, hn, rfl⟩
  have hasym : ∀ a b, (Bbn.run ops).Par a b → ¬ (Bbn.run ops).Par b a := fun a b h1 h2 => hacyc a (TransGen.head h1 (TransGen.single h2))
  obtain ⟨dir, hball⟩ := ball_of_open (Z := fun i => decide (i ∈ zs)) hlp hasym hpath hxl (by simpa using hxz) hopen
  have hyl := hball.mem
  have hdep := depend_of_ball (Par := (Bbn.run ops).Par) (Z := fun i => decide (i ∈ zs)) (l := l)
    ((hL.map _).nodup_iff.2 (node_ids_nodup hinv)) (fun n h => hacyc n (TransGen.single h)) (by rw [List.pairwise_map]; exact hpw)
    (by simpa using hxz) (by simpa using hyz) hball
  obtain ⟨α, i1, i2, i3, f, ζ, hc, hv⟩ := hdep.values
  obtain ⟨ops', hs, hsane, hnorm, hvals, hsum⟩ := realise hac hc hL hpw
  obtain ⟨a, c, hT, hB, hne⟩ := hv (fun _ => dec [])
  have hinv' := bbn_run_inv ops'
  have hu : Net.Usable ops' := ⟨hsane, hs.connected hconn⟩
  refine ⟨ops', hs, hu, hnorm, fun i => if i = y then enc c else enc (ζ i), ?_, ?_⟩
  · intro v hv
    rw [hvals v hv]
    dsimp only
    split
    · exact mem_vals.2 ⟨_, rfl⟩
    · exact mem_vals.2 ⟨_, rfl⟩
  set τ : Asg := fun i => if i = y then enc c else enc (ζ i) with hτ
  have hτd : ∀ v ∈ (Bbn.run ops').vars, τ v.id ∈ v.values := by
    intro v hv
    rw [hvals v hv, hτ]
    dsimp only
    split
    · exact mem_vals.2 ⟨_, rfl⟩
    · exact mem_vals.2 ⟨_, rfl⟩
  have hsub : ∀ ws, ∀ v ∈ (Bbn.run ops').among ws, v ∈ (Bbn.run ops').vars := fun ws v hv => (List.mem_filter.1 hv).1
  have hmem : ∀ ws, ∀ v ∈ (Bbn.run ops').vars, (v.id ∈ vids ((Bbn.run ops').among ws) ↔ v.id ∈ ws) := by
    intro ws v hv
    constructor
    · intro h
      obtain ⟨w, hw, e⟩ := List.mem_map.1 h
      rw [← e]
      simpa using (List.mem_filter.1 hw).2
    · intro h
      exact List.mem_map_of_mem (List.mem_filter.2 ⟨hv, by simpa using h⟩)
  have hspec : ∀ ws, ∀ v ∈ (Bbn.run ops').vars, ∀ u ∈ v.values,
      specHist (Bbn.run ops').vars (observeAll ((Bbn.run ops').among ws) τ) v.id u = if v.id ∈ ws then (if u = τ v.id then 1 else 0) else 1 := by
    intro ws v hv u hu
    rw [observeAll_spec (vars_nodup hinv') (hsub ws) (fun w hw => hτd w (hsub ws w hw)) v hv u hu]
    by_cases h : v.id ∈ ws
    · rw [if_pos h, if_pos ((hmem ws v hv).2 h)]
    · rw [if_neg h, if_neg (fun h' => h ((hmem ws v hv).1 h'))]
  set ℓ := specHist (Bbn.run ops').vars (observeAll ((Bbn.run ops').among zs) τ) with hℓ
  set ℓ' := specHist (Bbn.run ops').vars (observeAll ((Bbn.run ops').among (y :: zs)) τ) with hℓ'
  have hdom : ∀ σ ∈ allAsg (Bbn.run ops').vars, InDom (Bbn.run ops').vars σ := fun σ hσ => allAsg_mem_dom _ (vars_nodup hinv') σ hσ
  -- the node `y` of the new network
  have hy' : y ∈ (Bbn.run ops').vars.map Variable.id := by
    rw [hs.ids]
    obtain ⟨n, hn, e⟩ := mem_ids.1 ((hnodes y).1 hyl)
    rw [← e]
    exact List.mem_map_of_mem (List.mem_map_of_mem hn)
  obtain ⟨vy, hvy, hvyid⟩ := List.mem_map.1 hy'
  have hx' : x.id ∈ (Bbn.run ops').vars.map Variable.id := by
    rw [hs.ids]; exact List.mem_map_of_mem hx
  have hσy : ∀ σ ∈ allAsg (Bbn.run ops').vars, σ y ∈ vals α := by
    intro σ hσ
    have := hdom σ hσ vy hvy
    rwa [hvals vy hvy, hvyid] at this
  -- weights
  have hdec : ∀ (u : Str) (a : α), u ∈ vals α → ((dec u = a) ↔ u = enc a) := by
    intro u a hu
    constructor
    · intro h; rw [← h, enc_dec hu]
    · intro h; rw [h, dec_enc]
  have hweq : ∀ v ∈ (Bbn.run ops').vars, ∀ u ∈ vals α, ℓ v.id u = ev (fun i => decide (i ∈ zs)) ζ v.id (dec u) := by
    intro v hv u hu
    rw [hℓ, hspec zs v hv u (by rw [hvals v hv]; exact hu)]
    unfold ev
    by_cases hz : v.id ∈ zs
    · have hvy : v.id ≠ y := fun e => hyz (e ▸ hz)
      have e : τ v.id = enc (ζ v.id) := by rw [hτ]; simp [hvy]
      rw [if_pos hz, e]
      simp only [hz, decide_true, if_true]
      by_cases hd : u = enc (ζ v.id)
      · rw [if_pos hd, if_pos ((hdec u _ hu).2 hd)]
      · rw [if_neg hd, if_neg (fun h => hd ((hdec u _ hu).1 h))]
    · rw [if_neg hz]
      simp [hz]
  have hw' : ∀ σ ∈ allAsg (Bbn.run ops').vars, (Bbn.run ops').weight ℓ' σ = (Bbn.run ops').weight ℓ σ * (if dec (σ y) = c then 1 else 0) := by
    intro σ hσ
    have e1 : (Bbn.run ops').weight ℓ' σ = (Bbn.run ops').weight (pinned ((Bbn.run ops').among (y :: zs)) τ) σ := by
      refine weight_congr ?_ (hdom σ hσ)
      intro v hv u hu
      rw [hℓ', observeAll_spec (vars_nodup hinv') (hsub _) (fun w hw => hτd w (hsub _ w hw)) v hv u hu]
      rfl
    have e2 : (Bbn.run ops').weight ℓ σ = (Bbn.run ops').weight (pinned ((Bbn.run ops').among zs) τ) σ := by
      refine weight_congr ?_ (hdom σ hσ)
      intro v hv u hu
      rw [hℓ, observeAll_spec (vars_nodup hinv') (hsub _) (fun w hw => hτd w (hsub _ w hw)) v hv u hu]
      rfl
    rw [e1, e2, weight_pinned (hsub _), weight_pinned (hsub _)]
    have e3 : (agree ((Bbn.run ops').among (y :: zs)) τ σ = true) ↔ agree ((Bbn.run ops').among zs) τ σ = true ∧ dec (σ y) = c := by
      unfold agree
      rw [decide_eq_true_eq, decide_eq_true_eq, hdec _ _ (hσy σ hσ)]
      constructor
      · intro h
        refine ⟨fun v hv => h v (List.mem_filter.2 ⟨hsub _ v hv, ?_⟩), ?_⟩
        · have := (List.mem_filter.1 hv).2
          simp only [decide_eq_true_eq] at this
          simp [this]
        · have := h vy (List.mem_filter.2 ⟨hvy, by simp [hvyid]⟩)
          rw [hvyid] at this
          rw [this, hτ]
          simp
      · rintro ⟨h1, h2⟩ v hv
        have h3 := (List.mem_filter.1 hv).2
        simp only [List.mem_cons, decide_eq_true_eq] at h3
        by_cases hvz : v.id ∈ zs
        · exact h1 v (List.mem_filter.2 ⟨hsub _ v hv, by simpa using hvz⟩)
        · have h4 : v.id = y := h3.resolve_right hvz
          rw [h4, h2, hτ]
          simp
    by_cases h1 : agree ((Bbn.run ops').among zs) τ σ = true
    · by_cases h2 : dec (σ y) = c
      · rw [if_pos (e3.2 ⟨h1, h2⟩), if_pos h1, if_pos h2, mul_one]
      · rw [if_neg (fun h => h2 (e3.1 h).2), if_neg h2, zero_mul, mul_zero]
    · rw [if_neg (fun h => h1 (e3.1 h).1), if_neg h1, zero_mul, zero_mul]
  have hEvZ := hsum (fun i => decide (i ∈ zs)) ζ ℓ hweq
  have t1 : (Bbn.run ops').total ℓ = E (fun i => decide (i ∈ zs)) f ζ l (fun _ => 1) (fun _ => dec []) := by
    rw [← hEvZ (fun _ => 1)]
    unfold Bbn.total
    congr 1
    exact List.map_congr_left fun σ _ => (mul_one _).symm
  have t2 : (Bbn.run ops').total ℓ' = E (fun i => decide (i ∈ zs)) f ζ l (fun σ => if σ y = c then 1 else 0) (fun _ => dec []) := by
    rw [← hEvZ (fun σ => if σ y = c then 1 else 0)]
    unfold Bbn.total
    congr 1
    exact List.map_congr_left fun σ hσ => hw' σ hσ
  obtain ⟨vx, hvx, hvxid⟩ := List.mem_map.1 hx'
  have hσx : ∀ σ ∈ allAsg (Bbn.run ops').vars, σ x.id ∈ vals α := by
    intro σ hσ
    have := hdom σ hσ vx hvx
    rwa [hvals vx hvx, hvxid] at this
  have m1 : (Bbn.run ops').mass ℓ x.id (enc a) = E (fun i => decide (i ∈ zs)) f ζ l (fun σ => if σ x.id = a then 1 else 0) (fun _ => dec []) := by
    rw [← hEvZ (fun σ => if σ x.id = a then 1 else 0)]
    unfold Bbn.mass
    rw [sum_map_filter]
    congr 1
    apply List.map_congr_left
    intro σ hσ
    by_cases h : σ x.id = enc a
    · rw [if_pos (by simpa using h), if_pos ((hdec _ _ (hσx σ hσ)).2 h), mul_one]
    · rw [if_neg (by simpa using h), if_neg (fun h' => h ((hdec _ _ (hσx σ hσ)).1 h')), mul_zero]
  have m2 : (Bbn.run ops').mass ℓ' x.id (enc a) =
      E (fun i => decide (i ∈ zs)) f ζ l (fun σ => (if σ x.id = a then 1 else 0) * (if σ y = c then 1 else 0)) (fun _ => dec []) := by
    rw [← hEvZ (fun σ => (if σ x.id = a then 1 else 0) * (if σ y = c then 1 else 0))]
    unfold Bbn.mass
    rw [sum_map_filter]
    congr 1
    apply List.map_congr_left
    intro σ hσ
    rw [hw' σ hσ]
    by_cases h : σ x.id = enc a
    · rw [if_pos (by simpa using h), if_pos ((hdec _ _ (hσx σ hσ)).2 h), one_mul]
    · rw [if_neg (by simpa using h), if_neg (fun h' => h ((hdec _ _ (hσx σ hσ)).1 h')), zero_mul, mul_zero]
  refine ⟨by rw [t1]; exact hT, by rw [t2]; exact hB, ?_⟩
  intro it js
  obtain ⟨jt, hj, _⟩ := (c16_exact_priors it js ops' hu.wf hu.conn).1 (by intro h; rw [h] at hvx; simp at hvx)
  have hname' : ((Bbn.run ops').vars.map Variable.name).Nodup := by rw [hs.names]; exact hname
  obtain ⟨d, h1, _, h2⟩ := Reach.posteriors (s := runHist jt (observeAll ((Bbn.run ops').among zs) τ)) (ℓ := ℓ) hu hj hname'
    ⟨_, observeAll_ok (hsub _) (fun w hw => hτd w (hsub _ w hw)), rfl, fun _ _ _ _ => rfl⟩
  obtain ⟨d', h1', _, h2'⟩ := Reach.posteriors (s := runHist jt (observeAll ((Bbn.run ops').among (y :: zs)) τ)) (ℓ := ℓ') hu hj hname'
    ⟨_, observeAll_ok (hsub _) (fun w hw => hτd w (hsub _ w hw)), rfl, fun _ _ _ _ => rfl⟩
  refine ⟨jt, hj, d, d', h1, h1', ?_⟩
  have hnm := hs.name_eq hx hvx hvxid
  rw [← hnm, h2 vx hvx, h2' vx hvx]
  intro hcon
  have h3 := List.map_inj_left.1 (Option.some.inj hcon) (enc a) (by rw [hvals vx hvx]; exact mem_vals.2 ⟨a, rfl⟩)
  have h4 := (Prod.mk.inj h3).2
  rw [hvxid] at h4
  unfold Bbn.posterior at h4
  rw [m1, m2, t1, t2] at h4
  exact hne h4

/-- in every network made by the same calls with other values and CPTs: once `zs` is observed, evidence on `ys` does not change the answer
for `x` -/
def NeverMatters (ops : List BOp) (x : Variable) (ys zs : List Int) : Prop :=
  ∀ ops', SameStructure ops ops' → Net.Usable ops' → (Bbn.run ops').Normalized (Bbn.run ops').parentVars →
    ∀ it js jt, apply it js (Bbn.run ops') = .ok jt → ∀ τ h h', EvidenceOn (Bbn.run ops') ys zs τ h → EvidenceOn (Bbn.run ops') ys zs τ h' →
      (Bbn.run ops').total (specHist (Bbn.run ops').vars h) ≠ 0 → (Bbn.run ops').total (specHist (Bbn.run ops').vars h') ≠ 0 →
      ∃ d d', (runHist jt h).getPosteriors = .ok d ∧ (runHist jt h').getPosteriors = .ok d' ∧
        (Dict.get? d x.name).isSome ∧ Dict.get? d x.name = Dict.get? d' x.name

theorem among_evidenceOn {b : Bbn} (hb : BbnInv b) {ys zs ws : List Int} {τ : Asg} (hτ : InDom b.vars τ) (h1 : ∀ z ∈ zs, z ∈ ws)
    (h2 : ∀ w ∈ ws, w ∈ zs ∨ w ∈ ys) : EvidenceOn b ys zs τ (observeAll (b.among ws) τ) := by
  have hsub : ∀ v ∈ b.among ws, v ∈ b.vars := fun v hv => (List.mem_filter.1 hv).1
  have hd : ∀ v ∈ b.among ws, τ v.id ∈ v.values := fun v hv => hτ v (hsub v hv)
  refine ⟨observeAll_ok hsub hd, ?_, ?_⟩
  · intro v hv hz u hu
    rw [observeAll_spec (vars_nodup hb) hsub hd v hv u hu, if_pos]
    exact List.mem_map_of_mem (List.mem_filter.2 ⟨hv, by simpa using h1 _ hz⟩)
  · intro v hv hy hz u hu
    rw [observeAll_spec (vars_nodup hb) hsub hd v hv u hu, if_neg]
    intro h
    obtain ⟨w, hw, e⟩ := List.mem_map.1 h
    have := (List.mem_filter.1 hw).2
    rw [decide_eq_true_eq, e] at this
    rcases h2 _ this with h | h
    · exact hz h
    · exact hy h

/-- **C103**, both directions. On a connected acyclic network with distinct names, `do.py` finds all paths between `x` and the nodes of `ys`
inactive given `zs` exactly if, whatever the values and the (normalized) CPTs of the nodes are, evidence on `ys` never changes the answer
for `x` once `zs` is observed. -/
theorem c103_exact (hconn : ConnectedOps ops) (hac : AcyclicOps ops) (hname : ((Bbn.run ops).vars.map Variable.name).Nodup)
    {x : Variable} (hx : x ∈ (Bbn.run ops).vars) {ys zs : List Int} (hxy : x.id ∉ ys) (hxz : x.id ∉ zs) (hyz : ∀ y ∈ ys, y ∉ zs) :
    AllInactive (Bbn.run ops) x.id ys zs ↔ NeverMatters ops x ys zs := by
  constructor
  · intro hin ops' hs hu hn it js jt hj τ h h' he he' hpos hpos'
    have hx' : x.id ∈ (Bbn.run ops').vars.map Variable.id := by rw [hs.ids]; exact List.mem_map_of_mem hx
    obtain ⟨vx, hvx, hvxid⟩ := List.mem_map.1 hx'
    have hnm := hs.name_eq hx hvx hvxid
    have hin' : AllInactive (Bbn.run ops') vx.id ys zs := by
      unfold AllInactive
      rw [hs.nx, hvxid]
      exact hin
    have := c63_d_separation hu (hs.acyclic hac) hn (by rw [hs.names]; exact hname) hj hvx (by rw [hvxid]; exact hxy) (by rw [hvxid]; exact hxz)
      hyz hin' he he' hpos hpos'
    rw [hnm] at this
    exact this
  · intro hnm y hy p hp
    have hne : x.id ≠ y := fun e => hxy (e ▸ hy)
    have hres : ∃ r, Do.isActivePath (Bbn.run ops).toNxGraph.1 p ⟨true, zs⟩ = .ok r := by
      have hpath := (c39_all_paths (nxGraph_wf ops) hne p).1 hp
      by_cases h3 : 3 ≤ p.length
      · obtain ⟨r, k1, _⟩ := c39_path_activity (nxGraph_wf ops) (nxGraph_acyclic hac) hpath h3 zs
        exact ⟨r, k1⟩
      · obtain ⟨b, l, rfl⟩ := Do.path_cons hpath hne
        cases l with
        | cons c l => simp at h3
        | nil =>
          obtain ⟨r, k1, _⟩ := c39_edge (g := (Bbn.run ops).toNxGraph.1) (x := x.id) (y := b) ⟨true, zs⟩
          exact ⟨r, k1⟩
    obtain ⟨r, hr⟩ := hres
    cases r with
    | false => exact hr
    | true =>
      exfalso
      obtain ⟨ops', hs, hu, hn, τ, hτ, hp1, hp2, hrep⟩ := c103_active_path hconn hac hname hx hne hxz (hyz y hy) hp hr
      obtain ⟨jt, hj, d, d', h1, h2, h3⟩ := hrep .same .same
      obtain ⟨e, e', g1, g2, _, g3⟩ := hnm ops' hs hu hn .same .same jt hj τ _ _
        (among_evidenceOn (bbn_run_inv ops') hτ (fun _ h => h) (fun _ h => .inl h))
        (among_evidenceOn (bbn_run_inv ops') hτ (fun _ h => List.mem_cons_of_mem _ h) (fun w h => by
          rcases List.mem_cons.1 h with rfl | h
          · exact .inr hy
          · exact .inl h)) hp1 hp2
      rw [h1] at g1
      rw [h2] at g2
      cases g1
      cases g2
      exact h3 g3

/-! ## The claims at an example -/

/-- the diamond of C16, nodes 0 and 4 observed: the path through 0 is inactive, the path through the collider 3, whose descendant 4 is
observed, is active -/
theorem c103_paths : activities (Bbn.run c16_ops) 1 2 [0, 4] = [([1, 0, 2], some false), ([1, 3, 2], some true)] := by decide +kernel

theorem c103_active : Do.isActivePath (Bbn.run c16_ops).toNxGraph.1 [1, 3, 2] ⟨true, [0, 4]⟩ = .ok true := by
  have key : (Do.isActivePath (Bbn.run c16_ops).toNxGraph.1 [1, 3, 2] ⟨true, [0, 4]⟩).val? = some true := by decide +kernel
  cases hr : Do.isActivePath (Bbn.run c16_ops).toNxGraph.1 [1, 3, 2] ⟨true, [0, 4]⟩ with
  | error e => rw [hr] at key; cases key
  | ok r => rw [hr] at key; rw [Option.some.inj key]

/-- C103 at this path -/
example := c103_active_path c16_usable.conn c16_acyclic (by decide +kernel) (x := c16_node 1) (by decide +kernel) (y := 2) (by decide)
  (zs := [0, 4]) (by decide) (by decide) (p := [1, 3, 2]) (by decide +kernel) c103_active

/-- so evidence on 2 can matter for 1 although 0 is observed … -/
example : ¬ NeverMatters c16_ops (c16_node 1) [2] [0, 4] := by
  rw [← c103_exact c16_usable.conn c16_acyclic (by decide +kernel) (by decide +kernel) (by decide) (by decide) (by decide)]
  intro h
  have := h 2 (by simp) [1, 3, 2] (by decide +kernel)
  rw [show Do.isActivePath (Bbn.run c16_ops).toNxGraph.1 [1, 3, 2] ⟨true, [0, 4]⟩ = .ok true from c103_active] at this
  cases this

/-- … and never does when only 0 is observed -/
example : NeverMatters c16_ops (c16_node 1) [2] [0] := by
  rw [← c103_exact c16_usable.conn c16_acyclic (by decide +kernel) (by decide +kernel) (by decide) (by decide) (by decide)]
  have key : ∀ y ∈ [2], ∀ p ∈ Do.allPaths (Bbn.run c16_ops).toNxGraph.1 1 y,
      (Do.isActivePath (Bbn.run c16_ops).toNxGraph.1 p ⟨true, [0]⟩).val? = some false := by decide +kernel
  intro y hy p hp
  have := key y hy p hp
  cases hr : Do.isActivePath (Bbn.run c16_ops).toNxGraph.1 p ⟨true, [0]⟩ with
  | error e => rw [hr] at this; cases this
  | ok r => rw [hr] at this; rw [Option.some.inj this]

end PyBBN
