import Verif.Proofs.InitJt

/-! From calibrated tables to posteriors. -/

namespace PyBBN
open Propagator

/-! ### sums over joint assignments -/

/-- total weight of all joint assignments of `vars` -/
def totalOf (vars : List Variable) (W : Asg → ℚ) : ℚ := ((allAsg vars).map W).sum

/-- total weight of the joint assignments with value `x` at `i` -/
def massOf (vars : List Variable) (W : Asg → ℚ) (i : Int) (x : Str) : ℚ :=
  (((allAsg vars).filter (fun σ => decide (σ i = x))).map W).sum

section
variable {vars : List Variable} {D : Int → List Str}

theorem filter_ne_perm {l : List Int} (hl : l.Nodup) {i : Int} (hi : i ∈ l) :
    l.Perm (i :: l.filter (fun j => decide (j ∉ [i]))) := by
  have hn : (i :: l.filter (fun j => decide (j ∉ [i]))).Nodup := by
    rw [List.nodup_cons]
    exact ⟨by simp, hl.filter _⟩
  rw [List.perm_ext_iff_of_nodup hl hn]
  intro j
  by_cases e : j = i
  · subst e; simp [hi]
  · simp [e]

theorem massOf_eq (hn : (vids vars).Nodup) (hD : DomOk D vars) {v : Variable} (hv : v ∈ vars) (hvn : v.values.Nodup)
    (W : Asg → ℚ) {x : Str} (hx : x ∈ v.values) :
    massOf vars W v.id x = elim D ((vids vars).filter (fun j => decide (j ∉ [v.id]))) W (Function.update asg0 v.id x) := by
  unfold massOf
  rw [sum_filter_map, sum_allAsg vars hn hD, elim_perm (filter_ne_perm hn (List.mem_map_of_mem hv)), elim_cons]
  unfold sumv
  rw [hD v hv]
  have key : (fun σ : Asg => if decide (σ v.id = x) = true then W σ else 0) =
      fun σ => (if σ v.id = x then (1 : ℚ) else 0) * W σ := by
    funext σ
    by_cases e : σ v.id = x <;> simp [e]
  have hdep : Dep (fun i => i = v.id) (fun σ : Asg => if σ v.id = x then (1 : ℚ) else 0) := by
    intro σ τ h
    simp only [h v.id rfl]
  rw [key, elim_mul_left hdep (by intro i hi; simpa using (List.mem_filter.1 hi).2)]
  rw [sum_single hvn hx]
  · simp
  · intro y _ hy
    simp [hy]

theorem totalOf_eq (hn : (vids vars).Nodup) (hD : DomOk D vars) (W : Asg → ℚ) :
    totalOf vars W = elim D (vids vars) W asg0 := sum_allAsg vars hn hD W

end

/-! ### components of the join tree -/

section
variable {vars : List Variable} {cs : List Clique} {T : List SepSet} {jt : JoinTree} {N : Net}

/-- `ks` are the ids of the cliques connected to `R`, `vs` their variables -/
structure Comp (cs : List Clique) (T : List SepSet) (jt : JoinTree) (R : Clique) (ks : List Str) (vs : List Int) : Prop where
  root : R ∈ cs
  ksNodup : ks.Nodup
  mem : ∀ k, k ∈ ks ↔ ∃ C ∈ cs, C.id = k ∧ Conn sl sr T R.fs C.fs
  vsNodup : vs.Nodup
  memV : ∀ i, i ∈ vs ↔ ∃ k ∈ ks, i ∈ vids (jt.scope k)

theorem wprod_ks (pc : Variable → Str) (w : Variable → Asg → ℚ) {ks : List Str} (hk : ks.Nodup) (σ : Asg) :
    ∀ (l : List Variable), (ks.map (fun k => wprod pc w l k σ)).prod =
      ((l.filter (fun v => decide (pc v ∈ ks))).map (fun v => w v σ)).prod
  | [] => by simp [wprod_nil]
  | v :: l => by
      have e : (ks.map (fun k => wprod pc w (v :: l) k σ)).prod =
          (ks.map (fun k => (if pc v = k then w v σ else 1) * wprod pc w l k σ)).prod := by
        congr 1
        exact List.map_congr_left (fun k _ => wprod_cons pc w v l k σ)
      rw [e, List.prod_map_mul, wprod_ks pc w hk σ l]
      by_cases h : pc v ∈ ks
      · rw [prod_single hk h _ (by intro k _ hne; rw [if_neg (fun e => hne e.symm)])]
        simp [h]
      · have : (ks.map (fun k => if pc v = k then w v σ else 1)).prod = 1 := by
          apply List.prod_eq_one
          intro a ha
          obtain ⟨k, hk, rfl⟩ := List.mem_map.1 ha
          rw [if_neg]
          rintro rfl
          exact h hk
        rw [this]
        simp [h]

/-- product of the factors of the nodes selected by `P` -/
def wsel (vars : List Variable) (w : Variable → Asg → ℚ) (P : Variable → Bool) (σ : Asg) : ℚ :=
  ((vars.filter P).map (fun v => w v σ)).prod

theorem prod_map_dep {S : Int → Prop} (w : Variable → Asg → ℚ) : ∀ (l : List Variable), (∀ v ∈ l, Dep S (w v)) →
    Dep S (fun σ => (l.map (fun v => w v σ)).prod)
  | [], _ => Dep.const 1
  | v :: l, h => by
      have := (h v List.mem_cons_self).mul (prod_map_dep w l (fun u hu => h u (List.mem_cons_of_mem _ hu)))
      simpa only [List.map_cons, List.prod_cons] using this

theorem prod_map_nonneg (w : Variable → Asg → ℚ) (σ : Asg) : ∀ (l : List Variable), (∀ v ∈ l, 0 ≤ w v σ) →
    0 ≤ (l.map (fun v => w v σ)).prod
  | [], _ => by simp
  | v :: l, h => by
      rw [List.map_cons, List.prod_cons]
      exact mul_nonneg (h v List.mem_cons_self) (prod_map_nonneg w σ l (fun u hu => h u (List.mem_cons_of_mem _ hu)))

theorem wsel_split (w : Variable → Asg → ℚ) (P : Variable → Bool) (σ : Asg) : ∀ (vars : List Variable),
    (vars.map (fun v => w v σ)).prod = wsel vars w P σ * wsel vars w (fun v => !P v) σ
  | [] => by simp [wsel]
  | v :: l => by
      have ih := wsel_split w P σ l
      unfold wsel at ih ⊢
      rw [List.map_cons, List.prod_cons, ih]
      cases h : P v <;> simp [h] <;> ring

/-- factor of a node: local function times likelihood -/
def Net.w (N : Net) (ℓ : Int → Str → ℚ) (v : Variable) (σ : Asg) : ℚ := N.loc v σ * ℓ v.id (σ v.id)

/-- weight of a joint assignment -/
def Net.W (N : Net) (ℓ : Int → Str → ℚ) (vars : List Variable) (σ : Asg) : ℚ := (vars.map (fun v => N.w ℓ v σ)).prod

theorem Net.w_dep (hN : NetOk vars N) (ℓ : Int → Str → ℚ) {v : Variable} (hv : v ∈ vars) :
    Dep (fun i => i ∈ vids (N.fam v)) (N.w ℓ v) := by
  refine (hN.dep v hv).mul ?_
  intro σ τ h
  show ℓ v.id (σ v.id) = ℓ v.id (τ v.id)
  rw [h v.id (List.mem_map_of_mem (hN.self v hv))]

theorem Net.w_nonneg (hN : NetOk vars N) {ℓ : Int → Str → ℚ} (hℓ : ∀ i x, 0 ≤ ℓ i x) {v : Variable} (hv : v ∈ vars) (σ : Asg) :
    0 ≤ N.w ℓ v σ := mul_nonneg (hN.nonneg v hv σ) (hℓ _ _)

theorem HeapDone.pc (hd : HeapDone vars cs N jt.heap) {v : Variable} (hv : v ∈ vars) :
    ∃ c ∈ cs, pcOf jt.heap v = c.id ∧ ∀ u ∈ N.fam v, u ∈ c.nodes := by
  obtain ⟨o, ho, _, c, hc, he, hf⟩ := hd v hv
  exact ⟨c, hc, by unfold pcOf; rw [ho]; simp [he], hf⟩

/-- two cliques that share a variable are connected -/
theorem JTSpec.conn_of_mem (h : JTSpec cs T jt) {i : Int} {c d : Clique} (hc : c ∈ cs) (hd : d ∈ cs) (hic : i ∈ vids c.nodes)
    (hid : i ∈ vids d.nodes) : Conn sl sr T c.fs d.fs :=
  (h.rip i c hc d hd ((c.mem_fs i).2 hic) ((d.mem_fs i).2 hid)).mono (fun _ ht => (List.mem_filter.1 ht).1)

theorem Comp.clique_iff {R : Clique} {ks : List Str} {vs : List Int} (hc : Comp cs T jt R ks vs) (h : Ctx vars cs T jt)
    {c : Clique} (hcc : c ∈ cs) {i : Int} (hi : i ∈ vids c.nodes) : c.id ∈ ks ↔ i ∈ vs := by
  constructor
  · intro hk
    exact (hc.memV i).2 ⟨c.id, hk, by rw [h.spec.scope_clique hcc]; exact hi⟩
  · intro hv
    obtain ⟨k, hk, hik⟩ := (hc.memV i).1 hv
    obtain ⟨C, hC, rfl, hconn⟩ := (hc.mem k).1 hk
    rw [h.spec.scope_clique hC] at hik
    exact (hc.mem _).2 ⟨c, hcc, rfl, hconn.trans (h.spec.conn_of_mem hC hcc hik hi)⟩

theorem Comp.pc_iff {R : Clique} {ks : List Str} {vs : List Int} (hc : Comp cs T jt R ks vs) (h : Ctx vars cs T jt)
    (hN : NetOk vars N) (hd : HeapDone vars cs N jt.heap) {v : Variable} (hv : v ∈ vars) :
    pcOf jt.heap v ∈ ks ↔ v.id ∈ vs := by
  obtain ⟨c, hcc, e, hf⟩ := hd.pc hv
  rw [e]
  exact hc.clique_iff h hcc (List.mem_map_of_mem (hf v (hN.self v hv)))

/-- the weight splits into the part of a component and the rest, and so do its sums -/
theorem Comp.split {R : Clique} {ks : List Str} {vs : List Int} (hc : Comp cs T jt R ks vs) (h : Ctx vars cs T jt)
    (hN : NetOk vars N) (hd : HeapDone vars cs N jt.heap) (ℓ : Int → Str → ℚ) :
    ∃ (A : Asg → ℚ) (Z : ℚ), Dep (fun i => i ∈ vs) A ∧ ((∀ i x, 0 ≤ ℓ i x) → ∀ σ, 0 ≤ A σ) ∧
      (∀ σ, (ks.map (fun k => wprod (pcOf jt.heap) (N.w ℓ) vars k σ)).prod = A σ) ∧
      ((∀ u ∈ vars, u.id ∈ vs) → Z = 1) ∧
      totalOf vars (N.W ℓ vars) = elim (domOf vars) vs A asg0 * Z ∧
      (∀ v ∈ vars, v.id ∈ vs → ∀ x ∈ v.values, massOf vars (N.W ℓ vars) v.id x =
        elim (domOf vars) (vs.filter (fun j => decide (j ∉ [v.id]))) A (Function.update asg0 v.id x) * Z) := by
  have hvsub : ∀ i ∈ vs, i ∈ vids vars := by
    intro i hi
    obtain ⟨k, _, hik⟩ := (hc.memV i).1 hi
    obtain ⟨u, hu, rfl⟩ := List.mem_map.1 hik
    exact List.mem_map_of_mem (h.scope_sub k u hu)
  set P : Variable → Bool := fun v => decide (v.id ∈ vs) with hP
  set A := wsel vars (N.w ℓ) P with hA
  set B := wsel vars (N.w ℓ) (fun v => !P v) with hB
  set rest := (vids vars).filter (fun i => decide (i ∉ vs)) with hrest
  have hW : N.W ℓ vars = fun σ => A σ * B σ := by
    funext σ
    exact wsel_split (N.w ℓ) P σ vars
  have hAdep : Dep (fun i => i ∈ vs) A := by
    refine prod_map_dep _ _ ?_
    intro v hv
    obtain ⟨hv, hpv⟩ := List.mem_filter.1 hv
    simp only [hP, decide_eq_true_eq] at hpv
    refine (Net.w_dep hN ℓ hv).mono ?_
    intro i hi
    obtain ⟨c, hcc, e, hf⟩ := hd.pc hv
    obtain ⟨u, hu, rfl⟩ := List.mem_map.1 hi
    have hk : c.id ∈ ks := by rw [← e]; exact (hc.pc_iff h hN hd hv).2 hpv
    exact (hc.clique_iff h hcc (List.mem_map_of_mem (hf u hu))).1 hk
  have hBdep : Dep (fun i => i ∉ vs) B := by
    refine prod_map_dep _ _ ?_
    intro v hv
    obtain ⟨hv, hpv⟩ := List.mem_filter.1 hv
    simp only [hP, Bool.not_eq_true', decide_eq_false_iff_not] at hpv
    refine (Net.w_dep hN ℓ hv).mono ?_
    intro i hi hvs
    obtain ⟨c, hcc, e, hf⟩ := hd.pc hv
    obtain ⟨u, hu, rfl⟩ := List.mem_map.1 hi
    apply hpv
    rw [← hc.pc_iff h hN hd hv, e]
    exact (hc.clique_iff h hcc (List.mem_map_of_mem (hf u hu))).2 hvs
  have hBdep' : Dep (fun i => i ∈ rest) B := by
    have : Dep (fun i => i ∈ vids vars) B := by
      refine prod_map_dep _ _ ?_
      intro v hv
      refine (Net.w_dep hN ℓ (List.mem_filter.1 hv).1).mono ?_
      intro i hi
      obtain ⟨u, hu, rfl⟩ := List.mem_map.1 hi
      exact List.mem_map_of_mem (hN.sub v (List.mem_filter.1 hv).1 u hu)
    intro σ τ hst
    -- change the coordinates outside `vars`, then those in `vs`
    have h1 : B σ = B (fun i => if i ∈ vids vars then σ i else τ i) := this _ _ (fun i hi => by simp [hi])
    rw [h1]
    apply hBdep
    intro i hi
    by_cases hv : i ∈ vids vars
    · simp only [hv, if_true]
      exact hst i (List.mem_filter.2 ⟨hv, by simpa using hi⟩)
    · simp [hv]
  have hZ : ∀ σ, elim (domOf vars) rest B σ = elim (domOf vars) rest B asg0 := by
    intro σ
    refine (hBdep'.elim rest) σ asg0 ?_
    rintro i ⟨h1, h2⟩
    exact absurd h1 h2
  have hrestn : rest.Nodup := h.vn.filter _
  -- summing out a sublist of `vs` and `rest`
  have hsum : ∀ (l : List Int), l.Nodup → (∀ i ∈ l, i ∈ vs) → ∀ (m : List Int), m.Nodup → (∀ i, i ∈ m ↔ i ∈ l ∨ i ∈ rest) → ∀ σ,
      elim (domOf vars) m (N.W ℓ vars) σ = elim (domOf vars) l A σ * elim (domOf vars) rest B asg0 := by
    intro l hln hl m hm hmem σ
    have hdisj : (l ++ rest).Nodup := by
      refine List.Nodup.append hln hrestn ?_
      intro i hi hi'
      have := (List.mem_filter.1 hi').2
      simp only [decide_eq_true_eq] at this
      exact this (hl i hi)
    rw [elim_congr_mem hm hdisj (by intro i; rw [List.mem_append]; exact hmem i), elim_append, hW,
      elim_mul_left hAdep (by intro i hi; have := (List.mem_filter.1 hi).2; simpa using this)]
    have : (fun σ => A σ * elim (domOf vars) rest B σ) = fun σ => A σ * elim (domOf vars) rest B asg0 := by
      funext τ; rw [hZ τ]
    rw [this, elim_mul_right (Dep.const (S := fun _ => False) _) (by simp)]
  refine ⟨A, elim (domOf vars) rest B asg0, hAdep, ?_, ?_, ?_, ?_, ?_⟩
  · intro hℓ σ
    exact prod_map_nonneg _ _ _ (fun v hv => Net.w_nonneg hN hℓ (List.mem_filter.1 hv).1 σ)
  · intro σ
    rw [wprod_ks _ _ hc.ksNodup]
    rw [hA]
    unfold wsel
    rw [List.filter_congr (q := P) (fun v hv => by rw [hP]; exact decide_eq_decide.2 (hc.pc_iff h hN hd hv))]
  · intro hall
    have hr : rest = [] := by
      rw [hrest, List.filter_eq_nil_iff]
      intro i hi
      obtain ⟨u, hu, rfl⟩ := List.mem_map.1 hi
      simp only [decide_eq_true_eq, not_not]
      exact hall u hu
    rw [hr, elim_nil, hB]
    unfold wsel
    have : vars.filter (fun v => !P v) = [] := by
      rw [List.filter_eq_nil_iff]
      intro u hu
      simp only [hP, Bool.not_eq_true', decide_eq_false_iff_not, not_not]
      exact hall u hu
    rw [this]
    rfl
  · rw [totalOf_eq h.vn (domOf_ok h.vn)]
    refine hsum vs hc.vsNodup (fun i hi => hi) _ h.vn ?_ _
    intro i
    constructor
    · intro hi
      by_cases hv : i ∈ vs
      · exact Or.inl hv
      · exact Or.inr (List.mem_filter.2 ⟨hi, by simpa using hv⟩)
    · rintro (hi | hi)
      · exact hvsub i hi
      · exact (List.mem_filter.1 hi).1
  · intro v hv hvs x hx
    rw [massOf_eq h.vn (domOf_ok h.vn) hv (h.vals v hv) _ hx]
    refine hsum _ (hc.vsNodup.filter _) (fun i hi => (List.mem_filter.1 hi).1) _ (h.vn.filter _) ?_ _
    intro i
    simp only [List.mem_filter, decide_eq_true_eq, hrest]
    constructor
    · rintro ⟨hi, hne⟩
      by_cases hv' : i ∈ vs
      · exact Or.inl ⟨hv', hne⟩
      · exact Or.inr ⟨hi, hv'⟩
    · rintro (⟨hi, hne⟩ | ⟨hi, hne⟩)
      · exact ⟨hvsub i hi, hne⟩
      · refine ⟨hi, ?_⟩
        intro e
        simp only [List.mem_cons, List.not_mem_nil, or_false] at e
        subst e
        exact hne hvs

/-- the tables of a join tree after propagation with the likelihoods `ℓ` -/
structure Calib (vars : List Variable) (cs : List Clique) (T : List SepSet) (N : Net) (ℓ : Int → Str → ℚ) (jt : JoinTree) :
    Prop where
  ctx : Ctx vars cs T jt
  done : HeapDone vars cs N jt.heap
  ev : EvOk vars jt.evidences
  likNonneg : ∀ i x, 0 ≤ ℓ i x
  tabs : ∃ (χ : Tabs) (R : Clique) (ks : List Str) (vs : List Int), startClique jt = some R ∧ Comp cs T jt R ks vs ∧
    HasTabs jt χ ∧ (∀ k, Dep (fun i => i ∈ vids (jt.scope k)) (χ k)) ∧ (∀ k σ, 0 ≤ χ k σ) ∧
    (∀ k, k ∈ ks ∨ (∃ s ∈ T, s.id = k ∧ s.left.id ∈ ks) → EqD (domOf vars) (vids (jt.scope k)) (χ k)
      (elim (domOf vars) (vs.filter (fun i => decide (i ∉ vids (jt.scope k))))
        (fun σ => (ks.map (fun k => wprod (pcOf jt.heap) (N.w ℓ) vars k σ)).prod))) ∧
    (∀ k, k ∉ ks → (∀ s ∈ T, s.id = k → s.left.id ∉ ks) → χ k = wprod (pcOf jt.heap) (N.w ℓ) vars k)

/-- initialization followed by propagation -/
theorem Ctx.run (h : Ctx vars cs T jt) (hN : NetOk vars N) (hh : HeapOk vars cs N jt.heap) (hev : EvPre vars jt.evidences)
    (hl : ∀ i x, 0 ≤ lik jt.evidences i x) (hne : cs ≠ []) (js : SetIter Str) :
    ∃ p heap ev, (do let jt ← Initializer.initializeJt jt
                     Propagator.propagate js jt : Py JoinTree) = .ok { jt with potentials := p, heap := heap, evidences := ev } ∧
      HeapStep jt.heap heap ∧ (HeapDone vars cs N jt.heap → heap = jt.heap) ∧ lik ev = lik jt.evidences ∧
      (∀ v ∈ vars, ∀ m, Dict.get? jt.evidences v.id = some m → Dict.get? ev v.id = some m) ∧
      (∀ i, i ∉ vids vars → Dict.get? ev i = Dict.get? jt.evidences i) ∧
      Calib vars cs T N (lik jt.evidences) { jt with potentials := p, heap := heap, evidences := ev } := by
  obtain ⟨p, heap, ev, a1, a2, a3, a4, a5, a6, a7, a9, a8⟩ := h.init hN hh hev
  have h' : Ctx vars cs T { jt with potentials := p, heap := heap, evidences := ev } := h.frame rfl rfl
  have hpc : ∀ v ∈ vars, ∃ c ∈ cs, pcOf heap v = c.id ∧ ∀ u ∈ N.fam v, u ∈ c.nodes :=
    fun v hv => HeapDone.pc (jt := { jt with heap := heap }) a3 hv
  have hdep : ∀ k, Dep (fun i => i ∈ vids (jt.scope k))
      (wprod (pcOf heap) (fun v σ => N.loc v σ * lik jt.evidences v.id (σ v.id)) vars k) := by
    intro k
    refine prod_map_dep (fun v σ => N.loc v σ * lik jt.evidences v.id (σ v.id)) _ ?_
    intro v hv
    obtain ⟨hv, hk⟩ := List.mem_filter.1 hv
    simp only [decide_eq_true_eq] at hk
    refine (Net.w_dep hN (lik jt.evidences) hv).mono ?_
    intro i hi
    obtain ⟨c, hc, e, hf⟩ := hpc v hv
    obtain ⟨u, hu, rfl⟩ := List.mem_map.1 hi
    rw [← hk, e, h.spec.scope_clique hc]
    exact List.mem_map_of_mem (hf u hu)
  have hnn : ∀ k σ, 0 ≤ wprod (pcOf heap) (fun v σ => N.loc v σ * lik jt.evidences v.id (σ v.id)) vars k σ :=
    fun k σ => wprod_nonneg _ (fun v hv σ => Net.w_nonneg hN hl hv σ) k σ
  have hone : ∀ s ∈ T, wprod (pcOf heap) (fun v σ => N.loc v σ * lik jt.evidences v.id (σ v.id)) vars s.id = fun _ => 1 := by
    intro s hs
    funext σ
    unfold wprod
    have : vars.filter (fun v => decide (pcOf heap v = s.id)) = [] := by
      rw [List.filter_eq_nil_iff]
      intro v hv
      obtain ⟨c, hc, e, _⟩ := hpc v hv
      simp only [decide_eq_true_eq, e]
      exact (h.spec.shape.good s hs).ne_clique h.spec.fam hc
    rw [this]
    rfl
  obtain ⟨p', χ, R, ks, vs, b1, b2, b3, b4, b5, b6, b7, b8, b9, b10, b11, b12⟩ := h'.propagate js hne a8 hdep hnn hone
  refine ⟨p', heap, ev, ?_, a2, a4, a6, a7, a9, h.frame rfl rfl, a3, a5, hl, χ, R, ks, vs, b1, ⟨b2, b7, b8, b9, b10⟩, b4, b5, b6,
    b11, b12⟩
  rw [a1]; exact b3

/-- reading the posterior of a node from a table that is the marginal of its component -/
theorem Comp.posterior {R : Clique} {ks : List Str} {vs : List Int} (hc : Comp cs T jt R ks vs) (h : Ctx vars cs T jt)
    (hN : NetOk vars N) (hd : HeapDone vars cs N jt.heap) (ℓ : Int → Str → ℚ) (hℓ : ∀ i x, 0 ≤ ℓ i x) {χ : Tabs} (ht : HasTabs jt χ)
    {v : Variable} (hv : v ∈ vars) (hdep : Dep (fun i => i ∈ vids (jt.scope (pcOf jt.heap v))) (χ (pcOf jt.heap v)))
    (hks : pcOf jt.heap v ∈ ks)
    (heq : EqD (domOf vars) (vids (jt.scope (pcOf jt.heap v))) (χ (pcOf jt.heap v))
      (elim (domOf vars) (vs.filter (fun i => decide (i ∉ vids (jt.scope (pcOf jt.heap v)))))
        (fun σ => (ks.map (fun k => wprod (pcOf jt.heap) (N.w ℓ) vars k σ)).prod)))
    (hz : totalOf vars (N.W ℓ vars) ≠ 0 ∨ ∀ u ∈ vars, u.id ∈ vs) :
    jt.getBbnPotential v = .ok (v.values.map (fun x =>
      ⟨[(v.id, x)], massOf vars (N.W ℓ vars) v.id x / totalOf vars (N.W ℓ vars)⟩)) := by
  obtain ⟨A, Z, hAd, hAn, hAeq, hZ1, htot, hmass⟩ := hc.split h hN hd ℓ
  have hAn := hAn hℓ
  obtain ⟨o, ho, _, c, hcc, he, hf⟩ := hd v hv
  have hpc : pcOf jt.heap v = c.id := by unfold pcOf; rw [ho]; simp [he]
  rw [hpc] at heq hdep hks
  rw [h.spec.scope_clique hcc] at heq hdep
  have hck : c.id ∈ Dict.keys jt.nodes := Dict.mem_keys_of_get? (h.spec.get_clique hcc)
  have hvc : v ∈ c.nodes := hf v (hN.self v hv)
  have hvi : v.id ∈ vids c.nodes := List.mem_map_of_mem hvc
  have hvs : v.id ∈ vs := (hc.clique_iff h hcc hvi).1 hks
  have hD : ∀ i, (domOf vars i).Nodup := domOf_nodup h.vals
  have hDv : domOf vars v.id = v.values := domOf_ok h.vn v hv
  have hD1 : DomOk (domOf vars) [v] := (domOf_ok h.vn).sub (by intro u hu; simp at hu; subst hu; exact hv)
  have hDc : DomOk (domOf vars) c.nodes := (domOf_ok h.vn).sub (h.sub c hcc)
  have hcn := h.spec.fam.nodup c hcc
  have hAfun : (fun σ => (ks.map (fun k => wprod (pcOf jt.heap) (N.w ℓ) vars k σ)).prod) = A := funext hAeq
  rw [hAfun] at heq
  have hm := marginalize_tab (D := domOf vars) (ns := [v]) hcn (by simp) hDc hD1 (by simpa using hvi) hD hdep
  have hcsub : ∀ i ∈ vids c.nodes, i ∈ vs := by
    intro i hi
    exact (hc.clique_iff h hcc hi).1 hks
  -- the marginal of the table is the marginal of the component
  set g := elim (domOf vars) ((vids c.nodes).filter (fun i => decide (i ∉ vids [v]))) (χ c.id) with hg
  have hgA : ∀ σ : Asg, σ v.id ∈ v.values →
      g σ = elim (domOf vars) (vs.filter (fun j => decide (j ∉ [v.id]))) A σ := by
    intro σ hσ
    rw [hg, elim_congr_dom (fun i => i = v.id) _ (g := elim (domOf vars) (vs.filter (fun i => decide (i ∉ vids c.nodes))) A)]
    · rw [← elim_append]
      have : elim (domOf vars) ((vids c.nodes).filter (fun i => decide (i ∉ vids [v])) ++
          vs.filter (fun i => decide (i ∉ vids c.nodes))) A = elim (domOf vars) (vs.filter (fun j => decide (j ∉ [v.id]))) A := by
        apply elim_congr_mem
        · refine List.Nodup.append (hcn.filter _) (hc.vsNodup.filter _) ?_
          intro i hi hi'
          have h1 := (List.mem_filter.1 hi).1
          have h2 := (List.mem_filter.1 hi').2
          simp only [decide_eq_true_eq] at h2
          exact h2 h1
        · exact hc.vsNodup.filter _
        · intro i
          simp only [List.mem_append, List.mem_filter, decide_eq_true_eq, vids, List.map_cons, List.map_nil]
          constructor
          · rintro (⟨h1, h2⟩ | ⟨h1, h2⟩)
            · exact ⟨hcsub i h1, h2⟩
            · refine ⟨h1, ?_⟩
              intro e
              simp only [List.mem_cons, List.not_mem_nil, or_false] at e
              subst e
              exact h2 hvi
          · rintro ⟨h1, h2⟩
            by_cases hi : i ∈ vids c.nodes
            · exact Or.inl ⟨hi, h2⟩
            · exact Or.inr ⟨h1, hi⟩
      rw [this]
    · intro τ hτ
      apply heq
      intro i hi
      by_cases e : i = v.id
      · exact hτ i (Or.inl e)
      · exact hτ i (Or.inr (List.mem_filter.2 ⟨hi, by simpa using e⟩))
    · intro i hi _
      subst hi
      rw [hDv]; exact hσ
  have hgd : Dep (fun i => i = v.id) g := by
    refine (hdep.elim _).mono ?_
    rintro i ⟨h1, h2⟩
    by_contra hne
    exact h2 (List.mem_filter.2 ⟨h1, by simpa using hne⟩)
  have hsum : elim (domOf vars) (vids [v]) g asg0 = elim (domOf vars) vs A asg0 := by
    rw [elim_perm (filter_ne_perm hc.vsNodup hvs)]
    rw [vids_cons, elim_cons, elim_cons]
    refine congrArg List.sum ?_
    apply List.map_congr_left
    intro x hx
    rw [hDv] at hx
    exact hgA _ (by simpa using hx)
  unfold JoinTree.getBbnPotential
  rw [Dict.getItem_of_get? ho]
  simp only [bind, Except.bind, he]
  unfold marginalizeFor
  rw [ht c.id hck]
  simp only
  rw [h.spec.scope_clique hcc, hm, normalize_tab hD1]
  congr 1
  unfold tab
  rw [List.map_cons, List.map_nil]
  have hprod : product [v.values] = v.values.map (fun x => [x]) := by
    induction v.values with
    | nil => rfl
    | cons x xs ih =>
      simp only [product, List.flatMap_cons, List.map_cons, List.map_nil] at ih ⊢
      rw [ih]; rfl
  rw [hprod, List.map_map]
  apply List.map_congr_left
  intro x hx
  simp only [Function.comp]
  refine congrArg₂ PEntry.mk rfl ?_
  have ho : over asg0 (vids [v]) [x] = Function.update asg0 v.id x := rfl
  rw [ho, hsum, hgA _ (by simpa using hx), hmass v hv hvs x hx, htot]
  set Z1 := elim (domOf vars) vs A asg0 with hZ1d
  set fx := elim (domOf vars) (vs.filter (fun j => decide (j ∉ [v.id]))) A (Function.update asg0 v.id x) with hfx
  by_cases h0 : Z1 = 0
  · rw [if_pos h0]
    have : fx = 0 := by
      have hge : ∀ y ∈ v.values, 0 ≤ elim (domOf vars) (vs.filter (fun j => decide (j ∉ [v.id]))) A (Function.update asg0 v.id y) :=
        fun y _ => elim_nonneg hAn _ _
      have hs : (v.values.map (fun y => elim (domOf vars) (vs.filter (fun j => decide (j ∉ [v.id]))) A (Function.update asg0 v.id y))).sum = 0 := by
        rw [← h0, hZ1d, elim_perm (filter_ne_perm hc.vsNodup hvs), elim_cons, ← hDv]
        rfl
      refine le_antisymm ?_ (hge x hx)
      rw [← hs]
      exact List.single_le_sum (by
        intro a ha
        obtain ⟨y, hy, rfl⟩ := List.mem_map.1 ha
        exact hge y hy) _ (List.mem_map.2 ⟨x, hx, rfl⟩)
    rw [this]
    simp
  · rw [if_neg h0]
    rcases hz with hz | hz
    · rw [htot] at hz
      have hZ0 : Z ≠ 0 := fun e => hz (by rw [e, mul_zero])
      rw [mul_div_mul_right _ _ hZ0]
    · rw [hZ1 hz]
      simp

end

end PyBBN
