import Verif.Proofs.Apply

/-! What a calibrated join tree answers. -/

namespace PyBBN
open Propagator

section
variable {vars : List Variable} {cs : List Clique} {T : List SepSet} {jt : JoinTree} {N : Net} {ℓ : Int → Str → ℚ}

/-- the answer of exact inference for node `v` -/
def exactAnswer (vars : List Variable) (W : Asg → ℚ) (v : Variable) : Potential :=
  v.values.map (fun x => ⟨[(v.id, x)], massOf vars W v.id x / totalOf vars W⟩)

/-- nodes of the component of the start clique -/
theorem Calib.posterior_start (h : Calib vars cs T N ℓ jt) (hN : NetOk vars N) {v : Variable} (hv : v ∈ vars)
    {R : Clique} (hR : startClique jt = some R) {c : Clique} (hc : c ∈ cs) (hvc : v ∈ c.nodes) (hconn : Conn sl sr T R.fs c.fs)
    (hz : totalOf vars (N.W ℓ vars) ≠ 0 ∨ ∀ u ∈ vars, ∃ d ∈ cs, u ∈ d.nodes ∧ Conn sl sr T R.fs d.fs) :
    jt.getBbnPotential v = .ok (exactAnswer vars (N.W ℓ vars) v) := by
  obtain ⟨χ, R', ks, vs, hR', hcomp, ht, hdep, hnn, heq, _⟩ := h.tabs
  have : R' = R := Option.some.inj (hR'.symm.trans hR)
  subst this
  have mem : ∀ u ∈ vars, (∃ d ∈ cs, u ∈ d.nodes ∧ Conn sl sr T R'.fs d.fs) → u.id ∈ vs := by
    rintro u _ ⟨d, hd, hud, hcd⟩
    exact (hcomp.clique_iff h.ctx hd (List.mem_map_of_mem hud)).1 ((hcomp.mem _).2 ⟨d, hd, rfl, hcd⟩)
  have hks : pcOf jt.heap v ∈ ks := (hcomp.pc_iff h.ctx hN h.done hv).2 (mem v hv ⟨c, hc, hvc, hconn⟩)
  refine hcomp.posterior h.ctx hN h.done ℓ h.likNonneg ht hv (hdep _) hks (heq _ (Or.inl hks)) ?_
  rcases hz with hz | hz
  · exact Or.inl hz
  · exact Or.inr (fun u hu => mem u hu (hz u hu))

theorem Calib.start (h : Calib vars cs T N ℓ jt) : ∃ R ∈ cs, startClique jt = some R := by
  obtain ⟨χ, R', ks, vs, hR', hcomp, _⟩ := h.tabs
  exact ⟨R', hcomp.root, hR'⟩

/-- all nodes, when the join tree is connected -/
theorem Calib.posterior_conn (h : Calib vars cs T N ℓ jt) (hN : NetOk vars N)
    (hcc : ∀ c ∈ cs, ∀ d ∈ cs, Conn sl sr T c.fs d.fs) {v : Variable} (hv : v ∈ vars) :
    jt.getBbnPotential v = .ok (exactAnswer vars (N.W ℓ vars) v) := by
  obtain ⟨R, hRc, hR⟩ := h.start
  have key : ∀ u ∈ vars, ∃ d ∈ cs, u ∈ d.nodes ∧ Conn sl sr T R.fs d.fs := by
    intro u hu
    obtain ⟨d, hd, hud⟩ := h.ctx.cover u hu
    exact ⟨d, hd, hud, hcc R hRc d hd⟩
  obtain ⟨c, hc, hvc, hconn⟩ := key v hv
  exact h.posterior_start hN hv hR hc hvc hconn (Or.inr key)

/-- a node whose component is a single clique -/
theorem Calib.posterior_single (h : Calib vars cs T N ℓ jt) (hN : NetOk vars N) {v : Variable} (hv : v ∈ vars)
    {c : Clique} (hc : c ∈ cs) (hvc : v ∈ c.nodes) (hsing : ∀ d ∈ cs, Conn sl sr T c.fs d.fs → d = c)
    (hz : totalOf vars (N.W ℓ vars) ≠ 0) :
    jt.getBbnPotential v = .ok (exactAnswer vars (N.W ℓ vars) v) := by
  obtain ⟨R, hRc, hR⟩ := h.start
  by_cases hconn : Conn sl sr T R.fs c.fs
  · exact h.posterior_start hN hv hR hc hvc hconn (Or.inl hz)
  · obtain ⟨χ, R', ks, vs, hR', hcomp, ht, hdep, hnn, _, hrest⟩ := h.tabs
    have : R' = R := Option.some.inj (hR'.symm.trans hR)
    subst this
    have hc1 : Comp cs T jt c [c.id] (vids c.nodes) := by
      refine ⟨hc, by simp, ?_, h.ctx.spec.fam.nodup c hc, ?_⟩
      · intro k
        constructor
        · intro hk
          simp only [List.mem_cons, List.not_mem_nil, or_false] at hk
          subst hk
          exact ⟨c, hc, rfl, Conn.refl _ _⟩
        · rintro ⟨C, hC, rfl, hcC⟩
          rw [hsing C hC hcC]
          exact List.mem_cons_self
      · intro i
        simp [h.ctx.spec.scope_clique hc]
    have hks : pcOf jt.heap v ∈ [c.id] := (hc1.pc_iff h.ctx hN h.done hv).2 (List.mem_map_of_mem hvc)
    have hpc : pcOf jt.heap v = c.id := by simpa using hks
    refine hc1.posterior h.ctx hN h.done ℓ h.likNonneg ht hv (hdep _) hks ?_ (Or.inl hz)
    rw [hpc, h.ctx.spec.scope_clique hc]
    have hnil : (vids c.nodes).filter (fun i => decide (i ∉ vids c.nodes)) = [] := by
      rw [List.filter_eq_nil_iff]
      intro i hi
      simpa using hi
    have hck : c.id ∉ ks := by
      intro hk
      obtain ⟨C, hC, e, hcC⟩ := (hcomp.mem _).1 hk
      rw [(h.ctx.spec.fam.id_iff hC hc).1 e] at hcC
      exact hconn hcC
    rw [hnil, elim_nil, hrest c.id hck (by
      intro s hs e
      exact absurd e.symm ((h.ctx.spec.shape.good s hs).ne_clique h.ctx.spec.fam hc))]
    intro σ _
    simp

/-- total weight of the joint assignments that agree with `σ` on `ns` -/
def jointOf (vars : List Variable) (W : Asg → ℚ) (ns : List Variable) (σ : Asg) : ℚ :=
  (((allAsg vars).filter (fun τ => decide (∀ v ∈ ns, τ v.id = σ v.id))).map W).sum

theorem jointOf_eq {ns : List Variable} {f : Asg → ℚ} (hcs : (vids vars).Nodup) (hns : (vids ns).Nodup) (hsub : ∀ v ∈ ns, v ∈ vars)
    (hD : ∀ v ∈ vars, v.values.Nodup) (hf : Dep (fun i => i ∈ vids vars) f) {σ : Asg} (hσ : InDom ns σ) :
    jointOf vars f ns σ = elim (domOf vars) ((vids vars).filter (fun i => decide (i ∉ vids ns))) f σ := by
  have hdom := domOf_ok hcs
  have hidsub : ∀ i ∈ vids ns, i ∈ vids vars := by
    intro i hi
    obtain ⟨v, hv, rfl⟩ := List.mem_map.1 hi
    exact List.mem_map_of_mem (hsub v hv)
  unfold jointOf
  rw [sum_filter_map]
  have e2 : (allAsg vars).map (fun a => if decide (∀ v ∈ ns, a v.id = σ v.id) = true then f a else 0) =
      (allAsg vars).map (fun a => ind (vids ns) σ a * f a) := by
    apply List.map_congr_left
    intro τ _
    unfold ind
    have : (∀ v ∈ ns, τ v.id = σ v.id) ↔ (∀ i ∈ vids ns, τ i = σ i) := by simp [vids]
    by_cases h : ∀ i ∈ vids ns, τ i = σ i
    · rw [if_pos h, if_pos (by simpa using this.2 h), one_mul]
    · rw [if_neg h, if_neg (by simpa using fun h' => h (this.1 h')), zero_mul]
  rw [e2, sum_allAsg vars hcs hdom]
  have hperm : elim (domOf vars) (vids vars) (fun τ => ind (vids ns) σ τ * f τ) =
      elim (domOf vars) (vids ns ++ (vids vars).filter (fun i => decide (i ∉ vids ns)))
        (fun τ => ind (vids ns) σ τ * f τ) := by
    apply elim_congr_mem hcs
    · refine List.Nodup.append hns (List.Nodup.filter _ hcs) ?_
      intro a ha hb
      simp only [List.mem_filter, decide_eq_true_eq] at hb
      exact hb.2 ha
    · intro x
      simp only [List.mem_append, List.mem_filter, decide_eq_true_eq]
      constructor
      · intro hx
        by_cases h : x ∈ vids ns
        · exact Or.inl h
        · exact Or.inr ⟨hx, h⟩
      · rintro (h | h)
        · exact hidsub x h
        · exact h.1
  rw [hperm, elim_append, elim_mul_left (ind_dep _ _) (by
    intro i hi; simp only [List.mem_filter, decide_eq_true_eq] at hi; exact hi.2)]
  refine elim_ind σ (domOf_nodup hD) (vids ns) hns ?_ asg0 (hf.elim _) ?_
  · intro i hi
    obtain ⟨v, hv, rfl⟩ := List.mem_map.1 hi
    rw [hdom v (hsub v hv)]
    exact hσ v hv
  · intro i hi hni
    exfalso
    apply hi.2
    simp only [List.mem_filter, decide_eq_true_eq]
    exact ⟨hi.1, hni⟩

theorem Net.W_dep (hN : NetOk vars N) (ℓ : Int → Str → ℚ) : Dep (fun i => i ∈ vids vars) (N.W ℓ vars) := by
  refine prod_map_dep (N.w ℓ) _ ?_
  intro v hv
  refine (Net.w_dep hN ℓ hv).mono ?_
  intro i hi
  obtain ⟨u, hu, rfl⟩ := List.mem_map.1 hi
  exact List.mem_map_of_mem (hN.sub v hv u hu)

/-- the tables of a calibrated connected join tree: each is the joint weight of its variables -/
theorem Calib.tables_conn (h : Calib vars cs T N ℓ jt) (hN : NetOk vars N)
    (hcc : ∀ c ∈ cs, ∀ d ∈ cs, Conn sl sr T c.fs d.fs) {k : Str} (hk : k ∈ Dict.keys jt.nodes) :
    ∃ f, Dict.get? jt.potentials k = some (tab (jt.scope k) f) ∧ Dep (fun i => i ∈ vids (jt.scope k)) f ∧
      ∀ σ, InDom (jt.scope k) σ → f σ = jointOf vars (N.W ℓ vars) (jt.scope k) σ := by
  obtain ⟨χ, R, ks, vs, hR, hcomp, ht, hdep, hnn, heq, _⟩ := h.tabs
  have hall : ∀ u ∈ vars, u.id ∈ vs := by
    intro u hu
    obtain ⟨d, hd, hud⟩ := h.ctx.cover u hu
    exact (hcomp.clique_iff h.ctx hd (List.mem_map_of_mem hud)).1 ((hcomp.mem _).2 ⟨d, hd, rfl, hcc R hcomp.root d hd⟩)
  have hvs : ∀ i, i ∈ vs ↔ i ∈ vids vars := by
    intro i
    constructor
    · intro hi
      obtain ⟨k, _, hik⟩ := (hcomp.memV i).1 hi
      obtain ⟨u, hu, rfl⟩ := List.mem_map.1 hik
      exact List.mem_map_of_mem (h.ctx.scope_sub k u hu)
    · intro hi
      obtain ⟨u, hu, rfl⟩ := List.mem_map.1 hi
      exact hall u hu
  have hW : (fun σ => (ks.map (fun k => wprod (pcOf jt.heap) (N.w ℓ) vars k σ)).prod) = N.W ℓ vars := by
    funext σ
    rw [wprod_ks _ _ hcomp.ksNodup]
    unfold Net.W
    rw [List.filter_eq_self.2]
    intro v hv
    simp only [decide_eq_true_eq]
    exact (hcomp.pc_iff h.ctx hN h.done hv).2 (hall v hv)
  have hkk : k ∈ ks ∨ (∃ s ∈ T, s.id = k ∧ s.left.id ∈ ks) := by
    obtain ⟨⟨k', n⟩, hkn, rfl⟩ := List.mem_map.1 hk
    rcases (h.ctx.spec.shape.mem_nodes _ _).1 hkn with ⟨c, hc, e, _⟩ | ⟨s, hs, e, _⟩
    · exact Or.inl ((hcomp.mem _).2 ⟨c, hc, e, hcc R hcomp.root c hc⟩)
    · have hg := (h.ctx.spec.shape.good s hs).left
      exact Or.inr ⟨s, hs, e, (hcomp.mem _).2 ⟨s.left, hg, rfl, hcc R hcomp.root _ hg⟩⟩
  refine ⟨χ k, ht k hk, hdep k, ?_⟩
  intro σ hσ
  rw [jointOf_eq h.ctx.vn (h.ctx.spec.scope_nodup k) (h.ctx.scope_sub k) h.ctx.vals (Net.W_dep hN ℓ) hσ]
  have he := heq k hkk σ (by
    intro i hi
    obtain ⟨u, hu, rfl⟩ := List.mem_map.1 hi
    rw [h.ctx.dom k u hu]
    exact hσ u hu)
  rw [he, hW]
  have : elim (domOf vars) (vs.filter (fun i => decide (i ∉ vids (jt.scope k)))) (N.W ℓ vars) =
      elim (domOf vars) ((vids vars).filter (fun i => decide (i ∉ vids (jt.scope k)))) (N.W ℓ vars) := by
    apply elim_congr_mem (hcomp.vsNodup.filter _) (h.ctx.vn.filter _)
    intro i
    rw [List.mem_filter, List.mem_filter, hvs]
  rw [this]

/-- marginalizing a clique onto one of its separation sets gives the separation set's table -/
theorem Calib.marginal_conn (h : Calib vars cs T N ℓ jt) (hN : NetOk vars N)
    (hcc : ∀ c ∈ cs, ∀ d ∈ cs, Conn sl sr T c.fs d.fs) {c : Clique} {s : SepSet} (hc : c ∈ cs) (hs : s ∈ T)
    (hcs : s.left = c ∨ s.right = c) :
    ∃ P Q, Dict.get? jt.potentials c.id = some P ∧ Dict.get? jt.potentials s.id = some Q ∧
      PotentialUtil.marginalize P s.nodes = Q := by
  have hck : c.id ∈ Dict.keys jt.nodes := Dict.mem_keys_of_get? (h.ctx.spec.get_clique hc)
  have hsk : s.id ∈ Dict.keys jt.nodes := Dict.mem_keys_of_get? (h.ctx.spec.get_sep hs)
  obtain ⟨f, f1, f2, f3⟩ := h.tables_conn hN hcc hck
  obtain ⟨g, g1, g2, g3⟩ := h.tables_conn hN hcc hsk
  rw [h.ctx.spec.scope_clique hc] at f1 f2 f3
  rw [h.ctx.spec.scope_sep hs] at g1 g2 g3
  have hg := h.ctx.spec.shape.good s hs
  have hcn := h.ctx.spec.fam.nodup c hc
  have hsn : (vids s.nodes).Nodup := by
    have := h.ctx.spec.scope_nodup s.id
    rwa [h.ctx.spec.scope_sep hs] at this
  have hsv : ∀ u ∈ s.nodes, u ∈ vars := by
    have := h.ctx.scope_sub s.id
    rwa [h.ctx.spec.scope_sep hs] at this
  have hsub : ∀ i ∈ vids s.nodes, i ∈ vids c.nodes := by
    intro i hi
    have := (hg.mem_nodes i).1 hi
    rcases hcs with e | e
    · rw [e] at this; exact this.1
    · rw [e] at this; exact this.2
  have hD := domOf_ok h.ctx.vn
  have hdc := h.ctx.sub c hc
  refine ⟨_, _, f1, g1, ?_⟩
  rw [marginalize_tab hcn hsn (hD.sub hdc) (hD.sub hsv) hsub (domOf_nodup h.ctx.vals) f2]
  refine tab_congr hsn ?_
  intro σ hσ
  rw [g3 σ hσ, jointOf_eq h.ctx.vn hsn hsv h.ctx.vals (Net.W_dep hN ℓ) hσ]
  have hsplit : elim (domOf vars) ((vids vars).filter (fun i => decide (i ∉ vids s.nodes))) (N.W ℓ vars) =
      elim (domOf vars) ((vids c.nodes).filter (fun i => decide (i ∉ vids s.nodes)) ++
        (vids vars).filter (fun i => decide (i ∉ vids c.nodes))) (N.W ℓ vars) := by
    apply elim_congr_mem (h.ctx.vn.filter _)
    · refine List.Nodup.append (hcn.filter _) (h.ctx.vn.filter _) ?_
      intro i hi hi'
      have h2 := (List.mem_filter.1 hi').2
      simp only [decide_eq_true_eq] at h2
      exact h2 (List.mem_filter.1 hi).1
    · intro i
      simp only [List.mem_append, List.mem_filter, decide_eq_true_eq]
      constructor
      · rintro ⟨h1, h2⟩
        by_cases hi : i ∈ vids c.nodes
        · exact Or.inl ⟨hi, h2⟩
        · exact Or.inr ⟨h1, hi⟩
      · rintro (⟨h1, h2⟩ | ⟨h1, h2⟩)
        · obtain ⟨u, hu, rfl⟩ := List.mem_map.1 h1
          exact ⟨List.mem_map_of_mem (hdc u hu), h2⟩
        · exact ⟨h1, fun hi => h2 (hsub i hi)⟩
  rw [hsplit, elim_append]
  refine elim_congr_dom (fun i => i ∈ vids s.nodes) _ ?_ σ ?_
  · intro τ hτ
    have hτc : InDom c.nodes τ := by
      intro u hu
      rw [← hD u (hdc u hu)]
      apply hτ
      by_cases hi : u.id ∈ vids s.nodes
      · exact Or.inl hi
      · exact Or.inr (List.mem_filter.2 ⟨List.mem_map_of_mem hu, by simpa using hi⟩)
    rw [f3 τ hτc, jointOf_eq h.ctx.vn hcn hdc h.ctx.vals (Net.W_dep hN ℓ) hτc]
  · intro i hi _
    obtain ⟨u, hu, rfl⟩ := List.mem_map.1 hi
    rw [hD u (hsv u hu)]
    exact hσ u hu

end

end PyBBN
