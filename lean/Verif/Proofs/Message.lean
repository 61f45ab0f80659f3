import Verif.Proofs.Table

/-! Message passing on functions: collect and distribute along an order in which cliques can be attached one by one. -/

namespace PyBBN

/-- an oriented edge of the join tree: clique `p`, separation set `s`, clique `c` further away from the start -/
structure Msg where
  p : Str
  s : Str
  c : Str

/-- the tables: one function per node of the join tree -/
abbrev Tabs := Str → Asg → ℚ

section
variable (D : Int → List Str) (V : Str → List Int)

/-- effect of `pass_single_message(x, s, y)` -/
def msgF (x s y : Str) (φ : Tabs) : Tabs :=
  let μ := elim D ((V x).filter (fun i => decide (i ∉ V s))) (φ x)
  Function.update (Function.update φ s μ) y (fun σ => φ y σ * (μ σ / φ s σ))

/-- collecting: messages towards the start, in list order -/
def collectF (L : List Msg) (φ : Tabs) : Tabs := L.foldl (fun φ m => msgF D V m.c m.s m.p φ) φ

/-- distributing: messages away from the start, in reverse list order -/
def distF (L : List Msg) (φ : Tabs) : Tabs := L.foldr (fun m φ => msgF D V m.p m.s m.c φ) φ

/-- the cliques of an attachment order -/
def nds (root : Str) (L : List Msg) : List Str := root :: L.map Msg.c

/-- the variables of an attachment order -/
def vrs (root : Str) : List Msg → List Int
  | [] => V root
  | m :: L => vrs root L ++ (V m.c).filter (fun i => decide (i ∉ vrs root L))

/-- the product of the clique tables -/
def jnt (root : Str) (φ : Tabs) : List Msg → Asg → ℚ
  | [] => φ root
  | m :: L => fun σ => φ m.c σ * jnt root φ L σ

/-- the marginal of the product on the variables of `k` -/
def mrg (root : Str) (L : List Msg) (φ : Tabs) (k : Str) : Asg → ℚ :=
  elim D ((vrs V root L).filter (fun i => decide (i ∉ V k))) (jnt root φ L)

/-- `L`, latest first, attaches cliques one by one: the parent is present, the clique and the separation set are new, and
the variables the clique shares with those present are in the separation set -/
def Att (isSep : Str → Prop) (root : Str) : List Msg → Prop
  | [] => ¬ isSep root
  | m :: L => Att isSep root L ∧ m.p ∈ nds root L ∧ m.c ∉ nds root L ∧ ¬ isSep m.c ∧ isSep m.s ∧
      m.s ∉ L.map Msg.s ∧ (∀ i ∈ V m.s, i ∈ V m.p) ∧ (∀ i ∈ V m.s, i ∈ V m.c) ∧
      (∀ i ∈ V m.c, (∃ q ∈ nds root L, i ∈ V q) → i ∈ V m.s)

/-- equal on the values of the variables `l` -/
def EqD (l : List Int) (f g : Asg → ℚ) : Prop := ∀ σ : Asg, (∀ i ∈ l, σ i ∈ D i) → f σ = g σ

variable {D V} {isSep : Str → Prop} {root : Str}

theorem Att.notSep : ∀ {L : List Msg}, Att V isSep root L → ∀ k ∈ nds root L, ¬ isSep k
  | [], h, k, hk => by simp [nds] at hk; subst hk; exact h
  | m :: L, h, k, hk => by
      simp only [nds, List.map_cons, List.mem_cons] at hk
      rcases hk with e | e | hk
      · exact Att.notSep h.1 k (by simp [nds, e])
      · rw [e]; exact h.2.2.2.1
      · exact Att.notSep h.1 k (List.mem_cons_of_mem _ hk)

theorem Att.isSep_mem : ∀ {L : List Msg}, Att V isSep root L → ∀ k ∈ L.map Msg.s, isSep k
  | [], _, k, hk => by simp at hk
  | m :: L, h, k, hk => by
      rw [List.map_cons, List.mem_cons] at hk
      rcases hk with rfl | hk
      · exact h.2.2.2.2.1
      · exact Att.isSep_mem h.1 k hk

theorem Att.parent_mem : ∀ {L : List Msg}, Att V isSep root L → ∀ m ∈ L, m.p ∈ nds root L
  | [], _, m, hm => by simp at hm
  | m' :: L, h, m, hm => by
      have hsub : ∀ k ∈ nds root L, k ∈ nds root (m' :: L) := by
        intro k hk
        simp only [nds, List.map_cons, List.mem_cons] at hk ⊢
        tauto
      rcases List.mem_cons.1 hm with rfl | hm
      · exact hsub _ h.2.1
      · exact hsub _ (Att.parent_mem h.1 m hm)

theorem Att.nodup : ∀ {L : List Msg}, Att V isSep root L → (nds root L).Nodup
  | [], _ => by simp [nds]
  | m :: L, h => by
      have h1 := Att.nodup h.1
      have h2 := h.2.2.1
      simp only [nds, List.map_cons, List.nodup_cons, List.mem_cons, not_or] at h1 h2 ⊢
      refine ⟨⟨fun e => h2.1 e.symm, h1.1⟩, h2.2, h1.2⟩

theorem mem_vrs : ∀ {L : List Msg} (i : Int), i ∈ vrs V root L ↔ ∃ k ∈ nds root L, i ∈ V k
  | [], i => by simp [vrs, nds]
  | m :: L, i => by
      rw [vrs, List.mem_append, List.mem_filter]
      simp only [decide_eq_true_eq]
      rw [mem_vrs]
      simp only [nds, List.map_cons, List.mem_cons]
      constructor
      · rintro (⟨k, hk, hi⟩ | ⟨hi, _⟩)
        · exact ⟨k, by tauto, hi⟩
        · exact ⟨m.c, by tauto, hi⟩
      · rintro ⟨k, rfl | rfl | hk, hi⟩
        · exact Or.inl ⟨_, Or.inl rfl, hi⟩
        · by_cases h : ∃ q, (q = root ∨ q ∈ L.map Msg.c) ∧ i ∈ V q
          · exact Or.inl h
          · exact Or.inr ⟨hi, h⟩
        · exact Or.inl ⟨k, Or.inr hk, hi⟩

theorem vrs_nodup (hV : ∀ k, (V k).Nodup) : ∀ (L : List Msg), (vrs V root L).Nodup
  | [] => hV root
  | m :: L => by
      rw [vrs, List.nodup_append]
      refine ⟨vrs_nodup hV L, (hV m.c).filter _, ?_⟩
      intro a ha b hb e
      subst e
      have := (List.mem_filter.1 hb).2
      simp at this
      exact this ha

theorem msgF_s {x s y : Str} (φ : Tabs) (h : s ≠ y) :
    msgF D V x s y φ s = elim D ((V x).filter (fun i => decide (i ∉ V s))) (φ x) := by
  unfold msgF; simp [Function.update_of_ne h]

theorem msgF_y {x s y : Str} (φ : Tabs) :
    msgF D V x s y φ y = fun σ => φ y σ * (elim D ((V x).filter (fun i => decide (i ∉ V s))) (φ x) σ / φ s σ) := by
  unfold msgF; simp

theorem msgF_other {x s y k : Str} (φ : Tabs) (h1 : k ≠ s) (h2 : k ≠ y) : msgF D V x s y φ k = φ k := by
  unfold msgF; simp [h1, h2]

theorem msgF_dep {x s y : Str} {φ : Tabs} (hφ : ∀ k, Dep (fun i => i ∈ V k) (φ k)) (hsx : ∀ i ∈ V s, i ∈ V x)
    (hsy : ∀ i ∈ V s, i ∈ V y) : ∀ k, Dep (fun i => i ∈ V k) (msgF D V x s y φ k) := by
  have hμ : Dep (fun i => i ∈ V s) (elim D ((V x).filter (fun i => decide (i ∉ V s))) (φ x)) := by
    refine ((hφ x).elim _).mono ?_
    rintro i ⟨h1, h2⟩
    by_contra hc
    exact h2 (List.mem_filter.2 ⟨h1, by simpa using hc⟩)
  intro k
  by_cases h1 : k = y
  · subst h1
    rw [msgF_y]
    exact (hφ k).mul ((hμ.div (hφ s)).mono hsy)
  · by_cases h2 : k = s
    · subst h2
      rw [msgF_s _ h1]
      exact hμ
    · rw [msgF_other _ h2 h1]
      exact hφ k

theorem msgF_nonneg {x s y : Str} {φ : Tabs} (hφ : ∀ k σ, 0 ≤ φ k σ) : ∀ k σ, 0 ≤ msgF D V x s y φ k σ := by
  intro k σ
  by_cases h1 : k = y
  · subst h1
    rw [msgF_y]
    exact mul_nonneg (hφ k σ) (div_nonneg (elim_nonneg (hφ x) _ σ) (hφ s σ))
  · by_cases h2 : k = s
    · subst h2
      rw [msgF_s _ h1]
      exact elim_nonneg (hφ x) _ σ
    · rw [msgF_other _ h2 h1]
      exact hφ k σ

/-! ### general facts about an order -/

theorem jnt_dep {φ : Tabs} (hφ : ∀ k, Dep (fun i => i ∈ V k) (φ k)) : ∀ (L : List Msg),
    Dep (fun i => i ∈ vrs V root L) (jnt root φ L)
  | [] => hφ root
  | m :: L => by
      refine Dep.mul ((hφ m.c).mono ?_) ((jnt_dep hφ L).mono ?_)
      · intro i hi
        rw [mem_vrs]
        exact ⟨m.c, by simp [nds], hi⟩
      · intro i hi
        rw [vrs]
        exact List.mem_append_left _ hi

theorem jnt_congr {φ ψ : Tabs} : ∀ (L : List Msg), (∀ k ∈ nds root L, φ k = ψ k) → jnt root φ L = jnt root ψ L
  | [], h => h root (by simp [nds])
  | m :: L, h => by
      unfold jnt
      rw [h m.c (by simp [nds]), jnt_congr L (fun k hk => h k (by
        simp only [nds, List.map_cons, List.mem_cons] at hk ⊢; tauto))]

/-- multiplying one of the tables multiplies the product -/
theorem jnt_mul {φ ψ : Tabs} {p : Str} {μ : Asg → ℚ} (hp : ψ p = fun σ => φ p σ * μ σ) : ∀ (L : List Msg),
    (nds root L).Nodup → p ∈ nds root L → (∀ k ∈ nds root L, k ≠ p → ψ k = φ k) →
    jnt root ψ L = fun σ => jnt root φ L σ * μ σ
  | [], _, hm, _ => by
      simp [nds] at hm
      subst hm
      exact hp
  | m :: L, hn, hm, ho => by
      have hn' : (nds root L).Nodup ∧ m.c ∉ nds root L := by
        simp only [nds, List.map_cons, List.nodup_cons, List.mem_cons, not_or] at hn ⊢
        exact ⟨⟨hn.1.2, hn.2.2⟩, fun e => hn.1.1 e.symm, hn.2.1⟩
      have hsub : ∀ k ∈ nds root L, k ∈ nds root (m :: L) := by
        intro k hk
        simp only [nds, List.map_cons, List.mem_cons] at hk ⊢; tauto
      by_cases e : p = m.c
      · unfold jnt
        rw [← jnt_congr (φ := φ) (ψ := ψ) L (fun k hk => (ho k (hsub k hk) (fun e' => hn'.2 (by rw [← e, ← e']; exact hk))).symm),
          ← e, hp]
        funext σ
        ring
      · have hm' : p ∈ nds root L := by
          simp only [nds, List.map_cons, List.mem_cons] at hm ⊢; tauto
        unfold jnt
        rw [jnt_mul hp L hn'.1 hm' (fun k hk => ho k (hsub k hk)), ho m.c (by simp [nds]) (fun e' => e e'.symm)]
        funext σ
        ring

theorem elim_filter_split {A : List Int} {k s : List Int} (hA : A.Nodup) (hk : k.Nodup)
    (hsk : ∀ i ∈ s, i ∈ k) (hkA : ∀ i ∈ k, i ∈ A) (f : Asg → ℚ) :
    elim D (A.filter (fun i => decide (i ∉ s))) f =
      elim D (k.filter (fun i => decide (i ∉ s))) (elim D (A.filter (fun i => decide (i ∉ k))) f) := by
  rw [← elim_append]
  apply elim_congr_mem
  · exact hA.filter _
  · rw [List.nodup_append]
    refine ⟨hk.filter _, hA.filter _, ?_⟩
    intro a ha b hb e
    subst e
    have h1 := (List.mem_filter.1 ha).1
    have h2 := (List.mem_filter.1 hb).2
    simp at h2
    exact h2 h1
  · intro x
    simp only [List.mem_filter, List.mem_append, decide_eq_true_eq]
    constructor
    · rintro ⟨h1, h2⟩
      by_cases h3 : x ∈ k
      · exact Or.inl ⟨h3, h2⟩
      · exact Or.inr ⟨h1, h3⟩
    · rintro (⟨h1, h2⟩ | ⟨h1, h2⟩)
      · exact ⟨hkA x h1, h2⟩
      · exact ⟨h1, fun h => h2 (hsk x h)⟩

/-- one collecting message: the marginals of the rest are unchanged -/
theorem mrg_step (hV : ∀ k, (V k).Nodup) {m : Msg} {L : List Msg} (h : Att V isSep root (m :: L)) {φ : Tabs}
    (hφ : ∀ k, Dep (fun i => i ∈ V k) (φ k)) (h1 : φ m.s = fun _ => 1) {k : Str} (hk : ∀ i ∈ V k, i ∈ vrs V root L) :
    mrg D V root (m :: L) φ k = mrg D V root L (msgF D V m.c m.s m.p φ) k := by
  obtain ⟨hL, hp, hc, hcs, hss, hsn, hsp, hsc, hrip⟩ := h
  have hsp' : m.s ≠ m.p := fun e => hL.notSep _ hp (e ▸ hss)
  set μ := elim D ((V m.c).filter (fun i => decide (i ∉ V m.s))) (φ m.c) with hμ
  have hj : jnt root (msgF D V m.c m.s m.p φ) L = fun σ => jnt root φ L σ * μ σ := by
    refine jnt_mul (p := m.p) (μ := μ) ?_ L hL.nodup hp ?_
    · rw [msgF_y, h1]
      funext σ
      simp [hμ]
    · intro q hq hqp
      exact msgF_other _ (fun e => hL.notSep _ hq (e ▸ hss)) hqp
  have hmem : ∀ i ∈ V m.c, i ∉ V m.s ↔ i ∉ vrs V root L := by
    intro i hi
    rw [not_iff_not, mem_vrs]
    exact ⟨fun h => ⟨m.p, hp, hsp i h⟩, fun h => hrip i hi h⟩
  have hj2 : elim D ((V m.c).filter (fun i => decide (i ∉ V m.s))) (jnt root φ (m :: L)) =
      jnt root (msgF D V m.c m.s m.p φ) L := by
    rw [hj]
    have := elim_mul_right (D := D) (jnt_dep (root := root) hφ L) (l := (V m.c).filter (fun i => decide (i ∉ V m.s)))
      (by
        intro i hi
        obtain ⟨hi1, hi2⟩ := List.mem_filter.1 hi
        simp only [decide_eq_true_eq] at hi2
        exact (hmem i hi1).1 hi2) (φ m.c)
    rw [show jnt root φ (m :: L) = fun σ => φ m.c σ * jnt root φ L σ from rfl, this]
    funext σ
    ring
  unfold mrg
  rw [← hj2, ← elim_append]
  apply elim_congr_mem
  · exact (vrs_nodup hV _).filter _
  · rw [List.nodup_append]
    refine ⟨(vrs_nodup hV _).filter _, (hV _).filter _, ?_⟩
    intro a ha b hb e
    subst e
    obtain ⟨h2, h3⟩ := List.mem_filter.1 hb
    simp only [decide_eq_true_eq] at h3
    exact (hmem a h2).1 h3 (List.mem_filter.1 ha).1
  · intro x
    rw [vrs, List.filter_append, List.mem_append, List.mem_append]
    simp only [List.mem_filter, decide_eq_true_eq]
    constructor
    · rintro (h2 | ⟨⟨h2, h3⟩, h4⟩)
      · exact Or.inl h2
      · exact Or.inr ⟨h2, (hmem x h2).2 h3⟩
    · rintro (h2 | ⟨h2, h3⟩)
      · exact Or.inl h2
      · exact Or.inr ⟨⟨h2, (hmem x h2).1 h3⟩, fun h4 => (hmem x h2).1 h3 (hk x h4)⟩

/-! ### collecting -/

theorem collectF_other : ∀ (L : List Msg) (φ : Tabs), Att V isSep root L → ∀ k, k ∉ nds root L → k ∉ L.map Msg.s →
    collectF D V L φ k = φ k
  | [], _, _, _, _, _ => rfl
  | m :: L, φ, h, k, hk, hs => by
      have hk' : k ∉ nds root L ∧ k ≠ m.c := by
        simp only [nds, List.map_cons, List.mem_cons, not_or] at hk ⊢; tauto
      rw [List.map_cons, List.mem_cons, not_or] at hs
      show collectF D V L (msgF D V m.c m.s m.p φ) k = φ k
      rw [collectF_other L _ h.1 k hk'.1 hs.2, msgF_other _ hs.1 (fun e => hk'.1 (e ▸ h.2.1))]

theorem collectF_dep : ∀ (L : List Msg) (φ : Tabs), Att V isSep root L → (∀ k, Dep (fun i => i ∈ V k) (φ k)) →
    ∀ k, Dep (fun i => i ∈ V k) (collectF D V L φ k)
  | [], _, _, h => h
  | _ :: L, _, h, hφ => collectF_dep L _ h.1 (msgF_dep hφ h.2.2.2.2.2.2.2.1 h.2.2.2.2.2.2.1)

theorem collectF_nonneg : ∀ (L : List Msg) (φ : Tabs), (∀ k σ, 0 ≤ φ k σ) → ∀ k σ, 0 ≤ collectF D V L φ k σ
  | [], _, h => h
  | _ :: L, _, hφ => collectF_nonneg L _ (msgF_nonneg hφ)

/-- what collecting computes -/
theorem collectF_spec (hV : ∀ k, (V k).Nodup) : ∀ (L : List Msg) (φ : Tabs), Att V isSep root L →
    (∀ k, Dep (fun i => i ∈ V k) (φ k)) → (∀ m ∈ L, φ m.s = fun _ => 1) →
    collectF D V L φ root = mrg D V root L φ root ∧
    ∀ m ∈ L, collectF D V L φ m.s = elim D ((V m.c).filter (fun i => decide (i ∉ V m.s))) (collectF D V L φ m.c) ∧
      ∃ H, Dep (fun i => i ∈ V m.s) H ∧ mrg D V root L φ m.c = fun σ => collectF D V L φ m.c σ * H σ
  | [], φ, h, hφ, h1 => by
      refine ⟨?_, by simp⟩
      unfold mrg
      have : (vrs V root []).filter (fun i => decide (i ∉ V root)) = [] := by
        rw [List.filter_eq_nil_iff]
        intro a ha
        simpa [vrs] using ha
      rw [this]
      rfl
  | m :: L, φ, h, hφ, h1 => by
      have h' := h
      obtain ⟨hL, hp, hc, hcs, hss, hsn, hsp, hsc, hrip⟩ := h
      have hsub : ∀ k ∈ nds root L, ∀ i ∈ V k, i ∈ vrs V root L := by
        intro k hk i hi
        rw [mem_vrs]; exact ⟨k, hk, hi⟩
      have hms : m.s ≠ m.p := fun e => hL.notSep _ hp (e ▸ hss)
      have hcp : m.c ≠ m.p := fun e => hc (e ▸ hp)
      have hsc' : m.s ≠ m.c := fun e => hcs (e ▸ hss)
      have hstep : ∀ k, (∀ i ∈ V k, i ∈ vrs V root L) →
          mrg D V root (m :: L) φ k = mrg D V root L (msgF D V m.c m.s m.p φ) k :=
        fun k hk => mrg_step hV h' hφ (h1 m List.mem_cons_self) hk
      have hs1 : ∀ m' ∈ L, msgF D V m.c m.s m.p φ m'.s = fun _ => 1 := by
        intro m' hm'
        have hs' : m'.s ∈ L.map Msg.s := List.mem_map_of_mem hm'
        have n1 : m'.s ≠ m.s := fun e => hsn (e ▸ hs')
        have n2 : m'.s ≠ m.p := fun e => hL.notSep _ hp (e ▸ hL.isSep_mem _ hs')
        rw [msgF_other _ n1 n2]
        exact h1 m' (List.mem_cons_of_mem _ hm')
      obtain ⟨ih1, ih2⟩ := collectF_spec hV L (msgF D V m.c m.s m.p φ) hL
        (msgF_dep hφ hsc hsp) hs1
      have hcol : collectF D V (m :: L) φ = collectF D V L (msgF D V m.c m.s m.p φ) := rfl
      rw [hcol]
      refine ⟨?_, ?_⟩
      · rw [hstep root (hsub root (by simp [nds]))]
        exact ih1
      · intro m' hm'
        rcases List.mem_cons.1 hm' with rfl | hm'
        · have e1 : collectF D V L (msgF D V m'.c m'.s m'.p φ) m'.s =
              elim D ((V m'.c).filter (fun i => decide (i ∉ V m'.s))) (φ m'.c) := by
            rw [collectF_other L _ hL _ (fun e => hL.notSep _ e hss) hsn, msgF_s _ hms]
          have e2 : collectF D V L (msgF D V m'.c m'.s m'.p φ) m'.c = φ m'.c := by
            rw [collectF_other L _ hL _ hc (fun e => hcs (hL.isSep_mem _ e)), msgF_other _ (Ne.symm hsc') hcp]
          rw [e1, e2]
          refine ⟨rfl, elim D ((vrs V root (m' :: L)).filter (fun i => decide (i ∉ V m'.c))) (jnt root φ L), ?_, ?_⟩
          · refine ((jnt_dep (root := root) hφ L).elim _).mono ?_
            rintro i ⟨hi1, hi2⟩
            have hic : i ∈ V m'.c := by
              by_contra hn
              exact hi2 (List.mem_filter.2 ⟨by rw [vrs]; exact List.mem_append_left _ hi1, by simpa using hn⟩)
            rw [mem_vrs] at hi1
            exact hrip i hic hi1
          · unfold mrg
            exact elim_mul_left (hφ m'.c) (by
              intro i hi
              simpa using (List.mem_filter.1 hi).2) _
        · obtain ⟨h2, H, h3, h4⟩ := ih2 m' hm'
          refine ⟨h2, H, h3, ?_⟩
          rw [hstep m'.c (hsub m'.c (by simp [nds]; exact Or.inr ⟨m', hm', rfl⟩))]
          exact h4

/-! ### distributing -/

theorem distF_other : ∀ (L : List Msg) (φ : Tabs), ∀ k, k ∉ L.map Msg.c → k ∉ L.map Msg.s →
    distF D V L φ k = φ k
  | [], _, _, _, _ => rfl
  | m :: L, φ, k, hk, hs => by
      rw [List.map_cons, List.mem_cons, not_or] at hs hk
      show msgF D V m.p m.s m.c (distF D V L φ) k = φ k
      rw [msgF_other _ hs.1 hk.1, distF_other L φ k hk.2 hs.2]

theorem distF_dep : ∀ (L : List Msg) (φ : Tabs), Att V isSep root L → (∀ k, Dep (fun i => i ∈ V k) (φ k)) →
    ∀ k, Dep (fun i => i ∈ V k) (distF D V L φ k)
  | [], _, _, h => h
  | _ :: L, φ, h, hφ => msgF_dep (distF_dep L φ h.1 hφ) h.2.2.2.2.2.2.1 h.2.2.2.2.2.2.2.1

theorem distF_nonneg : ∀ (L : List Msg) (φ : Tabs), (∀ k σ, 0 ≤ φ k σ) → ∀ k σ, 0 ≤ distF D V L φ k σ
  | [], _, h => h
  | _ :: L, φ, hφ => msgF_nonneg (distF_nonneg L φ hφ)

/-- distributing turns the collected tables into the marginals `M` -/
theorem distF_spec (ψ : Tabs) (hψ : ∀ k σ, 0 ≤ ψ k σ) (M : Tabs) : ∀ (L : List Msg), Att V isSep root L →
    ψ root = M root →
    (∀ m ∈ L, ψ m.s = elim D ((V m.c).filter (fun i => decide (i ∉ V m.s))) (ψ m.c) ∧
      (∃ H, Dep (fun i => i ∈ V m.s) H ∧ M m.c = fun σ => ψ m.c σ * H σ) ∧
      M m.s = elim D ((V m.p).filter (fun i => decide (i ∉ V m.s))) (M m.p) ∧
      M m.s = elim D ((V m.c).filter (fun i => decide (i ∉ V m.s))) (M m.c)) →
    (∀ k ∈ nds root L, EqD D (V k) (distF D V L ψ k) (M k)) ∧
    (∀ k ∈ L.map Msg.s, EqD D (V k) (distF D V L ψ k) (M k))
  | [], _, hr, _ => by
      refine ⟨?_, by simp⟩
      intro k hk σ _
      simp [nds] at hk
      subst hk
      show ψ k σ = M k σ
      rw [hr]
  | m :: L, h, hr, hall => by
      obtain ⟨ih1, ih2⟩ := distF_spec ψ hψ M L h.1 hr (fun m' hm' => hall m' (List.mem_cons_of_mem _ hm'))
      obtain ⟨hL, hp, hc, hcs, hss, hsn, hsp, hsc, hrip⟩ := h
      obtain ⟨c1, ⟨H, hH, c2⟩, c3, c4⟩ := hall m List.mem_cons_self
      have hscne : m.s ≠ m.c := fun e => hcs (e ▸ hss)
      have hcm : m.c ∉ L.map Msg.c := fun e => hc (by simp only [nds, List.mem_cons]; exact Or.inr e)
      have hsm : m.s ∉ L.map Msg.c := fun e => hL.notSep _ (by simp only [nds, List.mem_cons]; exact Or.inr e) hss
      have hcsm : m.c ∉ L.map Msg.s := fun e => hcs (hL.isSep_mem _ e)
      have old_c := distF_other (D := D) (V := V) L ψ m.c hcm hcsm
      have old_s := distF_other (D := D) (V := V) L ψ m.s hsm hsn
      have hdist : distF D V (m :: L) ψ = msgF D V m.p m.s m.c (distF D V L ψ) := rfl
      have new_s : EqD D (V m.s) (elim D ((V m.p).filter (fun i => decide (i ∉ V m.s))) (distF D V L ψ m.p)) (M m.s) := by
        intro σ hσ
        rw [c3]
        refine elim_congr_dom (fun i => i ∈ V m.p) _ ?_ σ ?_
        · intro τ hτ
          exact ih1 m.p hp τ (fun i hi => hτ i (Or.inl hi))
        · intro i hi hi2
          apply hσ
          by_contra hn
          exact hi2 (List.mem_filter.2 ⟨hi, by simpa using hn⟩)
      have key_s : EqD D (V m.s) (distF D V (m :: L) ψ m.s) (M m.s) := by
        rw [hdist, msgF_s _ hscne]
        exact new_s
      have key_c : EqD D (V m.c) (distF D V (m :: L) ψ m.c) (M m.c) := by
        intro σ hσ
        rw [hdist, msgF_y, old_c, old_s]
        show ψ m.c σ * (elim D ((V m.p).filter (fun i => decide (i ∉ V m.s))) (distF D V L ψ m.p) σ / ψ m.s σ) = M m.c σ
        rw [new_s σ (fun i hi => hσ i (hsc i hi))]
        have hMs : M m.s = fun σ => ψ m.s σ * H σ := by
          rw [c4, c2, elim_mul_right hH (by
            intro i hi
            simpa using (List.mem_filter.1 hi).2), c1]
        rw [hMs, c2]
        by_cases hz : ψ m.s σ = 0
        · have : ψ m.c σ = 0 := by
            rw [c1] at hz
            exact eq_zero_of_elim_eq_zero (hψ m.c) _ σ (fun i hi => hσ i (List.mem_filter.1 hi).1) hz
          simp [this]
        · show ψ m.c σ * (ψ m.s σ * H σ / ψ m.s σ) = ψ m.c σ * H σ
          rw [mul_div_cancel_left₀ _ hz]
      refine ⟨?_, ?_⟩
      · intro k hk
        by_cases e : k = m.c
        · subst e; exact key_c
        · have hk' : k ∈ nds root L := by
            simp only [nds, List.map_cons, List.mem_cons] at hk ⊢; tauto
          have n1 : k ≠ m.s := fun e' => hL.notSep _ hk' (e' ▸ hss)
          rw [hdist, msgF_other _ n1 e]
          exact ih1 k hk'
      · intro k hk
        rw [List.map_cons, List.mem_cons] at hk
        by_cases e : k = m.s
        · subst e; exact key_s
        · have hk' : k ∈ L.map Msg.s := by tauto
          have n1 : k ≠ m.c := fun e' => hcs (e' ▸ hL.isSep_mem _ hk')
          rw [hdist, msgF_other _ e n1]
          exact ih2 k hk'

/-- collecting along `L` and distributing along `L'` (the same edges in possibly another order) gives all marginals -/
theorem propagateF_spec (hV : ∀ k, (V k).Nodup) {L L' : List Msg} (h : Att V isSep root L) (h' : Att V isSep root L')
    (hLL : ∀ m, m ∈ L' ↔ m ∈ L) {φ : Tabs} (hφ : ∀ k, Dep (fun i => i ∈ V k) (φ k)) (hn : ∀ k σ, 0 ≤ φ k σ)
    (h1 : ∀ m ∈ L, φ m.s = fun _ => 1) :
    let χ := distF D V L' (collectF D V L φ)
    (∀ k, Dep (fun i => i ∈ V k) (χ k)) ∧ (∀ k σ, 0 ≤ χ k σ) ∧
    (∀ k, k ∈ nds root L ∨ k ∈ L.map Msg.s → EqD D (V k) (χ k) (mrg D V root L φ k)) ∧
    (∀ k, k ∉ nds root L → k ∉ L.map Msg.s → χ k = φ k) := by
  intro χ
  obtain ⟨s1, s2⟩ := collectF_spec (D := D) hV L φ h hφ h1
  have hsub : ∀ k ∈ nds root L, ∀ i ∈ V k, i ∈ vrs V root L := by
    intro k hk i hi
    rw [mem_vrs]; exact ⟨k, hk, hi⟩
  have hatt : ∀ {L : List Msg}, Att V isSep root L → ∀ m ∈ L, (∀ i ∈ V m.s, i ∈ V m.p) ∧ (∀ i ∈ V m.s, i ∈ V m.c) := by
    intro L
    induction L with
    | nil => intro _ m hm; simp at hm
    | cons m' L ih =>
      intro hA m hm
      rcases List.mem_cons.1 hm with rfl | hm
      · exact ⟨hA.2.2.2.2.2.2.1, hA.2.2.2.2.2.2.2.1⟩
      · exact ih hA.1 m hm
  have hnds : ∀ k, k ∈ nds root L' ↔ k ∈ nds root L := by
    intro k
    simp only [nds, List.mem_cons, List.mem_map]
    constructor
    · rintro (e | ⟨m, hm, e⟩)
      · exact Or.inl e
      · exact Or.inr ⟨m, (hLL m).1 hm, e⟩
    · rintro (e | ⟨m, hm, e⟩)
      · exact Or.inl e
      · exact Or.inr ⟨m, (hLL m).2 hm, e⟩
  have hseps : ∀ k, k ∈ L'.map Msg.s ↔ k ∈ L.map Msg.s := by
    intro k
    simp only [List.mem_map]
    constructor
    · rintro ⟨m, hm, e⟩; exact ⟨m, (hLL m).1 hm, e⟩
    · rintro ⟨m, hm, e⟩; exact ⟨m, (hLL m).2 hm, e⟩
  have hd := distF_spec (D := D) (collectF D V L φ) (collectF_nonneg L φ hn) (mrg D V root L φ) L' h' s1 (by
    intro m hm
    rw [hLL] at hm
    obtain ⟨a, b⟩ := s2 m hm
    have hpm := h.parent_mem m hm
    have hcm : m.c ∈ nds root L := by simp only [nds, List.mem_cons]; exact Or.inr (List.mem_map_of_mem hm)
    refine ⟨a, b, ?_, ?_⟩
    · exact elim_filter_split (vrs_nodup hV L) (hV m.p) (hatt h m hm).1 (hsub _ hpm) _
    · exact elim_filter_split (vrs_nodup hV L) (hV m.c) (hatt h m hm).2 (hsub _ hcm) _)
  refine ⟨distF_dep L' _ h' (collectF_dep L φ h hφ), distF_nonneg L' _ (collectF_nonneg L φ hn), ?_, ?_⟩
  · rintro k (hk | hk)
    · exact hd.1 k ((hnds k).2 hk)
    · exact hd.2 k ((hseps k).2 hk)
  · intro k hk hs
    have hk' : k ∉ L'.map Msg.c := fun e => hk ((hnds k).1 (by simp only [nds, List.mem_cons]; exact Or.inr e))
    have hs' : k ∉ L'.map Msg.s := fun e => hs ((hseps k).1 e)
    show distF D V L' (collectF D V L φ) k = φ k
    rw [distF_other L' _ k hk' hs', collectF_other L φ h k hk hs]

end

end PyBBN
