import Verif.Proofs.TreeShape
import Verif.Proofs.Walk

/-! One propagation pass calibrates the component of the start clique. -/

namespace PyBBN
open Propagator

/-- variables of a node of the join tree -/
def JoinTree.scope (jt : JoinTree) (k : Str) : List Variable :=
  ((Dict.get? jt.nodes k).map JNode.vars).getD []

section
variable {cs : List Clique} {T : List SepSet} {jt : JoinTree}

theorem JTSpec.frame {jt' : JoinTree} (h : JTSpec cs T jt) (h1 : jt'.nodes = jt.nodes) (h2 : jt'.neighbors = jt.neighbors) :
    JTSpec cs T jt' := by
  refine ⟨h.fam, ⟨h.shape.sub, h.shape.good, h.shape.touched, ?_, ?_, ?_, ?_⟩, h.forest, h.rip⟩
  · rw [h1]; exact h.shape.keys
  · rw [h1]; exact h.shape.node
  · rw [h2]; exact h.shape.nb
  · rw [h2]; exact h.shape.nbNodup

theorem JTSpec.get_clique (h : JTSpec cs T jt) {c : Clique} (hc : c ∈ cs) :
    Dict.get? jt.nodes c.id = some (.clique c) := (h.shape.node _ _).2 (Or.inl ⟨c, hc, rfl, rfl⟩)

theorem JTSpec.get_sep (h : JTSpec cs T jt) {s : SepSet} (hs : s ∈ T) :
    Dict.get? jt.nodes s.id = some (.sepset s) := (h.shape.node _ _).2 (Or.inr ⟨s, hs, rfl, rfl⟩)

theorem JTSpec.scope_clique (h : JTSpec cs T jt) {c : Clique} (hc : c ∈ cs) : jt.scope c.id = c.nodes := by
  unfold JoinTree.scope; rw [h.get_clique hc]; rfl

theorem JTSpec.scope_sep (h : JTSpec cs T jt) {s : SepSet} (hs : s ∈ T) : jt.scope s.id = s.nodes := by
  unfold JoinTree.scope; rw [h.get_sep hs]; rfl

theorem JTSpec.scope_nodup (h : JTSpec cs T jt) (k : Str) : (vids (jt.scope k)).Nodup := by
  unfold JoinTree.scope
  cases hk : Dict.get? jt.nodes k with
  | none => simp
  | some n =>
    rcases (h.shape.node _ _).1 hk with ⟨c, hc, _, rfl⟩ | ⟨s, hs, _, rfl⟩
    · exact h.fam.nodup c hc
    · exact (h.shape.good s hs).nodup h.fam

/-- the two cliques of a separation set -/
def Joins (s : SepSet) (P C : Clique) : Prop := (s.left = P ∧ s.right = C) ∨ (s.left = C ∧ s.right = P)

theorem Joins.conn {T : List SepSet} {s : SepSet} {P C : Clique} (h : Joins s P C) (hs : s ∈ T) : Conn sl sr T P.fs C.fs := by
  have := Conn.edge (l := sl) (r := sr) hs
  rcases h with ⟨rfl, rfl⟩ | ⟨rfl, rfl⟩
  · exact this
  · exact this.symm

theorem JTSpec.not_conn (h : JTSpec cs T jt) {s : SepSet} {P C : Clique} (hj : Joins s P C) (hs : s ∈ T) :
    ¬ Conn sl sr (T.erase s) P.fs C.fs := by
  have := h.forest.remove hs
  rcases hj with ⟨rfl, rfl⟩ | ⟨rfl, rfl⟩
  · exact this
  · exact fun c => this c.symm

theorem JTSpec.mem_nbrs_clique (h : JTSpec cs T jt) (js : SetIter Str) {P : Clique} (hP : P ∈ cs) (t : Nat) (k : Str) :
    k ∈ js.iter t P.id (ddGet jt.neighbors P.id) ↔ ∃ s ∈ T, s.id = k ∧ (s.left = P ∨ s.right = P) := by
  rw [js.mem, h.shape.nb]
  constructor
  · rintro ⟨s, hs, h1⟩
    have hg := h.shape.good s hs
    rcases h1 with ⟨e, rfl⟩ | ⟨e, rfl⟩ | ⟨e, _⟩ | ⟨e, _⟩
    · exact ⟨s, hs, rfl, Or.inl ((h.fam.id_iff hP hg.left).1 e).symm⟩
    · exact ⟨s, hs, rfl, Or.inr ((h.fam.id_iff hP hg.right).1 e).symm⟩
    · exact absurd e (hg.ne_clique h.fam hP)
    · exact absurd e (hg.ne_clique h.fam hP)
  · rintro ⟨s, hs, rfl, rfl | rfl⟩
    · exact ⟨s, hs, Or.inl ⟨rfl, rfl⟩⟩
    · exact ⟨s, hs, Or.inr (Or.inl ⟨rfl, rfl⟩)⟩

theorem JTSpec.nb_spec (h : JTSpec cs T jt) (js : SetIter Str) {P : Clique} (hP : P ∈ cs) (z : Str × Str) :
    z ∈ neighboringCliques js jt P.id ↔ ∃ s ∈ T, ∃ C ∈ cs, z = (s.id, C.id) ∧ Joins s P C := by
  unfold neighboringCliques JoinTree.nbrs
  rw [List.mem_flatMap]
  constructor
  · rintro ⟨k, hk, hz⟩
    obtain ⟨s, hs, rfl, hsP⟩ := (h.mem_nbrs_clique js hP _ k).1 hk
    obtain ⟨d, hd, rfl⟩ := List.mem_map.1 hz
    obtain ⟨hd, hne⟩ := List.mem_filter.1 hd
    simp only [decide_eq_true_eq] at hne
    rw [js.mem] at hd
    have hg := h.shape.good s hs
    rcases (h.sep_nbrs hs d).1 hd with rfl | rfl
    · refine ⟨s, hs, s.left, hg.left, rfl, Or.inr ⟨rfl, ?_⟩⟩
      rcases hsP with e | e
      · exact absurd (by rw [e]) hne
      · exact e
    · refine ⟨s, hs, s.right, hg.right, rfl, Or.inl ⟨?_, rfl⟩⟩
      rcases hsP with e | e
      · exact e
      · exact absurd (by rw [e]) hne
  · rintro ⟨s, hs, C, hC, rfl, hj⟩
    have hg := h.shape.good s hs
    refine ⟨s.id, (h.mem_nbrs_clique js hP _ _).2 ⟨s, hs, rfl, ?_⟩, List.mem_map.2 ⟨C.id, List.mem_filter.2 ⟨?_, ?_⟩, rfl⟩⟩
    · rcases hj with ⟨e, _⟩ | ⟨_, e⟩
      · exact Or.inl e
      · exact Or.inr e
    · rw [js.mem, h.sep_nbrs hs]
      rcases hj with ⟨_, e⟩ | ⟨e, _⟩
      · right; rw [e]
      · left; rw [e]
    · simp only [decide_eq_true_eq]
      intro e
      have := (h.fam.id_iff hC hP).1 e
      subst this
      rcases hj with ⟨e1, e2⟩ | ⟨e1, e2⟩
      · exact hg.ne (e1.trans e2.symm)
      · exact hg.ne (e1.trans e2.symm)

theorem JTSpec.nb_keys (h : JTSpec cs T jt) (js : SetIter Str) (k : Str) :
    ∀ z ∈ neighboringCliques js jt k, z.2 ∈ Dict.keys jt.nodes := by
  intro z hz
  unfold neighboringCliques JoinTree.nbrs at hz
  obtain ⟨s, _, hz⟩ := List.mem_flatMap.1 hz
  obtain ⟨d, hd, rfl⟩ := List.mem_map.1 hz
  have := (List.mem_filter.1 hd).1
  rw [js.mem] at this
  exact (h.shape.mem_keys this).2

theorem JTSpec.nb_nodup (h : JTSpec cs T jt) (js : SetIter Str) {P : Clique} (hP : P ∈ cs) :
    ((neighboringCliques js jt P.id).map Prod.snd).Nodup := by
  have hspec := h.nb_spec js hP
  unfold neighboringCliques JoinTree.nbrs at hspec ⊢
  rw [List.map_flatMap, List.nodup_flatMap]
  refine ⟨?_, ?_⟩
  · intro s _
    rw [List.map_map]
    have : (Prod.snd ∘ fun d => (s, d)) = (id : Str → Str) := rfl
    rw [this, List.map_id]
    exact (js.nodup _ _ (h.shape.nbNodup _)).filter _
  · have hn : (js.iter jt.edges.length P.id (ddGet jt.neighbors P.id)).Nodup := js.nodup _ _ (h.shape.nbNodup _)
    refine List.Pairwise.imp_of_mem ?_ hn
    intro a b ha hb hab
    rw [Function.onFun, List.disjoint_left]
    intro d hda hdb
    rw [List.map_map] at hda hdb
    obtain ⟨d1, hd1, e1⟩ := List.mem_map.1 hda
    obtain ⟨d2, hd2, e2⟩ := List.mem_map.1 hdb
    change d1 = d at e1
    change d2 = d at e2
    subst e1 e2
    obtain ⟨s, hs, C, hC, hz, hj⟩ := (hspec (a, d2)).1 (List.mem_flatMap.2 ⟨a, ha, List.mem_map.2 ⟨d2, hd1, rfl⟩⟩)
    obtain ⟨s', hs', C', hC', hz', hj'⟩ := (hspec (b, d2)).1 (List.mem_flatMap.2 ⟨b, hb, List.mem_map.2 ⟨d2, hd2, rfl⟩⟩)
    simp only [Prod.mk.injEq] at hz hz'
    have hCC : C = C' := (h.fam.id_iff hC hC').1 (hz.2.symm.trans hz'.2)
    subst hCC
    apply h.not_conn hj hs
    apply hj'.conn
    refine (List.mem_erase_of_ne ?_).2 hs'
    rintro rfl
    exact hab (hz.1.trans hz'.1.symm)

/-- an order of edges leading away from the start is an attachment order -/
theorem JTSpec.att (h : JTSpec cs T jt) (js : SetIter Str) {R : Clique} (hR : R ∈ cs) : ∀ (L : List Msg),
    AttO [R.id] L → (∀ e ∈ L, (e.s, e.c) ∈ neighboringCliques js jt e.p) → (nds R.id L).Nodup →
    Att (fun k => vids (jt.scope k)) (fun k => ∃ s ∈ T, s.id = k) R.id L ∧
    (∀ k ∈ nds R.id L, ∃ C ∈ cs, C.id = k ∧ Conn sl sr (T.filter (fun s => decide (s.id ∈ L.map Msg.s))) R.fs C.fs) ∧
    (∀ e ∈ L, ∃ s ∈ T, ∃ P ∈ cs, ∃ C ∈ cs, s.id = e.s ∧ P.id = e.p ∧ C.id = e.c ∧ Joins s P C)
  | [], _, _, _ => by
      refine ⟨?_, ?_, by simp⟩
      · rintro ⟨s, hs, e⟩
        exact (h.shape.good s hs).ne_clique h.fam hR e.symm
      · intro k hk
        simp [nds] at hk
        subst hk
        exact ⟨R, hR, rfl, Conn.refl _ _⟩
  | e :: L, hO, hE, hN => by
      have hN' : (nds R.id L).Nodup ∧ e.c ∉ nds R.id L := by
        simp only [nds, List.map_cons, List.nodup_cons, List.mem_cons, not_or] at hN ⊢
        exact ⟨⟨hN.1.2, hN.2.2⟩, fun e => hN.1.1 e.symm, hN.2.1⟩
      obtain ⟨ih1, ih2, ih3⟩ := h.att js hR L hO.2 (fun e' he' => hE e' (List.mem_cons_of_mem _ he')) hN'.1
      have hp : e.p ∈ nds R.id L := by
        rcases hO.1 with h1 | h1
        · simp only [List.mem_cons, List.not_mem_nil, or_false] at h1
          rw [h1]; exact List.mem_cons_self
        · exact List.mem_cons_of_mem _ h1
      obtain ⟨P, hP, hPid, hPc⟩ := ih2 _ hp
      have hz := hE e List.mem_cons_self
      rw [← hPid] at hz
      obtain ⟨s, hs, C, hC, hz, hj⟩ := (h.nb_spec js hP _).1 hz
      simp only [Prod.mk.injEq] at hz
      have hg := h.shape.good s hs
      have hnew : e.s ∉ L.map Msg.s := by
        intro hc
        obtain ⟨e', he', hes⟩ := List.mem_map.1 hc
        obtain ⟨s', hs', P', hP', C', hC', k1, k2, k3, hj'⟩ := ih3 e' he'
        have : s' = s := (h.shape.good s' hs').inj h.fam hg (by rw [k1, hes, hz.1])
        subst this
        have hCC : C = C' ∨ C = P' := by
          rcases hj with ⟨a1, a2⟩ | ⟨a1, a2⟩ <;> rcases hj' with ⟨b1, b2⟩ | ⟨b1, b2⟩
          · left; rw [← a2, ← b2]
          · right; rw [← a2, ← b2]
          · right; rw [← a1, ← b1]
          · left; rw [← a1, ← b1]
        apply hN'.2
        rw [hz.2]
        rcases hCC with rfl | rfl
        · rw [k3]; exact List.mem_cons_of_mem _ (List.mem_map_of_mem he')
        · rw [k2]; exact ih1.parent_mem e' he'
      have scS : jt.scope e.s = s.nodes := by rw [hz.1]; exact h.scope_sep hs
      have scC : jt.scope e.c = C.nodes := by rw [hz.2]; exact h.scope_clique hC
      have scP : jt.scope e.p = P.nodes := by rw [← hPid]; exact h.scope_clique hP
      have memS : ∀ i, i ∈ vids s.nodes ↔ i ∈ vids P.nodes ∧ i ∈ vids C.nodes := by
        intro i
        rw [hg.mem_nodes]
        rcases hj with ⟨a1, a2⟩ | ⟨a1, a2⟩
        · rw [a1, a2]; rfl
        · rw [a1, a2]; exact And.comm
      refine ⟨⟨ih1, hp, hN'.2, ?_, ⟨s, hs, hz.1.symm⟩, hnew, ?_, ?_, ?_⟩, ?_, ?_⟩
      · rintro ⟨t, ht, et⟩
        exact (h.shape.good t ht).ne_clique h.fam hC (by rw [et, hz.2])
      · intro i hi
        simp only [scS, scP] at hi ⊢
        exact ((memS i).1 hi).1
      · intro i hi
        simp only [scS, scC] at hi ⊢
        exact ((memS i).1 hi).2
      · rintro i hi ⟨q, hq, hiq⟩
        simp only [scS, scC] at hi ⊢
        obtain ⟨Q, hQ, hQid, hQc⟩ := ih2 q hq
        have scQ : jt.scope q = Q.nodes := by rw [← hQid]; exact h.scope_clique hQ
        simp only [scQ] at hiq
        by_contra hns
        apply h.not_conn hj hs
        have hsub : ∀ t ∈ T.filter (fun t => decide (t.id ∈ L.map Msg.s)), t ∈ T.erase s := by
          intro t ht
          obtain ⟨ht1, ht2⟩ := List.mem_filter.1 ht
          simp only [decide_eq_true_eq] at ht2
          refine (List.mem_erase_of_ne ?_).2 ht1
          rintro rfl
          rw [← hz.1] at ht2
          exact hnew ht2
        have c1 : Conn sl sr (T.erase s) P.fs Q.fs := (hPc.symm.trans hQc).mono hsub
        refine c1.trans ((h.rip i Q hQ C hC ((Q.mem_fs i).2 hiq) ((C.mem_fs i).2 hi)).mono ?_)
        intro t ht
        obtain ⟨ht1, ht2⟩ := List.mem_filter.1 ht
        simp only [decide_eq_true_eq, Finset.mem_inter, sl, sr, Clique.mem_fs] at ht2
        refine (List.mem_erase_of_ne ?_).2 ht1
        rintro rfl
        exact hns ((hg.mem_nodes i).2 ht2)
      · intro k hk
        have hmono : ∀ t ∈ T.filter (fun t => decide (t.id ∈ L.map Msg.s)),
            t ∈ T.filter (fun t => decide (t.id ∈ (e :: L).map Msg.s)) := by
          intro t ht
          obtain ⟨ht1, ht2⟩ := List.mem_filter.1 ht
          simp only [decide_eq_true_eq] at ht2
          refine List.mem_filter.2 ⟨ht1, ?_⟩
          simp only [decide_eq_true_eq]
          rw [List.map_cons]
          exact List.mem_cons_of_mem _ ht2
        by_cases hkc : k = e.c
        · refine ⟨C, hC, by rw [hkc, hz.2], (hPc.mono hmono).trans (hj.conn ?_)⟩
          refine List.mem_filter.2 ⟨hs, ?_⟩
          simp only [decide_eq_true_eq]
          rw [List.map_cons, ← hz.1]
          exact List.mem_cons_self
        · have hk' : k ∈ nds R.id L := by
            simp only [nds, List.map_cons, List.mem_cons] at hk ⊢; tauto
          obtain ⟨Q, hQ, hQid, hQc⟩ := ih2 k hk'
          exact ⟨Q, hQ, hQid, hQc.mono hmono⟩
      · intro e' he'
        rcases List.mem_cons.1 he' with rfl | he'
        · exact ⟨s, hs, P, hP, C, hC, hz.1.symm, hPid, hz.2.symm, hj⟩
        · exact ih3 e' he'

end

/-! ### messages on tables -/

/-- the tables of the join tree are those of `φ` -/
def HasTabs (jt : JoinTree) (φ : Tabs) : Prop :=
  ∀ k ∈ Dict.keys jt.nodes, Dict.get? jt.potentials k = some (tab (jt.scope k) (φ k))

/-- the join tree is over the given variables -/
structure Ctx (vars : List Variable) (cs : List Clique) (T : List SepSet) (jt : JoinTree) : Prop where
  spec : JTSpec cs T jt
  vn : (vids vars).Nodup
  vals : ∀ v ∈ vars, v.values.Nodup
  sub : ∀ c ∈ cs, ∀ v ∈ c.nodes, v ∈ vars
  cover : ∀ v ∈ vars, ∃ c ∈ cs, v ∈ c.nodes
  ne : ∀ c ∈ cs, c.nodes ≠ []

section
variable {vars : List Variable} {cs : List Clique} {T : List SepSet} {jt : JoinTree}

theorem Ctx.frame {jt' : JoinTree} (h : Ctx vars cs T jt) (h1 : jt'.nodes = jt.nodes) (h2 : jt'.neighbors = jt.neighbors) :
    Ctx vars cs T jt' := ⟨h.spec.frame h1 h2, h.vn, h.vals, h.sub, h.cover, h.ne⟩

theorem Ctx.scope_sub (h : Ctx vars cs T jt) (k : Str) : ∀ v ∈ jt.scope k, v ∈ vars := by
  unfold JoinTree.scope
  cases hk : Dict.get? jt.nodes k with
  | none => simp
  | some n =>
    rcases (h.spec.shape.node _ _).1 hk with ⟨c, hc, _, rfl⟩ | ⟨s, hs, _, rfl⟩
    · exact h.sub c hc
    · intro v hv
      have hg := h.spec.shape.good s hs
      exact h.sub _ hg.left v (hg.nodes_sub.subset hv)

theorem Ctx.mem_of_id (h : Ctx vars cs T jt) {l l' : List Variable} (hl : ∀ v ∈ l, v ∈ vars) (hl' : ∀ v ∈ l', v ∈ vars)
    (hi : ∀ i ∈ vids l, i ∈ vids l') : ∀ v ∈ l, v ∈ l' := by
  intro v hv
  obtain ⟨u, hu, e⟩ := List.mem_map.1 (hi v.id (List.mem_map_of_mem hv))
  have := List.inj_on_of_nodup_map h.vn (hl' u hu) (hl v hv) e
  exact this ▸ hu

theorem Ctx.dom (h : Ctx vars cs T jt) (k : Str) : DomOk (domOf vars) (jt.scope k) :=
  (domOf_ok h.vn).sub (h.scope_sub k)

theorem Ctx.pass (h : Ctx vars cs T jt) {φ : Tabs} (ht : HasTabs jt φ) (hφ : ∀ k, Dep (fun i => i ∈ vids (jt.scope k)) (φ k))
    {x s y : Str} (hx : x ∈ Dict.keys jt.nodes) (hs : s ∈ Dict.keys jt.nodes) (hy : y ∈ Dict.keys jt.nodes) (hsy : s ≠ y)
    (hsx : ∀ i ∈ vids (jt.scope s), i ∈ vids (jt.scope x)) (hsy' : ∀ i ∈ vids (jt.scope s), i ∈ vids (jt.scope y)) :
    ∃ p, passSingleMessage jt x s y = .ok { jt with potentials := p } ∧
      HasTabs { jt with potentials := p } (msgF (domOf vars) (fun k => vids (jt.scope k)) x s y φ) := by
  obtain ⟨sn, hsn⟩ := Dict.exists_get?_of_mem_keys hs
  have hscope : sn.vars = jt.scope s := by unfold JoinTree.scope; rw [hsn]; rfl
  have hD : ∀ i, (domOf vars i).Nodup := domOf_nodup h.vals
  have hm := marginalize_tab (D := domOf vars) (h.spec.scope_nodup x) (h.spec.scope_nodup s) (h.dom x) (h.dom s) hsx hD (hφ x)
  have hvs : ∀ v ∈ jt.scope s, v ∈ jt.scope y := h.mem_of_id (h.scope_sub s) (h.scope_sub y) hsy'
  set μ := elim (domOf vars) ((vids (jt.scope x)).filter (fun i => decide (i ∉ vids (jt.scope s)))) (φ x) with hμ
  have hμd : Dep (fun i => i ∈ vids (jt.scope s)) μ := by
    refine ((hφ x).elim _).mono ?_
    rintro i ⟨h1, h2⟩
    by_contra hc
    exact h2 (List.mem_filter.2 ⟨h1, by simpa using hc⟩)
  have hmul := multiply_tab (f := φ y) (g := fun σ => μ σ / φ s σ) (h.spec.scope_nodup y) (h.spec.scope_nodup s) hvs
    (fun v hv => h.vals v (h.scope_sub s v hv)) (hμd.div (hφ s))
  refine ⟨Dict.set (Dict.set jt.potentials s (tab (jt.scope s) μ)) y (tab (jt.scope y) fun σ => φ y σ * (μ σ / φ s σ)), ?_, ?_⟩
  · unfold passSingleMessage
    rw [Dict.getItem_of_get? (ht s hs), Dict.getItem_of_get? hsn]
    simp only [bind, Except.bind]
    unfold marginalizeFor
    rw [ht x hx]
    simp only
    rw [hscope, hm]
    have hyp : Dict.get? (Dict.set jt.potentials s (tab (jt.scope s) μ)) y = some (tab (jt.scope y) (φ y)) := by
      rw [Dict.get?_set_ne _ _ hsy]
      exact ht y hy
    rw [Dict.getItem_of_get? hyp]
    simp only
    rw [divide_tab]
    simp only
    rw [hmul]
  · intro k hk
    change Dict.get? (Dict.set (Dict.set jt.potentials s _) y _) k = some (tab (jt.scope k) _)
    by_cases h1 : k = y
    · subst h1
      rw [Dict.get?_set_self, msgF_y]
    · rw [Dict.get?_set_ne _ _ (fun e => h1 e.symm)]
      by_cases h2 : k = s
      · subst h2
        rw [Dict.get?_set_self, msgF_s _ h1]
      · rw [Dict.get?_set_ne _ _ (fun e => h2 e.symm), msgF_other _ h2 h1]
        exact ht k hk

/-- an edge whose ends are a clique, a separation set and a clique of the tree -/
def OkMsg (jt : JoinTree) (e : Msg) : Prop :=
  e.p ∈ Dict.keys jt.nodes ∧ e.s ∈ Dict.keys jt.nodes ∧ e.c ∈ Dict.keys jt.nodes ∧ e.s ≠ e.p ∧ e.s ≠ e.c ∧
  (∀ i ∈ vids (jt.scope e.s), i ∈ vids (jt.scope e.p)) ∧ (∀ i ∈ vids (jt.scope e.s), i ∈ vids (jt.scope e.c))

theorem Ctx.passUp : ∀ (L : List Msg) {jt : JoinTree}, Ctx vars cs T jt → ∀ {φ : Tabs}, HasTabs jt φ →
    (∀ k, Dep (fun i => i ∈ vids (jt.scope k)) (φ k)) → (∀ e ∈ L, OkMsg jt e) →
    ∃ p, PyBBN.passUp L jt = .ok { jt with potentials := p } ∧
      HasTabs { jt with potentials := p } (collectF (domOf vars) (fun k => vids (jt.scope k)) L φ)
  | [], jt, _, φ, ht, _, _ => ⟨jt.potentials, rfl, ht⟩
  | e :: L, jt, h, φ, ht, hφ, hE => by
      obtain ⟨a1, a2, a3, a4, a5, a6, a7⟩ := hE e List.mem_cons_self
      obtain ⟨p, h1, h2⟩ := h.pass ht hφ a3 a2 a1 a4 a7 a6
      have hc : Ctx vars cs T { jt with potentials := p } := h.frame rfl rfl
      obtain ⟨q, h3, h4⟩ := Ctx.passUp L hc h2 (msgF_dep hφ a7 a6) (fun e' he' => hE e' (List.mem_cons_of_mem _ he'))
      refine ⟨q, ?_, h4⟩
      unfold PyBBN.passUp at h3 ⊢
      rw [List.foldlM_cons, h1]
      exact h3

theorem Ctx.passDown : ∀ (L : List Msg) {jt : JoinTree}, Ctx vars cs T jt → ∀ {φ : Tabs}, HasTabs jt φ →
    (∀ k, Dep (fun i => i ∈ vids (jt.scope k)) (φ k)) → (∀ e ∈ L, OkMsg jt e) →
    ∃ p, PyBBN.passDown L jt = .ok { jt with potentials := p } ∧
      HasTabs { jt with potentials := p } (L.foldl (fun φ m => msgF (domOf vars) (fun k => vids (jt.scope k)) m.p m.s m.c φ) φ)
  | [], jt, _, φ, ht, _, _ => ⟨jt.potentials, rfl, ht⟩
  | e :: L, jt, h, φ, ht, hφ, hE => by
      obtain ⟨a1, a2, a3, a4, a5, a6, a7⟩ := hE e List.mem_cons_self
      obtain ⟨p, h1, h2⟩ := h.pass ht hφ a1 a2 a3 a5 a6 a7
      have hc : Ctx vars cs T { jt with potentials := p } := h.frame rfl rfl
      obtain ⟨q, h3, h4⟩ := Ctx.passDown L hc h2 (msgF_dep hφ a6 a7) (fun e' he' => hE e' (List.mem_cons_of_mem _ he'))
      refine ⟨q, ?_, h4⟩
      unfold PyBBN.passDown at h3 ⊢
      rw [List.foldlM_cons, h1]
      exact h3

theorem jnt_prod (root : Str) (φ : Tabs) : ∀ (L : List Msg) (σ : Asg),
    jnt root φ L σ = ((nds root L).map (fun k => φ k σ)).prod
  | [], σ => by simp [jnt, nds]
  | m :: L, σ => by
      show φ m.c σ * jnt root φ L σ = _
      rw [jnt_prod root φ L σ]
      simp only [nds, List.map_cons, List.prod_cons]
      ring

/-- the clique with the smallest id, where propagation starts -/
def startClique (jt : JoinTree) : Option Clique :=
  (sortBy (fun a b => strLe (Clique.id a) (Clique.id b)) jt.getCliques).head?

/-- one propagation pass: in the component of the start clique every table becomes the marginal of the product of the
clique tables of the component; the other tables are unchanged -/
theorem Ctx.propagate (h : Ctx vars cs T jt) (js : SetIter Str) (hne : cs ≠ []) {φ : Tabs} (ht : HasTabs jt φ)
    (hφ : ∀ k, Dep (fun i => i ∈ vids (jt.scope k)) (φ k)) (hn : ∀ k σ, 0 ≤ φ k σ)
    (h1 : ∀ s ∈ T, φ s.id = fun _ => 1) :
    ∃ (p : Dict Str Potential) (χ : Tabs) (R : Clique) (ks : List Str) (vs : List Int),
      startClique jt = some R ∧ R ∈ cs ∧ Propagator.propagate js jt = .ok { jt with potentials := p } ∧
      HasTabs { jt with potentials := p } χ ∧ (∀ k, Dep (fun i => i ∈ vids (jt.scope k)) (χ k)) ∧ (∀ k σ, 0 ≤ χ k σ) ∧
      ks.Nodup ∧ (∀ k, k ∈ ks ↔ ∃ C ∈ cs, C.id = k ∧ Conn sl sr T R.fs C.fs) ∧
      vs.Nodup ∧ (∀ i, i ∈ vs ↔ ∃ k ∈ ks, i ∈ vids (jt.scope k)) ∧
      (∀ k, k ∈ ks ∨ (∃ s ∈ T, s.id = k ∧ s.left.id ∈ ks) →
        EqD (domOf vars) (vids (jt.scope k)) (χ k)
          (elim (domOf vars) (vs.filter (fun i => decide (i ∉ vids (jt.scope k)))) (fun σ => (ks.map (fun k => φ k σ)).prod))) ∧
      (∀ k, k ∉ ks → (∀ s ∈ T, s.id = k → s.left.id ∉ ks) → χ k = φ k) := by
  have hperm := h.spec.getCliques_perm
  obtain ⟨R, hx⟩ : ∃ R, startClique jt = some R := by
    unfold startClique
    have : sortBy (fun a b => strLe (Clique.id a) (Clique.id b)) jt.getCliques ≠ [] := by
      apply sortBy_ne_nil
      intro e
      rw [e] at hperm
      exact hne hperm.nil_eq.symm
    cases hl : sortBy (fun a b => strLe (Clique.id a) (Clique.id b)) jt.getCliques with
    | nil => exact absurd hl this
    | cons a l => exact ⟨a, rfl⟩
  have hR : R ∈ cs := by
    have := List.mem_of_mem_head? (show R ∈ startClique jt from hx)
    rw [mem_sortBy] at this
    exact (h.spec.shape.mem_getCliques _).1 this
  have hRk : R.id ∈ Dict.keys jt.nodes := Dict.mem_keys_of_get? (h.spec.get_clique hR)
  have hxn : ∀ z ∈ neighboringCliques js jt R.id, z.2 ≠ R.id := by
    intro z hz e
    obtain ⟨s, hs, C, hC, rfl, hj⟩ := (h.spec.nb_spec js hR z).1 hz
    have := (h.spec.fam.id_iff hC hR).1 e
    subst this
    have hg := h.spec.shape.good s hs
    rcases hj with ⟨e1, e2⟩ | ⟨e1, e2⟩
    · exact hg.ne (e1.trans e2.symm)
    · exact hg.ne (e1.trans e2.symm)
  have hnn := h.spec.nb_nodup js hR
  obtain ⟨pre, post, m', hw, hprop⟩ := propagate_walk js jt (x := R) (K := Dict.keys jt.nodes) hx
    (h.spec.nb_keys js) (by simp [Dict.keys]) hRk hnn hxn
  have hedge := hw.edges (fun x hx => hx)
  obtain ⟨ex, hm', hpc⟩ := hw.marks
  have hm'n : m'.Nodup := hw.nodup (by
    rw [List.nodup_cons]
    refine ⟨?_, hnn⟩
    intro hc
    obtain ⟨z, hz, e⟩ := List.mem_map.1 hc
    exact hxn z hz e)
  have hndsm : (nds R.id pre).Perm m' := by
    rw [hm', List.cons_append]
    exact List.Perm.cons _ hpc
  have hpp := hw.perm
  have hndsr : (nds R.id pre.reverse).Perm (nds R.id pre) := List.Perm.cons _ ((List.reverse_perm _).map _)
  have hndsp : (nds R.id post).Perm (nds R.id pre) := List.Perm.cons _ (hpp.symm.map _)
  obtain ⟨att1, conn1, join1⟩ := h.spec.att js hR post hw.attO_post (fun e he => hedge e (hpp.mem_iff.2 he))
    (hndsp.nodup_iff.2 (hndsm.nodup_iff.2 hm'n))
  obtain ⟨att2, _, join2⟩ := h.spec.att js hR pre.reverse hw.attO_pre (fun e he => hedge e (List.mem_reverse.1 he))
    (hndsr.nodup_iff.2 (hndsm.nodup_iff.2 hm'n))
  have hok : ∀ e ∈ post, OkMsg jt e := by
    intro e he
    obtain ⟨s, hs, P, hP, C, hC, k1, k2, k3, hj⟩ := join1 e he
    have hg := h.spec.shape.good s hs
    have memS : ∀ i, i ∈ vids s.nodes ↔ i ∈ vids P.nodes ∧ i ∈ vids C.nodes := by
      intro i
      rw [hg.mem_nodes]
      rcases hj with ⟨a1, a2⟩ | ⟨a1, a2⟩
      · rw [a1, a2]; rfl
      · rw [a1, a2]; exact And.comm
    refine ⟨?_, ?_, ?_, ?_, ?_, ?_, ?_⟩
    · rw [← k2]; exact Dict.mem_keys_of_get? (h.spec.get_clique hP)
    · rw [← k1]; exact Dict.mem_keys_of_get? (h.spec.get_sep hs)
    · rw [← k3]; exact Dict.mem_keys_of_get? (h.spec.get_clique hC)
    · rw [← k1, ← k2]; exact Ne.symm (hg.ne_clique h.spec.fam hP)
    · rw [← k1, ← k3]; exact Ne.symm (hg.ne_clique h.spec.fam hC)
    · rw [← k1, ← k2, h.spec.scope_sep hs, h.spec.scope_clique hP]
      exact fun i hi => ((memS i).1 hi).1
    · rw [← k1, ← k3, h.spec.scope_sep hs, h.spec.scope_clique hC]
      exact fun i hi => ((memS i).1 hi).2
  obtain ⟨p1, hp1, ht1⟩ := Ctx.passUp post h ht hφ hok
  have hd1 := collectF_dep (D := domOf vars) post φ att1 hφ
  have h' : Ctx vars cs T { jt with potentials := p1 } := h.frame rfl rfl
  obtain ⟨p2, hp2, ht2⟩ := Ctx.passDown pre h' ht1 hd1 (fun e he => hok e (hpp.mem_iff.1 he))
  have hfold : ∀ (l : List Msg) (ψ : Tabs), l.foldl (fun φ m => msgF (domOf vars) (fun k => vids (jt.scope k)) m.p m.s m.c φ) ψ =
      distF (domOf vars) (fun k => vids (jt.scope k)) l.reverse ψ := by
    intro l ψ
    unfold distF
    rw [List.foldr_reverse]
  have hV : ∀ k, (vids (jt.scope k)).Nodup := h.spec.scope_nodup
  obtain ⟨r1, r2, r3, r4⟩ := propagateF_spec (D := domOf vars) hV att1 att2
    (fun m => by rw [List.mem_reverse]; exact hpp.mem_iff) hφ hn (by
    intro m hm
    obtain ⟨s, hs, _, _, _, _, k1, _⟩ := join1 m hm
    rw [← k1]; exact h1 s hs)
  have hmem_nds : ∀ k, k ∈ nds R.id post ↔ ∃ C ∈ cs, C.id = k ∧ Conn sl sr T R.fs C.fs := by
    intro k
    constructor
    · intro hk
      obtain ⟨C, hC, e, hc⟩ := conn1 k hk
      exact ⟨C, hC, e, hc.mono (fun t ht => (List.mem_filter.1 ht).1)⟩
    · rintro ⟨C, hC, rfl, hc⟩
      -- closure under neighbors
      have hclosed : ∀ P ∈ cs, P.id ∈ nds R.id post → ∀ z ∈ neighboringCliques js jt P.id, z.2 ∈ nds R.id post := by
        intro P hP hPm z hz
        have hz' : z.2 ∈ m' := by
          rw [hndsp.mem_iff] at hPm
          rcases List.mem_cons.1 hPm with e | hPm
          · rw [e] at hz
            rw [hm']
            exact List.mem_append_left _ (List.mem_cons_of_mem _ (List.mem_map_of_mem hz))
          · obtain ⟨e, he, hec⟩ := List.mem_map.1 hPm
            exact hw.closed e he z (by rw [hec]; exact hz)
        exact hndsp.mem_iff.2 (hndsm.mem_iff.2 hz')
      have := Conn.elim (R := fun A B => A = B ∨ ∃ P ∈ cs, ∃ Q ∈ cs, P.fs = A ∧ Q.fs = B ∧
          (P.id ∈ nds R.id post ↔ Q.id ∈ nds R.id post)) (fun _ => Or.inl rfl) (by
          rintro A B (rfl | ⟨P, hP, Q, hQ, rfl, rfl, hpq⟩)
          · exact Or.inl rfl
          · exact Or.inr ⟨Q, hQ, P, hP, rfl, rfl, hpq.symm⟩) (by
          rintro A B C (rfl | ⟨P, hP, Q, hQ, rfl, rfl, hpq⟩) (rfl | ⟨P', hP', Q', hQ', e1, rfl, hpq'⟩)
          · exact Or.inl rfl
          · exact Or.inr ⟨P', hP', Q', hQ', e1, rfl, hpq'⟩
          · exact Or.inr ⟨P, hP, Q, hQ, rfl, rfl, hpq⟩
          · have := h.spec.fam.fs_inj hP' hQ e1
            subst this
            exact Or.inr ⟨P, hP, Q', hQ', rfl, rfl, hpq.trans hpq'⟩) (by
          intro s hs
          have hg := h.spec.shape.good s hs
          refine Or.inr ⟨s.left, hg.left, s.right, hg.right, rfl, rfl, ?_, ?_⟩
          · intro hm
            exact hclosed _ hg.left hm (s.id, s.right.id)
              ((h.spec.nb_spec js hg.left _).2 ⟨s, hs, s.right, hg.right, rfl, Or.inl ⟨rfl, rfl⟩⟩)
          · intro hm
            exact hclosed _ hg.right hm (s.id, s.left.id)
              ((h.spec.nb_spec js hg.right _).2 ⟨s, hs, s.left, hg.left, rfl, Or.inr ⟨rfl, rfl⟩⟩)) hc
      rcases this with e | ⟨P, hP, Q, hQ, e1, e2, hpq⟩
      · rw [← h.spec.fam.fs_inj hR hC e]
        exact List.mem_cons_self
      · rw [h.spec.fam.fs_inj hP hR e1, h.spec.fam.fs_inj hQ hC e2] at hpq
        exact hpq.1 List.mem_cons_self
  have hmem_s : ∀ s ∈ T, s.left.id ∈ nds R.id post → s.id ∈ post.map Msg.s := by
    intro s hs hl
    have hg := h.spec.shape.good s hs
    by_contra hns
    have hr : s.right.id ∈ nds R.id post := by
      obtain ⟨C, hC, e, hc⟩ := (hmem_nds _).1 hl
      rw [(h.spec.fam.id_iff hC hg.left).1 e] at hc
      exact (hmem_nds _).2 ⟨s.right, hg.right, rfl, hc.trans (Conn.edge (l := sl) (r := sr) hs)⟩
    obtain ⟨C, hC, e, hc⟩ := conn1 _ hl
    obtain ⟨C', hC', e', hc'⟩ := conn1 _ hr
    rw [(h.spec.fam.id_iff hC hg.left).1 e] at hc
    rw [(h.spec.fam.id_iff hC' hg.right).1 e'] at hc'
    apply h.spec.forest.remove hs
    refine (hc.symm.trans hc').mono ?_
    intro t ht
    obtain ⟨ht1, ht2⟩ := List.mem_filter.1 ht
    simp only [decide_eq_true_eq] at ht2
    refine (List.mem_erase_of_ne ?_).2 ht1
    rintro rfl
    exact hns ht2
  refine ⟨p2, distF (domOf vars) (fun k => vids (jt.scope k)) pre.reverse (collectF (domOf vars) (fun k => vids (jt.scope k)) post φ),
    R, nds R.id post, vrs (fun k => vids (jt.scope k)) R.id post, hx, hR, ?_, ?_, r1, r2, att1.nodup, hmem_nds,
    vrs_nodup hV _, fun i => mem_vrs i, ?_, ?_⟩
  · rw [hprop, hp1]
    exact hp2
  · rw [← hfold]; exact ht2
  · intro k hk
    have hj : (fun σ => ((nds R.id post).map (fun k => φ k σ)).prod) = jnt R.id φ post := by
      funext σ; rw [jnt_prod]
    rw [hj]
    refine r3 k ?_
    rcases hk with hk | ⟨s, hs, rfl, hl⟩
    · exact Or.inl hk
    · exact Or.inr (hmem_s s hs hl)
  · intro k hk hks
    refine r4 k hk ?_
    intro hc
    obtain ⟨e, he, rfl⟩ := List.mem_map.1 hc
    obtain ⟨s, hs, P, hP, C, hC, k1, k2, k3, hj⟩ := join1 e he
    apply hks s hs k1
    rcases hj with ⟨a1, a2⟩ | ⟨a1, a2⟩
    · rw [a1, k2]; exact att1.parent_mem e he
    · rw [a1, k3]; exact List.mem_cons_of_mem _ (List.mem_map_of_mem he)

end

end PyBBN
