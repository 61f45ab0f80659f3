import Verif.Proofs.Calibrate
import Verif.Model.Evidence

/-! Initialization of a join tree: every clique table is the product of the local tables and likelihoods assigned to it. -/

namespace PyBBN
open Initializer

/-! ### the nodes of a join tree -/

theorem get?_foldl_set_id : ∀ (l : List Variable) (d : Dict Int Variable), (∀ u ∈ l, ∀ w ∈ l, u.id = w.id → u = w) →
    ∀ i, Dict.get? (l.foldl (fun d v => Dict.set d v.id v) d) i =
      ((l.find? (fun v => decide (v.id = i))).or (Dict.get? d i))
  | [], d, _, i => by simp
  | v :: l, d, h, i => by
      rw [List.foldl_cons, get?_foldl_set_id l _ (fun u hu w hw => h u (List.mem_cons_of_mem _ hu) w (List.mem_cons_of_mem _ hw)),
        List.find?_cons]
      by_cases hv : v.id = i
      · subst hv
        simp only [decide_true]
        cases hf : l.find? (fun w => decide (w.id = v.id)) with
        | none => simp
        | some w =>
          have hm := List.mem_of_find?_eq_some hf
          have hw := List.find?_some hf
          simp only [decide_eq_true_eq] at hw
          rw [h w (List.mem_cons_of_mem _ hm) v List.mem_cons_self hw]
          simp
      · simp only [hv, decide_false]
        rw [Dict.get?_set_ne _ _ hv]

theorem nodup_foldl_set_id : ∀ (l : List Variable) (d : Dict Int Variable), (Dict.keys d).Nodup →
    (Dict.keys (l.foldl (fun d v => Dict.set d v.id v) d)).Nodup
  | [], _, h => h
  | _ :: l, _, h => nodup_foldl_set_id l _ (Dict.nodup_keys_set h _ _)

section
variable {vars : List Variable} {cs : List Clique} {T : List SepSet} {jt : JoinTree}

theorem Ctx.inj (h : Ctx vars cs T jt) {u w : Variable} (hu : u ∈ vars) (hw : w ∈ vars) (e : u.id = w.id) : u = w :=
  List.inj_on_of_nodup_map h.vn hu hw e

theorem Ctx.get_bbnNodeDict (h : Ctx vars cs T jt) (i : Int) (v : Variable) :
    Dict.get? jt.bbnNodeDict i = some v ↔ v ∈ vars ∧ v.id = i := by
  have hmem : ∀ v, v ∈ jt.getCliques.flatMap Clique.nodes ↔ v ∈ vars := by
    intro v
    rw [List.mem_flatMap]
    constructor
    · rintro ⟨c, hc, hv⟩
      exact h.sub c ((h.spec.shape.mem_getCliques _).1 hc) v hv
    · intro hv
      obtain ⟨c, hc, hvc⟩ := h.cover v hv
      exact ⟨c, (h.spec.shape.mem_getCliques _).2 hc, hvc⟩
  unfold JoinTree.bbnNodeDict
  rw [get?_foldl_set_id _ _ (fun u hu w hw => h.inj ((hmem u).1 hu) ((hmem w).1 hw))]
  simp only [Dict.get?, Option.or_none]
  constructor
  · intro hf
    have := List.find?_some hf
    simp only [decide_eq_true_eq] at this
    exact ⟨(hmem v).1 (List.mem_of_find?_eq_some hf), this⟩
  · rintro ⟨hv, rfl⟩
    cases hf : (jt.getCliques.flatMap Clique.nodes).find? (fun w => decide (w.id = v.id)) with
    | none =>
      have := List.find?_eq_none.1 hf v ((hmem v).2 hv)
      simp at this
    | some w =>
      have hw := List.find?_some hf
      simp only [decide_eq_true_eq] at hw
      rw [h.inj ((hmem w).1 (List.mem_of_find?_eq_some hf)) hv hw]

theorem Ctx.bbnNodes_perm (h : Ctx vars cs T jt) : jt.getBbnNodes.Perm vars := by
  have hk : (Dict.keys jt.bbnNodeDict).Nodup := nodup_foldl_set_id _ _ (by simp [Dict.keys])
  have hmem : ∀ v, v ∈ jt.getBbnNodes ↔ v ∈ vars := by
    intro v
    unfold JoinTree.getBbnNodes
    rw [Dict.mem_values_iff hk]
    constructor
    · rintro ⟨k, hv⟩; exact ((h.get_bbnNodeDict k v).1 hv).1
    · intro hv; exact ⟨v.id, (h.get_bbnNodeDict _ _).2 ⟨hv, rfl⟩⟩
  refine (List.perm_ext_iff_of_nodup ?_ (List.Nodup.of_map _ h.vn)).2 hmem
  unfold JoinTree.getBbnNodes Dict.values
  have : jt.bbnNodeDict.map Prod.fst = (jt.bbnNodeDict.map Prod.snd).map Variable.id := by
    rw [List.map_map]
    apply List.map_congr_left
    rintro ⟨k, v⟩ hkv
    exact ((h.get_bbnNodeDict k v).1 (Dict.get?_of_mem hk hkv)).2.symm
  unfold Dict.keys at hk
  rw [this] at hk
  exact List.Nodup.of_map _ hk

end

/-! ### the local tables -/

/-- a family of local functions: what each node's table is over, and its content -/
structure Net where
  fam : Variable → List Variable
  loc : Variable → Asg → ℚ

/-- the local functions are non-negative functions of their families -/
structure NetOk (vars : List Variable) (N : Net) : Prop where
  nodup : ∀ v ∈ vars, (vids (N.fam v)).Nodup
  sub : ∀ v ∈ vars, ∀ u ∈ N.fam v, u ∈ vars
  self : ∀ v ∈ vars, v ∈ N.fam v
  dep : ∀ v ∈ vars, Dep (fun i => i ∈ vids (N.fam v)) (N.loc v)
  nonneg : ∀ v ∈ vars, ∀ σ, 0 ≤ N.loc v σ

/-- the node object carries its local table and a usable parent clique, or the information to find one -/
def ObjOk (cs : List Clique) (N : Net) (v : Variable) (o : NodeObj) : Prop :=
  o.potential = some (tab (N.fam v) (N.loc v)) ∧
  ((∃ c ∈ cs, o.parentClique = some c.id ∧ ∀ u ∈ N.fam v, u ∈ c.nodes) ∨
   (o.parentClique = none ∧
    (∀ c ∈ cs, (∀ i ∈ o.parents.getD [] ++ [v.id], i ∈ c.nodeIds) → ∀ u ∈ N.fam v, u ∈ c.nodes) ∧
    (∃ c ∈ cs, ∀ i ∈ o.parents.getD [] ++ [v.id], i ∈ c.nodeIds)))

/-- all node objects are usable -/
def HeapOk (vars : List Variable) (cs : List Clique) (N : Net) (heap : Dict Int NodeObj) : Prop :=
  ∀ v ∈ vars, ∃ o, Dict.get? heap v.id = some o ∧ ObjOk cs N v o

/-- node objects with a parent clique -/
def HeapDone (l : List Variable) (cs : List Clique) (N : Net) (heap : Dict Int NodeObj) : Prop :=
  ∀ v ∈ l, ∃ o, Dict.get? heap v.id = some o ∧ o.potential = some (tab (N.fam v) (N.loc v)) ∧
    ∃ c ∈ cs, o.parentClique = some c.id ∧ ∀ u ∈ N.fam v, u ∈ c.nodes

theorem HeapDone.ok {vars : List Variable} {cs : List Clique} {N : Net} {heap : Dict Int NodeObj}
    (h : HeapDone vars cs N heap) : HeapOk vars cs N heap := by
  intro v hv
  obtain ⟨o, h1, h2, h3⟩ := h v hv
  exact ⟨o, h1, h2, Or.inl h3⟩

/-- `heap'` is `heap` with some missing parent cliques filled in -/
def HeapStep (heap heap' : Dict Int NodeObj) : Prop :=
  Dict.keys heap' = Dict.keys heap ∧
  ∀ i o, Dict.get? heap i = some o → ∃ q, Dict.get? heap' i = some { o with parentClique := q } ∧
    ∀ c, o.parentClique = some c → q = some c

theorem HeapStep.refl (heap : Dict Int NodeObj) : HeapStep heap heap :=
  ⟨rfl, fun _ o ho => ⟨o.parentClique, ho, fun _ h => h⟩⟩

theorem HeapStep.trans {a b c : Dict Int NodeObj} (h : HeapStep a b) (h' : HeapStep b c) : HeapStep a c := by
  refine ⟨h'.1.trans h.1, ?_⟩
  intro i o ho
  obtain ⟨q, h1, h2⟩ := h.2 i o ho
  obtain ⟨q', h3, h4⟩ := h'.2 i _ h1
  exact ⟨q', h3, fun c hc => h4 c (h2 c hc)⟩

theorem HeapStep.done {l : List Variable} {cs : List Clique} {N : Net} {a b : Dict Int NodeObj} (h : HeapStep a b)
    (hd : HeapDone l cs N a) : HeapDone l cs N b := by
  intro v hv
  obtain ⟨o, h1, h2, c, hc, h3, h4⟩ := hd v hv
  obtain ⟨q, h5, h6⟩ := h.2 _ o h1
  exact ⟨_, h5, h2, c, hc, h6 _ h3, h4⟩

theorem HeapStep.ok {vars : List Variable} {cs : List Clique} {N : Net} {heap heap' : Dict Int NodeObj} {v : Variable}
    {o : NodeObj} {q : Option Str} (h : HeapOk vars cs N heap) (ho : Dict.get? heap v.id = some o)
    (hinj : ∀ w ∈ vars, w.id = v.id → w = v)
    (hq : ∃ c ∈ cs, q = some c.id ∧ ∀ u ∈ N.fam v, u ∈ c.nodes)
    (hh : heap' = Dict.set heap v.id { o with parentClique := q }) : HeapOk vars cs N heap' := by
  subst hh
  intro w hw
  by_cases e : w.id = v.id
  · have := hinj w hw e
    subst this
    obtain ⟨o', h1, h2⟩ := h w hw
    rw [ho] at h1
    cases h1
    exact ⟨_, Dict.get?_set_self _ _ _, h2.1, Or.inl hq⟩
  · obtain ⟨o', h1, h2⟩ := h w hw
    exact ⟨o', by rw [Dict.get?_set_ne _ _ (fun e' => e e'.symm)]; exact h1, h2⟩

/-- the parent clique recorded on a node object -/
def pcOf (heap : Dict Int NodeObj) (v : Variable) : Str := ((Dict.get? heap v.id).bind NodeObj.parentClique).getD []

/-- product of the factors of the nodes assigned to the clique with id `k` -/
def wprod (pc : Variable → Str) (w : Variable → Asg → ℚ) (l : List Variable) (k : Str) (σ : Asg) : ℚ :=
  ((l.filter (fun v => decide (pc v = k))).map (fun v => w v σ)).prod

theorem wprod_nil (pc : Variable → Str) (w : Variable → Asg → ℚ) (k : Str) (σ : Asg) : wprod pc w [] k σ = 1 := rfl

theorem wprod_cons (pc : Variable → Str) (w : Variable → Asg → ℚ) (v : Variable) (l : List Variable) (k : Str) (σ : Asg) :
    wprod pc w (v :: l) k σ = (if pc v = k then w v σ else 1) * wprod pc w l k σ := by
  unfold wprod
  by_cases h : pc v = k
  · simp [h]
  · simp [h]

theorem wprod_congr {pc pc' : Variable → Str} (w : Variable → Asg → ℚ) {l : List Variable} (h : ∀ v ∈ l, pc v = pc' v)
    (k : Str) (σ : Asg) : wprod pc w l k σ = wprod pc' w l k σ := by
  unfold wprod
  rw [List.filter_congr (fun v hv => by rw [h v hv])]

theorem wprod_mul (pc : Variable → Str) (w w' : Variable → Asg → ℚ) (l : List Variable) (k : Str) (σ : Asg) :
    wprod pc w l k σ * wprod pc w' l k σ = wprod pc (fun v σ => w v σ * w' v σ) l k σ := by
  unfold wprod
  rw [← List.prod_map_mul]

theorem wprod_perm (pc : Variable → Str) (w : Variable → Asg → ℚ) {l m : List Variable} (h : l.Perm m) (k : Str) (σ : Asg) :
    wprod pc w l k σ = wprod pc w m k σ := ((h.filter _).map _).prod_eq

theorem wprod_nonneg (pc : Variable → Str) {w : Variable → Asg → ℚ} {l : List Variable} (h : ∀ v ∈ l, ∀ σ, 0 ≤ w v σ)
    (k : Str) (σ : Asg) : 0 ≤ wprod pc w l k σ := by
  induction l with
  | nil => rw [wprod_nil]; exact zero_le_one
  | cons v l ih =>
    rw [wprod_cons]
    refine mul_nonneg ?_ (ih (fun w hw => h w (List.mem_cons_of_mem _ hw)))
    split
    · exact h v List.mem_cons_self σ
    · exact zero_le_one

section
variable {vars : List Variable} {cs : List Clique} {T : List SepSet} {jt : JoinTree} {N : Net}

theorem Ctx.hasTabs_fresh (h : Ctx vars cs T jt) :
    HasTabs { jt with potentials := freshTables jt } (fun _ _ => 1) := by
  have step1 : ∀ (l : List Clique) (d : Dict Str Potential) (k : Str),
      Dict.get? (l.foldl (fun d c => Dict.set d c.id (PotentialUtil.fromNodes c.nodes)) d) k =
        ((l.reverse.find? (fun c => decide (c.id = k))).map (fun c => PotentialUtil.fromNodes c.nodes)).or (Dict.get? d k) := by
    intro l
    induction l with
    | nil => intro d k; simp
    | cons c l ih =>
      intro d k
      rw [List.foldl_cons, ih, List.reverse_cons, List.find?_append]
      by_cases e : c.id = k
      · cases l.reverse.find? (fun c => decide (c.id = k)) <;> simp [e]
      · rw [Dict.get?_set_ne _ _ e]
        cases l.reverse.find? (fun c => decide (c.id = k)) <;> simp [e]
  have step2 : ∀ (l : List SepSet) (d : Dict Str Potential) (k : Str),
      Dict.get? (l.foldl (fun d c => Dict.set d c.id (PotentialUtil.fromNodes c.nodes)) d) k =
        ((l.reverse.find? (fun c => decide (c.id = k))).map (fun c => PotentialUtil.fromNodes c.nodes)).or (Dict.get? d k) := by
    intro l
    induction l with
    | nil => intro d k; simp
    | cons c l ih =>
      intro d k
      rw [List.foldl_cons, ih, List.reverse_cons, List.find?_append]
      by_cases e : c.id = k
      · cases l.reverse.find? (fun c => decide (c.id = k)) <;> simp [e]
      · rw [Dict.get?_set_ne _ _ e]
        cases l.reverse.find? (fun c => decide (c.id = k)) <;> simp [e]
  intro k hk
  change Dict.get? (freshTables jt) k = some (tab (jt.scope k) _)
  rw [← fromNodes_eq_tab (h.spec.scope_nodup k)]
  unfold freshTables
  rw [step2, step1]
  obtain ⟨n, hn⟩ := Dict.exists_get?_of_mem_keys hk
  rcases (h.spec.shape.node _ _).1 hn with ⟨c, hc, e, _⟩ | ⟨s, hs, e, _⟩
  · have e' := e
    subst e
    rw [h.spec.scope_clique hc]
    have h1 : jt.getSepSets.reverse.find? (fun s => decide (s.id = c.id)) = none := by
      rw [List.find?_eq_none]
      intro s hs
      rw [List.mem_reverse, h.spec.shape.mem_getSepSets] at hs
      simp only [decide_eq_true_eq]
      exact fun e => (h.spec.shape.good s hs).ne_clique h.spec.fam hc e.symm
    rw [h1]
    cases h2 : jt.getCliques.reverse.find? (fun d => decide (d.id = c.id)) with
    | none =>
      have := List.find?_eq_none.1 h2 c (by rw [List.mem_reverse, h.spec.shape.mem_getCliques]; exact hc)
      simp at this
    | some d =>
      have hd := List.find?_some h2
      have hm := List.mem_of_find?_eq_some h2
      rw [List.mem_reverse, h.spec.shape.mem_getCliques] at hm
      simp only [decide_eq_true_eq] at hd
      rw [(h.spec.fam.id_iff hm hc).1 hd]
      rfl
  · subst e
    rw [h.spec.scope_sep hs]
    cases h2 : jt.getSepSets.reverse.find? (fun d => decide (d.id = s.id)) with
    | none =>
      have := List.find?_eq_none.1 h2 s (by rw [List.mem_reverse, h.spec.shape.mem_getSepSets]; exact hs)
      simp at this
    | some d =>
      have hd := List.find?_some h2
      have hm := List.mem_of_find?_eq_some h2
      rw [List.mem_reverse, h.spec.shape.mem_getSepSets] at hm
      simp only [decide_eq_true_eq] at hd
      rw [(h.spec.shape.good d hm).inj h.spec.fam (h.spec.shape.good s hs) hd]
      rfl

/-- choosing the parent clique -/
theorem Ctx.getClique (h : Ctx vars cs T jt) (hh : HeapOk vars cs N jt.heap) {v : Variable} (hv : v ∈ vars) :
    ∃ c ∈ cs, ∃ heap, Initializer.getClique jt v = .ok (c.id, { jt with heap := heap }) ∧ (∀ u ∈ N.fam v, u ∈ c.nodes) ∧
      HeapStep jt.heap heap ∧ HeapOk vars cs N heap ∧ HeapDone [v] cs N heap ∧ pcOf heap v = c.id ∧
      (HeapDone [v] cs N jt.heap → heap = jt.heap) := by
  obtain ⟨o, ho, hp, hc⟩ := hh v hv
  unfold Initializer.getClique
  rw [Dict.getItem_of_get? ho]
  simp only [bind, Except.bind]
  rcases hc with ⟨c, hc, he, hf⟩ | ⟨hn, hall, c0, hc0, hex⟩
  · rw [he]
    refine ⟨c, hc, jt.heap, rfl, hf, HeapStep.refl _, hh, ?_, ?_, fun _ => rfl⟩
    · intro w hw
      simp only [List.mem_cons, List.not_mem_nil, or_false] at hw
      subst hw
      exact ⟨o, ho, hp, c, hc, he, hf⟩
    · unfold pcOf; rw [ho]; simp [he]
  · rw [hn]
    simp only
    unfold JoinTree.findCliquesWithNodeAndParents JoinTree.getParentIds JoinTree.getBbnNode
    rw [(h.get_bbnNodeDict v.id v).2 ⟨hv, rfl⟩, ho]
    simp only [bind, Except.bind]
    set F := jt.getCliques.filter (fun c => (o.parents.getD [] ++ [v.id]).all (fun i => decide (i ∈ c.nodeIds))) with hF
    have hne : sortBy (fun a b => strLe (Clique.id a) (Clique.id b)) F ≠ [] := by
      apply sortBy_ne_nil
      intro e
      have : c0 ∈ F := List.mem_filter.2 ⟨(h.spec.shape.mem_getCliques _).2 hc0, by
        rw [List.all_eq_true]; intro i hi; simpa using hex i hi⟩
      rw [e] at this
      simp at this
    cases hs : sortBy (fun a b => strLe (Clique.id a) (Clique.id b)) F with
    | nil => exact absurd hs hne
    | cons c l =>
      have hcF : c ∈ F := by
        rw [← mem_sortBy (fun a b => strLe (Clique.id a) (Clique.id b)), hs]; exact List.mem_cons_self
      obtain ⟨h1, h2⟩ := List.mem_filter.1 hcF
      have hcc : c ∈ cs := (h.spec.shape.mem_getCliques _).1 h1
      rw [List.all_eq_true] at h2
      have hfam := hall c hcc (fun i hi => by simpa using h2 i hi)
      refine ⟨c, hcc, Dict.set jt.heap v.id { o with parentClique := some c.id }, rfl, hfam, ?_, ?_, ?_, ?_, ?_⟩
      · refine ⟨by rw [Dict.keys_set, if_pos (Dict.mem_keys_of_get? ho)], ?_⟩
        intro i o' ho'
        by_cases e : v.id = i
        · subst e
          rw [ho] at ho'
          cases ho'
          exact ⟨some c.id, Dict.get?_set_self _ _ _, fun d hd => by rw [hn] at hd; cases hd⟩
        · exact ⟨o'.parentClique, by rw [Dict.get?_set_ne _ _ e]; exact ho', fun _ h => h⟩
      · exact HeapStep.ok hh ho (fun w hw e => h.inj hw hv e) ⟨c, hcc, rfl, hfam⟩ rfl
      · intro w hw
        simp only [List.mem_cons, List.not_mem_nil, or_false] at hw
        subst hw
        exact ⟨_, Dict.get?_set_self _ _ _, hp, c, hcc, rfl, hfam⟩
      · unfold pcOf; rw [Dict.get?_set_self]; rfl
      · intro hd
        obtain ⟨o', h1, _, c', _, h3, _⟩ := hd v List.mem_cons_self
        rw [ho] at h1
        cases h1
        rw [hn] at h3
        cases h3

theorem Ctx.assignNode (h : Ctx vars cs T jt) (hN : NetOk vars N) (hh : HeapOk vars cs N jt.heap) {φ : Tabs}
    (ht : HasTabs jt φ) {v : Variable} (hv : v ∈ vars) :
    ∃ p heap, Initializer.assignNode jt v = .ok { jt with potentials := p, heap := heap } ∧
      HeapStep jt.heap heap ∧ HeapOk vars cs N heap ∧ HeapDone [v] cs N heap ∧ (HeapDone [v] cs N jt.heap → heap = jt.heap) ∧
      HasTabs { jt with potentials := p, heap := heap } (fun k σ => φ k σ * (if pcOf heap v = k then N.loc v σ else 1)) := by
  obtain ⟨c, hc, heap, h1, h2, h3, h4, h5, h6, h7⟩ := h.getClique hh hv
  obtain ⟨o, ho, hp, _⟩ := h5 v List.mem_cons_self
  have hck : c.id ∈ Dict.keys jt.nodes := Dict.mem_keys_of_get? (h.spec.get_clique hc)
  have hmul := multiply_tab (f := φ c.id) (g := N.loc v) (h.spec.fam.nodup c hc) (hN.nodup v hv) h2
    (fun u hu => h.vals u (hN.sub v hv u hu)) (hN.dep v hv)
  refine ⟨Dict.set jt.potentials c.id (tab c.nodes (fun σ => φ c.id σ * N.loc v σ)), heap, ?_, h3, h4, h5, h7, ?_⟩
  · unfold Initializer.assignNode
    rw [h1]
    simp only [bind, Except.bind]
    rw [Dict.getItem_of_get? (ht c.id hck), Dict.getItem_of_get? ho]
    simp only [hp]
    rw [h.spec.scope_clique hc, hmul]
  · intro k hk
    change Dict.get? (Dict.set jt.potentials c.id _) k = some (tab (jt.scope k) _)
    rw [h6]
    by_cases e : c.id = k
    · subst e
      rw [Dict.get?_set_self, h.spec.scope_clique hc]
      simp
    · rw [Dict.get?_set_ne _ _ e, ht k hk]
      simp [e]

theorem HeapStep.pcOf {a b : Dict Int NodeObj} (h : HeapStep a b) {v : Variable} (hd : HeapDone [v] cs N a) :
    pcOf b v = pcOf a v := by
  obtain ⟨o, h1, _, c, _, h3, _⟩ := hd v List.mem_cons_self
  obtain ⟨q, h5, h6⟩ := h.2 _ o h1
  unfold PyBBN.pcOf
  rw [h1, h5]
  simp [h3, h6 _ h3]

theorem Ctx.assignAll (hN : NetOk vars N) : ∀ (l : List Variable) {jt : JoinTree}, Ctx vars cs T jt →
    HeapOk vars cs N jt.heap → ∀ {φ : Tabs}, HasTabs jt φ → (∀ v ∈ l, v ∈ vars) →
    ∃ p heap, l.foldlM Initializer.assignNode jt = .ok { jt with potentials := p, heap := heap } ∧
      HeapStep jt.heap heap ∧ HeapOk vars cs N heap ∧ HeapDone l cs N heap ∧ (HeapDone l cs N jt.heap → heap = jt.heap) ∧
      HasTabs { jt with potentials := p, heap := heap } (fun k σ => φ k σ * wprod (pcOf heap) N.loc l k σ)
  | [], jt, _, hh, φ, ht, _ => by
      refine ⟨jt.potentials, jt.heap, rfl, HeapStep.refl _, hh, by intro v hv; simp at hv, fun _ => rfl, ?_⟩
      simpa [wprod_nil] using ht
  | v :: l, jt, h, hh, φ, ht, hl => by
      obtain ⟨p, heap, a1, a2, a3, a4, a5, a6⟩ := h.assignNode hN hh ht (hl v List.mem_cons_self)
      have h' : Ctx vars cs T { jt with potentials := p, heap := heap } := h.frame rfl rfl
      obtain ⟨p', heap', b1, b2, b3, b4, b5, b6⟩ := Ctx.assignAll hN l h' a3 a6 (fun w hw => hl w (List.mem_cons_of_mem _ hw))
      refine ⟨p', heap', ?_, a2.trans b2, b3, ?_, ?_, ?_⟩
      · rw [List.foldlM_cons, a1]; exact b1
      · intro w hw
        rcases List.mem_cons.1 hw with rfl | hw
        · exact b2.done a4 w List.mem_cons_self
        · exact b4 w hw
      · intro hd
        have e1 := a5 (fun w hw => hd w (by
          simp only [List.mem_cons, List.not_mem_nil, or_false] at hw; subst hw; exact List.mem_cons_self))
        have e2 := b5 (by intro w hw; change ∃ o, Dict.get? heap _ = _ ∧ _; rw [e1]; exact hd w (List.mem_cons_of_mem _ hw))
        exact e2.trans e1
      · intro k hk
        rw [b6 k hk]
        change some (tab (jt.scope k) _) = some (tab (jt.scope k) _)
        congr 2
        funext σ
        beta_reduce
        rw [wprod_cons, b2.pcOf a4]
        ring

end

/-! ### likelihoods -/

/-- likelihood stored for a value; `1` when nothing is stored -/
def lik (ev : Dict Int (Dict Str ℚ)) : Int → Str → ℚ :=
  fun i x => ((Dict.get? ev i).bind (fun m => Dict.get? m x)).getD 1

/-- stored likelihood maps list the node's values -/
def EvPre (vars : List Variable) (ev : Dict Int (Dict Str ℚ)) : Prop :=
  ∀ v ∈ vars, ∀ m, Dict.get? ev v.id = some m → Dict.keys m = v.values

/-- every node with values has a likelihood map -/
def EvOk (vars : List Variable) (ev : Dict Int (Dict Str ℚ)) : Prop :=
  EvPre vars ev ∧ ∀ v ∈ vars, v.values ≠ [] → ∃ m, Dict.get? ev v.id = some m

theorem getEvidence_lik (ev : Dict Int (Dict Str ℚ)) (v : Variable) (x : Str) :
    (JoinTree.getEvidence ev v x).2 = [⟨[(v.id, x)], lik ev v.id x⟩] ∧ lik (JoinTree.getEvidence ev v x).1 = lik ev := by
  unfold JoinTree.getEvidence
  constructor
  · simp only [Dict.get?_setDefault, if_true, Option.getD_some]
    unfold lik
    cases h : Dict.get? ev v.id with
    | none => simp [Dict.get?]
    | some m => simp
  · funext i y
    unfold lik
    simp only [Dict.get?_set]
    by_cases e : v.id = i
    · subst e
      simp only [if_true, Option.bind_some, Dict.get?_setDefault]
      cases h : Dict.get? ev v.id with
      | none => by_cases e2 : x = y <;> simp [Dict.get?, e2]
      | some m =>
        by_cases e2 : x = y
        · subst e2; simp
        · simp [e2]
    · simp [e]

theorem multiply_one {cs : List Variable} {f : Asg → ℚ} (hcs : (vids cs).Nodup) {i : Int} (hi : i ∈ vids cs) (x : Str) (l : ℚ) :
    PotentialUtil.multiply (tab cs f) [⟨[(i, x)], l⟩] = tab cs (fun σ => f σ * (if σ i = x then l else 1)) := by
  unfold PotentialUtil.multiply
  rw [List.foldl_cons, List.foldl_nil]
  refine multiply_step (cs := cs) (f := f) ⟨[(i, x)], l⟩ (fun σ => σ i = x) ?_
  intro cvals hc a
  have := matches_zip (cids := vids cs) (nids := [i]) (cvals := cvals) (nvals := [x]) hcs (by simp) (product_length hc) rfl
    (by simpa using hi) a l
  rw [show [(i, x)] = [i].zip [x] from rfl, this]
  simp [over]

section
variable {vars : List Variable} {cs : List Clique} {T : List SepSet} {jt : JoinTree} {N : Net}

theorem Ctx.applyEvidence (h : Ctx vars cs T jt) (hN : NetOk vars N) (hd : HeapDone vars cs N jt.heap) {φ : Tabs}
    (ht : HasTabs jt φ) {v : Variable} (hv : v ∈ vars) (x : Str) :
    ∃ p, Initializer.applyEvidence jt v x = .ok { jt with potentials := p, evidences := (JoinTree.getEvidence jt.evidences v x).1 } ∧
      HasTabs { jt with potentials := p, evidences := (JoinTree.getEvidence jt.evidences v x).1 }
        (fun k σ => φ k σ * (if pcOf jt.heap v = k then (if σ v.id = x then lik jt.evidences v.id x else 1) else 1)) := by
  obtain ⟨o, ho, _, c, hc, he, hf⟩ := hd v hv
  have hck : c.id ∈ Dict.keys jt.nodes := Dict.mem_keys_of_get? (h.spec.get_clique hc)
  have hpc : pcOf jt.heap v = c.id := by unfold pcOf; rw [ho]; simp [he]
  have hvc : v.id ∈ vids c.nodes := List.mem_map_of_mem (hf v (hN.self v hv))
  have hmul := multiply_one (f := φ c.id) (h.spec.fam.nodup c hc) hvc x (lik jt.evidences v.id x)
  refine ⟨Dict.set jt.potentials c.id (tab c.nodes (fun σ => φ c.id σ * (if σ v.id = x then lik jt.evidences v.id x else 1))), ?_, ?_⟩
  · unfold Initializer.applyEvidence
    rw [Dict.getItem_of_get? ho]
    simp only [bind, Except.bind, he]
    rw [Dict.getItem_of_get? (ht c.id hck)]
    simp only [(getEvidence_lik jt.evidences v x).1]
    rw [h.spec.scope_clique hc, hmul]
  · intro k hk
    change Dict.get? (Dict.set jt.potentials c.id _) k = some (tab (jt.scope k) _)
    rw [hpc]
    by_cases e : c.id = k
    · subst e
      rw [Dict.get?_set_self, h.spec.scope_clique hc]
      simp
    · rw [Dict.get?_set_ne _ _ e, ht k hk]
      simp [e]

/-- evidence map after reading all listed values of a node -/
def readAll (ev : Dict Int (Dict Str ℚ)) (v : Variable) (xs : List Str) : Dict Int (Dict Str ℚ) :=
  xs.foldl (fun ev x => (JoinTree.getEvidence ev v x).1) ev

theorem readAll_lik (v : Variable) : ∀ (xs : List Str) (ev : Dict Int (Dict Str ℚ)), lik (readAll ev v xs) = lik ev
  | [], _ => rfl
  | x :: xs, ev => by
      unfold readAll
      rw [List.foldl_cons]
      exact (readAll_lik v xs _).trans (getEvidence_lik ev v x).2

theorem readAll_ne (v : Variable) {i : Int} (hi : v.id ≠ i) : ∀ (xs : List Str) (ev : Dict Int (Dict Str ℚ)),
    Dict.get? (readAll ev v xs) i = Dict.get? ev i
  | [], _ => rfl
  | x :: xs, ev => by
      unfold readAll
      rw [List.foldl_cons]
      refine (readAll_ne v hi xs _).trans ?_
      unfold JoinTree.getEvidence
      exact Dict.get?_set_ne _ _ hi

theorem readAll_self (v : Variable) : ∀ (xs : List Str) (ev : Dict Int (Dict Str ℚ)), xs ≠ [] →
    Dict.get? (readAll ev v xs) v.id = some (xs.foldl (fun m x => Dict.setDefault m x 1) ((Dict.get? ev v.id).getD []))
  | [], _, h => absurd rfl h
  | x :: xs, ev, _ => by
      unfold readAll
      rw [List.foldl_cons, List.foldl_cons]
      by_cases hxs : xs = []
      · subst hxs
        unfold JoinTree.getEvidence
        simp
      · refine (readAll_self v xs _ hxs).trans ?_
        unfold JoinTree.getEvidence
        simp

theorem foldl_setDefault_mem : ∀ (xs : List Str) (m : Dict Str ℚ), (∀ x ∈ xs, x ∈ Dict.keys m) →
    xs.foldl (fun m x => Dict.setDefault m x 1) m = m
  | [], _, _ => rfl
  | x :: xs, m, h => by
      rw [List.foldl_cons, Dict.setDefault_of_mem (h x List.mem_cons_self)]
      exact foldl_setDefault_mem xs m (fun y hy => h y (List.mem_cons_of_mem _ hy))

theorem foldl_setDefault_new : ∀ (xs : List Str) (m : Dict Str ℚ), xs.Nodup → (∀ x ∈ xs, x ∉ Dict.keys m) →
    xs.foldl (fun m x => Dict.setDefault m x 1) m = m ++ xs.map (fun x => (x, 1))
  | [], m, _, _ => by simp
  | x :: xs, m, hn, h => by
      rw [List.nodup_cons] at hn
      rw [List.foldl_cons, Dict.setDefault_of_not_mem (h x List.mem_cons_self),
        foldl_setDefault_new xs _ hn.2 (by
          intro y hy
          simp only [Dict.keys, List.map_append, List.map_cons, List.map_nil, List.mem_append, List.mem_cons,
            List.not_mem_nil, or_false, not_or]
          exact ⟨h y (List.mem_cons_of_mem _ hy), fun e => hn.1 (e ▸ hy)⟩)]
      simp

theorem readAll_ok (v : Variable) (hn : v.values.Nodup) {ev : Dict Int (Dict Str ℚ)}
    (hev : ∀ m, Dict.get? ev v.id = some m → Dict.keys m = v.values) :
    (∀ m, Dict.get? (readAll ev v v.values) v.id = some m → Dict.keys m = v.values) ∧
    (v.values ≠ [] → ∃ m, Dict.get? (readAll ev v v.values) v.id = some m) ∧
    (∀ m, Dict.get? ev v.id = some m → Dict.get? (readAll ev v v.values) v.id = some m) := by
  by_cases hxs : v.values = []
  · have : readAll ev v v.values = ev := by unfold readAll; rw [hxs]; rfl
    rw [this]
    exact ⟨hev, fun h => absurd hxs h, fun _ h => h⟩
  · rw [readAll_self v _ ev hxs]
    cases h : Dict.get? ev v.id with
    | none =>
      rw [Option.getD_none, foldl_setDefault_new _ _ hn (by simp [Dict.keys])]
      refine ⟨?_, fun _ => ⟨_, rfl⟩, by simp⟩
      intro m hm
      cases hm
      simp [Dict.keys, Function.comp_def]
    | some m0 =>
      have hk := hev m0 h
      rw [Option.getD_some, foldl_setDefault_mem _ _ (by rw [hk]; exact fun x hx => hx)]
      refine ⟨?_, fun _ => ⟨_, rfl⟩, ?_⟩
      · intro m hm; cases hm; exact hk
      · intro m hm; exact hm

theorem Ctx.applyValues (hN : NetOk vars N) {v : Variable} (hv : v ∈ vars) : ∀ (xs : List Str) {jt : JoinTree},
    Ctx vars cs T jt → HeapDone vars cs N jt.heap → ∀ {φ : Tabs}, HasTabs jt φ →
    ∃ p, xs.foldlM (fun jt x => Initializer.applyEvidence jt v x) jt =
        .ok { jt with potentials := p, evidences := readAll jt.evidences v xs } ∧
      HasTabs { jt with potentials := p, evidences := readAll jt.evidences v xs }
        (fun k σ => φ k σ * (if pcOf jt.heap v = k then (xs.map (fun x => if σ v.id = x then lik jt.evidences v.id x else 1)).prod else 1))
  | [], jt, _, _, φ, ht => by
      refine ⟨jt.potentials, rfl, ?_⟩
      simpa [readAll] using ht
  | x :: xs, jt, h, hd, φ, ht => by
      obtain ⟨p, a1, a2⟩ := h.applyEvidence hN hd ht hv x
      have h' : Ctx vars cs T { jt with potentials := p, evidences := (JoinTree.getEvidence jt.evidences v x).1 } := h.frame rfl rfl
      obtain ⟨p', b1, b2⟩ := Ctx.applyValues hN hv xs h' hd a2
      refine ⟨p', ?_, ?_⟩
      · rw [List.foldlM_cons, a1]; exact b1
      · intro k hk
        refine (b2 k hk).trans ?_
        change some (tab (jt.scope k) _) = some (tab (jt.scope k) _)
        congr 2
        funext σ
        beta_reduce
        rw [(getEvidence_lik jt.evidences v x).2, List.map_cons, List.prod_cons]
        split
        · ring
        · ring

/-- all likelihoods of a node -/
theorem Ctx.applyNode (h : Ctx vars cs T jt) (hN : NetOk vars N) (hd : HeapDone vars cs N jt.heap) {φ : Tabs}
    (ht : HasTabs jt φ) {v : Variable} (hv : v ∈ vars) :
    ∃ p, v.values.foldlM (fun jt x => Initializer.applyEvidence jt v x) jt =
        .ok { jt with potentials := p, evidences := readAll jt.evidences v v.values } ∧
      HasTabs { jt with potentials := p, evidences := readAll jt.evidences v v.values }
        (fun k σ => φ k σ * (if pcOf jt.heap v = k then lik jt.evidences v.id (σ v.id) else 1)) := by
  obtain ⟨p, a1, a2⟩ := Ctx.applyValues hN hv v.values h hd ht
  refine ⟨p, a1, ?_⟩
  intro k hk
  refine (a2 k hk).trans ?_
  change some (tab (jt.scope k) _) = some (tab (jt.scope k) _)
  congr 1
  refine tab_congr (h.spec.scope_nodup k) ?_
  intro σ hσ
  beta_reduce
  by_cases e : pcOf jt.heap v = k
  · rw [if_pos e, if_pos e]
    congr 1
    obtain ⟨o, ho, _, c, hc, he, hf⟩ := hd v hv
    have hpc : pcOf jt.heap v = c.id := by unfold pcOf; rw [ho]; simp [he]
    have hvs : v ∈ jt.scope k := by
      rw [← e, hpc, h.spec.scope_clique hc]
      exact hf v (hN.self v hv)
    rw [prod_single (h.vals v hv) (hσ v hvs) _ (by
      intro x _ hx
      rw [if_neg (fun e => hx e.symm)])]
    simp
  · rw [if_neg e, if_neg e]

theorem Ctx.applyAll (hN : NetOk vars N) : ∀ (l : List Variable) {jt : JoinTree},
    Ctx vars cs T jt → HeapDone vars cs N jt.heap → ∀ {φ : Tabs}, HasTabs jt φ → (∀ v ∈ l, v ∈ vars) → (vids l).Nodup →
    EvPre vars jt.evidences →
    ∃ p ev, l.foldlM (fun jt node => node.values.foldlM (fun jt x => Initializer.applyEvidence jt node x) jt) jt =
        .ok { jt with potentials := p, evidences := ev } ∧ EvPre vars ev ∧ lik ev = lik jt.evidences ∧
      (∀ v ∈ l, v.values ≠ [] → ∃ m, Dict.get? ev v.id = some m) ∧
      (∀ v ∈ vars, ∀ m, Dict.get? jt.evidences v.id = some m → Dict.get? ev v.id = some m) ∧
      (∀ i, i ∉ vids vars → Dict.get? ev i = Dict.get? jt.evidences i) ∧
      HasTabs { jt with potentials := p, evidences := ev }
        (fun k σ => φ k σ * wprod (pcOf jt.heap) (fun v σ => lik jt.evidences v.id (σ v.id)) l k σ)
  | [], jt, _, _, φ, ht, _, _, hev => by
      refine ⟨jt.potentials, jt.evidences, rfl, hev, rfl, by simp, fun _ _ _ h => h, fun _ _ => rfl, ?_⟩
      simpa [wprod_nil] using ht
  | v :: l, jt, h, hd, φ, ht, hl, hn, hev => by
      rw [vids_cons, List.nodup_cons] at hn
      have hv := hl v List.mem_cons_self
      obtain ⟨p, a1, a2⟩ := h.applyNode hN hd ht hv
      obtain ⟨r1, r2, r3⟩ := readAll_ok v (h.vals v hv) (hev v hv)
      have hev' : EvPre vars (readAll jt.evidences v v.values) := by
        intro w hw m hm
        by_cases e : v.id = w.id
        · have := h.inj hv hw e
          subst this
          exact r1 m hm
        · rw [readAll_ne v e] at hm
          exact hev w hw m hm
      have h' : Ctx vars cs T { jt with potentials := p, evidences := readAll jt.evidences v v.values } := h.frame rfl rfl
      obtain ⟨p', ev, b1, b2, b3, b4, b5, b7, b6⟩ := Ctx.applyAll hN l h' hd a2 (fun w hw => hl w (List.mem_cons_of_mem _ hw)) hn.2 hev'
      refine ⟨p', ev, ?_, b2, b3.trans (readAll_lik v _ _), ?_, ?_, ?_, ?_⟩
      · rw [List.foldlM_cons, a1]; exact b1
      · intro w hw hne
        rcases List.mem_cons.1 hw with rfl | hw
        · obtain ⟨m, hm⟩ := r2 hne
          exact ⟨m, b5 w hv m hm⟩
        · exact b4 w hw hne
      · intro w hw m hm
        refine b5 w hw m ?_
        change Dict.get? (readAll jt.evidences v v.values) w.id = some m
        by_cases e : v.id = w.id
        · have := h.inj hv hw e
          subst this
          exact r3 m hm
        · rw [readAll_ne v e]; exact hm
      · intro i hi
        rw [b7 i hi]
        exact readAll_ne v (i := i) (by rintro rfl; exact hi (List.mem_map_of_mem hv)) _ _
      · intro k hk
        refine (b6 k hk).trans ?_
        change some (tab (jt.scope k) _) = some (tab (jt.scope k) _)
        congr 2
        funext σ
        beta_reduce
        rw [wprod_cons, readAll_lik]
        ring

/-- initialization: every clique table is the product of the local tables and likelihoods of the nodes assigned to it,
every separation set table is constantly one -/
theorem Ctx.init (h : Ctx vars cs T jt) (hN : NetOk vars N) (hh : HeapOk vars cs N jt.heap) (hev : EvPre vars jt.evidences) :
    ∃ p heap ev, initializeJt jt = .ok { jt with potentials := p, heap := heap, evidences := ev } ∧
      HeapStep jt.heap heap ∧ HeapDone vars cs N heap ∧ (HeapDone vars cs N jt.heap → heap = jt.heap) ∧
      EvOk vars ev ∧ lik ev = lik jt.evidences ∧
      (∀ v ∈ vars, ∀ m, Dict.get? jt.evidences v.id = some m → Dict.get? ev v.id = some m) ∧
      (∀ i, i ∉ vids vars → Dict.get? ev i = Dict.get? jt.evidences i) ∧
      HasTabs { jt with potentials := p, heap := heap, evidences := ev }
        (wprod (pcOf heap) (fun v σ => N.loc v σ * lik jt.evidences v.id (σ v.id)) vars) := by
  have h0 : Ctx vars cs T { jt with potentials := freshTables jt } := h.frame rfl rfl
  have hperm : JoinTree.getBbnNodes { jt with potentials := freshTables jt } |>.Perm vars := h0.bbnNodes_perm
  have hsub : ∀ v ∈ JoinTree.getBbnNodes { jt with potentials := freshTables jt }, v ∈ vars := fun v hv => hperm.mem_iff.1 hv
  obtain ⟨p1, heap, a1, a2, a3, a4, a5, a6⟩ := Ctx.assignAll hN _ h0 hh h.hasTabs_fresh hsub
  have h1 : Ctx vars cs T { jt with potentials := p1, heap := heap } := h.frame rfl rfl
  have hd : HeapDone vars cs N heap := fun v hv => a4 v (hperm.mem_iff.2 hv)
  have hnd : (vids (JoinTree.getBbnNodes { jt with potentials := freshTables jt })).Nodup := (hperm.map _).nodup_iff.2 h.vn
  obtain ⟨p2, ev, b1, b2, b3, b4, b5, b7, b6⟩ := Ctx.applyAll hN _ h1 hd a6 hsub hnd hev
  refine ⟨p2, heap, ev, ?_, a2, hd, ?_, ⟨b2, ?_⟩, b3, b5, b7, ?_⟩
  · unfold initializeJt
    simp only [bind, Except.bind]
    rw [a1]
    exact b1
  · intro hd'
    exact a5 (fun v hv => hd' v (hsub v hv))
  · intro v hv; exact b4 v (hperm.mem_iff.2 hv)
  · intro k hk
    refine (b6 k hk).trans ?_
    change some (tab (jt.scope k) _) = some (tab (jt.scope k) _)
    congr 2
    funext σ
    beta_reduce
    rw [one_mul, wprod_mul, wprod_perm _ _ hperm]

end

end PyBBN
