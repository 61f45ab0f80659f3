import Verif.Proofs.SampleFloat
import Verif.Spec.Coherence

/-! Helper lemmas: two samplers whose tables answer alike. -/

namespace PyBBN

/-! ### dictionaries with related values -/

section
variable {K V W : Type} [DecidableEq K]

def DRel (R : V → W → Prop) (d : Dict K V) (d' : Dict K W) : Prop := List.Forall₂ (fun a b => a.1 = b.1 ∧ R a.2 b.2) d d'

theorem DRel.set {R : V → W → Prop} {d : Dict K V} {d' : Dict K W} (h : DRel R d d') {k : K} {v : V} {w : W} (hv : R v w) :
    DRel R (Dict.set d k v) (Dict.set d' k w) := by
  induction h with
  | nil => exact .cons ⟨rfl, hv⟩ .nil
  | @cons a b d d' hab _ ih =>
    obtain ⟨k', v'⟩ := a
    obtain ⟨k'', w'⟩ := b
    obtain ⟨e, hr⟩ := hab
    simp only at e hr
    subst e
    by_cases hk : k' = k
    · simp only [Dict.set, hk, if_true]
      exact .cons ⟨rfl, hv⟩ ‹_›
    · simp only [Dict.set, hk, if_false]
      exact .cons ⟨rfl, hr⟩ ih

theorem DRel.foldl {R : V → W → Prop} {l : List (K × V)} {l' : List (K × W)} (hl : List.Forall₂ (fun a b => a.1 = b.1 ∧ R a.2 b.2) l l') :
    ∀ {d : Dict K V} {d' : Dict K W}, DRel R d d' →
      DRel R (l.foldl (fun d kv => Dict.set d kv.1 kv.2) d) (l'.foldl (fun d kv => Dict.set d kv.1 kv.2) d') := by
  induction hl with
  | nil => exact id
  | @cons a b l l' hab _ ih =>
    intro d d' hd
    rw [List.foldl_cons, List.foldl_cons]
    apply ih
    rw [hab.1]
    exact hd.set hab.2

theorem DRel.get? {R : V → W → Prop} {d : Dict K V} {d' : Dict K W} (h : DRel R d d') (k : K) :
    (Dict.get? d k = none ∧ Dict.get? d' k = none) ∨ ∃ v w, Dict.get? d k = some v ∧ Dict.get? d' k = some w ∧ R v w := by
  induction h with
  | nil => exact Or.inl ⟨rfl, rfl⟩
  | @cons a b d d' hab _ ih =>
    obtain ⟨k', v'⟩ := a
    obtain ⟨k'', w'⟩ := b
    obtain ⟨e, hr⟩ := hab
    simp only at e hr
    subst e
    by_cases hk : k' = k
    · simp only [Dict.get?, hk, if_true]
      exact Or.inr ⟨v', w', rfl, rfl, hr⟩
    · simp only [Dict.get?, hk, if_false]
      exact ih

end

/-! ### tables that answer alike -/

/-- the arrays lead to the same index for every number in `P` -/
def ARel (P : ℚ → Prop) (a a' : List ℚ) : Prop := ∀ p, P p → bisect a p = bisect a' p

def PRel (P : ℚ → Prop) : List ℚ ⊕ Dict Str (List ℚ) → List ℚ ⊕ Dict Str (List ℚ) → Prop
  | .inl a, .inl a' => ARel P a a'
  | .inr d, .inr d' => DRel (ARel P) d d'
  | _, _ => False

structure TRel (P : ℚ → Prop) (t t' : Table) : Prop where
  values : t.node.var.values = t'.node.var.values
  parents : t.parents.length = t'.parents.length
  parentIds : t.parentIds = t'.parentIds
  probs : PRel P t.probs t'.probs

theorem TRel.getValue {P : ℚ → Prop} {t t' : Table} (h : TRel P t t') {p : ℚ} (hp : P p) (sample : Dict Int Str) :
    t.getValue p sample = t'.getValue p sample := by
  have hv : ∀ i, t.valueAt i = t'.valueAt i := by
    intro i; unfold Table.valueAt; rw [h.values]
  have hpa : t.hasParents = t'.hasParents := by unfold Table.hasParents; rw [h.parents]
  have hpr := h.probs
  unfold Table.getValue
  rw [hpa, h.parentIds]
  cases h1 : t.probs with
  | inl a =>
    cases h2 : t'.probs with
    | inl a' =>
      rw [h1, h2] at hpr
      simp only [hv, (hpr : ARel P a a') p hp]
    | inr d' => rw [h1, h2] at hpr; exact hpr.elim
  | inr d =>
    cases h2 : t'.probs with
    | inl a' => rw [h1, h2] at hpr; exact hpr.elim
    | inr d' =>
      rw [h1, h2] at hpr
      split
      · rfl
      · congr 1
        funext vs
        dsimp only
        unfold Dict.getItem
        rcases DRel.get? hpr (rowKey t'.parentIds vs) with ⟨e1, e2⟩ | ⟨a, a', e1, e2, ha⟩
        · rw [e1, e2]; rfl
        · rw [e1, e2]
          show t.valueAt (bisect a p) = t'.valueAt (bisect a' p)
          rw [hv, ha p hp]

theorem drawLoop_rel {P : ℚ → Prop} {s s' : LogicSampler} (ht : DRel (TRel P) s.tables s'.tables) (ev : Dict Int Str) :
    ∀ (l : List (ℚ × Int)) (sample : Dict Int Str), (∀ q ∈ l, P q.1) → s.drawLoop ev l sample = s'.drawLoop ev l sample
  | [], _, _ => rfl
  | (p, id) :: l, sample, h => by
      have ih : ∀ sample, s.drawLoop ev l sample = s'.drawLoop ev l sample :=
        fun sample => drawLoop_rel ht ev l sample (fun q hq => h q (List.mem_cons_of_mem _ hq))
      unfold LogicSampler.drawLoop
      unfold Dict.getItem
      rcases DRel.get? ht id with ⟨e1, e2⟩ | ⟨t, t', e1, e2, htt⟩
      · rw [e1, e2]; rfl
      · rw [e1, e2]
        show (t.getValue p sample >>= _) = (t'.getValue p sample >>= _)
        rw [htt.getValue (h _ List.mem_cons_self) sample]
        simp only [ih]

theorem sampleLoop_rel {P : ℚ → Prop} {s s' : LogicSampler} (ht : DRel (TRel P) s.tables s'.tables) (hn : s.nodes = s'.nodes)
    (ev : Dict Int Str) (N : Nat) : ∀ (draws : List (List ℚ)) (samples : List (Dict Int Str)), (∀ u ∈ draws, ∀ p ∈ u, P p) →
      s.sampleLoop ev N draws samples = s'.sampleLoop ev N draws samples
  | [], _, _ => rfl
  | u :: draws, samples, h => by
      have ih : ∀ samples, s.sampleLoop ev N draws samples = s'.sampleLoop ev N draws samples :=
        fun samples => sampleLoop_rel ht hn ev N draws samples (fun u hu => h u (List.mem_cons_of_mem _ hu))
      unfold LogicSampler.sampleLoop
      rw [← hn, drawLoop_rel ht ev (u.zip s.nodes) ev (fun q hq => h u List.mem_cons_self _ (List.of_mem_zip hq).1)]
      simp only [ih]

/-! ### the tables of floats and those of the nearby CPT -/

section
variable {u : ℚ} {inp : ℚ → ℚ} {add : ℚ → ℚ → ℚ} {F : ℚ → Prop}

/-- the nearby node -/
def BbnNode.pert (inp : ℚ → ℚ) (add : ℚ → ℚ → ℚ) (n : BbnNode) : BbnNode := { n with probs := pertProbs inp add n.var.values.length n.probs }

theorem chunks_length {α : Type} (n : Nat) (l : List α) : (chunks n l).length = (l.length + n - 1) / n := by simp [chunks]

theorem makeWith_parents (cs : List ℚ → List ℚ) {node : BbnNode} {parents : List BbnNode} (hne : parents ≠ []) (hn : node.var.values.length ≠ 0) :
    Table.makeWith cs node parents = .ok ⟨node, sortBy (fun a b : BbnNode => decide (a.var.id ≤ b.var.id)) parents,
      parents.map (fun p => p.var.id), .inr ((((product ((sortBy (fun a b : BbnNode => decide (a.var.id ≤ b.var.id)) parents).map
        (fun p => p.var.values))).map (rowKey ((sortBy (fun a b : BbnNode => decide (a.var.id ≤ b.var.id)) parents).map (fun p => p.var.id)))).zip
          ((chunks node.var.values.length node.probs).map cs)).foldl (fun d kp => Dict.set d kp.1 kp.2) [])⟩ := by
  unfold Table.makeWith
  simp only [if_neg hne]
  rw [if_neg hn]

theorem Adds.table_rel (hr : Adds u inp add F) {node : BbnNode} {parents parents' : List BbnNode}
    (hpv : parents'.map BbnNode.var = parents.map BbnNode.var) (hne : node.var.values ≠ []) (hnn : ∀ x ∈ node.probs, 0 ≤ x)
    (hfull : (parents.map (fun p => p.var.values.length)).prod * node.var.values.length ≤ node.probs.length)
    (hrows : RowsSumToOne (parents.map BbnNode.var) node) {N : Nat} (hN : node.var.values.length ≤ N) :
    ∃ t t', Table.makeWith (cumsumF inp add) node parents = .ok t ∧ Table.make (node.pert inp add) parents' = .ok t' ∧
      TRel (fun p => 0 ≤ p ∧ p < (1 - u) ^ N) t t' := by
  set n := node.var.values.length with hn
  have hn0 : 0 < n := List.length_pos_iff.2 hne
  have hu0 : 0 ≤ 1 - u := by linarith [hr.unit.2]
  have hu1 : 1 - u ≤ 1 := by linarith [hr.unit.1]
  have hrows' : ∀ k < (parents.map (fun p => p.var.values.length)).prod, (k + 1) * n ≤ node.probs.length ∧ (rowOf node.probs n k).sum = 1 := by
    intro k hk
    have h1 : (k + 1) * n ≤ node.probs.length := le_trans (Nat.mul_le_mul_right _ hk) hfull
    refine ⟨h1, ?_⟩
    rw [rowOf_eq h1]
    apply hrows k
    rw [List.map_map]
    exact hk
  have hp2 : ∀ k < (parents.map (fun p => p.var.values.length)).prod, ∀ p, p < (1 - u) ^ N → p < 1 ∧ p < fsum inp add (rowOf node.probs n k) := by
    intro k hk p hp
    obtain ⟨h1, h2⟩ := hrows' k hk
    have hb := (hr.fsum_bounds (rowOf node.probs n k) (fun y hy => hnn y (List.mem_of_mem_drop (List.mem_of_mem_take hy)))).2.2.1
    rw [rowOf_length h1, h2, mul_one] at hb
    have h3 : (1 - u) ^ N ≤ (1 - u) ^ n := pow_le_pow_of_le_one hu0 hu1 hN
    exact ⟨lt_of_lt_of_le hp (pow_le_one₀ hu0 hu1), lt_of_lt_of_le hp (le_trans h3 hb)⟩
  have hsv : ∀ (l l' : List BbnNode), l'.map BbnNode.var = l.map BbnNode.var →
      (sortBy (fun a b : BbnNode => decide (a.var.id ≤ b.var.id)) l').map BbnNode.var =
        (sortBy (fun a b : BbnNode => decide (a.var.id ≤ b.var.id)) l).map BbnNode.var := by
    intro l l' e
    rw [← sortBy_map (g := BbnNode.var) (le' := fun a b : Variable => decide (a.id ≤ b.id)) l' (fun _ _ _ _ => rfl),
      ← sortBy_map (g := BbnNode.var) (le' := fun a b : Variable => decide (a.id ≤ b.id)) l (fun _ _ _ _ => rfl), e]
  have hsp := hsv parents parents' hpv
  have hids : parents'.map (fun p => p.var.id) = parents.map (fun p => p.var.id) := by
    have := congrArg (List.map Variable.id) hpv
    rw [List.map_map, List.map_map] at this
    exact this
  have hlen : parents'.length = parents.length := by
    have := congrArg List.length hpv
    simpa using this
  by_cases hpe : parents = []
  · subst hpe
    have hpe' : parents' = [] := List.length_eq_zero_iff.1 hlen
    subst hpe'
    refine ⟨⟨node, sortBy (fun a b : BbnNode => decide (a.var.id ≤ b.var.id)) [], [], .inl (cumsumF inp add node.probs)⟩,
      ⟨node.pert inp add, sortBy (fun a b : BbnNode => decide (a.var.id ≤ b.var.id)) [], [], .inl (cumsum 0 (node.pert inp add).probs)⟩,
      by unfold Table.makeWith; simp, by unfold Table.make Table.makeWith; simp, rfl, rfl, rfl, ?_⟩
    intro p hp
    have hk0 : 0 < (([] : List BbnNode).map (fun p => p.var.values.length)).prod := by simp
    obtain ⟨h1, h2⟩ := hrows' 0 hk0
    obtain ⟨q1, q2⟩ := hp2 0 hk0 p hp.2
    have e0 : ∀ l : List ℚ, rowOf l n 0 = l.take n := by intro l; unfold rowOf; simp
    rw [e0] at q2
    refine hr.bisect_pert hnn (hr.pertProbs_nonneg hnn) (n := n) (by omega) (by show n ≤ (pertProbs inp add n node.probs).length; rw [pertProbs_length]; omega) ?_ hp.1 q1 q2
    have := rowOf_pert (inp := inp) (add := add) hn0 node.probs 0
    rwa [e0, e0] at this
  · have hpe' : parents' ≠ [] := fun e => hpe (List.length_eq_zero_iff.1 (by rw [← hlen, e]; rfl))
    refine ⟨_, _, makeWith_parents _ hpe (by omega), makeWith_parents _ hpe' (by show n ≠ 0; omega), rfl, ?_, hids.symm, ?_⟩
    · have := congrArg List.length hsp
      simpa using this.symm
    · show DRel _ _ _
      apply DRel.foldl _ .nil
      set sorted := sortBy (fun a b : BbnNode => decide (a.var.id ≤ b.var.id)) parents with hsorted
      set sorted' := sortBy (fun a b : BbnNode => decide (a.var.id ≤ b.var.id)) parents' with hsorted'
      have hvals : sorted'.map (fun p => p.var.values) = sorted.map (fun p => p.var.values) := by
        have := congrArg (List.map Variable.values) hsp
        rw [List.map_map, List.map_map] at this
        exact this
      have hid2 : sorted'.map (fun p => p.var.id) = sorted.map (fun p => p.var.id) := by
        have := congrArg (List.map Variable.id) hsp
        rw [List.map_map, List.map_map] at this
        exact this
      have hkl : ((product (sorted.map (fun p => p.var.values))).map (rowKey (sorted.map (fun p => p.var.id)))).length =
          (parents.map (fun p => p.var.values.length)).prod := by
        rw [List.length_map, product_length_eq, List.map_map]
        exact ((sortBy_perm _ parents).map _).prod_eq
      rw [hvals, hid2]
      set keys := (product (sorted.map (fun p => p.var.values))).map (rowKey (sorted.map (fun p => p.var.id))) with hkeys
      rw [List.forall₂_iff_get]
      constructor
      · simp only [List.length_zip, List.length_map, chunks_length]
        rw [show (node.pert inp add).probs.length = node.probs.length from pertProbs_length _ _]
        rfl
      · intro k h1 h2
        have hk : k < (parents.map (fun p => p.var.values.length)).prod := by
          rw [List.length_zip] at h1
          omega
        obtain ⟨g1, g2⟩ := hrows' k hk
        have g3 : k * n < node.probs.length := by rw [Nat.add_mul, Nat.one_mul] at g1; omega
        have c1 : (chunks n node.probs)[k]? = some (rowOf node.probs n k) := chunks_get hn0 g3
        have c2 : (chunks n (node.pert inp add).probs)[k]? = some (pertRow inp add (rowOf node.probs n k)) := by
          rw [← rowOf_pert hn0]
          exact chunks_get hn0 (by show _ < (pertProbs inp add n node.probs).length; rw [pertProbs_length]; exact g3)
        simp only [List.get_eq_getElem, List.getElem_zip, List.getElem_map]
        refine ⟨trivial, ?_⟩
        obtain ⟨b1, c1⟩ := List.getElem?_eq_some_iff.1 c1
        obtain ⟨b2, c2⟩ := List.getElem?_eq_some_iff.1 c2
        rw [c1]
        change ARel _ _ (cumsum 0 ((chunks n (node.pert inp add).probs)[k]'b2))
        rw [c2]
        intro p hp
        obtain ⟨q1, q2⟩ := hp2 k hk p hp.2
        have hrn : ∀ x ∈ rowOf node.probs n k, 0 ≤ x := fun y hy => hnn y (List.mem_of_mem_drop (List.mem_of_mem_take hy))
        have hl : (rowOf node.probs n k).length = n := rowOf_length g1
        refine hr.bisect_pert hrn (hr.pertRow_nonneg hrn) (n := n) (by omega) (by rw [pertRow_length]; omega) ?_ hp.1 q1 ?_
        · rw [List.take_of_length_le (by rw [pertRow_length]; omega), List.take_of_length_le (by omega)]
        · rw [List.take_of_length_le (by omega)]; exact q2

/-! ### the sampler of floats and that of the nearby network -/

theorem mapM_rel {α β α' β' : Type} {f : α → Py β} {f' : α' → Py β'} {g : α → α'} {R : β → β' → Prop} : ∀ (l : List α),
    (∀ x ∈ l, ∃ y y', f x = .ok y ∧ f' (g x) = .ok y' ∧ R y y') →
      ∃ r r', l.mapM f = .ok r ∧ (l.map g).mapM f' = .ok r' ∧ List.Forall₂ R r r'
  | [], _ => ⟨[], [], rfl, rfl, .nil⟩
  | x :: l, h => by
      obtain ⟨y, y', h1, h2, h3⟩ := h x List.mem_cons_self
      obtain ⟨r, r', i1, i2, i3⟩ := mapM_rel (f := f) (f' := f') (g := g) (R := R) l (fun z hz => h z (List.mem_cons_of_mem _ hz))
      refine ⟨y :: r, y' :: r', ?_, ?_, .cons h3 i3⟩
      · rw [List.mapM_cons, h1, i1]; rfl
      · rw [List.map_cons, List.mapM_cons, h2, i2]; rfl

/-- the nearby CPTs of a network -/
def Bbn.pertCpts (inp : ℚ → ℚ) (add : ℚ → ℚ → ℚ) (b : Bbn) : Dict Int (List ℚ) :=
  b.toGraph.getNodes.map (fun n => (n.var.id, (n.pert inp add).probs))

theorem pertCpts_node {b : Bbn} (hi : BbnInv b) {n : BbnNode} (hn : n ∈ b.toGraph.getNodes) :
    n.withCpt (b.pertCpts inp add) = n.pert inp add := by
  have hk : ((b.pertCpts inp add).map Prod.fst).Nodup := by
    unfold Bbn.pertCpts
    rw [List.map_map]
    exact node_ids_nodup hi
  have : Dict.get? (b.pertCpts inp add) n.var.id = some (n.pert inp add).probs :=
    Dict.get?_of_mem hk (List.mem_map.2 ⟨n, hn, rfl⟩)
  unfold BbnNode.withCpt
  rw [this]
  rfl

theorem parent_rows {b : Bbn} (c : Int) : ((b.sortedParentVars c).map (fun v => v.values.length)).prod =
    ((b.parentVars c).map (fun v => v.values.length)).prod := ((sortBy_perm _ _).map _).prod_eq

theorem Adds.sampler_rel (hr : Adds u inp add F) {b b' : Bbn} (hi : BbnInv b) (hi' : BbnInv b') (hc : Recpt (b.pertCpts inp add) b b')
    (wf : b.WF) (hne : ∀ n ∈ b.toGraph.getNodes, n.var.values ≠ []) (hrows : ∀ n ∈ b.toGraph.getNodes, RowsSumToOne (b.parentVars n.var.id) n)
    {N : Nat} (hN : ∀ n ∈ b.toGraph.getNodes, n.var.values.length ≤ N) (ps : PySort SortableNode) :
    ∃ s s', LogicSampler.makeWith (cumsumF inp add) ps b = .ok s ∧ LogicSampler.make ps b' = .ok s' ∧ s.nodes = s'.nodes ∧
      DRel (TRel (fun p => 0 ≤ p ∧ p < (1 - u) ^ N)) s.tables s'.tables := by
  have hpo : ∀ c, b'.getParentsOrdered c = b.getParentsOrdered c := by
    intro c; unfold Bbn.getParentsOrdered; rw [hc.parents]
  have hnodes : b'.toGraph.getNodes = b.toGraph.getNodes.map (BbnNode.pert inp add) := by
    rw [hc.getNodes]
    exact List.map_congr_left (fun n hn => pertCpts_node hi hn)
  have hpv : ∀ c, (b'.tableParents c).map BbnNode.var = (b.tableParents c).map BbnNode.var := by
    intro c
    rw [tableParents_vars hi', tableParents_vars hi]
    unfold Bbn.sortedParentVars
    rw [hc.parentVars]
  obtain ⟨r, r', h1, h2, h3⟩ := mapM_rel (f := fun n : BbnNode => do
      let parents ← (b.getParentsOrdered n.var.id).mapM (fun pa => Dict.getItem b.nodes pa)
      let t ← Table.makeWith (cumsumF inp add) n parents
      (.ok (n.var.id, t) : Py (Int × Table))) (f' := fun n : BbnNode => do
      let parents ← (b'.getParentsOrdered n.var.id).mapM (fun pa => Dict.getItem b'.nodes pa)
      let t ← Table.makeWith (cumsum 0) n parents
      (.ok (n.var.id, t) : Py (Int × Table))) (g := BbnNode.pert inp add)
      (R := fun a b => a.1 = b.1 ∧ TRel (fun p => 0 ≤ p ∧ p < (1 - u) ^ N) a.2 b.2) b.toGraph.getNodes (by
    intro n hn
    have hrow : RowsSumToOne ((b.tableParents n.var.id).map BbnNode.var) n := by
      intro k hk
      rw [tableParents_vars hi, parent_rows] at hk
      exact hrows n hn k hk
    have hfull : ((b.tableParents n.var.id).map (fun p => p.var.values.length)).prod * n.var.values.length ≤ n.probs.length := by
      refine le_trans (le_of_eq ?_) (wf.cpt n hn)
      rw [List.map_append, List.prod_append, ← parent_rows, ← tableParents_vars hi, List.map_map]
      simp only [List.map_cons, List.map_nil, List.prod_cons, List.prod_nil, mul_one]
      rfl
    obtain ⟨t, t', e1, e2, e3⟩ := hr.table_rel (hpv n.var.id) (hne n hn) (wf.nonneg n hn) hfull hrow (hN n hn)
    refine ⟨(n.var.id, t), (n.var.id, t'), ?_, ?_, rfl, e3⟩
    · show ((b.getParentsOrdered n.var.id).mapM (fun pa => Dict.getItem b.nodes pa) >>= _) = _
      rw [tableParents_mapM hi]
      show (Table.makeWith (cumsumF inp add) n (b.tableParents n.var.id) >>= _) = _
      rw [e1]; rfl
    · show ((b'.getParentsOrdered n.var.id).mapM (fun pa => Dict.getItem b'.nodes pa) >>= _) = _
      rw [tableParents_mapM hi']
      show (Table.makeWith (cumsum 0) (n.pert inp add) (b'.tableParents n.var.id) >>= _) = _
      have e2' : Table.makeWith (cumsum 0) (n.pert inp add) (b'.tableParents n.var.id) = .ok t' := e2
      rw [e2']; rfl)
  have m1 : LogicSampler.makeWith (cumsumF inp add) ps b = .ok ⟨LogicSampler.topologicalSort ps b, r.foldl (fun d kt => Dict.set d kt.1 kt.2) []⟩ := by
    unfold LogicSampler.makeWith LogicSampler.getTablesWith
    rw [h1]; rfl
  have m2 : LogicSampler.make ps b' = .ok ⟨LogicSampler.topologicalSort ps b', r'.foldl (fun d kt => Dict.set d kt.1 kt.2) []⟩ := by
    unfold LogicSampler.make LogicSampler.makeWith LogicSampler.getTablesWith
    rw [hnodes, h2]; rfl
  refine ⟨_, _, m1, m2, ?_, DRel.foldl h3 .nil⟩
  show LogicSampler.topologicalSort ps b = LogicSampler.topologicalSort ps b'
  unfold LogicSampler.topologicalSort LogicSampler.sortables
  rw [hnodes, List.map_map]
  congr 3
  funext n
  show _ = SortableNode.mk n.var.id (b'.getParentsOrdered n.var.id)
  rw [hpo]

end

end PyBBN
