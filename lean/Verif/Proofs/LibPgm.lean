import Verif.Spec.Factory
import Verif.Proofs.Named

/-! Conversion of libpgm networks. -/

namespace PyBBN

theorem mem_product_forall₂ {α : Type} : ∀ (ls : List (List α)) (xs : List α), xs ∈ product ls ↔ List.Forall₂ (fun l x => x ∈ l) ls xs
  | [], xs => by
      rw [product, List.mem_singleton]
      constructor
      · rintro rfl; exact List.Forall₂.nil
      · intro h; cases h; rfl
  | l :: ls, xs => by
      simp only [product, List.mem_flatMap, List.mem_map]
      constructor
      · rintro ⟨x, hx, ys, hys, rfl⟩
        exact List.Forall₂.cons hx ((mem_product_forall₂ ls ys).1 hys)
      · intro h
        cases h with
        | cons hx ht => exact ⟨_, hx, _, (mem_product_forall₂ ls _).2 ht, rfl⟩

theorem product_ne_nil {α : Type} : ∀ (ls : List (List α)), (∀ l ∈ ls, l ≠ []) → product ls ≠ []
  | [], _ => by simp [product]
  | l :: ls, h => by
      have h1 := product_ne_nil ls (fun m hm => h m (List.mem_cons_of_mem _ hm))
      obtain ⟨x, hx⟩ := List.exists_mem_of_ne_nil _ (h l List.mem_cons_self)
      obtain ⟨y, hy⟩ := List.exists_mem_of_ne_nil _ h1
      rw [product]
      intro e
      have : x :: y ∈ l.flatMap (fun x => (product ls).map (fun xs => x :: xs)) :=
        List.mem_flatMap.2 ⟨x, hx, List.mem_map.2 ⟨y, hy, rfl⟩⟩
      rw [e] at this
      simp at this

theorem joinStr_eq (sep : Str) : ∀ l : List Str, joinStr sep l = (l.intersperse sep).flatten
  | [] => rfl
  | [s] => by simp [joinStr]
  | s :: t :: ts => by
      rw [joinStr, joinStr_eq sep (t :: ts), List.intersperse_cons_cons]
      simp

namespace LibPgm
variable {bn : LibPgm}

theorem rowKey_eq (combo : List Str) : rowKey combo = text combo := by
  unfold rowKey text
  rw [joinStr_eq]
  rfl

theorem parentsOf_data (bn : LibPgm) (n : Str) : parentsOf (bn.data n) = bn.pa n := by
  unfold parentsOf pa
  cases (bn.data n).parents <;> rfl

theorem WF.get? (h : bn.WF) {n : Str} (hn : n ∈ bn.V) : Dict.get? bn.Vdata n = some (bn.data n) := by
  unfold data
  cases hd : Dict.get? bn.Vdata n with
  | some d => rfl
  | none => exact absurd ((h.same n).1 hn) ((Dict.get?_eq_none_iff _ _).1 hd)

theorem WF.parentDomains (h : bn.WF) {n : Str} (hn : n ∈ bn.V) :
    parentDomains bn n = .ok ((bn.pa n).map (fun p => (bn.data p).vals)) := by
  unfold LibPgm.parentDomains
  rw [Dict.getItem_of_get? (h.get? hn)]
  simp only [bind, Except.bind]
  rw [parentsOf_data]
  refine mapM_ok _ _ _ ?_
  intro p hp
  unfold domainOf
  rw [Dict.getItem_of_get? (h.get? ((h.parents n hn).2 p hp))]
  rfl

/-- the values of the parents of a node -/
def combos (bn : LibPgm) (n : Str) : List (List Str) := product ((bn.pa n).map (fun p => (bn.data p).vals))

theorem mem_combos (bn : LibPgm) (n : Str) (combo : List Str) :
    combo ∈ combos bn n ↔ List.Forall₂ (fun p v => v ∈ (bn.data p).vals) (bn.pa n) combo := by
  unfold combos
  rw [mem_product_forall₂, List.forall₂_map_left_iff]

/-- the table built for a node -/
def table (bn : LibPgm) (n : Str) : List ℚ := (combos bn n).flatMap (fun combo => (bn.row n combo).getD [])

theorem WF.combos_ne (h : bn.WF) {n : Str} (hn : n ∈ bn.V) : combos bn n ≠ [] := by
  unfold combos
  refine product_ne_nil _ ?_
  intro l hl
  obtain ⟨p, hp, rfl⟩ := List.mem_map.1 hl
  exact (h.vals p ((h.parents n hn).2 p hp)).1

theorem WF.condProbs (h : bn.WF) {n : Str} (hn : n ∈ bn.V) : condProbs bn n = .ok (table bn n) := by
  unfold LibPgm.condProbs
  rw [h.parentDomains hn]
  simp only [bind, Except.bind]
  rw [Dict.getItem_of_get? (h.get? hn)]
  simp only
  unfold stringify crossProduct
  by_cases hp : bn.pa n = []
  · obtain ⟨r, hr, hlen⟩ := h.rows n hn [] (by rw [hp]; exact List.Forall₂.nil)
    have ht : table bn n = r := by
      unfold table combos
      rw [hp]
      simp [product, hr]
    rw [hp]
    simp only [List.map_nil, List.length_nil, if_true]
    rw [ht]
    unfold row at hr
    revert hr
    cases (bn.data n).cprob with
    | list l => rw [hp]; simp only [if_true, Option.some.injEq]; rintro rfl; rfl
    | dict d => rw [hp]; simp
  · have hne : ((bn.pa n).map (fun p => (bn.data p).vals)).length ≠ 0 := by
      rw [List.length_map]; exact fun e => hp (List.length_eq_zero_iff.1 e)
    rw [if_neg hne]
    have hk : ¬ ((product ((bn.pa n).map (fun p => (bn.data p).vals))).map rowKey).length = 0 := by
      rw [List.length_map]
      exact fun e => h.combos_ne hn (List.length_eq_zero_iff.1 e)
    rw [if_neg hk]
    have hrows : ((product ((bn.pa n).map (fun p => (bn.data p).vals))).map rowKey).mapM (rowOf (bn.data n).cprob) =
        .ok ((combos bn n).map (fun combo => (bn.row n combo).getD [])) := by
      rw [List.mapM_map]
      refine mapM_ok _ _ _ ?_
      intro combo hc
      obtain ⟨r, hr, _⟩ := h.rows n hn combo ((mem_combos bn n combo).1 hc)
      rw [hr]
      simp only [Function.comp_apply]
      rw [rowKey_eq]
      unfold row at hr
      revert hr
      cases (bn.data n).cprob with
      | list l => simp [hp]
      | dict d =>
        simp only [if_neg hp]
        intro hr
        exact Dict.getItem_of_get? hr
    rw [hrows]
    simp only
    unfold table
    rw [List.flatMap_def]

/-- the network by names -/
def named (bn : LibPgm) : Named where
  names := bn.V
  node := fun n => ⟨bn.var n, table bn n⟩
  pa := bn.pa

theorem WF.named (h : bn.WF) : bn.named.WF where
  names := h.names
  ids := h.ords
  pa := fun n hn p hp => (h.parents n hn).2 p hp

theorem WF.nodeSteps (h : bn.WF) : ∀ (l : List Str) (d : Dict Str BbnNode), (∀ n ∈ l, n ∈ bn.V) → l.Nodup → (∀ n ∈ l, n ∉ Dict.keys d) →
    l.foldlM (nodeStep bn) d = .ok (d ++ l.map (fun n => (n, bn.named.node n)))
  | [], d, _, _, _ => by simp [pure, Except.pure]
  | n :: l, d, hl, hn, hd => by
      rw [List.nodup_cons] at hn
      have hstep : nodeStep bn d n = .ok (d ++ [(n, bn.named.node n)]) := by
        unfold nodeStep
        rw [Dict.getItem_of_get? (h.get? (hl n List.mem_cons_self)), h.condProbs (hl n List.mem_cons_self)]
        simp only [bind, Except.bind]
        rw [Dict.set_of_not_mem (hd n List.mem_cons_self)]
        rfl
      rw [List.foldlM_cons, hstep]
      simp only [bind, Except.bind]
      rw [h.nodeSteps l _ (fun m hm => hl m (List.mem_cons_of_mem _ hm)) hn.2]
      · simp
      · intro m hm
        simp only [Dict.keys, List.map_append, List.map_cons, List.map_nil, List.mem_append, List.mem_singleton, not_or]
        exact ⟨hd m (List.mem_cons_of_mem _ hm), fun e => hn.1 (e ▸ hm)⟩

theorem WF.getNodes (h : bn.WF) : getNodes bn = .ok (bn.V.map (fun n => (n, bn.named.node n))) := by
  unfold LibPgm.getNodes
  rw [h.nodeSteps bn.V [] (fun _ hn => hn) h.names (by intro n _; simp [Dict.keys])]
  rfl

theorem get?_named {names : List Str} (hn : names.Nodup) {f : Str → BbnNode} {n : Str} (h : n ∈ names) :
    Dict.getItem (names.map (fun n => (n, f n))) n = .ok (f n) := by
  refine Dict.getItem_of_get? (Dict.get?_of_mem ?_ (List.mem_map.2 ⟨n, h, rfl⟩))
  unfold Dict.keys
  rw [List.map_map]
  simpa [Function.comp_def] using hn

theorem WF.edgeSteps (h : bn.WF) : ∀ (l : List (Str × VData)) (es : List (BbnNode × BbnNode)), (∀ kv ∈ l, kv ∈ bn.Vdata) →
    l.foldlM (edgeStep (bn.V.map (fun n => (n, bn.named.node n)))) es =
      .ok (es ++ (l.map Prod.fst).flatMap (fun c => (bn.pa c).map (fun p => (bn.named.node p, bn.named.node c))))
  | [], es, _ => by simp [pure, Except.pure]
  | kv :: l, es, hl => by
      have hg := Dict.get?_of_mem h.keys (hl kv List.mem_cons_self)
      have hk : kv.1 ∈ bn.V := (h.same kv.1).2 (Dict.mem_keys_of_get? hg)
      have hd : bn.data kv.1 = kv.2 := by
        unfold data; rw [hg]; rfl
      have hstep : edgeStep (bn.V.map (fun n => (n, bn.named.node n))) es kv =
          .ok (es ++ (bn.pa kv.1).map (fun p => (bn.named.node p, bn.named.node kv.1))) := by
        unfold edgeStep
        rw [get?_named h.names hk]
        simp only [bind, Except.bind]
        rw [← hd, parentsOf_data, mapM_ok _ bn.named.node]
        · simp only [List.map_map]
          rfl
        · intro p hp
          exact get?_named h.names ((h.parents kv.1 hk).2 p hp)
      rw [List.foldlM_cons, hstep]
      simp only [bind, Except.bind]
      rw [h.edgeSteps l _ (fun kv' h' => hl kv' (List.mem_cons_of_mem _ h'))]
      simp

/-- the nodes by ascending number -/
def sortedNames (bn : LibPgm) : List Str := sortBy (fun m n => decide ((bn.data m).ord ≤ (bn.data n).ord)) bn.V

theorem sortedNames_perm (bn : LibPgm) : (sortedNames bn).Perm bn.V := sortBy_perm _ _

theorem insertBy_map' {α β : Type} {le : α → α → Bool} {le' : β → β → Bool} {g : α → β} (hle : ∀ a b, le' (g a) (g b) = le a b) (x : α) : ∀ (l : List α),
    insertBy le' (g x) (l.map g) = (insertBy le x l).map g
  | [] => rfl
  | y :: l => by
      rw [List.map_cons, insertBy, insertBy, hle]
      by_cases h : le x y = true
      · rw [if_pos h, if_pos h]; rfl
      · rw [if_neg h, if_neg h, insertBy_map' hle x l]; rfl

theorem sortBy_map' {α β : Type} {le : α → α → Bool} {le' : β → β → Bool} {g : α → β} (hle : ∀ a b, le' (g a) (g b) = le a b) : ∀ (l : List α),
    sortBy le' (l.map g) = (sortBy le l).map g
  | [] => rfl
  | y :: l => by
      rw [List.map_cons, sortBy, sortBy, sortBy_map' hle l, insertBy_map' hle]

theorem kids_perm (h : bn.WF) : (Dict.keys bn.Vdata).Perm bn.V :=
  (List.perm_ext_iff_of_nodup h.keys h.names).2 (fun n => (h.same n).symm)

/-- the conversion succeeds -/
theorem WF.toBbn (h : bn.WF) : toBbn bn = .ok (Bbn.run (bn.named.ops (sortedNames bn) (Dict.keys bn.Vdata))) := by
  unfold LibPgm.toBbn
  rw [h.getNodes]
  simp only [bind, Except.bind]
  unfold getEdges
  rw [h.edgeSteps bn.Vdata [] (fun _ hk => hk)]
  simp only
  congr 1
  unfold Named.ops buildOps
  rw [run_append]
  unfold Bbn.run
  have hv : Dict.values (bn.V.map (fun n => (n, bn.named.node n))) = bn.V.map bn.named.node := by
    unfold Dict.values; rw [List.map_map]; rfl
  rw [hv, sortBy_map' (le := fun m n => decide ((bn.data m).ord ≤ (bn.data n).ord)) (fun a b => rfl), List.nil_append, List.foldl_map, List.foldl_map, List.foldl_map, List.foldl_map]
  rfl

theorem WF.table_at (h : bn.WF) {n : Str} (hn : n ∈ bn.V) (σ : Asg) (hp : ∀ p ∈ bn.pa n, bn.byName σ p ∈ (bn.data p).vals)
    (hv : bn.byName σ n ∈ (bn.data n).vals) :
    cptAt (table bn n) ((bn.pa n).map (fun p => (bn.named.node p).var)) (bn.named.node n).var σ = bn.prob (bn.byName σ) n := by
  unfold cptAt cptIndex prob
  have hvals : ((bn.pa n).map (fun p => (bn.named.node p).var)).map Variable.values = (bn.pa n).map (fun p => (bn.data p).vals) := by
    rw [List.map_map]; rfl
  have hq := product_rowIdx σ ((bn.pa n).map (fun p => (bn.named.node p).var)) (by
    intro v hv'
    obtain ⟨p, hp', rfl⟩ := List.mem_map.1 hv'
    exact hp p hp')
  rw [hvals] at hq
  have hids : (vids ((bn.pa n).map (fun p => (bn.named.node p).var))).map σ = (bn.pa n).map (bn.byName σ) := by
    unfold vids; rw [List.map_map, List.map_map]; rfl
  rw [hids] at hq
  unfold table
  rw [List.getD_eq_getElem?_getD]
  change ((combos bn n).flatMap _)[_ * (bn.data n).vals.length + (bn.data n).vals.idxOf (bn.byName σ n)]?.getD 0 = _
  rw [flatMap_getElem? _ (bn.data n).vals.length _ (List.idxOf_lt_length_of_mem hv)]
  · change (Option.bind (product ((bn.pa n).map (fun p => (bn.data p).vals)))[_]? _).getD 0 = _
    rw [hq]
    rw [List.getD_eq_getElem?_getD]
    rfl
  · intro combo hc
    obtain ⟨r, hr, hlen⟩ := h.rows n hn combo ((mem_combos bn n combo).1 hc)
    rw [hr]
    exact hlen

theorem WF.table_length (h : bn.WF) {n : Str} (hn : n ∈ bn.V) : (table bn n).length =
    (((bn.pa n).map (fun p => (bn.named.node p).var) ++ [(bn.named.node n).var]).map (fun v => v.values.length)).prod := by
  have hrow : ∀ combo ∈ combos bn n, ((bn.row n combo).getD []).length = (bn.data n).vals.length := by
    intro combo hc
    obtain ⟨r, hr, hlen⟩ := h.rows n hn combo ((mem_combos bn n combo).1 hc)
    rw [hr]
    exact hlen
  have h1 : (table bn n).length = (combos bn n).length * (bn.data n).vals.length := by
    unfold table
    rw [List.length_flatMap]
    generalize combos bn n = l at hrow
    induction l with
    | nil => simp
    | cons a l ih =>
      rw [List.map_cons, List.sum_cons, hrow a List.mem_cons_self, ih (fun c hc => hrow c (List.mem_cons_of_mem _ hc)), List.length_cons]
      ring
  rw [h1]
  unfold combos
  rw [product_length_eq]
  simp [Function.comp_def]
  rfl

end LibPgm

end PyBBN

namespace PyBBN

theorem foldlM_ok_step {α β : Type} {f : β → α → Py β} : ∀ (l : List α) (a b : β), l.foldlM f a = .ok b → ∀ x ∈ l, ∃ a' b', f a' x = .ok b'
  | [], _, _, _, x, hx => by simp at hx
  | y :: l, a, b, h, x, hx => by
      rw [List.foldlM_cons] at h
      cases hy : f a y with
      | error e => rw [hy] at h; cases h
      | ok c =>
        rw [hy] at h
        rcases List.mem_cons.1 hx with rfl | hx
        · exact ⟨a, c, hy⟩
        · exact foldlM_ok_step l c b h x hx

theorem mapM_ok_at {α β : Type} {f : α → Py β} : ∀ (l : List α) (r : List β), l.mapM f = .ok r → ∀ x ∈ l, ∃ y, f x = .ok y
  | [], _, _, x, hx => by simp at hx
  | a :: l, r, h, x, hx => by
      rw [List.mapM_cons] at h
      cases ha : f a with
      | error e => rw [ha] at h; cases h
      | ok c =>
        rw [ha] at h
        rcases List.mem_cons.1 hx with rfl | hx
        · exact ⟨c, ha⟩
        · cases hl : l.mapM f with
          | error e => rw [hl] at h; cases h
          | ok r' => exact mapM_ok_at l r' hl x hx

namespace LibPgm
variable {bn : LibPgm}

theorem getItem_ok {V : Type} {d : Dict Str V} {k : Str} {v : V} (h : Dict.getItem d k = .ok v) : Dict.get? d k = some v :=
  (Dict.getItem_ok_iff d k v).1 h

theorem nodeStep_inv {d d' : Dict Str BbnNode} {n : Str} (h : nodeStep bn d n = .ok d') :
    Dict.get? bn.Vdata n = some (bn.data n) ∧ (∃ t, condProbs bn n = .ok t) ∧ ∀ k, k ∈ Dict.keys d' ↔ k = n ∨ k ∈ Dict.keys d := by
  unfold nodeStep at h
  cases hd : Dict.getItem bn.Vdata n with
  | error e => rw [hd] at h; cases h
  | ok v =>
    rw [hd] at h
    simp only [bind, Except.bind] at h
    cases ht : condProbs bn n with
    | error e => rw [ht] at h; cases h
    | ok t =>
      rw [ht] at h
      simp only [Except.ok.injEq] at h
      refine ⟨?_, ⟨t, rfl⟩, ?_⟩
      · have := getItem_ok hd
        unfold data; rw [this]; rfl
      · intro k
        rw [← h, Dict.mem_keys_set]

theorem getNodes_keys : ∀ (l : List Str) (d d' : Dict Str BbnNode), l.foldlM (nodeStep bn) d = .ok d' →
    ∀ k, k ∈ Dict.keys d' ↔ k ∈ l ∨ k ∈ Dict.keys d
  | [], d, d', h, k => by
      simp only [List.foldlM_nil, pure, Except.pure, Except.ok.injEq] at h
      rw [h]; simp
  | n :: l, d, d', h, k => by
      rw [List.foldlM_cons] at h
      cases hy : nodeStep bn d n with
      | error e => rw [hy] at h; cases h
      | ok c =>
        rw [hy] at h
        rw [getNodes_keys l c d' h k, (nodeStep_inv hy).2.2 k, List.mem_cons]
        tauto

theorem condProbs_inv {n : Str} {t : List ℚ} (h : condProbs bn n = .ok t) (hn : Dict.get? bn.Vdata n = some (bn.data n)) :
    (∀ p ∈ bn.pa n, Dict.get? bn.Vdata p = some (bn.data p)) ∧
    ∀ combo ∈ combos bn n, ∃ r, bn.row n combo = some r := by
  unfold LibPgm.condProbs parentDomains at h
  rw [Dict.getItem_of_get? hn] at h
  simp only [bind, Except.bind, parentsOf_data] at h
  cases hm : (bn.pa n).mapM (domainOf bn) with
  | error e => rw [hm] at h; cases h
  | ok doms =>
    rw [hm] at h
    have hpa : ∀ p ∈ bn.pa n, Dict.get? bn.Vdata p = some (bn.data p) := by
      intro p hp
      obtain ⟨y, hy⟩ := mapM_ok_at _ _ hm p hp
      unfold domainOf at hy
      cases hg : Dict.getItem bn.Vdata p with
      | error e => rw [hg] at hy; cases hy
      | ok v =>
        have := getItem_ok hg
        unfold data; rw [this]; rfl
    have hdoms : doms = (bn.pa n).map (fun p => (bn.data p).vals) := by
      have := mapM_ok (domainOf bn) (fun p => (bn.data p).vals) (bn.pa n) (by
          intro p hp
          unfold domainOf
          rw [Dict.getItem_of_get? (hpa p hp)]
          rfl)
      rw [this] at hm
      exact (Except.ok.inj hm).symm
    refine ⟨hpa, ?_⟩
    subst hdoms
    simp only at h
    unfold stringify crossProduct at h
    intro combo hc
    by_cases hp : bn.pa n = []
    · rw [hp] at h
      simp only [List.map_nil, List.length_nil, if_true] at h
      unfold row
      revert h
      cases (bn.data n).cprob with
      | list l => intro _; exact ⟨l, by simp [hp]⟩
      | dict d => intro h; cases h
    · have hne : ((bn.pa n).map (fun p => (bn.data p).vals)).length ≠ 0 := by
        rw [List.length_map]; exact fun e => hp (List.length_eq_zero_iff.1 e)
      rw [if_neg hne] at h
      have hk : ¬ ((product ((bn.pa n).map (fun p => (bn.data p).vals))).map rowKey).length = 0 := by
        rw [List.length_map]
        intro e
        rw [List.length_eq_zero_iff] at e
        unfold combos at hc
        rw [e] at hc
        simp at hc
      rw [if_neg hk] at h
      cases hr : ((product ((bn.pa n).map (fun p => (bn.data p).vals))).map rowKey).mapM (rowOf (bn.data n).cprob) with
      | error e => rw [hr] at h; cases h
      | ok rows =>
        obtain ⟨y, hy⟩ := mapM_ok_at _ _ hr (rowKey combo) (List.mem_map_of_mem hc)
        rw [rowKey_eq] at hy
        unfold row
        revert hy
        cases (bn.data n).cprob with
        | list l => intro hy; cases hy
        | dict d => intro hy; exact ⟨y, by simp only [if_neg hp]; exact getItem_ok hy⟩

theorem edgeStep_inv {nodes : Dict Str BbnNode} {es es' : List (BbnNode × BbnNode)} {kv : Str × VData} (h : edgeStep nodes es kv = .ok es') :
    kv.1 ∈ Dict.keys nodes ∧ ∀ p ∈ parentsOf kv.2, p ∈ Dict.keys nodes := by
  unfold edgeStep at h
  cases hd : Dict.getItem nodes kv.1 with
  | error e => rw [hd] at h; cases h
  | ok v =>
    rw [hd] at h
    simp only [bind, Except.bind] at h
    cases hp : (parentsOf kv.2).mapM (Dict.getItem nodes) with
    | error e => rw [hp] at h; cases h
    | ok ps =>
      refine ⟨Dict.mem_keys_of_get? (getItem_ok hd), ?_⟩
      intro p hpp
      obtain ⟨y, hy⟩ := mapM_ok_at _ _ hp p hpp
      exact Dict.mem_keys_of_get? (getItem_ok hy)

/-- what a successful conversion says about the document -/
theorem toBbn_inv {b : Bbn} (h : toBbn bn = .ok b) : (∀ n ∈ bn.V, n ∈ Dict.keys bn.Vdata) ∧ (∀ n ∈ Dict.keys bn.Vdata, n ∈ bn.V) ∧
    (∀ kv ∈ bn.Vdata, ∀ p ∈ parentsOf kv.2, p ∈ bn.V) ∧ ∀ n ∈ bn.V, ∀ combo ∈ combos bn n, ∃ r, bn.row n combo = some r := by
  unfold toBbn at h
  cases hn : getNodes bn with
  | error e => rw [hn] at h; cases h
  | ok nodes =>
    rw [hn] at h
    simp only [bind, Except.bind] at h
    cases he : getEdges bn nodes with
    | error e => rw [he] at h; cases h
    | ok es =>
      have hk := getNodes_keys bn.V [] nodes hn
      have hk' : ∀ k, k ∈ Dict.keys nodes ↔ k ∈ bn.V := by
        intro k; rw [hk]; simp [Dict.keys]
      refine ⟨?_, ?_, ?_, ?_⟩
      · intro n hnv
        obtain ⟨d, d', hs⟩ := foldlM_ok_step _ _ _ hn n hnv
        exact Dict.mem_keys_of_get? (nodeStep_inv hs).1
      · intro n hnk
        obtain ⟨kv, hkv, rfl⟩ := List.mem_map.1 hnk
        obtain ⟨d, d', hs⟩ := foldlM_ok_step _ _ _ he kv hkv
        exact (hk' _).1 (edgeStep_inv hs).1
      · intro kv hkv p hp
        obtain ⟨d, d', hs⟩ := foldlM_ok_step _ _ _ he kv hkv
        exact (hk' _).1 ((edgeStep_inv hs).2 p hp)
      · intro n hnv combo hc
        obtain ⟨d, d', hs⟩ := foldlM_ok_step _ _ _ hn n hnv
        obtain ⟨h1, ⟨t, ht⟩, _⟩ := nodeStep_inv hs
        exact (condProbs_inv ht h1).2 combo hc

end LibPgm

end PyBBN
