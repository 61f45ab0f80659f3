import Verif.Proofs.RowOrder

/-! # Rows of a sampling table that have the same key -/

namespace PyBBN

/-- a dictionary filled from a list has the last value of each key -/
theorem foldl_set_last {V : Type} (l : List (Str × V)) (d : Dict Str V) {r : Nat} {k : Str} {v : V} (h : l[r]? = some (k, v))
    (hlast : ∀ r', r < r' → ∀ kv, l[r']? = some kv → kv.1 ≠ k) :
    Dict.get? (l.foldl (fun d kp => Dict.set d kp.1 kp.2) d) k = some v := by
  obtain ⟨hr, he⟩ := List.getElem?_eq_some_iff.1 h
  have e : l = l.take r ++ (k, v) :: l.drop (r + 1) := by
    rw [← he, List.cons_getElem_drop_succ, List.take_append_drop]
  have post : ∀ (m : List (Str × V)) (d : Dict Str V), (∀ kv ∈ m, kv.1 ≠ k) →
      Dict.get? (m.foldl (fun d kp => Dict.set d kp.1 kp.2) d) k = Dict.get? d k := by
    intro m
    induction m with
    | nil => intro d _; rfl
    | cons a m ih =>
      intro d hm
      rw [List.foldl_cons, ih _ (fun kv hkv => hm kv (List.mem_cons_of_mem _ hkv)), Dict.get?_set_ne _ _ (hm a List.mem_cons_self)]
  rw [e, List.foldl_append, List.foldl_cons, post, Dict.get?_set_self]
  intro kv hkv
  obtain ⟨i, hi⟩ := List.getElem?_of_mem hkv
  rw [List.getElem?_drop] at hi
  exact hlast _ (by omega) kv hi

/-- the rows of a table with parents whose values are any texts -/
theorem table_rows_last (cs : List ℚ → List ℚ) {node : BbnNode} {parents : List BbnNode} (hne : parents ≠ [])
    (hsort : (parents.map (fun p => p.var.id)).Pairwise (· < ·)) (hval : ∀ p ∈ parents, p.var.values.Nodup) (hn : 0 < node.var.values.length)
    (hfull : rows (parents.map BbnNode.var) * node.var.values.length ≤ node.probs.length) :
    ∃ d, Table.makeWith cs node parents = .ok ⟨node, parents, parents.map (fun p => p.var.id), .inr d⟩ ∧
      ∀ τ : Asg, InDom (parents.map BbnNode.var) τ →
        (∀ τ', InDom (parents.map BbnNode.var) τ' → rowKey (parents.map (fun p => p.var.id)) ((parents.map (fun p => p.var.id)).map τ') =
          rowKey (parents.map (fun p => p.var.id)) ((parents.map (fun p => p.var.id)).map τ) →
          rowIdx (parents.map BbnNode.var) τ' ≤ rowIdx (parents.map BbnNode.var) τ) →
        Dict.get? d (rowKey (parents.map (fun p => p.var.id)) ((parents.map (fun p => p.var.id)).map τ)) =
          some (cs (cptRow node.probs (parents.map BbnNode.var) node.var τ)) := by
  have hs : sortBy (fun a b : BbnNode => decide (a.var.id ≤ b.var.id)) parents = parents := by
    apply sortBy_of_sorted
    rw [List.pairwise_map] at hsort
    exact hsort.imp (fun h => by simpa using le_of_lt h)
  have hvars : parents.map (fun p => p.var.values) = (parents.map BbnNode.var).map Variable.values := by
    rw [List.map_map]; rfl
  have hids : parents.map (fun p => p.var.id) = vids (parents.map BbnNode.var) := by
    unfold vids; rw [List.map_map]; rfl
  have hvn : (vids (parents.map BbnNode.var)).Nodup := by
    rw [← hids]; exact hsort.imp (fun h => ne_of_lt h)
  have hval' : ∀ v ∈ parents.map BbnNode.var, v.values.Nodup := by
    intro v hv
    obtain ⟨p, hp, rfl⟩ := List.mem_map.1 hv
    exact hval p hp
  refine ⟨_, by unfold Table.makeWith; simp only [hs]; rw [if_neg hne, if_neg (by omega)], ?_⟩
  intro τ hτ hlast
  have hkey : ∀ σ, InDom (parents.map BbnNode.var) σ → ((product (parents.map (fun p => p.var.values))).map
      (rowKey (parents.map (fun p => p.var.id))))[rowIdx (parents.map BbnNode.var) σ]? =
      some (rowKey (parents.map (fun p => p.var.id)) ((parents.map (fun p => p.var.id)).map σ)) := by
    intro σ hσ
    rw [List.getElem?_map, hvars, product_rowIdx σ _ hσ, hids]
    rfl
  have hlen : (rowIdx (parents.map BbnNode.var) τ + 1) * node.var.values.length ≤ node.probs.length :=
    le_trans (Nat.mul_le_mul_right _ (rowIdx_lt τ _ hτ)) hfull
  have hlen' : rowIdx (parents.map BbnNode.var) τ * node.var.values.length < node.probs.length := by
    rw [Nat.add_mul, Nat.one_mul] at hlen; omega
  refine foldl_set_last _ _ (r := rowIdx (parents.map BbnNode.var) τ) (List.getElem?_zip_eq_some.2 ⟨hkey τ hτ, ?_⟩) ?_
  · rw [List.getElem?_map, chunks_get hn hlen', cptRow_eq hlen]
    rfl
  · rintro r' hr' ⟨k, v⟩ hkv e
    obtain ⟨h1, _⟩ := List.getElem?_zip_eq_some.1 hkv
    have h2 : r' < rows (parents.map BbnNode.var) := by
      have := (List.getElem?_eq_some_iff.1 h1).1
      rwa [List.length_map, hvars, product_vars_length] at this
    obtain ⟨τ', hτ', hi, _⟩ := rowIdx_surj hvn hval' h2 τ
    have h3 := hkey τ' hτ'
    rw [hi] at h3
    have h4 := (Option.some.inj (h3.symm.trans h1)).trans e
    have := hlast τ' hτ' h4
    omega

/-- what `get_value` returns for parents whose values are any texts -/
theorem table_value_last {node : BbnNode} {parents : List BbnNode} (hne : parents ≠ [])
    (hsort : (parents.map (fun p => p.var.id)).Pairwise (· < ·)) (hval : ∀ p ∈ parents, p.var.values.Nodup) (hn : 0 < node.var.values.length)
    (hnn : ∀ p ∈ node.probs, 0 ≤ p)
    (hfull : rows (parents.map BbnNode.var) * node.var.values.length ≤ node.probs.length) :
    ∃ t, Table.make node parents = .ok t ∧ ∀ σ τ : Asg, InDom (parents.map BbnNode.var) τ →
      rowKey (parents.map (fun p => p.var.id)) ((parents.map (fun p => p.var.id)).map σ) =
          rowKey (parents.map (fun p => p.var.id)) ((parents.map (fun p => p.var.id)).map τ) →
        (∀ τ', InDom (parents.map BbnNode.var) τ' → rowKey (parents.map (fun p => p.var.id)) ((parents.map (fun p => p.var.id)).map τ') =
          rowKey (parents.map (fun p => p.var.id)) ((parents.map (fun p => p.var.id)).map τ) →
          rowIdx (parents.map BbnNode.var) τ' ≤ rowIdx (parents.map BbnNode.var) τ) →
      (cptRow node.probs (parents.map BbnNode.var) node.var τ).sum = 1 →
      ∀ sample, (∀ p ∈ parents, Dict.get? sample p.var.id = some (σ p.var.id)) → ∀ q, 0 ≤ q → q < 1 →
          ∃ i, ∃ hi : i < node.var.values.length, t.getValue q sample = .ok node.var.values[i] ∧
            InInterval (cptRow node.probs (parents.map BbnNode.var) node.var τ) i q := by
  obtain ⟨d, hd, hget⟩ := table_rows_last (cumsum 0) hne hsort hval hn hfull
  refine ⟨_, hd, ?_⟩
  intro σ τ hτ hk hlast hsum sample hread q h0 h1
  have hnn' := cptRow_nonneg hnn (parents.map BbnNode.var) node.var τ
  have hg := hget τ hτ hlast
  rw [← hk] at hg
  set row := cptRow node.probs (parents.map BbnNode.var) node.var τ with hrowdef
  have hlt : bisect (cumsum 0 row) q < row.length := by
    apply bisect_lt hnn' h0 (le_refl _)
    rw [List.take_length, hsum]; exact h1
  have hlen2 : row.length = node.var.values.length := cptRow_length _ _ _ _
  have hm : (parents.map (fun p => p.var.id)).mapM (fun i => Dict.getItem sample i) =
      .ok ((parents.map (fun p => p.var.id)).map σ) := by
    apply mapM_ok
    intro i hi
    obtain ⟨p, hp, rfl⟩ := List.mem_map.1 hi
    exact Dict.getItem_of_get? (hread p hp)
  refine ⟨_, hlen2 ▸ hlt, ?_, (inInterval_bisect hnn' h0 hlt).1 rfl⟩
  have hpar : (⟨node, parents, parents.map (fun p => p.var.id), .inr d⟩ : Table).hasParents = true := by
    simp [Table.hasParents, List.length_pos_iff, hne]
  unfold Table.getValue
  rw [hpar]
  simp only [Bool.not_true, Bool.false_eq_true, if_false]
  rw [hm]
  simp only [bind, Except.bind]
  rw [Dict.getItem_of_get? hg]
  exact valueAt_ok (t := ⟨node, parents, parents.map (fun p => p.var.id), .inr d⟩) (hlen2 ▸ hlt)

/-- the last of the parent values with the same key -/
theorem last_key {ns : List Variable} {β : Type} (key : Asg → β) {σ : Asg} (hσ : InDom ns σ) :
    ∃ τ, InDom ns τ ∧ key τ = key σ ∧ ∀ τ', InDom ns τ' → key τ' = key σ → rowIdx ns τ' ≤ rowIdx ns τ := by
  classical
  by_contra hno
  push Not at hno
  have h : ∀ k, ∃ τ, InDom ns τ ∧ key τ = key σ ∧ k ≤ rowIdx ns τ := by
    intro k
    induction k with
    | zero => exact ⟨σ, hσ, rfl, Nat.zero_le _⟩
    | succ k ih =>
      obtain ⟨τ, h1, h2, h3⟩ := ih
      obtain ⟨τ', h4, h5, h6⟩ := hno τ h1 h2
      exact ⟨τ', h4, h5, by omega⟩
  obtain ⟨τ, h1, _, h2⟩ := h (rows ns)
  have := rowIdx_lt τ _ h1
  omega

end PyBBN
