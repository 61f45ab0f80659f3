import Verif.Proofs.RowKeys
import Verif.Props.Sampling

/-! # C33: exactly which row of a CPT is sampled from -/

namespace PyBBN

/-- `1=on,2=off`: the text under which the sampler looks up values of the parents -/
def parentText (parents : List BbnNode) (σ : Asg) : Str :=
  List.intercalate [','] (parents.map (fun p => strInt p.var.id ++ '=' :: σ p.var.id))

theorem parentText_eq (parents : List BbnNode) (σ : Asg) :
    rowKey (parents.map (fun p => p.var.id)) ((parents.map (fun p => p.var.id)).map σ) = parentText parents σ := by
  have hj : ∀ l : List Str, joinStr ",".toList l = List.intercalate [','] l := by
    intro l
    induction l with
    | nil => rfl
    | cons a l ih =>
      cases l with
      | nil => simp [joinStr, List.intercalate]
      | cons b l =>
        rw [show joinStr ",".toList (a :: b :: l) = a ++ [','] ++ joinStr ",".toList (b :: l) from rfl, ih]
        simp [List.intercalate]
  unfold rowKey parentText
  rw [hj]
  congr 1
  induction parents with
  | nil => rfl
  | cons p ps ih =>
    simp only [List.map_cons, List.zip_cons_cons, ih]
    simp [kvText]

section
variable {node : BbnNode} {parents : List BbnNode}

/-- **C33, the law**: for parents in ascending order of their ids, with any values, `get_value(p, sample)` draws from the row of the last of the
parent values that have the same text as the sampled ones. -/
theorem c33_law (hne : parents ≠ []) (asc : (parents.map (fun p => p.var.id)).Pairwise (· < ·)) (pvals : ∀ p ∈ parents, p.var.values.Nodup)
    (vals : node.var.values.Nodup) (nonempty : node.var.values ≠ []) (nonneg : ∀ p ∈ node.probs, 0 ≤ p) (full : FullCpt node parents) :
    ∃ t, Table.make node parents = .ok t ∧ ∀ σ τ : Asg, InDom (parents.map BbnNode.var) τ → parentText parents σ = parentText parents τ →
      (∀ τ', InDom (parents.map BbnNode.var) τ' → parentText parents τ' = parentText parents τ →
        rowIdx (parents.map BbnNode.var) τ' ≤ rowIdx (parents.map BbnNode.var) τ) →
      (cptRow node.probs (parents.map BbnNode.var) node.var τ).sum = 1 →
      ∀ sample, (∀ p ∈ parents, Dict.get? sample p.var.id = some (σ p.var.id)) →
        ∀ p, 0 ≤ p → p < 1 → ∀ i (hi : i < node.var.values.length),
          t.getValue p sample = .ok node.var.values[i] ↔ InInterval (cptRow node.probs (parents.map BbnNode.var) node.var τ) i p := by
  have hfull : rows (parents.map BbnNode.var) * node.var.values.length ≤ node.probs.length := by
    refine le_trans (le_of_eq ?_) full
    rw [List.map_append, List.prod_append]
    simp [rows]
  obtain ⟨t, h1, h2⟩ := table_value_last hne asc pvals (List.length_pos_iff.2 nonempty) nonneg hfull
  refine ⟨t, h1, ?_⟩
  intro σ τ hτ hk hlast hsum sample hread p h0 hp i hi
  simp only [parentText_eq] at h2
  obtain ⟨j, hj, e, hint⟩ := h2 σ τ hτ hk hlast hsum sample hread p h0 hp
  rw [e]
  constructor
  · intro hx
    have := (vals.getElem_inj_iff (hi := hj) (hj := hi)).1 (Except.ok.inj hx)
    rw [← this]; exact hint
  · intro hint'
    have := inInterval_unique (cptRow_nonneg nonneg _ _ _) hint hint'
    subst this
    rfl

/-- **C33, exactly when**: for parents in ascending order of their ids and a normalized CPT, every parent values are sampled with their own
row exactly if any two parent values with the same text have the same row. -/
theorem c33_iff (hne : parents ≠ []) (asc : (parents.map (fun p => p.var.id)).Pairwise (· < ·)) (pvals : ∀ p ∈ parents, p.var.values.Nodup)
    (vals : node.var.values.Nodup) (nonempty : node.var.values ≠ []) (nonneg : ∀ p ∈ node.probs, 0 ≤ p) (full : FullCpt node parents)
    (norm : ∀ σ, InDom (parents.map BbnNode.var) σ → (cptRow node.probs (parents.map BbnNode.var) node.var σ).sum = 1) :
    InverseCdf node parents ↔ ∀ σ τ, InDom (parents.map BbnNode.var) σ → InDom (parents.map BbnNode.var) τ →
      parentText parents σ = parentText parents τ →
      cptRow node.probs (parents.map BbnNode.var) node.var σ = cptRow node.probs (parents.map BbnNode.var) node.var τ := by
  obtain ⟨t, h1, h2⟩ := c33_law hne asc pvals vals nonempty nonneg full
  constructor
  · rintro ⟨t', h1', h3⟩
    obtain rfl : t = t' := Except.ok.inj (h1.symm.trans h1')
    have key : ∀ σ τ, InDom (parents.map BbnNode.var) σ → InDom (parents.map BbnNode.var) τ → parentText parents σ = parentText parents τ →
        (∀ τ', InDom (parents.map BbnNode.var) τ' → parentText parents τ' = parentText parents τ →
          rowIdx (parents.map BbnNode.var) τ' ≤ rowIdx (parents.map BbnNode.var) τ) →
        cptRow node.probs (parents.map BbnNode.var) node.var σ = cptRow node.probs (parents.map BbnNode.var) node.var τ := by
      intro σ τ hσ hτ hk hlast
      refine row_eq_of_intervals (by rw [cptRow_length, cptRow_length]) (cptRow_nonneg nonneg _ _ _) (cptRow_nonneg nonneg _ _ _)
        (norm σ hσ) (norm τ hτ) ?_
      intro i hi p h0 hp
      rw [cptRow_length] at hi
      have hread : ∀ q ∈ parents, Dict.get? (parents.map (fun q => (q.var.id, σ q.var.id))) q.var.id = some (σ q.var.id) := by
        intro q hq
        apply Dict.get?_of_mem
        · unfold Dict.keys
          rw [List.map_map]
          exact asc.imp (fun h => ne_of_lt h)
        · exact List.mem_map.2 ⟨q, hq, rfl⟩
      rw [← h3 σ hσ (norm σ hσ) _ hread p h0 hp i hi, h2 σ τ hτ hk hlast (norm τ hτ) _ hread p h0 hp i hi]
    intro σ τ hσ hτ hk
    obtain ⟨ρ, hρ, hkρ, hlast⟩ := last_key (parentText parents) hσ
    rw [← hkρ] at hlast
    rw [key σ ρ hσ hρ hkρ.symm hlast, key τ ρ hτ hρ (hk.symm.trans hkρ.symm) hlast]
  · intro h
    refine ⟨t, h1, ?_⟩
    intro σ hσ hsum sample hread p h0 hp i hi
    obtain ⟨ρ, hρ, hkρ, hlast⟩ := last_key (parentText parents) hσ
    rw [← hkρ] at hlast
    rw [h2 σ ρ hρ hkρ.symm hlast (norm ρ hρ) sample hread p h0 hp i hi, h σ ρ hσ hρ hkρ.symm]

end

/-- values of the parents of `c33_false`: 1 = "a", 2 = "b,2=c" -/
def c33_first : Asg := fun i => if i = 1 then "a".toList else "b,2=c".toList
/-- 1 = "a,2=b", 2 = "c", with the same text -/
def c33_last : Asg := fun i => if i = 1 then "a,2=b".toList else "c".toList

/-- the two parent values have one text -/
example : parentText [c33_pa, c33_pb] c33_first = "1=a,2=b,2=c".toList ∧ parentText [c33_pa, c33_pb] c33_last = "1=a,2=b,2=c".toList := by decide +kernel

/-- the law for the network of `c33_false`: after 1 = "a", 2 = "b,2=c" the row of 1 = "a,2=b", 2 = "c" is sampled from -/
example : ∃ t, Table.make c33_ch [c33_pa, c33_pb] = .ok t ∧ ∀ p, 0 ≤ p → p < 1 →
    (t.getValue p [(1, "a".toList), (2, "b,2=c".toList)] = .ok "off".toList ↔ InInterval [0, 1] 1 p) := by
  obtain ⟨t, h1, h2⟩ := c33_law (node := c33_ch) (parents := [c33_pa, c33_pb]) (by decide +kernel) (by decide +kernel) (by decide +kernel)
    (by decide +kernel) (by decide +kernel) (by decide +kernel) (by unfold FullCpt; decide +kernel)
  refine ⟨t, h1, ?_⟩
  intro p h0 hp
  have := h2 c33_first c33_last (by unfold InDom; decide +kernel) (by decide +kernel) (by
    intro τ' hτ' hk
    by_contra hlt
    push Not at hlt
    have hb := rowIdx_lt τ' _ hτ'
    have e1 : rowIdx ([c33_pa, c33_pb].map BbnNode.var) c33_last = 2 := by decide +kernel
    have e2 : rows ([c33_pa, c33_pb].map BbnNode.var) = 4 := by decide +kernel
    rw [e1] at hlt
    rw [e2] at hb
    have ha : τ' 1 ∈ ["a".toList, "a,2=b".toList] := hτ' c33_pa.var (by simp)
    have hc : τ' 2 ∈ ["c".toList, "b,2=c".toList] := hτ' c33_pb.var (by simp)
    have e3 : parentText [c33_pa, c33_pb] τ' = parentText [c33_pa, c33_pb] (fun i => if i = 1 then τ' 1 else τ' 2) := rfl
    have e4 : rowIdx ([c33_pa, c33_pb].map BbnNode.var) τ' = rowIdx ([c33_pa, c33_pb].map BbnNode.var) (fun i => if i = 1 then τ' 1 else τ' 2) := rfl
    rw [e3] at hk
    rw [e4] at hlt
    revert hk hlt
    generalize τ' 1 = a at ha
    generalize τ' 2 = c at hc
    revert a c
    have : ∀ a ∈ ["a".toList, "a,2=b".toList], ∀ c ∈ ["c".toList, "b,2=c".toList],
      parentText [c33_pa, c33_pb] (fun i => if i = 1 then a else c) = parentText [c33_pa, c33_pb] c33_last →
      ¬ 2 < rowIdx ([c33_pa, c33_pb].map BbnNode.var) (fun i => if i = 1 then a else c) := by decide +kernel
    intro a ha c hc h1 h2
    exact this a ha c hc h1 h2) (by decide +kernel) [(1, "a".toList), (2, "b,2=c".toList)] (by decide +kernel) p h0 hp 1 (by decide +kernel)
  exact this

/-- the characterisation for the same parents: sampling is wrong for the CPT of `c33_false`, whose rows 2 and 3 differ, … -/
example : ¬ InverseCdf c33_ch [c33_pa, c33_pb] := by
  have hrow : ∀ σ, InDom ([c33_pa, c33_pb].map BbnNode.var) σ → (cptRow c33_ch.probs ([c33_pa, c33_pb].map BbnNode.var) c33_ch.var σ).sum = 1 := by
    intro σ hσ
    have hb := rowIdx_lt σ _ hσ
    rw [show rows ([c33_pa, c33_pb].map BbnNode.var) = 4 by decide +kernel] at hb
    unfold cptRow
    generalize rowIdx ([c33_pa, c33_pb].map BbnNode.var) σ = k at hb
    revert k
    decide +kernel
  intro h
  have := (c33_iff (by decide +kernel) (by decide +kernel) (by decide +kernel) (by decide +kernel) (by decide +kernel) (by decide +kernel)
    (by unfold FullCpt; decide +kernel) hrow).1 h c33_first c33_last (by unfold InDom; decide +kernel) (by unfold InDom; decide +kernel) (by decide +kernel)
  revert this
  decide +kernel

/-- … and right for one in which these rows are equal, in spite of the commas -/
example : InverseCdf (mkNode 3 "r" [1, 0, 1/4, 3/4, 1/4, 3/4, 0, 1]) [c33_pa, c33_pb] := by
  refine (c33_iff (by decide +kernel) (by decide +kernel) (by decide +kernel) (by decide +kernel) (by decide +kernel) (by decide +kernel)
    (by unfold FullCpt; decide +kernel) ?_).2 ?_
  · intro σ hσ
    have hb := rowIdx_lt σ _ hσ
    rw [show rows ([c33_pa, c33_pb].map BbnNode.var) = 4 by decide +kernel] at hb
    unfold cptRow
    generalize rowIdx ([c33_pa, c33_pb].map BbnNode.var) σ = k at hb
    revert k
    decide +kernel
  · intro σ τ hσ hτ hk
    have ha : σ 1 ∈ ["a".toList, "a,2=b".toList] := hσ c33_pa.var (by simp)
    have hc : σ 2 ∈ ["c".toList, "b,2=c".toList] := hσ c33_pb.var (by simp)
    have ha' : τ 1 ∈ ["a".toList, "a,2=b".toList] := hτ c33_pa.var (by simp)
    have hc' : τ 2 ∈ ["c".toList, "b,2=c".toList] := hτ c33_pb.var (by simp)
    have e : ∀ ρ : Asg, parentText [c33_pa, c33_pb] ρ = parentText [c33_pa, c33_pb] (fun i => if i = 1 then ρ 1 else ρ 2) := fun _ => rfl
    have e' : ∀ ρ : Asg, cptRow (mkNode 3 "r" [1, 0, 1/4, 3/4, 1/4, 3/4, 0, 1]).probs ([c33_pa, c33_pb].map BbnNode.var)
        (mkNode 3 "r" [1, 0, 1/4, 3/4, 1/4, 3/4, 0, 1]).var ρ = cptRow (mkNode 3 "r" [1, 0, 1/4, 3/4, 1/4, 3/4, 0, 1]).probs
        ([c33_pa, c33_pb].map BbnNode.var) (mkNode 3 "r" [1, 0, 1/4, 3/4, 1/4, 3/4, 0, 1]).var (fun i => if i = 1 then ρ 1 else ρ 2) := fun _ => rfl
    rw [e, e τ] at hk
    rw [e', e' τ]
    have key : ∀ a ∈ ["a".toList, "a,2=b".toList], ∀ c ∈ ["c".toList, "b,2=c".toList], ∀ a' ∈ ["a".toList, "a,2=b".toList],
        ∀ c' ∈ ["c".toList, "b,2=c".toList],
        parentText [c33_pa, c33_pb] (fun i => if i = 1 then a else c) = parentText [c33_pa, c33_pb] (fun i => if i = 1 then a' else c') →
        cptRow (mkNode 3 "r" [1, 0, 1/4, 3/4, 1/4, 3/4, 0, 1]).probs ([c33_pa, c33_pb].map BbnNode.var)
          (mkNode 3 "r" [1, 0, 1/4, 3/4, 1/4, 3/4, 0, 1]).var (fun i => if i = 1 then a else c) =
        cptRow (mkNode 3 "r" [1, 0, 1/4, 3/4, 1/4, 3/4, 0, 1]).probs ([c33_pa, c33_pb].map BbnNode.var)
          (mkNode 3 "r" [1, 0, 1/4, 3/4, 1/4, 3/4, 0, 1]).var (fun i => if i = 1 then a' else c') := by decide +kernel
    exact key _ ha _ hc _ ha' _ hc' hk

end PyBBN
