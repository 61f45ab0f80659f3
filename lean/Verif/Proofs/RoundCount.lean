import Verif.Proofs.Rounding
import Verif.Proofs.Underflow
import Verif.Props.Evidence
import Verif.Props.EvidenceOps

/-!
# Bounds on rounding counts

How large the values become when a program runs over an arithmetic that counts (`Arith.count`, `Arith.size`): tables are re-initialised
whenever evidence is propagated, and one propagation passes each message once.
-/

namespace PyBBN
open Propagator

/-- an arithmetic whose values grow by at most one per operation, and by at most `κ` per summand -/
structure Cost (A : Arith) (κ : ℚ) : Prop where
  nonneg : 0 ≤ κ
  one : A.one ≤ 0
  mul : ∀ a b, A.mul a b ≤ a + b + 1
  div : ∀ a b, A.div a b ≤ a + b + 1
  quot : ∀ a b, A.quot a b ≤ a + b + 1
  sum : ∀ (l : List ℚ) (B : ℚ), 0 ≤ B → (∀ x ∈ l, x ≤ B) → A.sum l ≤ B + κ * l.length

theorem foldr_max_le {l : List ℚ} {B : ℚ} (hB : 0 ≤ B) (h : ∀ x ∈ l, x ≤ B) : l.foldr max 0 ≤ B := by
  induction l with
  | nil => exact hB
  | cons x l ih => exact max_le (h x List.mem_cons_self) (ih (fun y hy => h y (List.mem_cons_of_mem _ hy)))

theorem cost_count : Cost Arith.count 1 := by
  refine ⟨by norm_num, le_refl _, fun a b => le_refl _, fun a b => le_refl _, fun a b => le_refl _, ?_⟩
  intro l B hB h
  have := foldr_max_le hB h
  simp only [Arith.count]
  linarith

theorem cost_size : Cost Arith.size 2 := by
  refine ⟨by norm_num, le_refl _, fun a b => le_refl _, fun a b => le_refl _, fun a b => le_refl _, ?_⟩
  intro l B hB h
  have := foldr_max_le hB h
  simp only [Arith.size]
  linarith

/-! ### tables -/

/-- no row matches two entries of the table -/
def Uniq (p : Potential) : Prop := ∀ d : PEntry, (p.filter (fun x => d.matchesE x)).length ≤ 1

theorem nodup_all_eq {α : Type} {l : List α} (hn : l.Nodup) {a : α} (h : ∀ x ∈ l, x = a) : l.length ≤ 1 := by
  match l, hn, h with
  | [], _, _ => simp
  | [_], _, _ => simp
  | x :: y :: l, hn, h =>
    exfalso
    rw [List.nodup_cons] at hn
    apply hn.1
    rw [h x (by simp), ← h y (by simp)]
    simp

theorem uniq_congr {p q : Potential} (h : p.map PEntry.entries = q.map PEntry.entries) (hp : Uniq p) : Uniq q := by
  intro d
  have key : ∀ r : Potential, (r.filter (fun x => d.matchesE x)).length =
      ((r.map PEntry.entries).filter (fun x => d.matchesE ⟨x, 0⟩)).length := by
    intro r
    rw [List.filter_map, List.length_map]
    rfl
  rw [key, ← h, ← key]
  exact hp d

section
variable {A : Arith} {κ : ℚ}

theorem fromNodes_entries (A : Arith) {ns : List Variable} (hn : (vids ns).Nodup) :
    (A.fromNodes ns).map PEntry.entries = (product (ns.map Variable.values)).map (fun vals => (vids ns).zip vals) := by
  unfold Arith.fromNodes
  rw [List.map_map]
  apply List.map_congr_left
  intro vals _
  simp only [Function.comp]
  rw [foldl_set_zip ns vals [] hn (by simp [Dict.keys])]
  simp

theorem zip_matches {d : PEntry} {ids : List Int} {vals : List Str} (hl : ids.length = vals.length) (h : d.matchesE ⟨ids.zip vals, 0⟩ = true) :
    vals = ids.map (fun i => (Dict.get? d.entries i).getD []) := by
  unfold PEntry.matchesE at h
  simp only at h
  induction ids generalizing vals with
  | nil => exact List.length_eq_zero_iff.1 (by simpa using hl.symm)
  | cons i ids ih =>
    cases vals with
    | nil => simp at hl
    | cons x vals =>
      simp only [List.zip_cons_cons, List.all_cons, Bool.and_eq_true, decide_eq_true_eq] at h
      rw [List.map_cons, h.1, ← ih (by simpa using hl) h.2]
      rfl

theorem uniq_fromNodes (A : Arith) {ns : List Variable} (hn : (vids ns).Nodup) (hv : ∀ v ∈ ns, v.values.Nodup) : Uniq (A.fromNodes ns) := by
  intro d
  have e : ((A.fromNodes ns).filter (fun x => d.matchesE x)).length =
      ((product (ns.map Variable.values)).filter (fun vals => d.matchesE ⟨(vids ns).zip vals, 0⟩)).length := by
    have : ((A.fromNodes ns).filter (fun x => d.matchesE x)).length =
        (((A.fromNodes ns).map PEntry.entries).filter (fun x => d.matchesE ⟨x, 0⟩)).length := by
      rw [List.filter_map, List.length_map]
      rfl
    rw [this, fromNodes_entries A hn, List.filter_map, List.length_map]
    rfl
  rw [e]
  refine nodup_all_eq (a := (vids ns).map (fun i => (Dict.get? d.entries i).getD [])) ((nodup_product _ ?_).filter _) ?_
  · intro l hl
    obtain ⟨v, hv', rfl⟩ := List.mem_map.1 hl
    exact hv v hv'
  · intro vals hvals
    obtain ⟨h1, h2⟩ := List.mem_filter.1 hvals
    exact zip_matches (product_length h1) h2

theorem fromNodes_value (A : Arith) (ns : List Variable) : ∀ e ∈ A.fromNodes ns, e.value = A.one := by
  intro e he
  obtain ⟨_, _, rfl⟩ := List.mem_map.1 he
  rfl

theorem fromNodes_length (A : Arith) (ns : List Variable) : (A.fromNodes ns).length = (product (ns.map Variable.values)).length := by
  unfold Arith.fromNodes
  rw [List.length_map]

/-- one row through all entries of the smaller table -/
def mulRow (A : Arith) (q : Potential) (e : PEntry) : PEntry :=
  q.foldl (fun e x => if e.matchesE x then { e with value := A.mul e.value x.value } else e) e

theorem multiply_rows (A : Arith) : ∀ (q p : Potential), A.multiply p q = p.map (mulRow A q)
  | [], p => by
      show p = _
      have : mulRow A [] = id := rfl
      rw [this, List.map_id]
  | x :: q, p => by
      have := multiply_rows A q (p.map (fun e => if e.matchesE x then { e with value := A.mul e.value x.value } else e))
      show A.multiply _ q = _
      rw [this, List.map_map]
      rfl

theorem mulRow_le (h : Cost A κ) {γ : ℚ} (hγ : 0 ≤ γ) : ∀ (q : Potential) (e : PEntry), (∀ x ∈ q, x.value ≤ γ) →
    (mulRow A q e).value ≤ e.value + ((q.filter (fun x => e.matchesE x)).length : ℚ) * (γ + 1)
  | [], e, _ => by simp [mulRow]
  | x :: q, e, hq => by
      have ih := mulRow_le h hγ q
      have hq' := fun y hy => hq y (List.mem_cons_of_mem _ hy)
      unfold mulRow
      rw [List.foldl_cons, List.filter_cons]
      by_cases hm : e.matchesE x = true
      · rw [if_pos hm, if_pos hm]
        have := ih { e with value := A.mul e.value x.value } hq'
        unfold mulRow at this
        refine this.trans ?_
        have h1 := h.mul e.value x.value
        have h2 := hq x List.mem_cons_self
        have e1 : (fun y => PEntry.matchesE { e with value := A.mul e.value x.value } y) = (fun y => e.matchesE y) := rfl
        rw [e1]
        simp only [List.length_cons]
        push_cast
        linarith
      · rw [if_neg hm, if_neg hm]
        exact ih e hq'

theorem Cost.multiply (h : Cost A κ) {p q : Potential} {β γ : ℚ} (hγ : 0 ≤ γ) (hu : Uniq q) (hq : ∀ x ∈ q, x.value ≤ γ) (hp : ∀ e ∈ p, e.value ≤ β) :
    (A.multiply p q).length = p.length ∧ ∀ e ∈ A.multiply p q, e.value ≤ β + (γ + 1) := by
  rw [multiply_rows]
  refine ⟨by simp, ?_⟩
  intro e he
  obtain ⟨e', he', rfl⟩ := List.mem_map.1 he
  refine (mulRow_le h hγ q e' hq).trans ?_
  have h1 := hp e' he'
  have h2 : ((q.filter (fun x => e'.matchesE x)).length : ℚ) ≤ 1 := by exact_mod_cast hu e'
  have h3 : (0 : ℚ) ≤ γ + 1 := by linarith
  nlinarith

theorem marginalize_entries (A : Arith) (p : Potential) (ns : List Variable) :
    (A.marginalize p ns).map PEntry.entries = (A.fromNodes ns).map PEntry.entries := by
  unfold Arith.marginalize
  rw [List.map_map]
  rfl

theorem Cost.marginalize (h : Cost A κ) {p : Potential} {β : ℚ} {R : ℕ} (hβ : 0 ≤ β) (hl : p.length ≤ R) (hp : ∀ e ∈ p, e.value ≤ β) (ns : List Variable) :
    ∀ e ∈ A.marginalize p ns, e.value ≤ β + κ * R := by
  intro e he
  obtain ⟨e', _, rfl⟩ := List.mem_map.1 he
  simp only
  refine (h.sum _ β hβ ?_).trans ?_
  · intro x hx
    obtain ⟨y, hy, rfl⟩ := List.mem_map.1 hx
    exact hp y (List.mem_filter.1 hy).1
  · have : ((List.map PEntry.value (PotentialUtil.getMatchingEntries p e')).length : ℚ) ≤ R := by
      rw [List.length_map]
      exact_mod_cast (List.length_filter_le _ _).trans hl
    nlinarith [h.nonneg]

theorem Cost.divide (h : Cost A κ) {p q r : Potential} {β γ : ℚ} (hr : A.divide p q = .ok r) (hp : ∀ e ∈ p, e.value ≤ β) (hq : ∀ e ∈ q, e.value ≤ γ) :
    r.map PEntry.entries = p.map PEntry.entries ∧ ∀ e ∈ r, e.value ≤ β + γ + 1 := by
  have key : ∀ (p : Potential) (n : ℕ) (r : Potential), (p.zipIdx n).mapM (fun ei : PEntry × ℕ =>
      match q[ei.2]? with
      | none => (.error .indexError : Py PEntry)
      | some e => .ok { ei.1 with value := A.div ei.1.value e.value }) = .ok r → (∀ e ∈ p, e.value ≤ β) →
      r.map PEntry.entries = p.map PEntry.entries ∧ ∀ e ∈ r, e.value ≤ β + γ + 1 := by
    intro p
    induction p with
    | nil =>
      intro n r hr _
      simp [pure, Except.pure] at hr
      subst hr
      simp
    | cons a p ih =>
      intro n r hr hp
      rw [List.zipIdx_cons, List.mapM_cons] at hr
      obtain ⟨b, h1, hr⟩ := bind_ok hr
      obtain ⟨r', h2, hr⟩ := bind_ok hr
      cases hr
      obtain ⟨i1, i2⟩ := ih _ _ h2 (fun e he => hp e (List.mem_cons_of_mem _ he))
      simp only at h1
      cases hqn : q[n]? with
      | none => rw [hqn] at h1; cases h1
      | some e =>
        rw [hqn] at h1
        cases h1
        refine ⟨by simp [i1], ?_⟩
        intro x hx
        rcases List.mem_cons.1 hx with rfl | hx
        · have h3 := h.div a.value e.value
          have h4 := hp a List.mem_cons_self
          have h5 := hq e (List.mem_of_getElem? hqn)
          simp only
          linarith
        · exact i2 x hx
  exact key p 0 r hr hp

theorem Cost.normalize (h : Cost A κ) {p : Potential} {β : ℚ} {R : ℕ} (hβ : 0 ≤ β) (hl : p.length ≤ R) (hp : ∀ e ∈ p, e.value ≤ β) :
    ∀ e ∈ A.normalize p, e.value ≤ 2 * β + κ * R + 1 := by
  intro e he
  obtain ⟨e', he', rfl⟩ := List.mem_map.1 he
  simp only
  refine (h.quot _ _).trans ?_
  have h1 := hp e' he'
  have h2 := h.sum (p.map PEntry.value) β hβ (by
    intro x hx
    obtain ⟨y, hy, rfl⟩ := List.mem_map.1 hx
    exact hp y hy)
  have h3 : ((p.map PEntry.value).length : ℚ) ≤ R := by rw [List.length_map]; exact_mod_cast hl
  nlinarith [h.nonneg]

/-! ### messages -/

/-- the tables of the join tree have at most `R` rows and values at most `β` -/
def Bd (R : ℕ) (β : Str → ℚ) (jt : JoinTree) : Prop :=
  ∀ k ∈ Dict.keys jt.nodes, ∀ p, Dict.get? jt.potentials k = some p → p.length ≤ R ∧ ∀ e ∈ p, e.value ≤ β k

theorem Bd.mono {R : ℕ} {β β' : Str → ℚ} {jt : JoinTree} (h : Bd R β jt) (hb : ∀ k ∈ Dict.keys jt.nodes, β k ≤ β' k) : Bd R β' jt := by
  intro k hk p hp
  obtain ⟨h1, h2⟩ := h k hk p hp
  exact ⟨h1, fun e he => (h2 e he).trans (hb k hk)⟩

/-- the bounds after a message from `x` through `s` to `y` -/
def msgB (κ : ℚ) (R : ℕ) (x s y : Str) (β : Str → ℚ) : Str → ℚ :=
  Function.update (Function.update β s (β x + κ * R)) y (β y + (β x + κ * R + β s + 2))

/-- all nodes of the join tree have at most `R` joint values, and separation sets are made of distinct variables with distinct values -/
structure Sizes (R : ℕ) (jt : JoinTree) : Prop where
  rows : ∀ k n, Dict.get? jt.nodes k = some n → (product (n.vars.map Variable.values)).length ≤ R
  vars : ∀ k n, Dict.get? jt.nodes k = some n → (vids n.vars).Nodup ∧ ∀ v ∈ n.vars, v.values.Nodup

theorem Cost.pass (h : Cost A κ) {R : ℕ} {jt jt' : JoinTree} {x s y : Str} (hz : Sizes R jt) (hp : A.passSingleMessage jt x s y = .ok jt') {β : Str → ℚ}
    (hβ : ∀ k, 0 ≤ β k) (hx : x ∈ Dict.keys jt.nodes) (hs : s ∈ Dict.keys jt.nodes) (hy : y ∈ Dict.keys jt.nodes) (hsy : s ≠ y) (hb : Bd R β jt) :
    (∃ p, jt' = { jt with potentials := p }) ∧ Bd R (msgB κ R x s y β) jt' := by
  unfold Arith.passSingleMessage at hp
  obtain ⟨old, h1, hp⟩ := bind_ok hp
  obtain ⟨sn, h2, hp⟩ := bind_ok hp
  obtain ⟨new, h3, hp⟩ := bind_ok hp
  obtain ⟨yp, h4, hp⟩ := bind_ok hp
  obtain ⟨ratio, h5, hp⟩ := bind_ok hp
  cases hp
  refine ⟨⟨_, rfl⟩, ?_⟩
  have h1' := (Dict.getItem_ok_iff _ _ _).1 h1
  have h2' := (Dict.getItem_ok_iff _ _ _).1 h2
  have h4' := (Dict.getItem_ok_iff _ _ _).1 h4
  rw [Dict.get?_set_ne _ _ hsy] at h4'
  obtain ⟨v1, v2⟩ := hz.vars s sn h2'
  have hk : 0 ≤ κ * R := mul_nonneg h.nonneg (Nat.cast_nonneg _)
  have hnew : new.length ≤ R ∧ (∀ e ∈ new, e.value ≤ β x + κ * R) ∧ Uniq new := by
    unfold Arith.marginalizeFor at h3
    cases hxp : Dict.get? jt.potentials x with
    | none =>
      rw [hxp] at h3
      simp only at h3
      split at h3
      · cases h3
        exact ⟨by simp, by simp, by intro d; simp⟩
      · cases h3
    | some p =>
      rw [hxp] at h3
      cases h3
      obtain ⟨b1, b2⟩ := hb x hx p hxp
      have e := marginalize_entries A p sn.vars
      refine ⟨?_, h.marginalize (hβ x) b1 b2 _, uniq_congr e.symm (uniq_fromNodes A v1 v2)⟩
      have : (A.marginalize p sn.vars).length = (A.fromNodes sn.vars).length := by
        have := congrArg List.length e
        simpa using this
      rw [this, fromNodes_length]
      exact hz.rows s sn h2'
  obtain ⟨n1, n2, n3⟩ := hnew
  obtain ⟨o1, o2⟩ := hb s hs old h1'
  obtain ⟨y1, y2⟩ := hb y hy yp h4'
  obtain ⟨r1, r2⟩ := h.divide h5 n2 o2
  have hr := uniq_congr r1.symm n3
  obtain ⟨m1, m2⟩ := h.multiply (γ := β x + κ * R + β s + 1) (by linarith [hβ x, hβ s]) hr r2 y2
  intro k hk p hp
  simp only at hp
  by_cases hky : k = y
  · subst hky
    rw [Dict.get?_set_self] at hp
    cases hp
    refine ⟨m1.trans_le y1, fun e he => ?_⟩
    have := m2 e he
    unfold msgB
    rw [Function.update_self]
    linarith
  · rw [Dict.get?_set_ne _ _ (fun e => hky e.symm)] at hp
    unfold msgB
    rw [Function.update_of_ne hky]
    by_cases hks : k = s
    · subst hks
      rw [Dict.get?_set_self] at hp
      cases hp
      rw [Function.update_self]
      exact ⟨n1, n2⟩
    · rw [Dict.get?_set_ne _ _ (fun e => hks e.symm)] at hp
      rw [Function.update_of_ne hks]
      exact hb k hk p hp

end

end PyBBN
