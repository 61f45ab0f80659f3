import Verif.Spec.Gaussian
import Mathlib.LinearAlgebra.Matrix.NonsingularInverse
import Mathlib.LinearAlgebra.Matrix.ToLinearEquiv
import Mathlib.Tactic.Ring
import Mathlib.Tactic.Linarith
import Mathlib.Tactic.LinearCombination

/-! Facts about regression coefficients: they exist and are unique for a nonsingular set, conditioning in two steps. -/

namespace PyBBN.Normal
open Finset

variable {ι : Type} [DecidableEq ι] {C : ι → ι → ℚ} {Z : Finset ι} {a b : ι} {k l : ι → ℚ}

omit [DecidableEq ι] in
theorem Reg.eq (h : Reg C Z a k) {w : ι} (hw : w ∈ Z) : ∑ z ∈ Z, k z * C z w = C a w := by
  have := h w hw; linarith

omit [DecidableEq ι] in
theorem resCov_eq (hs : ∀ z ∈ Z, C b z = C z b) (ha : Reg C Z a k) (hb : Reg C Z b l) :
    resCov C Z a b k l = C a b - ∑ z ∈ Z, k z * C z b := by
  unfold resCov
  have : ∑ z ∈ Z, ∑ w ∈ Z, k z * l w * C z w = ∑ w ∈ Z, l w * C a w := by
    rw [Finset.sum_comm]
    refine Finset.sum_congr rfl ?_
    intro w hw
    rw [← ha.eq hw, Finset.mul_sum]
    refine Finset.sum_congr rfl ?_
    intro z _
    ring
  rw [this]; ring

omit [DecidableEq ι] in
/-- the coefficients are unique -/
theorem Reg.unique (hn : NonSing C Z) (h1 : Reg C Z a k) (h2 : Reg C Z a l) : ∀ z ∈ Z, k z = l z := by
  intro z hz
  have := hn (fun z => k z - l z) (by
    intro w hw
    simp only [sub_mul, Finset.sum_sub_distrib]
    rw [h1.eq hw, h2.eq hw]; ring) z hz
  linarith

/-- the covariances of the variables of a list -/
def covMat (C : ι → ι → ℚ) (zs : List ι) : Matrix (Fin zs.length) (Fin zs.length) ℚ := fun i j => C zs[i] zs[j]

theorem sum_list {zs : List ι} (hn : zs.Nodup) (f : ι → ℚ) : ∑ z ∈ zs.toFinset, f z = ∑ i : Fin zs.length, f zs[i] := by
  rw [List.sum_toFinset _ hn]
  exact (Fin.sum_univ_fun_getElem zs f).symm

/-- a function on the variables of a list from its values at the places -/
def ofPlaces (zs : List ι) (v : Fin zs.length → ℚ) (z : ι) : ℚ := if h : zs.idxOf z < zs.length then v ⟨zs.idxOf z, h⟩ else 0

theorem ofPlaces_get {zs : List ι} (hn : zs.Nodup) (v : Fin zs.length → ℚ) (i : Fin zs.length) : ofPlaces zs v zs[i] = v i := by
  have hidx : zs.idxOf zs[i] = i := List.Nodup.idxOf_getElem hn i i.2
  unfold ofPlaces
  rw [dif_pos (by rw [hidx]; exact i.2)]
  congr 1
  exact Fin.ext hidx

theorem det_iff {zs : List ι} (hn : zs.Nodup) : (covMat C zs).det ≠ 0 ↔ NonSing C zs.toFinset := by
  rw [Ne, ← Matrix.exists_vecMul_eq_zero_iff]
  constructor
  · intro h v hv z hz
    by_contra hne
    refine h ⟨fun i => v zs[i], ?_, ?_⟩
    · intro e
      obtain ⟨i, hi, rfl⟩ := List.getElem_of_mem (List.mem_toFinset.1 hz)
      exact hne (congrFun e ⟨i, hi⟩)
    · funext j
      have := hv zs[j] (List.mem_toFinset.2 (List.getElem_mem _))
      rw [sum_list hn] at this
      simpa [Matrix.vecMul, dotProduct, covMat] using this
  · rintro h ⟨v, hv, he⟩
    apply hv
    funext i
    have := h (ofPlaces zs v) (by
      intro w hw
      obtain ⟨j, hj, rfl⟩ := List.getElem_of_mem (List.mem_toFinset.1 hw)
      rw [sum_list hn]
      have := congrFun he ⟨j, hj⟩
      simp only [Matrix.vecMul, dotProduct, covMat] at this
      simp only [ofPlaces_get hn]
      exact this) zs[i] (List.mem_toFinset.2 (List.getElem_mem _))
    rw [ofPlaces_get hn] at this
    exact this

/-- the coefficients given by the inverse -/
def coef (C : ι → ι → ℚ) (zs : List ι) (B : Matrix (Fin zs.length) (Fin zs.length) ℚ) (a : ι) (j : Fin zs.length) : ℚ :=
  ∑ i : Fin zs.length, C a zs[i] * B i j

theorem reg_coef {zs : List ι} (hn : zs.Nodup) {B : Matrix (Fin zs.length) (Fin zs.length) ℚ} (hB : B * covMat C zs = 1) (a : ι) :
    Reg C zs.toFinset a (ofPlaces zs (coef C zs B a)) := by
  intro w hw
  obtain ⟨j, hj, rfl⟩ := List.getElem_of_mem (List.mem_toFinset.1 hw)
  rw [sum_list hn]
  simp only [ofPlaces_get hn]
  have h := congrFun (congrArg (fun M : Matrix (Fin zs.length) (Fin zs.length) ℚ => Matrix.vecMul (fun i => C a zs[i]) M) hB) ⟨j, hj⟩
  rw [← Matrix.vecMul_vecMul, Matrix.vecMul_one] at h
  simp only [Matrix.vecMul, dotProduct, covMat] at h
  unfold coef
  have h' : ∑ x : Fin zs.length, (∑ i : Fin zs.length, C a zs[i] * B i x) * C zs[x] zs[j] = C a zs[j] := h
  rw [h', sub_self]

theorem exists_reg (h : NonSing C Z) (a : ι) : ∃ k, Reg C Z a k := by
  have hn := Z.nodup_toList
  have hz : Z.toList.toFinset = Z := Z.toList_toFinset
  have hd : (covMat C Z.toList).det ≠ 0 := (det_iff hn).2 (by rw [hz]; exact h)
  have := reg_coef hn (B := (covMat C Z.toList)⁻¹) (Matrix.nonsing_inv_mul _ (isUnit_iff_ne_zero.2 hd)) a
  rw [hz] at this
  exact ⟨_, this⟩

/-- for a nonsingular set the quadratic form exists -/
theorem exists_mahal (h : NonSing C Z) (u : ι → ℚ) : ∃ q, Mahal C Z u q := by
  have hn := Z.nodup_toList
  have hz : Z.toList.toFinset = Z := Z.toList_toFinset
  have hd : (covMat C Z.toList).det ≠ 0 := (det_iff hn).2 (by rw [hz]; exact h)
  have hB := Matrix.nonsing_inv_mul (covMat C Z.toList) (isUnit_iff_ne_zero.2 hd)
  refine ⟨_, ofPlaces Z.toList (Matrix.vecMul (fun i => u Z.toList[i]) (covMat C Z.toList)⁻¹), ?_, rfl⟩
  intro y hy
  obtain ⟨j, hj, rfl⟩ := List.getElem_of_mem (Finset.mem_toList.2 hy)
  have hs : ∀ f : ι → ℚ, ∑ z ∈ Z, f z = ∑ i : Fin Z.toList.length, f Z.toList[i] := by
    intro f
    rw [← sum_list hn, hz]
  rw [hs]
  simp only [ofPlaces_get hn]
  have h := congrFun (congrArg (fun M : Matrix (Fin Z.toList.length) (Fin Z.toList.length) ℚ => Matrix.vecMul (fun i => u Z.toList[i]) M) hB) ⟨j, hj⟩
  rw [← Matrix.vecMul_vecMul, Matrix.vecMul_one] at h
  exact h

/-! ## two steps -/

variable {Z1 Z2 : Finset ι} {K : ι → ι → ℚ}

/-- what is left of the covariances after the first step -/
def rest (C : ι → ι → ℚ) (Z1 : Finset ι) (K : ι → ι → ℚ) (x y : ι) : ℚ := C x y - ∑ z ∈ Z1, K x z * C z y

omit [DecidableEq ι] in
theorem rest_zero {x w : ι} (hx : Reg C Z1 x (K x)) (hw : w ∈ Z1) : rest C Z1 K x w = 0 := hx w hw

/-- a combination of variables of `Z2`, each replaced by its unexplained part -/
def ext (Z1 Z2 : Finset ι) (K : ι → ι → ℚ) (v : ι → ℚ) (z : ι) : ℚ := if z ∈ Z1 then -∑ u ∈ Z2, v u * K u z else v z

theorem ext_sum (hd : Disjoint Z1 Z2) (v : ι → ℚ) (w : ι) :
    ∑ z ∈ Z1 ∪ Z2, ext Z1 Z2 K v z * C z w = ∑ u ∈ Z2, v u * rest C Z1 K u w := by
  rw [Finset.sum_union hd]
  have h1 : ∑ z ∈ Z1, ext Z1 Z2 K v z * C z w = -∑ u ∈ Z2, v u * ∑ z ∈ Z1, K u z * C z w := by
    simp only [Finset.mul_sum]
    rw [Finset.sum_comm, ← Finset.sum_neg_distrib]
    refine Finset.sum_congr rfl ?_
    intro z hz
    unfold ext
    rw [if_pos hz, neg_mul, Finset.sum_mul]
    congr 1
    refine Finset.sum_congr rfl ?_
    intro u _; ring
  have h2 : ∑ z ∈ Z2, ext Z1 Z2 K v z * C z w = ∑ u ∈ Z2, v u * C u w := by
    refine Finset.sum_congr rfl ?_
    intro z hz
    unfold ext
    rw [if_neg (Finset.disjoint_right.1 hd hz)]
  rw [h1, h2, neg_add_eq_sub, ← Finset.sum_sub_distrib]
  refine Finset.sum_congr rfl ?_
  intro u _
  unfold rest; ring

/-- the coefficients of both steps together -/
def joint (Z1 Z2 : Finset ι) (K : ι → ι → ℚ) (a : ι) (L : ι → ℚ) (z : ι) : ℚ := (if z ∈ Z1 then K a z else 0) + ext Z1 Z2 K L z

theorem joint_sum (hd : Disjoint Z1 Z2) (L : ι → ℚ) (w : ι) :
    C a w - ∑ z ∈ Z1 ∪ Z2, joint Z1 Z2 K a L z * C z w = rest C Z1 K a w - ∑ u ∈ Z2, L u * rest C Z1 K u w := by
  simp only [joint, add_mul, Finset.sum_add_distrib]
  rw [ext_sum hd]
  have : ∑ z ∈ Z1 ∪ Z2, (if z ∈ Z1 then K a z else 0) * C z w = ∑ z ∈ Z1, K a z * C z w := by
    simp only [ite_mul, zero_mul]
    rw [Finset.sum_ite_mem, Finset.union_inter_cancel_left]
  rw [this]
  unfold rest
  ring

theorem reg_joint (hd : Disjoint Z1 Z2) (hK : ∀ u ∈ Z2, Reg C Z1 u (K u)) (ha : Reg C Z1 a (K a)) {L : ι → ℚ}
    (hL : Reg (rest C Z1 K) Z2 a L) : Reg C (Z1 ∪ Z2) a (joint Z1 Z2 K a L) := by
  intro w hw
  rw [joint_sum hd]
  rcases Finset.mem_union.1 hw with hw | hw
  · rw [rest_zero ha hw, Finset.sum_eq_zero]
    · ring
    · intro u hu
      rw [rest_zero (hK u hu) hw, mul_zero]
  · exact hL w hw

theorem nonSing_step (hd : Disjoint Z1 Z2) (hK : ∀ u ∈ Z2, Reg C Z1 u (K u)) (h1 : NonSing C Z1) :
    NonSing (rest C Z1 K) Z2 ↔ NonSing C (Z1 ∪ Z2) := by
  constructor
  · intro h v hv
    -- on `Z1` the combination is what `ext` says
    have hZ1 : ∀ z ∈ Z1, v z + ∑ u ∈ Z2, v u * K u z = 0 := by
      refine h1 (fun z => v z + ∑ u ∈ Z2, v u * K u z) ?_
      intro w hw
      have e := hv w (Finset.mem_union_left _ hw)
      rw [Finset.sum_union hd] at e
      simp only [add_mul, Finset.sum_add_distrib]
      have e2 : ∑ z ∈ Z1, (∑ u ∈ Z2, v u * K u z) * C z w = ∑ u ∈ Z2, v u * C u w := by
        simp only [Finset.sum_mul]
        rw [Finset.sum_comm]
        refine Finset.sum_congr rfl ?_
        intro u hu
        rw [← (hK u hu).eq hw, Finset.mul_sum]
        refine Finset.sum_congr rfl ?_
        intro z _; ring
      rw [e2]; exact e
    have hext : ∀ z ∈ Z1 ∪ Z2, ext Z1 Z2 K v z = v z := by
      intro z _
      unfold ext
      split
      · rename_i hz
        have := hZ1 z hz; linarith
      · rfl
    have hZ2 : ∀ u ∈ Z2, v u = 0 := by
      refine h v ?_
      intro w hw
      rw [← ext_sum hd, ← hv w (Finset.mem_union_right _ hw)]
      exact Finset.sum_congr rfl (fun z hz => by rw [hext z hz])
    intro z hz
    rcases Finset.mem_union.1 hz with hz | hz
    · have := hZ1 z hz
      rw [Finset.sum_eq_zero (fun u hu => by rw [hZ2 u hu, zero_mul])] at this
      linarith
    · exact hZ2 z hz
  · intro h v hv u hu
    have := h (ext Z1 Z2 K v) (by
      intro w hw
      rw [ext_sum hd]
      rcases Finset.mem_union.1 hw with hw | hw
      · exact Finset.sum_eq_zero (fun u hu => by rw [rest_zero (hK u hu) hw, mul_zero])
      · exact hv w hw) u (Finset.mem_union_right _ hu)
    unfold ext at this
    rw [if_neg (Finset.disjoint_right.1 hd hu)] at this
    exact this

omit [DecidableEq ι] in
theorem rest_eq_resCov {C : ι → ι → ℚ} {K : ι → ι → ℚ} (ha : Reg C Z a (K a)) (hb : Reg C Z b l) :
    rest C Z K a b = resCov C Z a b (K a) l := by
  unfold rest resCov
  have : ∑ z ∈ Z, ∑ w ∈ Z, K a z * l w * C z w = ∑ w ∈ Z, l w * C a w := by
    rw [Finset.sum_comm]
    refine Finset.sum_congr rfl ?_
    intro w hw
    rw [← ha.eq hw, Finset.mul_sum]
    refine Finset.sum_congr rfl ?_
    intro z _
    ring
  rw [this]; ring

omit [DecidableEq ι] in
theorem rest_symm {K : ι → ι → ℚ} (hs : ∀ z ∈ Z, ∀ w ∈ Z, C z w = C w z) (hab : C a b = C b a) (ha' : ∀ z ∈ Z, C a z = C z a)
    (hb' : ∀ z ∈ Z, C b z = C z b) (ha : Reg C Z a (K a)) (hb : Reg C Z b (K b)) : rest C Z K a b = rest C Z K b a := by
  unfold rest
  have e1 : ∑ z ∈ Z, K a z * C z b = ∑ z ∈ Z, ∑ w ∈ Z, K a z * K b w * C w z := by
    refine Finset.sum_congr rfl ?_
    intro z hz
    rw [← hb' z hz, ← hb.eq hz, Finset.mul_sum]
    exact Finset.sum_congr rfl (fun w _ => by ring)
  have e2 : ∑ z ∈ Z, K b z * C z a = ∑ z ∈ Z, ∑ w ∈ Z, K b z * K a w * C w z := by
    refine Finset.sum_congr rfl ?_
    intro z hz
    rw [← ha' z hz, ← ha.eq hz, Finset.mul_sum]
    exact Finset.sum_congr rfl (fun w _ => by ring)
  rw [e1, e2, hab]
  congr 1
  rw [Finset.sum_comm]
  refine Finset.sum_congr rfl ?_
  intro z hz
  refine Finset.sum_congr rfl ?_
  intro w hw
  rw [hs w hw z hz]; ring

omit [DecidableEq ι] in
/-- the residual covariance does not depend on the choice of coefficients -/
theorem resCov_congr (hn : NonSing C Z) {k k' l l' : ι → ℚ} (h1 : Reg C Z a k) (h2 : Reg C Z a k') (h3 : Reg C Z b l) (h4 : Reg C Z b l') :
    resCov C Z a b k l = resCov C Z a b k' l' := by
  have e1 := h1.unique hn h2
  have e2 := h3.unique hn h4
  unfold resCov
  have a1 : ∑ z ∈ Z, k z * C z b = ∑ z ∈ Z, k' z * C z b := Finset.sum_congr rfl (fun z hz => by rw [e1 z hz])
  have a2 : ∑ w ∈ Z, l w * C a w = ∑ w ∈ Z, l' w * C a w := Finset.sum_congr rfl (fun w hw => by rw [e2 w hw])
  have a3 : ∑ z ∈ Z, ∑ w ∈ Z, k z * l w * C z w = ∑ z ∈ Z, ∑ w ∈ Z, k' z * l' w * C z w :=
    Finset.sum_congr rfl (fun z hz => Finset.sum_congr rfl (fun w hw => by rw [e1 z hz, e2 w hw]))
  rw [a1, a2, a3]

omit [DecidableEq ι] in
theorem Reg.congr {C' : ι → ι → ℚ} (h : Reg C Z a k) (he : ∀ w ∈ Z, C a w = C' a w) (he2 : ∀ z ∈ Z, ∀ w ∈ Z, C z w = C' z w) : Reg C' Z a k := by
  intro w hw
  rw [← h w hw, he w hw]
  congr 1
  exact Finset.sum_congr rfl (fun z hz => by rw [he2 z hz w hw])

omit [DecidableEq ι] in
theorem nonSing_congr {C' : ι → ι → ℚ} (he : ∀ z ∈ Z, ∀ w ∈ Z, C z w = C' z w) : NonSing C Z ↔ NonSing C' Z := by
  unfold NonSing
  refine forall_congr' (fun v => ?_)
  refine imp_congr ?_ Iff.rfl
  refine forall₂_congr (fun w hw => ?_)
  rw [Finset.sum_congr rfl (fun z hz => by rw [he z hz w hw])]

omit [DecidableEq ι] in
theorem posDef_congr {C' : ι → ι → ℚ} (he : ∀ z ∈ Z, ∀ w ∈ Z, C z w = C' z w) (h : PosDef C Z) : PosDef C' Z := by
  intro v hv
  refine lt_of_lt_of_eq (h v hv) ?_
  exact Finset.sum_congr rfl (fun z hz => Finset.sum_congr rfl (fun w hw => by rw [he z hz w hw]))

/-! ## positive definite covariances -/

omit [DecidableEq ι] in
theorem PosDef.mono (h : PosDef C Z) (hs : Z1 ⊆ Z) : PosDef C Z1 := by
  classical
  rintro v ⟨z, hz, hv⟩
  have := h (fun z => if z ∈ Z1 then v z else 0) ⟨z, hs hz, by simp [hz, hv]⟩
  have e : ∑ z ∈ Z, ∑ w ∈ Z, (if z ∈ Z1 then v z else 0) * (if w ∈ Z1 then v w else 0) * C z w =
      ∑ z ∈ Z1, ∑ w ∈ Z1, v z * v w * C z w := by
    have i : Z ∩ Z1 = Z1 := Finset.inter_eq_right.2 hs
    simp only [ite_mul, zero_mul, mul_ite, mul_zero]
    have : ∀ z ∈ Z, (∑ w ∈ Z, if w ∈ Z1 then if z ∈ Z1 then v z * v w * C z w else 0 else 0) =
        if z ∈ Z1 then ∑ w ∈ Z1, v z * v w * C z w else 0 := by
      intro z _
      rw [Finset.sum_ite_mem, i]
      split <;> simp
    rw [Finset.sum_congr rfl this, Finset.sum_ite_mem, i]
  rw [e] at this
  exact this

omit [DecidableEq ι] in
theorem PosDef.nonSing (h : PosDef C Z) : NonSing C Z := by
  intro v hv z hz
  by_contra hne
  have := h v ⟨z, hz, hne⟩
  rw [Finset.sum_comm, Finset.sum_eq_zero] at this
  · exact lt_irrefl _ this
  · intro w hw
    have e := hv w hw
    have : ∑ z ∈ Z, v z * v w * C z w = v w * ∑ z ∈ Z, v z * C z w := by
      rw [Finset.mul_sum]
      exact Finset.sum_congr rfl (fun z _ => by ring)
    rw [this, e, mul_zero]

theorem PosDef.rest (h : PosDef C (Z1 ∪ Z2)) (hd : Disjoint Z1 Z2) (hK : ∀ u ∈ Z2, Reg C Z1 u (K u)) : PosDef (rest C Z1 K) Z2 := by
  rintro v ⟨u, hu, hv⟩
  have hx : ∀ z ∈ Z2, ext Z1 Z2 K v z = v z := by
    intro z hz
    unfold ext
    rw [if_neg (Finset.disjoint_right.1 hd hz)]
  have := h (ext Z1 Z2 K v) ⟨u, Finset.mem_union_right _ hu, by rw [hx u hu]; exact hv⟩
  rw [Finset.sum_comm] at this
  have e : ∀ w, ∑ z ∈ Z1 ∪ Z2, ext Z1 Z2 K v z * ext Z1 Z2 K v w * C z w = ext Z1 Z2 K v w * ∑ u ∈ Z2, v u * Normal.rest C Z1 K u w := by
    intro w
    rw [← ext_sum hd, Finset.mul_sum]
    exact Finset.sum_congr rfl (fun z _ => by ring)
  simp only [e] at this
  rw [Finset.sum_union hd, Finset.sum_eq_zero, zero_add] at this
  · rw [Finset.sum_comm]
    refine lt_of_lt_of_eq this (Finset.sum_congr rfl ?_)
    intro w hw
    rw [hx w hw, Finset.mul_sum]
    exact Finset.sum_congr rfl (fun z _ => by ring)
  · intro w hw
    rw [Finset.sum_eq_zero, mul_zero]
    intro u hu
    rw [rest_zero (hK u hu) hw, mul_zero]

/-! ## the exponent of the density -/

omit [DecidableEq ι] in
/-- the quadratic form is unique -/
theorem Mahal.unique (hn : NonSing C Z) {u : ι → ℚ} {q q' : ℚ} (h : Mahal C Z u q) (h' : Mahal C Z u q') : q = q' := by
  obtain ⟨w, h1, rfl⟩ := h
  obtain ⟨w', h1', rfl⟩ := h'
  have := hn (fun z => w z - w' z) (by
    intro y hy
    simp only [sub_mul, Finset.sum_sub_distrib]
    rw [h1 y hy, h1' y hy, sub_self])
  exact Finset.sum_congr rfl (fun z hz => by rw [show w z = w' z by have := this z hz; linarith])

/-- the quadratic form of the whole is that of the observed part plus that of the unexplained part of the rest -/
theorem mahal_split (hd : Disjoint Z1 Z2) (hK : ∀ u ∈ Z2, Reg C Z1 u (K u)) (hs : Symm C (Z1 ∪ Z2)) {u : ι → ℚ} {q : ℚ} (h : Mahal C (Z1 ∪ Z2) u q) :
    ∃ q1 q2, Mahal C Z1 u q1 ∧ Mahal (rest C Z1 K) Z2 (fun y => u y - ∑ z ∈ Z1, K y z * u z) q2 ∧ q = q1 + q2 := by
  obtain ⟨w, hw, rfl⟩ := h
  let t : ι → ℚ := fun z => w z + ∑ x ∈ Z2, w x * K x z
  have ht : ∀ p ∈ Z1, ∑ z ∈ Z1, t z * C z p = u p := by
    intro p hp
    have e := hw p (Finset.mem_union_left _ hp)
    rw [Finset.sum_union hd] at e
    simp only [t, add_mul, Finset.sum_add_distrib]
    have e2 : ∑ z ∈ Z1, (∑ x ∈ Z2, w x * K x z) * C z p = ∑ x ∈ Z2, w x * C x p := by
      simp only [Finset.sum_mul]
      rw [Finset.sum_comm]
      refine Finset.sum_congr rfl ?_
      intro x hx
      rw [← (hK x hx).eq hp, Finset.mul_sum]
      exact Finset.sum_congr rfl (fun z _ => by ring)
    rw [e2]; exact e
  have ht2 : ∀ y ∈ Z2, ∑ z ∈ Z1, t z * C z y = ∑ p ∈ Z1, K y p * u p := by
    intro y hy
    have e : ∀ z ∈ Z1, t z * C z y = ∑ p ∈ Z1, K y p * (t z * C z p) := by
      intro z hz
      rw [hs z (Finset.mem_union_left _ hz) y (Finset.mem_union_right _ hy), ← (hK y hy).eq hz, Finset.mul_sum]
      refine Finset.sum_congr rfl ?_
      intro p hp
      rw [hs p (Finset.mem_union_left _ hp) z (Finset.mem_union_left _ hz)]; ring
    rw [Finset.sum_congr rfl e, Finset.sum_comm]
    refine Finset.sum_congr rfl ?_
    intro p hp
    rw [← Finset.mul_sum, ht p hp]
  refine ⟨_, _, ⟨t, ht, rfl⟩, ⟨w, ?_, rfl⟩, ?_⟩
  · intro y hy
    have e := hw y (Finset.mem_union_right _ hy)
    rw [Finset.sum_union hd] at e
    have e2 : ∑ x ∈ Z2, w x * rest C Z1 K x y = ∑ x ∈ Z2, w x * C x y - ∑ z ∈ Z1, (∑ x ∈ Z2, w x * K x z) * C z y := by
      simp only [rest, mul_sub, Finset.sum_sub_distrib]
      congr 1
      simp only [Finset.sum_mul, Finset.mul_sum]
      rw [Finset.sum_comm]
      exact Finset.sum_congr rfl (fun z _ => Finset.sum_congr rfl (fun x _ => by ring))
    have e3 := ht2 y hy
    simp only [t, add_mul, Finset.sum_add_distrib] at e3
    rw [e2]
    linarith
  · rw [Finset.sum_union hd]
    simp only [t, add_mul, mul_sub, Finset.sum_add_distrib, Finset.sum_sub_distrib]
    have : ∑ z ∈ Z1, (∑ x ∈ Z2, w x * K x z) * u z = ∑ x ∈ Z2, w x * ∑ z ∈ Z1, K x z * u z := by
      simp only [Finset.sum_mul, Finset.mul_sum]
      rw [Finset.sum_comm]
      exact Finset.sum_congr rfl (fun z _ => Finset.sum_congr rfl (fun x _ => by ring))
    rw [this]; ring

end PyBBN.Normal
