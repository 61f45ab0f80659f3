import Verif.Model.Gaussian
import Verif.Proofs.Normal
import Verif.Proofs.Table
import Verif.Proofs.Csv

/-! What `do_inferences` computes, read by the names of the variables. -/

namespace PyBBN.Gauss
open Normal

/-- the header lists every variable once, and the means and covariances fit it -/
structure WF (g : Gauss) : Prop where
  nodup : g.H.Nodup
  means : g.M.length = g.H.length
  rows : g.E.r = g.H.length
  cols : g.E.c = g.H.length
  symm : ∀ i < g.H.length, ∀ j < g.H.length, g.E.get i j = g.E.get j i

/-- the stored covariance of two variables -/
def cov (g : Gauss) (a b : Str) : ℚ := g.E.get (g.H.idxOf a) (g.H.idxOf b)

/-- the stored mean of a variable -/
def mean (g : Gauss) (a : Str) : ℚ := g.M.getD (g.H.idxOf a) 0

variable {g : Gauss}

theorem cov_symm (h : g.WF) {a b : Str} (ha : a ∈ g.H) (hb : b ∈ g.H) : g.cov a b = g.cov b a :=
  h.symm _ (List.idxOf_lt_length_iff.2 ha) _ (List.idxOf_lt_length_iff.2 hb)

theorem I_eq (h : g.H.Nodup) : g.I = g.H.zipIdx := by
  unfold I
  have := foldl_set_append g.H.zipIdx ([] : Dict Str Nat) (by
    simp only [Dict.keys, List.map_nil, List.nil_append]
    rw [List.zipIdx_map_fst]; exact h)
  simpa using this

theorem index_of_mem (h : g.H.Nodup) {a : Str} (ha : a ∈ g.H) : g.index a = .ok (g.H.idxOf a) := by
  unfold index
  rw [I_eq h]
  have hk : Dict.keys (g.H.zipIdx : Dict Str Nat) = g.H := List.zipIdx_map_fst _ _
  rw [Dict.get?_of_mem (k := a) (v := g.H.idxOf a) (by rw [hk]; exact h)]
  rw [List.mem_zipIdx_iff_getElem?]
  simp [List.getElem?_idxOf ha]

theorem index_of_not_mem (h : g.H.Nodup) {a : Str} (ha : a ∉ g.H) : g.index a = .error .keyError := by
  unfold index
  rw [I_eq h]
  have hk : Dict.keys (g.H.zipIdx : Dict Str Nat) = g.H := List.zipIdx_map_fst _ _
  rw [(Dict.get?_eq_none_iff _ _).2 (by rw [hk]; exact ha)]

theorem pick_eq {α : Type} (l : List α) (idx : List Nat) (d : α) :
    pick l idx = ((List.range l.length).filter (fun i => decide (i ∈ idx))).map (fun i => l.getD i d) := by
  unfold pick
  have e : l.zipIdx = (List.range l.length).map (fun i => (l.getD i d, i)) := by
    refine List.ext_getElem (by simp) ?_
    intro i h1 h2
    simp at h1
    simp [h1]
  rw [e, List.filter_map, List.map_map]
  rfl

theorem range_filter_mem {n : Nat} {z : List Nat} :
    (List.range n).filter (fun i => decide (i ∈ (List.range n).filter (fun i => decide (i ∉ z)))) = (List.range n).filter (fun i => decide (i ∉ z)) := by
  refine List.filter_congr ?_
  intro i hi
  simp only [List.mem_filter, hi, true_and, decide_eq_true_eq]

theorem getD_idxOf {l : List Str} {a : Str} (ha : a ∈ l) : l.getD (l.idxOf a) [] = a := by
  rw [List.getD_eq_getElem?_getD, List.getElem?_idxOf ha]; rfl

theorem idxOf_getD {l : List Str} (hn : l.Nodup) {i : Nat} (hi : i < l.length) : l.idxOf (l.getD i []) = i := by
  have : l.getD i [] = l[i] := by rw [List.getD_eq_getElem?_getD, List.getElem?_eq_getElem hi]; rfl
  rw [this]
  exact List.Nodup.idxOf_getElem hn i hi

/-- the places of the observed variables -/
def zIdx (g : Gauss) (obs : List (Str × ℚ)) : List Nat := (obs.map Prod.fst).map g.H.idxOf

/-- the places of the others -/
def yIdx (g : Gauss) (obs : List (Str × ℚ)) : List Nat := (List.range g.H.length).filter (fun i => decide (i ∉ g.zIdx obs))

/-- the names that are left -/
def left (g : Gauss) (obs : List (Str × ℚ)) : List Str := g.H.filter (fun a => decide (a ∉ obs.map Prod.fst))

variable {obs : List (Str × ℚ)}

theorem yIdx_map (h : g.H.Nodup) (hin : ∀ o ∈ obs, o.1 ∈ g.H) : (g.yIdx obs).map (fun i => g.H.getD i []) = g.left obs := by
  unfold left yIdx
  conv_rhs => rw [show g.H = (List.range g.H.length).map (fun i => g.H.getD i []) from by
    refine List.ext_getElem (by simp) ?_
    intro i h1 h2
    simp [h1]]
  rw [List.filter_map]
  congr 1
  refine List.filter_congr ?_
  intro i hi
  simp only [Function.comp, decide_eq_decide]
  apply not_congr
  constructor
  · intro hz
    obtain ⟨a, ha, e⟩ := List.mem_map.1 hz
    obtain ⟨o, ho, rfl⟩ := List.mem_map.1 ha
    rw [← e, getD_idxOf (hin o ho)]
    exact ha
  · intro hz
    exact List.mem_map.2 ⟨_, hz, idxOf_getD h (List.mem_range.1 hi)⟩

theorem pick_left (h : g.H.Nodup) (hin : ∀ o ∈ obs, o.1 ∈ g.H) : pick g.H (g.yIdx obs) = g.left obs := by
  rw [pick_eq _ _ [], ← yIdx_map h hin]
  congr 1
  exact range_filter_mem

theorem length_left (h : g.H.Nodup) (hin : ∀ o ∈ obs, o.1 ∈ g.H) : (g.left obs).length = (g.yIdx obs).length := by
  rw [← yIdx_map h hin, List.length_map]

/-- the place of a variable that is left -/
theorem idxOf_left (h : g.H.Nodup) (hin : ∀ o ∈ obs, o.1 ∈ g.H) {a : Str} (ha : a ∈ g.left obs) :
    (g.yIdx obs).getD ((g.left obs).idxOf a) 0 = g.H.idxOf a := by
  have hlt : (g.left obs).idxOf a < (g.yIdx obs).length := by
    rw [← length_left h hin]; exact List.idxOf_lt_length_iff.2 ha
  have e : (g.left obs).getD ((g.left obs).idxOf a) [] = a := getD_idxOf ha
  have e2 : (g.left obs).getD ((g.left obs).idxOf a) [] = g.H.getD ((g.yIdx obs).getD ((g.left obs).idxOf a) 0) [] := by
    revert hlt
    generalize (g.left obs).idxOf a = i
    intro hlt
    rw [← yIdx_map h hin, List.getD_eq_getElem?_getD, List.getElem?_map, List.getD_eq_getElem?_getD (l := g.yIdx obs)]
    rw [List.getElem?_eq_getElem hlt]; rfl
  rw [e] at e2
  have hy : (g.yIdx obs).getD ((g.left obs).idxOf a) 0 < g.H.length := by
    rw [List.getD_eq_getElem?_getD, List.getElem?_eq_getElem hlt]
    have := List.getElem_mem hlt
    exact List.mem_range.1 (List.mem_of_mem_filter this)
  rw [e2, idxOf_getD h hy]
  rw [← e2]

/-- the means of the observed variables, in the order of the header -/
def headMeans (g : Gauss) (obs : List (Str × ℚ)) : List ℚ := pick g.M (g.zIdx obs)

theorem nodup_zIdx (hin : ∀ o ∈ obs, o.1 ∈ g.H) (hn : (obs.map Prod.fst).Nodup) : (g.zIdx obs).Nodup := by
  unfold zIdx
  refine List.Nodup.map_on ?_ hn
  intro a ha b hb e
  obtain ⟨o, ho, rfl⟩ := List.mem_map.1 ha
  obtain ⟨o', ho', rfl⟩ := List.mem_map.1 hb
  rw [← getD_idxOf (hin o ho), e, getD_idxOf (hin o' ho')]

theorem mem_zIdx_lt (hin : ∀ o ∈ obs, o.1 ∈ g.H) {i : Nat} (hi : i ∈ g.zIdx obs) : i < g.H.length := by
  obtain ⟨a, ha, rfl⟩ := List.mem_map.1 hi
  obtain ⟨o, ho, rfl⟩ := List.mem_map.1 ha
  exact List.idxOf_lt_length_iff.2 (hin o ho)

theorem length_headMeans (h : g.WF) (hin : ∀ o ∈ obs, o.1 ∈ g.H) (hn : (obs.map Prod.fst).Nodup) : (g.headMeans obs).length = obs.length := by
  unfold headMeans
  rw [pick_eq _ _ 0, List.length_map, h.means]
  have : ((List.range g.H.length).filter (fun i => decide (i ∈ g.zIdx obs))).Perm (g.zIdx obs) := by
    refine (List.perm_ext_iff_of_nodup (List.nodup_range.filter _) (nodup_zIdx hin hn)).2 ?_
    intro i
    simp only [List.mem_filter, List.mem_range, decide_eq_true_eq]
    exact ⟨fun h => h.2, fun hi => ⟨mem_zIdx_lt hin hi, hi⟩⟩
  rw [this.length_eq]
  simp [zIdx]

/-- a block -/
theorem take_ok (h : g.WF) {js : List Nat} (hj : ∀ j ∈ js, j < g.H.length) {is : List Nat} (hi : ∀ j ∈ is, j < g.H.length) :
    g.E.take is js = .ok ⟨is.length, js.length, fun i j => g.E.get (is.getD i 0) (js.getD j 0)⟩ := by
  unfold Arr2.take
  rw [if_pos]
  rw [Bool.and_eq_true, List.all_eq_true, List.all_eq_true, h.rows, h.cols]
  exact ⟨fun x hx => decide_eq_true (hi x hx), fun x hx => decide_eq_true (hj x hx)⟩

theorem inv_spec {zs : List Str} {C : Str → Str → ℚ} {a : Arr2} (hr : a.r = zs.length) (hc : a.c = zs.length)
    (hget : ∀ i j : Fin zs.length, a.get i j = C zs[i] zs[j]) :
    ((covMat C zs).det = 0 → a.inv = .error .exception) ∧
    ((covMat C zs).det ≠ 0 → ∃ f : Nat → Nat → ℚ, a.inv = .ok ⟨zs.length, zs.length, f⟩ ∧
      (Matrix.of (fun i j : Fin zs.length => f i j)) * covMat C zs = 1) := by
  obtain ⟨r, c, get⟩ := a
  simp only at hr hc hget
  subst hr hc
  have hm : (Arr2.mk zs.length zs.length get).mat = covMat C zs := by
    funext i j
    exact hget i j
  constructor
  · intro hd
    unfold Arr2.inv
    rw [if_neg (by simp), if_pos (by rw [hm]; exact hd)]
  · intro hd
    refine ⟨fun i j => if h : i < zs.length ∧ j < zs.length then (covMat C zs).det⁻¹ * (covMat C zs).adjugate ⟨i, h.1⟩ ⟨j, h.2⟩ else 0, ?_, ?_⟩
    · unfold Arr2.inv
      rw [if_neg (by simp), if_neg (by rw [hm]; exact hd)]
      rw [hm]
    · have : (Matrix.of (fun i j : Fin zs.length => (if h : (i : Nat) < zs.length ∧ (j : Nat) < zs.length then
          (covMat C zs).det⁻¹ * (covMat C zs).adjugate ⟨i, h.1⟩ ⟨j, h.2⟩ else 0))) = (covMat C zs).det⁻¹ • (covMat C zs).adjugate := by
        funext i j
        simp
      rw [this, Matrix.smul_mul, Matrix.adjugate_mul, smul_smul, inv_mul_cancel₀ hd, one_smul]

theorem sum_range_fin {n : Nat} (f : Nat → ℚ) : ((List.range n).map f).sum = ∑ i : Fin n, f i := by
  rw [← Finset.sum_range]; rfl

/-- a list of observations with a nonsingular block has no repetition -/
theorem nodup_of_det {C : Str → Str → ℚ} {zs : List Str} (hd : (covMat C zs).det ≠ 0) : zs.Nodup := by
  rw [List.nodup_iff_injective_getElem]
  intro i j e
  by_contra hne
  refine hd (Matrix.det_zero_of_row_eq hne ?_)
  funext k
  have e' : zs[i] = zs[j] := e
  simp only [covMat, e']

theorem doInferences_unknown (h : g.WF) (hin : ∃ o ∈ obs, o.1 ∉ g.H) : g.doInferences obs = .error .keyError := by
  unfold doInferences
  rw [mapM_error (fun o : Str × ℚ => g.index o.1) .keyError obs (by
    intro o _
    by_cases ho : o.1 ∈ g.H
    · exact Or.inr ⟨_, index_of_mem h.nodup ho⟩
    · exact Or.inl (index_of_not_mem h.nodup ho)) (by
    obtain ⟨o, ho, hn⟩ := hin
    exact ⟨o, ho, index_of_not_mem h.nodup hn⟩)]
  rfl

theorem getElem_zIdx (i : Fin (obs.map Prod.fst).length) : (g.zIdx obs).getD i 0 = g.H.idxOf (obs.map Prod.fst)[i] := by
  unfold zIdx
  rw [List.getD_eq_getElem?_getD, List.getElem?_map, List.getElem?_eq_getElem i.2]
  rfl

theorem szz_get (i j : Fin (obs.map Prod.fst).length) : g.E.get ((g.zIdx obs).getD i 0) ((g.zIdx obs).getD j 0) =
    g.cov (obs.map Prod.fst)[i] (obs.map Prod.fst)[j] := by
  rw [getElem_zIdx, getElem_zIdx]; rfl

theorem length_zIdx : (g.zIdx obs).length = (obs.map Prod.fst).length := by simp [zIdx]

theorem doInferences_singular (h : g.WF) (hin : ∀ o ∈ obs, o.1 ∈ g.H) (hd : (covMat g.cov (obs.map Prod.fst)).det = 0) :
    g.doInferences obs = .error .exception := by
  unfold doInferences
  rw [mapM_ok (fun o : Str × ℚ => g.index o.1) (fun o => g.H.idxOf o.1) obs (fun o ho => index_of_mem h.nodup (hin o ho))]
  have hz : obs.map (fun o => g.H.idxOf o.1) = g.zIdx obs := by unfold zIdx; rw [List.map_map]; rfl
  rw [hz, h.cols]
  simp only [bind, Except.bind]
  rw [take_ok h (fun j hj => mem_zIdx_lt hin hj) (fun j hj => List.mem_range.1 (List.mem_of_mem_filter hj)),
    take_ok h (fun j hj => mem_zIdx_lt hin hj) (fun j hj => mem_zIdx_lt hin hj)]
  simp only
  rw [(inv_spec (zs := obs.map Prod.fst) (C := g.cov) length_zIdx length_zIdx szz_get).1 hd]

theorem dot_ok {a b : Arr2} (h : a.c = b.r) :
    a.dot b = .ok ⟨a.r, b.c, fun i j => ((List.range a.c).map (fun k => a.get i k * b.get k j)).sum⟩ := if_pos h

theorem dotVec_ok {a : Arr2} {v : List ℚ} (h : a.c = v.length) :
    a.dotVec v = .ok ((List.range a.r).map (fun i => ((List.range a.c).map (fun k => a.get i k * v.getD k 0)).sum)) := if_pos h

theorem sub_ok {a b : Arr2} (h1 : a.r = b.r) (h2 : a.c = b.c) : a.sub b = .ok ⟨a.r, a.c, fun i j => a.get i j - b.get i j⟩ := if_pos ⟨h1, h2⟩

theorem vecSub_ok {u v : List ℚ} (h : u.length = v.length) : vecSub u v = .ok (List.zipWith (· - ·) u v) := if_pos h

theorem doInferences_ok (h : g.WF) (hin : ∀ o ∈ obs, o.1 ∈ g.H) (hd : (covMat g.cov (obs.map Prod.fst)).det ≠ 0) :
    ∃ (g' : Gauss) (B : Matrix (Fin (obs.map Prod.fst).length) (Fin (obs.map Prod.fst).length) ℚ), g.doInferences obs = .ok g' ∧
      B * covMat g.cov (obs.map Prod.fst) = 1 ∧
      g'.H = g.left obs ∧ g'.observed = obs.foldl (fun d o => Dict.set d o.1 o.2) g.observed ∧
      g'.E.r = g'.H.length ∧ g'.E.c = g'.H.length ∧ g'.M.length = g'.H.length ∧
      (∀ a ∈ g.left obs, ∀ b ∈ g.left obs, g'.cov a b = g.cov a b -
        ∑ j, coef g.cov (obs.map Prod.fst) B a j * g.cov b (obs.map Prod.fst)[j]) ∧
      (∀ a ∈ g.left obs, g'.mean a = g.mean a -
        ∑ j, coef g.cov (obs.map Prod.fst) B a j * ((obs.map Prod.snd).getD j 0 - (g.headMeans obs).getD j 0)) := by
  have hn := nodup_of_det hd
  obtain ⟨f, hf, hB⟩ := (inv_spec (zs := obs.map Prod.fst) (C := g.cov) (a := ⟨(g.zIdx obs).length, (g.zIdx obs).length,
    fun i j => g.E.get ((g.zIdx obs).getD i 0) ((g.zIdx obs).getD j 0)⟩) length_zIdx length_zIdx szz_get).2 hd
  have hy : ∀ j ∈ g.yIdx obs, j < g.H.length := fun j hj => List.mem_range.1 (List.mem_of_mem_filter hj)
  have hmY : pick g.M (g.yIdx obs) = (g.yIdx obs).map (fun i => g.M.getD i 0) := by
    rw [pick_eq _ _ 0, h.means]
    congr 1
    exact range_filter_mem
  have hrun : g.doInferences obs = .ok ⟨g.left obs,
      List.zipWith (· - ·) ((g.yIdx obs).map (fun i => g.M.getD i 0)) ((List.range (g.yIdx obs).length).map (fun i =>
        ((List.range (obs.map Prod.fst).length).map (fun k => ((List.range (g.zIdx obs).length).map (fun l =>
          g.E.get ((g.yIdx obs).getD i 0) ((g.zIdx obs).getD l 0) * f l k)).sum *
          (List.zipWith (· - ·) (obs.map Prod.snd) (g.headMeans obs)).getD k 0)).sum)),
      ⟨(g.yIdx obs).length, (g.yIdx obs).length, fun i j => g.E.get ((g.yIdx obs).getD i 0) ((g.yIdx obs).getD j 0) -
        ((List.range (obs.map Prod.fst).length).map (fun k => ((List.range (g.zIdx obs).length).map (fun l =>
          g.E.get ((g.yIdx obs).getD i 0) ((g.zIdx obs).getD l 0) * f l k)).sum *
          g.E.get ((g.yIdx obs).getD j 0) ((g.zIdx obs).getD k 0))).sum⟩,
      obs.foldl (fun d o => Dict.set d o.1 o.2) g.observed⟩ := by
    unfold doInferences
    rw [mapM_ok (fun o : Str × ℚ => g.index o.1) (fun o => g.H.idxOf o.1) obs (fun o ho => index_of_mem h.nodup (hin o ho))]
    have hz : obs.map (fun o => g.H.idxOf o.1) = g.zIdx obs := by unfold zIdx; rw [List.map_map]; rfl
    rw [hz, h.cols]
    simp only [bind, Except.bind]
    have hyf : (List.range g.H.length).filter (fun i => decide (i ∉ g.zIdx obs)) = g.yIdx obs := rfl
    simp only [hyf]
    have t1 := take_ok h (js := g.zIdx obs) (is := g.yIdx obs) (fun j hj => mem_zIdx_lt hin hj) hy
    have t2 := take_ok h (js := g.zIdx obs) (is := g.zIdx obs) (fun j hj => mem_zIdx_lt hin hj) (fun j hj => mem_zIdx_lt hin hj)
    have t3 := take_ok h (js := g.yIdx obs) (is := g.yIdx obs) hy hy
    rw [t1]
    simp only
    rw [t2]
    simp only
    rw [hf]
    simp only
    rw [t3]
    simp only
    have hd2 : vecSub (obs.map Prod.snd) (pick g.M (g.zIdx obs)) = .ok (List.zipWith (· - ·) (obs.map Prod.snd) (g.headMeans obs)) := by
      unfold vecSub
      rw [if_pos (by rw [List.length_map]; exact (length_headMeans h hin hn).symm)]
      rfl
    have hlen : (List.zipWith (· - ·) (obs.map Prod.snd) (g.headMeans obs)).length = (obs.map Prod.fst).length := by
      rw [List.length_zipWith, length_headMeans h hin hn]
      simp
    rw [dot_ok (by exact length_zIdx)]
    simp only
    rw [hd2]
    simp only
    rw [dotVec_ok hlen.symm]
    simp only
    rw [hmY, vecSub_ok (by simp)]
    simp only
    rw [dot_ok (by exact length_zIdx.symm)]
    simp only
    rw [sub_ok (by rfl) (by rfl), pick_left h.nodup hin]
    rfl
  refine ⟨_, _, hrun, hB, rfl, rfl, ?_, ?_, ?_, ?_, ?_⟩
  · exact (length_left h.nodup hin).symm
  · exact (length_left h.nodup hin).symm
  · simp only [List.length_zipWith, List.length_map, List.length_range, min_self]
    exact (length_left h.nodup hin).symm
  · intro a ha b hb
    unfold cov
    simp only
    rw [idxOf_left h.nodup hin ha, idxOf_left h.nodup hin hb, sum_range_fin]
    congr 1
    refine Finset.sum_congr rfl ?_
    intro j _
    rw [getElem_zIdx, length_zIdx, sum_range_fin]
    congr 1
    unfold coef
    refine Finset.sum_congr rfl ?_
    intro l _
    rw [getElem_zIdx]
    rfl
  · intro a ha
    unfold mean
    simp only
    have hlt : (g.left obs).idxOf a < (g.yIdx obs).length := by
      rw [← length_left h.nodup hin]; exact List.idxOf_lt_length_iff.2 ha
    rw [List.getD_eq_getElem?_getD, List.getElem?_eq_getElem (by simpa using hlt), List.getElem_zipWith, Option.getD_some,
      List.getElem_map, List.getElem_map, List.getElem_range]
    have hi : (g.yIdx obs)[(g.left obs).idxOf a] = g.H.idxOf a := by
      have := idxOf_left h.nodup hin ha
      rw [List.getD_eq_getElem?_getD, List.getElem?_eq_getElem hlt] at this
      exact this
    rw [hi, idxOf_left h.nodup hin ha, sum_range_fin]
    congr 1
    refine Finset.sum_congr rfl ?_
    intro j _
    rw [length_zIdx, sum_range_fin]
    congr 1
    · unfold coef
      refine Finset.sum_congr rfl ?_
      intro l _
      rw [getElem_zIdx]
      rfl
    · have h1 : (j : Nat) < (obs.map Prod.snd).length := by have := j.2; simp only [List.length_map] at this ⊢; exact this
      have h2 : (j : Nat) < (g.headMeans obs).length := by rw [length_headMeans h hin hn]; simpa using h1
      rw [List.getD_eq_getElem?_getD, List.getElem?_eq_getElem (by rw [List.length_zipWith]; exact lt_min h1 h2), List.getElem_zipWith,
        List.getD_eq_getElem?_getD, List.getElem?_eq_getElem h1, List.getD_eq_getElem?_getD, List.getElem?_eq_getElem h2]
      rfl

/-- the observed variables -/
def names (obs : List (Str × ℚ)) : Finset Str := (obs.map Prod.fst).toFinset

/-- the outcome of `do_inferences`, by names -/
structure Step (g : Gauss) (obs : List (Str × ℚ)) (g' : Gauss) (K : Str → Str → ℚ) : Prop where
  run : g.doInferences obs = .ok g'
  nodup : (obs.map Prod.fst).Nodup
  known : ∀ o ∈ obs, o.1 ∈ g.H
  nonSing : NonSing g.cov (names obs)
  wf : g'.WF
  head : g'.H = g.left obs
  observed : g'.observed = obs.foldl (fun d o => Dict.set d o.1 o.2) g.observed
  reg : ∀ x, Reg g.cov (names obs) x (K x)
  cov : ∀ a ∈ g.left obs, ∀ b ∈ g.left obs, g'.cov a b = rest g.cov (names obs) K a b
  mean : ∀ a ∈ g.left obs, g'.mean a = g.mean a -
    ∑ j : Fin (obs.map Prod.fst).length, K a (obs.map Prod.fst)[j] * ((obs.map Prod.snd).getD j 0 - (g.headMeans obs).getD j 0)

theorem mem_names {a : Str} : a ∈ names obs ↔ ∃ o ∈ obs, o.1 = a := by
  simp [names]

theorem mem_left {a : Str} : a ∈ g.left obs ↔ a ∈ g.H ∧ a ∉ names obs := by
  unfold left
  rw [List.mem_filter, decide_eq_true_eq, mem_names]
  simp

theorem step_ok (h : g.WF) (hin : ∀ o ∈ obs, o.1 ∈ g.H) (hn : (obs.map Prod.fst).Nodup) (hns : NonSing g.cov (names obs)) :
    ∃ g' K, Step g obs g' K := by
  have hd := (det_iff hn).2 hns
  obtain ⟨g', B, h1, h2, h3, h4, h5, h6, h7, h8, h9⟩ := doInferences_ok h hin hd
  have hreg := reg_coef hn h2
  have hmem : ∀ z ∈ names obs, z ∈ g.H := by
    intro z hz
    obtain ⟨o, ho, rfl⟩ := mem_names.1 hz
    exact hin o ho
  have hcov : ∀ a ∈ g.left obs, ∀ b ∈ g.left obs, g'.cov a b =
      rest g.cov (names obs) (fun x => ofPlaces (obs.map Prod.fst) (coef g.cov (obs.map Prod.fst) B x)) a b := by
    intro a ha b hb
    rw [h8 a ha b hb]
    unfold rest names
    rw [sum_list hn]
    congr 1
    refine Finset.sum_congr rfl ?_
    intro j _
    beta_reduce
    rw [ofPlaces_get hn, cov_symm h (mem_left.1 hb).1 (hmem (obs.map Prod.fst)[j] (List.mem_toFinset.2 (List.getElem_mem _)))]
  refine ⟨g', fun x => ofPlaces (obs.map Prod.fst) (coef g.cov (obs.map Prod.fst) B x), h1, hn, hin, hns, ?_, h3, h4, hreg, hcov, ?_⟩
  · have hnd : g'.H.Nodup := by rw [h3]; exact h.nodup.filter _
    refine ⟨hnd, h7, h5, h6, ?_⟩
    intro i hi j hj
    have key : ∀ i j, i < g'.H.length → j < g'.H.length → g'.E.get i j = g'.cov (g'.H.getD i []) (g'.H.getD j []) := by
      intro i j hi hj
      unfold Gauss.cov
      rw [idxOf_getD hnd hi, idxOf_getD hnd hj]
    have hm : ∀ i, i < g'.H.length → g'.H.getD i [] ∈ g.left obs := by
      intro i hi
      rw [← h3, List.getD_eq_getElem?_getD, List.getElem?_eq_getElem hi]
      exact List.getElem_mem hi
    rw [key i j hi hj, key j i hj hi, hcov _ (hm i hi) _ (hm j hj), hcov _ (hm j hj) _ (hm i hi)]
    exact rest_symm (fun z hz w hw => cov_symm h (hmem z hz) (hmem w hw)) (cov_symm h (mem_left.1 (hm i hi)).1 (mem_left.1 (hm j hj)).1)
      (fun z hz => cov_symm h (mem_left.1 (hm i hi)).1 (hmem z hz)) (fun z hz => cov_symm h (mem_left.1 (hm j hj)).1 (hmem z hz)) (hreg _) (hreg _)
  · intro a ha
    rw [h9 a ha]
    congr 1
    refine Finset.sum_congr rfl ?_
    intro j _
    beta_reduce
    rw [ofPlaces_get hn]

theorem step_error (h : g.WF) (hin : ∀ o ∈ obs, o.1 ∈ g.H) (hne : ¬ ((obs.map Prod.fst).Nodup ∧ NonSing g.cov (names obs))) :
    g.doInferences obs = .error .exception := by
  refine doInferences_singular h hin ?_
  by_contra hd
  exact hne ⟨nodup_of_det hd, (det_iff (nodup_of_det hd)).1 hd⟩

/-- a successful call -/
theorem step_of_ok (h : g.WF) {g' : Gauss} (hok : g.doInferences obs = .ok g') : ∃ K, Step g obs g' K := by
  by_cases hin : ∀ o ∈ obs, o.1 ∈ g.H
  · by_cases hne : (obs.map Prod.fst).Nodup ∧ NonSing g.cov (names obs)
    · obtain ⟨g'', K, hs⟩ := step_ok h hin hne.1 hne.2
      rw [hs.run] at hok
      obtain ⟨⟩ := hok
      exact ⟨K, hs⟩
    · rw [step_error h hin hne] at hok; cases hok
  · push Not at hin
    rw [doInferences_unknown h hin] at hok; cases hok

theorem headMeans_eq (h : g.WF) (hin : ∀ o ∈ obs, o.1 ∈ g.H) :
    g.headMeans obs = (g.H.filter (fun a => decide (a ∈ obs.map Prod.fst))).map g.mean := by
  unfold headMeans
  rw [pick_eq _ _ 0, h.means]
  have e : g.H.filter (fun a => decide (a ∈ obs.map Prod.fst)) =
      ((List.range g.H.length).filter (fun i => decide (i ∈ g.zIdx obs))).map (fun i => g.H.getD i []) := by
    conv_lhs => rw [show g.H = (List.range g.H.length).map (fun i => g.H.getD i []) from by
      refine List.ext_getElem (by simp) ?_
      intro i h1 h2
      simp [h1]]
    rw [List.filter_map]
    congr 1
    refine List.filter_congr ?_
    intro i hi
    simp only [Function.comp, decide_eq_decide]
    constructor
    · intro hz
      exact List.mem_map.2 ⟨_, hz, idxOf_getD h.nodup (List.mem_range.1 hi)⟩
    · intro hz
      obtain ⟨a, ha, e⟩ := List.mem_map.1 hz
      obtain ⟨o, ho, rfl⟩ := List.mem_map.1 ha
      rw [← e, getD_idxOf (hin o ho)]
      exact ha
  rw [e, List.map_map]
  refine List.map_congr_left ?_
  intro i hi
  unfold mean
  rw [Function.comp, idxOf_getD h.nodup (List.mem_range.1 (List.mem_of_mem_filter hi))]

theorem filter_sublist {l m : List Str} (h : l.Sublist m) (hn : m.Nodup) : m.filter (fun a => decide (a ∈ l)) = l := by
  induction h with
  | slnil => rfl
  | @cons l m a h ih =>
    rw [List.nodup_cons] at hn
    rw [List.filter_cons_of_neg, ih hn.2]
    simpa using fun hl => hn.1 (h.subset hl)
  | @cons_cons l m a h ih =>
    rw [List.nodup_cons] at hn
    rw [List.filter_cons_of_pos (by simp)]
    congr 1
    conv_rhs => rw [← ih hn.2]
    refine List.filter_congr ?_
    intro x hx
    rw [decide_eq_decide, List.mem_cons]
    constructor
    · rintro (rfl | h)
      · exact absurd hx hn.1
      · exact h
    · exact Or.inr

/-! ## the reported parameters -/

/-- a vector with its observations -/
structure Good (g : Gauss) : Prop where
  wf : g.WF
  keys : (Dict.keys g.observed).Nodup
  apart : ∀ k ∈ Dict.keys g.observed, k ∉ g.H

theorem mem_keys_foldl_set : ∀ (l : List (Str × ℚ)) (d : Dict Str ℚ) (k : Str), k ∈ Dict.keys (l.foldl (fun d o => Dict.set d o.1 o.2) d) ↔
    k ∈ Dict.keys d ∨ ∃ o ∈ l, o.1 = k
  | [], d, k => by simp
  | o :: l, d, k => by
      rw [List.foldl_cons, mem_keys_foldl_set l, Dict.mem_keys_set]
      simp only [List.mem_cons, exists_eq_or_imp]
      grind

theorem nodup_foldl_set : ∀ (l : List (Str × ℚ)) (d : Dict Str ℚ), (Dict.keys d).Nodup → (Dict.keys (l.foldl (fun d o => Dict.set d o.1 o.2) d)).Nodup
  | [], d, h => h
  | o :: l, d, h => nodup_foldl_set l _ (Dict.nodup_keys_set h _ _)

theorem Step.good {g' : Gauss} {K : Str → Str → ℚ} (h : Good g) (hs : Step g obs g' K) : Good g' := by
  refine ⟨hs.wf, ?_, ?_⟩
  · rw [hs.observed]; exact nodup_foldl_set _ _ h.keys
  · intro k hk
    rw [hs.observed, mem_keys_foldl_set] at hk
    rw [hs.head, mem_left, mem_names]
    rintro ⟨h1, h2⟩
    rcases hk with hk | hk
    · exact h.apart k hk h1
    · exact h2 hk

theorem P_eq (h : Good g) : g.P = .ok (g.observed.map (fun kv => (kv.1, (kv.2, 0))) ++ g.H.map (fun a => (a, (-g.mean a, g.cov a a)))) := by
  unfold P
  have key : ∀ (l : List ((Str × ℚ) × Nat)) (d : Dict Str (ℚ × ℚ)), (∀ p ∈ l, p.2 < g.H.length) → (l.map (fun p => p.1.1)).Nodup →
      (∀ p ∈ l, p.1.1 ∉ Dict.keys d) → l.foldlM (addParam g) d = .ok (d ++ l.map (fun p => (p.1.1, (-p.1.2, g.E.get p.2 p.2)))) := by
    intro l
    induction l with
    | nil => intro d _ _ _; simp [pure, Except.pure]
    | cons p l ih =>
      intro d h1 h2 h3
      rw [List.map_cons, List.nodup_cons] at h2
      have hv : g.variance p.2 = .ok (g.E.get p.2 p.2) := by
        unfold variance
        rw [if_pos]
        rw [h.wf.rows, h.wf.cols]
        exact ⟨h1 p List.mem_cons_self, h1 p List.mem_cons_self⟩
      have hp : addParam g d p = .ok (d ++ [(p.1.1, (-p.1.2, g.E.get p.2 p.2))]) := by
        unfold addParam
        rw [hv]
        simp only [bind, Except.bind]
        rw [Dict.set_of_not_mem (h3 p List.mem_cons_self)]
      rw [List.foldlM_cons, hp]
      simp only [bind, Except.bind]
      rw [ih _ (fun q hq => h1 q (List.mem_cons_of_mem _ hq)) h2.2 (by
        intro q hq
        simp only [Dict.keys, List.map_append, List.map_cons, List.map_nil, List.mem_append, List.mem_singleton, not_or]
        refine ⟨h3 q (List.mem_cons_of_mem _ hq), ?_⟩
        intro e
        exact h2.1 (e ▸ List.mem_map_of_mem (f := fun p : (Str × ℚ) × Nat => p.1.1) hq))]
      simp
  have e : (g.H.zip g.M).zipIdx = g.H.map (fun a => ((a, g.mean a), g.H.idxOf a)) := by
    refine List.ext_getElem (by simp [h.wf.means]) ?_
    intro i h1 h2
    simp at h1 h2
    have hM : i < g.M.length := by rw [h.wf.means]; exact h2
    have hi := List.Nodup.idxOf_getElem h.wf.nodup i h2
    simp [mean, hi, hM]
  rw [e, key]
  · rw [List.map_map]; rfl
  · intro p hp
    obtain ⟨a, ha, rfl⟩ := List.mem_map.1 hp
    exact List.idxOf_lt_length_iff.2 ha
  · rw [List.map_map]
    have : ((fun p : (Str × ℚ) × Nat => p.1.1) ∘ fun a => ((a, g.mean a), g.H.idxOf a)) = id := rfl
    rw [this, List.map_id]
    exact h.wf.nodup
  · intro p hp
    obtain ⟨a, ha, rfl⟩ := List.mem_map.1 hp
    intro hk
    refine h.apart a ?_ ha
    simpa [Dict.keys, List.map_map] using hk

theorem keys_P (g : Gauss) : Dict.keys (g.observed.map (fun kv => (kv.1, (kv.2, (0 : ℚ)))) ++ g.H.map (fun a => (a, (-g.mean a, g.cov a a)))) =
    Dict.keys g.observed ++ g.H := by
  unfold Dict.keys
  rw [List.map_append, List.map_map, List.map_map]
  congr 1
  exact List.map_id _

theorem nodup_P (h : Good g) : (Dict.keys g.observed ++ g.H).Nodup := by
  rw [List.nodup_append']
  exact ⟨h.keys, h.wf.nodup, fun a ha hb => h.apart a ha hb⟩

theorem get?_P (h : Good g) {a : Str} (ha : a ∈ g.H) :
    Dict.get? (g.observed.map (fun kv => (kv.1, (kv.2, (0 : ℚ)))) ++ g.H.map (fun a => (a, (-g.mean a, g.cov a a)))) a = some (-g.mean a, g.cov a a) := by
  refine Dict.get?_of_mem (by rw [keys_P]; exact nodup_P h) ?_
  exact List.mem_append_right _ (List.mem_map.2 ⟨a, ha, rfl⟩)

theorem get?_P_observed (h : Good g) {a : Str} {o : ℚ} (ha : Dict.get? g.observed a = some o) :
    Dict.get? (g.observed.map (fun kv => (kv.1, (kv.2, (0 : ℚ)))) ++ g.H.map (fun a => (a, (-g.mean a, g.cov a a)))) a = some (o, 0) := by
  refine Dict.get?_of_mem (by rw [keys_P]; exact nodup_P h) ?_
  exact List.mem_append_left _ (List.mem_map.2 ⟨(a, o), Dict.mem_of_get? ha, rfl⟩)

theorem get?_foldl_set_other : ∀ (l : List (Str × ℚ)) (d : Dict Str ℚ) (a : Str), (∀ o ∈ l, o.1 ≠ a) →
    Dict.get? (l.foldl (fun d o => Dict.set d o.1 o.2) d) a = Dict.get? d a
  | [], _, _, _ => rfl
  | o :: l, d, a, h => by
      rw [List.foldl_cons, get?_foldl_set_other l _ a (fun o' ho => h o' (List.mem_cons_of_mem _ ho)),
        Dict.get?_set_ne d o.2 (h o List.mem_cons_self)]

theorem get?_foldl_set_mem : ∀ (l : List (Str × ℚ)) (d : Dict Str ℚ), (l.map Prod.fst).Nodup → ∀ o ∈ l,
    Dict.get? (l.foldl (fun d o => Dict.set d o.1 o.2) d) o.1 = some o.2
  | [], _, _, o, ho => by simp at ho
  | o' :: l, d, h, o, ho => by
      rw [List.map_cons, List.nodup_cons] at h
      rw [List.foldl_cons]
      rcases List.mem_cons.1 ho with rfl | ho
      · rw [get?_foldl_set_other l _ o.1 (fun o' ho' e => h.1 (List.mem_map.2 ⟨o', ho', e⟩)), Dict.get?_set_self]
      · exact get?_foldl_set_mem l _ h.2 o ho

/-- what a sequence of successful calls leaves -/
structure After (g g' : Gauss) (calls : List (List (Str × ℚ))) : Prop where
  good : Good g'
  all : ∀ a, a ∈ Dict.keys g'.observed ∨ a ∈ g'.H ↔ a ∈ Dict.keys g.observed ∨ a ∈ g.H
  old : ∀ a ∈ Dict.keys g.observed, Dict.get? g'.observed a = Dict.get? g.observed a
  new : ∀ c ∈ calls, ∀ o ∈ c, Dict.get? g'.observed o.1 = some o.2

theorem after : ∀ (calls : List (List (Str × ℚ))) (g g' : Gauss), Good g → calls.foldlM doInferences g = .ok g' → After g g' calls
  | [], g, g', h, hr => by
      rw [List.foldlM_nil] at hr
      obtain ⟨⟩ := hr
      exact ⟨h, fun _ => Iff.rfl, fun _ _ => rfl, by simp⟩
  | c :: cs, g, g', h, hr => by
      rw [List.foldlM_cons] at hr
      cases h1 : g.doInferences c with
      | error e => rw [h1] at hr; cases hr
      | ok g1 =>
        rw [h1] at hr
        obtain ⟨K, s⟩ := step_of_ok h.wf h1
        have ih := after cs g1 g' (s.good h) hr
        have hnew : ∀ o ∈ c, Dict.get? g1.observed o.1 = some o.2 := by
          rw [s.observed]; exact get?_foldl_set_mem c _ s.nodup
        have hkey : ∀ o ∈ c, o.1 ∈ Dict.keys g1.observed := by
          intro o ho
          by_contra hk
          rw [← Dict.get?_eq_none_iff, hnew o ho] at hk
          cases hk
        have hold : ∀ a ∈ Dict.keys g.observed, Dict.get? g1.observed a = Dict.get? g.observed a ∧ a ∈ Dict.keys g1.observed := by
          intro a ha
          have e : Dict.get? g1.observed a = Dict.get? g.observed a := by
            rw [s.observed]
            refine get?_foldl_set_other c _ a ?_
            rintro o ho rfl
            exact h.apart _ ha (s.known o ho)
          refine ⟨e, ?_⟩
          rw [s.observed, mem_keys_foldl_set]
          exact Or.inl ha
        refine ⟨ih.good, ?_, ?_, ?_⟩
        · intro a
          rw [ih.all, s.observed, mem_keys_foldl_set, s.head, mem_left, mem_names]
          constructor
          · rintro ((h1 | ⟨o, ho, rfl⟩) | h1)
            · exact Or.inl h1
            · exact Or.inr (s.known o ho)
            · exact Or.inr h1.1
          · rintro (h1 | h1)
            · exact Or.inl (Or.inl h1)
            · by_cases h2 : ∃ o ∈ c, o.1 = a
              · exact Or.inl (Or.inr h2)
              · exact Or.inr ⟨h1, h2⟩
        · intro a ha
          rw [ih.old a (hold a ha).2, (hold a ha).1]
        · intro c' hc' o ho
          rcases List.mem_cons.1 hc' with rfl | hc'
          · rw [ih.old _ (hkey o ho), hnew o ho]
          · exact ih.new c' hc' o ho

end PyBBN.Gauss
