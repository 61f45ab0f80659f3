import Verif.Props.Entropy
import Verif.Props.DSep

/-! # C127: a proxy never tells more than what it stands for -/

namespace PyBBN
open Relation InferenceController DSep

/-- once `m` is known, `w` does not matter for `v`: for all outcomes that are possible together, what is reported for `v` after observing
`w` and `m` is what is reported after observing `m` alone -/
def Screens (jt : JoinTree) (h : List (SetIter Str × EvOp)) (m w v : Variable) (k k' : SetIter Str) : Prop :=
  ∀ y ∈ w.values, ∀ z ∈ m.values, (∃ r, r ≠ 0 ∧ Reports (runHist jt (h ++ [(k, .update [obs w y])])) m z r) →
    ∀ x ∈ v.values, ∀ p, Reports (runHist jt (h ++ [(k', .update [obs m z])])) v x p →
      Reports (runHist jt (h ++ [(k, .update [obs w y])] ++ [(k', .update [obs m z])])) v x p

section
variable {ops : List BOp} {it : SetIter Int} {js : SetIter Str} {jt : JoinTree}

theorem noEvidence_obs (hu : Net.Usable ops) (hj : apply it js (Bbn.run ops) = .ok jt) (h : List (SetIter Str × EvOp))
    (hp : ∀ op ∈ h, op.2.Ok (Bbn.run ops).vars) {m w : Variable} (hm : m ∈ (Bbn.run ops).vars) (hw : w ∈ (Bbn.run ops).vars)
    (hne : m.id ≠ w.id) (hmn : NoEvidenceOn (runHist jt h) m) {y : Str} (hy : y ∈ w.values) (k : SetIter Str) :
    NoEvidenceOn (runHist jt (h ++ [(k, .update [obs w y])])) m := by
  have h1 := noEvidenceOn_iff hu hj h (fun op ho => (hp op ho).proper) hm hmn
  have h2 := (c18_law hu hj (h ++ [(k, .update [obs w y])]) (fun op ho => (ok_append hp (obs_ok hw hy) op ho).proper) m hm).1
  unfold NoEvidenceOn
  rw [h2]
  congr 1
  refine List.map_congr_left ?_
  intro x hx
  rw [specHist_append]
  have e : (EvOp.update [obs w y]).spec (Bbn.run ops).vars (specHist (Bbn.run ops).vars h) = (specHist (Bbn.run ops).vars h).put w (obs w y).canon := rfl
  rw [e]
  unfold Liks.put
  rw [if_neg (fun hh => hne hh.1), h1 x hx]

section
variable (hu : Net.Usable ops) (hj : apply it js (Bbn.run ops) = .ok jt) (h : List (SetIter Str × EvOp))
  (hp : ∀ op ∈ h, op.2.Ok (Bbn.run ops).vars) {v m w : Variable} (hv : v ∈ (Bbn.run ops).vars) (hm : m ∈ (Bbn.run ops).vars)
  (hw : w ∈ (Bbn.run ops).vars) (hne : m.id ≠ w.id)
  (hmn : NoEvidenceOn (runHist jt h) m) (hwn : NoEvidenceOn (runHist jt h) w) (k k' : SetIter Str) (hs : Screens jt h m w v k k')
  {qm qw : Str → ℚ} {pm pw : Str → Str → ℚ}
  (hqm : ∀ z ∈ m.values, Reports (runHist jt h) m z (qm z)) (hqw : ∀ y ∈ w.values, Reports (runHist jt h) w y (qw y))
  (hpm : ∀ z ∈ m.values, ∀ x ∈ v.values, Reports (runHist jt (h ++ [(k', .update [obs m z])])) v x (pm z x))
  (hpw : ∀ y ∈ w.values, ∀ x ∈ v.values, Reports (runHist jt (h ++ [(k, .update [obs w y])])) v x (pw y x))
include hu hj hp hv hm hw hne hmn hwn hs hqm hqw hpm hpw

/-- the reports after both observations, and how they add up -/
theorem proxy_mix : ∃ (r : Str → Str → ℚ) (t : Str → Str → Str → ℚ),
    (∀ y ∈ w.values, ∀ z ∈ m.values, Reports (runHist jt (h ++ [(k, .update [obs w y])])) m z (r y z)) ∧
    (∀ y ∈ w.values, ∀ z ∈ m.values, ∀ x ∈ v.values,
      Reports (runHist jt (h ++ [(k, .update [obs w y])] ++ [(k', .update [obs m z])])) v x (t y z x)) ∧
    (∀ z ∈ m.values, (w.values.map (fun y => qw y * r y z)).sum = qm z) ∧
    (∀ y ∈ w.values, ∀ z ∈ m.values, r y z ≠ 0 → ∀ x ∈ v.values, t y z x = pm z x) := by
  have hpy : ∀ y ∈ w.values, ∀ op ∈ h ++ [(k, EvOp.update [obs w y])], op.2.Ok (Bbn.run ops).vars := fun y hy => ok_append hp (obs_ok hw hy)
  have hr : ∀ y ∈ w.values, ∀ z ∈ m.values, Reports (runHist jt (h ++ [(k, .update [obs w y])])) m z
      ((Bbn.run ops).posterior (specHist (Bbn.run ops).vars (h ++ [(k, .update [obs w y])])) m.id z) :=
    fun y hy z hz => reports hu hj _ (hpy y hy) hm hz
  have ht : ∀ y ∈ w.values, ∀ z ∈ m.values, ∀ x ∈ v.values,
      Reports (runHist jt (h ++ [(k, .update [obs w y])] ++ [(k', .update [obs m z])])) v x
      ((Bbn.run ops).posterior (specHist (Bbn.run ops).vars (h ++ [(k, .update [obs w y])] ++ [(k', .update [obs m z])])) v.id x) :=
    fun y hy z hz x hx => reports hu hj _ (ok_append (hpy y hy) (obs_ok hm hz)) hv hx
  refine ⟨_, _, hr, ht, ?_, ?_⟩
  · intro z hz
    exact total_probability_of hu hj h hp hm hw hwn k hqm hqw hr hz
  · intro y hy z hz h0 x hx
    exact reports_unique (ht y hy z hz x hx) (hs y hy z hz ⟨_, h0, hr y hy z hz⟩ x hx _ (hpm z hz x hx))

/-- **C127**. If `m` screens `w` off from `v` then on average an observation of `m` leaves at most the uncertainty about `v` that an
observation of `w` leaves, for every strictly concave measure of uncertainty. It leaves the same exactly if `w` screens `m` off too. -/
theorem c127_uncertainty {φ : ℝ → ℝ} (hφ : StrictConcaveOn ℝ (Set.Ici 0) φ) (h0 : φ 0 = 0) :
    uncertaintyAfter φ m.values v.values qm pm ≤ uncertaintyAfter φ w.values v.values qw pw ∧
    (uncertaintyAfter φ m.values v.values qm pm = uncertaintyAfter φ w.values v.values qw pw ↔
      ∀ y ∈ w.values, qw y ≠ 0 → ∀ z ∈ m.values, (∃ r, r ≠ 0 ∧ Reports (runHist jt (h ++ [(k, .update [obs w y])])) m z r) →
        ∀ x ∈ v.values, pm z x = pw y x) := by
  obtain ⟨r, t, hr, ht, hmix, hscr⟩ := proxy_mix hu hj h hp hv hm hw hne hmn hwn k k' hs hqm hqw hpm hpw
  have hpy : ∀ y ∈ w.values, ∀ op ∈ h ++ [(k, EvOp.update [obs w y])], op.2.Ok (Bbn.run ops).vars := fun y hy => ok_append hp (obs_ok hw hy)
  have hq0 : ∀ y ∈ w.values, (0 : ℝ) ≤ qw y := fun y hy => by exact_mod_cast reports_nonneg hu hj h hp hw hy (hqw y hy)
  have hA : ∀ y ∈ w.values, uncertaintyAfter φ m.values v.values (r y) (t y) ≤ uncertainty φ v.values (pw y) ∧
      (uncertaintyAfter φ m.values v.values (r y) (t y) = uncertainty φ v.values (pw y) ↔
        ∀ z ∈ m.values, r y z ≠ 0 → ∀ x ∈ v.values, t y z x = pw y x) := fun y hy =>
    c125_uncertainty hu hj _ (hpy y hy) hv hm (noEvidence_obs hu hj h hp hm hw hne hmn hy k) k' (hpw y hy) (hr y hy) (ht y hy) hφ h0
  have hB : uncertaintyAfter φ m.values v.values qm pm =
      (w.values.map (fun y => (qw y : ℝ) * uncertaintyAfter φ m.values v.values (r y) (t y))).sum := by
    have e1 : uncertaintyAfter φ m.values v.values qm pm =
        (m.values.map (fun z => (w.values.map (fun y => (qw y : ℝ) * ((r y z : ℝ) * uncertainty φ v.values (t y z)))).sum)).sum := by
      unfold uncertaintyAfter
      refine congrArg List.sum (List.map_congr_left ?_)
      intro z hz
      rw [← hmix z hz, cast_sum_map, ← List.sum_map_mul_right]
      refine congrArg List.sum (List.map_congr_left ?_)
      intro y hy
      by_cases hrz : r y z = 0
      · rw [hrz]; simp
      · have : uncertainty φ v.values (t y z) = uncertainty φ v.values (pm z) := by
          unfold uncertainty
          refine congrArg List.sum (List.map_congr_left ?_)
          intro x hx
          rw [hscr y hy z hz hrz x hx]
        rw [this]
        push_cast
        ring
    rw [e1, sum_swap_real]
    refine congrArg List.sum (List.map_congr_left ?_)
    intro y _
    unfold uncertaintyAfter
    rw [List.sum_map_mul_left]
  have hle : ∀ y ∈ w.values, (qw y : ℝ) * uncertaintyAfter φ m.values v.values (r y) (t y) ≤ (qw y : ℝ) * uncertainty φ v.values (pw y) :=
    fun y hy => mul_le_mul_of_nonneg_left (hA y hy).1 (hq0 y hy)
  rw [hB]
  unfold uncertaintyAfter at hle hA ⊢
  refine ⟨sum_le_real hle, ?_⟩
  rw [sum_eq_iff_real hle]
  constructor
  · rintro e y hy hqy z hz ⟨r', hr0, hr'⟩ x hx
    have hrr : r y z ≠ 0 := by rw [reports_unique (hr y hy z hz) hr']; exact hr0
    have := mul_left_cancel₀ (by exact_mod_cast hqy : (qw y : ℝ) ≠ 0) (e y hy)
    rw [← hscr y hy z hz hrr x hx]
    exact (hA y hy).2.1 this z hz hrr x hx
  · intro e y hy
    by_cases hqy : qw y = 0
    · rw [hqy]; simp
    · congr 1
      refine (hA y hy).2.2 (fun z hz hrr x hx => ?_)
      rw [hscr y hy z hz hrr x hx]
      exact e y hy hqy z hz ⟨_, hrr, hr y hy z hz⟩ x hx

/-- **C127** for the entropy (data processing inequality). -/
theorem c127_entropy : entropyAfter m.values v.values qm pm ≤ entropyAfter w.values v.values qw pw :=
  (c127_uncertainty hu hj h hp hv hm hw hne hmn hwn k k' hs hqm hqw hpm hpw Real.strictConcaveOn_negMulLog Real.negMulLog_zero).1

/-- **C127** for decisions. Whatever is chosen after observing `w`: choosing after observing `m`, where for each outcome the choice is not
worse than any of the others by the reports after that outcome, is not worse on average. -/
theorem c127_value {A : Type} (u : A → Str → ℚ) (δw δm : Str → A)
    (hδ : ∀ z ∈ m.values, ∀ y ∈ w.values, expUtil v.values (u (δw y)) (pm z) ≤ expUtil v.values (u (δm z)) (pm z)) :
    expUtilObs w.values v.values u qw pw δw ≤ expUtilObs m.values v.values u qm pm δm := by
  obtain ⟨r, t, hr, ht, hmix, hscr⟩ := proxy_mix hu hj h hp hv hm hw hne hmn hwn k k' hs hqm hqw hpm hpw
  have hpy : ∀ y ∈ w.values, ∀ op ∈ h ++ [(k, EvOp.update [obs w y])], op.2.Ok (Bbn.run ops).vars := fun y hy => ok_append hp (obs_ok hw hy)
  have e1 : expUtilObs w.values v.values u qw pw δw =
      (w.values.map (fun y => (m.values.map (fun z => qw y * r y z * expUtil v.values (u (δw y)) (pm z))).sum)).sum := by
    unfold expUtilObs
    refine congrArg List.sum (List.map_congr_left ?_)
    intro y hy
    rw [← c122_ignored hu hj _ (hpy y hy) hv hm (noEvidence_obs hu hj h hp hm hw hne hmn hy k) k' (hpw y hy) (hr y hy) (ht y hy) (u (δw y)),
      ← List.sum_map_mul_left]
    refine congrArg List.sum (List.map_congr_left ?_)
    intro z hz
    by_cases hrz : r y z = 0
    · rw [hrz]; simp
    · have : expUtil v.values (u (δw y)) (t y z) = expUtil v.values (u (δw y)) (pm z) := by
        unfold expUtil
        refine congrArg List.sum (List.map_congr_left ?_)
        intro x hx
        rw [hscr y hy z hz hrz x hx]
      rw [this]
      ring
  have e2 : expUtilObs m.values v.values u qm pm δm =
      (w.values.map (fun y => (m.values.map (fun z => qw y * r y z * expUtil v.values (u (δm z)) (pm z))).sum)).sum := by
    rw [sum_swap]
    unfold expUtilObs
    refine congrArg List.sum (List.map_congr_left ?_)
    intro z hz
    rw [← hmix z hz, ← List.sum_map_mul_right]
  rw [e1, e2]
  refine sum_le_of (fun y hy => sum_le_of (fun z hz => ?_))
  exact mul_le_mul_of_nonneg_left (hδ z hz y hy)
    (mul_nonneg (reports_nonneg hu hj h hp hw hy (hqw y hy)) (reports_nonneg hu hj _ (hpy y hy) hm hz (hr y hy z hz)))

end

theorem total_put_obs {b : Bbn} (hi : BbnInv b) {ℓ : Liks} {w : Variable} (hw : w ∈ b.vars) (h1 : ∀ x ∈ w.values, ℓ w.id x = 1) {y : Str}
    {f : Str → ℚ} (hf : ∀ x ∈ w.values, f x = if x = y then 1 else 0) : b.total (ℓ.put w f) = b.mass ℓ w.id y := by
  have hd : ∀ σ ∈ allAsg b.vars, InDom b.vars σ := fun σ hσ => allAsg_mem_dom b.vars (vars_nodup hi) σ hσ
  rw [mass_eq]
  unfold Bbn.total
  refine congrArg List.sum (List.map_congr_left ?_)
  intro σ hσ
  rw [weight_put hi hw h1 f (hd σ hσ), hf _ (hd σ hσ w hw)]
  by_cases e2 : σ w.id = y <;> simp [e2]

/-- **C127**, when `m` screens `w` off. If the history observes `zs` and nothing else, and `do.py` finds every path between `v` and `w`
inactive given `m` and `zs`, then `m` screens `w` off from `v`. -/
theorem c127_dsep (hu : Net.Usable ops) (hac : AcyclicOps ops) (hn : (Bbn.run ops).Normalized (Bbn.run ops).parentVars)
    (hj : apply it js (Bbn.run ops) = .ok jt) {h : List (SetIter Str × EvOp)} {zs : List Int} {τ : Asg}
    (he : EvidenceOn (Bbn.run ops) [] zs τ h) {v m w : Variable} (hv : v ∈ (Bbn.run ops).vars) (hm : m ∈ (Bbn.run ops).vars)
    (hw : w ∈ (Bbn.run ops).vars) (hvw : v.id ≠ w.id) (hvm : v.id ≠ m.id) (hmw : m.id ≠ w.id) (hvz : v.id ∉ zs) (hwz : w.id ∉ zs) (hmz : m.id ∉ zs)
    (hin : AllInactive (Bbn.run ops) v.id [w.id] (m.id :: zs)) (k k' : SetIter Str) : Screens jt h m w v k k' := by
  have hi := bbn_run_inv ops
  have hl1 : ∀ u ∈ (Bbn.run ops).vars, u.id ∉ zs → ∀ x ∈ u.values, specHist (Bbn.run ops).vars h u.id x = 1 :=
    fun u hu hz => he.2.2 u hu (by simp) hz
  have hspec : ∀ (h : List (SetIter Str × EvOp)) (k : SetIter Str) (w : Variable) (y : Str), specHist (Bbn.run ops).vars (h ++ [(k, .update [obs w y])]) =
      (specHist (Bbn.run ops).vars h).put w (obs w y).canon := fun h k w y => specHist_append _ _ _ _
  intro y hy z hz hr x hx p hpx
  obtain ⟨r, hr0, hr⟩ := hr
  have hpy := ok_append (k := k) he.1 (obs_ok hw hy)
  have hlm : ∀ a ∈ m.values, specHist (Bbn.run ops).vars (h ++ [(k, .update [obs w y])]) m.id a = 1 := by
    intro a ha
    rw [hspec]
    unfold Liks.put
    rw [if_neg (fun hh => hmw hh.1)]
    exact hl1 m hm hmz a ha
  have hcan : ∀ a ∈ m.values, (obs m z).canon a = if a = z then 1 else 0 := fun a _ => obs_canon hz a
  have hcanw : ∀ a ∈ w.values, (obs w y).canon a = if a = y then 1 else 0 := fun a _ => obs_canon hy a
  rw [reports_unique hr (reports hu hj _ hpy hm hz)] at hr0
  have hT2 : (Bbn.run ops).total (specHist (Bbn.run ops).vars (h ++ [(k, .update [obs w y])] ++ [(k', .update [obs m z])])) ≠ 0 := by
    rw [hspec, total_put_obs hi hm hlm hcan]
    intro e
    apply hr0
    unfold Bbn.posterior
    rw [e, zero_div]
  have hT1 : (Bbn.run ops).total (specHist (Bbn.run ops).vars (h ++ [(k', .update [obs m z])])) ≠ 0 := by
    rw [hspec, total_put_obs hi hm (hl1 m hm hmz) hcan]
    intro e
    apply hr0
    rw [hspec, posterior_obs hi hw (hl1 w hw hwz) hcanw, mass2_zero (spec_weight_nonneg hu hj h he.1) e, zero_div]
  have hE : ∀ (h' : List (SetIter Str × EvOp)), (∀ op ∈ h', op.2.Ok (Bbn.run ops).vars) →
      (∀ u ∈ (Bbn.run ops).vars, u.id ≠ w.id → ∀ a ∈ u.values, specHist (Bbn.run ops).vars h' u.id a = specHist (Bbn.run ops).vars h u.id a) →
      EvidenceOn (Bbn.run ops) [w.id] (m.id :: zs) (fun i => if i = m.id then z else τ i) (h' ++ [(k', .update [obs m z])]) := by
    intro h' hp' hl'
    refine ⟨ok_append hp' (obs_ok hm hz), ?_, ?_⟩
    · intro u hu hmem a ha
      beta_reduce
      rw [hspec]
      unfold Liks.put
      by_cases e : u.id = m.id
      · have : u = m := List.inj_on_of_nodup_map (vars_nodup hi) hu hm e
        subst this
        rw [if_pos ⟨rfl, ha⟩, hcan a ha, if_pos rfl]
      · rw [if_neg (fun hh => e hh.1), if_neg e]
        rcases List.mem_cons.1 hmem with hh | hh
        · exact absurd hh e
        · rw [hl' u hu (fun e' => hwz (e' ▸ hh)) a ha]
          exact he.2.1 u hu hh a ha
    · intro u hu hnw hnz a ha
      rw [hspec]
      unfold Liks.put
      have e : u.id ≠ m.id := fun e => hnz (by rw [e]; exact List.mem_cons_self)
      rw [if_neg (fun hh => e hh.1), hl' u hu (by simpa using hnw) a ha]
      exact hl1 u hu (fun hh => hnz (List.mem_cons_of_mem _ hh)) a ha
  have hE1 := hE h he.1 (fun _ _ _ _ _ => rfl)
  have hE2 := hE (h ++ [(k, .update [obs w y])]) hpy (by
    intro u _ hne a _
    rw [hspec]
    unfold Liks.put
    rw [if_neg (fun hh => hne hh.1)])
  have hxy : v.id ∉ [w.id] := by simpa using hvw
  have hxz : v.id ∉ m.id :: zs := by simp [hvm, hvz]
  have hb := proper_of hu.toSane hac hn
  have hsep : ∀ c, ReflTransGen (Mor (Bbn.run ops).Par v.id (· ∈ [w.id]) (· ∈ m.id :: zs)) v.id c → c ∉ [w.id] := by
    intro c hc
    refine not_mor_of_blocked (fun a b h1 h2 => hb.acyclic a (TransGen.head h1 (TransGen.single h2))) hxy ?_ hc
    intro y hy p hp
    refine blocked_of_inactive hac hin hxy hxz hy ?_ hp
    rw [List.mem_singleton.1 hy]
    simp [Ne.symm hmw, hwz]
  have hid : v.id ∈ (Bbn.run ops).ids := by
    obtain ⟨n, hn, rfl⟩ := List.mem_map.1 hv
    exact mem_ids.2 ⟨n, hn, rfl⟩
  have key := dsep_posterior (τ := fun i => if i = m.id then z else τ i) hb hid hxz hsep ⟨hE1.2.1, hE1.2.2⟩ ⟨hE2.2.1, hE2.2.2⟩ hT1 hT2 x
  rw [reports_unique hpx (reports hu hj _ hE1.1 hv hx), key]
  exact reports hu hj _ hE2.1 hv hx

end

/-! ## the example network: node 4 as a proxy of node 3, to learn about node 0 -/

/-- reports for node 3 -/
def c127_qm : Str → ℚ := fun z => if z = "on".toList then 99/800 else 701/800
/-- reports for node 0 after observing node 3 -/
def c127_pm : Str → Str → ℚ := fun z x =>
  if z = "on".toList then (if x = "on".toList then 10/33 else 23/33) else (if x = "on".toList then 170/701 else 531/701)
/-- reports for node 4 -/
def c127_qw : Str → ℚ := fun y => if y = "on".toList then 447/640 else 193/640
/-- reports for node 0 after observing node 4 -/
def c127_pw : Str → Str → ℚ := fun y x =>
  if y = "on".toList then (if x = "on".toList then 110/447 else 337/447) else (if x = "on".toList then 50/193 else 143/193)

/-- a bet on node 0 being on that is only worth it if the probability is above 3/10 -/
def c127_u : Bool → Str → ℚ := fun a x => if a then (if x = "on".toList then 7 else -3) else 0

theorem c127_inactive : AllInactive (Bbn.run c16_ops) 0 [4] [3] := by
  have key : ∀ y ∈ [4], ∀ p ∈ Do.allPaths (Bbn.run c16_ops).toNxGraph.1 0 y,
      (Do.isActivePath (Bbn.run c16_ops).toNxGraph.1 p ⟨true, [3]⟩).val? = some false := by decide +kernel
  intro y hy p hp
  have := key y hy p hp
  cases hr : Do.isActivePath (Bbn.run c16_ops).toNxGraph.1 p ⟨true, [3]⟩ with
  | error e => rw [hr] at this; cases this
  | ok r => rw [hr] at this; rw [Option.some.inj this]

/-- the hypotheses hold, there are paths to be blocked, node 3 tells strictly more about node 0 than node 4 does, and betting after looking
at node 3 is worth something while after looking at node 4 one should never bet -/
example : ∃ jt, apply .same .same (Bbn.run c16_ops) = .ok jt ∧ (Do.allPaths (Bbn.run c16_ops).toNxGraph.1 0 4).length = 2 ∧
    Screens jt [] (c16_node 3) (c16_node 4) (c16_node 0) .same .rev ∧
    NoEvidenceOn (runHist jt []) (c16_node 3) ∧ NoEvidenceOn (runHist jt []) (c16_node 4) ∧
    (∀ z ∈ (c16_node 3).values, Reports (runHist jt []) (c16_node 3) z (c127_qm z)) ∧
    (∀ y ∈ (c16_node 4).values, Reports (runHist jt []) (c16_node 4) y (c127_qw y)) ∧
    (∀ z ∈ (c16_node 3).values, ∀ x ∈ (c16_node 0).values,
      Reports (runHist jt ([] ++ [(.rev, .update [obs (c16_node 3) z])])) (c16_node 0) x (c127_pm z x)) ∧
    (∀ y ∈ (c16_node 4).values, ∀ x ∈ (c16_node 0).values,
      Reports (runHist jt ([] ++ [(.same, .update [obs (c16_node 4) y])])) (c16_node 0) x (c127_pw y x)) ∧
    entropyAfter (c16_node 3).values (c16_node 0).values c127_qm c127_pm < entropyAfter (c16_node 4).values (c16_node 0).values c127_qw c127_pw ∧
    expUtilObs (c16_node 3).values (c16_node 0).values c127_u c127_qm c127_pm (fun z => decide (z = "on".toList)) = 3 / 800 ∧
    (∀ y ∈ (c16_node 4).values, expUtil (c16_node 0).values (c127_u true) (c127_pw y) < 0) := by
  have key : ((apply .same .same (Bbn.run c16_ops)).val?.map (fun jt =>
      decide (NoEvidenceOn (runHist jt []) (c16_node 3) ∧ NoEvidenceOn (runHist jt []) (c16_node 4) ∧
        (∀ z ∈ (c16_node 3).values, reportOf (runHist jt []) (c16_node 3) z = some (c127_qm z)) ∧
        (∀ y ∈ (c16_node 4).values, reportOf (runHist jt []) (c16_node 4) y = some (c127_qw y)) ∧
        (∀ z ∈ (c16_node 3).values, ∀ x ∈ (c16_node 0).values,
          reportOf (runHist jt ([] ++ [(.rev, .update [obs (c16_node 3) z])])) (c16_node 0) x = some (c127_pm z x)) ∧
        (∀ y ∈ (c16_node 4).values, ∀ x ∈ (c16_node 0).values,
          reportOf (runHist jt ([] ++ [(.same, .update [obs (c16_node 4) y])])) (c16_node 0) x = some (c127_pw y x)) ∧
        reportOf (runHist jt ([] ++ [(.same, .update [obs (c16_node 4) "on".toList])])) (c16_node 3) "on".toList = some (44 / 745)))) = some true := by
    decide +kernel
  have hon : EvidenceOn (Bbn.run c16_ops) [] [] (fun _ => "on".toList) [] :=
    ⟨by simp, by simp, by intro v _ _ _ u _; rfl⟩
  cases hj : apply .same .same (Bbn.run c16_ops) with
  | error e => rw [hj] at key; cases key
  | ok jt =>
    rw [hj] at key
    obtain ⟨h1, h2, h3, h4, h5, h6, h7⟩ := of_decide_eq_true (Option.some.inj key)
    have h3' := fun x hx => reports_of_eval (h3 x hx)
    have h4' := fun y hy => reports_of_eval (h4 y hy)
    have h5' := fun y hy x hx => reports_of_eval (h5 y hy x hx)
    have h6' := fun x hx y hy => reports_of_eval (h6 x hx y hy)
    have hs : Screens jt [] (c16_node 3) (c16_node 4) (c16_node 0) .same .rev :=
      c127_dsep c16_usable c16_acyclic c16_normalized hj hon (by decide +kernel) (by decide +kernel) (by decide +kernel) (by decide) (by decide)
        (by decide) (by decide) (by decide) (by decide) c127_inactive .same .rev
    refine ⟨jt, rfl, by decide +kernel, hs, h1, h2, h3', h4', h5', h6', ?_, by decide +kernel, by decide +kernel⟩
    obtain ⟨a, b⟩ := c127_uncertainty c16_usable hj [] (by simp) (by decide +kernel) (by decide +kernel) (by decide +kernel) (by decide)
      h1 h2 .same .rev hs h3' h4' h5' h6' Real.strictConcaveOn_negMulLog Real.negMulLog_zero
    refine lt_of_le_of_ne a (fun e => ?_)
    exact absurd (b.1 e "on".toList (by decide +kernel) (by decide +kernel) "on".toList (by decide +kernel)
      ⟨_, by norm_num, reports_of_eval h7⟩ "on".toList (by decide +kernel)) (by decide +kernel)

/-- the bet after looking at node 3 is chosen as `c127_value` asks -/
example : ∀ z ∈ (c16_node 3).values, ∀ a : Bool, expUtil (c16_node 0).values (c127_u a) (c127_pm z) ≤
    expUtil (c16_node 0).values (c127_u (decide (z = "on".toList))) (c127_pm z) := by decide +kernel

end PyBBN
