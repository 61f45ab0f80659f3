import Verif.Props.Coherence

/-! # C77: only the ratios of the likelihoods of a node matter -/

namespace PyBBN
open Relation InferenceController

/-- the join tree stores likelihood `p` for value `x` of node `v` -/
def Stored (jt : JoinTree) (v : Variable) (x : Str) (p : ℚ) : Prop :=
  ∃ m, Dict.get? jt.evidences v.id = some m ∧ Dict.get? m x = some p

section
variable {it it' : SetIter Int} {js js' : SetIter Str} {ops : List BOp} {jt jt' : JoinTree}

/-- likelihoods that are proportional node by node give the same posteriors -/
theorem posterior_proportional {b : Bbn} (hi : BbnInv b) {ℓ ℓ' : Liks} {k : Int → ℚ} (hk : ∀ v ∈ b.vars, k v.id ≠ 0)
    (h : ∀ v ∈ b.vars, ∀ x ∈ v.values, ℓ' v.id x = k v.id * ℓ v.id x) (i : Int) (x : Str) : b.posterior ℓ' i x = b.posterior ℓ i x := by
  have hK : (b.toGraph.getNodes.map (fun n => k n.var.id)).prod ≠ 0 := by
    rw [ne_eq, List.prod_eq_zero_iff]
    intro h0
    obtain ⟨n, hn, e⟩ := List.mem_map.1 h0
    exact hk n.var (List.mem_map_of_mem hn) e
  have hd : ∀ σ ∈ allAsg b.vars, b.weight ℓ' σ = (b.toGraph.getNodes.map (fun n => k n.var.id)).prod * b.weight ℓ σ := by
    intro σ hσ
    have h2 := allAsg_mem_dom b.vars (vars_nodup hi) σ hσ
    unfold Bbn.weight
    rw [← List.prod_map_mul]
    refine congrArg List.prod (List.map_congr_left ?_)
    intro n hn
    have hm : n.var ∈ b.vars := List.mem_map_of_mem hn
    rw [h n.var hm _ (h2 n.var hm)]
    ring
  unfold Bbn.posterior
  have h3 : b.mass ℓ' i x = (b.toGraph.getNodes.map (fun n => k n.var.id)).prod * b.mass ℓ i x := by
    unfold Bbn.mass
    rw [← List.sum_map_mul_left]
    exact congrArg List.sum (List.map_congr_left (fun σ hσ => hd σ (List.mem_filter.1 hσ).1))
  have h4 : b.total ℓ' = (b.toGraph.getNodes.map (fun n => k n.var.id)).prod * b.total ℓ := by
    unfold Bbn.total
    rw [← List.sum_map_mul_left]
    exact congrArg List.sum (List.map_congr_left hd)
  rw [h3, h4, mul_div_mul_left _ _ hK]

theorem stored_iff (hu : Net.Usable ops) (hj : apply it js (Bbn.run ops) = .ok jt) (h : List (SetIter Str × EvOp))
    (hp : ∀ op ∈ h, op.2.Proper (Bbn.run ops).vars) {v : Variable} (hv : v ∈ (Bbn.run ops).vars) {x : Str} (hx : x ∈ v.values) (p : ℚ) :
    Stored (runHist jt h) v x p ↔ p = specHist (Bbn.run ops).vars h v.id x := by
  have h1 := (c18_law hu hj h hp v hv).1
  have h2 : ∀ l : List Str, x ∈ l → Dict.get? (l.map (fun x => (x, specHist (Bbn.run ops).vars h v.id x))) x =
      some (specHist (Bbn.run ops).vars h v.id x) := by
    intro l
    induction l with
    | nil => simp
    | cons y l ih =>
      intro hm
      rw [List.map_cons]
      unfold Dict.get?
      by_cases e : y = x
      · rw [if_pos e, e]
      · rw [if_neg e]
        exact ih ((List.mem_cons.1 hm).resolve_left (fun e' => e e'.symm))
  unfold Stored
  rw [h1]
  constructor
  · rintro ⟨m, e, hm⟩
    cases e
    rw [h2 _ hx] at hm
    exact (Option.some.inj hm).symm
  · intro e
    exact ⟨_, rfl, by rw [h2 _ hx, e]⟩

theorem specHist_snd (vars : List Variable) {h h' : List (SetIter Str × EvOp)} (hh : h'.map Prod.snd = h.map Prod.snd) :
    specHist vars h' = specHist vars h := by
  have e : ∀ g : List (SetIter Str × EvOp), specHist vars g = (g.map Prod.snd).foldl (fun ℓ op => op.spec vars ℓ) noEvidence := by
    intro g; unfold specHist; rw [List.foldl_map]
  rw [e, e, hh]

/-- **C77**, partial. Two sessions on a connected network (any two histories of evidence, none of it ambiguous): if for every node the
likelihoods stored in the second are a nonzero multiple of those stored in the first, both report the same probabilities.
Missing: ambiguous virtual evidence, for which the claim fails (`c77_false`). -/
theorem c77_ratios_partial (hu : Net.Usable ops) (hj : apply it js (Bbn.run ops) = .ok jt) (hj' : apply it' js' (Bbn.run ops) = .ok jt')
    (h h' : List (SetIter Str × EvOp)) (hp : ∀ op ∈ h, op.2.Ok (Bbn.run ops).vars) (hp' : ∀ op ∈ h', op.2.Ok (Bbn.run ops).vars)
    (hr : ∀ v ∈ (Bbn.run ops).vars, ∃ k : ℚ, k ≠ 0 ∧ ∀ x ∈ v.values, ∀ p, Stored (runHist jt h) v x p → Stored (runHist jt' h') v x (k * p))
    {v : Variable} (hv : v ∈ (Bbn.run ops).vars) {x : Str} (hx : x ∈ v.values) :
    ∃ p, Reports (runHist jt h) v x p ∧ Reports (runHist jt' h') v x p := by
  have hi := bbn_run_inv ops
  refine ⟨_, reports hu hj h hp hv hx, ?_⟩
  have h1 := reports hu hj' h' hp' hv hx
  choose! k hk using hr
  have hf : ∀ w ∈ (Bbn.run ops).vars, (Bbn.run ops).vars.find? (fun u => decide (u.id = w.id)) = some w := by
    intro w hw
    rw [List.find?_eq_some_iff_append]
    obtain ⟨s, t, e⟩ := List.append_of_mem hw
    refine ⟨by simp, s, t, e, ?_⟩
    intro u hus
    have hn := vars_nodup hi
    rw [e, vids, List.map_append, List.map_cons, List.nodup_append] at hn
    have := hn.2.2 u.id (List.mem_map_of_mem hus) w.id List.mem_cons_self
    simpa using this
  rw [posterior_proportional hi (ℓ := specHist (Bbn.run ops).vars h)
    (k := fun i => (((Bbn.run ops).vars.find? (fun u => decide (u.id = i))).map k).getD 1)] at h1
  · exact h1
  · intro w hw
    simp only [hf w hw, Option.map_some, Option.getD_some]
    exact (hk w hw).1
  · intro w hw y hy
    simp only [hf w hw, Option.map_some, Option.getD_some]
    exact ((stored_iff hu hj' h' (fun op ho => (hp' op ho).proper) hw hy _).1
      ((hk w hw).2 y hy _ ((stored_iff hu hj h (fun op ho => (hp op ho).proper) hw hy _).2 rfl))).symm

/-- **C77**, one call. After any history of evidence (ambiguous or not) without evidence about a node: virtual evidence about it, and the
same with all likelihoods multiplied by the same factor, lead to the same reports, if the likelihoods are in `[0, 1]` and not all 1
in both cases. -/
theorem c77_virtual (hu : Net.Usable ops) (hj : apply it js (Bbn.run ops) = .ok jt) (hj' : apply it' js' (Bbn.run ops) = .ok jt')
    (h h' : List (SetIter Str × EvOp)) (hp : ∀ op ∈ h, op.2.Proper (Bbn.run ops).vars) (hh : h'.map Prod.snd = h.map Prod.snd)
    {w : Variable} (hw : w ∈ (Bbn.run ops).vars) (hn : NoEvidenceOn (runHist jt h) w) {m : Dict Str ℚ} (hm : Dict.keys m = w.values)
    {c : ℚ} (hc : 0 < c) (h01 : ∀ p ∈ Dict.values m, 0 ≤ p ∧ p ≤ 1 ∧ c * p ≤ 1) (h1 : ∃ p ∈ Dict.values m, p ≠ 1) (h2 : ∃ p ∈ Dict.values m, c * p ≠ 1)
    (s s' : SetIter Str) {v : Variable} (hv : v ∈ (Bbn.run ops).vars) {x : Str} (hx : x ∈ v.values) :
    ∃ p, Reports (runHist jt (h ++ [(s, .update [⟨w, .virtual, m⟩])])) v x p ∧
      Reports (runHist jt' (h' ++ [(s', .update [⟨w, .virtual, m.map (fun kp => (kp.1, c * kp.2))⟩])])) v x p := by
  have hi := bbn_run_inv ops
  have hnd : (Dict.keys m).Nodup := by rw [hm]; exact (doms hu.toSane).vals w hw
  have hkeys : Dict.keys (m.map (fun kp => (kp.1, c * kp.2))) = w.values := by
    rw [← hm]; unfold Dict.keys; rw [List.map_map]; rfl
  have hp' : ∀ op ∈ h', op.2.Proper (Bbn.run ops).vars := by
    intro op ho
    have : op.2 ∈ h.map Prod.snd := by rw [← hh]; exact List.mem_map_of_mem ho
    obtain ⟨o, ho, e⟩ := List.mem_map.1 this
    rw [← e]; exact hp o ho
  have h0 := noEvidenceOn_iff hu hj h hp hw hn
  have hsp := specHist_snd (Bbn.run ops).vars hh
  have hget : ∀ y ∈ w.values, ∃ p ∈ Dict.values m, Dict.get? m y = some p := by
    intro y hy
    cases e : Dict.get? m y with
    | none => rw [Dict.get?_eq_none_iff, hm] at e; exact absurd hy e
    | some p => exact ⟨p, List.mem_map_of_mem (Dict.mem_of_get? e), rfl⟩
  have hc1 : ∀ y ∈ w.values, Evidence.canon ⟨w, .virtual, m⟩ y = (Dict.get? m y).getD 0 := by
    intro y hy
    obtain ⟨p, hpm, e⟩ := hget y hy
    have := h01 p hpm
    simp only [Evidence.canon, Evidence.given, e, Option.getD_some]
    rw [min_eq_right this.2.1, max_eq_right this.1]
  have hc2 : ∀ y ∈ w.values, Evidence.canon ⟨w, .virtual, m.map (fun kp => (kp.1, c * kp.2))⟩ y = c * (Dict.get? m y).getD 0 := by
    intro y hy
    obtain ⟨p, hpm, e⟩ := hget y hy
    have := h01 p hpm
    simp only [Evidence.canon, Evidence.given, Dict.get?_mapVal m (fun p => c * p), e, Option.map_some, Option.getD_some]
    rw [min_eq_right this.2.2, max_eq_right (mul_nonneg hc.le this.1)]
  have hval : ∀ p ∈ Dict.values m, ∃ y ∈ w.values, Dict.get? m y = some p := by
    intro p hpm
    obtain ⟨⟨y, q⟩, hyq, e⟩ := List.mem_map.1 hpm
    change q = p at e
    subst e
    exact ⟨y, by rw [← hm]; exact List.mem_map_of_mem hyq, Dict.get?_of_mem hnd hyq⟩
  have hpr : ∀ m' : Dict Str ℚ, Dict.keys m' = w.values → (EvOp.update [⟨w, .virtual, m'⟩]).Proper (Bbn.run ops).vars := by
    intro m' hm' e he
    simp only [List.mem_cons, List.not_mem_nil, or_false] at he
    subst he
    exact ⟨hw, by change (Dict.keys m').Nodup; rw [hm', ← hm]; exact hnd, by intro k hk; rw [← hm']; exact hk⟩
  refine ⟨(Bbn.run ops).posterior ((specHist (Bbn.run ops).vars h).put w (Evidence.canon ⟨w, .virtual, m⟩)) v.id x, ?_, ?_⟩
  · have h4 := reports_law hu hj (h ++ [(s, .update [⟨w, .virtual, m⟩])]) (proper_append hp (hpr m hm)) hv hx
    rwa [law_seen (e := ⟨w, .virtual, m⟩) h0 (by
      obtain ⟨p, hpm, hp1⟩ := h1
      obtain ⟨y, hy, e⟩ := hval p hpm
      exact ⟨y, hy, by rw [hc1 y hy, e]; exact hp1⟩) s] at h4
  · have h4 := reports_law hu hj' (h' ++ [(s', .update [⟨w, .virtual, m.map (fun kp => (kp.1, c * kp.2))⟩])]) (proper_append hp' (hpr _ hkeys)) hv hx
    rw [law_seen (e := ⟨w, .virtual, m.map (fun kp => (kp.1, c * kp.2))⟩) (by rw [hsp]; exact h0) (by
      obtain ⟨p, hpm, hp1⟩ := h2
      obtain ⟨y, hy, e⟩ := hval p hpm
      exact ⟨y, hy, by rw [hc2 y hy, e]; exact hp1⟩) s', hsp,
      posterior_scale hi hw h0 hc.ne' (fun y hy => by rw [hc2 y hy, ← hc1 y hy])] at h4
    exact h4

end

/-! ## The claim without the restriction fails -/

/-- virtual evidence with the ratio of the one in `c18_bad`, after the same observation -/
def c77_scaled : List (SetIter Str × EvOp) :=
  [(.same, .update [Evidence.build (c16_node 4) .observation [("on".toList, 1)]]),
   (.same, .update [Evidence.build (c16_node 4) .virtual [("on".toList, 4/5), ("off".toList, 2/5)]])]

theorem c77_scaled_ok : ∀ op ∈ c77_scaled, op.2.Ok (Bbn.run c16_ops).vars := by
  intro op hop
  simp only [c77_scaled, List.mem_cons, List.not_mem_nil, or_false] at hop
  rcases hop with rfl | rfl
  · intro e he
    simp only [List.mem_cons, List.not_mem_nil, or_false] at he
    subst he
    exact ⟨by decide +kernel, unambiguous_of_check (by decide +kernel)⟩
  · intro e he
    simp only [List.mem_cons, List.not_mem_nil, or_false] at he
    subst he
    exact ⟨by decide +kernel, unambiguous_of_check (by decide +kernel)⟩

/-- **C77 is false of the code** for ambiguous virtual evidence: observe node 4, then give it the virtual evidence `on: 1, off: 1/2`, or
`on: 4/5, off: 2/5`. The likelihoods stored differ by the factor 4/5, but what is reported for node 0 is different. -/
theorem c77_false : Net.Usable c16_ops ∧ (∀ op ∈ c18_bad, op.2.Proper (Bbn.run c16_ops).vars) ∧
    (∀ op ∈ c77_scaled, op.2.Ok (Bbn.run c16_ops).vars) ∧
    ∃ jt p p', apply .same .same (Bbn.run c16_ops) = .ok jt ∧
      (∀ v ∈ (Bbn.run c16_ops).vars, ∃ k : ℚ, k ≠ 0 ∧ ∀ x ∈ v.values, ∀ p, Stored (runHist jt c18_bad) v x p → Stored (runHist jt c77_scaled) v x (k * p)) ∧
      Reports (runHist jt c18_bad) (c16_node 0) "on".toList p ∧ Reports (runHist jt c77_scaled) (c16_node 0) "on".toList p' ∧ p ≠ p' := by
  refine ⟨c16_usable, c18_false.2.1, c77_scaled_ok, ?_⟩
  have key : ((apply .same .same (Bbn.run c16_ops)).val?.map (fun jt =>
      [reportOf (runHist jt c18_bad) (c16_node 0) "on".toList, reportOf (runHist jt c77_scaled) (c16_node 0) "on".toList])) =
      some [some (110 / 447), some (270 / 1087)] := by decide +kernel
  have hk : ∀ v ∈ (Bbn.run c16_ops).vars, ∃ k ∈ [(1 : ℚ), 4/5], ∀ x ∈ v.values,
      k * specHist (Bbn.run c16_ops).vars c18_bad v.id x = specHist (Bbn.run c16_ops).vars c77_scaled v.id x := by decide +kernel
  cases hj : apply .same .same (Bbn.run c16_ops) with
  | error e => rw [hj] at key; cases key
  | ok jt =>
    rw [hj] at key
    simp only [Py.val?, Option.map_some, Option.some.injEq, List.cons.injEq, and_true] at key
    obtain ⟨h2, h3⟩ := key
    refine ⟨jt, _, _, rfl, ?_, reports_of_eval h2, reports_of_eval h3, by decide +kernel⟩
    intro v hv
    obtain ⟨k, hk1, hk2⟩ := hk v hv
    refine ⟨k, ?_, ?_⟩
    · simp only [List.mem_cons, List.not_mem_nil, or_false] at hk1
      rcases hk1 with rfl | rfl <;> norm_num
    · intro x hx p hp
      rw [stored_iff c16_usable hj _ c18_false.2.1 hv hx] at hp
      rw [stored_iff c16_usable hj _ (fun op ho => (c77_scaled_ok op ho).proper) hv hx, hp, hk2 x hx]

/-! ## The claims are not vacuous -/

/-- the history of C18 with other likelihoods of the same ratio, in other steps -/
def c77_hist : List (SetIter Str × EvOp) :=
  [(.same, .update [Evidence.build (c16_node 1) .virtual [("off".toList, 1/6), ("on".toList, 1/2)],
      Evidence.build (c16_node 4) .virtual [("on".toList, 1/3)]]),
   (.same, .update [Evidence.build (c16_node 2) .virtual [("off".toList, 2/3), ("on".toList, 0)]])]

/-- C77: two histories without ambiguous evidence whose likelihoods are proportional for each node (with factors 1, 2/3, 2/3, 1, 1/3), and
what both report for nodes 0 and 3 -/
example : Net.Usable c16_ops ∧ (∀ op ∈ c18_hist, op.2.Ok (Bbn.run c16_ops).vars) ∧
    (∀ op ∈ c77_hist, op.2.Ok (Bbn.run c16_ops).vars) ∧
    (∀ v ∈ (Bbn.run c16_ops).vars, ∃ k ∈ [(1 : ℚ), 2/3, 1/3], ∀ x ∈ v.values,
      k * specHist (Bbn.run c16_ops).vars c18_hist v.id x = specHist (Bbn.run c16_ops).vars c77_hist v.id x) ∧
    ((apply .same .same (Bbn.run c16_ops)).val?.map (fun jt => [firstOf (runHist jt c18_hist) (c16_node 0), firstOf (runHist jt c77_hist) (c16_node 0),
      firstOf (runHist jt c18_hist) (c16_node 3), firstOf (runHist jt c77_hist) (c16_node 3)])) =
      some [some (56 / 155), some (56 / 155), some (68 / 775), some (68 / 775)] := by
  refine ⟨c16_usable, c18_hist_ok, ?_, by decide +kernel, by decide +kernel⟩
  intro op hop
  simp only [c77_hist, List.mem_cons, List.not_mem_nil, or_false] at hop
  rcases hop with rfl | rfl
  · intro e he
    simp only [List.mem_cons, List.not_mem_nil, or_false] at he
    rcases he with rfl | rfl
    · exact ⟨by decide +kernel, unambiguous_of_check (by decide +kernel)⟩
    · exact ⟨by decide +kernel, unambiguous_of_check (by decide +kernel)⟩
  · intro e he
    simp only [List.mem_cons, List.not_mem_nil, or_false] at he
    subst he
    exact ⟨by decide +kernel, unambiguous_of_check (by decide +kernel)⟩

/-- C77, one call: after the ambiguous history `c18_bad` about node 4, virtual evidence `on: 3/4, off: 1/4` and half of it about node 1 -/
example : (∀ op ∈ c18_bad, op.2.Proper (Bbn.run c16_ops).vars) ∧
    ((apply .same .same (Bbn.run c16_ops)).val?.map (fun jt => decide (NoEvidenceOn (runHist jt c18_bad) (c16_node 1)))) = some true ∧
    Dict.keys [("on".toList, (3/4 : ℚ)), ("off".toList, 1/4)] = (c16_node 1).values ∧
    ((apply .same .same (Bbn.run c16_ops)).val?.map (fun jt =>
      [firstOf (runHist jt (c18_bad ++ [(.same, .update [⟨c16_node 1, .virtual, [("on".toList, 3/4), ("off".toList, 1/4)]⟩])])) (c16_node 0),
       firstOf (runHist jt (c18_bad ++ [(.same, .update [⟨c16_node 1, .virtual, [("on".toList, 3/8), ("off".toList, 1/8)]⟩])])) (c16_node 0)])) =
      some [some (1598 / 5243), some (1598 / 5243)] :=
  ⟨c18_false.2.1, by decide +kernel, by decide +kernel, by decide +kernel⟩

end PyBBN
