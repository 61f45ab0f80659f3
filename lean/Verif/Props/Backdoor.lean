import Verif.Proofs.Backdoor
import Verif.Props.DSep

/-!
# The back-door criterion (C64, C65)
-/

namespace PyBBN
open Relation InferenceController DSep

variable {ops : List BOp} {it : SetIter Int} {js : SetIter Str} {jt : JoinTree}

/-- `do.py` finds every path that starts with an edge into `x` inactive given `zs`, and none of `zs` is `x` or a descendant -/
def BackdoorBlocked (b : Bbn) (x y : Int) (zs : List Int) : Prop :=
  (∀ z ∈ zs, z ≠ x ∧ z ∉ Do.descendants b.toNxGraph.1 x) ∧
    ∀ p ∈ Do.allPaths b.toNxGraph.1 x y, Do.isBackdoor b.toNxGraph.1 p = .ok true → Do.isActivePath b.toNxGraph.1 p ⟨true, zs⟩ = .ok false

theorem valid_of_blocked (hac : AcyclicOps ops) {x y : Int} {zs : List Int} (hx : x ∈ (Bbn.run ops).vars.map Variable.id) (hxy : x ≠ y)
    (hyz : y ∉ zs) (h : BackdoorBlocked (Bbn.run ops) x y zs) : ValidAdjustment (Bbn.run ops).Par x y (· ∈ zs) := by
  rw [← nxGraph_E]
  have hwf := nxGraph_wf ops
  constructor
  · intro z hz hr
    have := h.1 z hz
    rw [Do.mem_descendants hwf (by rw [(c62_nx_graph ops).1]; exact hx)] at this
    exact this.2 ⟨this.1, hr⟩
  · intro p hp hbp
    have h1 := h.2 p ((c39_all_paths hwf hxy p).2 hp) (by
      obtain ⟨u, v, l, rfl, huv⟩ := hbp
      simp only [Do.isBackdoor, Do.hasEdge]
      congr 1
      exact decide_eq_true huv)
    by_cases h3 : 3 ≤ p.length
    · obtain ⟨r, k1, k2⟩ := c39_path_activity hwf (nxGraph_acyclic hac) hp h3 zs
      rw [k1] at h1
      cases h1
      intro ho
      exact absurd (k2.2 ho) (by simp)
    · exfalso
      obtain ⟨b, l, rfl⟩ := Do.path_cons hp hxy
      cases l with
      | cons c l => simp at h3
      | nil =>
        have hs := hp.stop
        simp at hs
        subst hs
        obtain ⟨r, k1, k2⟩ := c39_edge (g := (Bbn.run ops).toNxGraph.1) (x := x) (y := b) ⟨true, zs⟩
        rw [k1] at h1
        cases h1
        exact absurd (k2.2 ⟨fun hx => (h.1 x hx).1 rfl, hyz⟩) (by simp)

/-- **C64**. On a connected acyclic network whose CPT rows sum to one, with distinct names: when `do.py` says that `Z` meets the back-door
criterion for `x` and `y`, then averaging what `get_posteriors` answers for `y` with `x` observed at `a` and `Z` observed, each answer
weighted with the probability of the observed values of `Z`, gives the probability of `y = yv` when `x` is set to `a`. The evidence may
be set by any histories of operations. -/
theorem c64_backdoor (hu : Net.Usable ops) (hac : AcyclicOps ops) (hn : (Bbn.run ops).Normalized (Bbn.run ops).parentVars)
    (hname : ((Bbn.run ops).vars.map Variable.name).Nodup) (hj : apply it js (Bbn.run ops) = .ok jt)
    {x y : Variable} (hx : x ∈ (Bbn.run ops).vars) (hy : y ∈ (Bbn.run ops).vars) (hxy : x.id ≠ y.id) {Z : List Variable}
    (hZn : (Z.map Variable.id).Nodup) (hZ : ∀ z ∈ Z, z ∈ (Bbn.run ops).vars) (hyZ : y.id ∉ Z.map Variable.id)
    (hval : BackdoorBlocked (Bbn.run ops) x.id y.id (Z.map Variable.id)) {a : Str} (ha : a ∈ x.values)
    (hover : ∀ τ ∈ allAsg Z, (Bbn.run ops).pr (agree Z τ) ≠ 0 → (Bbn.run ops).pr (fun σ => isAt x.id a σ && agree Z τ σ) ≠ 0)
    (h : Asg → List (SetIter Str × EvOp))
    (hh : ∀ τ ∈ allAsg Z, EvidenceOn (Bbn.run ops) [] (x.id :: Z.map Variable.id) (Function.update τ x.id a) (h τ))
    {yv : Str} (hyv : yv ∈ y.values) :
    ∃ p : Asg → ℚ, (∀ τ ∈ allAsg Z, ∃ d dy, (runHist jt (h τ)).getPosteriors = .ok d ∧ Dict.get? d y.name = some dy ∧
        Dict.getItem dy yv = .ok (p τ)) ∧
      ((allAsg Z).map (fun τ => p τ * (Bbn.run ops).pr (agree Z τ))).sum = (Bbn.run ops).prDo x.id a (isAt y.id yv) := by
  have hb := proper_of hu.toSane hac hn
  obtain ⟨n, hnode, rfl⟩ := List.mem_map.1 hx
  have hv := valid_of_blocked hac (List.mem_map_of_mem hx) hxy hyZ hval
  have hyid : y.id ∈ (Bbn.run ops).ids := by
    obtain ⟨m, hm, rfl⟩ := List.mem_map.1 hy
    exact mem_ids.2 ⟨m, hm, rfl⟩
  refine ⟨fun τ => (Bbn.run ops).prGiven (isAt y.id yv) (fun σ => isAt n.var.id a σ && agree Z τ σ), ?_,
    backdoor_adjustment hb hnode ha hyid hxy hZn hZ hyZ hv hover yv⟩
  intro τ hτ
  obtain ⟨d, h1, _, h2⟩ := Reach.posteriors (s := runHist jt (h τ)) (ℓ := specHist (Bbn.run ops).vars (h τ)) hu hj hname
    ⟨h τ, (hh τ hτ).1, rfl, fun _ _ _ _ => rfl⟩
  refine ⟨d, _, h1, h2 y hy, ?_⟩
  rw [getItem_map hyv]
  congr 1
  have hxZ : n.var.id ∉ Z.map Variable.id := fun hc => (hval.1 _ hc).1 rfl
  have hns : ∀ v ∈ n.var :: Z, v ∈ (Bbn.run ops).vars := by
    intro v hv'
    rcases List.mem_cons.1 hv' with rfl | h'
    · exact hx
    · exact hZ v h'
  rw [posterior_congr hb.inv (ℓ' := pinned (n.var :: Z) (Function.update τ n.var.id a)), posterior_pinned hb.wf hns]
  · congr 1
    funext σ
    unfold agree isAt
    rw [Bool.eq_iff_iff]
    simp only [List.forall_mem_cons, Function.update_self, Bool.and_eq_true, decide_eq_true_eq]
    refine and_congr_right (fun _ => forall_congr' (fun z => forall_congr' (fun hz => ?_)))
    rw [Function.update_of_ne]
    intro e
    exact hxZ (e ▸ List.mem_map_of_mem hz)
  · intro v hv' u hu'
    unfold pinned
    by_cases hm : v.id ∈ n.var.id :: Z.map Variable.id
    · rw [(hh τ hτ).2.1 v hv' hm u hu']
      simp only [vids, List.map_cons, hm, if_true]
    · rw [(hh τ hτ).2.2 v hv' (by simp) hm u hu']
      simp only [vids, List.map_cons, hm, if_false]

/-! ### a concrete network: the effect of 1 on 3 in the diamond of C16, adjusted for 0 -/

def c64_h (a : Str) (τ : Asg) : List (SetIter Str × EvOp) := [(.same, .update [obs (c16_node 1) a, obs (c16_node 0) (τ 0)])]

theorem c64_h_on : ∀ a ∈ ["on".toList, "off".toList], ∀ τ ∈ allAsg [c16_node 0],
    EvidenceOn (Bbn.run c16_ops) [] [1, 0] (Function.update τ 1 a) (c64_h a τ) := by
  intro a ha τ hτ
  have hτ' : τ 0 ∈ ["on".toList, "off".toList] := by
    have := allAsg_mem_dom [c16_node 0] (by decide +kernel) τ hτ (c16_node 0) (by simp)
    have e : (c16_node 0).values = ["on".toList, "off".toList] := by decide +kernel
    rwa [e] at this
  refine ⟨?_, ?_, ?_⟩
  · intro op hop
    simp only [c64_h, List.mem_cons, List.not_mem_nil, or_false] at hop
    subst hop
    intro e he
    simp only [List.mem_cons, List.not_mem_nil, or_false] at he
    simp only [List.mem_cons, List.not_mem_nil, or_false] at ha hτ'
    rcases he with rfl | rfl
    · rcases ha with rfl | rfl
      · exact ⟨by decide +kernel, unambiguous_of_check (by decide +kernel)⟩
      · exact ⟨by decide +kernel, unambiguous_of_check (by decide +kernel)⟩
    · rcases hτ' with h | h <;> rw [h]
      · exact ⟨by decide +kernel, unambiguous_of_check (by decide +kernel)⟩
      · exact ⟨by decide +kernel, unambiguous_of_check (by decide +kernel)⟩
  · revert τ a
    decide +kernel
  · revert τ a
    decide +kernel

theorem c64_blocked : BackdoorBlocked (Bbn.run c16_ops) 1 3 [0] := by
  have e : Do.allPaths (Bbn.run c16_ops).toNxGraph.1 1 3 = [[1, 0, 2, 3], [1, 3]] := by decide +kernel
  refine ⟨by decide +kernel, ?_⟩
  rw [e]
  intro p hp hb
  simp only [List.mem_cons, List.not_mem_nil, or_false] at hp
  rcases hp with rfl | rfl
  · have : (Do.isActivePath (Bbn.run c16_ops).toNxGraph.1 [1, 0, 2, 3] ⟨true, [0]⟩).val? = some false := by decide +kernel
    exact ok_of_val? this
  · have : (Do.isBackdoor (Bbn.run c16_ops).toNxGraph.1 [1, 3]).val? = some false := by decide +kernel
    rw [hb] at this
    cases this

/-- C64 is not vacuous: its hypotheses hold, and the effect 23/100 differs from the conditional probability 59/250 -/
example : BackdoorBlocked (Bbn.run c16_ops) 1 3 [0] ∧
    (∀ τ ∈ allAsg [c16_node 0], EvidenceOn (Bbn.run c16_ops) [] [1, 0] (Function.update τ 1 "on".toList) (c64_h "on".toList τ)) ∧
    (∀ τ ∈ allAsg [c16_node 0], (Bbn.run c16_ops).pr (fun σ => isAt 1 "on".toList σ && agree [c16_node 0] τ σ) ≠ 0) ∧
    (Bbn.run c16_ops).prDo 1 "on".toList (isAt 3 "on".toList) = 23/100 ∧
    (Bbn.run c16_ops).prGiven (isAt 3 "on".toList) (isAt 1 "on".toList) = 59/250 :=
  ⟨c64_blocked, c64_h_on _ (by simp), by decide +kernel, by decide +kernel, by decide +kernel⟩

/-! ## C65: adjusting for all confounders -/

section
open Do
variable {V : Type} [DecidableEq V] {g : DiG V}

/-- **C65, partial**. Full statement (false of the code, see `c65_false`): `get_all_confounders` returns a set that satisfies the back-door
criterion whenever `y` does not point at `x`. Proved here when no collider of a closed backdoor path leads to a node that is on an
open backdoor path, is no descendant of `x` and is not `y`. Missing: other graphs, in which a needed confounder is left out because it is a
collider elsewhere, or a returned one opens a path. -/
theorem c65_all_confounders_partial (it : SetIter V) (hg : g.WF) (hac : g.Acyclic) {x y : V} (hxy : x ≠ y) (hx : x ∈ g.nodes) (hyx : ¬ g.E y x)
    (hcol : ∀ q c, IsPath g.E x y q → Backdoor g.E q → ¬ Open g.E DSep.none q → ColliderOn g.E q c →
      ∀ p n, IsPath g.E x y p → Backdoor g.E p → Open g.E DSep.none p → n ∈ p → n ≠ y → ¬ ReflTransGen g.E x n → ¬ ReflTransGen g.E c n) :
    ∃ r, allConfounders it g x y = .ok r ∧ r.Nodup ∧ ValidAdjustment g.E x y (· ∈ r) := by
  obtain ⟨r, h1, h2, h3⟩ := c41_all_confounders it hg hac hxy hx
  refine ⟨r, h1, h2, fun n hn => ((h3 n).1 hn).2.2.1, ?_⟩
  intro p hp hbp
  by_cases ho : Open g.E DSep.none p
  · obtain ⟨b, l, rfl⟩ := path_cons hp hxy
    obtain ⟨_, _, _, e, hbx⟩ := hbp
    cases e
    have hby : b ≠ y := fun e => hyx (e ▸ hbx)
    have hbd : ¬ ReflTransGen g.E x b := fun hr => hac x (TransGen.tail' hr hbx)
    have hbr : b ∈ r := by
      refine (h3 b).2 ⟨⟨_, hp, ⟨_, _, _, rfl, hbx⟩, ho, by simp⟩, hby, hbd, ?_⟩
      intro q hq hbq hcq hcol'
      exact hcol q b hq hbq hcq hcol' _ b hp ⟨_, _, _, rfl, hbx⟩ ho (by simp) hby hbd .refl
    refine blocked_by hp ho (by simp) ?_ hby hbr
    rintro rfl
    exact hac _ (TransGen.single hbx)
  · intro ho'
    have hno : ∃ c, ColliderOn g.E p c := by
      by_contra hc
      push Not at hc
      exact ho (open_none.2 hc)
    obtain ⟨c, hc⟩ := hno
    obtain ⟨t, ht, e, k1, k2⟩ := colliderOn_iff.1 hc
    obtain ⟨d, hd, hdr⟩ := (open_iff.1 ho' t ht).1 ⟨k1, k2⟩
    obtain ⟨⟨p', hp', hbp', ho'', hn⟩, hny, hnd, _⟩ := (h3 d).1 hdr
    exact hcol p c hp hbp ho hc p' d hp' hbp' ho'' hn hny hnd (e ▸ hd)

/-- **C65**, exactly: what `get_all_confounders` returns satisfies the back-door criterion if and only if every open backdoor path has a
node that is not excluded (is neither `y` nor a descendant of `x` nor a collider of a closed backdoor path), and the returned set
opens no closed backdoor path: on each, a returned node is not a collider there, or some collider leads to no returned node. -/
theorem c65_iff (it : SetIter V) (hg : g.WF) (hac : g.Acyclic) {x y : V} (hxy : x ≠ y) (hx : x ∈ g.nodes) :
    ∃ r, allConfounders it g x y = .ok r ∧ r.Nodup ∧ (ValidAdjustment g.E x y (· ∈ r) ↔
      (∀ p, IsPath g.E x y p → Backdoor g.E p → Open g.E DSep.none p → ∃ n ∈ p, n ≠ y ∧ ¬ ReflTransGen g.E x n ∧
        ∀ q, IsPath g.E x y q → Backdoor g.E q → ¬ Open g.E DSep.none q → ¬ ColliderOn g.E q n) ∧
      ∀ q, IsPath g.E x y q → Backdoor g.E q → ¬ Open g.E DSep.none q →
        (∃ n ∈ r, n ∈ q ∧ ¬ ColliderOn g.E q n) ∨ ∃ c, ColliderOn g.E q c ∧ ∀ n ∈ r, ¬ ReflTransGen g.E c n) := by
  obtain ⟨r, h1, h2, h3⟩ := c41_all_confounders it hg hac hxy hx
  have hrx : ∀ n ∈ r, n ≠ x := fun n hn e => ((h3 n).1 hn).2.2.1 (e ▸ .refl)
  have hry : ∀ n ∈ r, n ≠ y := fun n hn => ((h3 n).1 hn).2.1
  refine ⟨r, h1, h2, ?_, ?_⟩
  · rintro ⟨_, hv⟩
    constructor
    · intro p hp hb ho
      have hbl := hv p hp hb
      by_contra hno
      push Not at hno
      apply hbl
      rw [open_iff]
      intro t ht
      refine ⟨fun hc => absurd (colliderOn_iff.2 ⟨t, ht, rfl, hc.1, hc.2⟩) (open_none.1 ho _), fun _ hz => ?_⟩
      obtain ⟨i, _, k2, _⟩ := (mem_trips p t.1 t.2.1 t.2.2).1 ht
      obtain ⟨_, k3, k4, k5⟩ := (h3 _).1 hz
      obtain ⟨q, q1, q2, q3, q4⟩ := hno _ (List.mem_of_getElem? k2) k3 k4
      exact k5 q q1 q2 q3 q4
    · intro q hq hb hcl
      have hbl := hv q hq hb
      by_contra hno
      push Not at hno
      obtain ⟨hn1, hn2⟩ := hno
      apply hbl
      rw [open_iff]
      intro t ht
      constructor
      · intro hc
        obtain ⟨n, k1, k2⟩ := hn2 _ (colliderOn_iff.2 ⟨t, ht, rfl, hc.1, hc.2⟩)
        exact ⟨n, k2, k1⟩
      · intro hc hz
        obtain ⟨i, k1, k2, k3⟩ := (mem_trips q t.1 t.2.1 t.2.2).1 ht
        have := hn1 _ hz (List.mem_of_getElem? k2)
        obtain ⟨t', ht', e, c1, c2⟩ := colliderOn_iff.1 this
        obtain ⟨j, j1, j2, j3⟩ := (mem_trips q t'.1 t'.2.1 t'.2.2).1 ht'
        have hij : i = j := by
          rw [← e] at k2
          obtain ⟨a1, a2⟩ := List.getElem?_eq_some_iff.1 k2
          obtain ⟨b1, b2⟩ := List.getElem?_eq_some_iff.1 j2
          have := (hq.simple.getElem_inj_iff).1 (a2.trans b2.symm)
          omega
        subst hij
        rw [k1] at j1; rw [k2] at j2; rw [k3] at j3
        refine hc ⟨?_, ?_⟩
        · rw [Option.some.inj j1, Option.some.inj j2]; exact c1
        · rw [Option.some.inj j3, Option.some.inj j2]; exact c2
  · rintro ⟨k1, k2⟩
    refine ⟨fun n hn => ((h3 n).1 hn).2.2.1, ?_⟩
    intro p hp hb
    by_cases ho : Open g.E DSep.none p
    · obtain ⟨n, n1, n2, n3, n4⟩ := k1 p hp hb ho
      have hn : n ∈ r := (h3 n).2 ⟨⟨p, hp, hb, ho, n1⟩, n2, n3, n4⟩
      exact blocked_by hp ho n1 (hrx n hn) n2 hn
    · intro hop
      rcases k2 p hp hb ho with ⟨n, n1, n2, n3⟩ | ⟨c, c1, c2⟩
      · obtain ⟨t, ht, rfl⟩ := trip_of_interior hp n2 (hrx n n1) (hry n n1)
        exact (open_iff.1 hop t ht).2 (fun hc => n3 (colliderOn_iff.2 ⟨t, ht, rfl, hc.1, hc.2⟩)) n1
      · obtain ⟨t, ht, rfl, d1, d2⟩ := colliderOn_iff.1 c1
        obtain ⟨d, d3, d4⟩ := (open_iff.1 hop t ht).1 ⟨d1, d2⟩
        exact c2 d d4 d3

/-- 0 ← 2 → 1 and 0 ← 3 → 2 ← 4 → 1: the confounder 2 is also a collider -/
def c65_g : DiG Nat := diG [(2, 0), (2, 1), (3, 0), (3, 2), (4, 2), (4, 1)]

theorem c65_g_acyclic : c65_g.Acyclic :=
  DiG.acyclic_of_rank (fun n => if n = 3 then 0 else if n = 4 then 0 else if n = 2 then 1 else 2) (by decide)

theorem c65_g_path : IsPath c65_g.E 0 1 [0, 2, 1] := by
  refine ⟨rfl, rfl, ?_, by decide⟩
  simp only [List.isChain_cons_cons, List.isChain_singleton, and_true, Adj, DiG.E, c65_g, diG]
  decide

/-- **C65 is false of the code**: the confounder 2 is left out because it is a collider on the closed path `0 ← 3 → 2 ← 4 → 1`, and
`0 ← 2 → 1` stays open -/
theorem c65_false : c65_g.WF ∧ c65_g.Acyclic ∧ ¬ c65_g.E 1 0 ∧ (allConfounders .same c65_g 0 1).val? = some [4, 3] ∧
    IsPath c65_g.E 0 1 [0, 2, 1] ∧ ¬ ValidAdjustment c65_g.E 0 1 (· ∈ [4, 3]) := by
  refine ⟨diG_wf _, c65_g_acyclic, by decide, by decide +kernel, c65_g_path, ?_⟩
  intro h
  refine h.2 _ c65_g_path ⟨0, 2, _, rfl, by unfold DiG.E; decide⟩ ?_
  obtain ⟨r, h1, h2⟩ := c39_path_activity (g := c65_g) (diG_wf _) c65_g_acyclic c65_g_path (by decide) [4, 3]
  have h3 : (isActivePath c65_g [0, 2, 1] ⟨true, [4, 3]⟩).val? = some true := by decide +kernel
  rw [h1] at h3
  exact h2.1 (Option.some.inj h3)

/-- 0 ← 2 → 1 and 0 ← 3 → 5 ← 4 → 1: the collider leads nowhere -/
def c65_h : DiG Nat := diG [(2, 0), (2, 1), (3, 0), (3, 5), (4, 5), (4, 1)]

theorem c65_h_acyclic : c65_h.Acyclic := DiG.acyclic_of_rank (fun n => if n = 5 then 1 else if n < 2 then 1 else 0) (by decide)

theorem c65_h_hyp : ∀ q c, IsPath c65_h.E 0 1 q → Backdoor c65_h.E q → ¬ Open c65_h.E DSep.none q → ColliderOn c65_h.E q c →
    ∀ p n, IsPath c65_h.E 0 1 p → Backdoor c65_h.E p → Open c65_h.E DSep.none p → n ∈ p → n ≠ 1 → ¬ ReflTransGen c65_h.E 0 n →
      ¬ ReflTransGen c65_h.E c n := by
  have hpaths : ∀ q, IsPath c65_h.E 0 1 q → q = [0, 2, 1] ∨ q = [0, 3, 5, 4, 1] := by
    intro q hq
    have := (c39_all_paths (g := c65_h) (diG_wf _) (by decide) q).2 hq
    have e : allPaths c65_h 0 1 = [[0, 2, 1], [0, 3, 5, 4, 1]] := by decide +kernel
    rw [e] at this
    simpa using this
  have hcoll : ∀ q c, IsPath c65_h.E 0 1 q → ColliderOn c65_h.E q c → c = 5 ∧ q = [0, 3, 5, 4, 1] := by
    intro q c hq hc
    obtain ⟨t, ht, rfl, h1, h2⟩ := colliderOn_iff.1 hc
    rcases hpaths q hq with rfl | rfl
    · simp only [trips, List.mem_cons, List.not_mem_nil, or_false] at ht
      subst ht
      revert h1; unfold DiG.E; decide
    · simp only [trips, List.mem_cons, List.not_mem_nil, or_false] at ht
      rcases ht with rfl | rfl | rfl
      · revert h1; unfold DiG.E; decide
      · exact ⟨rfl, rfl⟩
      · revert h2; unfold DiG.E; decide
  intro q c hq _ _ hc p n hp _ ho hn _ _ hr
  obtain ⟨rfl, hq'⟩ := hcoll q c hq hc
  have h5 : n = 5 := by
    rcases ReflTransGen.cases_head hr with h | ⟨d, h, _⟩
    · exact h.symm
    · revert h
      simp [DiG.E, c65_h, diG]
  subst h5
  rcases hpaths p hp with rfl | rfl
  · simp at hn
  · rw [← hq'] at ho
    exact open_none.1 ho _ hc

/-- C65 is not vacuous: a graph with an open and a closed backdoor path -/
example : (∃ r, allConfounders .same c65_h 0 1 = .ok r ∧ r.Nodup ∧ ValidAdjustment c65_h.E 0 1 (· ∈ r)) ∧
    (allConfounders .same c65_h 0 1).val? = some [2] :=
  ⟨c65_all_confounders_partial .same (diG_wf _) c65_h_acyclic (by decide) (by decide) (by unfold DiG.E; decide) c65_h_hyp, by decide +kernel⟩

/-- the exact criterion at both graphs: it fails at the first and holds at the second -/
example : (∃ r, allConfounders .same c65_g 0 1 = .ok r ∧ ¬ ValidAdjustment c65_g.E 0 1 (· ∈ r)) ∧
    ∃ r, allConfounders .same c65_h 0 1 = .ok r ∧ ValidAdjustment c65_h.E 0 1 (· ∈ r) ∧
      ∀ q, IsPath c65_h.E 0 1 q → Backdoor c65_h.E q → ¬ Open c65_h.E DSep.none q →
        (∃ n ∈ r, n ∈ q ∧ ¬ ColliderOn c65_h.E q n) ∨ ∃ c, ColliderOn c65_h.E q c ∧ ∀ n ∈ r, ¬ ReflTransGen c65_h.E c n := by
  refine ⟨⟨_, ok_of_val? c65_false.2.2.2.1, c65_false.2.2.2.2.2⟩, ?_⟩
  obtain ⟨r, h1, _, h2⟩ := c65_iff .same (g := c65_h) (diG_wf _) c65_h_acyclic (x := 0) (y := 1) (by decide) (by decide)
  obtain ⟨r', k1, _, k2⟩ := c65_all_confounders_partial .same (g := c65_h) (diG_wf _) c65_h_acyclic (x := 0) (y := 1) (by decide) (by decide)
    (by unfold DiG.E; decide) c65_h_hyp
  rw [h1] at k1
  cases k1
  exact ⟨r, h1, k2, (h2.1 k2).2⟩

end

end PyBBN
