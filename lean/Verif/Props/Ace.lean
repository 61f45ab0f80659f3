import Verif.Proofs.Adjust

/-! # C38, C52, C53: causal effects, the joint distribution, the local Markov property -/

namespace PyBBN
open Relation InferenceController

section
variable {it : SetIter Int} {js : SetIter Str} {ops : List BOp} {jt : JoinTree}

/-- edges without a directed cycle -/
def AcyclicOps (ops : List BOp) : Prop := Acyclic (fun p c => (p, c) ∈ BOp.edges ops)

theorem par_iff (ops : List BOp) (p c : Int) : (Bbn.run ops).Par p c ↔ (p, c) ∈ BOp.edges ops := parents_requested ops p c

theorem proper_of (hs : Net.Sane ops) (hac : AcyclicOps ops) (hn : (Bbn.run ops).Normalized (Bbn.run ops).parentVars) :
    (Bbn.run ops).Proper :=
  ⟨bbn_run_inv ops, hs.wf, fun n hn => hs.vals _ (List.mem_map_of_mem hn), hn, by
    have : (Bbn.run ops).Par = fun p c => (p, c) ∈ BOp.edges ops := by funext p c; exact propext (par_iff ops p c)
    rw [this]; exact hac⟩

/-! ## C52 -/

/-- **C52**. If no edges form a cycle and every CPT row sums to one, the joint weights sum to one. -/
theorem c52_total_one (hs : Net.Sane ops) (hac : AcyclicOps ops) (hn : (Bbn.run ops).Normalized (Bbn.run ops).parentVars) :
    (Bbn.run ops).total noEvidence = 1 := total_one (proper_of hs hac hn)

/-- … so the priors computed by `get_posteriors` on a fresh join tree are sums of joint weights, without any normalization. -/
theorem c52_prior (hu : Net.Usable ops) (hac : AcyclicOps ops) (hn : (Bbn.run ops).Normalized (Bbn.run ops).parentVars)
    (hname : ((Bbn.run ops).vars.map Variable.name).Nodup) (hj : apply it js (Bbn.run ops) = .ok jt) :
    ∃ d, jt.getPosteriors = .ok d ∧ ∀ v ∈ (Bbn.run ops).vars,
      Dict.get? d v.name = some (v.values.map (fun x => (x, (Bbn.run ops).mass noEvidence v.id x))) := by
  obtain ⟨d, h1, _, h2⟩ := Reach.posteriors (ℓ := noEvidence) hu hj hname ⟨[], by simp, rfl, fun _ _ _ _ => rfl⟩
  refine ⟨d, h1, ?_⟩
  intro v hv
  rw [h2 v hv]
  unfold Bbn.posterior
  rw [c52_total_one hu.toSane hac hn]
  simp

theorem acyclic_of_lt (h : ∀ e ∈ BOp.edges ops, e.1 < e.2) : AcyclicOps ops := by
  have key : ∀ a b : Int, TransGen (fun p c => (p, c) ∈ BOp.edges ops) a b → a < b := by
    intro a b hab
    induction hab with
    | single hm => exact h _ hm
    | tail _ hm ih => exact lt_trans ih (h _ hm)
  intro a ha
  exact lt_irrefl a (key a a ha)

theorem c16_acyclic : AcyclicOps c16_ops := acyclic_of_lt (by decide +kernel)

theorem c16_normalized : (Bbn.run c16_ops).Normalized (Bbn.run c16_ops).parentVars :=
  normalized_of_rows (fun _ v hv => parentVars_sub (bbn_run_inv _) _ v hv) (by decide +kernel)

/-- C52 is not vacuous: the example network. Without normalized rows or with a cycle the total can be anything. -/
example : Net.Usable c16_ops ∧ AcyclicOps c16_ops ∧ (Bbn.run c16_ops).Normalized (Bbn.run c16_ops).parentVars ∧
    ((Bbn.run c16_ops).vars.map Variable.name).Nodup ∧
    (Bbn.run [.addEdge (mkNode 0 "a" [1/2, 1/2, 1/4, 3/4]) (mkNode 1 "b" [1/2, 1/2, 1/4, 3/4]),
      .addEdge (mkNode 1 "b" [1/2, 1/2, 1/4, 3/4]) (mkNode 0 "a" [1/2, 1/2, 1/4, 3/4])]).total noEvidence ≠ 1 :=
  ⟨c16_usable, c16_acyclic, c16_normalized, by decide +kernel, by decide +kernel⟩

example := c52_total_one c16_usable.toSane c16_acyclic c16_normalized
example := c52_prior c16_usable c16_acyclic c16_normalized (by decide +kernel) (c16_jt_ok .same .rev)

/-! ## C53 -/

/-- **C53** (local Markov property of the computed posteriors). After any history of unambiguous evidence that leaves all parents
of a node observed, neither the node nor its descendants with evidence, and the evidence possible: `get_posteriors` gives the
node the row of its CPT selected by the observed values, whatever evidence there is on other nodes. -/
theorem c53_local_markov (hu : Net.Usable ops) (hac : AcyclicOps ops) (hn : (Bbn.run ops).Normalized (Bbn.run ops).parentVars)
    (hname : ((Bbn.run ops).vars.map Variable.name).Nodup) (hj : apply it js (Bbn.run ops) = .ok jt)
    (h : List (SetIter Str × EvOp)) (hok : ∀ op ∈ h, op.2.Ok (Bbn.run ops).vars)
    {n : BbnNode} (hnode : n ∈ (Bbn.run ops).toGraph.getNodes) (τ : Asg)
    (hpar : ∀ p ∈ (Bbn.run ops).parentVars n.var.id, ∀ u ∈ p.values,
      specHist (Bbn.run ops).vars h p.id u = if u = τ p.id then 1 else 0)
    (hdesc : ∀ w ∈ (Bbn.run ops).vars, ReflTransGen (fun p c => (p, c) ∈ BOp.edges ops) n.var.id w.id →
      ∀ u ∈ w.values, specHist (Bbn.run ops).vars h w.id u = 1)
    (hpos : (Bbn.run ops).total (specHist (Bbn.run ops).vars h) ≠ 0) :
    ∃ d, (runHist jt h).getPosteriors = .ok d ∧ Dict.get? d n.var.name = some (n.var.values.map (fun x =>
      (x, cptAt n.probs ((Bbn.run ops).parentVars n.var.id) n.var (Function.update τ n.var.id x)))) := by
  obtain ⟨d, h1, _, h2⟩ := Reach.posteriors (s := runHist jt h) (ℓ := specHist (Bbn.run ops).vars h) hu hj hname
    ⟨h, hok, rfl, fun _ _ _ _ => rfl⟩
  refine ⟨d, h1, ?_⟩
  rw [h2 n.var (List.mem_map_of_mem hnode)]
  congr 1
  apply List.map_congr_left
  intro x hx
  have hP : (Bbn.run ops).Par = fun p c => (p, c) ∈ BOp.edges ops := by funext p c; exact propext (par_iff ops p c)
  rw [posterior_row (proper_of hu.toSane hac hn) hnode hpar (by rw [hP]; exact hdesc) hpos hx]

/-- the parents 1 and 2 of node 3 observed at on and off, and virtual evidence on their common parent -/
def c53_hist : List (SetIter Str × EvOp) :=
  [(.same, .update [obs (c16_node 1) "on".toList, Evidence.build (c16_node 0) .virtual [("on".toList, 3/4), ("off".toList, 1/4)]]),
   (.rev, .observe (obs (c16_node 2) "off".toList))]

def c53_asg : Asg := fun i => if i = 1 then "on".toList else "off".toList

theorem c53_hist_ok : ∀ op ∈ c53_hist, op.2.Ok (Bbn.run c16_ops).vars := by
  intro op hop
  simp only [c53_hist, List.mem_cons, List.not_mem_nil, or_false] at hop
  rcases hop with rfl | rfl
  · intro e he
    simp only [List.mem_cons, List.not_mem_nil, or_false] at he
    rcases he with rfl | rfl
    · exact ⟨by decide +kernel, unambiguous_of_check (by decide +kernel)⟩
    · exact ⟨by decide +kernel, unambiguous_of_check (by decide +kernel)⟩
  · exact ⟨by decide +kernel, unambiguous_of_check (by decide +kernel)⟩

/-- C53 is not vacuous: node 3 of the example network gets the row of its CPT for 2 = off, 1 = on (its first parent is 2): 3/10 and 7/10 -/
example : (∀ op ∈ c53_hist, op.2.Ok (Bbn.run c16_ops).vars) ∧
    (∀ p ∈ (Bbn.run c16_ops).parentVars 3, ∀ u ∈ p.values,
      specHist (Bbn.run c16_ops).vars c53_hist p.id u = if u = c53_asg p.id then 1 else 0) ∧
    (∀ w ∈ (Bbn.run c16_ops).vars, 3 ≤ w.id → ∀ u ∈ w.values, specHist (Bbn.run c16_ops).vars c53_hist w.id u = 1) ∧
    (Bbn.run c16_ops).total (specHist (Bbn.run c16_ops).vars c53_hist) ≠ 0 ∧
    ((apply .same .same (Bbn.run c16_ops)).val?.bind (fun jt => (runHist jt c53_hist).getPosteriors.val?)).bind
      (fun d => Dict.get? d "d".toList) = some [("on".toList, 3/10), ("off".toList, 7/10)] :=
  ⟨c53_hist_ok, by decide +kernel, by decide +kernel, by decide +kernel, by decide +kernel⟩

/-- C53 at this network, history and node -/
example := c53_local_markov c16_usable c16_acyclic c16_normalized (by decide +kernel) (c16_jt_ok .same .rev) c53_hist c53_hist_ok
  (n := mkNode 3 "d" [1/10, 9/10, 1/5, 4/5, 3/10, 7/10, 0, 1]) (by decide +kernel) c53_asg (by decide +kernel)
  (by
    have hle : ∀ b : Int, ReflTransGen (fun p c => (p, c) ∈ BOp.edges c16_ops) 3 b → 3 ≤ b := by
      intro b h
      induction h with
      | refl => exact le_refl _
      | tail _ h ih =>
        have : ∀ e ∈ BOp.edges c16_ops, e.1 < e.2 := by decide +kernel
        exact le_trans ih (this _ h).le
    have hw : ∀ w ∈ (Bbn.run c16_ops).vars, 3 ≤ w.id → ∀ u ∈ w.values, specHist (Bbn.run c16_ops).vars c53_hist w.id u = 1 := by
      decide +kernel
    exact fun w hv h => hw w hv (hle _ h)) (by decide +kernel)

/-! ## C38 -/

/-- what `get_ace` returns for the value `x` of node `v`: the conditional probability of `y = yv` given `v = x` and the values of
the parents of `v`, averaged with the *product of the prior probabilities* of these values -/
def aceValue (b : Bbn) (v y : Variable) (yv x : Str) : ℚ :=
  ((allAsg (b.causes v.id)).map (fun τ =>
    b.prGiven (isAt y.id yv) (fun σ => isAt v.id x σ && agree (b.causes v.id) τ σ) *
      ((b.causes v.id).map (fun z => b.pr (isAt z.id (τ z.id)))).prod)).sum

/-- the parents of a node are independent of each other -/
def IndependentCauses (b : Bbn) (id : Int) : Prop :=
  ∀ τ ∈ allAsg (b.causes id), b.pr (agree (b.causes id) τ) = ((b.causes id).map (fun z => b.pr (isAt z.id (τ z.id)))).prod

/-- every value of the node is possible together with any possible values of its parents -/
def Overlap (b : Bbn) (v : Variable) : Prop :=
  ∀ x ∈ v.values, ∀ τ ∈ allAsg (b.causes v.id), b.pr (agree (b.causes v.id) τ) ≠ 0 →
    b.pr (fun σ => isAt v.id x σ && agree (b.causes v.id) τ σ) ≠ 0

/-- **C38, exact behaviour**. On a connected network with distinct names, whatever unambiguous evidence was set before: `get_ace`
returns `aceValue` for each value of `x` in order, and leaves the join tree without evidence. -/
theorem c38_get_ace (hu : Net.Usable ops) (hname : ((Bbn.run ops).vars.map Variable.name).Nodup)
    (hj : apply it js (Bbn.run ops) = .ok jt) (h : List (SetIter Str × EvOp)) (hok : ∀ op ∈ h, op.2.Ok (Bbn.run ops).vars)
    (k : SetIter Str) {v y : Variable} {yv : Str} (hv : v ∈ (Bbn.run ops).vars) (hy : y ∈ (Bbn.run ops).vars) (hyv : yv ∈ y.values) :
    ∃ h' : List (SetIter Str × EvOp), (∀ op ∈ h', op.2.Ok (Bbn.run ops).vars) ∧
      (∀ w ∈ (Bbn.run ops).vars, ∀ u ∈ w.values, specHist (Bbn.run ops).vars h' w.id u = 1) ∧
      Ace.getAce k ⟨Bbn.run ops, runHist jt h⟩ v.name y.name yv =
        (runHist jt h', .ok (v.values.map (fun x => (x, aceValue (Bbn.run ops) v y yv x)))) := by
  obtain ⟨s', a1, h', h1, h2, h3⟩ := getAce_ok (s := runHist jt h) (ℓ := specHist (Bbn.run ops).vars h) hu hj hname k hv hy hyv
    (hu.wf.noLoop v.id) ⟨h, hok, rfl, fun _ _ _ _ => rfl⟩
  refine ⟨h', h1, h3, ?_⟩
  rw [a1, h2]
  rfl

/-- **C38, partial**. Full statement (false of the code, see `c38_false`): for every network `get_ace(x, y, y_val)` maps each value
of `x` to the probability of `y = y_val` when `x` is set to it. Proved here when the parents of `x` are independent of each other.
Missing: dependent parents, for which the code multiplies marginal probabilities where the joint probability is needed. -/
theorem c38_causal_effect_partial (hu : Net.Usable ops) (hac : AcyclicOps ops)
    (hn : (Bbn.run ops).Normalized (Bbn.run ops).parentVars) (hname : ((Bbn.run ops).vars.map Variable.name).Nodup)
    (hj : apply it js (Bbn.run ops) = .ok jt) (h : List (SetIter Str × EvOp)) (hok : ∀ op ∈ h, op.2.Ok (Bbn.run ops).vars)
    (k : SetIter Str) {v y : Variable} {yv : Str} (hv : v ∈ (Bbn.run ops).vars) (hy : y ∈ (Bbn.run ops).vars) (hyv : yv ∈ y.values)
    (hind : IndependentCauses (Bbn.run ops) v.id) (hover : Overlap (Bbn.run ops) v) :
    (Ace.getAce k ⟨Bbn.run ops, runHist jt h⟩ v.name y.name yv).2 =
      .ok (v.values.map (fun x => (x, (Bbn.run ops).prDo v.id x (isAt y.id yv)))) := by
  obtain ⟨h', _, _, a1⟩ := c38_get_ace hu hname hj h hok k hv hy hyv
  rw [a1]
  show Except.ok _ = Except.ok _
  congr 1
  apply List.map_congr_left
  intro x hx
  obtain ⟨n, hnode, rfl⟩ := List.mem_map.1 hv
  obtain ⟨g1, g2, g3, g4⟩ := causes_spec (bbn_run_inv ops) n.var.id
  rw [← adjustment (proper_of hu.toSane hac hn) hnode hx g2 g3 g4 (isAt y.id yv) (hover x hx)]
  unfold aceValue
  congr 2
  apply List.map_congr_left
  intro τ hτ
  rw [hind τ hτ]

/-- a node with at most one parent needs no independence assumption -/
theorem c38_single_parent (b : Bbn) (hb : b.Proper) (id : Int) (h1 : (b.causes id).length ≤ 1) : IndependentCauses b id := by
  intro τ _
  match hZ : b.causes id with
  | [] =>
    have : agree [] τ = fun _ => true := by funext σ; simp [agree]
    rw [this]
    have htot : b.weightOf (fun _ => true) = 1 := by rw [weightOf_true, total_one hb]
    unfold Bbn.pr
    rw [htot]
    simp
  | [z] =>
    have : agree [z] τ = isAt z.id (τ z.id) := by funext σ; simp [agree, isAt]
    rw [this]
    simp
  | _ :: _ :: _ => rw [hZ] at h1; simp at h1

/-- **C38, errors**: an unknown name for `x` raises `KeyError`, before anything changes. -/
theorem c38_unknown_x (k : SetIter Str) (s : JoinTree) {x : Str} (hx : x ∉ (Bbn.run ops).vars.map Variable.name) (y yv : Str) :
    Ace.getAce k ⟨Bbn.run ops, s⟩ x y yv = (s, .error .keyError) := by
  have : Dict.get? (Bbn.run ops).getN2i x = none := by
    rw [c51_n2i]
    have : (Bbn.run ops).toGraph.getNodes.filter (fun n => decide (n.var.name = x)) = [] := by
      rw [List.filter_eq_nil_iff]
      intro n hn he
      rw [decide_eq_true_eq] at he
      exact hx (he ▸ List.mem_map.2 ⟨n.var, List.mem_map_of_mem hn, rfl⟩)
    rw [this]
    rfl
  unfold Ace.getAce Ace.plan Dict.getItem
  rw [this]
  rfl

/-- **C38, errors**: an unknown name for `y`, or a value that `y` does not have, raises `KeyError`. -/
theorem c38_unknown_y (hu : Net.Usable ops) (hname : ((Bbn.run ops).vars.map Variable.name).Nodup)
    (hj : apply it js (Bbn.run ops) = .ok jt) (h : List (SetIter Str × EvOp)) (hok : ∀ op ∈ h, op.2.Ok (Bbn.run ops).vars)
    (k : SetIter Str) {v : Variable} {y yv : Str} (hv : v ∈ (Bbn.run ops).vars)
    (hy : ∀ w ∈ (Bbn.run ops).vars, w.name = y → yv ∉ w.values) :
    (Ace.getAce k ⟨Bbn.run ops, runHist jt h⟩ v.name y yv).2 = .error .keyError := by
  have hd := doms hu.toSane
  have hs : Reach ops jt (runHist jt h) (specHist (Bbn.run ops).vars h) := ⟨h, hok, rfl, fun _ _ _ _ => rfl⟩
  obtain ⟨g1, g2, g3, g4⟩ := causes_spec (bbn_run_inv ops) v.id
  have hvZ : v.id ∉ vids ((Bbn.run ops).causes v.id) := fun hm => hu.wf.noLoop v.id ((g4 _).1 hm)
  unfold Ace.getAce
  rw [plan_ok hname hv, tuples_eq g2]
  match hvals : v.values with
  | [] => exact absurd hvals (hd.ne v hv)
  | x :: xs =>
    have hx : x ∈ v.values := by rw [hvals]; exact List.mem_cons_self
    match hts : (product (((Bbn.run ops).causes v.id).map Variable.values)).map (over asg0 (vids ((Bbn.run ops).causes v.id))) with
    | [] => exact absurd hts (tuples_ne hd g3)
    | τ :: τs =>
      have hτ : ∀ z ∈ (Bbn.run ops).causes v.id, τ z.id ∈ z.values := by
        have : τ ∈ (product (((Bbn.run ops).causes v.id).map Variable.values)).map (over asg0 (vids ((Bbn.run ops).causes v.id))) := by
          rw [hts]; exact List.mem_cons_self
        obtain ⟨tup, ht, rfl⟩ := List.mem_map.1 this
        exact over_mem_dom asg0 _ tup g2 ht
      show (Ace.xLoop k v.name y yv ((τ :: τs).map _) (x :: xs) [] (runHist jt h)).2 = _
      unfold Ace.xLoop
      rw [JtM.bind_ok' (JtM.read_ok (hs.evidence hu hj hname hv x)), List.map_cons]
      obtain ⟨s1, a1⟩ := yxzProb_err hu hj hname k (y := y) (yv := yv) hv hy g3 hvZ hτ hs (obs_obsAt hv hx)
      have hz : Ace.zLoop k y yv (((Bbn.run ops).causes v.id).map (fun z => (z.name, τ z.id)) ::
          τs.map (fun τ => ((Bbn.run ops).causes v.id).map (fun z => (z.name, τ z.id)))) (obs v x) 0 (runHist jt h) =
          (s1, .error .keyError) := by
        unfold Ace.zLoop
        rw [JtM.bind_ok' (JtM.read_ok (hs.evidences hu hj hname g3 τ)), JtM.bind_err a1]
      rw [JtM.bind_err hz]

end

/-- C38 is not vacuous: node 1 of the example network has one parent, and its effect on node 4 differs from conditioning -/
example : (Bbn.run c16_ops).causes 1 = [c16_node 0] ∧ IndependentCauses (Bbn.run c16_ops) 1 ∧ Overlap (Bbn.run c16_ops) (c16_node 1) ∧
    ((apply .same .same (Bbn.run c16_ops)).val?.bind (fun jt =>
      (Ace.getAce .same ⟨Bbn.run c16_ops, runHist jt c18_hist⟩ "b".toList "e".toList "on".toList).2.val?)) =
      some [("on".toList, (Bbn.run c16_ops).prDo 1 "on".toList (isAt 4 "on".toList)),
        ("off".toList, (Bbn.run c16_ops).prDo 1 "off".toList (isAt 4 "on".toList))] ∧
    (Bbn.run c16_ops).prDo 1 "on".toList (isAt 4 "on".toList) ≠
      (Bbn.run c16_ops).prGiven (isAt 4 "on".toList) (isAt 1 "on".toList) :=
  ⟨by decide +kernel, c38_single_parent _ (proper_of c16_usable.toSane c16_acyclic c16_normalized) _ (by decide +kernel),
    by unfold Overlap; decide +kernel, by decide +kernel, by decide +kernel⟩

/-- the theorems of C38 at this network and history -/
example := c38_get_ace c16_usable (by decide +kernel) (c16_jt_ok .same .rev) c18_hist c18_hist_ok .rev (v := c16_node 1) (y := c16_node 4)
  (yv := "on".toList) (by decide +kernel) (by decide +kernel) (by decide +kernel)
example := c38_causal_effect_partial c16_usable c16_acyclic c16_normalized (by decide +kernel) (c16_jt_ok .same .rev) c18_hist c18_hist_ok .rev
  (v := c16_node 1) (y := c16_node 4) (yv := "on".toList) (by decide +kernel) (by decide +kernel) (by decide +kernel)
  (c38_single_parent _ (proper_of c16_usable.toSane c16_acyclic c16_normalized) _ (by decide +kernel)) (by unfold Overlap; decide +kernel)
example := c38_unknown_x (ops := c16_ops) .same (c16_jt .same .same) (x := "zz".toList) (by decide +kernel) "e".toList "on".toList
example := c38_unknown_y c16_usable (by decide +kernel) (c16_jt_ok .same .rev) c18_hist c18_hist_ok .rev (v := c16_node 1) (y := "e".toList)
  (yv := "neither".toList) (by decide +kernel) (by decide +kernel)

/-- 0 → 1, and both are parents of 2 and of 3; 2 → 3 -/
def c38_ops : List BOp :=
  [.addEdge (mkNode 0 "a" [1/2, 1/2]) (mkNode 1 "b" [3/4, 1/4, 1/4, 3/4]),
   .addEdge (mkNode 0 "a" [1/2, 1/2]) (mkNode 2 "x" [1/2, 1/2, 1/2, 1/2, 1/2, 1/2, 1/2, 1/2]),
   .addEdge (mkNode 1 "b" [3/4, 1/4, 1/4, 3/4]) (mkNode 2 "x" [1/2, 1/2, 1/2, 1/2, 1/2, 1/2, 1/2, 1/2]),
   .addEdge (mkNode 0 "a" [1/2, 1/2]) (mkNode 3 "y" [1, 0, 1, 0, 0, 1, 0, 1, 0, 1, 0, 1, 1, 0, 1, 0]),
   .addEdge (mkNode 1 "b" [3/4, 1/4, 1/4, 3/4]) (mkNode 3 "y" [1, 0, 1, 0, 0, 1, 0, 1, 0, 1, 0, 1, 1, 0, 1, 0]),
   .addEdge (mkNode 2 "x" [1/2, 1/2, 1/2, 1/2, 1/2, 1/2, 1/2, 1/2]) (mkNode 3 "y" [1, 0, 1, 0, 0, 1, 0, 1, 0, 1, 0, 1, 1, 0, 1, 0])]

theorem c38_usable : Net.Usable c38_ops := by
  refine ⟨⟨wf_of_check (by decide +kernel) (by decide +kernel), by decide +kernel⟩, ?_⟩
  have e : ∀ p c, (p, c) ∈ BOp.edges c38_ops → EqvGen (fun p c => (p, c) ∈ BOp.edges c38_ops) p c := fun p c h => EqvGen.rel _ _ h
  have h1 := e 0 1 (by decide +kernel)
  have h2 := e 0 2 (by decide +kernel)
  have h3 := e 0 3 (by decide +kernel)
  have hv : ∀ u ∈ (Bbn.run c38_ops).vars, EqvGen (fun p c => (p, c) ∈ BOp.edges c38_ops) 0 u.id := by
    have hid : (Bbn.run c38_ops).vars.map Variable.id = [0, 1, 2, 3] := by decide +kernel
    intro u hu
    have : u.id ∈ (Bbn.run c38_ops).vars.map Variable.id := List.mem_map.2 ⟨u, hu, rfl⟩
    rw [hid] at this
    simp only [List.mem_cons, List.not_mem_nil, or_false] at this
    rcases this with h | h | h | h <;> rw [h]
    · exact EqvGen.refl _
    all_goals assumption
  intro u hu v hv'
  exact EqvGen.trans _ _ _ (EqvGen.symm _ _ (hv u hu)) (hv v hv')

/-- **C38 is false of the code**: `b` agrees with `a` with probability 3/4, `x` is an independent coin, and `y` is on exactly when
`a` and `b` agree. Setting `x` leaves `y` on with probability 3/4; `get_ace` answers 1/2, because it takes the probability of
`a = on, b = on` to be 1/2 · 1/2 instead of 3/8. -/
theorem c38_false : Net.Usable c38_ops ∧ AcyclicOps c38_ops ∧ (Bbn.run c38_ops).Normalized (Bbn.run c38_ops).parentVars ∧
    Overlap (Bbn.run c38_ops) (mkNode 2 "x" []).var ∧ ¬ IndependentCauses (Bbn.run c38_ops) 2 ∧
    (∀ x ∈ ["on".toList, "off".toList], (Bbn.run c38_ops).prDo 2 x (isAt 3 "on".toList) = 3/4) ∧
    ((apply .same .same (Bbn.run c38_ops)).val?.bind (fun jt =>
      (Ace.getAce .same ⟨Bbn.run c38_ops, jt⟩ "x".toList "y".toList "on".toList).2.val?)) =
      some [("on".toList, 1/2), ("off".toList, 1/2)] :=
  ⟨c38_usable, acyclic_of_lt (by decide +kernel),
    normalized_of_rows (fun _ v hv => parentVars_sub (bbn_run_inv _) _ v hv) (by decide +kernel),
    by unfold Overlap; decide +kernel, by unfold IndependentCauses; decide +kernel, by decide +kernel, by decide +kernel⟩

end PyBBN
