import Verif.Proofs.Fade
import Verif.Props.Ancestral
import Verif.Props.Certain
import Verif.Props.Ace

/-! # C108: the report of a node without evidence below it follows from the reports of its parents, and influence fades along chains -/

namespace PyBBN
open Relation InferenceController

/-- the entry of the CPT of `n`, whose only parent is `p`, for the value `u` of the parent and `x` of the node -/
def entry1 (n : BbnNode) (p : Variable) (u x : Str) : ℚ := n.probs.getD (p.values.idxOf u * n.var.values.length + n.var.values.idxOf x) 0

/-- `ns` are nodes of the network, each with the one before (the first with `p`) as its only parent -/
def OnlyChild (b : Bbn) : Variable → List BbnNode → Prop
  | _, [] => True
  | p, n :: ns => n ∈ b.toGraph.getNodes ∧ b.parentVars n.var.id = [p] ∧ OnlyChild b n.var ns

/-- any two rows of the CPTs of these nodes have total variation distance at most `δ` -/
def RowsWithin (δ : BbnNode → ℚ) : Variable → List BbnNode → Prop
  | _, [] => True
  | p, n :: ns => (∀ u ∈ p.values, ∀ u' ∈ p.values, (n.var.values.map (fun x => |entry1 n p u x - entry1 n p u' x|)).sum ≤ 2 * δ n) ∧
      RowsWithin δ n.var ns

/-- the end of the chain -/
def chainEnd : Variable → List BbnNode → Variable
  | p, [] => p
  | _, n :: ns => chainEnd n.var ns

section
variable {it : SetIter Int} {js : SetIter Str} {ops : List BOp} {jt : JoinTree}

/-- **C108**. On a connected acyclic network with normalized CPTs, after any history of evidence: if no evidence about a node and about what
descends from it is stored, then the report of the node is the average of the rows of its CPT, each weighted with the probability
of its parent values under the evidence. -/
theorem c108_average (hu : Net.Usable ops) (hac : AcyclicOps ops) (hn : (Bbn.run ops).Normalized (Bbn.run ops).parentVars)
    (hj : apply it js (Bbn.run ops) = .ok jt) (h : List (SetIter Str × EvOp)) (hp : ∀ op ∈ h, op.2.Proper (Bbn.run ops).vars)
    {n : BbnNode} (hnode : n ∈ (Bbn.run ops).toGraph.getNodes)
    (hdesc : ∀ w ∈ (Bbn.run ops).vars, ReflTransGen (fun p c => (p, c) ∈ BOp.edges ops) n.var.id w.id → NoEvidenceOn (runHist jt h) w)
    {x : Str} (hx : x ∈ n.var.values) :
    Reports (runHist jt h) n.var x (((allAsg ((Bbn.run ops).parentVars n.var.id)).map (fun τ =>
      cptAt n.probs ((Bbn.run ops).parentVars n.var.id) n.var (Function.update τ n.var.id x) *
        (Bbn.run ops).belief (lawHist (Bbn.run ops).vars h).prop (agree ((Bbn.run ops).parentVars n.var.id) τ))).sum) := by
  have hP : (Bbn.run ops).Par = fun p c => (p, c) ∈ BOp.edges ops := by funext p c; exact propext (par_iff ops p c)
  obtain ⟨T, l1, _, _⟩ := live_law hu.toSane hj h hp
  have hclean := lawHist_clean (doms hu.toSane) h hp
  have := posterior_average (proper_of hu.toSane hac hn) hnode l1.calib.likNonneg (x := x) (by
    intro u hu' hr
    rw [hP] at hr
    refine hclean.2 u hu' ?_
    rw [lawHist_stored]
    exact noEvidenceOn_iff hu hj h hp hu' (hdesc u hu' hr)) hx
  have h2 := reports_law hu hj h hp (List.mem_map_of_mem hnode) hx
  rw [this] at h2
  exact h2

/-- **C108**, with a single parent: the report of the node follows from its CPT and the report of the parent alone. -/
theorem c108_single (hu : Net.Usable ops) (hac : AcyclicOps ops) (hn : (Bbn.run ops).Normalized (Bbn.run ops).parentVars)
    (hj : apply it js (Bbn.run ops) = .ok jt) (h : List (SetIter Str × EvOp)) (hp : ∀ op ∈ h, op.2.Proper (Bbn.run ops).vars)
    {n : BbnNode} (hnode : n ∈ (Bbn.run ops).toGraph.getNodes) {p : Variable} (hpar : (Bbn.run ops).parentVars n.var.id = [p])
    (hdesc : ∀ w ∈ (Bbn.run ops).vars, ReflTransGen (fun p c => (p, c) ∈ BOp.edges ops) n.var.id w.id → NoEvidenceOn (runHist jt h) w)
    {r : Str → ℚ} (hr : ∀ u ∈ p.values, Reports (runHist jt h) p u (r u)) {x : Str} (hx : x ∈ n.var.values) :
    Reports (runHist jt h) n.var x ((p.values.map (fun u => entry1 n p u x * r u)).sum) := by
  have hP : (Bbn.run ops).Par = fun p c => (p, c) ∈ BOp.edges ops := by funext p c; exact propext (par_iff ops p c)
  obtain ⟨T, l1, _, _⟩ := live_law hu.toSane hj h hp
  have hclean := lawHist_clean (doms hu.toSane) h hp
  have hpv : p ∈ (Bbn.run ops).vars := parentVars_sub (bbn_run_inv ops) n.var.id p (by rw [hpar]; exact List.mem_cons_self)
  have hne : p.id ≠ n.var.id := by
    intro e
    have h1 := vids_parentVars (bbn_run_inv ops) n.var.id
    rw [hpar] at h1
    have h2 : (Bbn.run ops).Par n.var.id n.var.id := by
      show n.var.id ∈ ddGet (Bbn.run ops).parents n.var.id
      rw [← h1, ← e]; exact List.mem_cons_self
    exact (proper_of hu.toSane hac hn).acyclic _ (TransGen.single h2)
  have := posterior_single (proper_of hu.toSane hac hn) hnode hpar l1.calib.likNonneg (x := x) (by
    intro u hu' hr
    rw [hP] at hr
    refine hclean.2 u hu' ?_
    rw [lawHist_stored]
    exact noEvidenceOn_iff hu hj h hp hu' (hdesc u hu' hr)) hx
  have h2 := reports_law hu hj h hp (List.mem_map_of_mem hnode) hx
  rw [this] at h2
  have e : p.values.map (fun u => (Bbn.run ops).w n (Function.update (Function.update asg0 p.id u) n.var.id x) *
      (Bbn.run ops).posterior (lawHist (Bbn.run ops).vars h).prop p.id u) = p.values.map (fun u => entry1 n p u x * r u) := by
    apply List.map_congr_left
    intro u hu'
    rw [reports_unique (hr u hu') (reports_law hu hj h hp hpv hu')]
    congr 1
    unfold Bbn.w cptAt cptIndex
    rw [hpar]
    unfold rowIdx entry1
    simp only [List.foldl_cons, List.foldl_nil, Function.update_self, Function.update_of_ne hne, Nat.zero_mul, Nat.zero_add]
  rw [e] at h2
  exact h2

/-- reports sum to one if the evidence is possible -/
theorem reports_total (hu : Net.Usable ops) (hj : apply it js (Bbn.run ops) = .ok jt) (h : List (SetIter Str × EvOp))
    (hp : ∀ op ∈ h, op.2.Proper (Bbn.run ops).vars) {w : Variable} (hw : w ∈ (Bbn.run ops).vars) {z : Str} (hz : z ∈ w.values) {q : ℚ}
    (hq : Reports (runHist jt h) w z q) (hq0 : q ≠ 0) {v : Variable} (hv : v ∈ (Bbn.run ops).vars) {r : Str → ℚ}
    (hr : ∀ u ∈ v.values, Reports (runHist jt h) v u (r u)) : (v.values.map r).sum = 1 := by
  have hpos : (Bbn.run ops).total (lawHist (Bbn.run ops).vars h).prop ≠ 0 := by
    intro e
    have := reports_unique hq (reports_law hu hj h hp hw hz)
    unfold Bbn.posterior at this
    rw [e, div_zero] at this
    exact hq0 this
  have e : v.values.map r = v.values.map (fun u => (Bbn.run ops).mass (lawHist (Bbn.run ops).vars h).prop v.id u *
      ((Bbn.run ops).total (lawHist (Bbn.run ops).vars h).prop)⁻¹) := by
    apply List.map_congr_left
    intro u hu'
    rw [reports_unique (hr u hu') (reports_law hu hj h hp hv hu')]
    exact div_eq_mul_inv _ _
  rw [e, List.sum_map_mul_right, sum_mass (bbn_run_inv ops) _ hv ((doms hu.toSane).vals v hv)]
  exact mul_inv_cancel₀ hpos

/-- **C108**: influence fades along chains. Take two histories of possible evidence that leave no evidence about the first node of a chain and
what descends from it. The reports for the end of the chain under the two histories differ (in the sum over the values) by at most the
product of the distances of the rows of the CPTs along the chain times the difference of the reports for the start of the chain. -/
theorem c108_fades (hu : Net.Usable ops) (hac : AcyclicOps ops) (hn : (Bbn.run ops).Normalized (Bbn.run ops).parentVars)
    (hj : apply it js (Bbn.run ops) = .ok jt) (h h' : List (SetIter Str × EvOp)) (hp : ∀ op ∈ h, op.2.Proper (Bbn.run ops).vars)
    (hp' : ∀ op ∈ h', op.2.Proper (Bbn.run ops).vars)
    {w : Variable} (hw : w ∈ (Bbn.run ops).vars) {z : Str} (hz : z ∈ w.values) {q : ℚ} (hq : Reports (runHist jt h) w z q) (hq0 : q ≠ 0)
    {w' : Variable} (hw' : w' ∈ (Bbn.run ops).vars) {z' : Str} (hz' : z' ∈ w'.values) {q' : ℚ} (hq' : Reports (runHist jt h') w' z' q') (hq0' : q' ≠ 0)
    {r r' : Variable → Str → ℚ} (hr : ∀ v ∈ (Bbn.run ops).vars, ∀ x ∈ v.values, Reports (runHist jt h) v x (r v x))
    (hr' : ∀ v ∈ (Bbn.run ops).vars, ∀ x ∈ v.values, Reports (runHist jt h') v x (r' v x)) (δ : BbnNode → ℚ) :
    ∀ (ns : List BbnNode) (p : Variable), p ∈ (Bbn.run ops).vars → OnlyChild (Bbn.run ops) p ns → RowsWithin δ p ns →
      (∀ n ∈ ns.head?, ∀ v ∈ (Bbn.run ops).vars, ReflTransGen (fun p c => (p, c) ∈ BOp.edges ops) n.var.id v.id →
        NoEvidenceOn (runHist jt h) v ∧ NoEvidenceOn (runHist jt h') v) →
      0 ≤ (ns.map δ).prod ∧ ((chainEnd p ns).values.map (fun x => |r (chainEnd p ns) x - r' (chainEnd p ns) x|)).sum ≤
        (ns.map δ).prod * (p.values.map (fun x => |r p x - r' p x|)).sum
  | [], p, _, _, _, _ => by simp [chainEnd]
  | n :: ns, p, hpv, hc, hd, he => by
      obtain ⟨c1, c2, c3⟩ := hc
      obtain ⟨d1, d2⟩ := hd
      have hnv : n.var ∈ (Bbn.run ops).vars := List.mem_map_of_mem c1
      have he1 := he n (by simp)
      have hedge : (p.id, n.var.id) ∈ BOp.edges ops := by
        rw [← par_iff]
        show p.id ∈ ddGet (Bbn.run ops).parents n.var.id
        rw [← vids_parentVars (bbn_run_inv ops), c2]; exact List.mem_cons_self
      have hδ : 0 ≤ δ n := by
        obtain ⟨u, hu'⟩ := List.exists_mem_of_ne_nil _ (hu.vals p hpv)
        have := d1 u hu' u hu'
        simp only [sub_self, abs_zero] at this
        have h0 : (n.var.values.map (fun _ => (0 : ℚ))).sum = 0 := by simp
        rw [h0] at this
        linarith
      have hstep : (n.var.values.map (fun x => |r n.var x - r' n.var x|)).sum ≤ δ n * (p.values.map (fun x => |r p x - r' p x|)).sum := by
        have e : n.var.values.map (fun x => |r n.var x - r' n.var x|) =
            n.var.values.map (fun x => |(p.values.map (fun u => entry1 n p u x * (r p u - r' p u))).sum|) := by
          apply List.map_congr_left
          intro x hx
          rw [reports_unique (hr n.var hnv x hx) (c108_single hu hac hn hj h hp c1 c2 (fun v hv hrv => (he1 v hv hrv).1) (hr p hpv) hx),
            reports_unique (hr' n.var hnv x hx) (c108_single hu hac hn hj h' hp' c1 c2 (fun v hv hrv => (he1 v hv hrv).2) (hr' p hpv) hx)]
          congr 1
          generalize p.values = l
          induction l with
          | nil => simp
          | cons a l ih => simp only [List.map_cons, List.sum_cons]; linarith
        rw [e]
        refine contraction p.values n.var.values ?_ d1
        have s1 := reports_total hu hj h hp hw hz hq hq0 hpv (hr p hpv)
        have s2 := reports_total hu hj h' hp' hw' hz' hq' hq0' hpv (hr' p hpv)
        have : ∀ l : List Str, (l.map (fun u => r p u - r' p u)).sum = (l.map (r p)).sum - (l.map (r' p)).sum := by
          intro l
          induction l with
          | nil => simp
          | cons a l ih => simp only [List.map_cons, List.sum_cons, ih]; ring
        rw [this, s1, s2, sub_self]
      obtain ⟨i1, i2⟩ := c108_fades hu hac hn hj h h' hp hp' hw hz hq hq0 hw' hz' hq' hq0' hr hr' δ ns n.var hnv c3 d2 (by
        intro m hm v hv hrv
        cases ns with
        | nil => simp at hm
        | cons m' ms =>
          simp only [List.head?_cons, Option.mem_def, Option.some.injEq] at hm
          subst hm
          obtain ⟨k1, k2, _⟩ := c3
          refine he1 v hv (ReflTransGen.head ?_ hrv)
          rw [← par_iff]
          show n.var.id ∈ ddGet (Bbn.run ops).parents m'.var.id
          rw [← vids_parentVars (bbn_run_inv ops), k2]; exact List.mem_cons_self)
      rw [List.map_cons, List.prod_cons]
      refine ⟨mul_nonneg hδ i1, ?_⟩
      change ((chainEnd n.var ns).values.map _).sum ≤ _
      refine i2.trans ?_
      have := mul_le_mul_of_nonneg_left hstep i1
      linarith

end

/-! ### a chain of three nodes -/

/-- 0 → 1 → 2; the rows of 1 differ by 3/5, those of 2 by 1/2 -/
def c108_ops : List BOp :=
  [.addEdge (mkNode 0 "a" [1/4, 3/4]) (mkNode 1 "b" [4/5, 1/5, 1/5, 4/5]),
   .addEdge (mkNode 1 "b" [4/5, 1/5, 1/5, 4/5]) (mkNode 2 "c" [3/4, 1/4, 1/4, 3/4])]

def c108_v (i : Int) : Variable := (mkNode i (if i = 0 then "a" else if i = 1 then "b" else "c") []).var

def c108_chain : List BbnNode := [mkNode 1 "b" [4/5, 1/5, 1/5, 4/5], mkNode 2 "c" [3/4, 1/4, 1/4, 3/4]]

def c108_δ (n : BbnNode) : ℚ := if n.var.id = 1 then 3/5 else 1/2

/-- 0 observed at `on` … -/
def c108_h : List (SetIter Str × EvOp) := [(.same, .observe (obs (c108_v 0) "on".toList))]

/-- … and at `off` -/
def c108_h' : List (SetIter Str × EvOp) := [(.rev, .update [obs (c108_v 0) "off".toList])]

theorem c108_usable : Net.Usable c108_ops := by
  refine ⟨⟨wf_of_check (by decide +kernel) (by decide +kernel), by decide +kernel⟩, ?_⟩
  have e : ∀ p c, (p, c) ∈ BOp.edges c108_ops → EqvGen (fun p c => (p, c) ∈ BOp.edges c108_ops) p c := fun p c h => EqvGen.rel _ _ h
  have h1 := e 0 1 (by decide +kernel)
  have h2 := e 1 2 (by decide +kernel)
  have hv : ∀ u ∈ (Bbn.run c108_ops).vars, EqvGen (fun p c => (p, c) ∈ BOp.edges c108_ops) 0 u.id := by
    have hid : (Bbn.run c108_ops).vars.map Variable.id = [0, 1, 2] := by decide +kernel
    intro u hu
    have : u.id ∈ (Bbn.run c108_ops).vars.map Variable.id := List.mem_map.2 ⟨u, hu, rfl⟩
    rw [hid] at this
    simp only [List.mem_cons, List.not_mem_nil, or_false] at this
    rcases this with h | h | h <;> rw [h]
    · exact EqvGen.refl _
    · exact h1
    · exact EqvGen.trans _ _ _ h1 h2
  intro u hu v hv'
  exact EqvGen.trans _ _ _ (EqvGen.symm _ _ (hv u hu)) (hv v hv')

/-- what is reported for the three nodes under the two histories: the difference at the start is 2, at the end it is 2 · 3/5 · 1/2, so that the
bound is attained -/
theorem c108_reports : (apply .same .rev (Bbn.run c108_ops)).val?.map (fun jt => ([c108_h, c108_h'] : List _).map (fun h =>
    ([0, 1, 2] : List Int).map (fun i => reportOf (runHist jt h) (c108_v i) "on".toList))) =
    some [[some 1, some (4/5), some (13/20)], [some 0, some (1/5), some (7/20)]] := by decide +kernel

example : 2 * |(13/20 : ℚ) - 7/20| = (c108_chain.map c108_δ).prod * (2 * |(1 : ℚ) - 0|) := by decide +kernel

theorem c108_proper : (∀ op ∈ c108_h, op.2.Proper (Bbn.run c108_ops).vars) ∧ ∀ op ∈ c108_h', op.2.Proper (Bbn.run c108_ops).vars := by
  constructor <;> intro op hop <;> simp only [c108_h, c108_h', List.mem_cons, List.not_mem_nil, or_false] at hop <;> subst hop
  · exact obs_proper (by decide +kernel) (by decide +kernel)
  · intro e he
    simp only [List.mem_cons, List.not_mem_nil, or_false] at he
    subst he
    exact obs_proper (by decide +kernel) (by decide +kernel)

/-- neither history leaves evidence about 1 and 2 -/
theorem c108_free {jt : JoinTree} (hj : apply .same .rev (Bbn.run c108_ops) = .ok jt) :
    ∀ v ∈ (Bbn.run c108_ops).vars, ReflTransGen (fun p c => (p, c) ∈ BOp.edges c108_ops) 1 v.id →
      NoEvidenceOn (runHist jt c108_h) v ∧ NoEvidenceOn (runHist jt c108_h') v := by
  have key : (apply .same .rev (Bbn.run c108_ops)).val?.map (fun jt => ([1, 2] : List Int).map (fun i =>
      @id (Option (List (Str × ℚ))) (Dict.get? (runHist jt c108_h).evidences i))) =
      some [some [("on".toList, 1), ("off".toList, 1)], some [("on".toList, 1), ("off".toList, 1)]] := by decide +kernel
  have key' : (apply .same .rev (Bbn.run c108_ops)).val?.map (fun jt => ([1, 2] : List Int).map (fun i =>
      @id (Option (List (Str × ℚ))) (Dict.get? (runHist jt c108_h').evidences i))) =
      some [some [("on".toList, 1), ("off".toList, 1)], some [("on".toList, 1), ("off".toList, 1)]] := by decide +kernel
  rw [hj] at key key'
  have conv : ∀ {s : JoinTree}, ([1, 2] : List Int).map (fun i => @id (Option (List (Str × ℚ))) (Dict.get? s.evidences i)) =
      [some [("on".toList, 1), ("off".toList, 1)], some [("on".toList, 1), ("off".toList, 1)]] →
      ∀ i ∈ ([1, 2] : List Int), Dict.get? s.evidences i = some [("on".toList, 1), ("off".toList, 1)] := by
    intro s this i hi
    simp only [List.map_cons, List.map_nil, List.cons.injEq] at this
    simp only [List.mem_cons, List.not_mem_nil, or_false] at hi
    rcases hi with rfl | rfl
    · exact this.1
    · exact this.2.1
  intro v hv hr
  have hlt : ∀ a c, ReflTransGen (fun p c => (p, c) ∈ BOp.edges c108_ops) a c → a ≤ c := by
    intro a c h
    induction h with
    | refl => exact le_refl _
    | tail _ h ih =>
      have : ∀ e ∈ BOp.edges c108_ops, e.1 < e.2 := by decide +kernel
      exact le_trans ih (this _ h).le
  have hall : ∀ v ∈ (Bbn.run c108_ops).vars, 1 ≤ v.id → v.id ∈ ([1, 2] : List Int) ∧ v.values.map (fun x => (x, (1 : ℚ))) = [("on".toList, 1), ("off".toList, 1)] := by
    decide +kernel
  obtain ⟨h1, h2⟩ := hall v hv (hlt _ _ hr)
  unfold NoEvidenceOn
  rw [conv (Option.some.inj key) _ h1, conv (Option.some.inj key') _ h1, h2]
  exact ⟨rfl, rfl⟩

/-- C108 at this chain and these histories -/
example {jt : JoinTree} (hj : apply .same .rev (Bbn.run c108_ops) = .ok jt)
    {r r' : Variable → Str → ℚ} (hr : ∀ v ∈ (Bbn.run c108_ops).vars, ∀ x ∈ v.values, Reports (runHist jt c108_h) v x (r v x))
    (hr' : ∀ v ∈ (Bbn.run c108_ops).vars, ∀ x ∈ v.values, Reports (runHist jt c108_h') v x (r' v x)) :
    ((c108_v 2).values.map (fun x => |r (c108_v 2) x - r' (c108_v 2) x|)).sum ≤
      3/10 * ((c108_v 0).values.map (fun x => |r (c108_v 0) x - r' (c108_v 0) x|)).sum := by
  have key := c108_reports
  rw [hj] at key
  have key := Option.some.inj key
  simp only [List.map_cons, List.map_nil, List.cons.injEq] at key
  have := (c108_fades c108_usable (acyclic_of_lt (by decide +kernel))
    (normalized_of_rows (fun _ v hv => parentVars_sub (bbn_run_inv _) _ v hv) (by decide +kernel)) hj c108_h c108_h' c108_proper.1 c108_proper.2
    (w := c108_v 1) (by decide +kernel) (z := "on".toList) (by decide +kernel) (reports_of_eval key.1.2.1) (by norm_num)
    (w' := c108_v 1) (by decide +kernel) (z' := "on".toList) (by decide +kernel) (reports_of_eval key.2.1.2.1) (by norm_num)
    hr hr' c108_δ c108_chain (c108_v 0) (by decide +kernel)
    ⟨by decide +kernel, by decide +kernel, by decide +kernel, by decide +kernel, trivial⟩ ⟨by decide +kernel, by decide +kernel, trivial⟩ (by
      intro n hn
      simp only [c108_chain, List.head?_cons, Option.mem_def, Option.some.injEq] at hn
      subst hn
      exact c108_free hj)).2
  have e : (c108_chain.map c108_δ).prod = 3/10 := by decide +kernel
  rw [e] at this
  exact this

end PyBBN
