import Verif.Proofs.SamplingRun
import Verif.Proofs.Exact

/-! Summing out nodes whose conditional distributions sum to 1. -/

namespace PyBBN
open Relation

/-- every finite acyclic relation has a linear order that respects it -/
theorem topo_exists {R : Int → Int → Prop} (hac : Acyclic R) : ∀ (k : Nat) (l : List Int), l.length = k → l.Nodup →
    ∃ l' : List Int, l'.Perm l ∧ l'.Pairwise (fun a c => ¬ R c a)
  | 0, l, hk, _ => by
      have : l = [] := List.length_eq_zero_iff.1 hk
      subst this
      exact ⟨[], List.Perm.refl _, List.Pairwise.nil⟩
  | k + 1, l, hk, hn => by
      have hmin : ∃ x ∈ l, ∀ y ∈ l, ¬ R y x := by
        have hwf : WellFounded (fun a c : {i // i ∈ l} => TransGen R a.1 c.1) := by
          have : Finite {i // i ∈ l} := List.finite_toSet l
          have : IsTrans {i // i ∈ l} (fun a c => TransGen R a.1 c.1) := ⟨fun _ _ _ h1 h2 => h1.trans h2⟩
          have : Std.Irrefl (fun a c : {i // i ∈ l} => TransGen R a.1 c.1) := ⟨fun a h => hac a.1 h⟩
          exact Finite.wellFounded_of_trans_of_irrefl _
        have hne : (Set.univ : Set {i // i ∈ l}).Nonempty := by
          cases l with
          | nil => simp at hk
          | cons a l => exact ⟨⟨a, List.mem_cons_self⟩, trivial⟩
        obtain ⟨x, _, hx⟩ := hwf.has_min Set.univ hne
        exact ⟨x.1, x.2, fun y hy hR => hx ⟨y, hy⟩ trivial (TransGen.single hR)⟩
      obtain ⟨x, hx, hmin⟩ := hmin
      obtain ⟨l', hp, hpw⟩ := topo_exists hac k (l.erase x) (by rw [List.length_erase_of_mem hx, hk]; rfl) (hn.erase x)
      refine ⟨x :: l', (hp.cons x).trans (List.perm_cons_erase hx).symm, ?_⟩
      rw [List.pairwise_cons]
      exact ⟨fun y hy => hmin y (List.mem_of_mem_erase (hp.mem_iff.1 hy)), hpw⟩

section
variable {b : Bbn}

/-- the nodes in an order that respects an acyclic relation on ids -/
theorem order_exists' (h : BbnInv b) {R : Int → Int → Prop} (hac : Acyclic R) :
    ∃ L : List BbnNode, L.Perm b.toGraph.getNodes ∧ L.Pairwise (fun a c => ¬ R c.var.id a.var.id) := by
  obtain ⟨l, hp, hpw⟩ := topo_exists hac _ b.ids rfl (node_ids_nodup h)
  refine ⟨l.map b.nodeOf, ?_, ?_⟩
  · have e : b.ids.map b.nodeOf = b.toGraph.getNodes := by
      unfold Bbn.ids
      rw [List.map_map]
      conv_rhs => rw [← List.map_id b.toGraph.getNodes]
      apply List.map_congr_left
      intro n hn
      have h1 := (getNodes_eq h n).1 hn
      have h2 := nodeOf_get (b := b) (Dict.mem_keys_of_get? h1)
      exact Option.some.inj (h2.symm.trans h1)
    rw [← e]
    exact hp.map b.nodeOf
  · rw [List.pairwise_map]
    have hid : ∀ i ∈ l, (b.nodeOf i).var.id = i := by
      intro i hi
      obtain ⟨n, hn, rfl⟩ := mem_ids.1 (hp.mem_iff.1 hi)
      have h1 := (getNodes_eq h n).1 hn
      have h2 := nodeOf_get (b := b) (Dict.mem_keys_of_get? h1)
      rw [Option.some.inj (h2.symm.trans h1)]
    refine hpw.imp_of_mem ?_
    intro a c ha hc hac'
    rw [hid a ha, hid c hc]
    exact hac'

/-- the nodes in an order with parents first -/
theorem order_exists (h : BbnInv b) (hac : Acyclic (fun p c => p ∈ ddGet b.parents c)) :
    ∃ L : List BbnNode, L.Perm b.toGraph.getNodes ∧ L.Pairwise (fun a c => c.var.id ∉ ddGet b.parents a.var.id) :=
  order_exists' h hac

/-- the local function of a node -/
def Bbn.w (b : Bbn) (n : BbnNode) : Asg → ℚ := cptAt n.probs (b.parentVars n.var.id) n.var

theorem Bbn.w_dep (h : BbnInv b) (n : BbnNode) :
    Dep (fun i => i ∈ ddGet b.parents n.var.id ∨ i = n.var.id) (b.w n) := by
  refine (cptAt_dep _ _ _).mono ?_
  intro i hi
  unfold vids at hi
  rw [List.map_append, List.mem_append] at hi
  rcases hi with hi | hi
  · left
    have e := vids_parentVars h n.var.id
    unfold vids at e
    rw [e] at hi
    exact hi
  · right; simpa using hi

theorem Bbn.w_nonneg (wf : b.WF) {n : BbnNode} (hn : n ∈ b.toGraph.getNodes) (σ : Asg) : 0 ≤ b.w n σ := by
  unfold Bbn.w cptAt
  rcases getD_mem_or (l := n.probs) (cptIndex (b.parentVars n.var.id) n.var σ) with h1 | h1
  · exact wf.nonneg n hn _ h1
  · rw [h1]

/-- the entries of a row are the local function at the values of the node -/
theorem sum_row (h : BbnInv b) (wf : b.WF) {n : BbnNode} (hn : n ∈ b.toGraph.getNodes) (σ : Asg) :
    (n.var.values.map (fun x => b.w n (Function.update σ n.var.id x))).sum =
      (cptRow n.probs (b.parentVars n.var.id) n.var σ).sum := by
  have hnd := wf.values n hn
  have e : n.var.values.map (fun x => b.w n (Function.update σ n.var.id x)) = cptRow n.probs (b.parentVars n.var.id) n.var σ := by
    unfold cptRow
    apply List.ext_getElem (by simp)
    intro i h1 h2
    have hi : i < n.var.values.length := by simpa using h1
    rw [List.getElem_map, List.getElem_map, List.getElem_range]
    unfold Bbn.w cptAt cptIndex
    rw [Function.update_self, hnd.idxOf_getElem]
    have : rowIdx (b.parentVars n.var.id) (Function.update σ n.var.id n.var.values[i]) = rowIdx (b.parentVars n.var.id) σ := by
      apply rowIdx_congr
      intro v hv
      rw [Function.update_of_ne]
      intro e
      apply wf.noLoop n.var.id
      have e2 := vids_parentVars h n.var.id
      rw [← e2]
      have := List.mem_map_of_mem (f := Variable.id) hv
      rw [e] at this
      exact this
    rw [this]
  rw [e]

/-- the domain function of a network -/
abbrev Bbn.dom (b : Bbn) : Int → List Str := domOf b.vars

theorem dom_node (h : BbnInv b) {n : BbnNode} (hn : n ∈ b.toGraph.getNodes) : b.dom n.var.id = n.var.values :=
  domOf_ok (vars_nodup h) n.var (List.mem_map_of_mem hn)

theorem inDom_update (h : BbnInv b) {σ : Asg} (hσ : InDom b.vars σ) {n : BbnNode} (hn : n ∈ b.toGraph.getNodes) {x : Str}
    (hx : x ∈ n.var.values) : InDom b.vars (Function.update σ n.var.id x) := by
  intro v hv
  obtain ⟨m, hm, rfl⟩ := List.mem_map.1 hv
  by_cases e : m.var.id = n.var.id
  · have := node_of_id h hm hn e
    subst this
    rw [Function.update_self]
    exact hx
  · rw [Function.update_of_ne e]
    exact hσ _ hv

/-- nodes that are not parents of earlier ones sum out to 1 -/
theorem sum_suffix (h : BbnInv b) (wf : b.WF) (hnorm : b.Normalized b.parentVars) : ∀ (B : List BbnNode),
    (∀ n ∈ B, n ∈ b.toGraph.getNodes) → (B.map (fun n => n.var.id)).Nodup →
    B.Pairwise (fun a c => c.var.id ∉ ddGet b.parents a.var.id) → ∀ σ, InDom b.vars σ →
    elim b.dom (B.map (fun n => n.var.id)) (fun σ => (B.map (fun n => b.w n σ)).prod) σ = 1
  | [], _, _, _, σ, _ => by simp [elim_nil]
  | n :: B, hB, hnd, hpw, σ, hσ => by
      have hn := hB n List.mem_cons_self
      rw [List.map_cons, List.nodup_cons] at hnd
      rw [List.pairwise_cons] at hpw
      rw [List.map_cons, elim_cons]
      have e1 : (fun σ : Asg => ((n :: B).map (fun n => b.w n σ)).prod) = fun σ => b.w n σ * (B.map (fun n => b.w n σ)).prod := by
        funext σ; rw [List.map_cons, List.prod_cons]
      rw [e1, elim_mul_left (b.w_dep h n) (by
        rintro i hi (h1 | h1)
        · obtain ⟨m, hm, rfl⟩ := List.mem_map.1 hi
          exact hpw.1 m hm h1
        · subst h1; exact hnd.1 hi)]
      unfold sumv
      rw [dom_node h hn]
      rw [← hnorm n hn σ hσ, ← sum_row h wf hn σ]
      congr 1
      apply List.map_congr_left
      intro x hx
      show b.w n _ * _ = _
      rw [sum_suffix h wf hnorm B (fun m hm => hB m (List.mem_cons_of_mem _ hm)) hnd.2 hpw.2 _ (inDom_update h hσ hn hx), mul_one]

/-- a sum over all joint values where the last nodes only occur through their conditional distributions -/
theorem sum_prefix (h : BbnInv b) (wf : b.WF) (hne : ∀ n ∈ b.toGraph.getNodes, n.var.values ≠ []) (hnorm : b.Normalized b.parentVars) {A B : List BbnNode}
    (hp : (A ++ B).Perm b.toGraph.getNodes) (hpw : (A ++ B).Pairwise (fun a c => c.var.id ∉ ddGet b.parents a.var.id))
    {g : Asg → ℚ} (hg : Dep (fun i => i ∉ B.map (fun n => n.var.id)) g) :
    ((allAsg b.vars).map (fun σ => g σ * (B.map (fun n => b.w n σ)).prod)).sum =
      elim b.dom (A.map (fun n => n.var.id)) g asg0 := by
  have hvn := vars_nodup h
  have hids : vids b.vars = b.ids := by unfold vids Bbn.vars Bbn.ids; rw [List.map_map]; rfl
  have hperm : (vids b.vars).Perm (A.map (fun n => n.var.id) ++ B.map (fun n => n.var.id)) := by
    rw [hids, ← List.map_append]
    exact (hp.map _).symm
  have hnd : (A.map (fun n => n.var.id) ++ B.map (fun n => n.var.id)).Nodup := hperm.nodup_iff.1 hvn
  rw [sum_allAsg b.vars hvn (domOf_ok hvn), elim_perm hperm, elim_append]
  refine elim_congr_dom (fun _ => False) _ ?_ _ (fun i hi => absurd hi id)
  intro σ hσ
  rw [elim_mul_left hg (fun i hi => by simpa using hi)]
  -- the inner sum does not depend on the coordinates of `B`, so move to an assignment in the domain
  have hdep : Dep (fun i => (∃ n ∈ b.toGraph.getNodes, n.var.id = i) ∧ i ∉ B.map (fun n => n.var.id))
      (elim b.dom (B.map (fun n => n.var.id)) (fun σ => (B.map (fun n => b.w n σ)).prod)) := by
    refine Dep.elim (S := fun i => ∃ n ∈ b.toGraph.getNodes, n.var.id = i) ?_ _
    have : ∀ (B : List BbnNode), (∀ n ∈ B, n ∈ b.toGraph.getNodes) →
        Dep (fun i => ∃ n ∈ b.toGraph.getNodes, n.var.id = i) (fun σ => (B.map (fun n => b.w n σ)).prod) := by
      intro B
      induction B with
      | nil => intro _ σ τ _; rfl
      | cons n B ih =>
        intro hB
        simp only [List.map_cons, List.prod_cons]
        refine Dep.mul ((b.w_dep h n).mono ?_) (ih (fun m hm => hB m (List.mem_cons_of_mem _ hm)))
        rintro i (hi | hi)
        · exact mem_ids.1 (parent_mem_ids h hi)
        · exact ⟨n, hB n List.mem_cons_self, hi.symm⟩
    exact this B (fun n hn => hp.mem_iff.1 (List.mem_append_right _ hn))
  obtain ⟨τ, h1, h2⟩ : ∃ τ, InDom b.vars τ ∧ ∀ i ∈ A.map (fun n => n.var.id), τ i = σ i := by
    obtain ⟨σ₀, h0⟩ := inDom_exists hne h
    refine ⟨fun i => if i ∈ A.map (fun n => n.var.id) then σ i else σ₀ i, ?_, fun i hi => if_pos hi⟩
    intro v hv
    show (if v.id ∈ A.map (fun n => n.var.id) then σ v.id else σ₀ v.id) ∈ v.values
    split
    · rename_i hA
      have := hσ v.id (Or.inr hA)
      rwa [domOf_ok hvn v hv] at this
    · exact h0 v hv
  · show g σ * elim b.dom (B.map (fun n => n.var.id)) (fun σ => (B.map (fun n => b.w n σ)).prod) σ = g σ
    rw [hdep σ τ (by
      rintro i ⟨⟨n, hn, rfl⟩, hi⟩
      refine (h2 _ ?_).symm
      rcases List.mem_append.1 (hp.mem_iff.2 hn) with hA | hB
      · exact List.mem_map_of_mem hA
      · exact absurd (List.mem_map_of_mem hB) hi), sum_suffix h wf hnorm B
        (fun n hn => hp.mem_iff.1 (List.mem_append_right _ hn)) (List.nodup_append.1 hnd).2.1
        (List.pairwise_append.1 hpw).2.1 τ h1, mul_one]

/-- the parent relation -/
def Bbn.Par (b : Bbn) (p c : Int) : Prop := p ∈ ddGet b.parents c

/-- there is an order with parents first in which only descendants of a node come after it -/
theorem split_at (h : BbnInv b) (hac : Acyclic b.Par) {n : BbnNode} (hn : n ∈ b.toGraph.getNodes) :
    ∃ A B : List BbnNode, (A ++ n :: B).Perm b.toGraph.getNodes ∧
      (A ++ n :: B).Pairwise (fun a c => c.var.id ∉ ddGet b.parents a.var.id) ∧
      ∀ m ∈ B, ReflTransGen b.Par n.var.id m.var.id := by
  have hac' : Acyclic (fun p c => b.Par p c ∨ (c = n.var.id ∧ ¬ ReflTransGen b.Par n.var.id p)) := by
    have key : ∀ a c, TransGen (fun p c => b.Par p c ∨ (c = n.var.id ∧ ¬ ReflTransGen b.Par n.var.id p)) a c →
        TransGen b.Par a c ∨ (¬ ReflTransGen b.Par n.var.id a ∧ ReflTransGen b.Par n.var.id c) := by
      intro a c hc
      induction hc with
      | single h1 =>
        rcases h1 with h1 | ⟨rfl, h1⟩
        · exact Or.inl (TransGen.single h1)
        · exact Or.inr ⟨h1, ReflTransGen.refl⟩
      | tail _ h1 ih =>
        rcases ih with ih | ⟨i1, i2⟩
        · rcases h1 with h1 | ⟨rfl, h1⟩
          · exact Or.inl (ih.tail h1)
          · exact Or.inr ⟨fun h2 => h1 (h2.trans ih.to_reflTransGen), ReflTransGen.refl⟩
        · rcases h1 with h1 | ⟨rfl, h1⟩
          · exact Or.inr ⟨i1, i2.tail h1⟩
          · exact absurd i2 h1
    intro a ha
    rcases key a a ha with h1 | ⟨h1, h2⟩
    · exact hac a h1
    · exact h1 h2
  obtain ⟨L, hp, hpw⟩ := order_exists' h hac'
  obtain ⟨A, B, rfl⟩ := List.append_of_mem (hp.mem_iff.2 hn)
  refine ⟨A, B, hp, hpw.imp (fun hx hy => hx (Or.inl hy)), ?_⟩
  intro m hm
  have := (List.pairwise_cons.1 (List.pairwise_append.1 hpw).2.1).1 m hm
  by_contra hc
  exact this (Or.inr ⟨rfl, hc⟩)

/-- product of the CPT entries of all nodes but one -/
def Bbn.others (b : Bbn) (id : Int) (σ : Asg) : ℚ :=
  ((b.toGraph.getNodes.filter (fun n => decide (n.var.id ≠ id))).map (fun n => b.w n σ)).prod

/-- indicator of a value -/
def isVal (i : Int) (x : Str) (σ : Asg) : ℚ := if σ i = x then 1 else 0

theorem weight_noEvidence (σ : Asg) : b.weight noEvidence σ = (b.toGraph.getNodes.map (fun n => b.w n σ)).prod := by
  unfold Bbn.weight noEvidence Bbn.w
  simp only [mul_one]

theorem perm_prod {L M : List BbnNode} (hp : L.Perm M) (σ : Asg) :
    (L.map (fun n => b.w n σ)).prod = (M.map (fun n => b.w n σ)).prod := (hp.map _).prod_eq

theorem others_eq (h : BbnInv b) {n : BbnNode} {A B : List BbnNode} (hp : (A ++ n :: B).Perm b.toGraph.getNodes) (σ : Asg) :
    b.others n.var.id σ = (A.map (fun n => b.w n σ)).prod * (B.map (fun n => b.w n σ)).prod := by
  unfold Bbn.others
  rw [← perm_prod (hp.filter _)]
  have hnd : ((A ++ n :: B).map (fun n => n.var.id)).Nodup := (hp.map _).nodup_iff.2 (node_ids_nodup h)
  rw [List.map_append, List.map_cons, List.nodup_append, List.nodup_cons] at hnd
  have hA : A.filter (fun m => decide (m.var.id ≠ n.var.id)) = A := by
    rw [List.filter_eq_self]
    intro m hm
    simpa using hnd.2.2 _ (List.mem_map_of_mem hm) _ List.mem_cons_self
  have hB : B.filter (fun m => decide (m.var.id ≠ n.var.id)) = B := by
    rw [List.filter_eq_self]
    intro m hm
    have : m.var.id ≠ n.var.id := fun e => hnd.2.1.1 (e ▸ List.mem_map_of_mem hm)
    simpa using this
  rw [List.filter_append, List.filter_cons_of_neg (by simp), hA, hB, List.map_append, List.prod_append]

theorem weight_split (h : BbnInv b) {n : BbnNode} (hn : n ∈ b.toGraph.getNodes) (σ : Asg) :
    b.weight noEvidence σ = b.w n σ * b.others n.var.id σ := by
  obtain ⟨A, B, e⟩ := List.append_of_mem hn
  have hp : (A ++ n :: B).Perm b.toGraph.getNodes := by rw [e]
  rw [weight_noEvidence, others_eq h hp, e, List.map_append, List.map_cons, List.prod_append, List.prod_cons]
  ring

theorem prod_nonneg' {α : Type} {f : α → ℚ} : ∀ {l : List α}, (∀ a ∈ l, 0 ≤ f a) → 0 ≤ (l.map f).prod
  | [], _ => by simp
  | a :: l, h => by
      rw [List.map_cons, List.prod_cons]
      exact mul_nonneg (h a List.mem_cons_self) (prod_nonneg' (fun c hc => h c (List.mem_cons_of_mem _ hc)))

theorem others_nonneg (wf : b.WF) (id : Int) (σ : Asg) : 0 ≤ b.others id σ := by
  apply prod_nonneg'
  intro n hn
  exact b.w_nonneg wf (List.mem_filter.1 hn).1 σ

theorem weight_noEvidence_nonneg (wf : b.WF) (σ : Asg) : 0 ≤ b.weight noEvidence σ := by
  rw [weight_noEvidence]
  apply prod_nonneg'
  intro n hn
  exact b.w_nonneg wf hn σ

/-- what sums of conditional distributions need -/
structure Bbn.Proper (b : Bbn) : Prop where
  inv : BbnInv b
  wf : b.WF
  nonempty : ∀ n ∈ b.toGraph.getNodes, n.var.values ≠ []
  normalized : b.Normalized b.parentVars
  acyclic : Acyclic b.Par

/-- all joint values together weigh 1 -/
theorem total_one (hb : b.Proper) : b.total noEvidence = 1 := by
  obtain ⟨L, hp, hpw⟩ := order_exists hb.inv hb.acyclic
  have := sum_prefix hb.inv hb.wf hb.nonempty hb.normalized (A := []) (B := L) (g := fun _ => 1) hp hpw (Dep.const 1)
  unfold Bbn.total
  simp only [one_mul, List.map_nil, elim_nil] at this
  rw [← this]
  congr 1
  apply List.map_congr_left
  intro σ _
  rw [weight_noEvidence, perm_prod hp]

/-- fixing a node and dropping its CPT does not change the weight of what happens at its non-descendants -/
theorem sum_others (hb : b.Proper) {n : BbnNode} (hn : n ∈ b.toGraph.getNodes) {x : Str} (hx : x ∈ n.var.values)
    {E : Asg → ℚ} (hE : Dep (fun i => ¬ ReflTransGen b.Par n.var.id i) E) :
    ((allAsg b.vars).map (fun σ => E σ * isVal n.var.id x σ * b.others n.var.id σ)).sum =
      ((allAsg b.vars).map (fun σ => E σ * b.weight noEvidence σ)).sum := by
  obtain ⟨A, B, hp, hpw, hB⟩ := split_at hb.inv hb.acyclic hn
  have hnd : ((A ++ n :: B).map (fun n => n.var.id)).Nodup := (hp.map _).nodup_iff.2 (node_ids_nodup hb.inv)
  rw [List.map_append, List.map_cons, List.nodup_append, List.nodup_cons] at hnd
  have hA : ∀ (A' : List BbnNode), (∀ m ∈ A', m ∈ A) → Dep (fun i => i ∈ A.map (fun n => n.var.id)) (fun σ => (A'.map (fun n => b.w n σ)).prod) := by
    intro A'
    induction A' with
    | nil => intro _ σ τ _; rfl
    | cons m A' ih =>
      intro hA'
      simp only [List.map_cons, List.prod_cons]
      refine Dep.mul ((b.w_dep hb.inv m).mono ?_) (ih (fun k hk => hA' k (List.mem_cons_of_mem _ hk)))
      have hm := hA' m List.mem_cons_self
      rintro i (hi | hi)
      · obtain ⟨k, hk, rfl⟩ := mem_ids.1 (parent_mem_ids hb.inv hi)
        rcases List.mem_append.1 (hp.mem_iff.2 hk) with h1 | h1
        · exact List.mem_map_of_mem h1
        · exact absurd hi ((List.pairwise_append.1 hpw).2.2 m hm k h1)
      · subst hi; exact List.mem_map_of_mem hm
  have hAdep := hA A (fun _ hm => hm)
  have hEB : Dep (fun i => i ∉ (n :: B).map (fun n => n.var.id)) E := by
    refine hE.mono ?_
    intro i hi hm
    obtain ⟨k, hk, rfl⟩ := List.mem_map.1 hm
    rcases List.mem_cons.1 hk with rfl | hk
    · exact hi ReflTransGen.refl
    · exact hi (hB k hk)
  have hAB : Dep (fun i => i ∉ (n :: B).map (fun n => n.var.id)) (fun σ => (A.map (fun n => b.w n σ)).prod) := by
    refine hAdep.mono ?_
    intro i hi hm
    exact hnd.2.2 i hi i hm rfl
  have e1 := sum_prefix hb.inv hb.wf hb.nonempty hb.normalized (A := A) (B := n :: B) hp hpw (hEB.mul hAB)
  have hp' : ((A ++ [n]) ++ B).Perm b.toGraph.getNodes := by simpa using hp
  have hpw' : ((A ++ [n]) ++ B).Pairwise (fun a c => c.var.id ∉ ddGet b.parents a.var.id) := by simpa using hpw
  have hI : Dep (fun i => i ∉ B.map (fun n => n.var.id)) (isVal n.var.id x) := by
    intro σ τ hst
    unfold isVal
    rw [hst n.var.id hnd.2.1.1]
  have hmono : ∀ {f : Asg → ℚ}, Dep (fun i => i ∉ (n :: B).map (fun n => n.var.id)) f → Dep (fun i => i ∉ B.map (fun n => n.var.id)) f :=
    fun hf => hf.mono (fun i hi hm => hi (by rw [List.map_cons]; exact List.mem_cons_of_mem _ hm))
  have e2 := sum_prefix hb.inv hb.wf hb.nonempty hb.normalized (A := A ++ [n]) (B := B) hp' hpw'
    ((hmono (hEB.mul hAB)).mul hI)
  have l1 : (fun σ => E σ * b.weight noEvidence σ) =
      fun σ => E σ * (A.map (fun n => b.w n σ)).prod * ((n :: B).map (fun n => b.w n σ)).prod := by
    funext σ
    rw [weight_noEvidence, ← perm_prod hp, List.map_append, List.prod_append]
    ring
  have l2 : (fun σ => E σ * isVal n.var.id x σ * b.others n.var.id σ) =
      fun σ => E σ * (A.map (fun n => b.w n σ)).prod * isVal n.var.id x σ * (B.map (fun n => b.w n σ)).prod := by
    funext σ
    rw [others_eq hb.inv hp]
    ring
  rw [l1, l2, e1, e2, List.map_append, elim_append]
  congr 1
  show sumv b.dom n.var.id (fun σ => E σ * (A.map (fun n => b.w n σ)).prod * isVal n.var.id x σ) = _
  rw [sumv_mul_left (hEB.mul hAB) (by simp)]
  funext σ
  have : sumv b.dom n.var.id (isVal n.var.id x) σ = 1 := by
    unfold sumv
    rw [dom_node hb.inv hn, sum_single (hb.wf.values n hn) hx]
    · simp [isVal]
    · intro y _ hy
      simp [isVal, hy]
  rw [this, mul_one]

/-- given its parents, a node is distributed as its CPT says, whatever else happened at its non-descendants -/
theorem local_markov (hb : b.Proper) {n : BbnNode} (hn : n ∈ b.toGraph.getNodes) {x : Str} (hx : x ∈ n.var.values)
    {E : Asg → ℚ} (hE : Dep (fun i => ¬ ReflTransGen b.Par n.var.id i) E) {c : ℚ}
    (hc : ∀ σ, InDom b.vars σ → E σ ≠ 0 → σ n.var.id = x → b.w n σ = c) :
    ((allAsg b.vars).map (fun σ => E σ * isVal n.var.id x σ * b.weight noEvidence σ)).sum =
      c * ((allAsg b.vars).map (fun σ => E σ * b.weight noEvidence σ)).sum := by
  rw [← sum_others hb hn hx hE, ← List.sum_map_mul_left]
  congr 1
  apply List.map_congr_left
  intro σ hσ
  rw [weight_split hb.inv hn]
  by_cases h1 : E σ = 0
  · simp [h1]
  · by_cases h2 : σ n.var.id = x
    · rw [hc σ (allAsg_mem_dom b.vars (vars_nodup hb.inv) σ hσ) h1 h2]; ring
    · simp [isVal, h2]

/-- the posterior of a node whose parents are observed and whose descendants carry no evidence is the row of its CPT -/
theorem posterior_row (hb : b.Proper) {n : BbnNode} (hn : n ∈ b.toGraph.getNodes) {ℓ : Liks} {τ : Asg}
    (hpar : ∀ p ∈ b.parentVars n.var.id, ∀ u ∈ p.values, ℓ p.id u = if u = τ p.id then 1 else 0)
    (hdesc : ∀ w ∈ b.vars, ReflTransGen b.Par n.var.id w.id → ∀ u ∈ w.values, ℓ w.id u = 1)
    (hpos : b.total ℓ ≠ 0) {x : Str} (hx : x ∈ n.var.values) :
    b.posterior ℓ n.var.id x = cptAt n.probs (b.parentVars n.var.id) n.var (Function.update τ n.var.id x) := by
  classical
  set E : Asg → ℚ := fun σ => (b.toGraph.getNodes.map (fun m =>
    if ReflTransGen b.Par n.var.id m.var.id then 1 else ℓ m.var.id (σ m.var.id))).prod with hE
  have hEdep : Dep (fun i => ¬ ReflTransGen b.Par n.var.id i) E := by
    intro σ τ' hst
    show (b.toGraph.getNodes.map _).prod = (b.toGraph.getNodes.map _).prod
    congr 1
    apply List.map_congr_left
    intro m _
    by_cases h : ReflTransGen b.Par n.var.id m.var.id
    · simp [h]
    · simp only [h, if_false]
      rw [hst m.var.id h]
  have hw : ∀ σ ∈ allAsg b.vars, b.weight ℓ σ = E σ * b.weight noEvidence σ := by
    intro σ hσ
    have hdom := allAsg_mem_dom b.vars (vars_nodup hb.inv) σ hσ
    show (b.toGraph.getNodes.map _).prod = (b.toGraph.getNodes.map _).prod * (b.toGraph.getNodes.map _).prod
    have key : ∀ l : List BbnNode, (∀ m ∈ l, m ∈ b.toGraph.getNodes) →
        (l.map (fun m => cptAt m.probs (b.parentVars m.var.id) m.var σ * ℓ m.var.id (σ m.var.id))).prod =
          (l.map (fun m => if ReflTransGen b.Par n.var.id m.var.id then 1 else ℓ m.var.id (σ m.var.id))).prod *
          (l.map (fun m => cptAt m.probs (b.parentVars m.var.id) m.var σ * noEvidence m.var.id (σ m.var.id))).prod := by
      intro l
      induction l with
      | nil => simp
      | cons m l ih =>
        intro hl
        have hm : m.var ∈ b.vars := List.mem_map_of_mem (hl m List.mem_cons_self)
        simp only [List.map_cons, List.prod_cons, ih (fun k hk => hl k (List.mem_cons_of_mem _ hk))]
        by_cases h : ReflTransGen b.Par n.var.id m.var.id
        · rw [if_pos h, hdesc m.var hm h _ (hdom m.var hm)]
          show _ = _ * (_ * 1 * _)
          ring
        · rw [if_neg h]
          show _ = _ * (_ * 1 * _)
          ring
    exact key _ (fun _ h => h)
  have hmass : b.mass ℓ n.var.id x = ((allAsg b.vars).map (fun σ => E σ * isVal n.var.id x σ * b.weight noEvidence σ)).sum := by
    unfold Bbn.mass
    rw [sum_filter_map]
    congr 1
    apply List.map_congr_left
    intro σ hσ
    rw [hw σ hσ]
    unfold isVal
    by_cases h : σ n.var.id = x <;> simp [h]
  have htot : b.total ℓ = ((allAsg b.vars).map (fun σ => E σ * b.weight noEvidence σ)).sum := by
    unfold Bbn.total
    rw [List.map_congr_left hw]
  unfold Bbn.posterior
  rw [hmass, local_markov hb hn hx hEdep (c := cptAt n.probs (b.parentVars n.var.id) n.var (Function.update τ n.var.id x)), ← htot,
    mul_div_assoc, div_self hpos, mul_one]
  intro σ hσ hne hσx
  apply b.w_dep hb.inv n
  intro i hi
  by_cases hin : i = n.var.id
  · subst hin; rw [Function.update_self, hσx]
  · rw [Function.update_of_ne hin]
    rcases hi with hi | hi
    · rw [← vids_parentVars hb.inv] at hi
      obtain ⟨p, hp, rfl⟩ := List.mem_map.1 hi
      obtain ⟨m, hm, hmp⟩ := mem_ids.1 (parent_mem_ids hb.inv (by rw [← vids_parentVars hb.inv]; exact hi))
      have hpv : p ∈ b.vars := parentVars_sub hb.inv _ p hp
      by_contra hc
      apply hne
      show (b.toGraph.getNodes.map _).prod = 0
      apply List.prod_eq_zero
      refine List.mem_map.2 ⟨m, hm, ?_⟩
      have hnd : ¬ ReflTransGen b.Par n.var.id m.var.id := by
        intro hr
        rw [hmp] at hr
        refine hb.acyclic n.var.id ?_
        refine TransGen.tail' hr ?_
        show p.id ∈ ddGet b.parents n.var.id
        rw [← vids_parentVars hb.inv]; exact hi
      rw [if_neg hnd, hmp, hpar p hp _ (hσ p hpv), if_neg hc]
    · exact absurd hi hin

end
end PyBBN
