import Verif.Proofs.Build
import Verif.Proofs.Table

/-! Networks given by names: a node object and a list of parents for every name. -/

namespace PyBBN

theorem filter_flatMap_single {α β : Type} {l : List α} (hn : l.Nodup) {c : α} (hc : c ∈ l) {f : α → List β} {p : β → Bool}
    (h1 : ∀ x ∈ f c, p x = true) (h2 : ∀ a ∈ l, a ≠ c → ∀ x ∈ f a, p x = false) : (l.flatMap f).filter p = f c := by
  induction l with
  | nil => simp at hc
  | cons a l ih =>
    rw [List.nodup_cons] at hn
    rw [List.flatMap_cons, List.filter_append]
    by_cases hac : a = c
    · subst hac
      rw [List.filter_eq_self.2 h1, List.filter_eq_nil_iff.2, List.append_nil]
      intro x hx
      obtain ⟨b, hb, hxb⟩ := List.mem_flatMap.1 hx
      rw [h2 b (List.mem_cons_of_mem _ hb) (fun e => hn.1 (e ▸ hb)) x hxb]
      simp
    · have hc' : c ∈ l := by
        rcases List.mem_cons.1 hc with h | h
        · exact absurd h.symm hac
        · exact h
      rw [List.filter_eq_nil_iff.2, List.nil_append]
      · exact ih hn.2 hc' (fun b hb => h2 b (List.mem_cons_of_mem _ hb))
      · intro x hx
        rw [h2 a List.mem_cons_self hac x hx]
        simp

/-- the names with their node objects and parents -/
structure Named where
  names : List Str
  node : Str → BbnNode
  pa : Str → List Str

namespace Named

/-- different names have different ids, and parents are names -/
structure WF (N : Named) : Prop where
  names : N.names.Nodup
  ids : (N.names.map (fun n => (N.node n).var.id)).Nodup
  pa : ∀ n ∈ N.names, ∀ p ∈ N.pa n, p ∈ N.names

/-- the calls that build the network: nodes in the order `ord`, edges child by child in the order `kids` -/
def ops (N : Named) (ord kids : List Str) : List BOp :=
  buildOps (ord.map N.node) (kids.flatMap (fun c => (N.pa c).map (fun p => (N.node p, N.node c))))

variable {N : Named} {ord kids : List Str}

theorem WF.inj (h : N.WF) {a b : Str} (ha : a ∈ N.names) (hb : b ∈ N.names) (e : (N.node a).var.id = (N.node b).var.id) : a = b :=
  List.inj_on_of_nodup_map h.ids ha hb e

theorem ids_ord (h : N.WF) (ho : ord.Perm N.names) : ((ord.map N.node).map (fun n => n.var.id)).Nodup := by
  rw [List.map_map]
  exact (ho.map _).nodup_iff.2 h.ids

theorem ends (h : N.WF) (ho : ord.Perm N.names) (hk : kids.Perm N.names) :
    ∀ e ∈ kids.flatMap (fun c => (N.pa c).map (fun p => (N.node p, N.node c))), e.1 ∈ ord.map N.node ∧ e.2 ∈ ord.map N.node := by
  intro e he
  obtain ⟨c, hc, he⟩ := List.mem_flatMap.1 he
  obtain ⟨p, hp, rfl⟩ := List.mem_map.1 he
  have hc' := hk.mem_iff.1 hc
  exact ⟨List.mem_map_of_mem (ho.mem_iff.2 (h.pa c hc' p hp)), List.mem_map_of_mem (ho.mem_iff.2 hc')⟩

theorem getNodes (h : N.WF) (ho : ord.Perm N.names) (hk : kids.Perm N.names) :
    (Bbn.run (N.ops ord kids)).toGraph.getNodes = ord.map N.node := build_getNodes (ids_ord h ho) (ends h ho hk)

theorem vars (h : N.WF) (ho : ord.Perm N.names) (hk : kids.Perm N.names) :
    (Bbn.run (N.ops ord kids)).vars = ord.map (fun n => (N.node n).var) := by
  unfold Bbn.vars; rw [getNodes h ho hk, List.map_map]; rfl

theorem edges (N : Named) (ord kids : List Str) : BOp.edges (N.ops ord kids) =
    kids.flatMap (fun c => (N.pa c).map (fun p => ((N.node p).var.id, (N.node c).var.id))) := by
  unfold ops
  rw [build_edges, List.map_flatMap]
  congr 1
  funext c
  rw [List.map_map]
  rfl

theorem firsts_map {α β : Type} [DecidableEq α] [DecidableEq β] (f : α → β) : ∀ (l : List α), (∀ a ∈ l, ∀ b ∈ l, f a = f b → a = b) →
    firsts (l.map f) = (firsts l).map f
  | [], _ => rfl
  | x :: l, h => by
      rw [List.map_cons, firsts, firsts_map f l (fun a ha b hb => h a (List.mem_cons_of_mem _ ha) b (List.mem_cons_of_mem _ hb)), firsts, List.map_cons,
        List.filter_map]
      congr 2
      refine List.filter_congr ?_
      intro y hy
      have hy' := (mem_firsts _ y).1 hy
      simp only [Function.comp_apply, decide_eq_decide, ne_eq, not_iff_not]
      constructor
      · intro e; exact h y (List.mem_cons_of_mem _ hy') x List.mem_cons_self e
      · rintro rfl; rfl

/-- the parents of a node are its parents by name -/
theorem parents (h : N.WF) (hk : kids.Perm N.names) {c : Str} (hc : c ∈ N.names) :
    ddGet (Bbn.run (N.ops ord kids)).parents (N.node c).var.id = (firsts (N.pa c)).map (fun p => (N.node p).var.id) := by
  unfold ops
  rw [build_parents, filter_flatMap_single (hk.nodup_iff.2 h.names) (hk.mem_iff.2 hc) (f := fun c => (N.pa c).map (fun p => (N.node p, N.node c))),
    List.map_map]
  · rw [← firsts_map]
    · rfl
    · intro a ha b hb e
      exact h.inj (h.pa c hc a ha) (h.pa c hc b hb) e
  · intro x hx
    obtain ⟨p, hp, rfl⟩ := List.mem_map.1 hx
    simp
  · intro a ha hne x hx
    obtain ⟨p, hp, rfl⟩ := List.mem_map.1 hx
    rw [decide_eq_false_iff_not]
    exact fun e => hne (h.inj (hk.mem_iff.1 ha) hc e)

theorem parentVars (h : N.WF) (ho : ord.Perm N.names) (hk : kids.Perm N.names) {c : Str} (hc : c ∈ N.names) :
    (Bbn.run (N.ops ord kids)).parentVars (N.node c).var.id = (firsts (N.pa c)).map (fun p => (N.node p).var) := by
  unfold Bbn.parentVars
  rw [parents h hk hc]
  have hm : ∀ p ∈ firsts (N.pa c), Dict.get? (Bbn.run (N.ops ord kids)).nodes (N.node p).var.id = some (N.node p) := by
    intro p hp
    exact get?_build (ids_ord h ho) (ends h ho hk) (List.mem_map_of_mem (ho.mem_iff.2 (h.pa c hc p ((mem_firsts _ p).1 hp))))
  generalize firsts (N.pa c) = l at hm
  induction l with
  | nil => rfl
  | cons a l ih =>
    rw [List.map_cons, List.filterMap_cons, hm a List.mem_cons_self]
    simp only [Option.map_some, List.map_cons]
    rw [ih (fun p hp => hm p (List.mem_cons_of_mem _ hp))]

/-- the nodes of the network built -/
theorem mem_nodes (h : N.WF) (ho : ord.Perm N.names) (hk : kids.Perm N.names) (n : BbnNode) :
    n ∈ (Bbn.run (N.ops ord kids)).toGraph.getNodes ↔ ∃ c ∈ N.names, n = N.node c := by
  rw [getNodes h ho hk, List.mem_map]
  constructor
  · rintro ⟨c, hc, rfl⟩; exact ⟨c, ho.mem_iff.1 hc, rfl⟩
  · rintro ⟨c, hc, rfl⟩; exact ⟨c, ho.mem_iff.2 hc, rfl⟩

/-- the joint weight of an assignment is the product over the names -/
theorem weight (h : N.WF) (ho : ord.Perm N.names) (hk : kids.Perm N.names) (σ : Asg) :
    (Bbn.run (N.ops ord kids)).weight noEvidence σ =
      (N.names.map (fun c => cptAt (N.node c).probs ((firsts (N.pa c)).map (fun p => (N.node p).var)) (N.node c).var σ)).prod := by
  unfold Bbn.weight
  rw [getNodes h ho hk, List.map_map]
  rw [← (ho.map _).prod_eq]
  congr 1
  refine List.map_congr_left ?_
  intro c hc
  simp only [Function.comp_apply]
  rw [parentVars h ho hk (ho.mem_iff.1 hc)]
  simp [noEvidence]

/-- a network fit for exact inference -/
theorem bbnWF (h : N.WF) (ho : ord.Perm N.names) (hk : kids.Perm N.names)
    (hl : ∀ c ∈ N.names, c ∉ N.pa c) (hv : ∀ c ∈ N.names, (N.node c).var.values.Nodup)
    (hc : ∀ c ∈ N.names, (((firsts (N.pa c)).map (fun p => (N.node p).var) ++ [(N.node c).var]).map (fun v => v.values.length)).prod ≤ (N.node c).probs.length)
    (hp : ∀ c ∈ N.names, ∀ q ∈ (N.node c).probs, 0 ≤ q) : (Bbn.run (N.ops ord kids)).WF where
  noLoop := by
    intro i hi
    have he : (i, i) ∈ BOp.edges (N.ops ord kids) := by
      have := (c07_parents_first_insertion (N.ops ord kids) i).1
      rw [this] at hi
      have hi' := (mem_firsts _ i).1 hi
      obtain ⟨e, he, h1⟩ := List.mem_map.1 hi'
      rw [List.mem_filter, decide_eq_true_eq] at he
      obtain ⟨h3, h2⟩ := he
      have : e = (i, i) := by rw [← h1]; exact Prod.ext rfl (h2.trans h1.symm)
      rw [← this]; exact h3
    rw [edges] at he
    obtain ⟨c, hcc, he⟩ := List.mem_flatMap.1 he
    obtain ⟨p, hpp, e⟩ := List.mem_map.1 he
    have hcn := hk.mem_iff.1 hcc
    rw [Prod.mk.injEq] at e
    have := h.inj (h.pa c hcn p hpp) hcn (e.1.trans e.2.symm)
    exact hl c hcn (this ▸ hpp)
  values := by
    intro n hn
    obtain ⟨c, hcn, rfl⟩ := (mem_nodes h ho hk n).1 hn
    exact hv c hcn
  cpt := by
    intro n hn
    obtain ⟨c, hcn, rfl⟩ := (mem_nodes h ho hk n).1 hn
    rw [parentVars h ho hk hcn]
    exact hc c hcn
  nonneg := by
    intro n hn
    obtain ⟨c, hcn, rfl⟩ := (mem_nodes h ho hk n).1 hn
    exact hp c hcn

end Named

end PyBBN
