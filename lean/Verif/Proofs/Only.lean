import Verif.Spec.Kept
import Verif.Props.Cliques
import Verif.Proofs.Coherence

/-! A network restricted to a set of nodes closed under edges. -/

namespace PyBBN
open Relation

/-- no edge leaves the set -/
def ClosedIn (S : Int → Bool) (ops : List BOp) : Prop := ∀ p c, (p, c) ∈ BOp.edges ops → S p = S c

theorem ClosedIn.tail {S : Int → Bool} {o : BOp} {ops : List BOp} (h : ClosedIn S (o :: ops)) : ClosedIn S ops := by
  intro p c hpc
  refine h p c ?_
  cases o with
  | addNode n => exact hpc
  | addEdge i j => exact List.mem_cons_of_mem _ hpc

theorem only_edges {S : Int → Bool} : ∀ {ops : List BOp}, ClosedIn S ops →
    BOp.edges (BOp.only S ops) = (BOp.edges ops).filter (fun pc => S pc.1)
  | [], _ => rfl
  | .addNode n :: ops, h => by
      have ih := only_edges h.tail
      unfold BOp.only at ih ⊢
      rw [List.filter_cons]
      have e : BOp.edges (BOp.addNode n :: ops) = BOp.edges ops := rfl
      rw [e, ← ih]
      simp only
      split
      · rfl
      · rfl
  | .addEdge i j :: ops, h => by
      have ih := only_edges h.tail
      have hij := h i.var.id j.var.id List.mem_cons_self
      unfold BOp.only at ih ⊢
      rw [List.filter_cons]
      have e : BOp.edges (BOp.addEdge i j :: ops) = (i.var.id, j.var.id) :: BOp.edges ops := rfl
      rw [e, List.filter_cons, ← ih]
      simp only [← hij, Bool.and_self]
      split
      · rfl
      · rfl

theorem only_nodes {S : Int → Bool} : ∀ {ops : List BOp}, ClosedIn S ops →
    BOp.nodes (BOp.only S ops) = (BOp.nodes ops).filter (fun n => S n.var.id)
  | [], _ => rfl
  | .addNode n :: ops, h => by
      have ih := only_nodes h.tail
      unfold BOp.only at ih ⊢
      rw [List.filter_cons]
      have e : BOp.nodes (BOp.addNode n :: ops) = n :: BOp.nodes ops := rfl
      rw [e, List.filter_cons, ← ih]
      simp only
      split
      · rfl
      · rfl
  | .addEdge i j :: ops, h => by
      have ih := only_nodes h.tail
      have hij := h i.var.id j.var.id List.mem_cons_self
      unfold BOp.only at ih ⊢
      rw [List.filter_cons]
      have e : BOp.nodes (BOp.addEdge i j :: ops) = i :: j :: BOp.nodes ops := rfl
      rw [e, List.filter_cons, List.filter_cons, ← ih]
      simp only [← hij, Bool.and_self]
      split
      · rfl
      · rfl

theorem find_filter_id {S : Int → Bool} (i : Int) : ∀ (l : List BbnNode),
    (l.filter (fun n => S n.var.id)).find? (fun n => decide (n.var.id = i)) =
      if S i then l.find? (fun n => decide (n.var.id = i)) else none
  | [] => by simp
  | n :: l => by
      have ih := find_filter_id (S := S) i l
      rw [List.filter_cons]
      by_cases hn : n.var.id = i
      · subst hn
        cases hS : S n.var.id
        · rw [hS] at ih
          simpa using ih
        · simp
      · cases hS : S n.var.id
        · simpa [hn] using ih
        · simpa [hn] using ih

section
variable {S : Int → Bool} {ops : List BOp}

theorem only_get (h : ClosedIn S ops) (i : Int) :
    Dict.get? (Bbn.run (BOp.only S ops)).nodes i = if S i then Dict.get? (Bbn.run ops).nodes i else none := by
  rw [get?_run, get?_run, only_nodes h, find_filter_id]

theorem only_parents (h : ClosedIn S ops) (c : Int) :
    ddGet (Bbn.run (BOp.only S ops)).parents c = if S c then ddGet (Bbn.run ops).parents c else [] := by
  rw [(c07_parents_first_insertion (BOp.only S ops) c).1, (c07_parents_first_insertion ops c).1, only_edges h, List.filter_filter]
  by_cases hc : S c = true
  · rw [if_pos hc]
    congr 2
    apply List.filter_congr
    rintro ⟨p, q⟩ hpq
    have := h p q hpq
    by_cases hq : q = c
    · subst hq
      simp [this, hc]
    · simp [hq]
  · rw [if_neg hc]
    have : (BOp.edges ops).filter (fun pc => decide (pc.2 = c) && S pc.1) = [] := by
      rw [List.filter_eq_nil_iff]
      rintro ⟨p, q⟩ hpq
      have := h p q hpq
      by_cases hq : q = c
      · subst hq
        simp [this, hc]
      · simp [hq]
    rw [this]
    rfl

theorem only_getNodes (h : ClosedIn S ops) (n : BbnNode) :
    n ∈ (Bbn.run (BOp.only S ops)).toGraph.getNodes ↔ n ∈ (Bbn.run ops).toGraph.getNodes ∧ S n.var.id = true := by
  rw [getNodes_eq (bbn_run_inv _), getNodes_eq (bbn_run_inv _), only_get h]
  by_cases hS : S n.var.id = true <;> simp [hS]

theorem only_vars (h : ClosedIn S ops) (v : Variable) :
    v ∈ (Bbn.run (BOp.only S ops)).vars ↔ v ∈ (Bbn.run ops).vars ∧ S v.id = true := by
  unfold Bbn.vars
  simp only [List.mem_map, only_getNodes h]
  constructor
  · rintro ⟨n, ⟨a, b⟩, rfl⟩; exact ⟨⟨n, a, rfl⟩, b⟩
  · rintro ⟨⟨n, a, rfl⟩, b⟩; exact ⟨n, ⟨a, b⟩, rfl⟩

theorem only_parentVars (h : ClosedIn S ops) {c : Int} (hc : S c = true) :
    (Bbn.run (BOp.only S ops)).parentVars c = (Bbn.run ops).parentVars c := by
  unfold Bbn.parentVars
  rw [only_parents h, if_pos hc]
  apply List.filterMap_congr
  intro p hp
  rw [only_get h, if_pos ((h p c ((parents_requested ops p c).1 hp)).trans hc)]

theorem only_wf (h : ClosedIn S ops) (wf : (Bbn.run ops).WF) : (Bbn.run (BOp.only S ops)).WF := by
  refine ⟨?_, ?_, ?_, ?_⟩
  · intro i hi
    rw [only_parents h] at hi
    split at hi
    · exact wf.noLoop i hi
    · simp at hi
  · intro n hn
    exact wf.values n ((only_getNodes h n).1 hn).1
  · intro n hn
    obtain ⟨a, b⟩ := (only_getNodes h n).1 hn
    rw [only_parentVars h b]
    exact wf.cpt n a
  · intro n hn
    exact wf.nonneg n ((only_getNodes h n).1 hn).1

end

end PyBBN
