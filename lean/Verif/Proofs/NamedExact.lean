import Verif.Proofs.Named
import Verif.Spec.Factory
import Verif.Props.Inference

/-! Exact inference on networks given by names. -/

namespace PyBBN
open Relation InferenceController

/-- sums over all joint assignments do not depend on the order of the variables -/
theorem sum_allAsg_perm {ns ms : List Variable} (hn : (vids ns).Nodup) (h : ns.Perm ms) (g : Asg → ℚ) :
    ((allAsg ns).map g).sum = ((allAsg ms).map g).sum := by
  have hm : (vids ms).Nodup := (h.map Variable.id).nodup_iff.1 hn
  let D : Int → List Str := fun i => ((ns.find? (fun v => decide (v.id = i))).map Variable.values).getD []
  have hD : DomOk D ns := by
    intro v hv
    change ((ns.find? (fun w => decide (w.id = v.id))).map Variable.values).getD [] = v.values
    cases hf : ns.find? (fun w => decide (w.id = v.id)) with
    | none => exact absurd (List.find?_eq_none.1 hf v hv) (by simp)
    | some w =>
      have h1 := List.mem_of_find?_eq_some hf
      have h2 := List.find?_some hf
      rw [decide_eq_true_eq] at h2
      have := List.inj_on_of_nodup_map hn h1 hv h2
      rw [this]; rfl
  have hD' : DomOk D ms := fun v hv => hD v (h.mem_iff.2 hv)
  rw [sum_allAsg ns hn hD, sum_allAsg ms hm hD', elim_perm (h.map Variable.id)]

theorem sum_map_filter {α : Type} (l : List α) (p : α → Bool) (g : α → ℚ) :
    ((l.filter p).map g).sum = (l.map (fun a => if p a then g a else 0)).sum := by
  induction l with
  | nil => rfl
  | cons a l ih =>
    rw [List.filter_cons]
    by_cases h : p a = true
    · rw [if_pos h, List.map_cons, List.map_cons, List.sum_cons, List.sum_cons, ih, if_pos h]
    · rw [if_neg h, List.map_cons, List.sum_cons, ih, if_neg h, zero_add]

theorem sum_flatMap_map {α : Type} (l : List α) (f : α → List ℚ) : (l.flatMap f).sum = (l.map (fun a => (f a).sum)).sum := by
  induction l with
  | nil => rfl
  | cons a l ih => rw [List.flatMap_cons, List.sum_append, ih, List.map_cons, List.sum_cons]

/-- sums over the assignments of values to ids are sums over the assignments of values to names -/
theorem sum_worlds (id : Str → Int) (vals : Str → List Str) : ∀ (names : List Str), (names.map id).Nodup → ∀ F : (Str → Str) → ℚ,
    (∀ τ τ', (∀ m ∈ names, τ m = τ' m) → F τ = F τ') →
    ((allAsg (names.map (fun n => ⟨id n, n, vals n⟩))).map (fun σ => F (fun n => σ (id n)))).sum = ((worlds vals names).map F).sum
  | [], _, F, hF => by
      simp only [List.map_nil, allAsg, worlds, List.map_cons, List.sum_cons, List.sum_nil]
  | n :: names, hn, F, hF => by
      rw [List.map_cons, List.nodup_cons] at hn
      rw [List.map_cons]
      simp only [allAsg, worlds, List.map_flatMap]
      rw [sum_flatMap_map, sum_flatMap_map]
      congr 1
      refine List.map_congr_left ?_
      intro x _
      simp only [List.map_map]
      have := sum_worlds id vals names hn.2 (fun τ => F (Function.update τ n x)) (by
        intro τ τ' h
        refine hF _ _ ?_
        intro m hm
        by_cases hmn : m = n
        · subst hmn; simp
        · rw [Function.update_of_ne hmn, Function.update_of_ne hmn]
          rcases List.mem_cons.1 hm with h' | h'
          · exact absurd h' hmn
          · exact h m h')
      simp only [Function.comp_def] at this ⊢
      rw [← this]
      congr 1
      refine List.map_congr_left ?_
      intro σ _
      refine hF _ _ ?_
      intro m hm
      by_cases hmn : m = n
      · subst hmn; simp
      · rw [Function.update_of_ne hmn]
        have hm' : m ∈ names := by
          rcases List.mem_cons.1 hm with h' | h'
          · exact absurd h' hmn
          · exact h'
        rw [Function.update_of_ne]
        intro e
        exact hn.1 (e ▸ List.mem_map_of_mem hm')

namespace Named
variable {N : Named} {ord kids : List Str}

/-- what exact inference reports about a network whose tables hold the conditional probabilities `prob` -/
theorem exact (h : N.WF) (ho : ord.Perm N.names) (hk : kids.Perm N.names) (hname : ∀ n ∈ N.names, (N.node n).var.name = n)
    (hl : ∀ c ∈ N.names, c ∉ N.pa c) (hv : ∀ c ∈ N.names, (N.node c).var.values.Nodup)
    (hc : ∀ c ∈ N.names, (((firsts (N.pa c)).map (fun p => (N.node p).var) ++ [(N.node c).var]).map (fun v => v.values.length)).prod ≤ (N.node c).probs.length)
    (hp : ∀ c ∈ N.names, ∀ q ∈ (N.node c).probs, 0 ≤ q) (hne : N.names ≠ [])
    (hconn : ∀ m ∈ N.names, ∀ n ∈ N.names, EqvGen (fun p c => c ∈ N.names ∧ p ∈ N.pa c) m n) {prob : (Str → Str) → Str → ℚ}
    (hdep : ∀ n ∈ N.names, ∀ τ τ', (∀ m ∈ N.names, τ m = τ' m) → prob τ n = prob τ' n)
    (hprob : ∀ n ∈ N.names, ∀ σ : Asg, (∀ m ∈ N.names, σ (N.node m).var.id ∈ (N.node m).var.values) →
      cptAt (N.node n).probs ((firsts (N.pa n)).map (fun p => (N.node p).var)) (N.node n).var σ = prob (fun m => σ (N.node m).var.id) n)
    (it : SetIter Int) (js : SetIter Str) :
    ∃ jt d, apply it js (Bbn.run (N.ops ord kids)) = .ok jt ∧ jt.getPosteriors = .ok d ∧ (∀ k, k ∈ Dict.keys d ↔ k ∈ N.names) ∧
      ∀ n ∈ N.names, Dict.get? d n =
        some ((N.node n).var.values.map (fun x => (x, netMarginal N.names (fun m => (N.node m).var.values) prob n x))) := by
  have hvars := Named.vars h ho hk
  have hvp : (Bbn.run (N.ops ord kids)).vars.Perm (N.names.map (fun n => (N.node n).var)) := by
    rw [hvars]; exact ho.map _
  have hids : (vids (N.names.map (fun n => (N.node n).var))).Nodup := by
    unfold vids; rw [List.map_map]; exact h.ids
  have hids' := (hvp.map Variable.id).nodup_iff.2 hids
  have hwf := Named.bbnWF h ho hk hl hv hc hp
  have hco : ConnectedOps (N.ops ord kids) := by
    intro u hu v hv
    rw [hvars] at hu hv
    obtain ⟨m, hm, rfl⟩ := List.mem_map.1 hu
    obtain ⟨n, hn, rfl⟩ := List.mem_map.1 hv
    have key : ∀ a c, EqvGen (fun p c => c ∈ N.names ∧ p ∈ N.pa c) a c →
        EqvGen (fun p c => (p, c) ∈ BOp.edges (N.ops ord kids)) (N.node a).var.id (N.node c).var.id := by
      intro a c hac
      induction hac with
      | rel a c hac =>
        refine EqvGen.rel _ _ ?_
        rw [Named.edges]
        exact List.mem_flatMap.2 ⟨c, hk.mem_iff.2 hac.1, List.mem_map.2 ⟨a, hac.2, rfl⟩⟩
      | refl a => exact EqvGen.refl _
      | symm a c _ ih => exact EqvGen.symm _ _ ih
      | trans a c e _ _ ih1 ih2 => exact EqvGen.trans _ _ _ ih1 ih2
    exact key m n (hconn m (ho.mem_iff.1 hm) n (ho.mem_iff.1 hn))
  have hnames : ((Bbn.run (N.ops ord kids)).vars.map Variable.name) = ord := by
    rw [hvars, List.map_map]
    refine (List.map_congr_left ?_).trans (List.map_id _)
    intro n hn
    exact hname n (ho.mem_iff.1 hn)
  obtain ⟨jt, d, h1, h2, h3, h4⟩ := c16_get_posteriors it js _ hwf hco (by
    rw [hvars]
    intro e
    rw [List.map_eq_nil_iff] at e
    rw [e] at ho
    exact hne ho.symm.eq_nil) (by rw [hnames]; exact ho.nodup_iff.2 h.names)
  refine ⟨jt, d, h1, h2, ?_, ?_⟩
  · intro k
    rw [h3, hnames, ho.mem_iff]
  · intro n hn
    have := h4 (N.node n).var (by rw [hvars]; exact List.mem_map.2 ⟨n, ho.mem_iff.2 hn, rfl⟩)
    rw [hname n hn] at this
    rw [this]
    congr 1
    refine List.map_congr_left ?_
    intro x hx
    congr 1
    have hw : ∀ σ ∈ allAsg (N.names.map (fun n => (N.node n).var)), (Bbn.run (N.ops ord kids)).weight noEvidence σ =
        (N.names.map (prob (fun m => σ (N.node m).var.id))).prod := by
      intro σ hσ
      rw [Named.weight h ho hk]
      congr 1
      refine List.map_congr_left ?_
      intro c hcn
      refine hprob c hcn σ ?_
      intro m hm
      exact allAsg_mem_dom _ hids σ hσ (N.node m).var (List.mem_map.2 ⟨m, hm, rfl⟩)
    have hF : ∀ τ τ' : Str → Str, (∀ m ∈ N.names, τ m = τ' m) → (N.names.map (prob τ)).prod = (N.names.map (prob τ')).prod := by
      intro τ τ' ht
      congr 1
      exact List.map_congr_left (fun m hm => hdep m hm τ τ' ht)
    have hvar : N.names.map (fun n => (N.node n).var) = N.names.map (fun n => ⟨(N.node n).var.id, n, (N.node n).var.values⟩) := by
      refine List.map_congr_left ?_
      intro m hm
      have := hname m hm
      cases hv' : (N.node m).var
      rw [hv'] at this
      simp only at this
      rw [this]
    unfold Bbn.posterior netMarginal Bbn.mass Bbn.total
    rw [sum_map_filter, sum_map_filter, sum_allAsg_perm hids' hvp, sum_allAsg_perm hids' hvp]
    congr 1
    · rw [← sum_worlds (fun m => (N.node m).var.id) (fun m => (N.node m).var.values) N.names h.ids, ← hvar]
      · congr 1
        refine List.map_congr_left ?_
        intro σ hσ
        rw [hw σ hσ]
      · intro τ τ' ht
        rw [hF τ τ' ht, ht n hn]
    · rw [← sum_worlds (fun m => (N.node m).var.id) (fun m => (N.node m).var.values) N.names h.ids _ hF, ← hvar]
      congr 1
      exact List.map_congr_left hw

end Named

end PyBBN
