import Verif.Proofs.LearnLaw
import Verif.Props.Factory

/-! The data frame of some samples. -/

namespace PyBBN
open Relation InferenceController

variable {b : Bbn}

theorem find_of_nodup {α β : Type} [DecidableEq β] {f : α → β} : ∀ {l : List α}, (l.map f).Nodup → ∀ {a : α}, a ∈ l → l.find? (fun x => decide (f x = f a)) = some a
  | x :: l, hn, a, ha => by
      rw [List.map_cons, List.nodup_cons] at hn
      rw [List.find?_cons]
      rcases List.mem_cons.1 ha with rfl | ha'
      · simp
      · have : f x ≠ f a := fun e => hn.1 (e ▸ List.mem_map_of_mem ha')
        simp only [this, decide_false]
        exact find_of_nodup hn.2 ha'

theorem label_eq (hi : BbnInv b) {v : Variable} (hv : v ∈ b.vars) : b.label v.id = v.name := by
  unfold Bbn.label
  rw [find_of_nodup (f := Variable.id) (vars_nodup hi) hv]; rfl

/-- the id of the node with a name -/
def Bbn.idNamed (b : Bbn) (n : Str) : Int := ((b.vars.find? (fun v => decide (v.name = n))).map Variable.id).getD 0

theorem idNamed_eq (hname : (b.vars.map Variable.name).Nodup) {v : Variable} (hv : v ∈ b.vars) : b.idNamed v.name = v.id := by
  unfold Bbn.idNamed
  rw [find_of_nodup (f := Variable.name) hname hv]; rfl

theorem ids_eq_vids (b : Bbn) : b.ids = b.vars.map Variable.id := by
  unfold Bbn.ids Bbn.vars; rw [List.map_map]; rfl

/-- the number of samples in an event -/
def cnt (τs : List Asg) (E : Asg → Bool) : Nat := (τs.filter E).length

theorem get?_canon {order : List Int} (hn : order.Nodup) {i : Int} (h : i ∈ order) (τ : Asg) : Dict.get? (canon order τ) i = some (τ i) :=
  Dict.get?_of_mem (by rw [keys_canon]; exact hn) (List.mem_map.2 ⟨i, h, rfl⟩)

theorem idxOf_map_label {f : Int → Str} : ∀ {l : List Int}, (∀ i ∈ l, ∀ j ∈ l, f i = f j → i = j) → ∀ {i : Int}, i ∈ l →
    (l.map f).idxOf (f i) = l.idxOf i
  | j :: l, hinj, i, h => by
      rw [List.map_cons, List.idxOf_cons, List.idxOf_cons]
      by_cases e : j = i
      · simp [e]
      · have hf : f j ≠ f i := fun h' => e (hinj j List.mem_cons_self i h h')
        have hm : i ∈ l := (List.mem_cons.1 h).resolve_left (fun h => e h.symm)
        have e1 : (f j == f i) = false := by simpa using hf
        have e2 : (j == i) = false := by simpa using e
        rw [e1, e2]
        simp only [cond_false]
        rw [idxOf_map_label (fun a ha c hc => hinj a (List.mem_cons_of_mem _ ha) c (List.mem_cons_of_mem _ hc)) hm]

section
variable (hi : BbnInv b) (hname : (b.vars.map Variable.name).Nodup) {order : List Int} (hp : order.Perm b.ids) {τs : List Asg} (hne : τs ≠ [])
include hi hp

theorem order_label_perm : (order.map b.label).Perm (b.vars.map Variable.name) := by
  have h1 := hp.map b.label
  rw [ids_eq_vids, List.map_map] at h1
  have : b.vars.map (b.label ∘ Variable.id) = b.vars.map Variable.name := List.map_congr_left (fun v hv => label_eq hi hv)
  rw [this] at h1
  exact h1

include hne

omit hi hp in
theorem frame_columns : (sampleFrame b (τs.map (canon order))).columns = order.map b.label := by
  obtain ⟨τ, τs', rfl⟩ := List.exists_cons_of_ne_nil hne
  simp [sampleFrame, keys_canon]

theorem frame_rows : (sampleFrame b (τs.map (canon order))).rows = τs.map (fun τ => order.map τ) := by
  have hn : order.Nodup := by rw [hp.nodup_iff]; exact node_ids_nodup hi
  have e : ∀ τ : Asg, order.map (fun i => (Dict.get? (canon order τ) i).getD []) = order.map τ := by
    intro τ
    apply List.map_congr_left
    intro i h
    rw [get?_canon hn h]
    rfl
  obtain ⟨τ, τs', rfl⟩ := List.exists_cons_of_ne_nil hne
  simp only [sampleFrame, List.map_cons, List.head?_cons, Option.map_some, Option.getD_some, keys_canon, List.map_map, e, Function.comp_def]

include hname

theorem frame_cell {v : Variable} (hv : v ∈ b.vars) (τ : Asg) : (sampleFrame b (τs.map (canon order))).cell (order.map τ) v.name = τ v.id := by
  have hmem : v.id ∈ order := by rw [hp.mem_iff, ids_eq_vids]; exact List.mem_map_of_mem hv
  have hinj : ∀ i ∈ order, ∀ j ∈ order, b.label i = b.label j → i = j := by
    intro i h1 j h2 e
    rw [hp.mem_iff, ids_eq_vids] at h1 h2
    obtain ⟨u, hu, rfl⟩ := List.mem_map.1 h1
    obtain ⟨w, hw, rfl⟩ := List.mem_map.1 h2
    rw [label_eq hi hu, label_eq hi hw] at e
    rw [List.inj_on_of_nodup_map hname hu hw e]
  unfold Frame.cell
  rw [frame_columns hne, ← label_eq hi hv, idxOf_map_label hinj hmem]
  have hlt := List.idxOf_lt_length_of_mem hmem
  rw [List.getD_eq_getElem?_getD, List.getElem?_map, List.getElem?_eq_getElem hlt, List.getElem_idxOf]
  rfl

theorem frame_hits {Z : List Variable} (hZ : ∀ z ∈ Z, z ∈ b.vars) (σ : Asg) :
    (sampleFrame b (τs.map (canon order))).hits (Z.map (fun z => (z.name, σ z.id))) = cnt τs (agree Z σ) := by
  unfold Frame.hits cnt
  rw [frame_rows hi hp hne, List.countP_map, List.countP_eq_length_filter]
  congr 1
  apply List.filter_congr
  intro τ _
  rw [Bool.eq_iff_iff, agree_iff]
  simp only [Function.comp_apply, decide_eq_true_eq, List.forall_mem_map]
  exact forall₂_congr (fun z hz => by rw [frame_cell hi hname hp hne (hZ z hz)])

theorem frame_occurs {v : Variable} (hv : v ∈ b.vars) (x : Str) : (sampleFrame b (τs.map (canon order))).Occurs v.name x ↔ ∃ τ ∈ τs, τ v.id = x := by
  unfold Frame.Occurs
  rw [frame_rows hi hp hne]
  constructor
  · rintro ⟨r, hr, e⟩
    obtain ⟨τ, hτ, rfl⟩ := List.mem_map.1 hr
    exact ⟨τ, hτ, by rw [← e, frame_cell hi hname hp hne hv]⟩
  · rintro ⟨τ, hτ, e⟩
    exact ⟨_, List.mem_map_of_mem hτ, by rw [frame_cell hi hname hp hne hv, e]⟩

theorem frame_valid {st : Dict Str (List Str)} (hst : Describes st b) : Factory.Valid st (sampleFrame b (τs.map (canon order))) := by
  have hcp := order_label_perm hi hp
  refine ⟨?_, hst.keys, ?_, ?_⟩
  · rw [frame_columns hne, hcp.nodup_iff]; exact hname
  · intro c
    rw [frame_columns hne, hcp.mem_iff, hst.same]
  · intro c hc p hpp
    rw [frame_columns hne, hcp.mem_iff] at hc ⊢
    obtain ⟨v, hv, rfl⟩ := List.mem_map.1 hc
    obtain ⟨q, hq, rfl⟩ := List.mem_map.1 ((hst.parents v hv p).1 hpp)
    exact List.mem_map_of_mem (parentVars_sub hi _ q hq)

/-- the learned conditional probability -/
theorem frame_learned {st : Dict Str (List Str)} (hst : Describes st b) {v : Variable} (hv : v ∈ b.vars) (σ : Asg) (h0 : cnt τs (agree (b.parentVars v.id) σ) ≠ 0) :
    Factory.learned st (sampleFrame b (τs.map (canon order))) (fun n => σ (b.idNamed n)) v.name =
      (cnt τs (agree (v :: b.parentVars v.id) σ) : ℚ) / (cnt τs (agree (b.parentVars v.id) σ) : ℚ) := by
  have hsub : ∀ z ∈ b.parentVars v.id, z ∈ b.vars := fun z hz => parentVars_sub hi _ z hz
  unfold Factory.learned
  beta_reduce
  rw [idNamed_eq hname hv, Frame.relFreq_congr (q' := (b.parentVars v.id).map (fun z => (z.name, σ z.id)))]
  · unfold Frame.relFreq
    have e := frame_hits hi hname hp hne (Z := v :: b.parentVars v.id) (by
      intro z hz
      rcases List.mem_cons.1 hz with rfl | hz
      · exact hv
      · exact hsub z hz) σ
    rw [List.map_cons] at e
    rw [frame_hits hi hname hp hne hsub σ, if_neg h0, e]
  · intro q
    simp only [List.mem_map]
    constructor
    · rintro ⟨p, hpp, rfl⟩
      obtain ⟨z, hz, rfl⟩ := List.mem_map.1 ((hst.parents v hv p).1 hpp)
      exact ⟨z, hz, by rw [idNamed_eq hname (hsub z hz)]⟩
    · rintro ⟨z, hz, rfl⟩
      exact ⟨z.name, (hst.parents v hv z.name).2 (List.mem_map_of_mem hz), by rw [idNamed_eq hname (hsub z hz)]⟩

end

theorem learned_nonneg (st : Dict Str (List Str)) (df : Frame) (τ : Str → Str) (c : Str) : 0 ≤ Factory.learned st df τ c :=
  Factory.relFreq_nonneg df c _ _

/-- marginals of a network over names, as sums over the assignments of values to ids -/
theorem netMarginal_eq (hi : BbnInv b) (wf : b.WF) (hname : (b.vars.map Variable.name).Nodup) {names : List Str} (hp : names.Perm (b.vars.map Variable.name))
    {vals : Str → List Str} (hvals : ∀ v ∈ b.vars, (vals v.name).Nodup ∧ ∀ x ∈ vals v.name, x ∈ v.values) {prob : (Str → Str) → Str → ℚ}
    (hdep : ∀ n ∈ names, ∀ τ τ', (∀ m ∈ names, τ m = τ' m) → prob τ n = prob τ' n) {v : Variable} (hv : v ∈ b.vars) (x : Str) :
    let L : Asg → ℚ := fun σ => if ∀ u ∈ b.vars, σ u.id ∈ vals u.name then (b.vars.map (fun u => prob (fun n => σ (b.idNamed n)) u.name)).prod else 0
    netMarginal names vals prob v.name x =
      ((allAsg b.vars).map (fun σ => if σ v.id = x then L σ else 0)).sum / ((allAsg b.vars).map L).sum := by
  intro L
  have hids : (names.map b.idNamed).Nodup := by
    have h1 := hp.map b.idNamed
    rw [List.map_map] at h1
    have : b.vars.map (b.idNamed ∘ Variable.name) = b.vars.map Variable.id := List.map_congr_left (fun v hv => idNamed_eq hname hv)
    rw [this] at h1
    rw [h1.nodup_iff]
    exact vars_nodup hi
  have hvn : v.name ∈ names := hp.mem_iff.2 (List.mem_map_of_mem hv)
  have key : ∀ F : (Str → Str) → ℚ, (∀ τ τ', (∀ m ∈ names, τ m = τ' m) → F τ = F τ') →
      ((worlds vals names).map F).sum = ((allAsg b.vars).map (fun σ => if ∀ u ∈ b.vars, σ u.id ∈ vals u.name then F (fun n => σ (b.idNamed n)) else 0)).sum := by
    intro F hF
    rw [← sum_worlds b.idNamed vals names hids F hF]
    have hperm : (names.map (fun n => (⟨b.idNamed n, n, vals n⟩ : Variable))).Perm (b.vars.map (fun u => (⟨u.id, u.name, vals u.name⟩ : Variable))) := by
      have h1 := hp.map (fun n => (⟨b.idNamed n, n, vals n⟩ : Variable))
      rw [List.map_map] at h1
      have : b.vars.map ((fun n => (⟨b.idNamed n, n, vals n⟩ : Variable)) ∘ Variable.name) = b.vars.map (fun u => (⟨u.id, u.name, vals u.name⟩ : Variable)) :=
        List.map_congr_left (fun u hu => by simp only [Function.comp_apply, idNamed_eq hname hu])
      rw [this] at h1
      exact h1
    rw [sum_allAsg_perm (by
      unfold vids; rw [List.map_map]; exact hids) hperm]
    rw [sum_allAsg_small (fun u => vals u.name) b.vars (vars_nodup hi)]
    intro u hu
    obtain ⟨n, hn, rfl⟩ := List.mem_map.1 hu
    exact ⟨wf.values n hn, hvals _ hu⟩
  have hprod : ∀ τ : Str → Str, (names.map (prob τ)).prod = (b.vars.map (fun u => prob τ u.name)).prod := by
    intro τ
    rw [(hp.map (prob τ)).prod_eq, List.map_map]
    rfl
  unfold netMarginal
  rw [sum_map_filter]
  have hF : ∀ τ τ' : Str → Str, (∀ m ∈ names, τ m = τ' m) → (names.map (prob τ)).prod = (names.map (prob τ')).prod :=
    fun τ τ' h => congrArg List.prod (List.map_congr_left (fun n hn => hdep n hn τ τ' h))
  rw [key (fun τ => (names.map (prob τ)).prod) hF, key (fun τ => if decide (τ v.name = x) = true then (names.map (prob τ)).prod else 0)
    (fun τ τ' h => by rw [hF τ τ' h, h _ hvn])]
  congr 1
  · congr 1
    apply List.map_congr_left
    intro σ _
    simp only [L, hprod, idNamed_eq hname hv, decide_eq_true_eq]
    by_cases h1 : σ v.id = x
    · simp only [if_pos h1]
    · simp only [if_neg h1, ite_self]
  · congr 1
    apply List.map_congr_left
    intro σ _
    simp only [L, hprod]

end PyBBN
