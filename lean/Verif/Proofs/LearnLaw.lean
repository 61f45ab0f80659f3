import Verif.Props.SampleChance
import Verif.Proofs.LearnNet
import Verif.Spec.Learn

/-! The samples without evidence, as lists. -/

namespace PyBBN
open Classical InferenceController Reject

variable {ops : List BOp} {M : Nat}

/-- a sample with the nodes in the given order -/
def canon (order : List Int) (τ : Asg) : Dict Int Str := order.map (fun i => (i, τ i))

theorem keys_canon (order : List Int) (τ : Asg) : Dict.keys (canon order τ) = order := by
  unfold Dict.keys canon; rw [List.map_map]; exact List.map_id _

theorem drawLoop_keys (s : LogicSampler) : ∀ (l : List (ℚ × Int)) (acc r : Dict Int Str), (Dict.keys acc ++ l.map Prod.snd).Nodup →
    LogicSampler.drawLoop s [] l acc = .ok r → Dict.keys r = Dict.keys acc ++ l.map Prod.snd
  | [], acc, r, _, h => by
      simp only [LogicSampler.drawLoop, Except.ok.injEq] at h
      rw [← h]; simp
  | (p, i) :: l, acc, r, hn, h => by
      simp only [LogicSampler.drawLoop, bind, Except.bind, Dict.get?] at h
      cases h1 : Dict.getItem s.tables i with
      | error e => rw [h1] at h; cases h
      | ok t =>
        rw [h1] at h
        simp only at h
        cases h2 : t.getValue p acc with
        | error e => rw [h2] at h; cases h
        | ok val =>
          rw [h2] at h
          simp only at h
          have hi : i ∉ Dict.keys acc := by
            intro hm
            rw [List.nodup_append] at hn
            exact hn.2.2 i hm i (by simp) rfl
          have hk : Dict.keys (Dict.set acc i val) = Dict.keys acc ++ [i] := by
            rw [Dict.keys_set, if_neg hi]
          have := drawLoop_keys s l (Dict.set acc i val) r (by rw [hk]; simpa using hn) h
          rw [this, hk]
          simp

theorem sampleLoop_keys (s : LogicSampler) (hn : s.nodes.Nodup) (N : Nat) : ∀ (draws : List (List ℚ)) (acc samples : List (Dict Int Str)),
    (∀ u ∈ draws, u.length = s.nodes.length) → (∀ r ∈ acc, Dict.keys r = s.nodes) →
    LogicSampler.sampleLoop s [] N draws acc = some (.ok samples) → ∀ r ∈ samples, Dict.keys r = s.nodes
  | [], acc, samples, _, _, h => by simp [LogicSampler.sampleLoop] at h
  | u :: draws, acc, samples, hu, ha, h => by
      simp only [LogicSampler.sampleLoop] at h
      cases hd : LogicSampler.drawLoop s [] (u.zip s.nodes) [] with
      | error e => rw [hd] at h; simp at h
      | ok sample =>
        rw [hd] at h
        simp only at h
        have hz : (u.zip s.nodes).map Prod.snd = s.nodes := by
          rw [List.map_snd_zip]
          exact le_of_eq (hu u List.mem_cons_self).symm
        have hk := drawLoop_keys s _ _ _ (by rw [hz]; simpa [Dict.keys] using hn) hd
        rw [hz] at hk
        have hacc : ∀ r ∈ (if sample.length = s.nodes.length then acc ++ [sample] else acc), Dict.keys r = s.nodes := by
          intro r hr
          split at hr
          · rcases List.mem_append.1 hr with hr | hr
            · exact ha r hr
            · rw [List.mem_singleton.1 hr]; simpa [Dict.keys] using hk
          · exact ha r hr
        generalize (if sample.length = s.nodes.length then acc ++ [sample] else acc) = acc' at h hacc
        split at h
        · rw [Option.some.injEq, Except.ok.injEq] at h
          rw [← h]; exact hacc
        · exact sampleLoop_keys s hn N draws _ samples (fun u' hu' => hu u' (List.mem_cons_of_mem _ hu')) hacc h

theorem canon_of_sample {b : Bbn} {order : List Int} (hp : order.Perm b.ids) {r : Dict Int Str} {τ : Asg} (hk : Dict.keys r = order) (hn : order.Nodup)
    (h : b.Sample r τ) : r = canon order τ := by
  subst hk
  unfold canon Dict.keys
  rw [List.map_map]
  conv_lhs => rw [← List.map_id r]
  apply List.map_congr_left
  intro kv hkv
  have h1 : Dict.get? r kv.1 = some kv.2 := Dict.get?_of_mem hn hkv
  have h2 := h.2 kv.1 (hp.mem_iff.1 (List.mem_map_of_mem hkv))
  rw [h1] at h2
  simp only [id_eq, Function.comp_apply]
  rw [← Option.some.inj h2]

section
variable (ps : PySort SortableNode) (hs : (Bbn.run ops).Samplable) (hg : (Bbn.run ops).Grid M) (s : LogicSampler)
    (hmake : LogicSampler.make ps (Bbn.run ops) = .ok s) (ht : (Bbn.run ops).Topological s.nodes)
    (hasc : ∀ n ∈ (Bbn.run ops).toGraph.getNodes, (ddGet (Bbn.run ops).parents n.var.id).Pairwise (· < ·))
include hs hg ht hasc

theorem obsProb_nil : (Bbn.run ops).obsProb [] = 1 := by
  have h : frac (Fin s.nodes.length → Fin M) (Kept (Bbn.run ops) s.nodes (obsDict [])) = 1 := by
    unfold frac
    have : ∀ ω : Fin s.nodes.length → Fin M, Kept (Bbn.run ops) s.nodes (obsDict []) ω := by
      intro ω kv hkv; cases hkv
    rw [Finset.sum_congr rfl (fun ω _ => if_pos (this ω))]
    rw [Finset.sum_const, Finset.card_univ, nsmul_eq_mul, mul_one]
    apply div_self
    have hM := hg.1
    rw [Fintype.card_fun, Fintype.card_fin]
    positivity
  rw [frac_obs hs hg s ht hasc ⟨by simp, by simp, by simp⟩] at h
  exact h

/-- the probability of an event -/
theorem frac_event {E : Asg → Bool} (hE : ∀ σ τ, (∀ v ∈ (Bbn.run ops).vars, σ v.id = τ v.id) → E σ = E τ) :
    frac {ω : Fin s.nodes.length → Fin M // Kept (Bbn.run ops) s.nodes (obsDict []) ω} (fun ω => E (drawn (Bbn.run ops) s.nodes ω.1) = true) =
      (Bbn.run ops).weightOf E := by
  have ho : Observations (Bbn.run ops) [] := ⟨by simp, by simp, by simp⟩
  have h1 := frac_sub (Kept (Bbn.run ops) s.nodes (obsDict [])) (fun ω : Fin s.nodes.length → Fin M => E (drawn (Bbn.run ops) s.nodes ω) = true)
  rw [frac_kept hs hg s ht ho (fun σ => E σ = true) (fun σ τ h => by rw [hE σ τ h]), frac_obs hs hg s ht hasc ho,
    show followed s.nodes [] = [] from rfl, obsProb_nil hs hg s ht hasc, div_one] at h1
  rw [h1]
  unfold Bbn.weightOf
  have e : (allAsg (Bbn.run ops).vars).filter (fun σ => decide (Matches (obsDict []) σ ∧ E σ = true)) = (allAsg (Bbn.run ops).vars).filter E := by
    apply List.filter_congr
    intro σ _
    rw [Bool.eq_iff_iff, decide_eq_true_eq]
    exact and_iff_right (fun kv (hkv : kv ∈ ([] : Dict Int Str)) => by cases hkv)
  refine Eq.trans (congrArg (fun l : List Asg => (l.map ((Bbn.run ops).boxVolume (Bbn.run ops).sortedParentVars)).sum) ?_)
    (congrArg List.sum (List.map_congr_left (fun σ hσ => ?_)))
  · exact (filter_same (fun σ => Iff.rfl)).trans e
  exact boxVolume_eq (bbn_run_inv ops) hasc (allAsg_mem_dom _ (vars_nodup (bbn_run_inv ops)) σ (List.mem_of_mem_filter hσ))

include hmake

/-- the law of the samples, for any property -/
theorem canon_law {N : Nat} (hN : 0 < N) (p : List (Dict Int Str) → Prop) :
    s.Prob M [] N p (part {ω : Fin s.nodes.length → Fin M // Kept (Bbn.run ops) s.nodes (obsDict []) ω} N
      (fun l => p (l.map (fun ω => canon s.nodes (drawn (Bbn.run ops) s.nodes ω.1))))) := by
  have hi := bbn_run_inv ops
  have ho : Observations (Bbn.run ops) [] := ⟨by simp, by simp, by simp⟩
  have hnd := nodup_order hi ht
  have hK := kept_pos hs hg s ht hasc ho (by
    rw [show followed s.nodes [] = [] from rfl, obsProb_nil hs hg s ht hasc]; exact one_pos)
  have hcan : ∀ (τs τs' : List Asg) (samples : List (Dict Int Str)), List.Forall₂ (fun r τ => (Bbn.run ops).Sample r τ) samples τs →
      List.Forall₂ (fun r τ => (Bbn.run ops).Sample r τ) samples τs' → τs.map (canon s.nodes) = τs'.map (canon s.nodes) := by
    intro τs τs' samples h
    induction h generalizing τs' with
    | nil => intro h'; cases h'; rfl
    | cons hr _ ih =>
      intro h'
      cases h' with
      | cons hr' hrest =>
        rw [List.map_cons, List.map_cons, ih _ hrest]
        congr 1
        unfold canon
        apply List.map_congr_left
        intro i hii
        have hid := ht.1.mem_iff.1 hii
        have := (hr.2 i hid).symm.trans (hr'.2 i hid)
        rw [Option.some.inj this]
  have hlaw := sample_law ps hs hg.1 s hmake ht (evidence := []) (by simp [Dict.keys]) (by simp [Dict.keys]) hN hK
    (p := fun samples => ∃ τs, List.Forall₂ (fun r τ => (Bbn.run ops).Sample r τ) samples τs ∧ p (τs.map (canon s.nodes)))
    (p' := fun τs => p (τs.map (canon s.nodes))) (by
      intro samples τs h
      constructor
      · rintro ⟨τs', h', hp⟩
        rw [hcan τs τs' samples h h']; exact hp
      · exact fun hp => ⟨τs, h, hp⟩)
  refine cast ?_ hlaw
  have e1 : ∀ L, s.share M [] N (fun samples => ∃ τs, List.Forall₂ (fun r τ => (Bbn.run ops).Sample r τ) samples τs ∧ p (τs.map (canon s.nodes))) L =
      s.share M [] N p L := by
    intro L
    unfold LogicSampler.share
    congr 2
    refine congrArg Finset.card (Finset.filter_congr (fun ds _ => ?_))
    have hobt : ∀ samples, s.getSamples [] N (List.ofFn (fun k => gridPass (ds k))) = some (.ok samples) →
        ∃ τs, List.Forall₂ (fun r τ => (Bbn.run ops).Sample r τ) samples τs ∧ samples = τs.map (canon s.nodes) := by
      intro samples hsm
      have hkeys := sampleLoop_keys s hnd N _ [] samples (by
        intro u hu
        obtain ⟨k, rfl⟩ := (List.mem_ofFn' _ _).1 hu
        simp [gridPass]) (by simp) hsm
      have hun : ∀ u ∈ List.ofFn (fun k => gridPass (ds k)), Uniform s.nodes.length u := by
        intro u hu
        obtain ⟨k, rfl⟩ := (List.mem_ofFn' _ _).1 hu
        exact uniform_pass hg.1 _
      have hσ : List.Forall₂ ((Bbn.run ops).Draws (Bbn.run ops).sortedParentVars s.nodes) ((List.ofFn ds).map gridPass)
          ((List.ofFn ds).map (drawn (Bbn.run ops) s.nodes)) := by
        rw [List.forall₂_map_left_iff, List.forall₂_map_right_iff, List.forall₂_same]
        exact fun ω _ => drawn_spec hs hg.1 ht ω
      have e0 : (List.ofFn fun k => gridPass (ds k)) = (List.ofFn ds).map gridPass := by rw [List.map_ofFn]; rfl
      rw [e0] at hsm hun
      obtain ⟨h1, h2⟩ := c36_exact ps ops hs s hmake ht [] (by simp [Dict.keys]) (by simp [Dict.keys]) N hN _ hun _ hσ
      rcases Nat.lt_or_ge (((List.ofFn ds).map (drawn (Bbn.run ops) s.nodes)).filter (fun σ => decide (Checked s.nodes [] σ))).length N with hlt | hge
      · rw [h1 hlt] at hsm; cases hsm
      · obtain ⟨samples', e, hf⟩ := h2 hge
        rw [hsm] at e
        cases e
        generalize List.take N _ = kept at hf
        refine ⟨kept, hf.imp (fun r σ h => h), ?_⟩
        clear h1 h2 hσ e0 hsm
        induction hf with
        | nil => rfl
        | cons hr _ ih =>
          rw [List.map_cons, ← ih (fun r hr => hkeys r (List.mem_cons_of_mem _ hr))]
          congr 1
          exact canon_of_sample ht.1 (hkeys _ List.mem_cons_self) hnd hr
    constructor
    · rintro ⟨samples, e, τs, hf, hp⟩
      obtain ⟨τs', hf', e'⟩ := hobt samples e
      refine ⟨samples, e, ?_⟩
      rw [e', ← hcan τs τs' samples hf hf']; exact hp
    · rintro ⟨samples, e, hp⟩
      obtain ⟨τs', hf', e'⟩ := hobt samples e
      exact ⟨samples, e, τs', hf', e' ▸ hp⟩
  unfold LogicSampler.Prob
  rw [show s.share M [] N (fun samples => ∃ τs, List.Forall₂ (fun r τ => (Bbn.run ops).Sample r τ) samples τs ∧ p (τs.map (canon s.nodes))) =
    s.share M [] N p from funext e1]
  refine congrArg _ ?_
  apply part_congr
  intro l _
  rw [List.map_map]
  rfl

end
end PyBBN
