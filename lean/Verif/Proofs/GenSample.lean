import Verif.Proofs.GenConvert
import Verif.Proofs.SampleFail
import Verif.Props.Sampling

/-! The sampler on a converted network. -/

namespace PyBBN
open Relation

namespace Gen
variable {g : DiG Int} {ps : Dict Int Params} {card : Int → Nat}

theorem range_asc (n : Int) : (range n).Pairwise (· < ·) := by
  unfold range
  rw [List.pairwise_map]
  exact List.pairwise_lt_range.imp (fun h => Int.ofNat_lt.2 h)

/-- the parents of every node are connected in ascending order -/
theorem convert_asc {n : Int} (hg : Inv n g) (ps : Dict Int Params) (c : Int) :
    (ddGet (Bbn.run (convertOps g ps)).parents c).Pairwise (· < ·) := by
  have hnd : g.nodes.Nodup := by rw [hg.nodes]; exact nodup_range n
  have hid : ((g.nodes.map (nodeOf ps)).map (fun n => n.var.id)).Nodup := by rw [convert_ids]; exact hnd
  have h := build_parentVars hid (convert_ends (ps := ps) hg.wf) (nodeOf ps) (by
    intro n hn
    obtain ⟨i, _, rfl⟩ := List.mem_map.1 hn
    rw [nodeOf_id]) c
  have e : ((((edges g).map (fun e => (nodeOf ps e.1, nodeOf ps e.2))).filter (fun e => decide (e.2.var.id = c))).map (fun e => e.1.var.id)) =
      ((edges g).filter (fun e => decide (e.2 = c))).map Prod.fst := by
    rw [List.filter_map, List.map_map]
    have h1 : ((fun e : BbnNode × BbnNode => decide (e.2.var.id = c)) ∘ fun e : Int × Int => (nodeOf ps e.1, nodeOf ps e.2)) =
        fun e => decide (e.2 = c) := by
      funext e; simp only [Function.comp, nodeOf_id]
    have h2 : ((fun e : BbnNode × BbnNode => e.1.var.id) ∘ fun e : Int × Int => (nodeOf ps e.1, nodeOf ps e.2)) = Prod.fst := by
      funext e; simp only [Function.comp, nodeOf_id]
    rw [h1, h2]
  have hle : (edges g).Pairwise (fun a b => a.1 ≤ b.1) := by
    unfold edges
    rw [List.pairwise_flatMap]
    refine ⟨fun u _ => ?_, ?_⟩
    · rw [List.pairwise_map]
      exact List.pairwise_of_forall (fun _ _ => le_refl _)
    · rw [hg.nodes]
      refine (range_asc n).imp ?_
      intro a b hab x hx y hy
      obtain ⟨_, _, rfl⟩ := List.mem_map.1 hx
      obtain ⟨_, _, rfl⟩ := List.mem_map.1 hy
      exact le_of_lt hab
  have hn1 : (((edges g).filter (fun e => decide (e.2 = c))).map Prod.fst).Nodup := by
    refine ((nodup_edges hnd hg.nodup).filter _).map_on ?_
    rintro ⟨a1, a2⟩ ha ⟨b1, b2⟩ hb h
    rw [List.mem_filter, decide_eq_true_eq] at ha hb
    simp only at ha hb h
    rw [ha.2, hb.2, h]
  have hlt : (((edges g).filter (fun e => decide (e.2 = c))).map Prod.fst).Pairwise (· < ·) := by
    have h1 : (((edges g).filter (fun e => decide (e.2 = c))).map Prod.fst).Pairwise (· ≤ ·) := by
      rw [List.pairwise_map]
      exact hle.filter _
    exact (h1.and hn1).imp (fun h => lt_of_le_of_ne h.1 h.2)
  have h2 := vids_parentVars (bbn_run_inv (convertOps g ps)) c
  unfold vids at h2
  rw [← h2]
  unfold convertOps
  rw [h, e, firsts_of_nodup _ hn1, List.map_map]
  have h3 : (Variable.id ∘ fun i => (nodeOf ps i).var) = id := by
    funext i; exact nodeOf_id ps i
  rw [h3, List.map_id]
  exact hlt

theorem sortedParentVars_convert {n : Int} (hg : Inv n g) (ps : Dict Int Params) (c : Int) :
    (Bbn.run (convertOps g ps)).sortedParentVars c = (Bbn.run (convertOps g ps)).parentVars c := by
  unfold Bbn.sortedParentVars
  apply sortBy_of_sorted
  have h1 := vids_parentVars (bbn_run_inv (convertOps g ps)) c
  have h2 := convert_asc hg ps c
  unfold vids at h1
  rw [← h1, List.pairwise_map] at h2
  exact h2.imp (fun h => by simpa using le_of_lt h)

theorem convert_samplable {n : Int} (hg : Inv n g) (hac : g.Acyclic) (hf : Fits g ps card) : (Bbn.run (convertOps g ps)).Samplable := by
  have hnd : g.nodes.Nodup := by rw [hg.nodes]; exact nodup_range n
  have hgood := convert_good hg hac hf
  have hgn := convert_getNodes (ps := ps) hnd hg.wf
  refine ⟨hgood.usable.wf, ?_, ?_, ?_⟩
  · intro m hm
    exact hgood.usable.vals m.var (List.mem_map_of_mem hm)
  · intro m hm x hx
    rw [hgn] at hm
    obtain ⟨i, hi, rfl⟩ := List.mem_map.1 hm
    obtain ⟨q, _, e⟩ := nodeOf_eq hf hi
    rw [e] at hx
    obtain ⟨k, _, rfl⟩ := List.mem_map.1 hx
    intro hc
    rcases List.mem_append.1 hc with hc | hc
    · revert hc; decide
    · rcases strInt_chars hc with h | h
      · revert h; decide
      · revert h; decide
  · intro m hm σ hσ
    rw [sortedParentVars_convert hg]
    exact hgood.normalized m hm σ hσ

theorem convert_bids {n : Int} (hg : Inv n g) (ps : Dict Int Params) : (Bbn.run (convertOps g ps)).ids = range n := by
  have hnd : g.nodes.Nodup := by rw [hg.nodes]; exact nodup_range n
  unfold Bbn.ids
  rw [convert_getNodes hnd hg.wf, convert_ids, hg.nodes]

theorem convert_par {n : Int} (hg : Inv n g) (ps : Dict Int Params) (p c : Int) :
    p ∈ ddGet (Bbn.run (convertOps g ps)).parents c ↔ g.E p c := by
  rw [parents_requested, convert_edges]
  exact mem_edges hg.wf p c

theorem convert_topological {n : Int} (hg : Inv n g) (ps : Dict Int Params) (l : List Int) :
    (Bbn.run (convertOps g ps)).Topological l ↔ l.Perm (range n) ∧ ∀ a b, g.E a b → l.idxOf a < l.idxOf b := by
  have hinv := bbn_run_inv (convertOps g ps)
  unfold Bbn.Topological
  rw [convert_bids hg]
  refine and_congr_right (fun _ => ?_)
  constructor
  · intro h a b hab
    have := (convert_par hg ps a b).2 hab
    obtain ⟨e, he, h1, h2⟩ := hinv.listed a b ((hinv.par a b).1 this)
    have h3 := h e he
    change l.idxOf (nid e.i) < l.idxOf (nid e.j) at h3
    rwa [h1, h2] at h3
  · intro h e he
    exact h _ _ ((convert_par hg ps _ _).1 ((hinv.par _ _).2 (hinv.einv.em e he)))

/-- the objects that are sorted depend on the structure only -/
def sortList (n : Int) (e : Int → Int → Bool) : List SortableNode := (range n).map (fun i => ⟨i, (range n).filter (fun p => e p i)⟩)

/-- the order of the nodes for a structure -/
def orderOf (srt : PySort SortableNode) (n : Int) (e : Int → Int → Bool) : List Int :=
  (srt.sorted (fun x y => decide (paSorter x y < 0)) (sortList n e)).map SortableNode.nodeId

theorem convert_order (srt : PySort SortableNode) {n : Int} (hg : Inv n g) (ps : Dict Int Params) {e : Int → Int → Bool}
    (he : ∀ a b, e a b = true ↔ g.E a b) : LogicSampler.topologicalSort srt (Bbn.run (convertOps g ps)) = orderOf srt n e := by
  have hnd : g.nodes.Nodup := by rw [hg.nodes]; exact nodup_range n
  unfold LogicSampler.topologicalSort orderOf
  congr 2
  unfold LogicSampler.sortables sortList
  rw [convert_getNodes hnd hg.wf, List.map_map, hg.nodes]
  refine List.map_congr_left (fun i _ => ?_)
  simp only [Function.comp, nodeOf_id, SortableNode.mk.injEq, true_and]
  have h1 := getParentsOrdered_asc (bbn_run_inv (convertOps g ps)) i
  have h2 : ((range n).filter (fun p => e p i)).Pairwise (· < ·) := (range_asc n).filter _
  refine List.Perm.eq_of_pairwise (le := (· < ·)) ?_ h1 h2 ?_
  · intro a b _ _ hab hba
    exact absurd (lt_trans hab hba) (lt_irrefl _)
  · rw [List.perm_ext_iff_of_nodup (h1.imp ne_of_lt) (h2.imp ne_of_lt)]
    intro a
    rw [mem_getParentsOrdered, convert_par hg, List.mem_filter, he]
    constructor
    · intro h
      exact ⟨by rw [← hg.nodes]; exact (hg.wf _ h).1, h⟩
    · exact fun h => h.2

end Gen

/-- what sampling a network gives: every draw without evidence is a sample with a value for every node, and the numbers that draw a joint value
`σ` form a box whose volume is the probability of `σ` -/
structure Bbn.SampledBy (b : Bbn) (s : LogicSampler) : Prop where
  works : ∀ draws, draws ≠ [] → (∀ u ∈ draws, Uniform s.nodes.length u) → ∃ samples σs, s.getSamples [] draws.length draws = some (.ok samples) ∧
    List.Forall₂ b.Sample samples σs ∧ ∀ σ ∈ σs, InDom b.vars σ
  chance : ∀ σ, InDom b.vars σ → ∃ lo hi : BbnNode → ℚ, (∀ u, Uniform s.nodes.length u →
      ((∃ r, s.getSamples [] 1 [u] = some (.ok [r]) ∧ b.Sample r σ) ↔
        ∀ n ∈ b.toGraph.getNodes, ∀ p, (p, n.var.id) ∈ u.zip s.nodes → lo n ≤ p ∧ p < hi n)) ∧
    (b.toGraph.getNodes.map (fun n => hi n - lo n)).prod = b.weight noEvidence σ

theorem forall₂_right {α β : Type} {r : α → β → Prop} {P : β → Prop} (h : ∀ a b, r a b → P b) : ∀ {l : List α} {m : List β}, List.Forall₂ r l m → ∀ b ∈ m, P b
  | _, _, .nil, _, hb => by simp at hb
  | _, _, .cons h1 h2, b, hb => by
      rcases List.mem_cons.1 hb with rfl | hb
      · exact h _ _ h1
      · exact forall₂_right h h2 b hb

namespace Gen
variable {g : DiG Int} {ps : Dict Int Params} {card : Int → Nat}

/-- a converted network is sampled correctly if the order is topological, and not at all otherwise -/
theorem convert_sampled (srt : PySort SortableNode) {n : Int} (hg : Inv n g) (hac : g.Acyclic) (hf : Fits g ps card) :
    ∃ b s, convert g ps = .ok b ∧ LogicSampler.make srt b = .ok s ∧ s.nodes = LogicSampler.topologicalSort srt b ∧
      (b.Topological s.nodes → b.SampledBy s) ∧
      (¬ b.Topological s.nodes → ∀ u rest N, Uniform s.nodes.length u → s.getSamples [] N (u :: rest) = some (.error .keyError)) := by
  have hnd : g.nodes.Nodup := by rw [hg.nodes]; exact nodup_range n
  have hs := convert_samplable hg hac hf
  have hinv := bbn_run_inv (convertOps g ps)
  obtain ⟨s, hm⟩ := make_exists srt hinv hs
  refine ⟨_, s, convert_ok hnd hg.wf hf, hm, (make_tables srt hinv hm).1, fun ht => ⟨?_, ?_⟩, fun ht u rest N hu => getSamples_raises srt hinv hs hm ht hu rest N⟩
  · intro draws hne hu
    obtain ⟨samples, σs, h1, h2, h3⟩ := c36_no_evidence srt _ hs s hm ht draws hne hu
    exact ⟨samples, σs, h1, h2, forall₂_right (fun _ _ h => h.1) h3⟩
  · intro σ hσ
    exact c50_sample_probability_partial srt _ hs s hm ht (fun m _ => convert_asc hg ps m.var.id) σ hσ

end Gen
end PyBBN
