import Verif.Proofs.GenSample3
import Verif.Proofs.MultiWalk

/-! Structures whose networks can, or cannot, be sampled. -/

namespace PyBBN
open Relation

namespace Gen

/-- whatever parameters are drawn for the structure, the converted network is sampled correctly -/
def Sampled (srt : PySort SortableNode) (g : DiG Int) : Prop := ∀ (D : Dirichlet) (maxValues maxAlpha : Int), 0 < maxValues → 0 < maxAlpha →
  (generateParameters D g maxValues maxAlpha).Always (fun p => ∃ b s, convert g p = .ok b ∧ LogicSampler.make srt b = .ok s ∧ b.SampledBy s)

/-- whatever parameters are drawn for the structure, `get_samples` of the converted network raises `KeyError` on every draw -/
def Unsampled (srt : PySort SortableNode) (g : DiG Int) : Prop := ∀ (D : Dirichlet) (maxValues maxAlpha : Int), 0 < maxValues → 0 < maxAlpha →
  (generateParameters D g maxValues maxAlpha).Always (fun p => ∃ b s, convert g p = .ok b ∧ LogicSampler.make srt b = .ok s ∧
    ∀ u rest N, Uniform s.nodes.length u → s.getSamples [] N (u :: rest) = some (.error .keyError))

variable {g : DiG Int}

theorem sampled_of {srt : PySort SortableNode} {n : Int} (hg : Inv n g) (hac : g.Acyclic) {e : Int → Int → Bool} (he : ∀ a b, e a b = true ↔ g.E a b)
    (ht : ∀ a b, g.E a b → (orderOf srt n e).idxOf a < (orderOf srt n e).idxOf b) : Sampled srt g := by
  intro D mv ma hv ha
  refine (always_parameters D hg hv ha).mono ?_
  rintro p ⟨card, hf, _⟩
  obtain ⟨b, s, h1, h2, h3, h4, _⟩ := convert_sampled srt hg hac hf
  refine ⟨b, s, h1, h2, h4 ?_⟩
  have hnd : g.nodes.Nodup := by rw [hg.nodes]; exact nodup_range n
  rw [convert_ok hnd hg.wf hf] at h1
  cases h1
  rw [h3, convert_topological hg, ← convert_bids hg p]
  refine ⟨topologicalSort_perm srt, ?_⟩
  rw [convert_order srt hg p he]
  exact ht

theorem unsampled_of {srt : PySort SortableNode} {n : Int} (hg : Inv n g) (hac : g.Acyclic) {e : Int → Int → Bool} (he : ∀ a b, e a b = true ↔ g.E a b)
    (ht : ∃ a b, g.E a b ∧ ¬ (orderOf srt n e).idxOf a < (orderOf srt n e).idxOf b) : Unsampled srt g := by
  intro D mv ma hv ha
  refine (always_parameters D hg hv ha).mono ?_
  rintro p ⟨card, hf, _⟩
  obtain ⟨b, s, h1, h2, h3, _, h4⟩ := convert_sampled srt hg hac hf
  refine ⟨b, s, h1, h2, h4 ?_⟩
  have hnd : g.nodes.Nodup := by rw [hg.nodes]; exact nodup_range n
  rw [convert_ok hnd hg.wf hf] at h1
  cases h1
  rw [h3, convert_topological hg, convert_order srt hg p he]
  rintro ⟨_, h⟩
  obtain ⟨x, y, hxy, hn⟩ := ht
  exact hn (h x y hxy)

/-! ### parameters can always be drawn -/

/-- on zeros the computation raises or takes a fixed number of them -/
def Zeros {α : Type} (x : Rnd α) : Prop := (∃ a m, ∀ L, x (List.replicate (L + m) 0) = .done a (List.replicate L 0)) ∨ ∃ e m, ∀ L, x (List.replicate (L + m) 0) = .raised e

theorem zeros_pure {α : Type} (a : α) : Zeros (Rnd.pure a) := Or.inl ⟨a, 0, fun _ => rfl⟩

theorem zeros_lift {α : Type} (y : Py α) : Zeros (Rnd.lift y) := by
  cases y with
  | ok a => exact zeros_pure a
  | error e => exact Or.inr ⟨e, 0, fun _ => rfl⟩

theorem Zeros.bind {α β : Type} {x : Rnd α} {f : α → Rnd β} (hx : Zeros x) (hf : ∀ a, Zeros (f a)) : Zeros (Rnd.bind x f) := by
  rcases hx with ⟨a, m, h⟩ | ⟨e, m, h⟩
  · rcases hf a with ⟨c, k, h'⟩ | ⟨e, k, h'⟩
    · refine Or.inl ⟨c, k + m, fun L => ?_⟩
      unfold Rnd.bind
      rw [← Nat.add_assoc, h (L + k)]
      exact h' L
    · refine Or.inr ⟨e, k + m, fun L => ?_⟩
      unfold Rnd.bind
      rw [← Nat.add_assoc, h (L + k)]
      exact h' L
  · refine Or.inr ⟨e, m, fun L => ?_⟩
    unfold Rnd.bind
    rw [h L]

theorem zeros_randint (lo hi : Int) : Zeros (Rnd.randint lo hi) := by
  unfold Rnd.randint
  split
  · exact Or.inr ⟨_, 0, fun _ => rfl⟩
  · exact Or.inl ⟨_, 1, fun L => rfl⟩

theorem zeros_times {α : Type} {x : Rnd α} (hx : Zeros x) : ∀ n, Zeros (Rnd.times x n)
  | 0 => zeros_pure _
  | n + 1 => hx.bind (fun _ => (zeros_times hx n).bind (fun _ => zeros_pure _))

/-- equal probabilities, whatever the parameters -/
def evenDirichlet : Dirichlet where
  rvs _ as := List.replicate as.length (1 / (as.length : ℚ))
  length_rvs _ as := by simp
  pos_rvs _ as q hq := by
    obtain ⟨h1, rfl⟩ := List.mem_replicate.1 hq
    have : (0 : ℚ) < as.length := by exact_mod_cast Nat.pos_of_ne_zero h1
    positivity
  sum_rvs _ as h := by
    have : (as.length : ℚ) ≠ 0 := by exact_mod_cast (List.length_pos_iff.2 h).ne'
    rw [List.sum_replicate, nsmul_eq_mul]
    field_simp

theorem zeros_sample (n maxAlpha : Int) : Zeros (sampleDirichlet evenDirichlet n maxAlpha) :=
  Zeros.bind (zeros_times (zeros_randint _ _) _) (fun as => Or.inl ⟨_, 0, fun _ => rfl⟩)

theorem zeros_params (g : DiG Int) (nv : List Num) (maxAlpha : Int) : ∀ (l : List Int) (ps : Dict Int Params), Zeros (paramsLoop evenDirichlet g nv maxAlpha l ps)
  | [], ps => zeros_pure ps
  | i :: l, ps => by
      refine Zeros.bind (x := dirichletParameters evenDirichlet i (predecessors g i) nv maxAlpha) ?_ (fun params => ?_)
      · exact Zeros.bind (zeros_lift _) (fun m => Zeros.bind (zeros_lift _) (fun n => zeros_times (zeros_sample _ _) _))
      · exact Zeros.bind (zeros_lift _) (fun m => Zeros.bind (zeros_lift _) (fun n => zeros_params g nv maxAlpha l _))

theorem zeros_generate (g : DiG Int) (maxValues maxAlpha : Int) : Zeros (generateParameters evenDirichlet g maxValues maxAlpha) :=
  Zeros.bind (zeros_times (Zeros.bind (zeros_randint _ _) (fun _ => zeros_pure _)) _) (fun nv => zeros_params g nv maxAlpha _ _)

/-- no structure is of both kinds -/
theorem sampled_unsampled {srt : PySort SortableNode} (h1 : Sampled srt g) (h2 : Unsampled srt g) : False := by
  have a1 := h1 evenDirichlet 1 1 (by norm_num) (by norm_num)
  have a2 := h2 evenDirichlet 1 1 (by norm_num) (by norm_num)
  rcases zeros_generate g 1 1 with ⟨p, m, h⟩ | ⟨e, m, h⟩
  · obtain ⟨b, s, e1, e2, e3⟩ := (a1 _).2 _ _ (h 0)
    obtain ⟨b', s', e1', e2', e3'⟩ := (a2 _).2 _ _ (h 0)
    rw [e1] at e1'
    cases e1'
    rw [e2] at e2'
    cases e2'
    have hu : Uniform s.nodes.length (List.replicate s.nodes.length 0) := ⟨by simp, fun q hq => by
      rw [List.eq_of_mem_replicate hq]; norm_num⟩
    obtain ⟨_, _, e4, _⟩ := e3.works [List.replicate s.nodes.length 0] (by simp) (by
      intro u hu'; rw [List.mem_singleton] at hu'; rw [hu']; exact hu)
    have e5 := e3' _ [] 1 hu
    rw [List.length_singleton, e5] at e4
    cases e4
  · exact (a1 _).1 _ (h 0)

/-! ### the order is kept -/

theorem runFrom_all {α : Type} {ok : α → α → Bool} : ∀ (l : List α) (a : α), (a :: l).IsChain (fun x y => ok x y = true) → runFrom ok a l = (l, [])
  | [], _, _ => rfl
  | b :: l, a, h => by
      rw [List.isChain_cons_cons] at h
      unfold runFrom
      rw [if_pos h.1, runFrom_all l b h.2]

theorem cpythonSort_keeps {α : Type} {lt : α → α → Bool} (l : List α) (h : l.IsChain (fun x y => lt y x = false)) : cpythonSort lt l = l := by
  unfold cpythonSort
  match l, h with
  | [], _ => rfl
  | [a], _ => rfl
  | a :: b :: l, h =>
      have h1 := (List.isChain_cons_cons.1 h).1
      have : runFrom (fun x y => !(lt y x)) a (b :: l) = (b :: l, []) := runFrom_all _ _ (h.imp (fun _ _ h => by simp [h]))
      unfold countRun
      simp only [h1, Bool.false_eq_true, if_false, this, List.foldl_nil]

theorem range_chain (n : Int) : (range n).IsChain (fun a b => b = a + 1) := by
  unfold range
  rw [List.isChain_map]
  have : ∀ k, (List.range k).IsChain (fun a b => Int.ofNat b = Int.ofNat a + 1) := by
    intro k
    rw [List.isChain_iff_getElem]
    intro i hi
    simp
  exact this _

/-- if no node is the parent of its predecessor, CPython leaves the nodes in the order of their ids -/
theorem order_kept {n : Int} {e : Int → Int → Bool} (h : ∀ i, e (i + 1) i = false) : orderOf (cpython _) n e = range n := by
  unfold orderOf
  have h1 : (cpython SortableNode).sorted (fun x y => decide (paSorter x y < 0)) (sortList n e) = sortList n e := by
    refine cpythonSort_keeps _ ?_
    unfold sortList
    rw [List.isChain_map]
    refine (range_chain n).imp ?_
    rintro a b rfl
    simp only [decide_eq_false_iff_not, not_lt]
    unfold paSorter
    simp only [List.mem_filter, h, Bool.false_eq_true, and_false, if_false]
    split
    · norm_num
    · unfold idSorter
      rw [if_neg (by omega), if_pos (by omega)]
      norm_num
  rw [h1]
  unfold sortList
  rw [List.map_map]
  exact List.map_id _

theorem idxOf_range {n a : Int} (h : a ∈ range n) : ((range n).idxOf a : Int) = a := by
  rw [mem_range] at h
  have h1 : a.toNat < (range n).length := by rw [length_range]; omega
  have h2 : (range n)[a.toNat] = a := by
    show (List.map Int.ofNat (List.range n.toNat))[a.toNat]'(by simpa [range] using h1) = a
    rw [List.getElem_map, List.getElem_range]
    show ((a.toNat : Nat) : Int) = a
    omega
  have := (nodup_range n).idxOf_getElem _ h1
  rw [h2] at this
  omega

open Classical in
/-- structures in which no node is the parent of its predecessor, but some node has a parent with a larger id -/
theorem unsampled_descending {n : Int} (hg : Inv n g) (hac : g.Acyclic) (h1 : ∀ i, ¬ g.E (i + 1) i) {a b : Int} (hab : g.E a b) (hlt : b < a) :
    Unsampled (cpython _) g := by
  refine unsampled_of hg hac (e := fun a b => decide (g.E a b)) (by simp) ⟨a, b, hab, ?_⟩
  rw [order_kept (by simpa using h1)]
  obtain ⟨ha, hb⟩ := hg.wf _ hab
  rw [hg.nodes] at ha hb
  have e1 := idxOf_range ha
  have e2 := idxOf_range hb
  simp only at e1 e2
  omega

/-- structures on which the comparison is transitive -/
theorem sampled_transitive (srt : PySort SortableNode) {n : Int} (hg : Inv n g) (hac : g.Acyclic)
    (htr : ∀ x ∈ g.nodes, ∀ y ∈ g.nodes, ∀ z ∈ g.nodes, (g.E x y ∨ (¬ g.E y x ∧ x < y)) → (g.E y z ∨ (¬ g.E z y ∧ y < z)) →
      (g.E x z ∨ (¬ g.E z x ∧ x < z))) : Sampled srt g := by
  intro D mv ma hv ha
  refine (always_parameters D hg hv ha).mono ?_
  rintro p ⟨card, hf, _⟩
  obtain ⟨b, s, h1, h2, h3, h4, _⟩ := convert_sampled srt hg hac hf
  refine ⟨b, s, h1, h2, h4 ?_⟩
  have hnd : g.nodes.Nodup := by rw [hg.nodes]; exact nodup_range n
  rw [convert_ok hnd hg.wf hf] at h1
  cases h1
  rw [h3]
  have hE : ∀ a c, (a, c) ∈ BOp.edges (convertOps g p) ↔ g.E a c := by
    intro a c
    rw [convert_edges]
    exact mem_edges hg.wf a c
  refine c34_parents_first_partial srt _ ?_ ?_
  · have : (fun a c => (a, c) ∈ BOp.edges (convertOps g p)) = g.E := by
      funext a c; exact propext (hE a c)
    rw [this]
    exact hac
  · rw [convert_bids hg, ← hg.nodes]
    simp only [hE]
    exact htr

end Gen
end PyBBN
