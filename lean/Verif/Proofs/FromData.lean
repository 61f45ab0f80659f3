import Verif.Proofs.Kahn
import Verif.Proofs.LibPgm
import Verif.Proofs.Transform
import Verif.Proofs.Sampling
import Verif.Proofs.Serde
import Verif.Spec.Sampling

/-! Networks learned from a data frame. -/

namespace PyBBN
open Relation

/-! ## counting -/

namespace Frame
variable {df : Frame}

theorem count_eq (df : Frame) (q : List (Str × Str)) : df.count q = df.hits q := by
  unfold count hits
  rw [List.countP_eq_length_filter]
  congr 2
  funext r
  rw [Bool.eq_iff_iff, List.all_eq_true, decide_eq_true_eq]
  simp

theorem hits_congr (df : Frame) {q q' : List (Str × Str)} (h : ∀ x, x ∈ q ↔ x ∈ q') : df.hits q = df.hits q' := by
  unfold hits
  congr 1
  funext r
  rw [decide_eq_decide]
  exact ⟨fun hr x hx => hr x ((h x).2 hx), fun hr x hx => hr x ((h x).1 hx)⟩

theorem relFreq_congr (df : Frame) (c x : Str) {q q' : List (Str × Str)} (h : ∀ x, x ∈ q ↔ x ∈ q') : df.relFreq c x q = df.relFreq c x q' := by
  unfold relFreq
  rw [hits_congr df h, hits_congr df (q := (c, x) :: q) (q' := (c, x) :: q')]
  intro y
  rw [List.mem_cons, List.mem_cons, h]

theorem sum_countP {α : Type} (f : α → Str) (p : α → Prop) [DecidablePred p] {vals : List Str} (hn : vals.Nodup) : ∀ (rows : List α), (∀ r ∈ rows, f r ∈ vals) →
    (vals.map (fun x => ((rows.countP (fun r => decide (f r = x ∧ p r)) : Nat) : ℚ))).sum = (rows.countP (fun r => decide (p r)) : Nat)
  | [], _ => by simp
  | r :: rows, h => by
      have ih := sum_countP f p hn rows (fun r hr => h r (List.mem_cons_of_mem _ hr))
      have hsplit : vals.map (fun x => (((r :: rows).countP (fun r => decide (f r = x ∧ p r)) : Nat) : ℚ)) =
          vals.map (fun x => ((rows.countP (fun r => decide (f r = x ∧ p r)) : Nat) : ℚ) + (if f r = x then (if p r then 1 else 0) else 0)) := by
        refine List.map_congr_left ?_
        intro x _
        rw [List.countP_cons]
        by_cases h1 : f r = x <;> by_cases h2 : p r <;> simp [h1, h2]
      rw [hsplit, List.sum_map_add, ih, List.countP_cons]
      have hone : (vals.map (fun x => if f r = x then (if p r then (1 : ℚ) else 0) else 0)).sum = if p r then 1 else 0 := by
        have hm := h r List.mem_cons_self
        generalize f r = y at hm
        clear hsplit ih h
        induction vals with
        | nil => simp at hm
        | cons v vals ih =>
          rw [List.nodup_cons] at hn
          rw [List.map_cons, List.sum_cons]
          by_cases hv : y = v
          · subst hv
            rw [if_pos rfl]
            have : (vals.map (fun x => if y = x then (if p r then (1 : ℚ) else 0) else 0)).sum = 0 := by
              refine List.sum_eq_zero ?_
              intro z hz
              obtain ⟨x, hx, rfl⟩ := List.mem_map.1 hz
              rw [if_neg]
              rintro rfl
              exact hn.1 hx
            rw [this, add_zero]
          · rw [if_neg hv, zero_add]
            refine ih hn.2 ?_
            rcases List.mem_cons.1 hm with h | h
            · exact absurd h hv
            · exact h
      rw [hone]
      by_cases h2 : p r <;> simp [h2]

theorem mem_valuesOf (df : Frame) (c x : Str) : x ∈ df.valuesOf c ↔ df.Occurs c x := by
  unfold valuesOf Occurs
  rw [List.mem_dedup, List.mem_map]

theorem sum_hits (df : Frame) (c : Str) (q : List (Str × Str)) {vals : List Str} (hn : vals.Nodup) (hv : ∀ x, df.Occurs c x → x ∈ vals) :
    (vals.map (fun x => (df.hits ((c, x) :: q) : ℚ))).sum = (df.hits q : ℚ) := by
  have := sum_countP (fun r => df.cell r c) (fun r => ∀ nv ∈ q, df.cell r nv.1 = nv.2) hn df.rows (fun r hr => hv _ ⟨r, hr, rfl⟩)
  unfold hits
  rw [← this]
  congr 1
  refine List.map_congr_left ?_
  intro x _
  congr 2
  funext r
  rw [decide_eq_decide]
  simp

end Frame

/-! ## tables -/

namespace Factory
variable {st : Dict Str (List Str)} {df : Frame}

/-- the values of a column as the network lists them -/
def vals (df : Frame) (c : Str) : List Str := sortBy strLe (df.valuesOf c)

theorem mem_vals (df : Frame) (c x : Str) : x ∈ vals df c ↔ df.Occurs c x := by
  unfold vals
  rw [mem_sortBy, Frame.mem_valuesOf]

theorem vals_nodup (df : Frame) (c : Str) : (vals df c).Nodup := (sortBy_perm _ _).nodup_iff.2 (List.nodup_dedup _)

theorem vals_sorted (df : Frame) (c : Str) : (vals df c).Pairwise (fun a b => strLe a b = true) :=
  sortBy_sorted _ strLe_total strLe_trans _

theorem vals_length (df : Frame) (c : Str) : (vals df c).length = (df.rows.map (fun r => df.cell r c)).toFinset.card := by
  unfold vals
  rw [(sortBy_perm _ _).length_eq]
  rfl

theorem sort_vals (df : Frame) (c : Str) : sortBy strLe (vals df c) = vals df c := sortBy_of_sorted (vals_sorted df c)

/-- the parents of a column as they are used for its table: the columns among them, by ascending name -/
def sp (st : Dict Str (List Str)) (df : Frame) (c : Str) : List Str := sortBy strLe (df.columns.filter (fun n => decide (n ∈ pa st c)))

theorem mem_sp (c n : Str) : n ∈ sp st df c ↔ n ∈ df.columns ∧ n ∈ pa st c := by
  unfold sp
  rw [mem_sortBy, List.mem_filter, decide_eq_true_eq]

theorem sp_nodup (h : df.columns.Nodup) (c : Str) : (sp st df c).Nodup := (sortBy_perm _ _).nodup_iff.2 (h.filter _)

/-- a row of the table -/
def rowFor (df : Frame) (c : Str) (names combo : List Str) : List ℚ := (vals df c).map (fun x => df.relFreq c x (names.zip combo))

theorem rowFor_sum (df : Frame) (c : Str) (names combo : List Str) (hv : vals df c ≠ []) : (rowFor df c names combo).sum = 1 := by
  unfold rowFor Frame.relFreq
  by_cases h0 : df.hits (names.zip combo) = 0
  · simp only [if_pos h0]
    rw [← vals_length, List.map_const', List.sum_replicate, nsmul_eq_mul]
    have : ((vals df c).length : ℚ) ≠ 0 := by
      rw [Nat.cast_ne_zero]; exact fun e => hv (List.length_eq_zero_iff.1 e)
    rw [mul_one_div, div_self this]
  · simp only [if_neg h0]
    have hs := Frame.sum_hits df c (names.zip combo) (vals_nodup df c) (fun x hx => (mem_vals df c x).2 hx)
    have : (vals df c).map (fun x => (df.hits ((c, x) :: names.zip combo) : ℚ) / (df.hits (names.zip combo) : ℚ)) =
        ((vals df c).map (fun x => (df.hits ((c, x) :: names.zip combo) : ℚ))).map (fun y => y * (df.hits (names.zip combo) : ℚ)⁻¹) := by
      rw [List.map_map]; rfl
    rw [this, List.sum_map_mul_right, List.map_id', hs, mul_inv_cancel₀]
    exact_mod_cast h0

theorem relFreq_nonneg (df : Frame) (c x : Str) (q : List (Str × Str)) : 0 ≤ df.relFreq c x q := by
  unfold Frame.relFreq
  split
  · exact div_nonneg zero_le_one (Nat.cast_nonneg _)
  · exact div_nonneg (Nat.cast_nonneg _) (Nat.cast_nonneg _)

theorem rows_ne_of_vals {c : Str} (h : vals df c ≠ []) : (df.rows.length : ℚ) ≠ 0 := by
  obtain ⟨x, hx⟩ := List.exists_mem_of_ne_nil _ h
  obtain ⟨r, hr, _⟩ := (mem_vals df c x).1 hx
  rw [Nat.cast_ne_zero]
  exact fun e => by rw [List.length_eq_zero_iff] at e; rw [e] at hr; simp at hr

theorem cptRow_ok (df : Frame) (c : Str) {names combo : List Str} (hne : names ≠ []) (hlen : combo.length = names.length) :
    cptRow df c (vals df c) names combo = .ok (rowFor df c names combo) := by
  unfold cptRow
  by_cases hv : vals df c = []
  · unfold rowFor
    rw [hv]
    rfl
  · have hz : ¬ (names.zip combo).length = 0 := by
      rw [List.length_zip, hlen, Nat.min_self]
      exact fun e => hne (List.length_eq_zero_iff.1 e)
    have hn := rows_ne_of_vals hv
    simp only
    rw [mapM_ok _ (fun x => if (df.hits (names.zip combo) : ℚ) = 0 then (1 / 100000 : ℚ)
      else (df.hits ((c, x) :: names.zip combo) : ℚ) / (df.hits (names.zip combo) : ℚ))]
    · simp only [bind, Except.bind]
      congr 1
      unfold normalized
      have hs := rowFor_sum df c names combo hv
      unfold rowFor at hs ⊢
      unfold Frame.relFreq at hs ⊢
      by_cases h0 : df.hits (names.zip combo) = 0
      · have h0' : (df.hits (names.zip combo) : ℚ) = 0 := by exact_mod_cast h0
        simp only [if_pos h0']
        rw [List.map_map, List.map_const', List.sum_replicate, nsmul_eq_mul]
        simp only [if_pos h0]
        refine List.map_congr_left ?_
        intro x _
        simp only [Function.comp_apply]
        rw [← vals_length]
        have : ((vals df c).length : ℚ) ≠ 0 := by
          rw [Nat.cast_ne_zero]; exact fun e => hv (List.length_eq_zero_iff.1 e)
        rw [div_mul_eq_div_div_swap, div_self (by norm_num : (1 / 100000 : ℚ) ≠ 0)]
      · have h0' : ¬ (df.hits (names.zip combo) : ℚ) = 0 := by exact_mod_cast h0
        simp only [if_neg h0', if_neg h0] at hs ⊢
        rw [hs]
        simp
    · intro x _
      rw [if_neg hz, Frame.count_eq, Frame.count_eq]
      by_cases h0 : (df.hits (names.zip combo) : ℚ) = 0
      · rw [if_pos h0, h0, zero_div, if_pos rfl]
      · rw [if_neg h0, if_neg (div_ne_zero h0 hn), div_div_div_cancel_right₀ hn]

/-- the table of a column -/
def table (st : Dict Str (List Str)) (df : Frame) (c : Str) : List ℚ :=
  (product ((sp st df c).map (vals df))).flatMap (rowFor df c (sp st df c))

theorem getItem_map {V : Type} {names : List Str} (hn : names.Nodup) (f : Str → V) {n : Str} (h : n ∈ names) :
    Dict.getItem (names.map (fun n => (n, f n))) n = .ok (f n) := by
  refine Dict.getItem_of_get? (Dict.get?_of_mem ?_ (List.mem_map.2 ⟨n, h, rfl⟩))
  unfold Dict.keys
  rw [List.map_map]
  simpa [Function.comp_def] using hn

theorem getCpt_ok (h : Valid st df) {c : Str} (hc : c ∈ df.columns) : getCpt c (pa st c) (getProfile df) df = .ok (table st df c) := by
  unfold getCpt getProfile
  rw [List.map_map]
  have hn2v : (df.columns.map ((fun kv => (kv.1, sortBy strLe kv.2)) ∘ fun c => (c, sortBy strLe (df.valuesOf c))) : Dict Str (List Str)) =
      df.columns.map (fun c => (c, vals df c)) := by
    refine List.map_congr_left ?_
    intro n _
    simp only [Function.comp_apply]
    exact Prod.ext rfl (sort_vals df n)
  rw [hn2v]
  simp only
  rw [getItem_map h.cols (vals df) hc]
  by_cases hp : pa st c = []
  · rw [hp]
    simp only [List.length_nil, if_true, bind, Except.bind]
    congr 1
    have hsp : sp st df c = [] := by
      rw [List.eq_nil_iff_forall_not_mem]
      intro n hn
      have := ((mem_sp c n).1 hn).2
      rw [hp] at this
      simp at this
    unfold table rowFor
    rw [hsp]
    simp only [List.map_nil, product, List.flatMap_cons, List.flatMap_nil, List.append_nil, List.zip_nil_left]
    refine List.map_congr_left ?_
    intro x hx
    rw [Frame.count_eq]
    unfold Frame.relFreq
    have h0 : df.hits [] = df.rows.length := by
      unfold Frame.hits; simp
    have hne : df.rows.length ≠ 0 := by
      have := rows_ne_of_vals (df := df) (c := c) (List.ne_nil_of_mem hx)
      exact_mod_cast this
    rw [h0, if_neg hne]
  · rw [if_neg (fun e => hp (List.length_eq_zero_iff.1 e))]
    have hdom : sortBy (fun (a b : Str × List Str) => strLe a.1 b.1) ((df.columns.map (fun c => (c, vals df c))).filter (fun kv => decide (kv.1 ∈ pa st c))) =
        (sp st df c).map (fun n => (n, vals df n)) := by
      unfold sp
      rw [List.filter_map, LibPgm.sortBy_map' (le := strLe)]
      · rfl
      · intro a b; rfl
    rw [hdom]
    have e1 : ((sp st df c).map (fun n => (n, vals df n))).map Prod.snd = (sp st df c).map (vals df) := by rw [List.map_map]; rfl
    have e2 : ((sp st df c).map (fun n => (n, vals df n))).map Prod.fst = sp st df c := by rw [List.map_map]; exact List.map_id _
    rw [e1, e2]
    have hne : sp st df c ≠ [] := by
      obtain ⟨p, hpp⟩ := List.exists_mem_of_ne_nil _ hp
      exact List.ne_nil_of_mem ((mem_sp c p).2 ⟨h.parents c hc p hpp, hpp⟩)
    rw [mapM_ok _ (rowFor df c (sp st df c))]
    · simp only [bind, Except.bind]
      unfold table
      rw [List.flatMap_def]
    · intro combo hcombo
      simp only [bind, Except.bind]
      refine cptRow_ok df c hne ?_
      have := mem_product_length _ _ hcombo
      rw [List.length_map] at this
      exact this

/-! ## ids -/

/-- every node and edge once -/
structure GOk (g : DiG Str) : Prop where
  nodes : g.nodes.Nodup
  edges : g.edges.Nodup
  wf : g.WF

theorem setAdd_nodup {α : Type} [DecidableEq α] {l : List α} (h : l.Nodup) (x : α) : (setAdd l x).Nodup := by
  unfold setAdd
  split
  · exact h
  · rename_i hx
    rw [List.nodup_append]
    refine ⟨h, by simp, ?_⟩
    intro a ha b hb
    rw [List.mem_singleton] at hb
    subst hb
    rintro rfl
    exact hx ha

theorem mem_setAdd' {α : Type} [DecidableEq α] (l : List α) (x y : α) : y ∈ setAdd l x ↔ y ∈ l ∨ y = x := by
  unfold setAdd
  split
  · rename_i hx
    constructor
    · exact Or.inl
    · rintro (h | rfl)
      · exact h
      · exact hx
  · rw [List.mem_append, List.mem_singleton]

theorem GOk.addNode {g : DiG Str} (h : GOk g) (k : Str) : GOk (addNode g k) :=
  ⟨setAdd_nodup h.nodes k, h.edges, fun e he => ⟨(mem_setAdd' _ _ _).2 (Or.inl (h.wf e he).1), (mem_setAdd' _ _ _).2 (Or.inl (h.wf e he).2)⟩⟩

theorem GOk.addEdge {g : DiG Str} (h : GOk g) (u v : Str) : GOk (addEdge g u v) := by
  refine ⟨setAdd_nodup (setAdd_nodup h.nodes u) v, setAdd_nodup h.edges _, ?_⟩
  intro e he
  have he' : e ∈ setAdd g.edges (u, v) := he
  change e.1 ∈ setAdd (setAdd g.nodes u) v ∧ e.2 ∈ setAdd (setAdd g.nodes u) v
  simp only [mem_setAdd'] at he' ⊢
  rcases he' with he' | rfl
  · exact ⟨Or.inl (Or.inl (h.wf e he').1), Or.inl (Or.inl (h.wf e he').2)⟩
  · exact ⟨Or.inl (Or.inr rfl), Or.inr rfl⟩

theorem addNodes_spec : ∀ (l : List Str) (g : DiG Str), GOk g → GOk (l.foldl addNode g) ∧ (l.foldl addNode g).edges = g.edges ∧
    ∀ k, k ∈ (l.foldl addNode g).nodes ↔ k ∈ g.nodes ∨ k ∈ l
  | [], g, h => ⟨h, rfl, by simp⟩
  | x :: l, g, h => by
      obtain ⟨h1, h2, h3⟩ := addNodes_spec l _ (h.addNode x)
      refine ⟨h1, h2, ?_⟩
      intro k
      rw [List.foldl_cons, h3]
      change k ∈ setAdd g.nodes x ∨ k ∈ l ↔ _
      rw [mem_setAdd', List.mem_cons]
      tauto

theorem addCells_spec (ch : Str) : ∀ (l : List Str) (g : DiG Str), GOk g → GOk (l.foldl (fun g pa => addEdge g pa ch) g) ∧
    (∀ k, k ∈ g.nodes → k ∈ (l.foldl (fun g pa => addEdge g pa ch) g).nodes) ∧
    ∀ a b, (l.foldl (fun g pa => addEdge g pa ch) g).E a b ↔ g.E a b ∨ (b = ch ∧ a ∈ l)
  | [], g, h => ⟨h, fun _ hk => hk, by simp⟩
  | x :: l, g, h => by
      obtain ⟨h1, h2, h3⟩ := addCells_spec ch l _ (h.addEdge x ch)
      refine ⟨h1, ?_, ?_⟩
      · intro k hk
        refine h2 k ?_
        change k ∈ setAdd (setAdd g.nodes x) ch
        simp only [mem_setAdd']
        exact Or.inl (Or.inl hk)
      · intro a b
        rw [List.foldl_cons, h3]
        change (a, b) ∈ setAdd g.edges (x, ch) ∨ _ ↔ (a, b) ∈ g.edges ∨ _
        rw [mem_setAdd', List.mem_cons, Prod.mk.injEq]
        tauto

theorem cellGraph_aux (df : Frame) : ∀ (l : List Str) (g : DiG Str), GOk g →
    GOk (l.foldl (fun g ch => (df.rows.map (fun r => df.cell r ch)).foldl (fun g pa => addEdge g pa ch) g) g) ∧
    (∀ k, k ∈ g.nodes → k ∈ (l.foldl (fun g ch => (df.rows.map (fun r => df.cell r ch)).foldl (fun g pa => addEdge g pa ch) g) g).nodes) ∧
    ∀ a b, (l.foldl (fun g ch => (df.rows.map (fun r => df.cell r ch)).foldl (fun g pa => addEdge g pa ch) g) g).E a b ↔
      g.E a b ∨ (b ∈ l ∧ df.Occurs b a)
  | [], g, h => ⟨h, fun _ hk => hk, by simp⟩
  | x :: l, g, h => by
      obtain ⟨h1, h2, h3⟩ := addCells_spec x (df.rows.map (fun r => df.cell r x)) g h
      obtain ⟨h4, h5, h6⟩ := cellGraph_aux df l _ h1
      refine ⟨h4, fun k hk => h5 k (h2 k hk), ?_⟩
      intro a b
      rw [List.foldl_cons, h6, h3, List.mem_cons]
      have : (b = x ∧ a ∈ df.rows.map (fun r => df.cell r x)) ↔ (b = x ∧ df.Occurs b a) := by
        constructor
        · rintro ⟨rfl, hm⟩; exact ⟨rfl, List.mem_map.1 hm⟩
        · rintro ⟨rfl, hm⟩; exact ⟨rfl, List.mem_map.2 hm⟩
      rw [this]
      tauto

theorem cellGraph_spec (df : Frame) : GOk (cellGraph df) ∧ (∀ c ∈ df.columns, c ∈ (cellGraph df).nodes) ∧
    ∀ a b, (cellGraph df).E a b ↔ df.Names a b := by
  obtain ⟨h1, h2, h3⟩ := addNodes_spec df.columns ⟨[], []⟩ ⟨List.nodup_nil, List.nodup_nil, by intro e he; simp at he⟩
  obtain ⟨h4, h5, h6⟩ := cellGraph_aux df df.columns _ h1
  refine ⟨h4, fun c hc => h5 c ((h3 c).2 (Or.inr hc)), ?_⟩
  intro a b
  unfold cellGraph
  rw [h6]
  unfold DiG.E
  rw [h2]
  simp [Frame.Names]

theorem acyclic_cellGraph (df : Frame) : (cellGraph df).Acyclic ↔ Acyclic df.Names := by
  have : (cellGraph df).E = df.Names := by
    funext a b; exact propext ((cellGraph_spec df).2.2 a b)
  unfold DiG.Acyclic Acyclic
  rw [this]

theorem zipIdx_foldl {l : List Str} (hn : l.Nodup) :
    l.zipIdx.foldl (fun (d : Dict Str Int) p => Dict.set d p.1 (p.2 : Int)) [] = l.zipIdx.map (fun p => (p.1, (p.2 : Int))) := by
  have := foldl_set_append (l.zipIdx.map (fun p => (p.1, (p.2 : Int)))) [] (by
    rw [List.map_map]
    change ([] ++ l.zipIdx.map Prod.fst).Nodup
    rw [List.nil_append, List.zipIdx_map_fst]
    exact hn)
  rw [List.foldl_map] at this
  rw [this]
  rfl

/-- the ids: different for different columns -/
theorem getN2i_spec (df : Frame) : (Acyclic df.Names → ∃ n2i, getN2i df = .ok n2i ∧ ∃ id : Str → Int,
      (∀ c ∈ df.columns, Dict.get? n2i c = some (id c)) ∧ (∀ c ∈ df.columns, ∀ d ∈ df.columns, id c = id d → c = d)) ∧
    (¬ Acyclic df.Names → getN2i df = .error .exception) := by
  obtain ⟨hg, hcol, _⟩ := cellGraph_spec df
  obtain ⟨h1, h2⟩ := topologicalSort_spec hg.edges hg.nodes hg.wf
  rw [acyclic_cellGraph] at h1 h2
  unfold getN2i
  constructor
  · intro hac
    obtain ⟨l, hl, hp⟩ := h1 hac
    rw [hl]
    refine ⟨_, rfl, fun c => (l.idxOf c : Int), ?_, ?_⟩
    · intro c hc
      have hcl : c ∈ l := hp.mem_iff.2 (hcol c hc)
      have hn : l.Nodup := hp.nodup_iff.2 hg.nodes
      rw [zipIdx_foldl hn]
      refine Dict.get?_of_mem ?_ ?_
      · unfold Dict.keys
        rw [List.map_map]
        change (l.zipIdx.map Prod.fst).Nodup
        rw [List.zipIdx_map_fst]
        exact hn
      · refine List.mem_map.2 ⟨(c, l.idxOf c), ?_, rfl⟩
        rw [List.mem_zipIdx_iff_getElem?]
        have := List.idxOf_lt_length_of_mem hcl
        rw [List.getElem?_eq_getElem this, List.getElem_idxOf this]
    · intro c hc d hd e
      have hcl : c ∈ l := hp.mem_iff.2 (hcol c hc)
      beta_reduce at e
      have e' : l.idxOf c = l.idxOf d := by exact_mod_cast e
      exact (List.idxOf_inj hcl).1 e'
  · intro hna
    rw [h2 hna]
    rfl

/-! ## the network -/

/-- the network by names -/
def named (st : Dict Str (List Str)) (df : Frame) (id : Str → Int) : Named where
  names := df.columns
  node := fun c => ⟨⟨id c, c, vals df c⟩, table st df c⟩
  pa := pa st

theorem named_wf (h : Valid st df) {id : Str → Int} (hid : ∀ c ∈ df.columns, ∀ d ∈ df.columns, id c = id d → c = d) : (named st df id).WF where
  names := h.cols
  ids := List.Nodup.map_on (fun a ha b hb e => hid a ha b hb e) h.cols
  pa := h.parents

theorem pa_of_mem (h : Valid st df) {kv : Str × List Str} (hkv : kv ∈ st) : pa st kv.1 = kv.2 := by
  unfold pa
  rw [Dict.get?_of_mem h.keys hkv]
  rfl

theorem n2c_ok (h : Valid st df) : st.mapM (cptEntry (getProfile df) df) = .ok ((Dict.keys st).map (fun c => (c, table st df c))) := by
  unfold Dict.keys
  rw [List.map_map]
  refine mapM_ok _ _ _ ?_
  intro kv hkv
  have hc : kv.1 ∈ df.columns := (h.same kv.1).1 (List.mem_map.2 ⟨kv, hkv, rfl⟩)
  have := getCpt_ok h hc
  rw [pa_of_mem h hkv] at this
  unfold cptEntry
  rw [this]
  rfl

theorem nodeSteps_ok (h : Valid st df) {n2i : Dict Str Int} {id : Str → Int} (hid : ∀ c ∈ df.columns, Dict.get? n2i c = some (id c)) :
    ∀ (l : List Str) (b : Bbn) (d : Dict Str BbnNode), (∀ c ∈ l, c ∈ df.columns) → l.Nodup → (∀ c ∈ l, c ∉ Dict.keys d) →
    (l.map (fun c => (c, sortBy strLe (df.valuesOf c)))).foldlM (nodeStep n2i ((Dict.keys st).map (fun c => (c, table st df c)))) (b, d) =
      .ok ((l.map (named st df id).node).foldl Bbn.addNode b, d ++ l.map (fun c => (c, (named st df id).node c)))
  | [], b, d, _, _, _ => by simp [pure, Except.pure]
  | c :: l, b, d, hl, hn, hd => by
      rw [List.nodup_cons] at hn
      have hc := hl c List.mem_cons_self
      have hstep : nodeStep n2i ((Dict.keys st).map (fun c => (c, table st df c))) (b, d) (c, sortBy strLe (df.valuesOf c)) =
          .ok (b.addNode ((named st df id).node c), d ++ [(c, (named st df id).node c)]) := by
        unfold nodeStep
        rw [Dict.getItem_of_get? (hid c hc), getItem_map h.keys (table st df) ((h.same c).2 hc)]
        simp only [bind, Except.bind]
        rw [Dict.set_of_not_mem (hd c List.mem_cons_self)]
        rfl
      rw [List.map_cons, List.foldlM_cons, hstep]
      simp only [bind, Except.bind]
      rw [nodeSteps_ok h hid l _ _ (fun m hm => hl m (List.mem_cons_of_mem _ hm)) hn.2]
      · simp
      · intro m hm
        simp only [Dict.keys, List.map_append, List.map_cons, List.map_nil, List.mem_append, List.mem_singleton, not_or]
        exact ⟨hd m (List.mem_cons_of_mem _ hm), fun e => hn.1 (e ▸ hm)⟩

theorem edgeSteps_ok (h : Valid st df) {id : Str → Int} (ch : BbnNode) : ∀ (l : List Str) (b : Bbn), (∀ p ∈ l, p ∈ df.columns) →
    l.foldlM (edgeStep (df.columns.map (fun c => (c, (named st df id).node c))) ch) b =
      .ok ((l.map (fun p => ((named st df id).node p, ch))).foldl (fun b e => b.addEdge ⟨e.1, e.2, .directed⟩) b)
  | [], b, _ => rfl
  | p :: l, b, hl => by
      have hstep : edgeStep (df.columns.map (fun c => (c, (named st df id).node c))) ch b p =
          .ok (b.addEdge ⟨(named st df id).node p, ch, .directed⟩) := by
        unfold edgeStep
        rw [getItem_map h.cols (named st df id).node (hl p List.mem_cons_self)]
        rfl
      rw [List.foldlM_cons, hstep]
      exact edgeSteps_ok h ch l _ (fun q hq => hl q (List.mem_cons_of_mem _ hq))

theorem childSteps_ok (h : Valid st df) {id : Str → Int} : ∀ (l : List (Str × List Str)) (b : Bbn), (∀ kv ∈ l, kv ∈ st) →
    l.foldlM (childStep (df.columns.map (fun c => (c, (named st df id).node c)))) b =
      .ok (((l.map Prod.fst).flatMap (fun c => (pa st c).map (fun p => ((named st df id).node p, (named st df id).node c)))).foldl
        (fun b e => b.addEdge ⟨e.1, e.2, .directed⟩) b)
  | [], b, _ => rfl
  | kv :: l, b, hl => by
      have hkv := hl kv List.mem_cons_self
      have hc : kv.1 ∈ df.columns := (h.same kv.1).1 (List.mem_map.2 ⟨kv, hkv, rfl⟩)
      have hstep : childStep (df.columns.map (fun c => (c, (named st df id).node c))) b kv =
          .ok (((pa st kv.1).map (fun p => ((named st df id).node p, (named st df id).node kv.1))).foldl (fun b e => b.addEdge ⟨e.1, e.2, .directed⟩) b) := by
        unfold childStep
        rw [getItem_map h.cols (named st df id).node hc, pa_of_mem h hkv]
        exact edgeSteps_ok h _ kv.2 b (by
          intro p hp
          rw [← pa_of_mem h hkv] at hp
          exact h.parents kv.1 hc p hp)
      rw [List.foldlM_cons, hstep]
      simp only [bind, Except.bind]
      rw [childSteps_ok h l _ (fun q hq => hl q (List.mem_cons_of_mem _ hq))]
      simp

theorem kids_perm (h : Valid st df) : (Dict.keys st).Perm df.columns := (List.perm_ext_iff_of_nodup h.keys h.cols).2 h.same

/-- learning succeeds unless the cells of the columns name each other in a cycle -/
theorem fromData_spec (h : Valid st df) : (Acyclic df.Names → ∃ id : Str → Int, (∀ c ∈ df.columns, ∀ d ∈ df.columns, id c = id d → c = d) ∧
      fromData st df = .ok (Bbn.run ((named st df id).ops df.columns (Dict.keys st)))) ∧
    (¬ Acyclic df.Names → fromData st df = .error .exception) := by
  obtain ⟨h1, h2⟩ := getN2i_spec df
  constructor
  · intro hac
    obtain ⟨n2i, hn, id, hid, hinj⟩ := h1 hac
    refine ⟨id, hinj, ?_⟩
    unfold fromData
    simp only
    rw [hn]
    simp only [bind, Except.bind]
    rw [n2c_ok h]
    simp only
    have hnodes := nodeSteps_ok h hid df.columns Bbn.empty [] (fun _ hc => hc) h.cols (by intro c _; simp [Dict.keys])
    have hprof : getProfile df = df.columns.map (fun c => (c, sortBy strLe (df.valuesOf c))) := rfl
    rw [hprof, hnodes]
    simp only [List.nil_append]
    rw [childSteps_ok h st _ (fun _ hk => hk)]
    congr 1
    unfold Named.ops buildOps
    rw [run_append]
    unfold Bbn.run
    rw [List.foldl_map (f := BOp.addNode), List.foldl_map (f := fun e : BbnNode × BbnNode => BOp.addEdge e.1 e.2)]
    rfl
  · intro hna
    unfold fromData
    simp only
    rw [h2 hna]
    rfl

/-- an entry of the table of a column, read with its parents by ascending name -/
theorem table_at (h : Valid st df) {id : Str → Int} {c : Str} (hc : c ∈ df.columns) (σ : Asg) (hp : ∀ p ∈ pa st c, σ (id p) ∈ vals df p)
    (hv : σ (id c) ∈ vals df c) :
    cptAt (table st df c) ((sp st df c).map (fun p => ((named st df id).node p).var)) ((named st df id).node c).var σ =
      learned st df (fun n => σ (id n)) c := by
  unfold cptAt cptIndex
  have hvals : ((sp st df c).map (fun p => ((named st df id).node p).var)).map Variable.values = (sp st df c).map (vals df) := by
    rw [List.map_map]; rfl
  have hq := product_rowIdx σ ((sp st df c).map (fun p => ((named st df id).node p).var)) (by
    intro v hv'
    obtain ⟨p, hp', rfl⟩ := List.mem_map.1 hv'
    exact hp p ((mem_sp c p).1 hp').2)
  rw [hvals] at hq
  have hids : (vids ((sp st df c).map (fun p => ((named st df id).node p).var))).map σ = (sp st df c).map (fun n => σ (id n)) := by
    unfold vids; rw [List.map_map, List.map_map]; rfl
  rw [hids] at hq
  unfold table
  rw [List.getD_eq_getElem?_getD]
  change ((product _).flatMap _)[_ * (vals df c).length + (vals df c).idxOf (σ (id c))]?.getD 0 = _
  have hlt := List.idxOf_lt_length_of_mem hv
  rw [flatMap_getElem? _ (vals df c).length _ hlt]
  · rw [hq]
    simp only [Option.bind_some]
    unfold rowFor
    rw [List.getElem?_map, List.getElem?_eq_getElem hlt, List.getElem_idxOf hlt]
    simp only [Option.map_some, Option.getD_some]
    unfold learned
    refine Frame.relFreq_congr df c _ ?_
    intro x
    have hz : (sp st df c).zip ((sp st df c).map (fun n => σ (id n))) = (sp st df c).map (fun n => (n, σ (id n))) := by
      generalize sp st df c = l
      induction l with
      | nil => rfl
      | cons a l ih => rw [List.map_cons, List.zip_cons_cons, ih, List.map_cons]
    rw [hz, List.mem_map, List.mem_map]
    constructor
    · rintro ⟨n, hn, rfl⟩; exact ⟨n, ((mem_sp c n).1 hn).2, rfl⟩
    · rintro ⟨n, hn, rfl⟩; exact ⟨n, (mem_sp c n).2 ⟨h.parents c hc n hn, hn⟩, rfl⟩
  · intro combo _
    unfold rowFor
    rw [List.length_map]

theorem table_length (st : Dict Str (List Str)) (df : Frame) (c : Str) :
    (table st df c).length = (((sp st df c).map (fun p => (vals df p).length)).prod) * (vals df c).length := by
  have h1 : (table st df c).length = (product ((sp st df c).map (vals df))).length * (vals df c).length := by
    unfold table
    rw [List.length_flatMap]
    generalize product ((sp st df c).map (vals df)) = l
    induction l with
    | nil => simp
    | cons a l ih =>
      rw [List.map_cons, List.sum_cons, ih, List.length_cons]
      unfold rowFor
      rw [List.length_map]
      ring
  rw [h1, product_length_eq, List.map_map]
  rfl

theorem table_nonneg (st : Dict Str (List Str)) (df : Frame) (c : Str) : ∀ q ∈ table st df c, 0 ≤ q := by
  intro q hq
  obtain ⟨combo, _, hq⟩ := List.mem_flatMap.1 hq
  obtain ⟨x, _, rfl⟩ := List.mem_map.1 hq
  exact relFreq_nonneg df c x _

end Factory
end PyBBN

namespace PyBBN
namespace Factory
open Relation
variable {st : Dict Str (List Str)} {df : Frame}

theorem nodup_firsts {α : Type} [DecidableEq α] : ∀ l : List α, (firsts l).Nodup
  | [] => List.nodup_nil
  | x :: l => by
      rw [firsts, List.nodup_cons]
      exact ⟨by simp, (nodup_firsts l).filter _⟩

theorem sp_perm_firsts (h : Valid st df) {c : Str} (hc : c ∈ df.columns) : (sp st df c).Perm (firsts (pa st c)) := by
  refine (List.perm_ext_iff_of_nodup (sp_nodup h.cols c) (nodup_firsts _)).2 ?_
  intro n
  rw [mem_sp, mem_firsts]
  exact ⟨fun hn => hn.2, fun hn => ⟨h.parents c hc n hn, hn⟩⟩

theorem firsts_sublist {α : Type} [DecidableEq α] : ∀ l : List α, (firsts l).Sublist l
  | [] => List.Sublist.slnil
  | x :: l => by
      rw [firsts]
      exact List.Sublist.cons_cons x (List.filter_sublist.trans (firsts_sublist l))

/-- parents listed by ascending name are used in the order in which they are listed -/
theorem sp_eq_firsts (h : Valid st df) {c : Str} (hc : c ∈ df.columns) (hs : (pa st c).Pairwise (fun a b => strLe a b = true)) :
    sp st df c = firsts (pa st c) := by
  refine List.Perm.eq_of_pairwise ?_ (sortBy_sorted _ strLe_total strLe_trans _) (hs.sublist (firsts_sublist _)) (sp_perm_firsts h hc)
  intro a b _ _ h1 h2
  exact strLe_antisymm a b h1 h2

theorem rows_prod (h : Valid st df) (id : Str → Int) {c : Str} (hc : c ∈ df.columns) :
    rows ((firsts (pa st c)).map (fun p => ((named st df id).node p).var)) = (product ((sp st df c).map (vals df))).length := by
  unfold rows
  rw [product_length_eq, List.map_map, List.map_map]
  exact (((sp_perm_firsts h hc).map _).prod_eq).symm

theorem named_normalized (h : Valid st df) {id : Str → Int} (hid : ∀ c ∈ df.columns, ∀ d ∈ df.columns, id c = id d → c = d) :
    (Bbn.run ((named st df id).ops df.columns (Dict.keys st))).Normalized (Bbn.run ((named st df id).ops df.columns (Dict.keys st))).parentVars := by
  have hwf := named_wf h hid
  intro n hn σ hσ
  obtain ⟨c, hc, rfl⟩ := (Named.mem_nodes hwf (List.Perm.refl _) (kids_perm h) n).1 hn
  have hpv := Named.parentVars hwf (List.Perm.refl df.columns) (kids_perm h) hc
  rw [hpv]
  have hvars := Named.vars hwf (List.Perm.refl df.columns) (kids_perm h)
  have hdom : ∀ m ∈ df.columns, σ (id m) ∈ vals df m := by
    intro m hm
    exact hσ ((named st df id).node m).var (by rw [hvars]; exact List.mem_map.2 ⟨m, hm, rfl⟩)
  have hk : rowIdx ((firsts (pa st c)).map (fun p => ((named st df id).node p).var)) σ < (product ((sp st df c).map (vals df))).length := by
    rw [← rows_prod h id hc]
    refine rowIdx_lt σ _ ?_
    intro v hv
    obtain ⟨p, hp, rfl⟩ := List.mem_map.1 hv
    exact hdom p (h.parents c hc p ((mem_firsts _ p).1 hp))
  change ((List.range (vals df c).length).map (fun j => (table st df c).getD
    (rowIdx ((firsts (pa st c)).map (fun p => ((named st df id).node p).var)) σ * (vals df c).length + j) 0)).sum = 1
  generalize rowIdx ((firsts (pa st c)).map (fun p => ((named st df id).node p).var)) σ = k at hk
  rw [← rowFor_sum df c (sp st df c) (product ((sp st df c).map (vals df)))[k] (List.ne_nil_of_mem (hdom c hc))]
  congr 1
  refine List.ext_getElem (by simp [rowFor]) ?_
  intro i h1 h2
  have hi : i < (vals df c).length := by simpa using h1
  rw [List.getElem_map, List.getElem_range]
  unfold table
  rw [List.getD_eq_getElem?_getD, flatMap_getElem? _ (vals df c).length i hi _ (by intro combo _; simp [rowFor]), List.getElem?_eq_getElem hk]
  simp only [Option.bind_some]
  rw [List.getElem?_eq_getElem h2]
  rfl

/-! ## what success says about the arguments -/

theorem n2c_keys {n2v : Dict Str (List Str)} : ∀ (l : List (Str × List Str)) {r : Dict Str (List ℚ)},
    l.mapM (cptEntry n2v df) = .ok r → Dict.keys r = l.map Prod.fst
  | [], r, h => by
      simp only [List.mapM_nil, pure, Except.pure, Except.ok.injEq] at h
      rw [← h]; rfl
  | kv :: l, r, h => by
      rw [List.mapM_cons] at h
      cases hf : getCpt kv.1 kv.2 n2v df with
      | error e =>
        have : cptEntry n2v df kv = .error e := by unfold cptEntry; rw [hf]; rfl
        rw [this] at h; cases h
      | ok c =>
        have : cptEntry n2v df kv = .ok (kv.1, c) := by unfold cptEntry; rw [hf]; rfl
        rw [this] at h
        simp only [bind, Except.bind] at h
        cases hl : l.mapM (cptEntry n2v df) with
        | error e => rw [hl] at h; cases h
        | ok r' =>
          rw [hl] at h
          simp only [pure, Except.pure, Except.ok.injEq] at h
          have := n2c_keys l (r := r') hl
          rw [← h, List.map_cons, ← this]
          rfl

theorem nodeStep_inv {n2i : Dict Str Int} {n2c : Dict Str (List ℚ)} {acc acc' : Bbn × Dict Str BbnNode} {nv : Str × List Str}
    (h : nodeStep n2i n2c acc nv = .ok acc') : nv.1 ∈ Dict.keys n2c ∧ ∀ k, k ∈ Dict.keys acc'.2 ↔ k = nv.1 ∨ k ∈ Dict.keys acc.2 := by
  unfold nodeStep at h
  cases hi : Dict.getItem n2i nv.1 with
  | error e => rw [hi] at h; cases h
  | ok i =>
    rw [hi] at h
    simp only [bind, Except.bind] at h
    cases hc : Dict.getItem n2c nv.1 with
    | error e => rw [hc] at h; cases h
    | ok c =>
      rw [hc] at h
      simp only [Except.ok.injEq] at h
      refine ⟨Dict.mem_keys_of_get? (LibPgm.getItem_ok hc), ?_⟩
      intro k
      rw [← h, Dict.mem_keys_set]

theorem nodeSteps_keys {n2i : Dict Str Int} {n2c : Dict Str (List ℚ)} : ∀ (l : List (Str × List Str)) (acc acc' : Bbn × Dict Str BbnNode),
    l.foldlM (nodeStep n2i n2c) acc = .ok acc' → ∀ k, k ∈ Dict.keys acc'.2 ↔ k ∈ l.map Prod.fst ∨ k ∈ Dict.keys acc.2
  | [], acc, acc', h, k => by
      simp only [List.foldlM_nil, pure, Except.pure, Except.ok.injEq] at h
      rw [h]; simp
  | nv :: l, acc, acc', h, k => by
      rw [List.foldlM_cons] at h
      cases hy : nodeStep n2i n2c acc nv with
      | error e => rw [hy] at h; cases h
      | ok c =>
        rw [hy] at h
        rw [nodeSteps_keys l c acc' h k, (nodeStep_inv hy).2 k, List.map_cons, List.mem_cons]
        tauto

theorem childStep_inv {nodes : Dict Str BbnNode} {b b' : Bbn} {kv : Str × List Str} (h : childStep nodes b kv = .ok b') :
    kv.1 ∈ Dict.keys nodes ∧ ∀ p ∈ kv.2, p ∈ Dict.keys nodes := by
  unfold childStep at h
  cases hd : Dict.getItem nodes kv.1 with
  | error e => rw [hd] at h; cases h
  | ok v =>
    rw [hd] at h
    refine ⟨Dict.mem_keys_of_get? (LibPgm.getItem_ok hd), ?_⟩
    intro p hp
    obtain ⟨c, c', hs⟩ := foldlM_ok_step _ _ _ h p hp
    unfold edgeStep at hs
    cases hg : Dict.getItem nodes p with
    | error e => rw [hg] at hs; cases hs
    | ok w => exact Dict.mem_keys_of_get? (LibPgm.getItem_ok hg)

/-- a structure that is accepted has exactly the columns as keys, and parents among the columns -/
theorem fromData_inv {b : Bbn} (h : fromData st df = .ok b) : (∀ c, c ∈ Dict.keys st ↔ c ∈ df.columns) ∧ ∀ kv ∈ st, ∀ p ∈ kv.2, p ∈ df.columns := by
  unfold fromData at h
  simp only at h
  cases hi : getN2i df with
  | error e => rw [hi] at h; cases h
  | ok n2i =>
    rw [hi] at h
    simp only [bind, Except.bind] at h
    cases hc : st.mapM (cptEntry (getProfile df) df) with
    | error e => rw [hc] at h; cases h
    | ok n2c =>
      have hk := n2c_keys st hc
      rw [hc] at h
      simp only at h
      cases ha : (getProfile df).foldlM (nodeStep n2i n2c) (Bbn.empty, []) with
      | error e => rw [ha] at h; cases h
      | ok acc =>
        rw [ha] at h
        simp only at h
        have hkeys : ∀ k, k ∈ Dict.keys acc.2 ↔ k ∈ df.columns := by
          intro k
          rw [nodeSteps_keys _ _ _ ha k]
          unfold getProfile
          rw [List.map_map]
          simp [Dict.keys, Function.comp_def]
        refine ⟨?_, ?_⟩
        · intro c
          constructor
          · intro hcs
            obtain ⟨kv, hkv, rfl⟩ := List.mem_map.1 hcs
            obtain ⟨b1, b2, hs⟩ := foldlM_ok_step _ _ _ h kv hkv
            exact (hkeys _).1 (childStep_inv hs).1
          · intro hcc
            obtain ⟨b1, b2, hs⟩ := foldlM_ok_step _ _ _ ha (c, sortBy strLe (df.valuesOf c)) (List.mem_map.2 ⟨c, hcc, rfl⟩)
            have := (nodeStep_inv hs).1
            rw [hk] at this
            exact this
        · intro kv hkv p hp
          obtain ⟨b1, b2, hs⟩ := foldlM_ok_step _ _ _ h kv hkv
          exact (hkeys _).1 ((childStep_inv hs).2 p hp)

end Factory
end PyBBN
