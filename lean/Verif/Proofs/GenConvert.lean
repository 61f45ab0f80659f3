import Verif.Proofs.GenParams

/-! The network converted from a generated structure and its parameters. -/

namespace PyBBN
open Relation
open DSep (Adj)

namespace Gen

/-- the node object made for node `i` -/
def nodeOf (ps : Dict Int Params) (i : Int) : BbnNode :=
  match Dict.get? ps i with
  | some q => ⟨⟨i, strInt i, (range q.shape.2.val).map (fun s => "state".toList ++ strInt s)⟩, q.params.flatten⟩
  | none => ⟨⟨i, [], []⟩, []⟩

theorem nodeOf_id (ps : Dict Int Params) (i : Int) : (nodeOf ps i).var.id = i := by
  unfold nodeOf; cases Dict.get? ps i <;> rfl

/-- the calls made by the conversion -/
def convertOps (g : DiG Int) (ps : Dict Int Params) : List BOp :=
  buildOps (g.nodes.map (nodeOf ps)) ((edges g).map (fun e => (nodeOf ps e.1, nodeOf ps e.2)))

theorem convertNodes_ok {ps : Dict Int Params} : ∀ (l : List Int) (b : Bbn) (d : Dict Int BbnNode), l.Nodup → (∀ i ∈ l, i ∈ Dict.keys ps) →
    (∀ i ∈ l, i ∉ Dict.keys d) →
    l.foldlM (convertNode ps) (b, d) =
      .ok (((l.map (nodeOf ps)).map BOp.addNode).foldl BOp.step b, d ++ l.map (fun i => (i, nodeOf ps i)))
  | [], b, d, _, _, _ => by simp [pure, Except.pure]
  | i :: l, b, d, hn, hk, hd => by
      rw [List.nodup_cons] at hn
      obtain ⟨q, hq⟩ : ∃ q, Dict.get? ps i = some q := by
        cases h : Dict.get? ps i with
        | some q => exact ⟨q, rfl⟩
        | none => exact absurd (hk i List.mem_cons_self) ((Dict.get?_eq_none_iff _ _).1 h)
      have hnode : nodeOf ps i = ⟨⟨i, strInt i, (range q.shape.2.val).map (fun s => "state".toList ++ strInt s)⟩, q.params.flatten⟩ := by
        unfold nodeOf; rw [hq]
      have hstep : convertNode ps (b, d) i = .ok (b.addNode (nodeOf ps i), d ++ [(i, nodeOf ps i)]) := by
        unfold convertNode getKey
        rw [hq]
        simp only [bind, Except.bind]
        rw [Dict.set_of_not_mem (hd i List.mem_cons_self), ← hnode]
      rw [List.foldlM_cons, hstep]
      have := convertNodes_ok l (b.addNode (nodeOf ps i)) (d ++ [(i, nodeOf ps i)]) hn.2 (fun j hj => hk j (List.mem_cons_of_mem _ hj)) (by
        intro j hj
        simp only [Dict.keys, List.map_append, List.map_cons, List.map_nil, List.mem_append, List.mem_singleton, not_or]
        refine ⟨hd j (List.mem_cons_of_mem _ hj), ?_⟩
        rintro rfl
        exact hn.1 hj)
      simp only [bind, Except.bind]
      rw [this]
      simp [BOp.step]

theorem convertEdges_ok {ps : Dict Int Params} {nodes : List Int} (hn : nodes.Nodup) : ∀ (es : List (Int × Int)) (b : Bbn),
    (∀ e ∈ es, e.1 ∈ nodes ∧ e.2 ∈ nodes) →
    es.foldlM (convertEdge (nodes.map (fun i => (i, nodeOf ps i)))) b =
      .ok (((es.map (fun e => (nodeOf ps e.1, nodeOf ps e.2))).map (fun e => BOp.addEdge e.1 e.2)).foldl BOp.step b)
  | [], b, _ => rfl
  | e :: es, b, h => by
      have hget : ∀ i ∈ nodes, getKey (nodes.map (fun i => (i, nodeOf ps i))) i = .ok (nodeOf ps i) := by
        intro i hi
        unfold getKey
        have hk : (Dict.keys (nodes.map (fun i => (i, nodeOf ps i)))).Nodup := by
          unfold Dict.keys; rw [List.map_map]; simpa [Function.comp_def] using hn
        have hm : (i, nodeOf ps i) ∈ nodes.map (fun i => (i, nodeOf ps i)) := List.mem_map.2 ⟨i, hi, rfl⟩
        rw [Dict.get?_of_mem hk hm]
      obtain ⟨h1, h2⟩ := h e List.mem_cons_self
      have hstep : convertEdge (nodes.map (fun i => (i, nodeOf ps i))) b e = .ok (BOp.step b (.addEdge (nodeOf ps e.1) (nodeOf ps e.2))) := by
        unfold convertEdge
        rw [hget _ h1, hget _ h2]
        rfl
      rw [List.foldlM_cons, hstep]
      exact convertEdges_ok hn es _ (fun e' he' => h e' (List.mem_cons_of_mem _ he'))

theorem mem_edges {g : DiG Int} (hwf : g.WF) (a b : Int) : (a, b) ∈ edges g ↔ g.E a b := by
  unfold edges
  rw [List.mem_flatMap]
  constructor
  · rintro ⟨u, _, h⟩
    obtain ⟨v, hv, e⟩ := List.mem_map.1 h
    rw [Prod.mk.injEq] at e
    obtain ⟨rfl, rfl⟩ := e
    exact (Do.mem_successors _ _).1 hv
  · intro h
    exact ⟨a, (hwf _ h).1, List.mem_map.2 ⟨b, (Do.mem_successors a b).2 h, rfl⟩⟩

theorem nodup_edges {g : DiG Int} (hnd : g.nodes.Nodup) (hed : g.edges.Nodup) : (edges g).Nodup := by
  unfold edges
  rw [List.nodup_flatMap]
  constructor
  · intro u _
    refine List.Nodup.map (fun a b h => (Prod.mk.inj h).2) ?_
    unfold Do.successors
    refine (hed.filter _).map_on ?_
    rintro ⟨a1, a2⟩ ha ⟨b1, b2⟩ hb h
    rw [List.mem_filter, decide_eq_true_eq] at ha hb
    simp only at ha hb h
    rw [ha.2, hb.2, h]
  · refine hnd.imp ?_
    intro u v huv
    rw [Function.onFun, List.disjoint_left]
    intro x hx hy
    obtain ⟨_, _, rfl⟩ := List.mem_map.1 hx
    obtain ⟨_, _, e⟩ := List.mem_map.1 hy
    exact huv (Prod.mk.inj e).1.symm

variable {g : DiG Int} {ps : Dict Int Params} {card : Int → Nat}

theorem convert_ok_keys (hnd : g.nodes.Nodup) (hwf : g.WF) (hk : Dict.keys ps = g.nodes) :
    convert g ps = .ok (Bbn.run (convertOps g ps)) := by
  unfold convert
  rw [convertNodes_ok g.nodes Bbn.empty [] hnd (fun i hi => hk ▸ hi) (by simp [Dict.keys])]
  simp only [bind, Except.bind, List.nil_append]
  rw [convertEdges_ok hnd (edges g) _ (by
    rintro ⟨a, b⟩ he
    exact hwf _ ((mem_edges hwf a b).1 he))]
  unfold convertOps buildOps
  rw [run_append]
  rfl

theorem convert_ok (hnd : g.nodes.Nodup) (hwf : g.WF) (hf : Fits g ps card) : convert g ps = .ok (Bbn.run (convertOps g ps)) :=
  convert_ok_keys hnd hwf hf.keys

theorem nodeOf_eq (hf : Fits g ps card) {i : Int} (hi : i ∈ g.nodes) : ∃ q : Params, q.Fits g card i ∧
    nodeOf ps i = ⟨⟨i, strInt i, (range (card i)).map (fun s => "state".toList ++ strInt s)⟩, q.params.flatten⟩ := by
  obtain ⟨q, h1, h2⟩ := hf.node i hi
  refine ⟨q, h2, ?_⟩
  unfold nodeOf
  rw [h1]
  simp only
  rw [h2.shape2]
  rfl

theorem convert_ids (g : DiG Int) (ps : Dict Int Params) : (g.nodes.map (nodeOf ps)).map (fun n => n.var.id) = g.nodes := by
  rw [List.map_map]
  have : (fun n : BbnNode => n.var.id) ∘ nodeOf ps = id := by
    funext i; exact nodeOf_id ps i
  rw [this, List.map_id]

theorem convert_ends (hwf : g.WF) : ∀ e ∈ (edges g).map (fun e => (nodeOf ps e.1, nodeOf ps e.2)),
    e.1 ∈ g.nodes.map (nodeOf ps) ∧ e.2 ∈ g.nodes.map (nodeOf ps) := by
  intro e he
  obtain ⟨⟨a, b⟩, h, rfl⟩ := List.mem_map.1 he
  have := hwf _ ((mem_edges hwf a b).1 h)
  exact ⟨List.mem_map_of_mem this.1, List.mem_map_of_mem this.2⟩

theorem convert_edges (g : DiG Int) (ps : Dict Int Params) : BOp.edges (convertOps g ps) = edges g := by
  unfold convertOps
  rw [build_edges, List.map_map]
  have : ((fun e : BbnNode × BbnNode => (e.1.var.id, e.2.var.id)) ∘ fun e : Int × Int => (nodeOf ps e.1, nodeOf ps e.2)) = id := by
    funext e
    simp only [Function.comp, nodeOf_id, id]
  rw [this, List.map_id]

theorem convert_getNodes (hnd : g.nodes.Nodup) (hwf : g.WF) : (Bbn.run (convertOps g ps)).toGraph.getNodes = g.nodes.map (nodeOf ps) :=
  build_getNodes (by rw [convert_ids]; exact hnd) (convert_ends hwf)

theorem convert_vars (hnd : g.nodes.Nodup) (hwf : g.WF) : (Bbn.run (convertOps g ps)).vars = g.nodes.map (fun i => (nodeOf ps i).var) := by
  unfold Bbn.vars
  rw [convert_getNodes hnd hwf, List.map_map]
  rfl

theorem convert_parents (hnd : g.nodes.Nodup) (hwf : g.WF) (hed : g.edges.Nodup) (c : Int) :
    ∃ l : List Int, l.Perm (predecessors g c) ∧ (Bbn.run (convertOps g ps)).parentVars c = l.map (fun i => (nodeOf ps i).var) := by
  have hid : ((g.nodes.map (nodeOf ps)).map (fun n => n.var.id)).Nodup := by rw [convert_ids]; exact hnd
  have h := build_parentVars hid (convert_ends (ps := ps) hwf) (nodeOf ps) (by
    intro n hn
    obtain ⟨i, _, rfl⟩ := List.mem_map.1 hn
    rw [nodeOf_id]) c
  refine ⟨_, ?_, h⟩
  have e : ((((edges g).map (fun e => (nodeOf ps e.1, nodeOf ps e.2))).filter (fun e => decide (e.2.var.id = c))).map (fun e => e.1.var.id)) =
      ((edges g).filter (fun e => decide (e.2 = c))).map Prod.fst := by
    rw [List.filter_map, List.map_map]
    have h1 : ((fun e : BbnNode × BbnNode => decide (e.2.var.id = c)) ∘ fun e : Int × Int => (nodeOf ps e.1, nodeOf ps e.2)) =
        fun e => decide (e.2 = c) := by
      funext e; simp only [Function.comp, nodeOf_id]
    have h2 : ((fun e : BbnNode × BbnNode => e.1.var.id) ∘ fun e : Int × Int => (nodeOf ps e.1, nodeOf ps e.2)) = Prod.fst := by
      funext e; simp only [Function.comp, nodeOf_id]
    rw [h1, h2]
  rw [e]
  have hn1 : (((edges g).filter (fun e => decide (e.2 = c))).map Prod.fst).Nodup := by
    refine ((nodup_edges hnd hed).filter _).map_on ?_
    rintro ⟨a1, a2⟩ ha ⟨b1, b2⟩ hb h
    rw [List.mem_filter, decide_eq_true_eq] at ha hb
    simp only at ha hb h
    rw [ha.2, hb.2, h]
  have hn2 : (predecessors g c).Nodup := by
    unfold predecessors
    refine (hed.filter _).map_on ?_
    rintro ⟨a1, a2⟩ ha ⟨b1, b2⟩ hb h
    rw [List.mem_filter, decide_eq_true_eq] at ha hb
    simp only at ha hb h
    rw [ha.2, hb.2, h]
  rw [firsts_of_nodup _ hn1, List.perm_ext_iff_of_nodup hn1 hn2]
  intro a
  rw [mem_predecessors, List.mem_map]
  constructor
  · rintro ⟨⟨x, y⟩, hxy, rfl⟩
    rw [List.mem_filter, decide_eq_true_eq] at hxy
    obtain ⟨h1, rfl⟩ := hxy
    exact (mem_edges hwf x _).1 h1
  · intro h
    exact ⟨(a, c), List.mem_filter.2 ⟨(mem_edges hwf a c).2 h, by simp⟩, rfl⟩

/-! ## rows of a flattened table -/

theorem flatten_length {α : Type} {k : Nat} : ∀ (rows : List (List α)), (∀ r ∈ rows, r.length = k) → rows.flatten.length = rows.length * k
  | [], _ => by simp
  | r :: rows, h => by
      rw [List.flatten_cons, List.length_append, h r List.mem_cons_self, flatten_length rows (fun s hs => h s (List.mem_cons_of_mem _ hs)),
        List.length_cons]
      ring

theorem flatten_getD {k : Nat} : ∀ (rows : List (List ℚ)), (∀ r ∈ rows, r.length = k) → ∀ (i j : Nat), (hi : i < rows.length) → j < k →
    rows.flatten.getD (i * k + j) 0 = (rows[i]).getD j 0
  | [], _, i, j, hi, _ => by simp at hi
  | r :: rows, h, i, j, hi, hj => by
      have hr := h r List.mem_cons_self
      rw [List.flatten_cons]
      cases i with
      | zero =>
        simp only [Nat.zero_mul, Nat.zero_add, List.getElem_cons_zero]
        rw [List.getD_eq_getElem?_getD, List.getElem?_append_left (by omega), List.getD_eq_getElem?_getD]
      | succ i =>
        simp only [List.getElem_cons_succ]
        rw [List.getD_eq_getElem?_getD, List.getElem?_append_right (by rw [hr, Nat.succ_mul]; omega), ← List.getD_eq_getElem?_getD]
        have e : (i + 1) * k + j - r.length = i * k + j := by rw [hr, Nat.succ_mul]; omega
        rw [e]
        exact flatten_getD rows (fun s hs => h s (List.mem_cons_of_mem _ hs)) i j (by simpa using hi) hj

theorem map_range_getD {r : List ℚ} : (List.range r.length).map (fun j => r.getD j 0) = r := by
  refine List.ext_getElem (by simp) ?_
  intro i h1 h2
  simp [List.getElem?_eq_getElem h2]

theorem states_nodup (k : Int) : ((range k).map (fun s => "state".toList ++ strInt s)).Nodup := by
  refine (nodup_range k).map ?_
  intro a b h
  exact strInt_inj (List.append_cancel_left h)

theorem states_length (k : Nat) : ((range k).map (fun s => "state".toList ++ strInt s)).length = k := by
  rw [List.length_map, length_range]; simp

/-- what the conversion gives: a network fit for exact inference -/
structure Good (ops : List BOp) : Prop where
  usable : Net.Usable ops
  acyclic : AcyclicOps ops
  normalized : (Bbn.run ops).Normalized (Bbn.run ops).parentVars
  names : ((Bbn.run ops).vars.map Variable.name).Nodup

theorem convert_good {n : Int} (hg : Inv n g) (hac : g.Acyclic) (hf : Fits g ps card) : Good (convertOps g ps) := by
  have hnd : g.nodes.Nodup := by rw [hg.nodes]; exact nodup_range n
  have hgn := convert_getNodes (ps := ps) hnd hg.wf
  have hvars := convert_vars (ps := ps) hnd hg.wf
  have hE : (fun p c => (p, c) ∈ BOp.edges (convertOps g ps)) = g.E := by
    funext p c
    rw [convert_edges]
    exact propext (mem_edges hg.wf p c)
  have hacyc : AcyclicOps (convertOps g ps) := by
    unfold AcyclicOps
    rw [hE]
    exact hac
  have hlen : ∀ i ∈ g.nodes, (nodeOf ps i).var.values.length = card i := by
    intro i hi
    obtain ⟨q, _, e⟩ := nodeOf_eq hf hi
    rw [e]
    exact states_length _
  have hrows : ∀ i ∈ g.nodes, (((Bbn.run (convertOps g ps)).parentVars i).map (fun v => v.values.length)).prod = ((predecessors g i).map card).prod := by
    intro i hi
    obtain ⟨l, hl, e⟩ := convert_parents (ps := ps) hnd hg.wf hg.nodup i
    rw [e, List.map_map, ← (hl.map card).prod_eq]
    congr 1
    refine List.map_congr_left ?_
    intro j hj
    exact hlen j (hg.wf _ ((mem_predecessors g j i).1 (hl.mem_iff.1 hj))).1
  have hwf : (Bbn.run (convertOps g ps)).WF := by
    refine ⟨?_, ?_, ?_, ?_⟩
    · intro id hid
      have := (parents_requested (convertOps g ps) id id).1 hid
      exact hacyc id (TransGen.single this)
    · intro m hm
      rw [hgn] at hm
      obtain ⟨i, hi, rfl⟩ := List.mem_map.1 hm
      obtain ⟨q, _, e⟩ := nodeOf_eq hf hi
      rw [e]
      exact states_nodup _
    · intro m hm
      rw [hgn] at hm
      obtain ⟨i, hi, rfl⟩ := List.mem_map.1 hm
      rw [List.map_append, List.prod_append, nodeOf_id, hrows i hi]
      obtain ⟨q, hq, e⟩ := nodeOf_eq hf hi
      simp only [List.map_cons, List.map_nil, List.prod_cons, List.prod_nil, mul_one]
      rw [hlen i hi, e]
      simp only
      rw [flatten_length q.params (fun r hr => (hq.row r hr).1), hq.rows]
    · intro m hm p hp
      rw [hgn] at hm
      obtain ⟨i, hi, rfl⟩ := List.mem_map.1 hm
      obtain ⟨q, hq, e⟩ := nodeOf_eq hf hi
      rw [e] at hp
      obtain ⟨r, hr, hpr⟩ := List.mem_flatten.1 hp
      exact le_of_lt ((hq.row r hr).2.1 p hpr)
  refine ⟨⟨⟨hwf, ?_⟩, ?_⟩, hacyc, ?_, ?_⟩
  · intro v hv
    rw [hvars] at hv
    obtain ⟨i, hi, rfl⟩ := List.mem_map.1 hv
    intro e
    have h1 := hlen i hi
    have h2 := hf.two i hi
    rw [e] at h1
    simp at h1
    omega
  · intro u hu w hw
    rw [hE]
    rw [hvars] at hu hw
    obtain ⟨i, hi, rfl⟩ := List.mem_map.1 hu
    obtain ⟨j, hj, rfl⟩ := List.mem_map.1 hw
    rw [nodeOf_id, nodeOf_id]
    have := hg.conn i hi j hj
    clear hw hu hj
    induction this with
    | refl => exact EqvGen.refl _
    | tail _ h ih =>
      refine EqvGen.trans _ _ _ ih ?_
      rcases h with h | h
      · exact EqvGen.rel _ _ h
      · exact EqvGen.symm _ _ (EqvGen.rel _ _ h)
  · refine normalized_of_rows ?_ ?_
    · intro c v hv
      obtain ⟨l, hl, e⟩ := convert_parents (ps := ps) hnd hg.wf hg.nodup c
      rw [e] at hv
      obtain ⟨j, hj, rfl⟩ := List.mem_map.1 hv
      rw [hvars]
      exact List.mem_map.2 ⟨j, (hg.wf _ ((mem_predecessors g j c).1 (hl.mem_iff.1 hj))).1, rfl⟩
    · intro m hm k hk
      rw [hgn] at hm
      obtain ⟨i, hi, rfl⟩ := List.mem_map.1 hm
      rw [nodeOf_id] at hk
      have hk' : k < ((predecessors g i).map card).prod := by
        have := hrows i hi
        unfold rows at hk
        omega
      rw [hlen i hi]
      obtain ⟨q, hq, e⟩ := nodeOf_eq hf hi
      rw [e]
      simp only
      rw [← hq.rows] at hk'
      have hr := hq.row q.params[k] (List.getElem_mem hk')
      have : (List.range (card i)).map (fun j => q.params.flatten.getD (k * card i + j) 0) = q.params[k] := by
        rw [← map_range_getD (r := q.params[k]), hr.1]
        refine List.map_congr_left ?_
        intro j hj
        exact flatten_getD q.params (fun r hr => (hq.row r hr).1) k j hk' (List.mem_range.1 hj)
      rw [this]
      exact hr.2.2
  · rw [hvars, List.map_map]
    have : ∀ i ∈ g.nodes, (Variable.name ∘ fun i => (nodeOf ps i).var) i = strInt i := by
      intro i hi
      obtain ⟨q, _, e⟩ := nodeOf_eq hf hi
      simp only [Function.comp, e]
    rw [List.map_congr_left this]
    exact hnd.map (fun _ _ => strInt_inj)

end Gen
end PyBBN
