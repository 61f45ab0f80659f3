import Verif.Proofs.MultiWalk
import Mathlib.Combinatorics.SimpleGraph.Acyclic

/-! One iteration of the singly-connected generator, and how a polytree can be turned into a star. -/

namespace PyBBN
open Classical Relation DSep

namespace Gen
open Rnd
variable {n : Nat}

/-! ## exchanges of edges in a polytree -/

/-- the node is on the side of `k` when the edge `k → j` is taken away -/
def Side (g : DiG Int) (k j x : Int) : Prop := ReflTransGen (Adj (without g k j).E) k x

theorem SInv.nodupNodes {N : Int} {g : DiG Int} (h : SInv N g) : g.nodes.Nodup := by rw [h.nodes]; exact nodup_range N

theorem SInv.acyclic {N : Int} {g : DiG Int} (h : SInv N g) : g.Acyclic :=
  DiG.acyclic_of_path h.wf h.anti (fun _ hx _ hy => DiG.existsUnique_path h.wf h.anti h.nodupNodes h.conn h.len hx hy)

/-- every edge is a bridge -/
theorem SInv.bridge {N : Int} {g : DiG Int} (h : SInv N g) {k j : Int} (hk : g.E k j) : ¬ Side g k j j := by
  intro hs
  have hkn := (h.wf _ hk).1
  have hc : (without g k j).Connected := by
    intro x hx y hy
    have hxy := h.conn x hx y hy
    induction hxy with
    | refl => exact ReflTransGen.refl
    | @tail b c hb hbc ih =>
      have hbn : b ∈ g.nodes := by
        rcases hbc with h' | h'
        · exact (h.wf _ h').1
        · exact (h.wf _ h').2
      refine (ih hbn).trans ?_
      rcases hbc with h' | h'
      · by_cases e : b = k ∧ c = j
        · obtain ⟨rfl, rfl⟩ := e; exact hs
        · exact ReflTransGen.single (Or.inl ((E_without g k j b c).2 ⟨h', e⟩))
      · by_cases e : c = k ∧ b = j
        · obtain ⟨rfl, rfl⟩ := e; exact reach_symm hs
        · exact ReflTransGen.single (Or.inr ((E_without g k j c b).2 ⟨h', e⟩))
  have hna : (without g k j).NoAnti := fun a b hab hba => h.anti a b ((E_without g k j a b).1 hab).1 ((E_without g k j b a).1 hba).1
  have hne : (without g k j).nodes ≠ [] := List.ne_nil_of_mem hkn
  have h1 := DiG.simple_connected (wf_without h.wf) hna hne hc
  have h2 := DiG.simple_card (wf_without h.wf (i := k) (j := j)) hna
  have h3 := h1.card_vert_le_card_edgeSet_add_one
  rw [card_list, List.toFinset_card_of_nodup (show (without g k j).nodes.Nodup from h.nodupNodes)] at h3
  have h4 := length_without h.nodup hk
  have h5 := h.len
  have h6 : (without g k j).nodes.length = g.nodes.length := rfl
  omega

/-- with another predecessor taken away, the nodes of the side of `y` stay with `j` -/
theorem SInv.other_side {N : Int} {g : DiG Int} (h : SInv N g) {k y j i : Int} (hk : g.E k j) (hy : g.E y j) (hky : k ≠ y) (hi : Side g y j i) :
    ReflTransGen (Adj (without g k j).E) j i := by
  have hbr := h.bridge hy
  induction hi with
  | refl => exact ReflTransGen.single (Or.inr ((E_without g k j y j).2 ⟨hy, fun e => hky e.1.symm⟩))
  | @tail b c hb hbc ih =>
    refine ih.tail ?_
    have hc : Side g y j c := ReflTransGen.tail hb hbc
    rcases hbc with h' | h'
    · rw [E_without] at h'
      refine Or.inl ((E_without g k j b c).2 ⟨h'.1, ?_⟩)
      rintro ⟨rfl, rfl⟩
      exact hbr hc
    · rw [E_without] at h'
      refine Or.inr ((E_without g k j c b).2 ⟨h'.1, ?_⟩)
      rintro ⟨rfl, rfl⟩
      exact hbr hb

/-- an exchange for a predecessor on the other side disconnects -/
theorem SInv.not_connected {N : Int} {g : DiG Int} (h : SInv N g) {k y j i a b : Int} (hk : g.E k j) (hy : g.E y j) (hky : k ≠ y) (hi : Side g y j i)
    (hab : (a = i ∧ b = j) ∨ (a = j ∧ b = i)) : ¬ (addEdgeRaw (without g k j) a b).Connected := by
  intro hc
  have hkn := (h.wf _ hk).1
  have hjn := (h.wf _ hk).2
  have hsub : ∀ x, x ∈ g.nodes → x ∈ (addEdgeRaw (without g k j) a b).nodes := by
    intro x hx
    unfold addEdgeRaw
    simp only [mem_setAdd]
    exact Or.inr (Or.inr hx)
  have hkj := hc k (hsub k hkn) j (hsub j hjn)
  have hji := h.other_side hk hy hky hi
  refine h.bridge hk ?_
  have key : ∀ x, ReflTransGen (Adj (addEdgeRaw (without g k j) a b).E) k x → ReflTransGen (Adj (without g k j).E) k x := by
    intro x hx
    induction hx with
    | refl => exact ReflTransGen.refl
    | @tail u v hu huv ih =>
      refine ih.trans ?_
      rcases huv with h' | h'
      · rw [E_addEdgeRaw] at h'
        rcases h' with h' | ⟨rfl, rfl⟩
        · exact ReflTransGen.single (Or.inl h')
        · rcases hab with ⟨rfl, rfl⟩ | ⟨rfl, rfl⟩
          · exact reach_symm hji
          · exact hji
      · rw [E_addEdgeRaw] at h'
        rcases h' with h' | ⟨rfl, rfl⟩
        · exact ReflTransGen.single (Or.inr h')
        · rcases hab with ⟨rfl, rfl⟩ | ⟨rfl, rfl⟩
          · exact hji
          · exact reach_symm hji
  exact key j hkj

/-- an exchange for the predecessor on the right side does not -/
theorem SInv.connected {N : Int} {g : DiG Int} (h : SInv N g) {y j i a b : Int} (hi : Side g y j i) (hin : i ∈ g.nodes) (hjn : j ∈ g.nodes)
    (hab : (a = i ∧ b = j) ∨ (a = j ∧ b = i)) : (addEdgeRaw (without g y j) a b).Connected := by
  have han : a ∈ (without g y j).nodes := by rcases hab with ⟨rfl, rfl⟩ | ⟨rfl, rfl⟩ <;> assumption
  have hbn : b ∈ (without g y j).nodes := by rcases hab with ⟨rfl, rfl⟩ | ⟨rfl, rfl⟩ <;> assumption
  intro u hu v hv
  rw [nodes_addEdgeRaw han hbn] at hu hv
  have huv := h.conn u hu v hv
  have hup : ∀ p q, ReflTransGen (Adj (without g y j).E) p q → ReflTransGen (Adj (addEdgeRaw (without g y j) a b).E) p q := by
    intro p q hpq
    induction hpq with
    | refl => exact ReflTransGen.refl
    | tail _ h' ih => exact ih.tail (h'.imp (fun e => (E_addEdgeRaw _ _ _ _ _).2 (Or.inl e)) (fun e => (E_addEdgeRaw _ _ _ _ _).2 (Or.inl e)))
  have hij : ReflTransGen (Adj (addEdgeRaw (without g y j) a b).E) i j := by
    rcases hab with ⟨rfl, rfl⟩ | ⟨rfl, rfl⟩
    · exact ReflTransGen.single (Or.inl ((E_addEdgeRaw _ _ _ _ _).2 (Or.inr ⟨rfl, rfl⟩)))
    · exact ReflTransGen.single (Or.inr ((E_addEdgeRaw _ _ _ _ _).2 (Or.inr ⟨rfl, rfl⟩)))
  have hyj := (hup y i hi).trans hij
  induction huv with
  | refl => exact ReflTransGen.refl
  | @tail p q hp hpq ih =>
    have hpn : p ∈ g.nodes := by
      rcases hpq with h' | h'
      · exact (h.wf _ h').1
      · exact (h.wf _ h').2
    refine (ih hpn).trans ?_
    rcases hpq with h' | h'
    · by_cases e : p = y ∧ q = j
      · obtain ⟨rfl, rfl⟩ := e; exact hyj
      · exact hup _ _ (ReflTransGen.single (Or.inl ((E_without g y j p q).2 ⟨h', e⟩)))
    · by_cases e : q = y ∧ p = j
      · obtain ⟨rfl, rfl⟩ := e; exact reach_symm hyj
      · exact hup _ _ (ReflTransGen.single (Or.inr ((E_without g y j q p).2 ⟨h', e⟩)))

/-! ## one iteration -/

/-- the graph after one iteration with a given pair and a given outcome of `p < 0.5` -/
def exchanged (q : Pair n × Bool) (g : DiG Int) : DiG Int :=
  let i : Int := (q.1.1.1 : Nat)
  let j : Int := (q.1.1.2 : Nat)
  if Do.hasEdge g i j || Do.hasEdge g j i then g
  else match findPredecessor i j g with
    | Option.none => g
    | some k =>
      match rewire i j k q.2 g with
      | .ok g' => g'
      | .error _ => g

theorem exchanged_sinv (q : Pair n × Bool) {g : DiG Int} (h : SInv n g) : SInv n (exchanged q g) := by
  obtain ⟨⟨⟨a, b⟩, hab⟩, c⟩ := q
  have ha : ((a : Nat) : Int) ∈ g.nodes := by rw [h.nodes, mem_range]; omega
  have hb : ((b : Nat) : Int) ∈ g.nodes := by rw [h.nodes, mem_range]; omega
  have hne : ((a : Nat) : Int) ≠ ((b : Nat) : Int) := fun e => hab (Fin.ext (by exact_mod_cast e))
  unfold exchanged
  simp only
  split
  · exact h
  · next he =>
    rw [Bool.or_eq_true, not_or, hasEdge_iff, hasEdge_iff] at he
    cases hf : findPredecessor (a : Nat) (b : Nat) g with
    | none => exact h
    | some k =>
      have hk : g.E k (b : Nat) := (mem_predecessors g k _).1 (List.mem_of_find?_eq_some hf)
      obtain ⟨g', h1, h2⟩ := rewire_ok h c ha hb hne he.1 he.2 hk
      simp only [h1]
      exact h2

/-- the first predecessor is always the one -/
theorem findPredecessor_head {N : Int} {g : DiG Int} (h : SInv N g) {i j : Int} (hi : i ∈ g.nodes) : findPredecessor i j g = (predecessors g j).head? := by
  unfold findPredecessor
  cases hp : predecessors g j with
  | nil => rfl
  | cons k l =>
    have hk : g.E k j := (mem_predecessors g k j).1 (by rw [hp]; exact List.mem_cons_self)
    have hkn := (h.wf _ hk).1
    rw [List.find?_cons_of_pos (p := fun pa => joined g pa i) ((joined_iff h.wf hkn i).2 (h.conn k hkn i hi))]
    rfl

/-- an exchange that is kept -/
theorem rewire_kept {N : Int} {g : DiG Int} (h : SInv N g) {i j y : Int} (b : Bool) (hi : i ∈ g.nodes) (hj : j ∈ g.nodes)
    (hy : g.E y j) (hs : Side g y j i) :
    ∃ g', rewire i j y b g = .ok g' ∧ ∀ u v, g'.E u v ↔ (g.E u v ∧ ¬ (u = y ∧ v = j)) ∨ (if b then u = j ∧ v = i else u = i ∧ v = j) := by
  unfold rewire
  rw [removeEdge_ok hy]
  cases b with
  | true =>
    have hc := h.connected (a := j) (b := i) hs hi hj (Or.inr ⟨rfl, rfl⟩)
    have hwf : (addEdgeRaw (without g y j) j i).WF := wf_addEdgeRaw (g := without g y j) hj hi (wf_without h.wf)
    obtain ⟨c, hc1, hc2⟩ := isConnected_ok hwf (by rw [nodes_addEdgeRaw (g := without g y j) hj hi]; exact List.ne_nil_of_mem hi)
    have : c = true := hc2.2 hc
    subst this
    simp only [Bind.bind, Except.bind, if_true, hc1, Bool.true_eq_false, if_false]
    exact ⟨_, rfl, fun u v => by rw [E_addEdgeRaw, E_without]⟩
  | false =>
    have hc := h.connected (a := i) (b := j) hs hi hj (Or.inl ⟨rfl, rfl⟩)
    have hwf : (addEdgeRaw (without g y j) i j).WF := wf_addEdgeRaw (g := without g y j) hi hj (wf_without h.wf)
    obtain ⟨c, hc1, hc2⟩ := isConnected_ok hwf (by rw [nodes_addEdgeRaw (g := without g y j) hi hj]; exact List.ne_nil_of_mem hi)
    have : c = true := hc2.2 hc
    subst this
    simp only [Bind.bind, Except.bind, hc1, Bool.true_eq_false, Bool.false_eq_true, if_false]
    exact ⟨_, rfl, fun u v => by rw [E_addEdgeRaw, E_without]⟩

/-- an exchange that is taken back moves the predecessor to the end -/
theorem rewire_back {N : Int} {g : DiG Int} (h : SInv N g) {i j k y : Int} (hi : i ∈ g.nodes) (hj : j ∈ g.nodes) (hij : i ≠ j)
    (h1 : ¬ g.E i j) (hk : g.E k j) (hy : g.E y j) (hky : k ≠ y) (hs : Side g y j i) :
    rewire i j k false g = .ok ⟨g.nodes, g.edges.filter (fun e => decide (e ≠ (k, j))) ++ [(k, j)]⟩ := by
  unfold rewire
  rw [removeEdge_ok hk]
  have hkn := (h.wf _ hk).1
  have hc := h.not_connected (a := i) (b := j) hk hy hky hs (Or.inl ⟨rfl, rfl⟩)
  have hwf : (addEdgeRaw (without g k j) i j).WF := wf_addEdgeRaw (g := without g k j) hi hj (wf_without h.wf)
  have hn1 : (addEdgeRaw (without g k j) i j).nodes = g.nodes := nodes_addEdgeRaw (g := without g k j) hi hj
  obtain ⟨c, hc1, hc2⟩ := isConnected_ok hwf (by rw [hn1]; exact List.ne_nil_of_mem hi)
  have : c = false := by rw [Bool.eq_false_iff]; exact fun e => hc (hc2.1 e)
  subst this
  simp only [Bind.bind, Except.bind, hc1, Bool.false_eq_true, if_false, if_true]
  rw [removeEdge_ok (by rw [E_addEdgeRaw, E_addEdgeRaw]; exact Or.inl (Or.inr ⟨rfl, rfl⟩))]
  have hn2 : (addEdgeRaw (addEdgeRaw (without g k j) i j) k j).nodes = g.nodes := by
    rw [nodes_addEdgeRaw (by rw [hn1]; exact hkn) (by rw [hn1]; exact hj), hn1]
  have hik : (i, j) ≠ (k, j) := by
    intro e
    rw [Prod.mk.injEq] at e
    exact h1 (e.1 ▸ hk)
  have e1 : (addEdgeRaw (without g k j) i j).edges = g.edges.filter (fun e => decide (e ≠ (k, j))) ++ [(i, j)] := by
    unfold addEdgeRaw without
    simp only
    refine setAdd_of_not_mem ?_
    intro hm
    exact h1 (List.mem_of_mem_filter hm)
  have e2 : (addEdgeRaw (addEdgeRaw (without g k j) i j) k j).edges = g.edges.filter (fun e => decide (e ≠ (k, j))) ++ [(i, j)] ++ [(k, j)] := by
    unfold addEdgeRaw
    simp only
    rw [show (setAdd (without g k j).edges (i, j)) = _ from e1]
    refine setAdd_of_not_mem ?_
    simp [List.mem_filter]
    intro e
    exact hik (by rw [e])
  change Except.ok (DiG.mk (addEdgeRaw (addEdgeRaw (without g k j) i j) k j).nodes
    ((addEdgeRaw (addEdgeRaw (without g k j) i j) k j).edges.filter (fun e => decide (e ≠ (i, j))))) = _
  rw [hn2, e2]
  congr 2
  · rw [List.filter_append, List.filter_append]
    have f1 : (g.edges.filter (fun e => decide (e ≠ (k, j)))).filter (fun e => decide (e ≠ (i, j))) = g.edges.filter (fun e => decide (e ≠ (k, j))) := by
      rw [List.filter_eq_self]
      intro e he
      have := List.mem_of_mem_filter he
      rw [decide_eq_true_eq]
      rintro rfl
      exact h1 this
    rw [f1]
    have f2 : [(k, j)].filter (fun e => decide (e ≠ (i, j))) = [(k, j)] := by
      simp [List.filter_cons]
      intro e
      exact hik (by rw [e])
    rw [f2]
    simp

/-! ## words of draws -/

/-- some draws lead from one to the other -/
def Leads (n : Nat) (g g' : DiG Int) : Prop := ∃ w, Walk.go (exchanged (n := n)) w g = g'

theorem Leads.trans {g g' g'' : DiG Int} (h1 : Leads n g g') (h2 : Leads n g' g'') : Leads n g g'' := by
  obtain ⟨v, rfl⟩ := h1
  obtain ⟨w, rfl⟩ := h2
  exact ⟨v ++ w, Walk.go_append _ _ _ _⟩

theorem leads_one {g g' : DiG Int} (h : SInv n g) {i j k : Int} (b : Bool) (hi : i ∈ g.nodes) (hj : j ∈ g.nodes) (hij : i ≠ j)
    (h1 : ¬ g.E i j) (h2 : ¬ g.E j i) (hp : (predecessors g j).head? = some k) (hr : rewire i j k b g = .ok g') : Leads n g g' := by
  have hi' := hi
  have hj' := hj
  rw [h.nodes] at hi' hj'
  obtain ⟨a, rfl⟩ := fin_of_mem hi'
  obtain ⟨c, rfl⟩ := fin_of_mem hj'
  refine ⟨[(⟨(a, c), fun e => hij (by simp only at e; rw [e])⟩, b)], ?_⟩
  simp only [Walk.go, List.foldl_cons, List.foldl_nil, exchanged]
  have f1 : Do.hasEdge g (a : Nat) (c : Nat) = false := by rw [Bool.eq_false_iff]; exact fun e => h1 ((hasEdge_iff g _ _).1 e)
  have f2 : Do.hasEdge g (c : Nat) (a : Nat) = false := by rw [Bool.eq_false_iff]; exact fun e => h2 ((hasEdge_iff g _ _).1 e)
  rw [f1, f2, findPredecessor_head h hi, hp]
  simp only [Bool.or_self, Bool.false_eq_true, if_false, hr]

/-- the same polytree with the edges in another order -/
theorem SInv.congr {N : Int} {g g' : DiG Int} (h : SInv N g) (hn : g'.nodes = g.nodes) (hp : g'.edges.Perm g.edges) : SInv N g' := by
  have hE : ∀ a b, g'.E a b ↔ g.E a b := fun a b => hp.mem_iff
  refine ⟨⟨hn.trans h.nodes, ?_, hp.nodup_iff.2 h.nodup, Connected.mono hn (fun a b => (hE a b).2) h.conn⟩, ?_, ?_⟩
  · intro e he; rw [hn]; exact h.wf e (hp.mem_iff.1 he)
  · intro a b hab hba; exact h.anti a b ((hE a b).1 hab) ((hE b a).1 hba)
  · rw [hn, hp.length_eq]; exact h.len

/-- whichever place the predecessor on the right side has, some draws bring about its exchange -/
theorem leads_exchange {i j y : Int} (b : Bool) : ∀ (l1 l2 : List Int) {g : DiG Int}, SInv n g → i ∈ g.nodes → j ∈ g.nodes → i ≠ j → ¬ g.E i j →
    ¬ g.E j i → g.E y j → Side g y j i → predecessors g j = l1 ++ y :: l2 →
    ∃ g', Leads n g g' ∧ SInv n g' ∧ ∀ u v, g'.E u v ↔ (g.E u v ∧ ¬ (u = y ∧ v = j)) ∨ (if b then u = j ∧ v = i else u = i ∧ v = j)
  | [], l2, g, h, hi, hj, hij, h1, h2, hy, hs, hp => by
      obtain ⟨g', hg1, hg2⟩ := rewire_kept h b hi hj hy hs
      obtain ⟨g'', hg3, hg4⟩ := rewire_ok h b hi hj hij h1 h2 hy
      have : g'' = g' := by rw [hg1] at hg3; exact (Except.ok.inj hg3).symm
      subst this
      exact ⟨g'', leads_one h b hi hj hij h1 h2 (by rw [hp]; rfl) hg1, hg4, hg2⟩
  | k :: l1, l2, g, h, hi, hj, hij, h1, h2, hy, hs, hp => by
      have hk : g.E k j := (mem_predecessors g k j).1 (by rw [hp]; exact List.mem_cons_self)
      have hnd : (predecessors g j).Nodup := by
        unfold predecessors
        refine List.Nodup.map_on ?_ (h.nodup.filter _)
        intro a ha c hc hac
        rw [List.mem_filter, decide_eq_true_eq] at ha hc
        exact Prod.ext hac (ha.2.trans hc.2.symm)
      have hky : k ≠ y := by
        rintro rfl
        rw [hp, List.cons_append, List.nodup_cons] at hnd
        exact hnd.1 (by simp)
      have hr := rewire_back h hi hj hij h1 hk hy hky hs
      set g1 : DiG Int := ⟨g.nodes, g.edges.filter (fun e => decide (e ≠ (k, j))) ++ [(k, j)]⟩ with hg1
      have hperm : g1.edges.Perm g.edges := by
        have e : g.edges.filter (fun e => decide (e ≠ (k, j))) = g.edges.erase (k, j) := by
          rw [h.nodup.erase_eq_filter]
          congr 1
          funext e
          by_cases h : e = (k, j) <;> simp [h]
        rw [hg1]
        simp only [e]
        exact (List.perm_append_singleton _ _).trans (List.perm_cons_erase (show (k, j) ∈ g.edges from hk)).symm
      have hE : ∀ u v, g1.E u v ↔ g.E u v := fun u v => hperm.mem_iff
      have hpre : predecessors g1 j = l1 ++ y :: (l2 ++ [k]) := by
        unfold predecessors
        rw [hg1]
        simp only [List.filter_append, List.map_append]
        have f1 : ([(k, j)].filter (fun e : Int × Int => decide (e.2 = j))).map Prod.fst = [k] := by simp
        rw [f1]
        have f2 : ((g.edges.filter (fun e => decide (e ≠ (k, j)))).filter (fun e => decide (e.2 = j))).map Prod.fst =
            (predecessors g j).filter (fun u => decide (u ≠ k)) := by
          unfold predecessors
          rw [List.filter_map, List.filter_filter, List.filter_filter]
          congr 1
          apply List.filter_congr
          rintro ⟨u, v⟩ _
          by_cases hv : v = j <;> by_cases hu : u = k <;> simp [hu, hv]
        rw [f2, hp]
        rw [hp, List.cons_append, List.nodup_cons] at hnd
        have f3 : (k :: (l1 ++ y :: l2)).filter (fun u => decide (u ≠ k)) = l1 ++ y :: l2 := by
          rw [List.filter_cons_of_neg (by simp), List.filter_eq_self]
          intro u hu
          rw [decide_eq_true_eq]
          rintro rfl
          exact hnd.1 hu
        rw [List.cons_append, f3]
        simp
      have hs1 : Side g1 y j i := by
        refine ReflTransGen.mono ?_ _ _ hs
        intro u v huv
        exact huv.imp (fun e => by rw [E_without] at e ⊢; rwa [hE]) (fun e => by rw [E_without] at e ⊢; rwa [hE])
      have hsi1 : SInv n g1 := h.congr rfl hperm
      obtain ⟨g', hl, hsi, hEE⟩ := leads_exchange b l1 (l2 ++ [k]) hsi1 hi hj hij (fun e => h1 ((hE _ _).1 e)) (fun e => h2 ((hE _ _).1 e))
        ((hE _ _).2 hy) hs1 hpre
      refine ⟨g', (leads_one h false hi hj hij h1 h2 (by rw [hp]; rfl) hr).trans hl, hsi, fun u v => ?_⟩
      rw [hEE, hE]

theorem leads_move {g : DiG Int} (h : SInv n g) {i j y : Int} (b : Bool) (hi : i ∈ g.nodes) (hj : j ∈ g.nodes) (hij : i ≠ j) (h1 : ¬ g.E i j)
    (h2 : ¬ g.E j i) (hy : g.E y j) (hs : Side g y j i) :
    ∃ g', Leads n g g' ∧ SInv n g' ∧ ∀ u v, g'.E u v ↔ (g.E u v ∧ ¬ (u = y ∧ v = j)) ∨ (if b then u = j ∧ v = i else u = i ∧ v = j) := by
  obtain ⟨l1, l2, hl⟩ := List.append_of_mem ((mem_predecessors g y j).2 hy)
  exact leads_exchange b l1 l2 h hi hj hij h1 h2 hy hs hl

/-! ## stars -/

/-- all edges lead into one node -/
def Star (g : DiG Int) : Prop := ∃ c ∈ g.nodes, ∀ u v, g.E u v ↔ v = c ∧ u ≠ c ∧ u ∈ g.nodes

theorem star_stays (q : Pair n × Bool) {g : DiG Int} (h : SInv n g) (hs : Star g) : exchanged q g = g := by
  obtain ⟨⟨⟨a, b⟩, hab⟩, p⟩ := q
  obtain ⟨c, hc, hE⟩ := hs
  have ha : ((a : Nat) : Int) ∈ g.nodes := by rw [h.nodes, mem_range]; omega
  have hb : ((b : Nat) : Int) ∈ g.nodes := by rw [h.nodes, mem_range]; omega
  have hne : ((a : Nat) : Int) ≠ ((b : Nat) : Int) := fun e => hab (Fin.ext (by exact_mod_cast e))
  unfold exchanged
  simp only
  split
  · rfl
  · next he =>
    rw [Bool.or_eq_true, not_or, hasEdge_iff, hasEdge_iff, hE, hE] at he
    rw [findPredecessor_head h ha]
    have : predecessors g (b : Nat) = [] := by
      rw [List.eq_nil_iff_forall_not_mem]
      intro k hk
      rw [mem_predecessors, hE] at hk
      exact he.1 ⟨hk.1, fun e => hne (e.trans hk.1.symm), ha⟩
    rw [this]
    rfl

/-- a sink that is not yet the centre of a star can be given one more predecessor -/
theorem leads_sink {g : DiG Int} (h : SInv n g) {c : Int} (hc : c ∈ g.nodes) (hsink : ∀ v, ¬ g.E c v) (hx : ∃ x ∈ g.nodes, x ≠ c ∧ ¬ g.E x c) :
    ∃ g', Leads n g g' ∧ SInv n g' ∧ (∀ v, ¬ g'.E c v) ∧ (predecessors g c).length < (predecessors g' c).length := by
  -- a node at distance two
  obtain ⟨y, x, hyc, hxy, hxc, hxn⟩ : ∃ y x, g.E y c ∧ Adj g.E y x ∧ x ≠ c ∧ ¬ g.E x c := by
    by_contra hno
    push Not at hno
    obtain ⟨x, hxn, hxc, hx⟩ := hx
    have : ∀ z, ReflTransGen (Adj g.E) c z → z = c ∨ g.E z c := by
      intro z hz
      induction hz with
      | refl => exact Or.inl rfl
      | @tail u v _ huv ih =>
        rcases ih with rfl | ih
        · rcases huv with h' | h'
          · exact absurd h' (hsink v)
          · exact Or.inr h'
        · by_cases hv : v = c
          · exact Or.inl hv
          · exact Or.inr (hno u v ih huv hv)
    rcases this x (h.conn c hc x hxn) with e | e
    · exact hxc e
    · exact hx e
  have hcount : ∀ g' : DiG Int, SInv n g' → (∃ z, g'.E z c ∧ ¬ g.E z c ∧ ∀ u, g.E u c → g'.E u c) →
      (predecessors g c).length < (predecessors g' c).length := by
    rintro g' hg' ⟨z, hz1, hz2, hz3⟩
    have hnd : ∀ g : DiG Int, SInv n g → (predecessors g c).Nodup := by
      intro g h
      unfold predecessors
      refine List.Nodup.map_on ?_ (h.nodup.filter _)
      intro a ha d hd had
      rw [List.mem_filter, decide_eq_true_eq] at ha hd
      exact Prod.ext had (ha.2.trans hd.2.symm)
    have hsub : (z :: predecessors g c).Subperm (predecessors g' c) := by
      refine List.subperm_of_subset (List.nodup_cons.2 ⟨fun hm => hz2 ((mem_predecessors g z c).1 hm), hnd g h⟩) ?_
      intro u hu
      rw [List.mem_cons] at hu
      rw [mem_predecessors]
      rcases hu with rfl | hu
      · exact hz1
      · exact hz3 u ((mem_predecessors g u c).1 hu)
    have := hsub.length_le
    simp at this
    omega
  have hyn := (h.wf _ hyc).1
  have hyc' : y ≠ c := fun e => hsink c (e ▸ hyc)
  rcases hxy with hxy | hxy
  · -- y → x
    have hxn' := (h.wf _ hxy).2
    obtain ⟨g', hl, hsi, hE⟩ := leads_move h true hc hxn' hxc.symm (hsink x) hxn hxy
      (ReflTransGen.single (Or.inl ((E_without g y x y c).2 ⟨hyc, fun e => hxc e.2.symm⟩)))
    simp only [if_true] at hE
    refine ⟨g', hl, hsi, ?_, hcount g' hsi ⟨x, (hE _ _).2 (Or.inr ⟨rfl, rfl⟩), hxn, fun u hu => (hE _ _).2 (Or.inl ⟨hu, fun e => hxc e.2.symm⟩)⟩⟩
    intro v hv
    rcases (hE _ _).1 hv with hv | hv
    · exact hsink v hv.1
    · exact hxc hv.1.symm
  · -- x → y
    have hxn' := (h.wf _ hxy).1
    obtain ⟨g1, hl, hsi, hE⟩ := leads_move h false hxn' hc hxc hxn (hsink x) hyc
      (ReflTransGen.single (Or.inr ((E_without g y c x y).2 ⟨hxy, fun e => hyc' e.2⟩)))
    simp only [Bool.false_eq_true, if_false] at hE
    have hn1 : g1.nodes = g.nodes := hsi.nodes.trans h.nodes.symm
    have hsink1 : ∀ v, ¬ g1.E c v := by
      intro v hv
      rcases (hE _ _).1 hv with hv | hv
      · exact hsink v hv.1
      · exact hxc hv.1.symm
    have hxy1 : g1.E x y := (hE _ _).2 (Or.inl ⟨hxy, fun e => hyc' e.2⟩)
    have hxc1 : g1.E x c := (hE _ _).2 (Or.inr ⟨rfl, rfl⟩)
    have hyc1 : ¬ g1.E y c := by
      intro e
      rcases (hE _ _).1 e with e | e
      · exact e.2 ⟨rfl, rfl⟩
      · have := hxy
        rw [e.1] at this
        exact h.anti _ _ this this
    obtain ⟨g', hl', hsi', hE'⟩ := leads_move hsi true (by rw [hn1]; exact hc) (by rw [hn1]; exact hyn) hyc'.symm (hsink1 y) hyc1 hxy1
      (ReflTransGen.single (Or.inl ((E_without g1 x y x c).2 ⟨hxc1, fun e => hyc' e.2.symm⟩)))
    simp only [if_true] at hE'
    refine ⟨g', hl.trans hl', hsi', ?_, hcount g' hsi' ⟨x, (hE' _ _).2 (Or.inl ⟨hxc1, fun e => hyc' e.2.symm⟩), hxn, ?_⟩⟩
    · intro v hv
      rcases (hE' _ _).1 hv with hv | hv
      · exact hsink1 v hv.1
      · exact hyc' hv.1.symm
    · intro u hu
      by_cases huy : u = y
      · exact (hE' _ _).2 (Or.inr ⟨huy, rfl⟩)
      · exact (hE' _ _).2 (Or.inl ⟨(hE _ _).2 (Or.inl ⟨hu, fun e => huy e.1⟩), fun e => hyc' e.2.symm⟩)

/-- a polytree has a sink -/
theorem exists_sink (hn : 0 < n) {g : DiG Int} (h : SInv n g) : ∃ c ∈ g.nodes, ∀ v, ¬ g.E c v := by
  obtain ⟨ρ, hρ⟩ := DagWalk.exists_order ((noCycle_iff (n := n) h.nodes h.wf).2 h.acyclic)
  refine ⟨((ρ.symm ⟨n - 1, by omega⟩ : Fin n) : Nat), by rw [h.nodes, mem_range]; omega, ?_⟩
  intro v hv
  have hvn := (h.wf _ hv).2
  rw [h.nodes] at hvn
  obtain ⟨b, rfl⟩ := fin_of_mem hvn
  have := DagWalk.mem_total.1 (hρ (mem_edgeSet.2 hv))
  rw [Equiv.apply_symm_apply, Fin.lt_def] at this
  have := (ρ b).2
  simp only at *
  omega

theorem star_of {g : DiG Int} (h : SInv n g) {c : Int} (hc : c ∈ g.nodes) (hsink : ∀ v, ¬ g.E c v) (hx : ∀ x ∈ g.nodes, x ≠ c → g.E x c) : Star g := by
  refine ⟨c, hc, fun u v => ⟨fun huv => ?_, ?_⟩⟩
  · have hu := (h.wf _ huv).1
    have hv := (h.wf _ huv).2
    have huc : u ≠ c := fun e => hsink v (e ▸ huv)
    refine ⟨?_, huc, hu⟩
    by_contra hvc
    refine h.bridge huv ?_
    refine ReflTransGen.trans (b := c) (ReflTransGen.single (Or.inl ((E_without g u v u c).2 ⟨hx u hu huc, fun e => hvc e.2.symm⟩)))
      (ReflTransGen.single (Or.inr ((E_without g u v v c).2 ⟨hx v hv hvc, fun e => hvc e.2.symm⟩)))
  · rintro ⟨rfl, huc, hu⟩
    exact hx u hu huc

/-- some draws lead to a star -/
theorem leads_star (hn : 0 < n) {g : DiG Int} (h : SInv n g) : ∃ g', Leads n g g' ∧ Star g' := by
  obtain ⟨c, hc, hsink⟩ := exists_sink hn h
  have hbound : ∀ g : DiG Int, SInv n g → (predecessors g c).length ≤ n := by
    intro g h
    have hl : (predecessors g c).length ≤ g.edges.length := by
      unfold predecessors
      rw [List.length_map]
      exact List.length_filter_le _ _
    have h2 := h.len
    rw [h.nodes, length_range] at h2
    omega
  have key : ∀ (k : Nat) (g : DiG Int), SInv n g → c ∈ g.nodes → (∀ v, ¬ g.E c v) → n - (predecessors g c).length ≤ k → ∃ g', Leads n g g' ∧ Star g' := by
    intro k
    induction k with
    | zero =>
      intro g h hc hsink hk
      by_cases hx : ∃ x ∈ g.nodes, x ≠ c ∧ ¬ g.E x c
      · obtain ⟨g', _, hsi, _, hlt⟩ := leads_sink h hc hsink hx
        have := hbound g' hsi
        omega
      · push Not at hx
        exact ⟨g, ⟨[], rfl⟩, star_of h hc hsink hx⟩
    | succ k ih =>
      intro g h hc hsink hk
      by_cases hx : ∃ x ∈ g.nodes, x ≠ c ∧ ¬ g.E x c
      · obtain ⟨g', hl, hsi, hs', hlt⟩ := leads_sink h hc hsink hx
        obtain ⟨g'', hl'', hst⟩ := ih g' hsi (by rw [hsi.nodes, ← h.nodes]; exact hc) hs' (by omega)
        exact ⟨g'', hl.trans hl'', hst⟩
      · push Not at hx
        exact ⟨g, ⟨[], rfl⟩, star_of h hc hsink hx⟩
  exact key _ g h hc hsink le_rfl

end Gen
end PyBBN

namespace PyBBN
open Classical Relation DSep

namespace Gen
open Rnd
variable {n M : Nat}

theorem finite_lists {α : Type} {s : Set α} (hs : s.Finite) (m : Nat) : {l : List α | l.length = m ∧ ∀ x ∈ l, x ∈ s}.Finite := by
  induction m with
  | zero =>
    refine (Set.finite_singleton ([] : List α)).subset ?_
    rintro l ⟨hl, _⟩
    exact List.length_eq_zero_iff.1 hl
  | succ m ih =>
    refine (Set.Finite.image2 List.cons hs ih).subset ?_
    rintro l ⟨hl, hx⟩
    cases l with
    | nil => simp at hl
    | cons a l => exact ⟨a, hx a List.mem_cons_self, l, ⟨by simpa using hl, fun x h => hx x (List.mem_cons_of_mem a h)⟩, rfl⟩

theorem finite_sinv (n : Nat) : {g : DiG Int | SInv n g}.Finite := by
  have hr : {x : Int | x ∈ range n}.Finite := List.finite_toSet (range n)
  have h := finite_lists (hr.prod hr) (n - 1)
  refine (h.image (fun l => (⟨range n, l⟩ : DiG Int))).subset ?_
  intro g hg
  have hl := hg.len
  rw [hg.nodes, length_range] at hl
  refine ⟨g.edges, ⟨by omega, fun e he => ?_⟩, ?_⟩
  · have := hg.wf e he
    rw [hg.nodes] at this
    exact this
  · change (⟨range n, g.edges⟩ : DiG Int) = g
    rw [← hg.nodes]

/-- a raw draw is even half of the time -/
theorem prob_coin {α : Type} (hM : 0 < M) (h2 : 2 ∣ M) {f : Nat → Rnd α} {F : Bool → Rnd α} (hf : ∀ d, f d = F (decide (d % 2 = 0))) {p : α → Prop}
    {r : Bool → ℚ} (h : ∀ b, Prob M (F b) p (r b)) : Prob M (Rnd.bind draw f) p ((r true + r false) / 2) := by
  have e := avg_mod (n := 2) (by decide) hM h2 (fun k => r (decide (k = 0)))
  have h1 := prob_draw (M := M) (f := f) (p := p) (r := fun d => r (decide (d % 2 = 0))) (fun d _ => by rw [hf]; exact h _)
  rw [e] at h1
  have e2 : 1 / ((2 : Nat) : ℚ) * ∑ k ∈ Finset.range 2, r (decide (k = 0)) = (r true + r false) / 2 := by
    simp [Finset.sum_range_succ]; ring
  rw [e2] at h1
  exact h1

theorem prob_singly (hM : 0 < M) (hn : 2 ≤ n) (hd : n ∣ M) (h2 : 2 ∣ M) (K : Nat) (p : DiG Int → Prop) :
    Prob M (singlyStructure n K) p (Walk.mean (exchanged (n := n)) K (fun g => if p g then 1 else 0) (simpleOrderedTree n)) := by
  refine prob_loop (Q := Pair n × Bool) (X := SInv n) (body := singlyStep n) (next := exchanged) hM (fun q g hg => exchanged_sinv q hg) ?_ p K
    (g := simpleOrderedTree n) (tree_sinv (by omega))
  intro g hg f p r hr
  have := prob_pair hM hn hd (f := fun q => Rnd.bind (if Do.hasEdge g q.1 q.2 || Do.hasEdge g q.2 q.1 then Rnd.pure g else
      Rnd.bind Rnd.draw (fun d => match findPredecessor q.1 q.2 g with
        | Option.none => Rnd.pure g
        | some k => Rnd.lift (rewire q.1 q.2 k (decide (d % 2 = 0)) g))) f)
    (p := p) (r := fun q => (r (q, true) + r (q, false)) / 2) (fun q => by
      obtain ⟨⟨a, b⟩, hab⟩ := q
      have ha : ((a : Nat) : Int) ∈ g.nodes := by rw [hg.nodes, mem_range]; omega
      have hb : ((b : Nat) : Int) ∈ g.nodes := by rw [hg.nodes, mem_range]; omega
      have hne : ((a : Nat) : Int) ≠ ((b : Nat) : Int) := fun e => hab (Fin.ext (by exact_mod_cast e))
      simp only
      by_cases he : (Do.hasEdge g (a : Nat) (b : Nat) || Do.hasEdge g (b : Nat) (a : Nat)) = true
      · rw [if_pos he]
        have ht : ∀ c, exchanged (⟨(a, b), hab⟩, c) g = g := by
          intro c; unfold exchanged; simp only; rw [if_pos he]
        have h1 := hr (⟨(a, b), hab⟩, true)
        have h3 := hr (⟨(a, b), hab⟩, false)
        rw [ht] at h1 h3
        rw [TendsTo.unique h3 h1]
        rw [show (r (⟨(a, b), hab⟩, true) + r (⟨(a, b), hab⟩, true)) / 2 = r (⟨(a, b), hab⟩, true) by ring]
        exact h1
      · rw [if_neg he, rnd_assoc]
        refine prob_coin hM h2 (F := fun c => f (exchanged (⟨(a, b), hab⟩, c) g)) (r := fun c => r (⟨(a, b), hab⟩, c)) ?_ (fun c => hr _)
        intro d
        unfold exchanged
        simp only
        rw [if_neg he]
        cases hf : findPredecessor (a : Nat) (b : Nat) g with
        | none => rfl
        | some k =>
          have he' := he
          rw [Bool.or_eq_true, not_or, hasEdge_iff, hasEdge_iff] at he'
          have hk : g.E k (b : Nat) := (mem_predecessors g k _).1 (List.mem_of_find?_eq_some hf)
          obtain ⟨g', hg1, _⟩ := rewire_ok hg (decide (d % 2 = 0)) ha hb hne he'.1 he'.2 hk
          simp only [hg1]
          rfl)
  have e1 : (∑ q : Pair n, (r (q, true) + r (q, false)) / 2) / (Fintype.card (Pair n) : ℚ) = (∑ q, r q) / (Fintype.card (Pair n × Bool) : ℚ) := by
    rw [Fintype.sum_prod_type, Fintype.card_prod, Fintype.card_bool, ← Finset.sum_div, div_div]
    push_cast
    congr 1
    · apply Finset.sum_congr rfl
      intro q _
      rw [Fintype.sum_bool]
    · ring
  rw [e1, ← rnd_assoc] at this
  exact this

end Gen
end PyBBN
