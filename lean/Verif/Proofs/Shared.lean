import Verif.Model.Shared
import Verif.Proofs.Orders
import Verif.Props.Evidence

/-! Helper lemmas: `apply` on node objects that an earlier `apply` on the same network has left. -/

namespace PyBBN
open InferenceController

theorem Dict.keys_set_of_mem {V : Type} {d : Dict Int V} {k : Int} (h : k ∈ Dict.keys d) {v : V} :
    Dict.keys (Dict.set d k v) = Dict.keys d := by
  rw [Dict.keys_set, if_pos (by simpa [Dict.has_iff] using h)]

theorem Dict.ext_get {V : Type} : ∀ {d e : Dict Int V}, Dict.keys d = Dict.keys e → (Dict.keys d).Nodup →
    (∀ i, Dict.get? d i = Dict.get? e i) → d = e
  | [], [], _, _, _ => rfl
  | [], _ :: _, h, _, _ => by simp [Dict.keys] at h
  | _ :: _, [], h, _, _ => by simp [Dict.keys] at h
  | (k, v) :: d, (k', v') :: e, h, hn, hg => by
      simp only [Dict.keys, List.map_cons, List.cons.injEq] at h
      obtain ⟨rfl, h⟩ := h
      simp only [Dict.keys, List.map_cons, List.nodup_cons] at hn
      have h0 := hg k
      simp [Dict.get?] at h0
      subst h0
      congr 1
      refine Dict.ext_get h hn.2 ?_
      intro i
      by_cases e1 : k = i
      · subst e1
        rw [(Dict.get?_eq_none_iff d k).2 hn.1, (Dict.get?_eq_none_iff e k).2 (by
          have : k ∉ e.map Prod.fst := by rw [← h]; exact hn.1
          exact this)]
      · have := hg i
        simp only [Dict.get?, e1, if_false] at this
        simpa [Dict.get?, e1] using this

/-- the objects in `H'` are those in `H`, except that some parent cliques are already known -/
structure HSim (cs : List Clique) (par : Int → List Int) (H H' : Dict Int NodeObj) : Prop where
  keys : Dict.keys H = Dict.keys H'
  obj : ∀ i o, Dict.get? H i = some o → o.parents.getD [] = par i ∧ ∃ q, Dict.get? H' i = some { o with parentClique := q } ∧
    (q = o.parentClique ∨ o.parentClique = none ∧ q = minClique cs (par i ++ [i]))

theorem getParentIds_heap {jt : JoinTree} {H : Dict Int NodeObj} {i : Int} {o o' : NodeObj} (h : Dict.get? jt.heap i = some o)
    (h' : Dict.get? H i = some o') (e : o.parents = o'.parents) : JoinTree.getParentIds { jt with heap := H } i = jt.getParentIds i := by
  unfold JoinTree.getParentIds
  have : JoinTree.getBbnNode { jt with heap := H } i = jt.getBbnNode i := rfl
  rw [this, h]
  simp only [h', e]

theorem HSim.set {cs : List Clique} {par : Int → List Int} {H H' : Dict Int NodeObj} (h : HSim cs par H H') {i : Int} {o : NodeObj}
    (ho : Dict.get? H i = some o) {k : Str} (h' : Dict.get? H' i = some { o with parentClique := some k }) :
    HSim cs par (Dict.set H i { o with parentClique := some k }) H' := by
  constructor
  · rw [Dict.keys_set_of_mem (Dict.mem_keys_of_get? ho)]
    exact h.keys
  · intro j p hp
    by_cases e : i = j
    · subst e
      rw [Dict.get?_set_self] at hp
      cases hp
      exact ⟨(h.obj _ _ ho).1, some k, h', Or.inl rfl⟩
    · rw [Dict.get?_set_ne _ _ e] at hp
      exact h.obj j p hp

theorem HSim.set₂ {cs : List Clique} {par : Int → List Int} {H H' : Dict Int NodeObj} (h : HSim cs par H H') {i : Int} {o : NodeObj}
    (ho : Dict.get? H i = some o) {k : Str} (ho' : Dict.get? H' i = some o) :
    HSim cs par (Dict.set H i { o with parentClique := some k }) (Dict.set H' i { o with parentClique := some k }) := by
  constructor
  · rw [Dict.keys_set_of_mem (Dict.mem_keys_of_get? ho), Dict.keys_set_of_mem (Dict.mem_keys_of_get? ho')]
    exact h.keys
  · intro j p hp
    by_cases e : i = j
    · subst e
      rw [Dict.get?_set_self] at hp
      cases hp
      exact ⟨(h.obj _ _ ho).1, some k, by rw [Dict.get?_set_self], Or.inl rfl⟩
    · rw [Dict.get?_set_ne _ _ e] at hp
      rw [Dict.get?_set_ne _ _ e]
      exact h.obj j p hp

theorem HSim.getClique {cs : List Clique} {par : Int → List Int} {jt jt' : JoinTree} {H' : Dict Int NodeObj}
    (h : HSim cs par jt.heap H') (hcs : jt.getCliques = cs) {v : Variable} {k : Str}
    (hg : Initializer.getClique jt v = .ok (k, jt')) :
    ∃ H'', Initializer.getClique { jt with heap := H' } v = .ok (k, { jt' with heap := H'' }) ∧ HSim cs par jt'.heap H'' ∧
      jt'.nodes = jt.nodes ∧ jt'.potentials = jt.potentials := by
  unfold Initializer.getClique at hg
  obtain ⟨o, h1, hg⟩ := bind_ok hg
  have ho : Dict.get? jt.heap v.id = some o := by
    unfold Dict.getItem at h1
    split at h1
    · cases h1; assumption
    · cases h1
  obtain ⟨hpar, q, hq, hcase⟩ := h.obj _ _ ho
  have hgi : Dict.getItem ({ jt with heap := H' } : JoinTree).heap v.id = .ok { o with parentClique := q } := Dict.getItem_of_get? hq
  cases hp : o.parentClique with
  | some c =>
    rw [hp] at hg
    have hk : k = c ∧ jt' = jt := by cases hg; exact ⟨rfl, rfl⟩
    obtain ⟨rfl, rfl⟩ := hk
    have e : q = some k := by
      rcases hcase with e | ⟨e, _⟩
      · rw [e, hp]
      · rw [hp] at e; cases e
    refine ⟨H', ?_, h, rfl, rfl⟩
    unfold Initializer.getClique
    simp only [hgi, bind, Except.bind, e]
  | none =>
    rw [hp] at hg
    simp only at hg
    obtain ⟨cs', h2, hg⟩ := bind_ok hg
    have h2' := h2
    unfold JoinTree.findCliquesWithNodeAndParents at h2
    obtain ⟨ids, h3, h2⟩ := bind_ok h2
    cases h2
    have hids : ids = par v.id := by
      rw [← hpar]
      unfold JoinTree.getParentIds at h3
      rw [ho] at h3
      split at h3
      · cases h3
      · cases h3; rfl
    subst hids
    split at hg
    · cases hg
    · rename_i c hc
      cases hg
      have hmin : minClique cs (par v.id ++ [v.id]) = some c.id := by
        unfold minClique
        rw [← hcs, hc]
        rfl
      have hcase' : q = none ∨ q = some c.id := by
        rcases hcase with e | ⟨_, e⟩
        · left; rw [e, hp]
        · right; rw [e, hmin]
      rcases hcase' with e | e
      · have ho' : Dict.get? H' v.id = some o := by
          rw [hq, e, ← hp]
        refine ⟨Dict.set H' v.id { o with parentClique := some c.id }, ?_, h.set₂ ho ho', rfl, rfl⟩
        have hf : JoinTree.findCliquesWithNodeAndParents { jt with heap := H' } v.id = jt.findCliquesWithNodeAndParents v.id := by
          unfold JoinTree.findCliquesWithNodeAndParents
          rw [getParentIds_heap ho ho' rfl]
          rfl
        unfold Initializer.getClique
        simp only [hgi, bind, Except.bind, e, hf, h2', hc]
      · rw [e] at hq
        refine ⟨H', ?_, h.set ho hq, rfl, rfl⟩
        unfold Initializer.getClique
        simp only [hgi, bind, Except.bind, e]

theorem HSim.assignNode {cs : List Clique} {par : Int → List Int} {jt jt' : JoinTree} {H' : Dict Int NodeObj}
    (h : HSim cs par jt.heap H') (hcs : jt.getCliques = cs) {v : Variable} (hg : Initializer.assignNode jt v = .ok jt') :
    ∃ H'', Initializer.assignNode { jt with heap := H' } v = .ok { jt' with heap := H'' } ∧ HSim cs par jt'.heap H'' ∧
      jt'.nodes = jt.nodes := by
  unfold Initializer.assignNode at hg
  obtain ⟨⟨k, j⟩, h1, hg⟩ := bind_ok hg
  obtain ⟨p, h2, hg⟩ := bind_ok hg
  obtain ⟨o, h3, hg⟩ := bind_ok hg
  obtain ⟨H'', a1, a2, a3, a4⟩ := h.getClique hcs h1
  have ho : Dict.get? j.heap v.id = some o := by
    unfold Dict.getItem at h3
    split at h3
    · cases h3; assumption
    · cases h3
  obtain ⟨_, q, hq, _⟩ := a2.obj _ _ ho
  refine ⟨H'', ?_, ?_, ?_⟩
  · unfold Initializer.assignNode
    split at hg
    · cases hg
    · rename_i p2 hp2
      cases hg
      simp only [a1, bind, Except.bind, h2, Dict.getItem_of_get? hq, hp2]
  · split at hg
    · cases hg
    · cases hg; exact a2
  · split at hg
    · cases hg
    · cases hg; exact a3

theorem HSim.assignNodes {cs : List Clique} {par : Int → List Int} : ∀ (l : List Variable) {jt jt' : JoinTree} {H' : Dict Int NodeObj},
    HSim cs par jt.heap H' → jt.getCliques = cs → l.foldlM Initializer.assignNode jt = .ok jt' →
    ∃ H'', l.foldlM Initializer.assignNode { jt with heap := H' } = .ok { jt' with heap := H'' } ∧ HSim cs par jt'.heap H''
  | [], jt, jt', H', h, _, hg => by
      rw [List.foldlM_nil] at hg
      cases hg
      exact ⟨H', rfl, h⟩
  | v :: l, jt, jt', H', h, hcs, hg => by
      rw [List.foldlM_cons] at hg
      obtain ⟨j, h1, h2⟩ := bind_ok hg
      obtain ⟨H1, a1, a2, a3⟩ := h.assignNode hcs h1
      obtain ⟨H2, b1, b2⟩ := HSim.assignNodes l a2 (by
        rw [← hcs]
        unfold JoinTree.getCliques
        rw [a3]) h2
      refine ⟨H2, ?_, b2⟩
      rw [List.foldlM_cons, a1]
      exact b1

theorem assignNodes_keys {l : List Variable} {jt j : JoinTree} (h1 : l.foldlM Initializer.assignNode jt = .ok j) :
    Dict.keys j.heap = Dict.keys jt.heap :=
  foldlM_inv (fun a : JoinTree => Dict.keys a.heap = Dict.keys jt.heap) h1 rfl (fun v _ a b ha hb => by
      rw [← ha]
      unfold Initializer.assignNode at hb
      obtain ⟨⟨k, j⟩, h1, hb⟩ := bind_ok hb
      obtain ⟨p, h2, hb⟩ := bind_ok hb
      obtain ⟨o, h3, hb⟩ := bind_ok hb
      have : Dict.keys j.heap = Dict.keys a.heap := by
        unfold Initializer.getClique at h1
        obtain ⟨o, h4, h1⟩ := bind_ok h1
        split at h1
        · cases h1; rfl
        · obtain ⟨cs, _, h1⟩ := bind_ok h1
          split at h1
          · cases h1
          · cases h1
            refine Dict.keys_set_of_mem ?_
            unfold Dict.getItem at h4
            split at h4
            · rename_i hx; exact Dict.mem_keys_of_get? hx
            · cases h4
      split at hb
      · cases hb
      · cases hb; exact this)

theorem initializeJt_keys {jt jt' : JoinTree} (hg : Initializer.initializeJt jt = .ok jt') : Dict.keys jt'.heap = Dict.keys jt.heap := by
  unfold Initializer.initializeJt at hg
  obtain ⟨j, h1, h2⟩ := bind_ok hg
  have e2 : jt'.heap = j.heap := foldlM_inv (fun a : JoinTree => a.heap = j.heap) h2 rfl (fun v _ a b ha hb =>
    foldlM_inv (fun a : JoinTree => a.heap = j.heap) hb ha (fun x _ a b ha hb => (applyEvidence_heap hb).trans ha))
  rw [e2]
  exact (assignNodes_keys h1).trans rfl

/-- initializing the join tree with node objects some of which know their parent clique gives the same tree -/
theorem HSim.initializeJt {cs : List Clique} {par : Int → List Int} {jt jt' : JoinTree} {H' : Dict Int NodeObj}
    (h : HSim cs par jt.heap H') (hcs : jt.getCliques = cs) (hg : Initializer.initializeJt jt = .ok jt')
    (hn : (Dict.keys jt.heap).Nodup) (hall : ∀ i o, Dict.get? jt'.heap i = some o → o.parentClique ≠ none) :
    Initializer.initializeJt { jt with heap := H' } = .ok jt' := by
  unfold Initializer.initializeJt at hg ⊢
  obtain ⟨j, h1, h2⟩ := bind_ok hg
  have e2 : jt'.heap = j.heap := foldlM_inv (fun a : JoinTree => a.heap = j.heap) h2 rfl (fun v _ a b ha hb =>
    foldlM_inv (fun a : JoinTree => a.heap = j.heap) hb ha (fun x _ a b ha hb => (applyEvidence_heap hb).trans ha))
  obtain ⟨H'', a1, a2⟩ := HSim.assignNodes (cs := cs) (par := par) _ (jt := { jt with potentials := Initializer.freshTables jt }) h hcs h1
  have hkeys : Dict.keys j.heap = Dict.keys jt.heap := (assignNodes_keys h1).trans rfl
  have hH : H'' = j.heap := by
    symm
    refine Dict.ext_get a2.keys (by rw [hkeys]; exact hn) ?_
    intro i
    cases hi : Dict.get? j.heap i with
    | none =>
      rw [Dict.get?_eq_none_iff, a2.keys] at hi
      exact ((Dict.get?_eq_none_iff _ _).2 hi).symm
    | some o =>
      obtain ⟨_, q, hq, hc⟩ := a2.obj i o hi
      rcases hc with e | ⟨e, _⟩
      · rw [hq, e]
      · exact absurd e (hall i o (by rw [e2]; exact hi))
  have e1 : ({ jt with heap := H', potentials := Initializer.freshTables { jt with heap := H' } } : JoinTree) =
      { ({ jt with potentials := Initializer.freshTables jt } : JoinTree) with heap := H' } := rfl
  have e3 : ({ jt with heap := H', potentials := Initializer.freshTables { jt with heap := H' } } : JoinTree).getBbnNodes =
      ({ jt with potentials := Initializer.freshTables jt } : JoinTree).getBbnNodes := rfl
  simp only [bind, Except.bind] at h1 h2 a1 ⊢
  rw [e3, e1, a1, hH]
  exact h2

/-- node objects left by earlier `apply` calls: each knows its parent clique, or not yet -/
def PcLeft (b : Bbn) (L : Dict Int NodeObj) : Prop :=
  ∀ n ∈ b.toGraph.getNodes, (Dict.get? L n.var.id).bind NodeObj.parentClique = none ∨ ∀ it : SetIter Int,
    (Dict.get? L n.var.id).bind NodeObj.parentClique =
      minClique (Triangulator.triangulate it (moralize b)).1 ((parentNodes b n.var.id).map (fun p => p.var.id) ++ [n.var.id])

/-- on such objects `apply` returns exactly what it returns on fresh ones -/
theorem applyWith_left {it : SetIter Int} {js : SetIter Str} {ops : List BOp} {jt : JoinTree} {L : Dict Int NodeObj}
    (hu : Net.Sane ops) (hj : apply it js (Bbn.run ops) = .ok jt) (hl : PcLeft (Bbn.run ops) L) :
    applyWith it js L (Bbn.run ops) = .ok jt := by
  have h := bbn_run_inv ops
  obtain ⟨T, hlive, _⟩ := live_apply hu hj
  have hj' : applyWith it js [] (Bbn.run ops) = .ok jt := hj
  unfold applyWith at hj'
  obtain ⟨heap1, h1, hj'⟩ := bind_ok hj'
  obtain ⟨heap2, h2, hj'⟩ := bind_ok hj'
  obtain ⟨j1, h3, hj'⟩ := bind_ok hj'
  obtain ⟨j2, h4, hj'⟩ := bind_ok hj'
  have hjt : jt.heap = j2.heap := by rw [← Except.ok.inj hj']
  obtain ⟨heap1', heap2', a1, a2, a3, a4⟩ := heap_spec h hu.wf []
  have e1 : heap1 = heap1' := Except.ok.inj (h1.symm.trans a1)
  subst e1
  have e2 : heap2 = heap2' := Except.ok.inj (h2.symm.trans a2)
  subst e2
  obtain ⟨g1, g2, b1, b2, b3, b4⟩ := heap_spec h hu.wf L
  have hs := (triangulate_spec it h).1
  have hcs : (JoinTree.getCliques { Transformer.transform js (Triangulator.triangulate it (moralize (Bbn.run ops))).1 with
      parentInfo := parentInfoOf (Bbn.run ops), heap := heap2 }) = (Triangulator.triangulate it (moralize (Bbn.run ops))).1 :=
    getCliques_transform js ⟨hs.nodup, hs.anti⟩
  have hsim : HSim (Triangulator.triangulate it (moralize (Bbn.run ops))).1
      (fun i => (parentNodes (Bbn.run ops) i).map (fun p => p.var.id)) heap2 g2 := by
    refine ⟨by rw [a3, b3], ?_⟩
    intro i o hi
    have : i ∈ Dict.keys heap2 := Dict.mem_keys_of_get? hi
    rw [a3] at this
    obtain ⟨n, hn, rfl⟩ := List.mem_map.1 this
    rw [a4 n hn] at hi
    cases hi
    refine ⟨rfl, _, b4 n hn, ?_⟩
    rcases hl n hn with e | e
    · left; rw [e]; rfl
    · right; exact ⟨rfl, e it⟩
  have hheap : j2.heap = j1.heap := propagate_heap h4
  have hn : (Dict.keys heap2).Nodup := by
    rw [a3]
    exact node_ids_nodup h
  have hall : ∀ i o, Dict.get? j1.heap i = some o → o.parentClique ≠ none := by
    intro i o hi
    have hk : Dict.keys j1.heap = Dict.keys heap2 := initializeJt_keys h3
    have : i ∈ Dict.keys j1.heap := Dict.mem_keys_of_get? hi
    rw [hk, a3] at this
    obtain ⟨n, hn, rfl⟩ := List.mem_map.1 this
    obtain ⟨o', f1, _, c, _, f4, _⟩ := hlive.calib.done n.var (List.mem_map_of_mem hn)
    rw [hjt, hheap, hi] at f1
    cases f1
    rw [f4]
    simp
  have h5 := HSim.initializeJt (H' := g2) hsim hcs h3 hn hall
  have h6 := applyWith_eq b1 b2 h5 h4
  rw [h6]
  exact hj'

/-- initialization does not change node objects that know their parent clique -/
theorem initializeJt_known {jt jt' : JoinTree} (hk : ∀ i o, Dict.get? jt.heap i = some o → o.parentClique ≠ none)
    (hg : Initializer.initializeJt jt = .ok jt') : jt'.heap = jt.heap := by
  unfold Initializer.initializeJt at hg
  obtain ⟨j, h1, h2⟩ := bind_ok hg
  have e2 : jt'.heap = j.heap := foldlM_inv (fun a : JoinTree => a.heap = j.heap) h2 rfl (fun v _ a b ha hb =>
    foldlM_inv (fun a : JoinTree => a.heap = j.heap) hb ha (fun x _ a b ha hb => (applyEvidence_heap hb).trans ha))
  rw [e2]
  refine foldlM_inv (fun a : JoinTree => a.heap = jt.heap) h1 rfl (fun v _ a b ha hb => ?_)
  rw [← ha]
  unfold Initializer.assignNode at hb
  obtain ⟨⟨k, j⟩, h1, hb⟩ := bind_ok hb
  obtain ⟨p, h2, hb⟩ := bind_ok hb
  obtain ⟨o, h3, hb⟩ := bind_ok hb
  have : j.heap = a.heap := by
    unfold Initializer.getClique at h1
    obtain ⟨o, h4, h1⟩ := bind_ok h1
    split at h1
    · cases h1; rfl
    · rename_i hn
      have ho : Dict.get? a.heap v.id = some o := by
        unfold Dict.getItem at h4
        split at h4
        · cases h4; assumption
        · cases h4
      rw [ha] at ho
      exact absurd hn (hk _ _ ho)
  split at hb
  · cases hb
  · cases hb; exact this

section
variable {it it' : SetIter Int} {js js' : SetIter Str} {ops : List BOp} {jt jt' : JoinTree}

/-- the node objects after `apply` know their parent cliques … -/
theorem apply_known (hu : Net.Sane ops) (hj : apply it js (Bbn.run ops) = .ok jt) {n : BbnNode}
    (hn : n ∈ (Bbn.run ops).toGraph.getNodes) :
    ∃ o k, Dict.get? jt.heap n.var.id = some o ∧ o.parentClique = some k := by
  obtain ⟨T, hlive, _⟩ := live_apply hu hj
  obtain ⟨o, f1, _, c, _, f4, _⟩ := hlive.calib.done n.var (List.mem_map_of_mem hn)
  exact ⟨o, c.id, f1, f4⟩

/-- … which are those that any later `apply` would choose -/
theorem apply_pcLeft (hu : Net.Sane ops) (hj : apply it js (Bbn.run ops) = .ok jt) : PcLeft (Bbn.run ops) jt.heap := by
  intro n hn
  right
  intro it'
  obtain ⟨o, k, h1, h2⟩ := apply_known hu hj hn
  have := (apply_pc (bbn_run_inv ops) hu.wf hj _ _ h1).2 _ h2
  rw [h1, Option.bind_some, h2, ← this]
  exact minClique_same (triangulate_same it it' (bbn_run_inv ops)) _

/-- the node objects after `apply` do not depend on iteration orders -/
theorem apply_heap_same (hu : Net.Sane ops) (hj : apply it js (Bbn.run ops) = .ok jt) (hj' : apply it' js' (Bbn.run ops) = .ok jt') :
    jt.heap = jt'.heap := by
  have h := bbn_run_inv ops
  obtain ⟨g1, g2, b1, b2, b3, b4⟩ := heap_spec h hu.wf jt'.heap
  have hall : ∀ i o, Dict.get? g2 i = some o → o.parentClique ≠ none := by
    intro i o hi
    have : i ∈ Dict.keys g2 := Dict.mem_keys_of_get? hi
    rw [b3] at this
    obtain ⟨n, hn, rfl⟩ := List.mem_map.1 this
    obtain ⟨o', k, f1, f2⟩ := apply_known hu hj' hn
    rw [b4 n hn] at hi
    cases hi
    show (Dict.get? jt'.heap n.var.id).bind NodeObj.parentClique ≠ none
    rw [f1, Option.bind_some, f2]
    simp
  have key : ∀ {it : SetIter Int} {js : SetIter Str} {jt : JoinTree}, apply it js (Bbn.run ops) = .ok jt → jt.heap = g2 := by
    intro it js jt hj
    have h1 := applyWith_left hu hj (apply_pcLeft hu hj')
    unfold applyWith at h1
    obtain ⟨x1, h2, h1⟩ := bind_ok h1
    obtain ⟨x2, h3, h1⟩ := bind_ok h1
    obtain ⟨j1, h4, h1⟩ := bind_ok h1
    obtain ⟨j2, h5, h1⟩ := bind_ok h1
    have e1 : x1 = g1 := Except.ok.inj (h2.symm.trans b1)
    subst e1
    have e2 : x2 = g2 := Except.ok.inj (h3.symm.trans b2)
    subst e2
    rw [← Except.ok.inj h1]
    show j2.heap = _
    rw [propagate_heap h5]
    exact initializeJt_known hall h4
  rw [key hj, key hj']

theorem aliasInfo_id (ops : List BOp) : aliasInfo (Bbn.run ops) (parentInfoOf (Bbn.run ops)) = parentInfoOf (Bbn.run ops) := by
  unfold aliasInfo
  conv => rhs; rw [← List.map_id (parentInfoOf (Bbn.run ops))]
  refine List.map_congr_left ?_
  intro kp hkp
  unfold parentInfoOf at hkp
  obtain ⟨n, _, e⟩ := List.mem_filterMap.1 hkp
  cases hp : Dict.get? (Bbn.run ops).parents n.var.id with
  | none => rw [hp] at e; cases e
  | some ps =>
    rw [hp] at e
    cases e
    simp [hp]

end

end PyBBN
