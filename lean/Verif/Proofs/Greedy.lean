import Verif.Proofs.SerdeTree
import Mathlib.Data.List.Forall2

/-! The triangulator eliminates greedily, and the join tree does not depend on the iteration order of sets. -/

namespace PyBBN
open Classical in
theorem ElimSeq.greedy {S : List Variable} {R : Int → Int → Prop} {cs : List Clique} (h : ElimSeq S R cs) : (∀ x y, R x y → y ∈ vids S) →
    Elim.Greedy S R (cs.map Clique.fs) := by
  induction h with
  | nil R => intro _; exact Elim.Greedy.nil R
  | @cons S R R' cs v c hv hsub hnd hmem hmin hR ht ih =>
    intro hS
    have hR' : R' = Elim.after R v.id := by
      funext x y; exact propext (hR x y)
    subst hR'
    have hfs : c.fs = insert v.id ((Elim.nbrs S R v).map Variable.id).toFinset := by
      ext i
      rw [c.mem_fs, hmem, Finset.mem_insert, List.mem_toFinset]
      refine or_congr Iff.rfl ?_
      unfold Elim.nbrs
      simp only [List.mem_map, List.mem_filter, decide_eq_true_eq]
      constructor
      · intro hr
        obtain ⟨u, hu, rfl⟩ := List.mem_map.1 (hS _ _ hr)
        exact ⟨u, ⟨hu, hr⟩, rfl⟩
      · rintro ⟨u, ⟨_, hr⟩, rfl⟩
        exact hr
    rw [List.map_cons, hfs]
    refine Elim.Greedy.cons v hv hmin (ih ?_)
    intro x y hxy
    have hy : y ∈ vids S := by
      rcases hxy.2.2.2 with h | h
      · exact hS _ _ h
      · exact hS _ _ h.2
    obtain ⟨u, hu, rfl⟩ := List.mem_map.1 hy
    exact List.mem_map_of_mem (List.mem_filter.2 ⟨hu, by simpa using hxy.2.1⟩)

theorem Elim.Cheaper.asymm {S : List Variable} {R : Int → Int → Prop} {u v : Variable} (h1 : Cheaper S R u v) (h2 : Cheaper S R v u) : False := by
  unfold Cheaper at h1 h2
  omega

/-- greedy elimination leaves no choice -/
theorem Elim.Greedy.unique {S : List Variable} {R : Int → Int → Prop} {cs ds : List (Finset Int)} (hn : (vids S).Nodup) (h1 : Greedy S R cs)
    (h2 : Greedy S R ds) : cs = ds := by
  induction h1 generalizing ds with
  | nil R =>
    cases h2 with
    | nil => rfl
    | cons v hv => simp at hv
  | @cons S R cs v hv hmin ht ih =>
    cases h2 with
    | nil => simp at hv
    | @cons _ _ ds w hw hmin' ht' =>
      have hvw : v = w := by
        by_contra hne
        have hid : v.id ≠ w.id := fun e => hne (List.inj_on_of_nodup_map hn hv hw e)
        exact (hmin w hw (fun e => hid e.symm)).asymm (hmin' v hv hid)
      subst hvw
      rw [ih (List.Nodup.sublist (List.filter_sublist.map _) hn) ht']

theorem keep_fs (kept : List Clique) (c : Clique) : (record kept c).map Clique.fs = Elim.keep (kept.map Clique.fs) c.fs := by
  unfold record Elim.keep
  by_cases h : ∃ d ∈ kept, c.fs ⊆ d.fs
  · rw [if_pos ((isSubset_iff _ _).2 h), if_pos]
    obtain ⟨d, hd, hs⟩ := h
    exact ⟨d.fs, List.mem_map_of_mem hd, hs⟩
  · rw [if_neg (fun k => h ((isSubset_iff _ _).1 k)), if_neg, List.map_append]
    · rfl
    · rintro ⟨s, hs, hc⟩
      obtain ⟨d, hd, rfl⟩ := List.mem_map.1 hs
      exact h ⟨d, hd, hc⟩

theorem keeps_fs : ∀ (cs kept : List Clique), (cs.foldl record kept).map Clique.fs = (cs.map Clique.fs).foldl Elim.keep (kept.map Clique.fs)
  | [], _ => rfl
  | c :: cs, kept => by rw [List.foldl_cons, keeps_fs cs, keep_fs]; rfl

theorem triangulate_greedy (it : SetIter Int) {b : Bbn} (h : BbnInv b) :
    ∃ cs, Elim.Greedy b.vars (MoralAdj b) cs ∧ (Triangulator.triangulate it (moralize b)).1.map Clique.fs = cs.foldl Elim.keep [] := by
  obtain ⟨m1, m2, m3, m4⟩ := moralize_spec h
  obtain ⟨d1, d2, d3⟩ := duplicate_spec m1 m2 (vars_nodup h) m3
  have hlen : b.vars.length = (Triangulator.duplicate (moralize b)).nodes.length := by
    rw [d2]; simp [nodeDict]
  obtain ⟨cs, k1, k2, _⟩ := loop_spec it _ [] (moralize b) (Triangulator.duplicate (moralize b)) b.vars
    m1 d1 d2 (vars_nodup h) hlen (fun x y hxy => (d3 x y).1 hxy) (by rw [m3, nodeDict_keys]; exact fun i hi => hi)
  have hrel : emRel (Triangulator.duplicate (moralize b)) = MoralAdj b := by
    funext x y; exact propext ((d3 x y).trans (m4 x y))
  rw [hrel] at k1
  refine ⟨cs.map Clique.fs, k1.greedy ?_, ?_⟩
  · intro x y hxy
    exact (moralAdj_relOn h).mem y x ((moralAdj_relOn h).sym _ _ hxy)
  · have htri : Triangulator.triangulate it (moralize b) =
        Triangulator.loop it (Triangulator.duplicate (moralize b)).nodes.length [] (moralize b) (Triangulator.duplicate (moralize b)) := rfl
    rw [htri, k2, keeps_fs]
    rfl

/-! ### two runs -/

/-- the same clique, up to the order of its nodes -/
def Clique.Same (c d : Clique) : Prop := c.nodes.Perm d.nodes

/-- the cliques are determined by the variables and the moral graph -/
theorem triangulate_same_net (it it' : SetIter Int) {b b' : Bbn} (h : BbnInv b) (h' : BbnInv b') (hv : b'.vars = b.vars)
    (hm : MoralAdj b' = MoralAdj b) :
    List.Forall₂ Clique.Same (Triangulator.triangulate it (moralize b)).1 (Triangulator.triangulate it' (moralize b')).1 := by
  obtain ⟨cs, h1, h2⟩ := triangulate_greedy it h
  obtain ⟨ds, h3, h4⟩ := triangulate_greedy it' h'
  rw [hv, hm] at h3
  have he := h1.unique (vars_nodup h) h3
  rw [← he, ← h2] at h4
  have hs := (triangulate_spec it h).1
  have hs' := (triangulate_spec it' h').1
  have key : ∀ (l l' : List Clique), l'.map Clique.fs = l.map Clique.fs → (∀ c ∈ l, c.nodeIds.Nodup ∧ ∀ u ∈ c.nodes, u ∈ b.vars) →
      (∀ c ∈ l', c.nodeIds.Nodup ∧ ∀ u ∈ c.nodes, u ∈ b.vars) → List.Forall₂ Clique.Same l l' := by
    intro l
    induction l with
    | nil =>
      intro l' e _ _
      simp at e
      subst e
      exact List.Forall₂.nil
    | cons c l ih =>
      intro l' e g g'
      cases l' with
      | nil => simp at e
      | cons d l' =>
        rw [List.map_cons, List.map_cons, List.cons.injEq] at e
        refine List.Forall₂.cons ?_ (ih l' e.2 (fun c hc => g c (List.mem_cons_of_mem _ hc)) (fun c hc => g' c (List.mem_cons_of_mem _ hc)))
        obtain ⟨gc1, gc2⟩ := g c List.mem_cons_self
        obtain ⟨gd1, gd2⟩ := g' d List.mem_cons_self
        unfold Clique.Same
        rw [List.perm_ext_iff_of_nodup (List.Nodup.of_map _ gc1) (List.Nodup.of_map _ gd1)]
        intro u
        have hi : ∀ i, i ∈ c.nodeIds ↔ i ∈ d.nodeIds := by
          intro i; rw [← c.mem_fs, ← d.mem_fs, e.1]
        constructor
        · intro hu
          obtain ⟨w, hw, e⟩ := List.mem_map.1 ((hi u.id).1 (List.mem_map_of_mem hu))
          exact (List.inj_on_of_nodup_map (vars_nodup h) (gd2 w hw) (gc2 u hu) e) ▸ hw
        · intro hu
          obtain ⟨w, hw, e⟩ := List.mem_map.1 ((hi u.id).2 (List.mem_map_of_mem hu))
          exact (List.inj_on_of_nodup_map (vars_nodup h) (gc2 w hw) (gd2 u hu) e) ▸ hw
  exact key _ _ h4 (fun c hc => ⟨hs.nodup c hc, hs.sub c hc⟩) (fun c hc => ⟨hs'.nodup c hc, fun u hu => hv ▸ hs'.sub c hc u hu⟩)

theorem triangulate_same (it it' : SetIter Int) {b : Bbn} (h : BbnInv b) :
    List.Forall₂ Clique.Same (Triangulator.triangulate it (moralize b)).1 (Triangulator.triangulate it' (moralize b)).1 :=
  triangulate_same_net it it' h h rfl rfl

theorem Clique.Same.ids {c d : Clique} (h : c.Same d) : c.nodeIds.Perm d.nodeIds := h.map _

theorem Clique.Same.id_eq {c d : Clique} (h : c.Same d) : c.id = d.id := by
  unfold Clique.id
  rw [sortInts_congr h.ids]

theorem Clique.Same.weight_eq {c d : Clique} (h : c.Same d) : c.weight = d.weight := (h.map _).prod_eq

theorem inter_perm {c c' d d' : Clique} (h : c.Same d) (h' : c'.Same d') :
    (c.nodeIds.filter (fun x => decide (x ∈ c'.nodeIds))).Perm (d.nodeIds.filter (fun x => decide (x ∈ d'.nodeIds))) := by
  have : (fun x => decide (x ∈ c'.nodeIds)) = fun x => decide (x ∈ d'.nodeIds) := by
    funext x; rw [Bool.eq_iff_iff, decide_eq_true_eq, decide_eq_true_eq, h'.ids.mem_iff]
  rw [this]
  exact h.ids.filter _

/-- the same separation set, up to the order of nodes -/
structure SepSet.Same (s t : SepSet) : Prop where
  id : s.id = t.id
  nodes : s.nodes.Perm t.nodes
  left : s.left.Same t.left
  right : s.right.Same t.right

theorem SepSet.same_mk {c c' d d' : Clique} (h : c.Same d) (h' : c'.Same d') (hne : (c.intersects c').2.2 ≠ []) :
    (SepSet.mk' c c').Same (SepSet.mk' d d') := by
  have hi := inter_perm h h'
  have e : c.intersects c' = d.intersects d' := by
    have h0 : c.nodeIds.filter (fun x => decide (x ∈ c'.nodeIds)) ≠ [] := by
      intro e
      apply hne
      unfold Clique.intersects
      simp only [e, if_true]
    have h1 : d.nodeIds.filter (fun x => decide (x ∈ d'.nodeIds)) ≠ [] := by
      intro e
      rw [e] at hi
      exact h0 hi.eq_nil
    unfold Clique.intersects
    simp only
    rw [if_neg h0, if_neg h1, sortInts_congr h.ids, sortInts_congr h'.ids, sortInts_congr hi]
  refine ⟨?_, ?_, h, h'⟩
  · unfold SepSet.mk'
    simp only [e]
  · show (c.nodes.filter _).Perm (d.nodes.filter _)
    rw [e]
    exact h.filter _

theorem SepSet.Same.le {s t s' t' : SepSet} (h : s.Same t) (h' : s'.Same t') : Transformer.sepLe s s' = Transformer.sepLe t t' := by
  unfold Transformer.sepLe SepSet.mass SepSet.cost
  rw [h.nodes.length_eq, h'.nodes.length_eq, h.left.weight_eq, h.right.weight_eq, h'.left.weight_eq, h'.right.weight_eq, h.id, h'.id]

theorem sortBy_forall₂ {α β : Type} {r : α → β → Prop} {le : α → α → Bool} {le' : β → β → Bool}
    (hle : ∀ a b c d, r a b → r c d → le a c = le' b d) {l : List α} {m : List β} (h : List.Forall₂ r l m) :
    List.Forall₂ r (sortBy le l) (sortBy le' m) := by
  have ins : ∀ {a : α} {b : β} {l : List α} {m : List β}, r a b → List.Forall₂ r l m → List.Forall₂ r (insertBy le a l) (insertBy le' b m) := by
    intro a b l m hab h
    induction h with
    | nil => exact List.Forall₂.cons hab List.Forall₂.nil
    | @cons x y l m hxy ht ih =>
      unfold insertBy
      rw [hle _ _ _ _ hab hxy]
      split
      · exact List.Forall₂.cons hab (List.Forall₂.cons hxy ht)
      · exact List.Forall₂.cons hxy ih
  induction h with
  | nil => exact List.Forall₂.nil
  | cons hab _ ih => exact ins hab ih

theorem pairs_forall₂ {α β : Type} {r : α → β → Prop} {l : List α} {m : List β} (h : List.Forall₂ r l m) :
    List.Forall₂ (fun p q => r p.1 q.1 ∧ r p.2 q.2) (pairs l) (pairs m) := by
  induction h with
  | nil => exact List.Forall₂.nil
  | @cons a b l m hab ht ih =>
    refine List.rel_append ?_ ih
    clear ih
    induction ht with
    | nil => exact List.Forall₂.nil
    | cons hxy _ ih => exact List.Forall₂.cons ⟨hab, hxy⟩ ih

theorem getSepSets_same {cs ds : List Clique} (h : List.Forall₂ Clique.Same cs ds) :
    List.Forall₂ SepSet.Same (Transformer.getSepSets cs) (Transformer.getSepSets ds) := by
  unfold Transformer.getSepSets
  refine sortBy_forall₂ (fun a b c d h1 h2 => h1.le h2) ?_
  have hp := pairs_forall₂ h
  generalize pairs cs = p at hp
  generalize pairs ds = q at hp
  induction hp with
  | nil => exact List.Forall₂.nil
  | @cons x y l m hxy _ ih =>
    have hin : (x.1.intersects x.2).2.2 = [] ↔ (y.1.intersects y.2).2.2 = [] := by
      have h1 : ∀ c d : Clique, (c.intersects d).2.2 = [] ↔ ∀ i, ¬ (i ∈ c.nodeIds ∧ i ∈ d.nodeIds) := by
        intro c d
        rw [List.eq_nil_iff_forall_not_mem]
        simp only [intersects_mem]
      rw [h1, h1]
      simp only [hxy.1.ids.mem_iff, hxy.2.ids.mem_iff]
    by_cases hx : (x.1.intersects x.2).2.2 = []
    · rw [List.filter_cons_of_neg (by simpa using hx), List.filter_cons_of_neg (by simpa using hin.1 hx)]
      exact ih
    · rw [List.filter_cons_of_pos (by simpa using hx), List.filter_cons_of_pos (by simpa using fun e => hx (hin.2 e))]
      exact List.Forall₂.cons (SepSet.same_mk hxy.1 hxy.2 hx) ih

/-- the same join tree node, up to the order of nodes -/
inductive JNode.Same : JNode → JNode → Prop
  | clique {c d : Clique} (h : c.Same d) : JNode.Same (.clique c) (.clique d)
  | sepset {s t : SepSet} (h : s.Same t) : JNode.Same (.sepset s) (.sepset t)

/-- the same join tree, up to the order of nodes in cliques and separation sets -/
structure JoinTree.Same (jt jt' : JoinTree) : Prop where
  nodes : List.Forall₂ (fun a b => a.1 = b.1 ∧ JNode.Same a.2 b.2) jt.nodes jt'.nodes
  edges : List.Forall₂ (fun a b => a.1 = b.1 ∧ SepSet.Same a.2 b.2) jt.edges jt'.edges
  neighbors : jt.neighbors = jt'.neighbors

theorem keys_of_forall₂ {K V W : Type} {r : V → W → Prop} {d : Dict K V} {e : Dict K W}
    (h : List.Forall₂ (fun a b => a.1 = b.1 ∧ r a.2 b.2) d e) : Dict.keys d = Dict.keys e := by
  unfold Dict.keys
  induction h with
  | nil => rfl
  | cons hab _ ih => rw [List.map_cons, List.map_cons, ih, hab.1]

theorem setDefault_forall₂ {K V W : Type} [DecidableEq K] {r : V → W → Prop} {d : Dict K V} {e : Dict K W}
    (h : List.Forall₂ (fun a b => a.1 = b.1 ∧ r a.2 b.2) d e) {k : K} {v : V} {w : W} (hr : r v w) :
    List.Forall₂ (fun a b => a.1 = b.1 ∧ r a.2 b.2) (Dict.setDefault d k v) (Dict.setDefault e k w) := by
  by_cases hk : k ∈ Dict.keys d
  · rw [Dict.setDefault_of_mem hk, Dict.setDefault_of_mem (keys_of_forall₂ h ▸ hk)]; exact h
  · rw [Dict.setDefault_of_not_mem hk, Dict.setDefault_of_not_mem (keys_of_forall₂ h ▸ hk)]
    exact List.rel_append h (List.Forall₂.cons ⟨rfl, hr⟩ List.Forall₂.nil)

theorem set_forall₂ {K V W : Type} [DecidableEq K] {r : V → W → Prop} {d : Dict K V} {e : Dict K W}
    (h : List.Forall₂ (fun a b => a.1 = b.1 ∧ r a.2 b.2) d e) {k : K} {v : V} {w : W} (hr : r v w) :
    List.Forall₂ (fun a b => a.1 = b.1 ∧ r a.2 b.2) (Dict.set d k v) (Dict.set e k w) := by
  induction h with
  | nil => exact List.Forall₂.cons ⟨rfl, hr⟩ List.Forall₂.nil
  | @cons x y l m hxy ht ih =>
    obtain ⟨x1, x2⟩ := x
    obtain ⟨y1, y2⟩ := y
    simp only at hxy
    obtain ⟨rfl, hxy⟩ := hxy
    by_cases hk : x1 = k
    · simp only [Dict.set, hk, if_true]
      exact List.Forall₂.cons ⟨rfl, hr⟩ ht
    · simp only [Dict.set, hk, if_false]
      exact List.Forall₂.cons ⟨rfl, hxy⟩ ih

/-- neighbors are nodes -/
def JoinTree.Closed (jt : JoinTree) : Prop := ∀ x y, y ∈ ddGet jt.neighbors x → y ∈ Dict.keys jt.nodes

theorem JoinTree.Closed.path {jt : JoinTree} (h : jt.Closed) (js : SetIter Str) (a c : Str) :
    pathExists (JoinTree.nbrs js jt.edges.length jt) (jt.nodes.length + 1) a c = true ↔
      Relation.ReflTransGen (fun u v => v ∈ ddGet jt.neighbors u) a c := by
  have := pathExists_iff' (JoinTree.nbrs js jt.edges.length jt) c (a :: Dict.keys jt.nodes) (by
    intro u _ v hv
    unfold JoinTree.nbrs at hv
    rw [js.mem] at hv
    exact List.mem_cons_of_mem _ (h _ _ hv)) (jt.nodes.length + 1) a List.mem_cons_self (by simp [Dict.keys])
  rw [this]
  unfold JoinTree.nbrs
  simp only [js.mem]

theorem mem_keys_setDefault' {K V : Type} [DecidableEq K] {d : Dict K V} {k k' : K} {v : V} :
    k' ∈ Dict.keys (Dict.setDefault d k v) ↔ k' = k ∨ k' ∈ Dict.keys d := by
  by_cases hk : k ∈ Dict.keys d
  · rw [Dict.setDefault_of_mem hk]
    constructor
    · exact Or.inr
    · rintro (rfl | h)
      · exact hk
      · exact h
  · rw [Dict.setDefault_of_not_mem hk]
    simp [Dict.keys, or_comm]

theorem JoinTree.Closed.addEdge {jt : JoinTree} (h : jt.Closed) (js : SetIter Str) (s : SepSet) : (jt.addEdge js s).Closed := by
  unfold JoinTree.addEdge
  split
  · intro x y hy
    rw [mem_ddGet_ddAdd, mem_ddGet_ddAdd, mem_ddGet_ddAdd, mem_ddGet_ddAdd] at hy
    simp only [mem_keys_setDefault']
    have : y = s.right.id ∨ y = s.left.id ∨ y = s.id ∨ y ∈ ddGet jt.neighbors x := by tauto
    rcases this with h' | h' | h' | h'
    · exact Or.inl h'
    · exact Or.inr (Or.inl h')
    · exact Or.inr (Or.inr (Or.inl h'))
    · exact Or.inr (Or.inr (Or.inr (h x y h')))
  · exact h

theorem JoinTree.Same.addEdge {jt jt' : JoinTree} (h : jt.Same jt') (hc : jt.Closed) (js js' : SetIter Str) {s t : SepSet} (hst : s.Same t) :
    (jt.addEdge js s).Same (jt'.addEdge js' t) := by
  have hc' : jt'.Closed := by
    intro x y hy
    rw [← h.neighbors] at hy
    rw [← keys_of_forall₂ h.nodes]
    exact hc x y hy
  have hsh : JoinTree.shouldAdd js jt s = JoinTree.shouldAdd js' jt' t := by
    unfold JoinTree.shouldAdd
    rw [hst.left.id_eq, hst.right.id_eq]
    split
    · rfl
    · congr 1
      rw [Bool.eq_iff_iff, hc.path, hc'.path, h.neighbors]
  unfold JoinTree.addEdge
  rw [hsh]
  split
  · refine ⟨?_, ?_, ?_⟩
    · simp only [hst.id, hst.left.id_eq, hst.right.id_eq]
      exact setDefault_forall₂ (setDefault_forall₂ (setDefault_forall₂ h.nodes (.sepset hst)) (.clique hst.left)) (.clique hst.right)
    · have : JoinTree.edgeKey s = JoinTree.edgeKey t := by
        unfold JoinTree.edgeKey
        rw [hst.left.id_eq, hst.right.id_eq]
      simp only [this]
      exact set_forall₂ h.edges hst
    · simp only [hst.id, hst.left.id_eq, hst.right.id_eq, h.neighbors]
  · exact h

theorem transform_same {cs ds : List Clique} (h : List.Forall₂ Clique.Same cs ds) (js js' : SetIter Str) :
    (Transformer.transform js cs).Same (Transformer.transform js' ds) := by
  have h0 : ∀ {cs ds : List Clique} (_ : List.Forall₂ Clique.Same cs ds) (jt jt' : JoinTree), jt.Same jt' → jt.Closed →
      (cs.foldl Transformer.addClique jt).Same (ds.foldl Transformer.addClique jt') ∧ (cs.foldl Transformer.addClique jt).Closed := by
    intro cs ds h
    induction h with
    | nil => intro jt jt' hs hc; exact ⟨hs, hc⟩
    | @cons c d cs ds hcd _ ih =>
      intro jt jt' hs hc
      refine ih _ _ ⟨?_, hs.edges, hs.neighbors⟩ ?_
      · unfold Transformer.addClique
        simp only [hcd.id_eq]
        exact setDefault_forall₂ hs.nodes (.clique hcd)
      · intro x y hy
        exact mem_keys_setDefault'.2 (Or.inr (hc x y hy))
  have h1 : ∀ {ss ts : List SepSet} (_ : List.Forall₂ SepSet.Same ss ts) (jt jt' : JoinTree), jt.Same jt' → jt.Closed →
      (ss.foldl (fun jt s => jt.addEdge js s) jt).Same (ts.foldl (fun jt s => jt.addEdge js' s) jt') := by
    intro ss ts h
    induction h with
    | nil => intro jt jt' hs _; exact hs
    | @cons s t ss ts hst _ ih =>
      intro jt jt' hs hc
      exact ih _ _ (hs.addEdge hc js js' hst) (hc.addEdge js s)
  obtain ⟨k1, k2⟩ := h0 h {} {} ⟨List.Forall₂.nil, List.Forall₂.nil, rfl⟩ (by intro x y hy; simp [ddGet, Dict.get?] at hy)
  exact h1 (getSepSets_same h) _ _ k1 k2

/-! ### which separation sets are kept -/

theorem getCliques_setDefault_sep (jt : JoinTree) (k : Str) (s : SepSet) :
    ({ jt with nodes := Dict.setDefault jt.nodes k (.sepset s) } : JoinTree).getCliques = jt.getCliques := by
  by_cases hk : k ∈ Dict.keys jt.nodes
  · rw [Dict.setDefault_of_mem hk]
  · rw [Dict.setDefault_of_not_mem hk]
    simp [JoinTree.getCliques, List.filterMap_append]

theorem getCliques_addEdge (js : SetIter Str) {jt : JoinTree} {s : SepSet} (h1 : s.left.id ∈ Dict.keys jt.nodes)
    (h2 : s.right.id ∈ Dict.keys jt.nodes) :
    (jt.addEdge js s).getCliques = jt.getCliques ∧ ∀ k ∈ Dict.keys jt.nodes, k ∈ Dict.keys (jt.addEdge js s).nodes := by
  unfold JoinTree.addEdge
  split
  · have h3 : s.left.id ∈ Dict.keys (Dict.setDefault jt.nodes s.id (.sepset s)) := mem_keys_setDefault'.2 (Or.inr h1)
    have h4 : s.right.id ∈ Dict.keys (Dict.setDefault jt.nodes s.id (.sepset s)) := mem_keys_setDefault'.2 (Or.inr h2)
    simp only [Dict.setDefault_of_mem h3, Dict.setDefault_of_mem h4]
    exact ⟨getCliques_setDefault_sep jt s.id s, fun k hk => mem_keys_setDefault'.2 (Or.inr hk)⟩
  · exact ⟨rfl, fun _ h => h⟩

theorem getCliques_addClique {jt : JoinTree} {c : Clique} (h : c.id ∉ Dict.keys jt.nodes) :
    (Transformer.addClique jt c).getCliques = jt.getCliques ++ [c] := by
  unfold Transformer.addClique JoinTree.getCliques
  rw [Dict.setDefault_of_not_mem h]
  simp [List.filterMap_append]

/-- the cliques of the join tree are those of the triangulation, in the same order -/
theorem getCliques_transform (js : SetIter Str) {cs : List Clique} (hf : CFam cs) : (Transformer.transform js cs).getCliques = cs := by
  have h0 : ∀ (l : List Clique) (jt : JoinTree), (l.map Clique.id).Nodup → (∀ c ∈ l, c.id ∉ Dict.keys jt.nodes) →
      (l.foldl Transformer.addClique jt).getCliques = jt.getCliques ++ l ∧ ∀ k, k ∈ Dict.keys (l.foldl Transformer.addClique jt).nodes ↔
        k ∈ Dict.keys jt.nodes ∨ k ∈ l.map Clique.id := by
    intro l
    induction l with
    | nil => intro jt _ _; simp
    | cons c l ih =>
      intro jt hn hk
      rw [List.map_cons, List.nodup_cons] at hn
      have hkk : ∀ k, k ∈ Dict.keys (Transformer.addClique jt c).nodes ↔ k = c.id ∨ k ∈ Dict.keys jt.nodes := fun k => mem_keys_setDefault'
      obtain ⟨h1, h2⟩ := ih (Transformer.addClique jt c) hn.2 (by
        intro d hd hc
        rcases (hkk _).1 hc with e | e
        · exact hn.1 (e ▸ List.mem_map_of_mem hd)
        · exact hk d (List.mem_cons_of_mem _ hd) e)
      rw [List.foldl_cons, h1, getCliques_addClique (hk c List.mem_cons_self)]
      refine ⟨by simp, fun k => ?_⟩
      rw [h2, hkk, List.map_cons, List.mem_cons]
      tauto
  have h1 : ∀ (l : List SepSet) (jt : JoinTree), (∀ s ∈ l, s.left.id ∈ Dict.keys jt.nodes ∧ s.right.id ∈ Dict.keys jt.nodes) →
      (l.foldl (fun jt s => jt.addEdge js s) jt).getCliques = jt.getCliques := by
    intro l
    induction l with
    | nil => intro jt _; rfl
    | cons s l ih =>
      intro jt h
      obtain ⟨k1, k2⟩ := getCliques_addEdge js (h s List.mem_cons_self).1 (h s List.mem_cons_self).2
      rw [List.foldl_cons, ih, k1]
      intro t ht
      have := h t (List.mem_cons_of_mem _ ht)
      exact ⟨k2 _ this.1, k2 _ this.2⟩
  have hids : (cs.map Clique.id).Nodup := by
    rw [List.nodup_map_iff_inj_on hf.nodup_list]
    exact fun c hc d hd e => (hf.id_iff hc hd).1 e
  obtain ⟨k1, k2⟩ := h0 cs {} hids (by simp [Dict.keys])
  unfold Transformer.transform
  simp only
  rw [h1, k1]
  · rfl
  · intro s hs
    obtain ⟨hgood, _⟩ := getSepSets_good hf
    have := hgood s hs
    exact ⟨(k2 _).2 (Or.inr (List.mem_map_of_mem this.left)), (k2 _).2 (Or.inr (List.mem_map_of_mem this.right))⟩

theorem transform_order (js : SetIter Str) {b : Bbn} {cs : List Clique} (hs : CliqueSpec b cs) :
    ∃ T, JTree cs (fun c => c ∈ cs) T (Transformer.transform js cs) ∧ ∀ s ∈ Transformer.getSepSets cs,
      Conn sl sr (T.filter (fun t => Transformer.sepLe t s)) s.left.fs s.right.fs := by
  have hf : CFam cs := ⟨hs.nodup, hs.anti⟩
  obtain ⟨hgood, hall⟩ := getSepSets_good hf
  have h0 := (addCliques_spec hf cs {} _ (empty_jtree cs) (fun c hc => hc)).congr (pres' := fun c => c ∈ cs) (by simp)
  obtain ⟨T, h1, h2⟩ := addEdges_spec js hf (Transformer.getSepSets cs) _ [] h0 hgood
    (fun s hs => ⟨(hgood s hs).left, (hgood s hs).right⟩)
  refine ⟨T, h1, ?_⟩
  refine h2.before (le := Transformer.sepLe) (fun a => ?_) (sortBy_sorted _ sepLe_total sepLe_trans _) (by simp)
  exact (sepLe_total a a).elim id id

end PyBBN
