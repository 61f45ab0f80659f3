import Verif.Proofs.RoundPass

/-! # Bounds on rounding counts: initialisation -/

namespace PyBBN
open Propagator

section
variable {A : Arith} {κ w : ℚ} {R : ℕ} {Good : ℚ → Prop} {vars : List Variable} {cs : List Clique} {T : List SepSet}

/-- the tables at the node objects are bounded, and nodes are assigned to cliques of the tree -/
structure HeapB (w : ℚ) (jt : JoinTree) : Prop where
  pot : ∀ i o p, Dict.get? jt.heap i = some o → o.potential = some p → Uniq p ∧ ∀ e ∈ p, e.value ≤ w
  clique : ∀ i o c, Dict.get? jt.heap i = some o → o.parentClique = some c → c ∈ jt.getCliques.map Clique.id

/-- bounds that sum up to at most `S` over the cliques, zero for the separation sets -/
def InitB (R : ℕ) (S : ℚ) (jt : JoinTree) : Prop :=
  ∃ β : Str → ℚ, (∀ k, 0 ≤ β k) ∧ (∀ k, k ∉ jt.getCliques.map Clique.id → β k = 0) ∧ ((jt.getCliques.map Clique.id).map β).sum ≤ S ∧ Bd R β jt

/-- same nodes, neighbors and listener -/
structure SameN (a b : JoinTree) : Prop where
  nodes : a.nodes = b.nodes
  neighbors : a.neighbors = b.neighbors

theorem SameN.refl (a : JoinTree) : SameN a a := ⟨rfl, rfl⟩
theorem SameN.trans {a b c : JoinTree} (h : SameN a b) (h' : SameN b c) : SameN a c := ⟨h.nodes.trans h'.nodes, h.neighbors.trans h'.neighbors⟩
theorem SameN.cliques {a b : JoinTree} (h : SameN a b) : a.getCliques = b.getCliques := by unfold JoinTree.getCliques; rw [h.nodes]

/-- one more factor multiplied into the table of a clique -/
theorem InitB.step {S : ℚ} {jt jt' : JoinTree} (hn : (jt.getCliques.map Clique.id).Nodup) (h : InitB R S jt) (hs : SameN jt' jt) (hw : 0 ≤ w) {cid : Str}
    (hc : cid ∈ jt.getCliques.map Clique.id)
    (hpot : ∀ k p', Dict.get? jt'.potentials k = some p' → (k ≠ cid ∧ Dict.get? jt.potentials k = some p') ∨
      (k = cid ∧ ∃ p, Dict.get? jt.potentials cid = some p ∧ p'.length = p.length ∧
        ∀ B, (∀ e ∈ p, e.value ≤ B) → ∀ e ∈ p', e.value ≤ B + (w + 1))) : InitB R (S + (w + 1)) jt' := by
  obtain ⟨β, h1, h2, h3, h4⟩ := h
  refine ⟨Function.update β cid (β cid + (w + 1)), ?_, ?_, ?_, ?_⟩
  · intro k
    by_cases hk : k = cid
    · rw [hk, Function.update_self]
      linarith [h1 cid]
    · rw [Function.update_of_ne hk]
      exact h1 k
  · intro k hk
    rw [hs.cliques] at hk
    rw [Function.update_of_ne (fun e : k = cid => hk (e ▸ hc))]
    exact h2 k hk
  · rw [hs.cliques, sum_update hn hc]
    linarith
  · intro k hk p' hp'
    rw [hs.nodes] at hk
    rcases hpot k p' hp' with ⟨e, hp⟩ | ⟨e, p, hp, hl, hv⟩
    · rw [Function.update_of_ne e]
      exact h4 k hk p' hp
    · subst e
      obtain ⟨b1, b2⟩ := h4 k hk p hp
      rw [Function.update_self]
      exact ⟨hl.trans_le b1, hv _ b2⟩

theorem Cost.assignNode (h : Cost A κ) (hw : 0 ≤ w) {S : ℚ} {jt jt' : JoinTree} {v : Variable} (hn : (jt.getCliques.map Clique.id).Nodup)
    (hh : HeapB w jt) (hb : InitB R S jt) (hp : A.assignNode jt v = .ok jt') :
    SameN jt' jt ∧ HeapB w jt' ∧ InitB R (S + (w + 1)) jt' := by
  unfold Arith.assignNode at hp
  obtain ⟨⟨cid, j⟩, h1, hp⟩ := bind_ok hp
  obtain ⟨p1, h2, hp⟩ := bind_ok hp
  obtain ⟨o, h3, hp⟩ := bind_ok hp
  have hj : cid ∈ jt.getCliques.map Clique.id ∧ SameN j jt ∧ j.potentials = jt.potentials ∧ HeapB w j := by
    unfold Initializer.getClique at h1
    obtain ⟨o', g1, h1⟩ := bind_ok h1
    rw [Dict.getItem_ok_iff] at g1
    cases hc : o'.parentClique with
    | some c =>
      rw [hc] at h1
      have e := Except.ok.inj h1
      obtain ⟨e1, e2⟩ := Prod.mk.inj e
      subst e1 e2
      exact ⟨hh.clique _ _ _ g1 hc, SameN.refl _, rfl, hh⟩
    | none =>
      rw [hc] at h1
      obtain ⟨cs', g2, h1⟩ := bind_ok h1
      cases hs : (sortBy (fun a b => strLe (Clique.id a) (Clique.id b)) cs').head? with
      | none => rw [hs] at h1; cases h1
      | some c =>
        rw [hs] at h1
        have e := Except.ok.inj h1
        obtain ⟨e1, e2⟩ := Prod.mk.inj e
        subst e1 e2
        have hcm : c.id ∈ jt.getCliques.map Clique.id := by
          have := List.mem_of_mem_head? hs
          rw [mem_sortBy] at this
          unfold JoinTree.findCliquesWithNodeAndParents at g2
          obtain ⟨ids, _, g2⟩ := bind_ok g2
          cases g2
          exact List.mem_map_of_mem (List.mem_filter.1 this).1
        refine ⟨hcm, ⟨rfl, rfl⟩, rfl, ?_, ?_⟩
        · intro i o2 p hi hpot
          simp only at hi
          by_cases hiv : v.id = i
          · subst hiv
            rw [Dict.get?_set_self] at hi
            cases hi
            exact hh.pot _ o' p g1 hpot
          · rw [Dict.get?_set_ne _ _ hiv] at hi
            exact hh.pot i o2 p hi hpot
        · intro i o2 c2 hi hcl
          simp only at hi
          by_cases hiv : v.id = i
          · subst hiv
            rw [Dict.get?_set_self] at hi
            cases hi
            simp only at hcl
            cases hcl
            exact hcm
          · rw [Dict.get?_set_ne _ _ hiv] at hi
            exact hh.clique i o2 c2 hi hcl
  obtain ⟨j1, j2, j3, j4⟩ := hj
  rw [Dict.getItem_ok_iff] at h2 h3
  cases hpo : o.potential with
  | none => rw [hpo] at hp; cases hp
  | some p2 =>
    rw [hpo] at hp
    cases hp
    obtain ⟨u1, u2⟩ := j4.pot _ o p2 h3 hpo
    refine ⟨⟨j2.nodes, j2.neighbors⟩, ⟨j4.pot, ?_⟩, hb.step hn ⟨j2.nodes, j2.neighbors⟩ hw j1 ?_⟩
    · intro i o2 c2 hi hcl
      exact j4.clique i o2 c2 hi hcl
    · intro k p' hp'
      simp only at hp'
      by_cases hk : k = cid
      · subst hk
        rw [Dict.get?_set_self] at hp'
        cases hp'
        rw [j3] at h2
        refine Or.inr ⟨rfl, p1, h2, by rw [multiply_rows, List.length_map], fun B hB => (h.multiply hw u1 u2 hB).2⟩
      · rw [Dict.get?_set_ne _ _ (fun e => hk e.symm), j3] at hp'
        exact Or.inl ⟨hk, hp'⟩

theorem multiply_cons (A : Arith) (p q : Potential) (x : PEntry) : A.multiply p (x :: q) = A.multiply (A.multiply p [x]) q := rfl

/-- the evidence loop of one node multiplies the table of its clique by one table with an entry per value -/
theorem evidence_loop (hinp : ∀ x, Good x → A.inp x ≤ w) (h1 : Good 1) (v : Variable) : ∀ (xs : List Str) {jt jt' : JoinTree},
    GoodEv Good jt.evidences → xs.foldlM (A.applyEvidence v) jt = .ok jt' →
    SameN jt' jt ∧ jt'.heap = jt.heap ∧ GoodEv Good jt'.evidences ∧
    ∃ q : Potential, q.map PEntry.entries = xs.map (fun x => [(v.id, x)]) ∧ (∀ e ∈ q, e.value ≤ w) ∧
      (xs = [] → jt' = jt) ∧
      (xs ≠ [] → ∃ o cid, Dict.get? jt.heap v.id = some o ∧ o.parentClique = some cid ∧
        ∀ k, Dict.get? jt'.potentials k = if k = cid then (Dict.get? jt.potentials cid).map (fun p => A.multiply p q) else Dict.get? jt.potentials k)
  | [], jt, jt', hg, h => by
      cases h
      exact ⟨SameN.refl _, rfl, hg, [], rfl, by simp, fun _ => rfl, fun h => absurd rfl h⟩
  | x :: xs, jt, jt', hg, h => by
      rw [List.foldlM_cons] at h
      obtain ⟨j, hj, h⟩ := bind_ok h
      unfold Arith.applyEvidence at hj
      obtain ⟨o, g1, hj⟩ := bind_ok hj
      rw [Dict.getItem_ok_iff] at g1
      cases hc : o.parentClique with
      | none => rw [hc] at hj; cases hj
      | some cid =>
        rw [hc] at hj
        obtain ⟨p, g2, hj⟩ := bind_ok hj
        rw [Dict.getItem_ok_iff] at g2
        cases hj
        obtain ⟨m, hm, hm1, hm2⟩ := getEvidence_pot jt.evidences v x
        have hg' := hg.getEvidence h1 v x
        obtain ⟨i1, i2, i3, q, i4, i5, i6, i7⟩ := evidence_loop hinp h1 v xs (by exact hg') h
        have hev : A.evidencePot jt.evidences v x = [{ entries := [(v.id, x)], value := A.inp ((Dict.get? m x).getD 1) }] := by
          unfold Arith.evidencePot
          rw [hm2]
          rfl
        have hval : A.inp ((Dict.get? m x).getD 1) ≤ w := by
          apply hinp
          rcases hm with hm | ⟨q, hm⟩
          · rw [hm]; exact h1
          · rw [hm]; exact hg' v.id m hm1 x q hm
        refine ⟨⟨i1.nodes, i1.neighbors⟩, i2, i3, { entries := [(v.id, x)], value := A.inp ((Dict.get? m x).getD 1) } :: q, ?_, ?_, by simp, fun _ => ⟨o, cid, g1, hc, ?_⟩⟩
        · rw [List.map_cons, List.map_cons, i4]
        · intro e he
          rcases List.mem_cons.1 he with rfl | he
          · exact hval
          · exact i5 e he
        · intro k
          have hj1 : ∀ k, Dict.get? (Dict.set jt.potentials cid (A.multiply p (A.evidencePot jt.evidences v x))) k =
              if k = cid then some (A.multiply p (A.evidencePot jt.evidences v x)) else Dict.get? jt.potentials k := by
            intro k
            by_cases hk : k = cid
            · rw [if_pos hk, hk, Dict.get?_set_self]
            · rw [if_neg hk, Dict.get?_set_ne _ _ (fun e => hk e.symm)]
          by_cases hxs : xs = []
          · subst hxs
            have hq : q = [] := by
              have := congrArg List.length i4
              simpa using this
            subst hq
            rw [i6 rfl]
            simp only
            rw [hj1, hev, g2]
            rfl
          · obtain ⟨o', cid', k1, k2, k3⟩ := i7 hxs
            simp only at k1
            rw [g1] at k1
            cases k1
            rw [hc] at k2
            cases k2
            rw [k3 k]
            by_cases hk : k = cid
            · rw [if_pos hk, if_pos hk]
              simp only
              rw [hj1, if_pos rfl, g2, Option.map_some, Option.map_some, hev, multiply_cons A p q]
            · rw [if_neg hk, if_neg hk]
              simp only
              rw [hj1, if_neg hk]

theorem uniq_values (i : Int) {xs : List Str} (hn : xs.Nodup) {q : Potential} (h : q.map PEntry.entries = xs.map (fun x => [(i, x)])) : Uniq q := by
  intro d
  have e : (q.filter (fun x => d.matchesE x)).length = (xs.filter (fun x => d.matchesE ⟨[(i, x)], 0⟩)).length := by
    have : (q.filter (fun x => d.matchesE x)).length = ((q.map PEntry.entries).filter (fun x => d.matchesE ⟨x, 0⟩)).length := by
      rw [List.filter_map, List.length_map]
      rfl
    rw [this, h, List.filter_map, List.length_map]
    rfl
  rw [e]
  refine nodup_all_eq (a := (Dict.get? d.entries i).getD []) (hn.filter _) ?_
  intro x hx
  have := (List.mem_filter.1 hx).2
  unfold PEntry.matchesE at this
  simp only [List.all_cons, List.all_nil, Bool.and_true, decide_eq_true_eq] at this
  rw [this]
  rfl

theorem Cost.applyEvidences (h : Cost A κ) (hw : 0 ≤ w) (hinp : ∀ x, Good x → A.inp x ≤ w) (h1 : Good 1) {S : ℚ} {jt jt' : JoinTree} {v : Variable}
    (hv : v.values.Nodup) (hn : (jt.getCliques.map Clique.id).Nodup) (hh : HeapB w jt) (hg : GoodEv Good jt.evidences) (hb : InitB R S jt)
    (hp : A.applyEvidences jt v = .ok jt') :
    SameN jt' jt ∧ HeapB w jt' ∧ GoodEv Good jt'.evidences ∧ InitB R (S + (w + 1)) jt' := by
  obtain ⟨a1, a2, a3, q, a4, a5, a6, a7⟩ := evidence_loop hinp h1 v v.values hg hp
  have hh' : HeapB w jt' := by
    constructor
    · rw [a2]; exact hh.pot
    · rw [a2, a1.cliques]; exact hh.clique
  refine ⟨a1, hh', a3, ?_⟩
  by_cases hne : v.values = []
  · rw [a6 hne]
    obtain ⟨β, b1, b2, b3, b4⟩ := hb
    exact ⟨β, b1, b2, by linarith, b4⟩
  · obtain ⟨o, cid, k1, k2, k3⟩ := a7 hne
    refine hb.step hn a1 hw (hh.clique _ _ _ k1 k2) ?_
    intro k p' hp'
    rw [k3 k] at hp'
    by_cases hk : k = cid
    · rw [if_pos hk] at hp'
      obtain ⟨p, hp1, rfl⟩ := Option.map_eq_some_iff.1 hp'
      refine Or.inr ⟨hk, p, hp1, by rw [multiply_rows, List.length_map], fun B hB => (h.multiply hw (uniq_values v.id hv a4) a5 hB).2⟩
    · rw [if_neg hk] at hp'
      exact Or.inl ⟨hk, hp'⟩

theorem get_foldl_set {α : Type} (key : α → Str) (f : α → Potential) : ∀ (l : List α) (d : Dict Str Potential) (k : Str) (p : Potential),
    Dict.get? (l.foldl (fun d c => Dict.set d (key c) (f c)) d) k = some p → (∃ c ∈ l, key c = k ∧ p = f c) ∨ (Dict.get? d k = some p ∧ k ∉ l.map key)
  | [], d, k, p, h => Or.inr ⟨h, by simp⟩
  | c :: l, d, k, p, h => by
      rcases get_foldl_set key f l _ k p h with ⟨c', hc', e⟩ | ⟨h1, h2⟩
      · exact Or.inl ⟨c', List.mem_cons_of_mem _ hc', e⟩
      · simp only at h1
        by_cases hk : key c = k
        · rw [hk, Dict.get?_set_self] at h1
          cases h1
          exact Or.inl ⟨c, List.mem_cons_self, hk, rfl⟩
        · rw [Dict.get?_set_ne _ _ hk] at h1
          refine Or.inr ⟨h1, ?_⟩
          rw [List.map_cons, List.mem_cons, not_or]
          exact ⟨fun e => hk e.symm, h2⟩

theorem Cost.fresh (h : Cost A κ) {jt : JoinTree} (hc : JTSpec cs T jt) (hz : Sizes R jt) : InitB R 0 { jt with potentials := A.freshTables jt } := by
  refine ⟨fun _ => 0, fun _ => le_refl _, fun _ _ => rfl, ?_, ?_⟩
  · rw [List.map_map]
    exact le_of_eq (List.sum_eq_zero (by
      intro x hx
      obtain ⟨_, _, rfl⟩ := List.mem_map.1 hx
      rfl))
  intro k hk p hp
  simp only at hk hp
  unfold Arith.freshTables at hp
  have hfin : ∀ (n : JNode), Dict.get? jt.nodes k = some n → p = A.fromNodes n.vars → p.length ≤ R ∧ ∀ e ∈ p, e.value ≤ 0 := by
    intro n hn he
    subst he
    refine ⟨by rw [fromNodes_length]; exact hz.rows k n hn, ?_⟩
    intro e he
    rw [fromNodes_value A _ e he]
    exact h.one
  rcases get_foldl_set SepSet.id (fun s => A.fromNodes s.nodes) _ _ k p hp with ⟨s, hs, e, hp'⟩ | ⟨hp, hns⟩
  · have := hc.get_sep ((hc.shape.mem_getSepSets s).1 hs)
    rw [e] at this
    exact hfin _ this hp'
  · rcases get_foldl_set Clique.id (fun s => A.fromNodes s.nodes) _ _ k p hp with ⟨c, hcm, e, hp'⟩ | ⟨hp, hnc⟩
    · have := hc.get_clique ((hc.shape.mem_getCliques c).1 hcm)
      rw [e] at this
      exact hfin _ this hp'
    · exfalso
      obtain ⟨n, hn⟩ := Dict.exists_get?_of_mem_keys hk
      rcases (hc.shape.node _ _).1 hn with ⟨c, hc', e, _⟩ | ⟨s, hs, e, _⟩
      · exact hnc (e ▸ List.mem_map_of_mem ((hc.shape.mem_getCliques c).2 hc'))
      · exact hns (e ▸ List.mem_map_of_mem ((hc.shape.mem_getSepSets s).2 hs))

/-- initialisation: each node multiplies its CPT and its likelihoods into one clique table -/
theorem Cost.initializeJt (h : Cost A κ) (hw : 0 ≤ w) (hinp : ∀ x, Good x → A.inp x ≤ w) (h1 : Good 1) {jt jt' : JoinTree} (hc : Ctx vars cs T jt)
    (hz : Sizes R jt) (hh : HeapB w jt) (hg : GoodEv Good jt.evidences) (hp : A.initializeJt jt = .ok jt') :
    SameN jt' jt ∧ HeapB w jt' ∧ GoodEv Good jt'.evidences ∧ InitB R (2 * vars.length * (w + 1)) jt' := by
  have hn : (jt.getCliques.map Clique.id).Nodup := hc.spec.shape.cliques_nodup
  have hperm := hc.bbnNodes_perm
  unfold Arith.initializeJt at hp
  simp only at hp
  obtain ⟨j1, h2, hp⟩ := bind_ok hp
  have h0 := h.fresh hc.spec hz
  set j0 : JoinTree := { jt with potentials := A.freshTables jt } with hj0
  have hnodes : j0.getBbnNodes = jt.getBbnNodes := rfl
  rw [hnodes] at h2 hp
  have hh0 : HeapB w j0 := ⟨hh.pot, hh.clique⟩
  have loop1 : ∀ (l : List Variable) {S : ℚ} {a b : JoinTree}, SameN a jt → HeapB w a → GoodEv Good a.evidences → InitB R S a → l.foldlM A.assignNode a = .ok b →
      SameN b jt ∧ HeapB w b ∧ GoodEv Good b.evidences ∧ InitB R (S + l.length * (w + 1)) b := by
    intro l
    induction l with
    | nil =>
      intro S a b s1 s2 s3 s4 hf
      cases hf
      exact ⟨s1, s2, s3, by simpa using s4⟩
    | cons v l ih =>
      intro S a b s1 s2 s3 s4 hf
      rw [List.foldlM_cons] at hf
      obtain ⟨a', f1, hf⟩ := bind_ok hf
      obtain ⟨t1, t2, t3⟩ := h.assignNode hw (by rw [s1.cliques]; exact hn) s2 s4 f1
      have := ih (t1.trans s1) t2 (by rw [assignNode_evidences f1]; exact s3) t3 hf
      refine ⟨this.1, this.2.1, this.2.2.1, ?_⟩
      have e : S + ((v :: l).length : ℕ) * (w + 1) = S + (w + 1) + l.length * (w + 1) := by
        rw [List.length_cons]; push_cast; ring
      rw [e]
      exact this.2.2.2
  have loop2 : ∀ (l : List Variable), (∀ v ∈ l, v.values.Nodup) → ∀ {S : ℚ} {a b : JoinTree}, SameN a jt → HeapB w a → GoodEv Good a.evidences → InitB R S a →
      l.foldlM A.applyEvidences a = .ok b →
      SameN b jt ∧ HeapB w b ∧ GoodEv Good b.evidences ∧ InitB R (S + l.length * (w + 1)) b := by
    intro l
    induction l with
    | nil =>
      intro _ S a b s1 s2 s3 s4 hf
      cases hf
      exact ⟨s1, s2, s3, by simpa using s4⟩
    | cons v l ih =>
      intro hv S a b s1 s2 s3 s4 hf
      rw [List.foldlM_cons] at hf
      obtain ⟨a', f1, hf⟩ := bind_ok hf
      obtain ⟨t1, t2, t3, t4⟩ := h.applyEvidences hw hinp h1 (hv v List.mem_cons_self) (by rw [s1.cliques]; exact hn) s2 s3 s4 f1
      have := ih (fun v' hv' => hv v' (List.mem_cons_of_mem _ hv')) (t1.trans s1) t2 t3 t4 hf
      refine ⟨this.1, this.2.1, this.2.2.1, ?_⟩
      have e : S + ((v :: l).length : ℕ) * (w + 1) = S + (w + 1) + l.length * (w + 1) := by
        rw [List.length_cons]; push_cast; ring
      rw [e]
      exact this.2.2.2
  obtain ⟨a1, a2, a3, a4⟩ := loop1 _ (a := j0) ⟨rfl, rfl⟩ hh0 hg h0 h2
  obtain ⟨b1, b2, b3, b4⟩ := loop2 _ (fun v hv => hc.vals v (hperm.mem_iff.1 hv)) a1 a2 a3 a4 hp
  refine ⟨b1, b2, b3, ?_⟩
  have e : (2 : ℚ) * vars.length * (w + 1) = 0 + jt.getBbnNodes.length * (w + 1) + jt.getBbnNodes.length * (w + 1) := by
    rw [hperm.length_eq]; ring
  rw [e]
  exact b4

end

end PyBBN
