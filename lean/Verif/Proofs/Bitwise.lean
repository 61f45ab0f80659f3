import Verif.Proofs.RoundRun

/-! # Rebuilding the tables gives the same numbers, to the last bit

Two runs over the same arithmetic are compared. Only what the tables are computed from has to agree: the join tree, the cliques and
tables of the nodes, and the likelihoods. -/

namespace PyBBN
open Propagator InferenceController

/-- the same exception, or related results -/
inductive P2 {α : Type} (Q : α → α → Prop) : Py α → Py α → Prop
  | err (e : PyErr) : P2 Q (.error e) (.error e)
  | ok {a b : α} : Q a b → P2 Q (.ok a) (.ok b)

section generic
variable {α β : Type} {Q : α → α → Prop} {Q' : β → β → Prop}

theorem P2.bind {x y : Py α} {f g : α → Py β} (h : P2 Q x y) (hk : ∀ a b, Q a b → P2 Q' (f a) (g b)) : P2 Q' (x >>= f) (y >>= g) := by
  cases h with
  | err e => exact P2.err e
  | ok h => exact hk _ _ h

theorem P2.same {x : Py α} (h : ∀ a, x = .ok a → Q a a) : P2 Q x x := by
  cases x with
  | error e => exact P2.err e
  | ok a => exact P2.ok (h a rfl)

theorem P2.foldlM {f g : α → β → Py α} : ∀ (l : List β) {a b : α}, Q a b →
    (∀ x ∈ l, ∀ a b, Q a b → P2 Q (f a x) (g b x)) → P2 Q (l.foldlM f a) (l.foldlM g b)
  | [], _, _, h, _ => P2.ok h
  | x :: l, a, b, h, hs => by
      rw [List.foldlM_cons, List.foldlM_cons]
      exact P2.bind (hs x List.mem_cons_self a b h) (fun a b h => P2.foldlM l h (fun x hx => hs x (List.mem_cons_of_mem _ hx)))

theorem P2.mono {Q₁ Q₂ : α → α → Prop} {x y : Py α} (h : P2 Q₁ x y) (hk : ∀ a b, Q₁ a b → Q₂ a b) : P2 Q₂ x y := by
  cases h with
  | err e => exact P2.err e
  | ok h => exact P2.ok (hk _ _ h)

theorem P2.getItem {K V : Type} [DecidableEq K] {d d' : Dict K V} {k : K} (h : Dict.get? d' k = Dict.get? d k) :
    P2 (fun x y => y = x ∧ Dict.get? d k = some x) (Dict.getItem d k) (Dict.getItem d' k) := by
  unfold Dict.getItem
  rw [h]
  cases hx : Dict.get? d k with
  | none => exact P2.err _
  | some x => exact P2.ok ⟨rfl, rfl⟩

end generic

/-- the same tree -/
structure SameT (a b : JoinTree) : Prop where
  nodes : b.nodes = a.nodes
  neighbors : b.neighbors = a.neighbors
  edges : b.edges = a.edges

section tree
variable {a b : JoinTree}

theorem SameT.refl (a : JoinTree) : SameT a a := ⟨rfl, rfl, rfl⟩
theorem SameT.symm (h : SameT a b) : SameT b a := ⟨h.nodes.symm, h.neighbors.symm, h.edges.symm⟩
theorem SameT.trans {c : JoinTree} (h : SameT a b) (h' : SameT b c) : SameT a c :=
  ⟨h'.nodes.trans h.nodes, h'.neighbors.trans h.neighbors, h'.edges.trans h.edges⟩
theorem SameT.cliques (h : SameT a b) : b.getCliques = a.getCliques := by unfold JoinTree.getCliques; rw [h.nodes]
theorem SameT.sepSets (h : SameT a b) : b.getSepSets = a.getSepSets := by unfold JoinTree.getSepSets; rw [h.nodes]
theorem SameT.dict (h : SameT a b) : b.bbnNodeDict = a.bbnNodeDict := by unfold JoinTree.bbnNodeDict; rw [h.cliques]
theorem SameT.bbnNodes (h : SameT a b) : b.getBbnNodes = a.getBbnNodes := by unfold JoinTree.getBbnNodes; rw [h.dict]
theorem SameT.neighboring (h : SameT a b) (js : SetIter Str) (k : Str) : neighboringCliques js b k = neighboringCliques js a k := by
  unfold neighboringCliques JoinTree.nbrs
  rw [h.edges, h.neighbors]

/-- the ids that carry tables -/
def tabIds (a : JoinTree) : List Str := a.getCliques.map Clique.id ++ a.getSepSets.map SepSet.id

theorem SameT.tabIds (h : SameT a b) : PyBBN.tabIds b = PyBBN.tabIds a := by unfold PyBBN.tabIds; rw [h.cliques, h.sepSets]

/-- no tables but those of cliques and separation sets -/
def TabsIn (a : JoinTree) : Prop := ∀ k, k ∉ tabIds a → Dict.get? a.potentials k = none

/-- equal tables -/
structure Tab2 (a0 b0 a b : JoinTree) : Prop where
  left : ∃ p, a = { a0 with potentials := p }
  right : ∃ p, b = { b0 with potentials := p }
  pots : ∀ k, Dict.get? b.potentials k = Dict.get? a.potentials k
  tabs : TabsIn a

end tree

theorem set_congr {V : Type} {d d' : Dict Str V} (h : ∀ k, Dict.get? d' k = Dict.get? d k) (s : Str) (x : V) :
    ∀ k, Dict.get? (Dict.set d' s x) k = Dict.get? (Dict.set d s x) k := by
  intro k
  rw [Dict.get?_set, Dict.get?_set, h k]

theorem TabsIn.set {a : JoinTree} (h : TabsIn a) {s : Str} {x : Potential} (hs : Dict.get? a.potentials s = some x) (y : Potential) :
    TabsIn { a with potentials := Dict.set a.potentials s y } := by
  intro k hk
  have hk' : k ∉ tabIds a := hk
  have : s ≠ k := by
    rintro rfl
    rw [h s hk'] at hs
    cases hs
  simp only
  rw [Dict.get?_set_ne _ _ this]
  exact h k hk'

section run
variable {A : Arith} {a0 b0 a b : JoinTree}

theorem Tab2.same (h0 : SameT a0 b0) (h : Tab2 a0 b0 a b) : SameT a b := by
  obtain ⟨p, rfl⟩ := h.left
  obtain ⟨q, rfl⟩ := h.right
  exact ⟨h0.nodes, h0.neighbors, h0.edges⟩

theorem Tab2.pass (h0 : SameT a0 b0) (h : Tab2 a0 b0 a b) (x s y : Str) :
    P2 (Tab2 a0 b0) (A.passSingleMessage a x s y) (A.passSingleMessage b x s y) := by
  have hs := h.same h0
  unfold Arith.passSingleMessage
  refine P2.bind (P2.getItem (h.pots s)) ?_
  rintro _ o ⟨rfl, ho⟩
  rw [show Dict.getItem b.nodes s = Dict.getItem a.nodes s by rw [hs.nodes]]
  refine P2.bind (Q := fun x y => y = x) (P2.same (fun _ _ => rfl)) ?_
  rintro _ sn rfl
  have hm : ∀ ns, A.marginalizeFor b x ns = A.marginalizeFor a x ns := by
    intro ns
    unfold Arith.marginalizeFor
    rw [h.pots x]
  rw [hm]
  refine P2.bind (Q := fun x y => y = x) (P2.same (fun _ _ => rfl)) ?_
  rintro _ n rfl
  simp only
  have hp := set_congr h.pots s n
  have ht := h.tabs.set ho n
  refine P2.bind (P2.getItem (hp y)) ?_
  rintro _ t ⟨rfl, hy⟩
  refine P2.bind (Q := fun x y => y = x) (P2.same (fun _ _ => rfl)) ?_
  rintro _ r rfl
  obtain ⟨p, rfl⟩ := h.left
  obtain ⟨q, rfl⟩ := h.right
  exact P2.ok ⟨⟨_, rfl⟩, ⟨_, rfl⟩, set_congr hp y _, TabsIn.set (a := { a0 with potentials := Dict.set p s n }) ht hy _⟩

/-- the states of the walks: the same marks -/
def St2 (a0 b0 : JoinTree) (x y : List Str × JoinTree) : Prop := y.1 = x.1 ∧ Tab2 a0 b0 x.2 y.2

theorem Tab2.collectWalk (h0 : SameT a0 b0) (js : SetIter Str) : ∀ (fuel : Nat) (x s y : Str) (st st' : List Str × JoinTree),
    St2 a0 b0 st st' → P2 (St2 a0 b0) (A.collectWalk js fuel x s y st) (A.collectWalk js fuel x s y st')
  | 0, _, _, _, _, _, _ => P2.err _
  | fuel + 1, x, s, y, (m, a), (m', b), ⟨h1, h⟩ => by
      simp only at h1 h
      subst h1
      unfold Arith.collectWalk
      simp only
      rw [(h.same h0).neighboring js y]
      refine P2.bind (P2.foldlM (Q := St2 a0 b0) _ ⟨rfl, h⟩ (fun sc _ a b h => Tab2.collectWalk h0 js fuel y sc.1 sc.2 _ _ h)) ?_
      rintro ⟨m, a⟩ ⟨m', b⟩ ⟨h1, h⟩
      refine P2.bind (Tab2.pass h0 h y s x) ?_
      intro a b h
      exact P2.ok ⟨h1, h⟩

theorem Tab2.collect (h0 : SameT a0 b0) (js : SetIter Str) (fuel : Nat) (h : Tab2 a0 b0 a b) (k : Str) :
    P2 (Tab2 a0 b0) (A.collect js fuel a k) (A.collect js fuel b k) := by
  unfold Arith.collect
  simp only
  rw [(h.same h0).neighboring js k]
  refine P2.bind (P2.foldlM (Q := St2 a0 b0) _ ⟨rfl, h⟩ (fun sc _ a b h => Tab2.collectWalk h0 js fuel k sc.1 sc.2 _ _ h)) ?_
  rintro ⟨m, a⟩ ⟨m', b⟩ ⟨h1, h⟩
  exact P2.ok h

theorem Tab2.distributeWalk (h0 : SameT a0 b0) (js : SetIter Str) : ∀ (fuel : Nat) (y : Str) (st st' : List Str × JoinTree),
    St2 a0 b0 st st' → P2 (St2 a0 b0) (A.distributeWalk js fuel y st) (A.distributeWalk js fuel y st')
  | 0, _, _, _, _ => P2.err _
  | fuel + 1, y, (m, a), (m', b), ⟨h1, h⟩ => by
      simp only at h1 h
      subst h1
      unfold Arith.distributeWalk
      simp only
      rw [(h.same h0).neighboring js y]
      refine P2.foldlM (Q := St2 a0 b0) _ ⟨rfl, h⟩ ?_
      rintro sc _ ⟨m, a⟩ ⟨m', b⟩ ⟨h1, h⟩
      refine P2.bind (Tab2.pass h0 h y sc.1 sc.2) ?_
      intro a b h
      exact Tab2.distributeWalk h0 js fuel sc.2 _ _ ⟨h1, h⟩

theorem Tab2.distribute (h0 : SameT a0 b0) (js : SetIter Str) (fuel : Nat) (h : Tab2 a0 b0 a b) (k : Str) :
    P2 (Tab2 a0 b0) (A.distribute js fuel a k) (A.distribute js fuel b k) := by
  unfold Arith.distribute
  simp only
  rw [(h.same h0).neighboring js k]
  refine P2.bind (P2.foldlM (Q := St2 a0 b0) _ ⟨rfl, h⟩ ?_) ?_
  · rintro sc _ ⟨m, a⟩ ⟨m', b⟩ ⟨h1, h⟩
    refine P2.bind (Tab2.pass h0 h k sc.1 sc.2) ?_
    intro a b h
    exact Tab2.distributeWalk h0 js fuel sc.2 _ _ ⟨h1, h⟩
  · rintro ⟨m, a⟩ ⟨m', b⟩ ⟨h1, h⟩
    exact P2.ok h

theorem Tab2.propagate (h0 : SameT a0 b0) (js : SetIter Str) (h : Tab2 a0 b0 a b) :
    P2 (Tab2 a0 b0) (A.propagate js a) (A.propagate js b) := by
  unfold Arith.propagate
  rw [(h.same h0).cliques]
  cases (sortBy (fun a b => strLe (Clique.id a) (Clique.id b)) a.getCliques).head? with
  | none => exact P2.err _
  | some x =>
    simp only
    rw [(h.same h0).nodes]
    refine P2.bind (Tab2.collect h0 js _ h _) ?_
    intro a' b' h'
    rw [(h'.same h0).nodes]
    exact Tab2.distribute h0 js _ h' _

end run

/-! ### initialisation -/

/-- the clique `initialize` multiplies the table of `v` into -/
def homeOf (a : JoinTree) (v : Variable) : Option Str :=
  match Initializer.getClique a v with
  | .ok r => some r.1
  | .error _ => none

/-- before the initialisation: the cliques and the tables of the nodes -/
def HomePre (H : Int → Str) (P : Int → Option Potential) (L : List Variable) (a : JoinTree) : Prop :=
  ∀ v ∈ L, homeOf a v = some (H v.id) ∧ ∃ o, Dict.get? a.heap v.id = some o ∧ o.potential = P v.id

/-- … and after it -/
def HomeDone (H : Int → Str) (P : Int → Option Potential) (L : List Variable) (a : JoinTree) : Prop :=
  ∀ v ∈ L, ∃ o, Dict.get? a.heap v.id = some o ∧ o.parentClique = some (H v.id) ∧ o.potential = P v.id

section init
variable {A : Arith} {H : Int → Str} {P : Int → Option Potential} {L : List Variable} {z a b : JoinTree}

theorem getClique_congr (hn : b.nodes = a.nodes) {u v : Variable} (huv : u.id = v.id) (hh : Dict.get? b.heap u.id = Dict.get? a.heap v.id) :
    homeOf b u = homeOf a v := by
  have hf : b.findCliquesWithNodeAndParents u.id = a.findCliquesWithNodeAndParents v.id := by
    unfold JoinTree.findCliquesWithNodeAndParents JoinTree.getParentIds JoinTree.getBbnNode JoinTree.bbnNodeDict JoinTree.getCliques
    rw [hn, hh, huv]
  unfold homeOf Initializer.getClique Dict.getItem
  rw [hh, hf]
  cases hx : Dict.get? a.heap v.id with
  | none => rfl
  | some o =>
    simp only [bind, Except.bind]
    cases o.parentClique with
    | some c => rfl
    | none =>
      simp only
      cases a.findCliquesWithNodeAndParents v.id with
      | error e => rfl
      | ok cs =>
        simp only
        cases (sortBy (fun a b => strLe (Clique.id a) (Clique.id b)) cs).head? <;> rfl

theorem homeOf_assigned {v : Variable} {o : NodeObj} {c : Str} (h : Dict.get? a.heap v.id = some o) (hc : o.parentClique = some c) :
    homeOf a v = some c := by
  unfold homeOf Initializer.getClique Dict.getItem
  rw [h]
  simp only [bind, Except.bind]
  rw [hc]

/-- what `get_clique` does -/
theorem getClique_run (v : Variable) : (∃ e, Initializer.getClique a v = .error e) ∨
    ∃ (c : Str) (o o' : NodeObj) (h' : Dict Int NodeObj), Dict.get? a.heap v.id = some o ∧ Initializer.getClique a v = .ok (c, { a with heap := h' }) ∧
      o'.parentClique = some c ∧ o'.potential = o.potential ∧ Dict.get? h' v.id = some o' ∧ ∀ i, i ≠ v.id → Dict.get? h' i = Dict.get? a.heap i := by
  unfold Initializer.getClique Dict.getItem
  cases h : Dict.get? a.heap v.id with
  | none => exact Or.inl ⟨_, rfl⟩
  | some o =>
    simp only [bind, Except.bind]
    cases hc : o.parentClique with
    | some c => exact Or.inr ⟨c, o, o, a.heap, rfl, rfl, hc, rfl, h, fun _ _ => rfl⟩
    | none =>
      simp only
      cases a.findCliquesWithNodeAndParents v.id with
      | error e => exact Or.inl ⟨e, rfl⟩
      | ok cs =>
        simp only
        cases (sortBy (fun a b => strLe (Clique.id a) (Clique.id b)) cs).head? with
        | none => exact Or.inl ⟨_, rfl⟩
        | some c =>
          exact Or.inr ⟨c.id, o, { o with parentClique := some c.id }, _, rfl, rfl, rfl, rfl, Dict.get?_set_self _ _ _,
            fun i hi => Dict.get?_set_ne _ _ (Ne.symm hi)⟩

theorem homeOf_run {v : Variable} {c : Str} {j : JoinTree} (h : Initializer.getClique a v = .ok (c, j)) : homeOf a v = some c := by
  unfold homeOf
  rw [h]

/-- assigning a node to its clique changes nobody's clique and nobody's table -/
theorem getClique_keep {v : Variable} {c : Str} {j : JoinTree} (h : Initializer.getClique a v = .ok (c, j)) :
    ∃ h', j = { a with heap := h' } ∧ (∀ u, homeOf j u = homeOf a u) ∧
      (∀ i o, Dict.get? a.heap i = some o → ∃ o', Dict.get? h' i = some o' ∧ o'.potential = o.potential ∧ (∀ c, o.parentClique = some c → o'.parentClique = some c)) ∧
      ∃ o', Dict.get? h' v.id = some o' ∧ o'.parentClique = some c := by
  have hv := homeOf_run h
  rcases getClique_run (a := a) v with ⟨e, he⟩ | ⟨c', o, o', h', g1, g2, g3, g4, g5, g6⟩
  · rw [h] at he; cases he
  · rw [h] at g2
    have e := Except.ok.inj g2
    obtain ⟨e1, e2⟩ := Prod.mk.inj e
    subst e1 e2
    refine ⟨h', rfl, ?_, ?_, o', g5, g3⟩
    · intro u
      by_cases hu : u.id = v.id
      · rw [homeOf_assigned (a := { a with heap := h' }) (v := u) (o := o') (by simp only; rw [hu]; exact g5) g3, ← hv]
        exact (getClique_congr rfl hu (by rw [hu])).symm
      · exact getClique_congr (a := a) (b := { a with heap := h' }) rfl rfl (g6 _ hu)
    · intro i oi hi
      by_cases hiv : i = v.id
      · subst hiv
        rw [g1] at hi
        cases hi
        refine ⟨o', g5, g4, ?_⟩
        intro c2 hc2
        rw [homeOf_assigned g1 hc2] at hv
        cases hv
        exact g3
      · exact ⟨oi, by rw [g6 i hiv]; exact hi, rfl, fun _ h => h⟩

theorem HomePre.frame (h : HomePre H P L a) (hn : b.nodes = a.nodes) (hh : b.heap = a.heap) : HomePre H P L b := by
  intro u hu
  obtain ⟨h1, h2⟩ := h u hu
  exact ⟨(getClique_congr (a := a) (b := b) hn rfl (by rw [hh])).trans h1, by rw [hh]; exact h2⟩

theorem HomePre.keep (hp : HomePre H P L a) {v : Variable} {c : Str} {j : JoinTree} (h : Initializer.getClique a v = .ok (c, j)) : HomePre H P L j := by
  obtain ⟨h', rfl, k1, k2, _⟩ := getClique_keep h
  intro u hu
  obtain ⟨b1, o, b2, b3⟩ := hp u hu
  obtain ⟨o', c1, c2, _⟩ := k2 _ o b2
  exact ⟨by rw [k1]; exact b1, o', c1, by rw [c2]; exact b3⟩

/-- the part that is the same in two runs of the initialisation -/
structure Sim (z : JoinTree) (H : Int → Str) (P : Int → Option Potential) (L : List Variable) (a b : JoinTree) : Prop where
  tree : SameT a b
  tabs : TabsIn a
  pots : ∀ k, Dict.get? b.potentials k = Dict.get? a.potentials k
  liks : ∀ v ∈ L, ∀ x ∈ v.values, lik b.evidences v.id x = lik a.evidences v.id x
  pre : HomePre H P L a
  pre' : HomePre H P L b
  base : SameT z a

/-- the nodes of `D` are assigned -/
def DoneIn (H : Int → Str) (D : List Variable) (a : JoinTree) : Prop :=
  ∀ v ∈ D, ∃ o, Dict.get? a.heap v.id = some o ∧ o.parentClique = some (H v.id)

theorem Sim.assign (h : Sim z H P L a b) {D : List Variable} (hd : DoneIn H D a) (hd' : DoneIn H D b) {v : Variable} (hv : v ∈ L) :
    P2 (fun a b => Sim z H P L a b ∧ DoneIn H (v :: D) a ∧ DoneIn H (v :: D) b) (A.assignNode a v) (A.assignNode b v) := by
  obtain ⟨p1, o, p2, p3⟩ := h.pre v hv
  obtain ⟨q1, o', q2, q3⟩ := h.pre' v hv
  have hok : ∀ {a : JoinTree}, homeOf a v = some (H v.id) → ∃ j, Initializer.getClique a v = .ok (H v.id, j) := by
    intro a ha
    unfold homeOf at ha
    cases hg : Initializer.getClique a v with
    | error e => rw [hg] at ha; cases ha
    | ok r =>
      rw [hg] at ha
      have ha' : r.1 = H v.id := Option.some.inj ha
      exact ⟨r.2, by rw [← ha']⟩
  obtain ⟨j, hj⟩ := hok p1
  obtain ⟨j', hj'⟩ := hok q1
  have hpj := h.pre.keep hj
  have hpj' := h.pre'.keep hj'
  have hdone : ∀ {a j : JoinTree}, DoneIn H D a → Initializer.getClique a v = .ok (H v.id, j) → DoneIn H (v :: D) j := by
    intro a j hd hj
    obtain ⟨h', rfl, k1, k2, k3⟩ := getClique_keep hj
    intro u hu
    rcases List.mem_cons.1 hu with rfl | hu
    · exact k3
    · obtain ⟨o, b1, b2⟩ := hd u hu
      obtain ⟨o', c1, _, c3⟩ := k2 _ o b1
      exact ⟨o', c1, c3 _ b2⟩
  have hdj := hdone hd hj
  have hdj' := hdone hd' hj'
  unfold Arith.assignNode
  rw [hj, hj']
  obtain ⟨h1, rfl, _⟩ := getClique_keep hj
  obtain ⟨h2, rfl, _⟩ := getClique_keep hj'
  simp only [bind, Except.bind]
  change P2 _ (Dict.getItem a.potentials (H v.id) >>= _) (Dict.getItem b.potentials (H v.id) >>= _)
  refine P2.bind (P2.getItem (h.pots _)) ?_
  rintro _ t ⟨rfl, ht⟩
  obtain ⟨_, u, u1, u2⟩ := hpj v hv
  obtain ⟨_, u', u1', u2'⟩ := hpj' v hv
  simp only at u1 u1'
  unfold Dict.getItem
  rw [u1, u1']
  simp only
  rw [u2, u2']
  cases P v.id with
  | none => exact P2.err _
  | some p =>
    refine P2.ok ⟨⟨⟨h.tree.nodes, h.tree.neighbors, h.tree.edges⟩, h.tabs.set ht _, set_congr h.pots _ _, h.liks, hpj.frame rfl rfl, hpj'.frame rfl rfl, ⟨h.base.nodes, h.base.neighbors, h.base.edges⟩⟩, hdj, hdj'⟩

theorem Sim.assigns : ∀ (l : List Variable) {D : List Variable} {a b : JoinTree}, Sim z H P L a b → DoneIn H D a → DoneIn H D b → (∀ v ∈ l, v ∈ L) →
    P2 (fun a b => Sim z H P L a b ∧ DoneIn H (l.reverse ++ D) a ∧ DoneIn H (l.reverse ++ D) b) (l.foldlM A.assignNode a) (l.foldlM A.assignNode b)
  | [], _, _, _, h, h1, h2, _ => P2.ok ⟨h, h1, h2⟩
  | v :: l, D, a, b, h, h1, h2, hl => by
      rw [List.foldlM_cons, List.foldlM_cons]
      refine P2.bind (h.assign h1 h2 (hl v List.mem_cons_self)) ?_
      rintro a b ⟨h, h1, h2⟩
      have := Sim.assigns l h h1 h2 (fun u hu => hl u (List.mem_cons_of_mem _ hu))
      rw [List.reverse_cons, List.append_assoc]
      exact this

theorem evidencePot_eq (ev : Dict Int (Dict Str ℚ)) (v : Variable) (x : Str) :
    A.evidencePot ev v x = [⟨[(v.id, x)], A.inp (lik ev v.id x)⟩] := by
  unfold Arith.evidencePot
  rw [(getEvidence_lik ev v x).1]
  rfl

theorem Sim.evidence (h : Sim z H P L a b) (hd : DoneIn H L a) (hd' : DoneIn H L b) {v : Variable} (hv : v ∈ L) {x : Str} (hx : x ∈ v.values) :
    P2 (fun a b => Sim z H P L a b ∧ DoneIn H L a ∧ DoneIn H L b) (A.applyEvidence v a x) (A.applyEvidence v b x) := by
  obtain ⟨o, p1, p2⟩ := hd v hv
  obtain ⟨o', q1, q2⟩ := hd' v hv
  unfold Arith.applyEvidence
  unfold Dict.getItem
  rw [p1, q1]
  simp only [bind, Except.bind]
  rw [p2, q2]
  simp only
  rw [h.pots]
  cases ht : Dict.get? a.potentials (H v.id) with
  | none => exact P2.err _
  | some t =>
    simp only
    rw [evidencePot_eq, evidencePot_eq, h.liks v hv x hx]
    refine P2.ok ⟨⟨⟨h.tree.nodes, h.tree.neighbors, h.tree.edges⟩, ?_, set_congr h.pots _ _, ?_, ?_, ?_, ⟨h.base.nodes, h.base.neighbors, h.base.edges⟩⟩, hd, hd'⟩
    · exact h.tabs.set ht _
    · intro u hu y hy
      simp only
      rw [(getEvidence_lik _ v x).2, (getEvidence_lik _ v x).2]
      exact h.liks u hu y hy
    · exact h.pre.frame rfl rfl
    · exact h.pre'.frame rfl rfl

theorem Sim.evidences : P2 (fun a b => Sim z H P L a b ∧ DoneIn H L a ∧ DoneIn H L b) (.ok a) (.ok b) → ∀ v ∈ L,
    P2 (fun a b => Sim z H P L a b ∧ DoneIn H L a ∧ DoneIn H L b) (A.applyEvidences a v) (A.applyEvidences b v) := by
  intro h v hv
  cases h with
  | ok h =>
    exact P2.foldlM (Q := fun a b => Sim z H P L a b ∧ DoneIn H L a ∧ DoneIn H L b) v.values h
      (fun x hx a b h => h.1.evidence h.2.1 h.2.2 hv hx)

theorem foldl_set_congr {α V : Type} (f : α → Str) (g : α → V) : ∀ (l : List α) {d d' : Dict Str V} {k : Str},
    (k ∈ l.map f ∨ Dict.get? d' k = Dict.get? d k) →
    Dict.get? (l.foldl (fun d x => Dict.set d (f x) (g x)) d') k = Dict.get? (l.foldl (fun d x => Dict.set d (f x) (g x)) d) k
  | [], d, d', k, h => by
      rcases h with h | h
      · cases h
      · exact h
  | x :: l, d, d', k, h => by
      rw [List.foldl_cons, List.foldl_cons]
      refine foldl_set_congr f g l ?_
      by_cases hk : f x = k
      · subst hk
        right
        rw [Dict.get?_set_self, Dict.get?_set_self]
      · rcases h with h | h
        · rw [List.map_cons] at h
          rcases List.mem_cons.1 h with h | h
          · exact absurd h.symm hk
          · exact Or.inl h
        · right
          rw [Dict.get?_set_ne _ _ hk, Dict.get?_set_ne _ _ hk]
          exact h

theorem foldl_set_other {α V : Type} (f : α → Str) (g : α → V) : ∀ (l : List α) {d : Dict Str V} {k : Str}, k ∉ l.map f →
    Dict.get? (l.foldl (fun d x => Dict.set d (f x) (g x)) d) k = Dict.get? d k
  | [], _, _, _ => rfl
  | x :: l, d, k, h => by
      rw [List.foldl_cons, foldl_set_other f g l (fun hk => h (List.mem_cons_of_mem _ hk)), Dict.get?_set_ne]
      rintro rfl
      exact h List.mem_cons_self

theorem freshTables_in (h : TabsIn a) : TabsIn { a with potentials := A.freshTables a } := by
  intro k hk
  have hk' : k ∉ tabIds a := hk
  unfold tabIds at hk'
  rw [List.mem_append, not_or] at hk'
  unfold Arith.freshTables
  simp only
  rw [foldl_set_other SepSet.id (fun s : SepSet => A.fromNodes s.nodes) _ hk'.2, foldl_set_other Clique.id (fun c : Clique => A.fromNodes c.nodes) _ hk'.1]
  exact h k hk

theorem freshTables_congr (hs : SameT a b) (ha : TabsIn a) (hb : TabsIn b) : ∀ k, Dict.get? (A.freshTables b) k = Dict.get? (A.freshTables a) k := by
  intro k
  unfold Arith.freshTables
  simp only
  rw [hs.cliques, hs.sepSets]
  refine foldl_set_congr SepSet.id (fun s : SepSet => A.fromNodes s.nodes) _ ?_
  by_cases h1 : k ∈ a.getSepSets.map SepSet.id
  · exact Or.inl h1
  · right
    refine foldl_set_congr Clique.id (fun c : Clique => A.fromNodes c.nodes) _ ?_
    by_cases h2 : k ∈ a.getCliques.map Clique.id
    · exact Or.inl h2
    · right
      have hk : k ∉ tabIds a := by
        unfold tabIds
        rw [List.mem_append, not_or]
        exact ⟨h2, h1⟩
      rw [ha k hk, hb k (by rw [hs.tabIds]; exact hk)]

/-- **two rebuilds agree** -/
theorem Sim.initialize (hs : SameT a b) (ha : TabsIn a) (hb : TabsIn b) (hl : ∀ v ∈ L, ∀ x ∈ v.values, lik b.evidences v.id x = lik a.evidences v.id x)
    (hp : HomePre H P L a) (hp' : HomePre H P L b) (hL : a.getBbnNodes = L) :
    P2 (fun x y => Sim a H P L x y ∧ DoneIn H L x ∧ DoneIn H L y) (A.initializeJt a) (A.initializeJt b) := by
  unfold Arith.initializeJt
  simp only
  change P2 _ ((a.getBbnNodes.foldlM A.assignNode _) >>= fun jt => a.getBbnNodes.foldlM A.applyEvidences jt)
    ((b.getBbnNodes.foldlM A.assignNode _) >>= fun jt => b.getBbnNodes.foldlM A.applyEvidences jt)
  rw [hs.bbnNodes, hL]
  have h0 : Sim a H P L { a with potentials := A.freshTables a } { b with potentials := A.freshTables b } := by
    refine ⟨⟨hs.nodes, hs.neighbors, hs.edges⟩, freshTables_in ha, freshTables_congr hs ha hb, hl, ?_, ?_, ⟨rfl, rfl, rfl⟩⟩
    · exact hp.frame rfl rfl
    · exact hp'.frame rfl rfl
  refine P2.bind (Sim.assigns L h0 (D := []) (fun _ h => by cases h) (fun _ h => by cases h) (fun _ h => h)) ?_
  rintro a1 b1 ⟨h, h1, h2⟩
  have hr : ∀ {j : JoinTree}, DoneIn H (L.reverse ++ []) j → DoneIn H L j := fun hj v hv => hj v (by simpa using hv)
  exact P2.foldlM (Q := fun x y => Sim a H P L x y ∧ DoneIn H L x ∧ DoneIn H L y) L ⟨h, hr h1, hr h2⟩
    (fun v hv a b h => Sim.evidences (P2.ok h) v hv)

theorem Sim.rebuild (hs : SameT a b) (ha : TabsIn a) (hb : TabsIn b) (hl : ∀ v ∈ L, ∀ x ∈ v.values, lik b.evidences v.id x = lik a.evidences v.id x)
    (hp : HomePre H P L a) (hp' : HomePre H P L b) (hL : a.getBbnNodes = L) (js : SetIter Str) :
    P2 (fun x y => SameT a x ∧ TabsIn x ∧ (∀ k, Dict.get? y.potentials k = Dict.get? x.potentials k) ∧ HomeDone H P L x ∧ HomeDone H P L y)
      (A.initializeJt a >>= A.propagate js) (A.initializeJt b >>= A.propagate js) := by
  refine P2.bind (Sim.initialize hs ha hb hl hp hp' hL) ?_
  rintro a1 b1 ⟨h, d1, d2⟩
  have hdone : ∀ {j : JoinTree}, DoneIn H L j → HomePre H P L j → ∀ p, HomeDone H P L { j with potentials := p } := by
    intro j hd hp p v hv
    obtain ⟨o, e1, e2⟩ := hd v hv
    obtain ⟨_, o', e3, e4⟩ := hp v hv
    rw [e1] at e3
    cases e3
    exact ⟨o, e1, e2, e4⟩
  refine (Tab2.propagate h.tree js (a := a1) (b := b1) ⟨⟨_, rfl⟩, ⟨_, rfl⟩, h.pots, h.tabs⟩).mono ?_
  rintro a2 b2 ht
  obtain ⟨p, rfl⟩ := ht.left
  obtain ⟨q, rfl⟩ := ht.right
  exact ⟨⟨h.base.nodes, h.base.neighbors, h.base.edges⟩, ht.tabs, ht.pots, hdone d1 h.pre p, hdone d2 h.pre' q⟩

theorem HomeDone.pre (h : HomeDone H P L a) : HomePre H P L a := by
  intro v hv
  obtain ⟨o, h1, h2, h3⟩ := h v hv
  exact ⟨homeOf_assigned h1 h2, o, h1, h3⟩

/-- if the first loop of the initialisation runs through, every node has a clique -/
theorem assigns_home : ∀ (l : List Variable) {a a' : JoinTree}, l.foldlM A.assignNode a = .ok a' →
    ∀ v ∈ l, (∃ c, homeOf a v = some c) ∧ ∃ o, Dict.get? a.heap v.id = some o
  | [], _, _, _, _, hv => by cases hv
  | u :: l, a, a', h, v, hv => by
      rw [List.foldlM_cons] at h
      obtain ⟨a1, h1, h⟩ := bind_ok h
      unfold Arith.assignNode at h1
      obtain ⟨⟨c, j⟩, g1, h1⟩ := bind_ok h1
      obtain ⟨p1, g2, h1⟩ := bind_ok h1
      obtain ⟨o, g3, h1⟩ := bind_ok h1
      obtain ⟨h', rfl, k1, k2, k3⟩ := getClique_keep g1
      have ha1 : ∃ p, a1 = { a with heap := h', potentials := p } := by
        cases ho : o.potential with
        | none => rw [ho] at h1; cases h1
        | some p2 =>
          rw [ho] at h1
          exact ⟨_, (Except.ok.inj h1).symm⟩
      obtain ⟨p, rfl⟩ := ha1
      have hheap : ∀ w : Variable, (∃ c, homeOf a w = some c) → ∃ o, Dict.get? a.heap w.id = some o := by
        rintro w ⟨c, hc⟩
        cases hx : Dict.get? a.heap w.id with
        | some o => exact ⟨o, rfl⟩
        | none =>
          unfold homeOf Initializer.getClique Dict.getItem at hc
          rw [hx] at hc
          cases hc
      rcases List.mem_cons.1 hv with rfl | hv
      · exact ⟨⟨c, homeOf_run g1⟩, hheap _ ⟨c, homeOf_run g1⟩⟩
      · obtain ⟨⟨c', hc'⟩, _⟩ := assigns_home l h v hv
        have e : homeOf { a with heap := h', potentials := p } v = homeOf { a with heap := h' } v := by apply getClique_congr <;> rfl
        rw [e, k1] at hc'
        exact ⟨⟨c', hc'⟩, hheap _ ⟨c', hc'⟩⟩

theorem initialize_home {a' : JoinTree} (h : A.initializeJt a = .ok a') :
    ∃ H P, HomePre H P a.getBbnNodes a := by
  unfold Arith.initializeJt at h
  obtain ⟨a1, h1, _⟩ := bind_ok h
  have := assigns_home _ h1
  refine ⟨fun i => (homeOf a ⟨i, [], []⟩).getD [], fun i => (Dict.get? a.heap i).bind NodeObj.potential, ?_⟩
  intro v hv
  obtain ⟨⟨c, hc⟩, o, ho⟩ := this v hv
  have e : homeOf { a with potentials := A.freshTables a } v = homeOf a v := by apply getClique_congr <;> rfl
  rw [e] at hc
  have e2 : homeOf a ⟨v.id, [], []⟩ = homeOf a v := by apply getClique_congr <;> rfl
  refine ⟨?_, o, ho, ?_⟩
  · simp only
    rw [e2, hc]
    rfl
  · have ho' : Dict.get? a.heap v.id = some o := ho
    simp only
    rw [ho']
    rfl

/-! ### the tables are those of a rebuild -/

/-- the tables are what a rebuild with the likelihoods `ℓ` gives -/
structure Fresh (A : Arith) (js : SetIter Str) (H : Int → Str) (P : Int → Option Potential) (L : List Variable) (ℓ : Liks) (c : JoinTree) : Prop where
  built : ∃ d d2, SameT d c ∧ TabsIn d ∧ HomePre H P L d ∧ (∀ v ∈ L, ∀ x ∈ v.values, lik d.evidences v.id x = ℓ v.id x) ∧
    (A.initializeJt d >>= A.propagate js) = .ok d2 ∧ ∀ k, Dict.get? c.potentials k = Dict.get? d2.potentials k
  tabs : TabsIn c
  done : HomeDone H P L c
  nodes : c.getBbnNodes = L

theorem Fresh.rebuild {d c : JoinTree} {js : SetIter Str} (ht : TabsIn d) (hp : HomePre H P L d) (hL : d.getBbnNodes = L)
    (h : (A.initializeJt d >>= A.propagate js) = .ok c) : Fresh A js H P L (lik d.evidences) c ∧ SameT d c := by
  have := Sim.rebuild (A := A) (SameT.refl d) ht ht (fun _ _ _ _ => rfl) hp hp hL js
  rw [h] at this
  cases this with
  | ok hq =>
    obtain ⟨q1, q2, _, q4, _⟩ := hq
    exact ⟨⟨⟨d, c, q1, ht, hp, fun _ _ _ _ => rfl, h, fun _ => rfl⟩, q2, q4, by rw [q1.bbnNodes]; exact hL⟩, q1⟩

theorem Fresh.frame {ℓ : Liks} {js : SetIter Str} {c c' : JoinTree} (h : Fresh A js H P L ℓ c) (hs : SameT c c') (hp : c'.potentials = c.potentials)
    (hh : c'.heap = c.heap) : Fresh A js H P L ℓ c' := by
  obtain ⟨d, d2, a1, a2, a3, a4, a5, a6⟩ := h.built
  refine ⟨⟨d, d2, a1.trans hs, a2, a3, a4, a5, by rw [hp]; exact a6⟩, ?_, ?_, by rw [hs.bbnNodes]; exact h.nodes⟩
  · intro k hk
    rw [hp]
    exact h.tabs k (by rw [← hs.tabIds]; exact hk)
  · intro v hv
    rw [hh]
    exact h.done v hv

/-- **equal likelihoods, equal numbers** -/
theorem Fresh.agree {ℓ ℓ' : Liks} {js : SetIter Str} {c c' : JoinTree} (h : Fresh A js H P L ℓ c) (h' : Fresh A js H P L ℓ' c') (hs : SameT c c')
    (hl : ∀ v ∈ L, ∀ x ∈ v.values, ℓ' v.id x = ℓ v.id x) {v : Variable} (hv : v ∈ L) : A.getBbnPotential c' v = A.getBbnPotential c v := by
  obtain ⟨d, d2, a1, a2, a3, a4, a5, a6⟩ := h.built
  obtain ⟨d', d2', b1, b2, b3, b4, b5, b6⟩ := h'.built
  have hdd : SameT d d' := (a1.trans hs).trans b1.symm
  have := Sim.rebuild (A := A) hdd a2 b2 (fun v hv x hx => by rw [a4 v hv x hx, b4 v hv x hx, hl v hv x hx]) a3 b3
    (by rw [← a1.bbnNodes]; exact h.nodes) js
  rw [a5, b5] at this
  cases this with
  | ok hq =>
    obtain ⟨o, e1, e2, _⟩ := h.done v hv
    obtain ⟨o', f1, f2, _⟩ := h'.done v hv
    unfold Arith.getBbnPotential Dict.getItem
    rw [e1, f1]
    simp only [bind, Except.bind]
    rw [e2, f2]
    simp only
    have : A.marginalizeFor c' (H v.id) [v] = A.marginalizeFor c (H v.id) [v] := by
      unfold Arith.marginalizeFor
      rw [a6, b6, hq.2.2.1]
    rw [this]

end init

section hist
variable {A : Arith} {H : Int → Str} {P : Int → Option Potential} {L : List Variable} {vars : List Variable} {cs : List Clique} {T : List SepSet} {N : Net}

theorem JT3.sameT {R : ℚ → ℚ → ℚ → Prop} {a b c : JoinTree} (h : JT3 R a b c) : SameT a b := ⟨h.nodes.1, h.neighbors.1, h.edges.1⟩

/-- one evidence call -/
theorem Fresh.update {js : SetIter Str} {ℓ : Liks} {c : JoinTree} (h : Fresh A js H P L ℓ c) (hl : c.listener = true) (es : List Evidence)
    (hok : (evUpdate ⟨c.evidences, ℓ⟩ es).2 = none → (A.updateEvidences js c es).2 = none) :
    Fresh A js H P L (evUpdate ⟨c.evidences, ℓ⟩ es).1.prop (A.updateEvidences js c es).1 ∧ SameT c (A.updateEvidences js c es).1 := by
  unfold evUpdate Arith.updateEvidences at *
  cases he : es.mapM Evidence.validate with
  | error e => exact ⟨h, SameT.refl _⟩
  | ok es' =>
    rw [he] at hok
    simp only at hok ⊢
    cases ht : JoinTree.getChangeType c.evidences es' with
    | error e => exact ⟨h, SameT.refl _⟩
    | ok t =>
      rw [ht] at hok
      simp only at hok ⊢
      have h1 : Fresh A js H P L ℓ { c with evidences := (JoinTree.writeEvidences c.evidences es').1 } := h.frame ⟨rfl, rfl, rfl⟩ rfl rfl
      cases hw : (JoinTree.writeEvidences c.evidences es').2 with
      | some e => exact ⟨h1, ⟨rfl, rfl, rfl⟩⟩
      | none =>
        rw [hw] at hok
        simp only at hok ⊢
        have hok := hok trivial
        have hs1 : SameT c { c with evidences := (JoinTree.writeEvidences c.evidences es').1 } := ⟨rfl, rfl, rfl⟩
        have hl1 : ({ c with evidences := (JoinTree.writeEvidences c.evidences es').1 } : JoinTree).listener = true := hl
        have hev : lik (JoinTree.writeEvidences c.evidences es').1 =
          lik ({ c with evidences := (JoinTree.writeEvidences c.evidences es').1 } : JoinTree).evidences := rfl
        rw [hev]
        generalize ({ c with evidences := (JoinTree.writeEvidences c.evidences es').1 } : JoinTree) = c1 at hok h1 hs1 hl1 ⊢
        unfold Arith.notify at hok ⊢
        rw [if_pos hl1] at hok ⊢
        cases t with
        | none => exact ⟨h1, hs1⟩
        | update => exact absurd ht (c26_never_update _ _)
        | retraction =>
          simp only at hok ⊢
          cases hr : (A.initializeJt c1 >>= fun jt => A.propagate js jt) with
          | error e => rw [hr] at hok; cases hok
          | ok c' =>
            obtain ⟨f1, f2⟩ := Fresh.rebuild h1.tabs h1.done.pre h1.nodes hr
            refine ⟨?_, hs1.trans f2⟩
            rw [if_neg (by simp)]
            exact f1

/-- **histories**: the tables are always those of a rebuild with the likelihoods last seen -/
theorem Fresh.runHist {js : SetIter Str} (hN : NetOk vars N) (hne : cs ≠ []) (hvne : ∀ v ∈ vars, v.values ≠ []) :
    ∀ (hist : List EvOp) {s : EvState} {a c : JoinTree}, Live vars cs T N s.prop a → EvEq a.evidences s.ev → JT3 (fun _ _ _ => True) a c c →
      Fresh A js H P L s.prop c → (∀ op ∈ hist, op.Nodes vars) →
      Fresh A js H P L (evHist vars s (hist.map (fun o => (js, o)))).prop (A.runHist c (hist.map (fun o => (js, o)))) ∧
        SameT c (A.runHist c (hist.map (fun o => (js, o))))
  | [], _, _, _, _, _, _, hf, _ => ⟨hf, SameT.refl _⟩
  | op :: hist, s, a, c, hl, hev, h3, hf, hops => by
      have hop := hops op List.mem_cons_self
      have hj := (closed_any A).runOp (fun _ _ _ => trivial) hN hne hvne hl h3 js op hop
      obtain ⟨a', e1, l1, ev1, _⟩ := hl.step hN hne hvne js op hop
      obtain ⟨hj1, hj2, _⟩ := hj
      rw [Arith.exact_runOp, e1] at hj1 hj2
      obtain ⟨⟨c1, c2⟩, _⟩ := evOp_congr (hl.doms hvne) (s := ⟨a.evidences, s.prop⟩) (t := s) hl.good ⟨hev, rfl⟩ hl.calib.ctx.bbnNodes_perm
        (List.Perm.refl vars) op
      have hlisten : c.listener = true := by rw [h3.left]; exact hl.listen
      have hstep : Fresh A js H P L (evOp a.getBbnNodes ⟨a.evidences, s.prop⟩ op).1.prop (A.runOp js c op).1 ∧ SameT c (A.runOp js c op).1 := by
        rcases runOp_update a hl.calib.ctx op hop with ⟨e, he, he'⟩ | ⟨es, hes, he, he'⟩
        · rw [he A js c h3.nodes.1 h3.evidences.1, he' s.prop]
          exact ⟨hf, SameT.refl _⟩
        · rw [he A js c h3.nodes.1 h3.evidences.1, he' s.prop] at *
          have := hf.update hlisten es (by
            intro h
            rw [h3.evidences.1] at h
            rw [hj2]
            exact h)
          rw [h3.evidences.1] at this
          exact this
      rw [c2] at hstep l1
      obtain ⟨r1, r2⟩ := Fresh.runHist (js := js) hN hne hvne hist (s := (evOp vars s op).1) l1 (ev1.trans c1) hj1 hstep.1
        (fun o ho => hops o (List.mem_cons_of_mem _ ho))
      exact ⟨r1, hstep.2.trans r2⟩

/-- the tables after `apply` -/
theorem Fresh.apply {b : Bbn} {it : SetIter Int} {js : SetIter Str} {jc : JoinTree} (h : A.apply it js b = .ok jc) :
    ∃ H P, Fresh A js H P jc.getBbnNodes noEvidence jc := by
  unfold Arith.apply at h
  obtain ⟨heap1, e1, h⟩ := bind_ok h
  obtain ⟨heap2, e2, h⟩ := bind_ok h
  obtain ⟨j1, e3, h⟩ := bind_ok h
  obtain ⟨j2, e4, h⟩ := bind_ok h
  cases h
  set cs := (Triangulator.triangulate it (moralize b)).1 with hcs
  obtain ⟨t1, t2⟩ := transform_ev js cs
  set jt0 : JoinTree := { Transformer.transform js cs with parentInfo := parentInfoOf b, heap := heap2 } with hjt0
  obtain ⟨H, P, hp⟩ := initialize_home e3
  have hr : (A.initializeJt jt0 >>= A.propagate js) = .ok j2 := by
    rw [e3]
    exact e4
  have ht : TabsIn jt0 := by
    intro k _
    have : jt0.potentials = [] := t2
    rw [this]
    rfl
  obtain ⟨f1, f2⟩ := Fresh.rebuild ht hp rfl hr
  have hlik : lik jt0.evidences = noEvidence := by
    have : jt0.evidences = [] := t1
    rw [this]
    rfl
  rw [hlik] at f1
  have hn : ({ j2 with listener := true } : JoinTree).getBbnNodes = jt0.getBbnNodes := by
    have : SameT jt0 { j2 with listener := true } := ⟨f2.nodes, f2.neighbors, f2.edges⟩
    exact this.bbnNodes
  rw [hn]
  exact ⟨H, P, f1.frame ⟨rfl, rfl, rfl⟩ rfl rfl⟩

/-- **sessions** over an arbitrary arithmetic: the reports are determined by the likelihoods last seen -/
theorem session_bitwise {ops : List BOp} (hu : Net.Sane ops) {it : SetIter Int} {js : SetIter Str} {jc : JoinTree} (hc : A.apply it js (Bbn.run ops) = .ok jc)
    (h h' : List EvOp) (hp : ∀ op ∈ h, op.Proper (Bbn.run ops).vars) (hp' : ∀ op ∈ h', op.Proper (Bbn.run ops).vars)
    (hl : ∀ v ∈ (Bbn.run ops).vars, ∀ x ∈ v.values, (lawHist (Bbn.run ops).vars (h'.map (fun o => (js, o)))).prop v.id x =
      (lawHist (Bbn.run ops).vars (h.map (fun o => (js, o)))).prop v.id x) {v : Variable} (hv : v ∈ (Bbn.run ops).vars) :
    A.getBbnPotential (A.runHist jc (h'.map (fun o => (js, o)))) v = A.getBbnPotential (A.runHist jc (h.map (fun o => (js, o)))) v := by
  have hd := doms hu
  have hN := Bbn.net_ok (bbn_run_inv ops) hu.wf
  have hjt := (closed_any A).apply trivial it js (Bbn.run ops) (fun _ _ _ _ => trivial)
  rw [Arith.exact_apply, hc] at hjt
  cases hj : InferenceController.apply it js (Bbn.run ops) with
  | error e => rw [hj] at hjt; cases hjt
  | ok jt =>
    rw [hj] at hjt
    cases hjt with
    | ok h3 =>
      obtain ⟨T, l1, l2, l3⟩ := live_apply hu hj
      obtain ⟨H, P, hf⟩ := Fresh.apply hc
      have key : ∀ h : List EvOp, (∀ op ∈ h, op.Proper (Bbn.run ops).vars) →
          Fresh A js H P jc.getBbnNodes (lawHist (Bbn.run ops).vars (h.map (fun o => (js, o)))).prop (A.runHist jc (h.map (fun o => (js, o)))) ∧
            SameT jc (A.runHist jc (h.map (fun o => (js, o)))) := by
        intro h hp
        have hp2 : ∀ op ∈ h.map (fun o => (js, o)), op.2.Proper (Bbn.run ops).vars := by
          intro op ho
          obtain ⟨o, ho', rfl⟩ := List.mem_map.1 ho
          exact hp o ho'
        have := Fresh.runHist (A := A) (js := js) hN l3 hu.vals h (s := ⟨jt.evidences, noEvidence⟩) l1 (EvEq.refl _) h3 hf (fun o ho => (hp o ho).nodes hd)
        obtain ⟨_, _, b3⟩ := evHist_law hd (h.map (fun o => (js, o))) (s := ⟨jt.evidences, noEvidence⟩) (l := ⟨noEvidence, noEvidence⟩) l1.good l2 rfl hp2
        rw [b3] at this
        exact this
      obtain ⟨k1, k2⟩ := key h hp
      obtain ⟨k3, k4⟩ := key h' hp'
      have hperm := l1.calib.ctx.bbnNodes_perm
      rw [← h3.sameT.bbnNodes] at hperm
      exact k1.agree k3 (k2.symm.trans k4) (fun u hu x hx => hl u (hperm.mem_iff.1 hu) x hx) (hperm.mem_iff.2 hv)

end hist

end PyBBN
