import Verif.Proofs.Arith
import Verif.Proofs.HistoryRun

/-!
# Three runs in lockstep

The same program over three arithmetics whose operations preserve a relation `R`: the control flow is the same, and the tables
are related entry by entry.
-/

namespace PyBBN

/-! ### relations between three values -/

inductive L3 {α : Type} (Q : α → α → α → Prop) : List α → List α → List α → Prop
  | nil : L3 Q [] [] []
  | cons {a b c : α} {l m n : List α} : Q a b c → L3 Q l m n → L3 Q (a :: l) (b :: m) (c :: n)

inductive O3 {α : Type} (Q : α → α → α → Prop) : Option α → Option α → Option α → Prop
  | none : O3 Q none none none
  | some {a b c : α} : Q a b c → O3 Q (some a) (some b) (some c)

inductive P3 {α : Type} (Q : α → α → α → Prop) : Py α → Py α → Py α → Prop
  | err (e : PyErr) : P3 Q (.error e) (.error e) (.error e)
  | ok {a b c : α} : Q a b c → P3 Q (.ok a) (.ok b) (.ok c)

section generic
variable {α β : Type} {Q : α → α → α → Prop} {Q' : β → β → β → Prop}

theorem P3.bind {x y z : Py α} {f g k : α → Py β} (h : P3 Q x y z)
    (hk : ∀ a b c, Q a b c → P3 Q' (f a) (g b) (k c)) : P3 Q' (x >>= f) (y >>= g) (z >>= k) := by
  cases h with
  | err e => exact P3.err e
  | ok h => exact hk _ _ _ h

/-- the same exception, or related results -/
theorem P3.same {x : Py α} (h : ∀ a, x = .ok a → Q a a a) : P3 Q x x x := by
  cases x with
  | error e => exact P3.err e
  | ok a => exact P3.ok (h a rfl)

theorem P3.foldlM {f g k : α → β → Py α} : ∀ (l : List β) {a b c : α}, Q a b c →
    (∀ x ∈ l, ∀ a b c, Q a b c → P3 Q (f a x) (g b x) (k c x)) → P3 Q (l.foldlM f a) (l.foldlM g b) (l.foldlM k c)
  | [], _, _, _, h, _ => P3.ok h
  | x :: l, a, b, c, h, hs => by
      rw [List.foldlM_cons, List.foldlM_cons, List.foldlM_cons]
      exact P3.bind (hs x List.mem_cons_self a b c h)
        (fun a b c h => P3.foldlM l h (fun x hx => hs x (List.mem_cons_of_mem _ hx)))

theorem L3.get {l m n : List α} (h : L3 Q l m n) : ∀ i : Nat, O3 Q l[i]? m[i]? n[i]? := by
  induction h with
  | nil => intro i; simpa using O3.none
  | cons h _ ih =>
    intro i
    cases i with
    | zero => simpa using O3.some h
    | succ i => simpa using ih i

theorem L3.map {f g k : α → β} {l m n : List α} (h : L3 Q l m n) (hf : ∀ a b c, Q a b c → Q' (f a) (g b) (k c)) :
    L3 Q' (l.map f) (m.map g) (n.map k) := by
  induction h with
  | nil => exact L3.nil
  | cons h _ ih => exact L3.cons (hf _ _ _ h) ih

theorem L3.filter {f g k : α → Bool} {l m n : List α} (h : L3 Q l m n) (hf : ∀ a b c, Q a b c → g b = f a ∧ k c = f a) :
    L3 Q (l.filter f) (m.filter g) (n.filter k) := by
  induction h with
  | nil => exact L3.nil
  | @cons a b c l m n h _ ih =>
    obtain ⟨h1, h2⟩ := hf a b c h
    rw [List.filter_cons, List.filter_cons, List.filter_cons, h1, h2]
    cases f a with
    | true => exact L3.cons h ih
    | false => exact ih

theorem L3.of_map {f g k : β → α} : ∀ (l : List β), (∀ x ∈ l, Q (f x) (g x) (k x)) → L3 Q (l.map f) (l.map g) (l.map k)
  | [], _ => L3.nil
  | x :: l, h => L3.cons (h x List.mem_cons_self) (L3.of_map l (fun y hy => h y (List.mem_cons_of_mem _ hy)))

theorem L3.mapM {f g k : α → Py β} {l m n : List α} (h : L3 Q l m n)
    (hf : ∀ a b c, Q a b c → P3 Q' (f a) (g b) (k c)) : P3 (L3 Q') (l.mapM f) (m.mapM g) (n.mapM k) := by
  induction h with
  | nil => exact P3.ok L3.nil
  | cons h _ ih =>
    rw [List.mapM_cons, List.mapM_cons, List.mapM_cons]
    exact P3.bind (hf _ _ _ h) (fun a b c h1 => P3.bind ih (fun l m n h2 => P3.ok (L3.cons h1 h2)))

theorem L3.zipIdx {l m n : List α} (h : L3 Q l m n) : ∀ k : Nat,
    L3 (fun a b c : α × Nat => Q a.1 b.1 c.1 ∧ b.2 = a.2 ∧ c.2 = a.2) (l.zipIdx k) (m.zipIdx k) (n.zipIdx k) := by
  induction h with
  | nil => intro k; exact L3.nil
  | cons h _ ih =>
    intro k
    rw [List.zipIdx_cons, List.zipIdx_cons, List.zipIdx_cons]
    exact L3.cons ⟨h, rfl, rfl⟩ (ih (k + 1))

theorem L3.foldl {γ : Type} {W : γ → γ → γ → Prop} {f g k : γ → α → γ} {l m n : List α} (h : L3 Q l m n)
    (hf : ∀ u v w a b c, W u v w → Q a b c → W (f u a) (g v b) (k w c)) :
    ∀ {u v w : γ}, W u v w → W (l.foldl f u) (m.foldl g v) (n.foldl k w) := by
  induction h with
  | nil => intro u v w hw; exact hw
  | cons h _ ih => intro u v w hw; exact ih (hf _ _ _ _ _ _ hw h)

theorem O3.getItem {κ : Type} [DecidableEq κ] {d e f : Dict κ α} {k : κ} (h : O3 Q (Dict.get? d k) (Dict.get? e k) (Dict.get? f k)) :
    P3 Q (Dict.getItem d k) (Dict.getItem e k) (Dict.getItem f k) := by
  unfold Dict.getItem
  generalize Dict.get? d k = x at h
  generalize Dict.get? e k = y at h
  generalize Dict.get? f k = z at h
  cases h with
  | none => exact P3.err _
  | some h => exact P3.ok h

/-- dictionaries with related values at every key -/
def D3 {κ : Type} [DecidableEq κ] (Q : α → α → α → Prop) (d e f : Dict κ α) : Prop :=
  ∀ k, O3 Q (Dict.get? d k) (Dict.get? e k) (Dict.get? f k)

theorem D3.set {κ : Type} [DecidableEq κ] {d e f : Dict κ α} (h : D3 Q d e f) {a b c : α} (hq : Q a b c) (k : κ) :
    D3 Q (Dict.set d k a) (Dict.set e k b) (Dict.set f k c) := by
  intro k'
  by_cases hk : k' = k
  · subst hk
    rw [Dict.get?_set_self, Dict.get?_set_self, Dict.get?_set_self]
    exact O3.some hq
  · have hk := Ne.symm hk
    rw [Dict.get?_set_ne _ _ hk, Dict.get?_set_ne _ _ hk, Dict.get?_set_ne _ _ hk]
    exact h k'

end generic

/-! ### tables -/

section
variable {R : ℚ → ℚ → ℚ → Prop} {Good : ℚ → Prop} {A B C : Arith}

/-- the operations of the three arithmetics preserve `R`; numbers from outside are related if they satisfy `Good` -/
structure Closed (Good : ℚ → Prop) (R : ℚ → ℚ → ℚ → Prop) (A B C : Arith) : Prop where
  inp : ∀ x, Good x → R (A.inp x) (B.inp x) (C.inp x)
  one : R A.one B.one C.one
  mul : ∀ a b c a' b' c', R a b c → R a' b' c' → R (A.mul a a') (B.mul b b') (C.mul c c')
  div : ∀ a b c a' b' c', R a b c → R a' b' c' → R (A.div a a') (B.div b b') (C.div c c')
  sum : ∀ l m n, L3 R l m n → R (A.sum l) (B.sum m) (C.sum n)
  quot : ∀ a b c a' b' c', R a b c → R a' b' c' → R (A.quot a a') (B.quot b b') (C.quot c c')

/-- entries for the same values with related numbers -/
def E3 (R : ℚ → ℚ → ℚ → Prop) (a b c : PEntry) : Prop :=
  b.entries = a.entries ∧ c.entries = a.entries ∧ R a.value b.value c.value

abbrev Tab3 (R : ℚ → ℚ → ℚ → Prop) : Potential → Potential → Potential → Prop := L3 (E3 R)

theorem Closed.fromNodes (hC : Closed Good R A B C) (ns : List Variable) : Tab3 R (A.fromNodes ns) (B.fromNodes ns) (C.fromNodes ns) :=
  L3.of_map _ (fun _ _ => ⟨rfl, rfl, hC.one⟩)

theorem Closed.getPotential (hC : Closed Good R A B C) (n : Variable) {probs : List ℚ} (hg : ∀ x ∈ probs, Good x) (ps : List Variable) :
    P3 (Tab3 R) (A.getPotential n probs ps) (B.getPotential n probs ps) (C.getPotential n probs ps) := by
  refine L3.mapM ((hC.fromNodes _).zipIdx 0) ?_
  rintro ⟨a, i⟩ ⟨b, j⟩ ⟨c, k⟩ ⟨h1, h2, h3⟩
  simp only at h2 h3
  subst h2
  subst h3
  simp only
  cases hp : probs[k]? with
  | none => exact P3.err _
  | some x => exact P3.ok ⟨h1.1, h1.2.1, hC.inp x (hg x (List.mem_of_getElem? hp))⟩

theorem matchesE_congr {a b x y : PEntry} (h1 : b.entries = a.entries) (h2 : y.entries = x.entries) : b.matchesE y = a.matchesE x := by
  unfold PEntry.matchesE
  rw [h1, h2]

theorem Closed.marginalize (hC : Closed Good R A B C) {p q r : Potential} (h : Tab3 R p q r) (ns : List Variable) :
    Tab3 R (A.marginalize p ns) (B.marginalize q ns) (C.marginalize r ns) := by
  refine L3.map (hC.fromNodes ns) ?_
  intro a b c hab
  refine ⟨hab.1, hab.2.1, hC.sum _ _ _ ?_⟩
  refine L3.map (L3.filter h ?_) (fun a b c h => h.2.2)
  intro x y z hx
  exact ⟨matchesE_congr hx.1 hab.1, matchesE_congr hx.2.1 hab.2.1⟩

theorem Closed.normalize (hC : Closed Good R A B C) {p q r : Potential} (h : Tab3 R p q r) :
    Tab3 R (A.normalize p) (B.normalize q) (C.normalize r) := by
  refine L3.map h ?_
  intro a b c hab
  exact ⟨hab.1, hab.2.1, hC.quot _ _ _ _ _ _ hab.2.2 (hC.sum _ _ _ (L3.map h (fun a b c h => h.2.2)))⟩

theorem Closed.divide (hC : Closed Good R A B C) {p q r p' q' r' : Potential} (h : Tab3 R p q r) (h' : Tab3 R p' q' r') :
    P3 (Tab3 R) (A.divide p p') (B.divide q q') (C.divide r r') := by
  refine L3.mapM (h.zipIdx 0) ?_
  rintro ⟨a, i⟩ ⟨b, j⟩ ⟨c, k⟩ ⟨h1, h2, h3⟩
  simp only at h1 h2 h3
  subst h2
  subst h3
  have := h'.get k
  simp only
  generalize p'[k]? = x at this
  generalize q'[k]? = y at this
  generalize r'[k]? = z at this
  cases this with
  | none => exact P3.err _
  | some h4 => exact P3.ok ⟨h1.1, h1.2.1, hC.div _ _ _ _ _ _ h1.2.2 h4.2.2⟩

theorem Closed.multiply (hC : Closed Good R A B C) {p q r p' q' r' : Potential} (h : Tab3 R p q r) (h' : Tab3 R p' q' r') :
    Tab3 R (A.multiply p p') (B.multiply q q') (C.multiply r r') := by
  refine L3.foldl (W := Tab3 R) h' ?_ h
  intro u v w a b c hu ha
  refine L3.map hu ?_
  intro x y z hx
  rw [matchesE_congr hx.1 ha.1, matchesE_congr hx.2.1 ha.2.1]
  cases x.matchesE a with
  | true => exact ⟨hx.1, hx.2.1, hC.mul _ _ _ _ _ _ hx.2.2 ha.2.2⟩
  | false => exact hx

/-! ### node objects and join trees -/

structure Obj3 (R : ℚ → ℚ → ℚ → Prop) (o p q : NodeObj) : Prop where
  probs : p.probs = o.probs ∧ q.probs = o.probs
  parents : p.parents = o.parents ∧ q.parents = o.parents
  clique : p.parentClique = o.parentClique ∧ q.parentClique = o.parentClique
  pot : O3 (Tab3 R) o.potential p.potential q.potential

abbrev Heap3 (R : ℚ → ℚ → ℚ → Prop) : Dict Int NodeObj → Dict Int NodeObj → Dict Int NodeObj → Prop := D3 (Obj3 R)

/-- all stored likelihoods satisfy `Good` -/
def GoodEv (Good : ℚ → Prop) (ev : Dict Int (Dict Str ℚ)) : Prop :=
  ∀ i m, Dict.get? ev i = some m → ∀ x q, Dict.get? m x = some q → Good q

structure JT3 (R : ℚ → ℚ → ℚ → Prop) (a b c : JoinTree) : Prop where
  left : b = { a with potentials := b.potentials, heap := b.heap }
  right : c = { a with potentials := c.potentials, heap := c.heap }
  pots : D3 (Tab3 R) a.potentials b.potentials c.potentials
  heap : Heap3 R a.heap b.heap c.heap

section jt
variable {a b c : JoinTree}

theorem JT3.nodes (h : JT3 R a b c) : b.nodes = a.nodes ∧ c.nodes = a.nodes := ⟨by rw [h.left], by rw [h.right]⟩
theorem JT3.edges (h : JT3 R a b c) : b.edges = a.edges ∧ c.edges = a.edges := ⟨by rw [h.left], by rw [h.right]⟩
theorem JT3.neighbors (h : JT3 R a b c) : b.neighbors = a.neighbors ∧ c.neighbors = a.neighbors := ⟨by rw [h.left], by rw [h.right]⟩
theorem JT3.evidences (h : JT3 R a b c) : b.evidences = a.evidences ∧ c.evidences = a.evidences := ⟨by rw [h.left], by rw [h.right]⟩
theorem JT3.listener (h : JT3 R a b c) : b.listener = a.listener ∧ c.listener = a.listener := ⟨by rw [h.left], by rw [h.right]⟩
theorem JT3.getCliques (h : JT3 R a b c) : b.getCliques = a.getCliques ∧ c.getCliques = a.getCliques :=
  ⟨by rw [h.left]; rfl, by rw [h.right]; rfl⟩
theorem JT3.getSepSets (h : JT3 R a b c) : b.getSepSets = a.getSepSets ∧ c.getSepSets = a.getSepSets :=
  ⟨by rw [h.left]; rfl, by rw [h.right]; rfl⟩
theorem JT3.getBbnNodes (h : JT3 R a b c) : b.getBbnNodes = a.getBbnNodes ∧ c.getBbnNodes = a.getBbnNodes :=
  ⟨by rw [h.left]; rfl, by rw [h.right]; rfl⟩
theorem JT3.getBbnNode (h : JT3 R a b c) (i : Int) : b.getBbnNode i = a.getBbnNode i ∧ c.getBbnNode i = a.getBbnNode i :=
  ⟨by rw [h.left]; rfl, by rw [h.right]; rfl⟩
theorem JT3.neighboring (h : JT3 R a b c) (js : SetIter Str) (k : Str) :
    Propagator.neighboringCliques js b k = Propagator.neighboringCliques js a k ∧
    Propagator.neighboringCliques js c k = Propagator.neighboringCliques js a k :=
  ⟨by rw [h.left]; rfl, by rw [h.right]; rfl⟩

theorem JT3.withPots (h : JT3 R a b c) {p q r : Dict Str Potential} (hp : D3 (Tab3 R) p q r) :
    JT3 R { a with potentials := p } { b with potentials := q } { c with potentials := r } :=
  ⟨by rw [h.left], by rw [h.right], hp, h.heap⟩

theorem JT3.withHeap (h : JT3 R a b c) {p q r : Dict Int NodeObj} (hp : Heap3 R p q r) :
    JT3 R { a with heap := p } { b with heap := q } { c with heap := r } :=
  ⟨by rw [h.left], by rw [h.right], h.pots, hp⟩

theorem JT3.withEv (h : JT3 R a b c) (ev : Dict Int (Dict Str ℚ)) :
    JT3 R { a with evidences := ev } { b with evidences := ev } { c with evidences := ev } :=
  ⟨by rw [h.left], by rw [h.right], h.pots, h.heap⟩

theorem JT3.withListener (h : JT3 R a b c) (l : Bool) :
    JT3 R { a with listener := l } { b with listener := l } { c with listener := l } :=
  ⟨by rw [h.left], by rw [h.right], h.pots, h.heap⟩

end jt

theorem Obj3.withClique {o p q : NodeObj} (h : Obj3 R o p q) (s : Option Str) :
    Obj3 R { o with parentClique := s } { p with parentClique := s } { q with parentClique := s } :=
  ⟨h.probs, h.parents, ⟨rfl, rfl⟩, h.pot⟩

theorem Obj3.withParents {o p q : NodeObj} (h : Obj3 R o p q) (s : Option (List Int)) :
    Obj3 R { o with parents := s } { p with parents := s } { q with parents := s } :=
  ⟨h.probs, ⟨rfl, rfl⟩, h.clique, h.pot⟩

theorem Obj3.withPot {o p q : NodeObj} (h : Obj3 R o p q) {x y z : Potential} (hp : Tab3 R x y z) :
    Obj3 R { o with potential := some x } { p with potential := some y } { q with potential := some z } :=
  ⟨h.probs, h.parents, h.clique, O3.some hp⟩

theorem JT3.find {a b c : JoinTree} (h : JT3 R a b c) (i : Int) :
    b.findCliquesWithNodeAndParents i = a.findCliquesWithNodeAndParents i ∧
    c.findCliquesWithNodeAndParents i = a.findCliquesWithNodeAndParents i := by
  have hg := h.getBbnNode i
  have hc := h.getCliques
  have hp : b.getParentIds i = a.getParentIds i ∧ c.getParentIds i = a.getParentIds i := by
    unfold JoinTree.getParentIds
    rw [hg.1, hg.2]
    have := h.heap i
    generalize Dict.get? a.heap i = x at this
    generalize Dict.get? b.heap i = y at this
    generalize Dict.get? c.heap i = z at this
    cases this with
    | none => exact ⟨rfl, rfl⟩
    | some ho =>
      simp only
      rw [ho.parents.1, ho.parents.2]
      exact ⟨rfl, rfl⟩
  unfold JoinTree.findCliquesWithNodeAndParents
  rw [hp.1, hp.2, hc.1, hc.2]
  exact ⟨rfl, rfl⟩

theorem JT3.getClique {a b c : JoinTree} (h : JT3 R a b c) (v : Variable) :
    P3 (fun x y z : Str × JoinTree => y.1 = x.1 ∧ z.1 = x.1 ∧ JT3 R x.2 y.2 z.2)
      (Initializer.getClique a v) (Initializer.getClique b v) (Initializer.getClique c v) := by
  unfold Initializer.getClique
  refine P3.bind (O3.getItem (h.heap v.id)) ?_
  intro o p q ho
  rw [ho.clique.1, ho.clique.2]
  cases o.parentClique with
  | some cid => exact P3.ok ⟨rfl, rfl, h⟩
  | none =>
    simp only
    rw [(h.find v.id).1, (h.find v.id).2]
    refine P3.bind (Q := fun x y z => y = x ∧ z = x) (P3.same (fun _ _ => ⟨rfl, rfl⟩)) ?_
    rintro cs cs' cs'' ⟨h1, h2⟩
    rw [h1, h2]
    cases (sortBy (fun a b => strLe (Clique.id a) (Clique.id b)) cs).head? with
    | none => exact P3.err _
    | some k => exact P3.ok ⟨rfl, rfl, h.withHeap (h.heap.set (ho.withClique _) _)⟩

theorem Closed.assignNode (hC : Closed Good R A B C) {a b c : JoinTree} (h : JT3 R a b c) (v : Variable) :
    P3 (JT3 R) (A.assignNode a v) (B.assignNode b v) (C.assignNode c v) := by
  unfold Arith.assignNode
  refine P3.bind (h.getClique v) ?_
  rintro ⟨cid, a⟩ ⟨_, b⟩ ⟨_, c⟩ ⟨h1, h2, h⟩
  simp only at h1 h2 h
  subst h1
  subst h2
  simp only
  refine P3.bind (O3.getItem (h.pots _)) ?_
  intro p q r hp
  refine P3.bind (O3.getItem (h.heap _)) ?_
  intro o o' o'' ho
  have := ho.pot
  generalize o.potential = x at this
  generalize o'.potential = y at this
  generalize o''.potential = z at this
  cases this with
  | none => exact P3.err _
  | some h3 => exact P3.ok (h.withPots (h.pots.set (hC.multiply hp h3) _))

theorem getEvidence_pot (ev : Dict Int (Dict Str ℚ)) (v : Variable) (x : Str) :
    ∃ m, (Dict.get? m x = none ∨ ∃ q, Dict.get? m x = some q) ∧
      Dict.get? (JoinTree.getEvidence ev v x).1 v.id = some m ∧
      (JoinTree.getEvidence ev v x).2 = [{ entries := [(v.id, x)], value := (Dict.get? m x).getD 1 }] := by
  refine ⟨Dict.setDefault ((Dict.get? ev v.id).getD []) x 1, ?_, ?_, rfl⟩
  · cases Dict.get? (Dict.setDefault ((Dict.get? ev v.id).getD []) x 1) x with
    | none => exact Or.inl rfl
    | some q => exact Or.inr ⟨q, rfl⟩
  · exact Dict.get?_set_self _ _ _

theorem GoodEv.getEvidence (h1 : Good 1) {ev : Dict Int (Dict Str ℚ)} (h : GoodEv Good ev) (v : Variable) (x : Str) :
    GoodEv Good (JoinTree.getEvidence ev v x).1 := by
  intro i m hm y q hq
  have he : (JoinTree.getEvidence ev v x).1 = Dict.set ev v.id (Dict.setDefault ((Dict.get? ev v.id).getD []) x 1) := rfl
  rw [he] at hm
  by_cases hi : v.id = i
  · subst hi
    rw [Dict.get?_set_self] at hm
    cases hm
    have hd : ∀ y q, Dict.get? ((Dict.get? ev v.id).getD []) y = some q → Good q := by
      intro y q hq
      cases hev : Dict.get? ev v.id with
      | none => rw [hev] at hq; simp [Dict.get?] at hq
      | some m => rw [hev] at hq; exact h _ m hev y q hq
    unfold Dict.setDefault at hq
    split at hq
    · exact hd y q hq
    · by_cases hxy : x = y
      · subst hxy
        rw [Dict.get?_set_self] at hq
        cases hq
        exact h1
      · rw [Dict.get?_set_ne _ _ hxy] at hq
        exact hd y q hq
  · rw [Dict.get?_set_ne _ _ hi] at hm
    exact h i m hm y q hq

/-- three join trees with related tables and good likelihoods -/
def JG3 (Good : ℚ → Prop) (R : ℚ → ℚ → ℚ → Prop) (a b c : JoinTree) : Prop := JT3 R a b c ∧ GoodEv Good a.evidences

theorem Closed.applyEvidence (hC : Closed Good R A B C) (h1 : Good 1) {a b c : JoinTree} (h : JG3 Good R a b c) (v : Variable) (x : Str) :
    P3 (JG3 Good R) (A.applyEvidence v a x) (B.applyEvidence v b x) (C.applyEvidence v c x) := by
  obtain ⟨h, hg⟩ := h
  unfold Arith.applyEvidence
  refine P3.bind (O3.getItem (h.heap _)) ?_
  intro o p q ho
  rw [ho.clique.1, ho.clique.2]
  cases o.parentClique with
  | none => exact P3.err _
  | some cid =>
    simp only
    refine P3.bind (O3.getItem (h.pots _)) ?_
    intro t t' t'' ht
    rw [h.evidences.1, h.evidences.2]
    have hg' := hg.getEvidence h1 v x
    have hev : Tab3 R (A.evidencePot a.evidences v x) (B.evidencePot a.evidences v x) (C.evidencePot a.evidences v x) := by
      obtain ⟨m, hm, hm1, hm2⟩ := getEvidence_pot a.evidences v x
      unfold Arith.evidencePot
      rw [hm2]
      refine L3.cons ⟨rfl, rfl, hC.inp _ ?_⟩ L3.nil
      rcases hm with hm | ⟨q, hm⟩
      · rw [hm]; exact h1
      · rw [hm]; exact hg' v.id m hm1 x q hm
    have h3 := (h.withEv (JoinTree.getEvidence a.evidences v x).1).withPots (h.pots.set (hC.multiply ht hev) cid)
    exact P3.ok ⟨h3, hg'⟩

theorem JT3.congr_pots {a b c : JoinTree} (h : JT3 R a b c) : D3 (Tab3 R) a.potentials b.potentials c.potentials := h.pots

theorem Closed.freshTables (hC : Closed Good R A B C) {a b c : JoinTree} (h : JT3 R a b c) :
    D3 (Tab3 R) (A.freshTables a) (B.freshTables b) (C.freshTables c) := by
  unfold Arith.freshTables
  rw [h.getCliques.1, h.getCliques.2, h.getSepSets.1, h.getSepSets.2]
  have step1 : ∀ (l : List Clique) {p q r : Dict Str Potential}, D3 (Tab3 R) p q r →
      D3 (Tab3 R) (l.foldl (fun d c => Dict.set d c.id (A.fromNodes c.nodes)) p) (l.foldl (fun d c => Dict.set d c.id (B.fromNodes c.nodes)) q)
        (l.foldl (fun d c => Dict.set d c.id (C.fromNodes c.nodes)) r) := by
    intro l
    induction l with
    | nil => intro p q r h; exact h
    | cons c l ih => intro p q r h; exact ih (h.set (hC.fromNodes _) _)
  have step2 : ∀ (l : List SepSet) {p q r : Dict Str Potential}, D3 (Tab3 R) p q r →
      D3 (Tab3 R) (l.foldl (fun d c => Dict.set d c.id (A.fromNodes c.nodes)) p) (l.foldl (fun d c => Dict.set d c.id (B.fromNodes c.nodes)) q)
        (l.foldl (fun d c => Dict.set d c.id (C.fromNodes c.nodes)) r) := by
    intro l
    induction l with
    | nil => intro p q r h; exact h
    | cons c l ih => intro p q r h; exact ih (h.set (hC.fromNodes _) _)
  exact step2 _ (step1 _ h.pots)

theorem getClique_evidences {jt jt' : JoinTree} {v : Variable} {c : Str} (h : Initializer.getClique jt v = .ok (c, jt')) :
    jt'.evidences = jt.evidences := by
  unfold Initializer.getClique at h
  obtain ⟨o, _, h⟩ := bind_ok h
  cases hp : o.parentClique with
  | some k =>
    rw [hp] at h
    have := Except.ok.inj h
    rw [← (Prod.mk.inj this).2]
  | none =>
    rw [hp] at h
    obtain ⟨cs, _, h⟩ := bind_ok h
    cases hs : (sortBy (fun a b => strLe (Clique.id a) (Clique.id b)) cs).head? with
    | none => rw [hs] at h; cases h
    | some k =>
      rw [hs] at h
      have := Except.ok.inj h
      rw [← (Prod.mk.inj this).2]

theorem assignNode_evidences {jt jt' : JoinTree} {v : Variable} (h : A.assignNode jt v = .ok jt') : jt'.evidences = jt.evidences := by
  unfold Arith.assignNode at h
  obtain ⟨⟨cid, j⟩, h1, h⟩ := bind_ok h
  obtain ⟨p, _, h⟩ := bind_ok h
  obtain ⟨o, _, h⟩ := bind_ok h
  cases hp : o.potential with
  | none => rw [hp] at h; cases h
  | some q =>
    rw [hp] at h
    have := Except.ok.inj h
    rw [← this]
    have h2 := getClique_evidences h1
    exact h2

theorem Closed.assignNode' (hC : Closed Good R A B C) {a b c : JoinTree} (h : JG3 Good R a b c) (v : Variable) :
    P3 (JG3 Good R) (A.assignNode a v) (B.assignNode b v) (C.assignNode c v) := by
  have h1 := hC.assignNode h.1 v
  cases ha : A.assignNode a v with
  | error e =>
    rw [ha] at h1
    generalize B.assignNode b v = y at h1
    generalize C.assignNode c v = z at h1
    cases h1
    exact P3.err _
  | ok a' =>
    rw [ha] at h1
    generalize B.assignNode b v = y at h1
    generalize C.assignNode c v = z at h1
    cases h1 with
    | ok h1 => exact P3.ok ⟨h1, by rw [assignNode_evidences ha]; exact h.2⟩

theorem Closed.initializeJt (hC : Closed Good R A B C) (h1 : Good 1) {a b c : JoinTree} (h : JG3 Good R a b c) :
    P3 (JG3 Good R) (A.initializeJt a) (B.initializeJt b) (C.initializeJt c) := by
  unfold Arith.initializeJt
  have h0 := hC.freshTables h.1
  have h' : JT3 R { a with potentials := A.freshTables a } { b with potentials := B.freshTables b }
      { c with potentials := C.freshTables c } := h.1.withPots h0
  have hn := h'.getBbnNodes
  simp only
  rw [hn.1, hn.2]
  refine P3.bind (P3.foldlM (Q := JG3 Good R) _ ⟨h', h.2⟩ (fun v _ a b c h => hC.assignNode' h v)) ?_
  intro a b c h
  exact P3.foldlM (Q := JG3 Good R) _ h (fun v _ a b c h => P3.foldlM (Q := JG3 Good R) _ h (fun x _ a b c h => hC.applyEvidence h1 h v x))

theorem Closed.marginalizeFor (hC : Closed Good R A B C) {a b c : JoinTree} (h : JT3 R a b c) (k : Str) (ns : List Variable) :
    P3 (Tab3 R) (A.marginalizeFor a k ns) (B.marginalizeFor b k ns) (C.marginalizeFor c k ns) := by
  unfold Arith.marginalizeFor
  have := h.pots k
  generalize Dict.get? a.potentials k = x at this
  generalize Dict.get? b.potentials k = y at this
  generalize Dict.get? c.potentials k = z at this
  cases this with
  | none =>
    simp only
    split
    · exact P3.ok L3.nil
    · exact P3.err _
  | some h1 => exact P3.ok (hC.marginalize h1 ns)

theorem Closed.pass (hC : Closed Good R A B C) {a b c : JoinTree} (h : JT3 R a b c) (x s y : Str) :
    P3 (JT3 R) (A.passSingleMessage a x s y) (B.passSingleMessage b x s y) (C.passSingleMessage c x s y) := by
  unfold Arith.passSingleMessage
  refine P3.bind (O3.getItem (h.pots _)) ?_
  intro o o' o'' ho
  rw [show Dict.getItem b.nodes s = Dict.getItem a.nodes s by rw [h.nodes.1],
    show Dict.getItem c.nodes s = Dict.getItem a.nodes s by rw [h.nodes.2]]
  refine P3.bind (Q := fun x y z => y = x ∧ z = x) (P3.same (fun _ _ => ⟨rfl, rfl⟩)) ?_
  rintro sn sn' sn'' ⟨h1, h2⟩
  rw [h1, h2]
  refine P3.bind (hC.marginalizeFor h _ _) ?_
  intro n n' n'' hn
  simp only
  have hp := h.pots.set hn s
  refine P3.bind (O3.getItem (hp _)) ?_
  intro t t' t'' ht
  refine P3.bind (hC.divide hn ho) ?_
  intro r r' r'' hr
  exact P3.ok (h.withPots (hp.set (hC.multiply ht hr) _))

/-- the states of the walks: the same marks, related join trees -/
def St3 (R : ℚ → ℚ → ℚ → Prop) (x y z : List Str × JoinTree) : Prop := y.1 = x.1 ∧ z.1 = x.1 ∧ JT3 R x.2 y.2 z.2

theorem Closed.collectWalk (hC : Closed Good R A B C) (js : SetIter Str) : ∀ (fuel : Nat) (x s y : Str) (st st' st'' : List Str × JoinTree),
    St3 R st st' st'' → P3 (St3 R) (A.collectWalk js fuel x s y st) (B.collectWalk js fuel x s y st') (C.collectWalk js fuel x s y st'')
  | 0, _, _, _, _, _, _, _ => P3.err _
  | fuel + 1, x, s, y, (m, a), (m', b), (m'', c), ⟨h1, h2, h⟩ => by
      simp only at h1 h2 h
      rw [h1, h2]
      unfold Arith.collectWalk
      simp only
      rw [(h.neighboring js y).1, (h.neighboring js y).2]
      refine P3.bind (P3.foldlM (Q := St3 R) _ ⟨rfl, rfl, h⟩ (fun sc _ a b c h => Closed.collectWalk hC js fuel y sc.1 sc.2 _ _ _ h)) ?_
      rintro ⟨m, a⟩ ⟨m', b⟩ ⟨m'', c⟩ ⟨h1, h2, h⟩
      refine P3.bind (hC.pass h y s x) ?_
      intro a b c h
      exact P3.ok ⟨h1, h2, h⟩

theorem Closed.collect (hC : Closed Good R A B C) (js : SetIter Str) (fuel : Nat) {a b c : JoinTree} (h : JT3 R a b c) (k : Str) :
    P3 (JT3 R) (A.collect js fuel a k) (B.collect js fuel b k) (C.collect js fuel c k) := by
  unfold Arith.collect
  simp only
  rw [(h.neighboring js k).1, (h.neighboring js k).2]
  refine P3.bind (P3.foldlM (Q := St3 R) _ ⟨rfl, rfl, h⟩ (fun sc _ a b c h => hC.collectWalk js fuel k sc.1 sc.2 _ _ _ h)) ?_
  rintro ⟨m, a⟩ ⟨m', b⟩ ⟨m'', c⟩ ⟨h1, h2, h⟩
  exact P3.ok h

theorem Closed.distributeWalk (hC : Closed Good R A B C) (js : SetIter Str) : ∀ (fuel : Nat) (y : Str) (st st' st'' : List Str × JoinTree),
    St3 R st st' st'' → P3 (St3 R) (A.distributeWalk js fuel y st) (B.distributeWalk js fuel y st') (C.distributeWalk js fuel y st'')
  | 0, _, _, _, _, _ => P3.err _
  | fuel + 1, y, (m, a), (m', b), (m'', c), ⟨h1, h2, h⟩ => by
      simp only at h1 h2 h
      rw [h1, h2]
      unfold Arith.distributeWalk
      simp only
      rw [(h.neighboring js y).1, (h.neighboring js y).2]
      refine P3.foldlM (Q := St3 R) _ ⟨rfl, rfl, h⟩ ?_
      rintro sc _ ⟨m, a⟩ ⟨m', b⟩ ⟨m'', c⟩ ⟨h1, h2, h⟩
      refine P3.bind (hC.pass h y sc.1 sc.2) ?_
      intro a b c h
      exact Closed.distributeWalk hC js fuel sc.2 _ _ _ ⟨h1, h2, h⟩

theorem Closed.distribute (hC : Closed Good R A B C) (js : SetIter Str) (fuel : Nat) {a b c : JoinTree} (h : JT3 R a b c) (k : Str) :
    P3 (JT3 R) (A.distribute js fuel a k) (B.distribute js fuel b k) (C.distribute js fuel c k) := by
  unfold Arith.distribute
  simp only
  rw [(h.neighboring js k).1, (h.neighboring js k).2]
  refine P3.bind (P3.foldlM (Q := St3 R) _ ⟨rfl, rfl, h⟩ ?_) ?_
  · rintro sc _ ⟨m, a⟩ ⟨m', b⟩ ⟨m'', c⟩ ⟨h1, h2, h⟩
    refine P3.bind (hC.pass h k sc.1 sc.2) ?_
    intro a b c h
    exact hC.distributeWalk js fuel sc.2 _ _ _ ⟨h1, h2, h⟩
  · rintro ⟨m, a⟩ ⟨m', b⟩ ⟨m'', c⟩ ⟨h1, h2, h⟩
    exact P3.ok h

theorem Closed.propagate (hC : Closed Good R A B C) (js : SetIter Str) {a b c : JoinTree} (h : JT3 R a b c) :
    P3 (JT3 R) (A.propagate js a) (B.propagate js b) (C.propagate js c) := by
  unfold Arith.propagate
  rw [h.getCliques.1, h.getCliques.2]
  cases (sortBy (fun a b => strLe (Clique.id a) (Clique.id b)) a.getCliques).head? with
  | none => exact P3.err _
  | some x =>
    simp only
    rw [h.nodes.1, h.nodes.2]
    refine P3.bind (hC.collect js _ h _) ?_
    intro a' b' c' h'
    rw [h'.nodes.1, h'.nodes.2]
    exact hC.distribute js _ h' _

theorem Closed.initNode (hC : Closed Good R A B C) (b : Bbn) {p q r : Dict Int NodeObj} (h : Heap3 R p q r) (n : BbnNode)
    (hg : ∀ x ∈ n.probs, Good x) : P3 (Heap3 R) (A.initNode b p n) (B.initNode b q n) (C.initNode b r n) := by
  unfold Arith.initNode
  refine P3.bind (Q := fun x y z => y = x ∧ z = x) (P3.same (fun _ _ => ⟨rfl, rfl⟩)) ?_
  rintro ps ps' ps'' ⟨h1, h2⟩
  rw [h1, h2]
  refine P3.bind (hC.getPotential n.var hg _) ?_
  intro t t' t'' ht
  refine P3.bind (O3.getItem (h _)) ?_
  intro o o' o'' ho
  exact P3.ok (h.set (ho.withPot ht) _)

theorem moralParents3 (b : Bbn) {p q r : Dict Int NodeObj} (h : Heap3 R p q r) :
    P3 (Heap3 R) (moralParents b p) (moralParents b q) (moralParents b r) := by
  unfold moralParents
  refine P3.foldlM (Q := Heap3 R) _ h ?_
  intro n _ p q r h
  refine P3.bind (O3.getItem (h _)) ?_
  intro o o' o'' ho
  exact P3.ok (h.set (ho.withParents _) _)

theorem Heap3.refl {p : Dict Int NodeObj} (h : ∀ i o, Dict.get? p i = some o → o.potential = none) : Heap3 R p p p := by
  intro i
  cases hi : Dict.get? p i with
  | none => exact O3.none
  | some o => exact O3.some ⟨⟨rfl, rfl⟩, ⟨rfl, rfl⟩, ⟨rfl, rfl⟩, by rw [h i o hi]; exact O3.none⟩

theorem addEdge_ev (js : SetIter Str) (jt : JoinTree) (s : SepSet) :
    (jt.addEdge js s).evidences = jt.evidences ∧ (jt.addEdge js s).potentials = jt.potentials := by
  unfold JoinTree.addEdge
  split <;> exact ⟨rfl, rfl⟩

theorem transform_ev (js : SetIter Str) (cs : List Clique) :
    (Transformer.transform js cs).evidences = [] ∧ (Transformer.transform js cs).potentials = [] := by
  unfold Transformer.transform
  have h1 : ∀ (l : List Clique) (jt : JoinTree), jt.evidences = [] ∧ jt.potentials = [] →
      (l.foldl Transformer.addClique jt).evidences = [] ∧ (l.foldl Transformer.addClique jt).potentials = [] := by
    intro l
    induction l with
    | nil => intro jt h; exact h
    | cons c l ih => intro jt h; exact ih _ h
  have h2 : ∀ (l : List SepSet) (jt : JoinTree), jt.evidences = [] ∧ jt.potentials = [] →
      (l.foldl (fun jt s => jt.addEdge js s) jt).evidences = [] ∧ (l.foldl (fun jt s => jt.addEdge js s) jt).potentials = [] := by
    intro l
    induction l with
    | nil => intro jt h; exact h
    | cons c l ih =>
      intro jt h
      refine ih _ ?_
      rw [(addEdge_ev js jt c).1, (addEdge_ev js jt c).2]
      exact h
  exact h2 _ _ (h1 _ _ ⟨rfl, rfl⟩)

theorem JT3.refl {jt : JoinTree} (hp : jt.potentials = []) {p q r : Dict Int NodeObj} (h : Heap3 R p q r) (pi : Dict Int (List Int)) :
    JT3 R { jt with parentInfo := pi, heap := p } { jt with parentInfo := pi, heap := q } { jt with parentInfo := pi, heap := r } := by
  refine ⟨rfl, rfl, ?_, h⟩
  intro k
  simp only [hp]
  exact O3.none

theorem mem_dict_set {κ α : Type} [DecidableEq κ] {k : κ} {v : α} : ∀ {d : Dict κ α} {x : κ × α}, x ∈ Dict.set d k v → x ∈ d ∨ x.2 = v
  | [], x, h => by
      simp only [Dict.set, List.mem_singleton] at h
      exact Or.inr (by rw [h])
  | (k', v') :: d, x, h => by
      unfold Dict.set at h
      split at h
      · rcases List.mem_cons.1 h with h | h
        · exact Or.inr (by rw [h])
        · exact Or.inl (List.mem_cons_of_mem _ h)
      · rcases List.mem_cons.1 h with h | h
        · exact Or.inl (by rw [h]; exact List.mem_cons_self)
        · rcases mem_dict_set h with h | h
          · exact Or.inl (List.mem_cons_of_mem _ h)
          · exact Or.inr h

theorem startObj_fresh (l : List BbnNode) : ∀ kv ∈ l.map (InferenceController.startObj []), kv.2.potential = none := by
  intro kv h
  obtain ⟨n, _, rfl⟩ := List.mem_map.1 h
  rfl

theorem initialHeap_fresh (b : Bbn) (i : Int) (o : NodeObj) (h : Dict.get? (InferenceController.initialHeap b []) i = some o) :
    o.potential = none := by
  have hm := Dict.mem_of_get? h
  unfold InferenceController.initialHeap at hm
  rcases List.mem_append.1 hm with h | h
  · exact startObj_fresh _ _ h
  · have : ∀ (l : List (Int × NodeObj)) (d : Dict Int NodeObj), (∀ kv ∈ d, kv.2.potential = none) → (∀ kv ∈ l, kv.2.potential = none) →
        ∀ kv ∈ l.foldl (fun d kv => Dict.set d kv.1 kv.2) d, kv.2.potential = none := by
      intro l
      induction l with
      | nil => intro d h1 _; exact h1
      | cons x l ih =>
        intro d h1 h2
        refine ih _ ?_ (fun kv hkv => h2 kv (List.mem_cons_of_mem _ hkv))
        intro kv hkv
        rcases mem_dict_set hkv with h | h
        · exact h1 kv h
        · rw [h]; exact h2 x List.mem_cons_self
    exact this _ [] (fun kv h => by cases h) (startObj_fresh _) _ h

theorem Closed.apply (hC : Closed Good R A B C) (h1 : Good 1) (it : SetIter Int) (js : SetIter Str) (b : Bbn)
    (hg : ∀ n ∈ b.toGraph.getNodes, ∀ x ∈ n.probs, Good x) :
    P3 (JT3 R) (A.apply it js b) (B.apply it js b) (C.apply it js b) := by
  unfold Arith.apply
  refine P3.bind (P3.foldlM (Q := Heap3 R) _ (Heap3.refl (initialHeap_fresh b)) (fun n hn p q r h => hC.initNode b h n (hg n hn))) ?_
  intro p q r h
  simp only
  refine P3.bind (moralParents3 b h) ?_
  intro p q r h
  obtain ⟨t1, t2⟩ := transform_ev js (Triangulator.triangulate it (moralize b)).1
  have h2 := JT3.refl (R := R) t2 h (InferenceController.parentInfoOf b)
  refine P3.bind (hC.initializeJt h1 ⟨h2, ?_⟩) ?_
  · intro i m hm
    simp only [t1] at hm
    simp [Dict.get?] at hm
  · intro a b c h
    refine P3.bind (hC.propagate js h.1) ?_
    intro a b c h
    exact P3.ok (h.withListener true)

/-- outcomes of a mutating call: related states and the same exception -/
def Out3 (R : ℚ → ℚ → ℚ → Prop) (x y z : JoinTree.Outcome) : Prop := JT3 R x.1 y.1 z.1 ∧ y.2 = x.2 ∧ z.2 = x.2

/-- the result of the call, or the state before it -/
def outOf (a : JoinTree) (x : Py JoinTree) : JoinTree.Outcome := match x with | .ok jt => (jt, none) | .error e => (a, some e)

theorem P3.out {x y z : Py JoinTree} {a b c : JoinTree} (h : P3 (JT3 R) x y z) (h0 : JT3 R a b c) :
    Out3 R (outOf a x) (outOf b y) (outOf c z) := by
  cases h with
  | err e => exact ⟨h0, rfl, rfl⟩
  | ok h => exact ⟨h, rfl, rfl⟩

theorem Closed.notify (hC : Closed Good R A B C) (h1 : Good 1) (js : SetIter Str) {a b c : JoinTree} (h : JG3 Good R a b c) (t : ChangeType) :
    Out3 R (A.notify js a t) (B.notify js b t) (C.notify js c t) := by
  unfold Arith.notify
  rw [h.1.listener.1, h.1.listener.2]
  split
  · cases t with
    | none => exact ⟨h.1, rfl, rfl⟩
    | retraction => exact (P3.bind (hC.initializeJt h1 h) (fun a b c h => hC.propagate js h.1)).out h.1
    | update => exact (hC.propagate js h.1).out h.1
  · exact ⟨h.1, rfl, rfl⟩

theorem Closed.updateEvidences (hC : Closed Good R A B C) (h1 : Good 1) (js : SetIter Str) {a b c : JoinTree} (h : JT3 R a b c)
    (es : List Evidence) (hw : ∀ es' t, es.mapM Evidence.validate = .ok es' → JoinTree.getChangeType a.evidences es' = .ok t →
      GoodEv Good (JoinTree.writeEvidences a.evidences es').1) :
    Out3 R (A.updateEvidences js a es) (B.updateEvidences js b es) (C.updateEvidences js c es) := by
  unfold Arith.updateEvidences
  cases he : es.mapM Evidence.validate with
  | error e => exact ⟨h, rfl, rfl⟩
  | ok es' =>
    simp only
    have hc := h.withEv (JoinTree.writeEvidences a.evidences es').1
    rw [h.evidences.1, h.evidences.2]
    cases ht : JoinTree.getChangeType a.evidences es' with
    | error e => exact ⟨h, rfl, rfl⟩
    | ok t =>
      simp only
      cases (JoinTree.writeEvidences a.evidences es').2 with
      | some e => exact ⟨hc, rfl, rfl⟩
      | none => exact hC.notify h1 js ⟨hc, hw es' t he ht⟩ t

theorem Closed.getBbnPotential (hC : Closed Good R A B C) {a b c : JoinTree} (h : JT3 R a b c) (v : Variable) :
    P3 (Tab3 R) (A.getBbnPotential a v) (B.getBbnPotential b v) (C.getBbnPotential c v) := by
  unfold Arith.getBbnPotential
  refine P3.bind (O3.getItem (h.heap _)) ?_
  intro o p q ho
  rw [ho.clique.1, ho.clique.2]
  cases o.parentClique with
  | none => exact P3.err _
  | some cid => exact P3.bind (hC.marginalizeFor h cid [v]) (fun a b c h => P3.ok (hC.normalize h))

/-! ### histories of evidence operations -/

section
variable {vars : List Variable} {cs : List Clique} {T : List SepSet} {N : Net}

theorem Live.goodEv {ℓ : Liks} {jt : JoinTree} (h : Live vars cs T N ℓ jt) (hG : ∀ q : ℚ, 0 ≤ q → q ≤ 1 → Good q) :
    GoodEv Good jt.evidences := by
  intro i m hm x q hq
  by_cases hi : i ∈ vids vars
  · obtain ⟨v, hv, rfl⟩ := List.mem_map.1 hi
    obtain ⟨h0, h1⟩ := h.range v hv m hm x q hq
    exact hG q h0 h1
  · rw [h.foreign i hi] at hm
    cases hm

theorem Live.writes_good (hN : NetOk vars N) (hne : cs ≠ []) (hvne : ∀ v ∈ vars, v.values ≠ []) {ℓ : Liks} {jt : JoinTree}
    (h : Live vars cs T N ℓ jt) (hG : ∀ q : ℚ, 0 ≤ q → q ≤ 1 → Good q) (js : SetIter Str)
    (es : List Evidence) (hes : ∀ e ∈ es, NodeOk vars e.node ∧ (Dict.keys e.values).Nodup) :
    ∀ es' t, es.mapM Evidence.validate = .ok es' → JoinTree.getChangeType jt.evidences es' = .ok t →
      GoodEv Good (JoinTree.writeEvidences jt.evidences es').1 := by
  intro es' t h1 h2
  obtain ⟨jt', _, a2, a3, _⟩ := h.update hN hne hvne js es hes
  have he : (evUpdate ⟨jt.evidences, ℓ⟩ es).1.ev = (JoinTree.writeEvidences jt.evidences es').1 := by
    unfold evUpdate
    rw [h1]
    simp only
    rw [h2]
    simp only
    cases (JoinTree.writeEvidences jt.evidences es').2 <;> rfl
  rw [he] at a3
  intro i m hm
  rw [← a3 i] at hm
  exact a2.goodEv hG i m hm

theorem Closed.runOp (hC : Closed Good R Arith.exact B C) (hG : ∀ q : ℚ, 0 ≤ q → q ≤ 1 → Good q)
    (hN : NetOk vars N) (hne : cs ≠ []) (hvne : ∀ v ∈ vars, v.values ≠ []) {ℓ : Liks} {a b c : JoinTree}
    (hl : Live vars cs T N ℓ a) (h : JT3 R a b c) (js : SetIter Str) (op : EvOp) (hop : op.Nodes vars) :
    Out3 R (Arith.exact.runOp js a op) (B.runOp js b op) (C.runOp js c op) := by
  have h1 : Good 1 := hG 1 (by norm_num) (le_refl _)
  have upd : ∀ es : List Evidence, (∀ e ∈ es, NodeOk vars e.node ∧ (Dict.keys e.values).Nodup) →
      Out3 R (Arith.exact.updateEvidences js a es) (B.updateEvidences js b es) (C.updateEvidences js c es) :=
    fun es hes => hC.updateEvidences h1 js h es (hl.writes_good hN hne hvne hG js es hes)
  cases op with
  | update es => exact upd es hop
  | unobserve ns => exact upd _ (unobserved_nodes hop)
  | unobserveAll =>
    unfold Arith.runOp Arith.unobserve
    simp only
    rw [h.getBbnNodes.1, h.getBbnNodes.2]
    refine upd _ (unobserved_nodes ?_)
    intro v hv
    have hv' := hl.calib.ctx.bbnNodes_perm.mem_iff.1 hv
    exact ⟨fun _ => hv', hl.calib.ctx.vals v hv'⟩
  | observe e =>
    replace hop : NodeOk vars e.node ∧ (Dict.keys e.values).Nodup := hop
    have hu1 := upd [e] (by intro e' he'; rw [List.mem_singleton] at he'; subst he'; exact hop)
    have hu2 := upd ([e.node].map JoinTree.unobservedEvidence)
      (unobserved_nodes (by intro v hv; rw [List.mem_singleton] at hv; subst hv; exact hop.1))
    unfold Arith.runOp
    simp only
    unfold Arith.setObservation Arith.unobserve
    rw [h.evidences.1, h.evidences.2]
    cases Dict.get? a.evidences e.node.id with
    | none => exact ⟨h, rfl, rfl⟩
    | some stored =>
      simp only
      split
      · cases ((e.values.filter (fun kv => decide (kv.2 = 1))).map Prod.fst).head? with
        | none => exact ⟨h, rfl, rfl⟩
        | some curr =>
          simp only
          split
          · exact hu2
          · exact hu1
      · exact hu1

theorem Closed.runHist (hC : Closed Good R Arith.exact B C) (hG : ∀ q : ℚ, 0 ≤ q → q ≤ 1 → Good q)
    (hN : NetOk vars N) (hne : cs ≠ []) (hvne : ∀ v ∈ vars, v.values ≠ []) :
    ∀ (hist : List (SetIter Str × EvOp)) {ℓ : Liks} {a b c : JoinTree}, Live vars cs T N ℓ a → JT3 R a b c →
      (∀ op ∈ hist, op.2.Nodes vars) → JT3 R (Arith.exact.runHist a hist) (B.runHist b hist) (C.runHist c hist)
  | [], _, _, _, _, _, h, _ => h
  | op :: hist, ℓ, a, b, c, hl, h, hops => by
      have h1 := hC.runOp hG hN hne hvne hl h op.1 op.2 (hops op List.mem_cons_self)
      obtain ⟨a', e1, l1, _⟩ := hl.step hN hne hvne op.1 op.2 (hops op List.mem_cons_self)
      have h2 := h1.1
      rw [Arith.exact_runOp, e1] at h2
      have h3 := Closed.runHist hC hG hN hne hvne hist l1 h2 (fun o ho => hops o (List.mem_cons_of_mem _ ho))
      have e : Arith.exact.runHist a (op :: hist) = Arith.exact.runHist a' hist := by
        unfold Arith.runHist
        rw [List.foldl_cons, Arith.exact_runOp, e1]
      rw [e]
      exact h3

end

end

end PyBBN
