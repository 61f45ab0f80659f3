import Verif.Spec.NetCopy
import Verif.Proofs.Dict
import Mathlib.Data.List.Dedup

/-! Networks as objects refine networks as values. -/

namespace PyBBN

/-! ### dictionaries under a map of the values -/

theorem nc_setDefault_map {K V W : Type} [DecidableEq K] (d : Dict K V) (f : V → W) (k : K) (v : V) :
    (Dict.setDefault d k v).map (fun kv => (kv.1, f kv.2)) = Dict.setDefault (d.map (fun kv => (kv.1, f kv.2))) k (f v) := by
  have hk : Dict.keys (d.map (fun kv => (kv.1, f kv.2))) = Dict.keys d := by
    unfold Dict.keys; rw [List.map_map]; rfl
  by_cases h : k ∈ Dict.keys d
  · rw [Dict.setDefault_of_mem h, Dict.setDefault_of_mem (by rw [hk]; exact h)]
  · rw [Dict.setDefault_of_not_mem h, Dict.setDefault_of_not_mem (by rw [hk]; exact h), List.map_append]
    rfl

theorem nc_set_map {K V W : Type} [DecidableEq K] (f : V → W) (k : K) (v : V) : ∀ (d : Dict K V),
    (Dict.set d k v).map (fun kv => (kv.1, f kv.2)) = Dict.set (d.map (fun kv => (kv.1, f kv.2))) k (f v)
  | [] => rfl
  | (a, b) :: d => by
      by_cases h : a = k
      · simp [Dict.set, h]
      · simp [Dict.set, h, nc_set_map f k v d]

theorem nc_mem_set {K V : Type} [DecidableEq K] {k : K} {v : V} {p : K × V} : ∀ {d : Dict K V}, p ∈ Dict.set d k v → p ∈ d ∨ p = (k, v)
  | [], h => by
      simp only [Dict.set, List.mem_cons, List.not_mem_nil, or_false] at h
      exact Or.inr h
  | (a, b) :: d, h => by
      unfold Dict.set at h
      split at h
      · rename_i e
        rcases List.mem_cons.1 h with h | h
        · right; rw [h, e]
        · exact Or.inl (List.mem_cons_of_mem _ h)
      · rcases List.mem_cons.1 h with h | h
        · exact Or.inl (h ▸ List.mem_cons_self)
        · rcases nc_mem_set h with h | h
          · exact Or.inl (List.mem_cons_of_mem _ h)
          · exact Or.inr h

theorem nc_mem_setDefault {K V : Type} [DecidableEq K] {d : Dict K V} {k : K} {v : V} {p : K × V} (h : p ∈ Dict.setDefault d k v) :
    p ∈ d ∨ p = (k, v) := by
  unfold Dict.setDefault at h
  split at h
  · exact Or.inl h
  · exact nc_mem_set h

theorem nc_get?_mem {K V : Type} [DecidableEq K] {k : K} {v : V} : ∀ {d : Dict K V}, Dict.get? d k = some v → (k, v) ∈ d
  | [], h => by cases h
  | (a, b) :: d, h => by
      unfold Dict.get? at h
      split at h
      · rename_i e
        cases h
        rw [e]; exact List.mem_cons_self
      · exact List.mem_cons_of_mem _ (nc_get?_mem h)

/-! ### the methods, on contents -/

/-- what is seen of contents when references are read by `f` -/
def ONet.viewWith (f : Ref → BbnNode) (o : ONet) : NetView :=
  { nodes := o.nodes.map (fun kv => (kv.1, f kv.2))
    edges := o.edges.map (fun kv => (kv.1, edgeView kv.2))
    edgeMap := o.edgeMap
    neighbors := o.neighbors
    parents := o.parents }

theorem Mem.view_eq (m : Mem) (r : NetRef) : m.view r = (m.load r).viewWith m.deref := rfl

theorem ONet.viewWith_congr {f g : Ref → BbnNode} {o : ONet} (h : ∀ x ∈ o.refs, f x = g x) : o.viewWith f = o.viewWith g := by
  unfold ONet.viewWith
  congr 1
  refine List.map_congr_left ?_
  intro kv hkv
  rw [h kv.2]
  exact List.mem_append_left _ (List.mem_map_of_mem hkv)

theorem key_of_view {N M : Type} [HasId N] [HasId M] {e : Edge N} {e' : Edge M} (h : edgeView e = edgeView e') : e.key = e'.key := by
  unfold edgeView at h
  simp only [Prod.mk.injEq] at h
  unfold Edge.key
  rw [h.1, h.2.1, h.2.2]

variable {f : Ref → BbnNode} {o : ONet} {b : Bbn}

theorem view_addNode (h : o.viewWith f = b.view) {x : Ref} (hx : (f x).var.id = x.id) :
    (o.addNode x).viewWith f = (b.addNode (f x)).view := by
  unfold ONet.viewWith Bbn.view at h ⊢
  injection h with h1 h2 h3 h4 h5
  show NetView.mk _ _ _ _ _ = NetView.mk _ _ _ _ _
  congr 1
  show (Dict.setDefault o.nodes x.id x).map (fun kv => (kv.1, f kv.2)) = Dict.setDefault b.nodes (f x).var.id (f x)
  rw [nc_setDefault_map, h1, hx]

theorem view_addEdge (h : o.viewWith f = b.view) {x y : Ref} (hx : (f x).var.id = x.id) (hy : (f y).var.id = y.id) :
    (o.addEdge ⟨x, y, .directed⟩).viewWith f = (b.addEdge ⟨f x, f y, .directed⟩).view := by
  have hn := view_addNode (view_addNode h hx) hy
  have hv : edgeView (⟨x, y, .directed⟩ : Edge Ref) = edgeView (⟨f x, f y, .directed⟩ : Edge BbnNode) := by
    show (x.id, y.id, EdgeType.directed) = ((f x).var.id, (f y).var.id, EdgeType.directed)
    rw [hx, hy]
  have hk := key_of_view hv
  unfold ONet.viewWith Bbn.view at h hn ⊢
  injection h with h1 h2 h3 h4 h5
  injection hn with n1 _ _ _ _
  unfold ONet.addEdge Bbn.addEdge
  simp only [Bbn.shouldAdd, if_true]
  show NetView.mk _ _ _ _ _ = NetView.mk _ _ _ _ _
  congr 1
  · show (Dict.set o.edges (Edge.key (⟨x, y, .directed⟩ : Edge Ref)) ⟨x, y, .directed⟩).map (fun kv => (kv.1, edgeView kv.2)) =
      (Dict.set b.edges (Edge.key (⟨f x, f y, .directed⟩ : Edge BbnNode)) ⟨f x, f y, .directed⟩).map (fun kv => (kv.1, edgeView kv.2))
    rw [nc_set_map, nc_set_map, h2, hk, hv]
  · show ddAdd o.edgeMap x.id y.id = ddAdd b.edgeMap (f x).var.id (f y).var.id
    rw [h3, hx, hy]
  · show ddAdd (ddAdd o.neighbors x.id y.id) y.id x.id = ddAdd (ddAdd b.neighbors (f x).var.id (f y).var.id) (f y).var.id (f x).var.id
    rw [h4, hx, hy]
  · show ONet.edgeAdded o.parents ⟨x, y, .directed⟩ = Bbn.edgeAdded b.parents ⟨f x, f y, .directed⟩
    unfold ONet.edgeAdded Bbn.edgeAdded
    show (let parents := Dict.setDefault o.parents y.id []; if x.id ∈ ddGet parents y.id then parents else
        Dict.set parents y.id (ddGet parents y.id ++ [x.id])) =
      (let parents := Dict.setDefault b.parents (f y).var.id []; if (f x).var.id ∈ ddGet parents (f y).var.id then parents else
        Dict.set parents (f y).var.id (ddGet parents (f y).var.id ++ [(f x).var.id]))
    rw [h5, hx, hy]

theorem view_removeNode (h : o.viewWith f = b.view) (id : Int) : (o.removeNode id).viewWith f = (b.removeNode id).view := by
  unfold ONet.viewWith Bbn.view at h ⊢
  injection h with h1 h2 h3 h4 h5
  unfold ONet.removeNode Bbn.removeNode Graph.removeNode
  simp only
  rw [← h1, h2, h3, h4, h5]
  congr 1
  unfold Dict.pop
  rw [List.filter_map]
  rfl

/-- the references are valid and filed under their ids -/
structure ONet.Good (n : Nat) (f : Ref → BbnNode) (o : ONet) : Prop where
  refs : ∀ x ∈ o.refs, x.addr < n ∧ (f x).var.id = x.id
  keys : ∀ kv ∈ o.nodes, kv.1 = kv.2.id
  nodup : (Dict.keys o.nodes).Nodup

theorem refs_addNode {x y : Ref} (h : y ∈ (o.addNode x).refs) : y ∈ o.refs ∨ y = x := by
  rcases List.mem_append.1 h with h | h
  · obtain ⟨kv, hkv, rfl⟩ := List.mem_map.1 h
    rcases nc_mem_setDefault (show kv ∈ Dict.setDefault o.nodes x.id x from hkv) with h | h
    · exact Or.inl (List.mem_append_left _ (List.mem_map_of_mem h))
    · right; rw [h]
  · exact Or.inl (List.mem_append_right _ h)

theorem refs_addEdge {e : Edge Ref} {y : Ref} (h : y ∈ (o.addEdge e).refs) : y ∈ o.refs ∨ y = e.i ∨ y = e.j := by
  rcases List.mem_append.1 h with h | h
  · have : y ∈ ((o.addNode e.i).addNode e.j).refs := List.mem_append_left _ h
    rcases refs_addNode this with h | h
    · rcases refs_addNode h with h | h
      · exact Or.inl h
      · exact Or.inr (Or.inl h)
    · exact Or.inr (Or.inr h)
  · obtain ⟨kv, hkv, hy⟩ := List.mem_flatMap.1 h
    rcases nc_mem_set (show kv ∈ Dict.set o.edges e.key e from hkv) with h | h
    · exact Or.inl (List.mem_append_right _ (List.mem_flatMap.2 ⟨kv, h, hy⟩))
    · rw [h] at hy
      simp only [List.mem_cons, List.not_mem_nil, or_false] at hy
      exact Or.inr hy

theorem refs_removeNode {id : Int} {y : Ref} (h : y ∈ (o.removeNode id).refs) : y ∈ o.refs := by
  rcases List.mem_append.1 h with h | h
  · obtain ⟨kv, hkv, rfl⟩ := List.mem_map.1 h
    exact List.mem_append_left _ (List.mem_map_of_mem (List.mem_filter.1 (show kv ∈ Dict.pop o.nodes id from hkv)).1)
  · exact List.mem_append_right _ h

theorem ONet.Good.addNode {n : Nat} (h : o.Good n f) {x : Ref} (hx : x.addr < n ∧ (f x).var.id = x.id) : (o.addNode x).Good n f := by
  refine ⟨?_, ?_, ?_⟩
  · intro y hy
    rcases refs_addNode hy with h' | rfl
    · exact h.refs y h'
    · exact hx
  · intro kv hkv
    rcases nc_mem_setDefault (show kv ∈ Dict.setDefault o.nodes x.id x from hkv) with h' | h'
    · exact h.keys kv h'
    · rw [h']
  · exact Dict.nodup_keys_setDefault h.nodup _ _

theorem ONet.Good.addEdge {n : Nat} (h : o.Good n f) {e : Edge Ref} (hi : e.i.addr < n ∧ (f e.i).var.id = e.i.id)
    (hj : e.j.addr < n ∧ (f e.j).var.id = e.j.id) : (o.addEdge e).Good n f := by
  have h2 := (h.addNode hi).addNode hj
  refine ⟨?_, h2.keys, h2.nodup⟩
  intro y hy
  rcases refs_addEdge hy with h' | rfl | rfl
  · exact h.refs y h'
  · exact hi
  · exact hj

theorem ONet.Good.removeNode {n : Nat} (h : o.Good n f) (id : Int) : (o.removeNode id).Good n f := by
  refine ⟨fun y hy => h.refs y (refs_removeNode hy), ?_, ?_⟩
  · intro kv hkv
    exact h.keys kv (List.mem_filter.1 (show kv ∈ Dict.pop o.nodes id from hkv)).1
  · exact h.nodup.sublist (List.Sublist.map _ List.filter_sublist)

theorem ONet.Good.congr {n n' : Nat} {g : Ref → BbnNode} (h : o.Good n f) (hn : n ≤ n') (hg : ∀ x ∈ o.refs, (g x).var.id = (f x).var.id) :
    o.Good n' g :=
  ⟨fun x hx => ⟨Nat.lt_of_lt_of_le (h.refs x hx).1 hn, (hg x hx).trans (h.refs x hx).2⟩, h.keys, h.nodup⟩

/-! ### the memory -/

/-- the five containers exist -/
structure NetRef.In (r : NetRef) (m : Mem) : Prop where
  nodes : r.nodes < m.nodes.length
  edges : r.edges < m.edges.length
  edgeMap : r.edgeMap < m.edgeMap.length
  neighbors : r.neighbors < m.neighbors.length
  parents : r.parents < m.parents.length

/-- no container in common -/
structure NetRef.Apart (r r' : NetRef) : Prop where
  nodes : r.nodes ≠ r'.nodes
  edges : r.edges ≠ r'.edges
  edgeMap : r.edgeMap ≠ r'.edgeMap
  neighbors : r.neighbors ≠ r'.neighbors
  parents : r.parents ≠ r'.parents

theorem NetRef.Apart.symm {r r' : NetRef} (h : r.Apart r') : r'.Apart r :=
  ⟨h.nodes.symm, h.edges.symm, h.edgeMap.symm, h.neighbors.symm, h.parents.symm⟩

theorem getD_set_self {α : Type} {l : List α} {i : Nat} (h : i < l.length) (a d : α) : (l.set i a).getD i d = a := by
  rw [List.getD_eq_getElem?_getD, List.getElem?_set_self h]; rfl

theorem getD_set_ne {α : Type} {l : List α} {i j : Nat} (h : i ≠ j) (a d : α) : (l.set i a).getD j d = l.getD j d := by
  rw [List.getD_eq_getElem?_getD, List.getD_eq_getElem?_getD, List.getElem?_set_ne h]

theorem getD_append_lt {α : Type} {l l' : List α} {i : Nat} (h : i < l.length) (d : α) : (l ++ l').getD i d = l.getD i d := by
  rw [List.getD_eq_getElem?_getD, List.getD_eq_getElem?_getD, List.getElem?_append_left h]

theorem getD_concat_len {α : Type} {l : List α} {a : α} (d : α) : (l ++ [a]).getD l.length d = a := by
  rw [List.getD_eq_getElem?_getD, List.getElem?_concat_length]; rfl

theorem load_save_self {m : Mem} {r : NetRef} (h : r.In m) (o : ONet) : (m.save r o).load r = o := by
  unfold Mem.load Mem.save
  simp only [getD_set_self h.nodes, getD_set_self h.edges, getD_set_self h.edgeMap, getD_set_self h.neighbors, getD_set_self h.parents]

theorem load_save_other {m : Mem} {r r' : NetRef} (h : r.Apart r') (o : ONet) : (m.save r o).load r' = m.load r' := by
  unfold Mem.load Mem.save
  simp only [getD_set_ne h.nodes, getD_set_ne h.edges, getD_set_ne h.edgeMap, getD_set_ne h.neighbors, getD_set_ne h.parents]

theorem in_save {m : Mem} {r r' : NetRef} (h : r'.In m) (o : ONet) : r'.In (m.save r o) := by
  refine ⟨?_, ?_, ?_, ?_, ?_⟩ <;> simp only [Mem.save, List.length_set]
  exacts [h.nodes, h.edges, h.edgeMap, h.neighbors, h.parents]

/-- the objects behind `o`'s references are the same in both memories -/
def SameObjs (m m' : Mem) (o : ONet) : Prop := ∀ x ∈ o.refs, m'.deref x = m.deref x

/-- network `r` shows `b` -/
structure Shows (m : Mem) (r : NetRef) (b : Bbn) : Prop where
  here : r.In m
  good : (m.load r).Good m.objs.length m.deref
  view : (m.load r).viewWith m.deref = b.view

/-- nothing in common: no container, no node object -/
structure Sep (m : Mem) (r r' : NetRef) : Prop where
  apart : r.Apart r'
  objs : ∀ x ∈ (m.load r).refs, ∀ y ∈ (m.load r').refs, x.addr ≠ y.addr

theorem Sep.symm {m : Mem} {r r' : NetRef} (h : Sep m r r') : Sep m r' r :=
  ⟨h.apart.symm, fun x hx y hy e => h.objs y hy x hx e.symm⟩

/-- what an action on network `r` may do -/
structure Step (m m' : Mem) (r : NetRef) : Prop where
  /-- containers of other networks stay -/
  load : ∀ r', r.Apart r' → m'.load r' = m.load r'
  inn : ∀ r' : NetRef, r'.In m → r'.In m'
  /-- node objects that `r` does not refer to stay -/
  len : m.objs.length ≤ m'.objs.length
  objs : ∀ x : Ref, x.addr < m.objs.length → (∀ y ∈ (m.load r).refs, y.addr ≠ x.addr) → m'.deref x = m.deref x
  /-- `r` gets only new node objects -/
  new : ∀ x ∈ (m'.load r).refs, x ∈ (m.load r).refs ∨ m.objs.length ≤ x.addr

theorem Step.shows {m m' : Mem} {r r' : NetRef} {b : Bbn} (hs : Step m m' r) (hsep : Sep m r r') (h : Shows m r' b) : Shows m' r' b := by
  have hl := hs.load r' hsep.apart
  have ho : ∀ x ∈ (m.load r').refs, m'.deref x = m.deref x := fun x hx =>
    hs.objs x (h.good.refs x hx).1 (fun y hy => hsep.objs y hy x hx)
  refine ⟨hs.inn r' h.here, ?_, ?_⟩
  · rw [hl]
    exact h.good.congr hs.len (fun x hx => by rw [ho x hx])
  · rw [hl, ← h.view]
    exact ONet.viewWith_congr ho

/-- networks apart from each other and from `r` stay apart -/
theorem Step.sep {m m' : Mem} {r r1 r2 : NetRef} (hs : Step m m' r) (h1 : r.Apart r1) (h2 : r.Apart r2) (h : Sep m r1 r2) : Sep m' r1 r2 :=
  ⟨h.apart, by rw [hs.load _ h1, hs.load _ h2]; exact h.objs⟩

theorem Step.sep_self {m m' : Mem} {r r' : NetRef} {b : Bbn} (hs : Step m m' r) (h : Sep m r r') (hb : Shows m r' b) : Sep m' r r' := by
  refine ⟨h.apart, ?_⟩
  rw [hs.load _ h.apart]
  intro x hx y hy
  rcases hs.new x hx with h' | h'
  · exact h.objs x h' y hy
  · have := (hb.good.refs y hy).1
    omega

/-! ### the calls -/

theorem deref_append {m : Mem} {l : List BbnNode} {x : Ref} (h : x.addr < m.objs.length) :
    ({ m with objs := m.objs ++ l } : Mem).deref x = m.deref x := by
  unfold Mem.deref
  exact getD_append_lt h _

/-- more node objects, same containers -/
structure More (m m' : Mem) : Prop where
  load : ∀ r, m'.load r = m.load r
  inn : ∀ r : NetRef, r.In m → r.In m'
  len : m.objs.length ≤ m'.objs.length
  objs : ∀ x : Ref, x.addr < m.objs.length → m'.deref x = m.deref x

theorem More.refl (m : Mem) : More m m := ⟨fun _ => rfl, fun _ h => h, le_refl _, fun _ _ => rfl⟩

theorem More.trans {m1 m2 m3 : Mem} (h : More m1 m2) (h' : More m2 m3) : More m1 m3 :=
  ⟨fun r => (h'.load r).trans (h.load r), fun r hr => h'.inn r (h.inn r hr), h.len.trans h'.len,
    fun x hx => (h'.objs x (Nat.lt_of_lt_of_le hx h.len)).trans (h.objs x hx)⟩

theorem More.append (m : Mem) (l : List BbnNode) : More m { m with objs := m.objs ++ l } :=
  ⟨fun _ => rfl, fun r h => ⟨h.nodes, h.edges, h.edgeMap, h.neighbors, h.parents⟩,
    by simp only [List.length_append]; omega, fun _ hx => deref_append hx⟩

theorem More.shows {m m' : Mem} {r : NetRef} {b : Bbn} (hm : More m m') (h : Shows m r b) : Shows m' r b := by
  have ho : ∀ x ∈ (m.load r).refs, m'.deref x = m.deref x := fun x hx => hm.objs x (h.good.refs x hx).1
  refine ⟨hm.inn r h.here, ?_, ?_⟩
  · rw [hm.load]
    exact h.good.congr hm.len (fun x hx => by rw [ho x hx])
  · rw [hm.load, ← h.view]
    exact ONet.viewWith_congr ho

/-- a valid argument: its object is the node the specification names, and it is new or one of the network's -/
structure ArgOk (m m' : Mem) (r : NetRef) (x : Ref) (n : BbnNode) : Prop where
  more : More m m'
  lt : x.addr < m'.objs.length
  node : m'.deref x = n
  id : n.var.id = x.id
  new : x ∈ (m.load r).refs ∨ m.objs.length ≤ x.addr

theorem view_nodes {f : Ref → BbnNode} {o : ONet} {b : Bbn} (h : o.viewWith f = b.view) :
    o.nodes.map (fun kv => (kv.1, f kv.2)) = b.nodes := by
  unfold ONet.viewWith Bbn.view at h
  injection h

theorem arg_ok {m : Mem} {r : NetRef} {b : Bbn} (h : Shows m r b) (a : NodeArg) :
    (a.node b = none ∧ m.arg r a = .error .keyError) ∨
      ∃ m' x n, a.node b = some n ∧ m.arg r a = .ok (m', x) ∧ ArgOk m m' r x n := by
  cases a with
  | fresh n =>
    right
    refine ⟨_, _, n, rfl, rfl, More.append m [n], ?_, ?_, rfl, Or.inr (le_refl _)⟩
    · simp
    · unfold Mem.deref
      exact getD_concat_len _
  | own id =>
    have hn := view_nodes h.view
    have hg : Dict.get? b.nodes id = (Dict.get? (m.load r).nodes id).map m.deref := by
      rw [← hn]
      exact Dict.get?_mapVal _ _ _
    simp only [Mem.arg, NodeArg.node]
    rw [hg]
    cases hx : Dict.get? (m.load r).nodes id with
    | none => left; exact ⟨rfl, rfl⟩
    | some x =>
      right
      have hmem : x ∈ (m.load r).refs := List.mem_append_left _ (List.mem_map_of_mem (f := Prod.snd) (nc_get?_mem hx))
      exact ⟨m, x, m.deref x, rfl, rfl, More.refl m, (h.good.refs x hmem).1, rfl, (h.good.refs x hmem).2, Or.inl hmem⟩

/-- writing new contents that refer to the network's old node objects or to new ones -/
theorem save_step {m m' : Mem} {r : NetRef} {o : ONet} (hm : More m m') (hr : r.In m)
    (ho : ∀ x ∈ o.refs, x ∈ (m.load r).refs ∨ m.objs.length ≤ x.addr) : Step m (m'.save r o) r := by
  have hr' := hm.inn r hr
  refine ⟨?_, ?_, hm.len, ?_, ?_⟩
  · intro r' ha
    rw [load_save_other ha, hm.load]
  · intro r' h; exact in_save (hm.inn r' h) o
  · intro x hx _
    exact hm.objs x hx
  · intro x hx
    rw [load_save_self hr'] at hx
    exact ho x hx

theorem save_shows {m : Mem} {r : NetRef} {o : ONet} {b : Bbn} (hr : r.In m) (hg : o.Good m.objs.length m.deref)
    (hv : o.viewWith m.deref = b.view) : Shows (m.save r o) r b := by
  refine ⟨in_save hr o, ?_, ?_⟩
  · rw [load_save_self hr]; exact hg
  · rw [load_save_self hr]; exact hv

theorem op_ok {m : Mem} {r : NetRef} {b : Bbn} (h : Shows m r b) (op : NetOp) :
    (∃ m', m.op r op = .ok m' ∧ Step m m' r ∧ Shows m' r (op.spec b)) ∨ (m.op r op = .error .keyError ∧ op.spec b = b) := by
  cases op with
  | addNode a =>
    rcases arg_ok h a with ⟨h1, h2⟩ | ⟨m1, x, n, h1, h2, h3⟩
    · right
      constructor
      · simp only [Mem.op, h2, bind, Except.bind]
      · simp only [NetOp.spec, h1]
    · left
      have hs := h3.more.shows h
      have hx : (m1.deref x).var.id = x.id := by rw [h3.node]; exact h3.id
      refine ⟨m1.save r ((m1.load r).addNode x), ?_, ?_, ?_⟩
      · simp only [Mem.op, h2, bind, Except.bind]
      · refine save_step h3.more h.here ?_
        intro y hy
        rcases refs_addNode hy with hy | rfl
        · rw [h3.more.load] at hy; exact Or.inl hy
        · exact h3.new
      · refine save_shows hs.here (hs.good.addNode ⟨h3.lt, hx⟩) ?_
        simp only [NetOp.spec, h1]
        have := view_addNode hs.view hx
        rw [h3.node] at this
        exact this
  | addEdge a c =>
    rcases arg_ok h a with ⟨h1, h2⟩ | ⟨m1, x, n, h1, h2, h3⟩
    · right
      constructor
      · simp only [Mem.op, h2, bind, Except.bind]
      · simp only [NetOp.spec, h1]
    · have hs := h3.more.shows h
      rcases arg_ok hs c with ⟨g1, g2⟩ | ⟨m2, y, k, g1, g2, g3⟩
      · right
        constructor
        · simp only [Mem.op, h2, bind, Except.bind, g2]
        · simp only [NetOp.spec, h1, g1]
      · left
        have hs2 := g3.more.shows hs
        have hd : m2.deref x = n := by rw [g3.more.objs x h3.lt, h3.node]
        have hx : (m2.deref x).var.id = x.id := by rw [hd]; exact h3.id
        have hy : (m2.deref y).var.id = y.id := by rw [g3.node]; exact g3.id
        have hm := h3.more.trans g3.more
        refine ⟨m2.save r ((m2.load r).addEdge ⟨x, y, .directed⟩), ?_, ?_, ?_⟩
        · simp only [Mem.op, h2, bind, Except.bind, g2]
        · refine save_step hm h.here ?_
          intro z hz
          rcases refs_addEdge hz with hz | rfl | rfl
          · rw [hm.load] at hz; exact Or.inl hz
          · exact h3.new
          · rcases g3.new with h' | h'
            · rw [h3.more.load] at h'; exact Or.inl h'
            · exact Or.inr (h3.more.len.trans h')
        · refine save_shows hs2.here (hs2.good.addEdge ⟨Nat.lt_of_lt_of_le h3.lt g3.more.len, hx⟩ ⟨g3.lt, hy⟩) ?_
          simp only [NetOp.spec, h1, g1]
          have := view_addEdge hs2.view hx hy
          rw [hd, g3.node] at this
          exact this
  | removeNode id =>
    left
    refine ⟨m.save r ((m.load r).removeNode id), rfl, ?_, ?_⟩
    · refine save_step (More.refl m) h.here ?_
      intro y hy
      exact Or.inl (refs_removeNode hy)
    · exact save_shows h.here (h.good.removeNode id) (view_removeNode h.view id)
  | setProbs id ps =>
    have hn := view_nodes h.view
    cases hx : Dict.get? (m.load r).nodes id with
    | none =>
      right
      constructor
      · simp only [Mem.op, hx]
      · simp only [NetOp.spec, Bbn.setProbs]
        have hid : id ∉ Dict.keys b.nodes := by
          rw [← hn]
          intro hc
          unfold Dict.keys at hc
          rw [List.map_map] at hc
          have : id ∈ Dict.keys (m.load r).nodes := hc
          obtain ⟨v, hv⟩ := Dict.exists_get?_of_mem_keys this
          rw [hx] at hv
          cases hv
        have : b.nodes.map (fun kv => if kv.1 = id then (kv.1, { kv.2 with probs := ps }) else kv) = b.nodes := by
          conv_rhs => rw [← List.map_id b.nodes]
          refine List.map_congr_left ?_
          intro kv hkv
          have : kv.1 ≠ id := fun e => hid (e ▸ List.mem_map_of_mem (f := Prod.fst) hkv)
          rw [if_neg this]; rfl
        rw [this]
    | some x =>
      left
      have hxm := nc_get?_mem hx
      have hmem : x ∈ (m.load r).refs := List.mem_append_left _ (List.mem_map_of_mem (f := Prod.snd) hxm)
      have hxid : id = x.id := h.good.keys _ hxm
      obtain ⟨hlt, hvid⟩ := h.good.refs x hmem
      set m' : Mem := { m with objs := m.objs.set x.addr { m.deref x with probs := ps } } with hm'
      have hload : ∀ r', m'.load r' = m.load r' := fun r' => rfl
      have hd : ∀ y : Ref, m'.deref y = if y.addr = x.addr then { m.deref x with probs := ps } else m.deref y := by
        intro y
        show (m.objs.set x.addr _).getD y.addr _ = _
        by_cases e : y.addr = x.addr
        · rw [if_pos e, e]; exact getD_set_self hlt _ _
        · rw [if_neg e]; exact getD_set_ne (fun e' => e e'.symm) _ _
      have hder : ∀ y ∈ (m.load r).refs, y.addr = x.addr → m.deref y = m.deref x ∧ y.id = x.id := by
        intro y hy e
        have h1 : m.deref y = m.deref x := by
          unfold Mem.deref
          rw [e]
          rw [List.getD_eq_getElem?_getD, List.getD_eq_getElem?_getD, List.getElem?_eq_getElem hlt]
          rfl
        refine ⟨h1, ?_⟩
        rw [← (h.good.refs y hy).2, h1, hvid]
      refine ⟨m', by simp only [Mem.op, hx]; rfl, ?_, ?_⟩
      · refine ⟨fun r' _ => hload r', fun r' h => ⟨h.nodes, h.edges, h.edgeMap, h.neighbors, h.parents⟩, ?_, ?_, ?_⟩
        · rw [hm']; simp
        · intro y hy hne
          rw [hd, if_neg (fun e => hne x hmem e.symm)]
        · intro y hy
          rw [hload] at hy
          exact Or.inl hy
      · refine ⟨⟨h.here.nodes, h.here.edges, h.here.edgeMap, h.here.neighbors, h.here.parents⟩, ?_, ?_⟩
        · rw [hload]
          refine h.good.congr (by rw [hm']; simp) ?_
          intro y hy
          rw [hd]
          split
          · rename_i e
            rw [(hder y hy e).1]
          · rfl
        · rw [hload]
          have hv := h.view
          unfold ONet.viewWith Bbn.view at hv ⊢
          injection hv with v1 v2 v3 v4 v5
          simp only [NetOp.spec, Bbn.setProbs]
          rw [v2, v3, v4, v5]
          congr 1
          rw [← v1]
          have hiff : ∀ kv ∈ (m.load r).nodes, kv.2.addr = x.addr ↔ kv.1 = id := by
            intro kv hkv
            have hr : kv.2 ∈ (m.load r).refs := List.mem_append_left _ (List.mem_map_of_mem hkv)
            constructor
            · intro e
              rw [h.good.keys kv hkv, (hder kv.2 hr e).2, hxid]
            · intro e
              have : Dict.get? (m.load r).nodes kv.1 = some kv.2 := Dict.get?_of_mem h.good.nodup hkv
              rw [e, hx] at this
              cases this
              rfl
          rw [List.map_map]
          refine List.map_congr_left ?_
          intro kv hkv
          have hi := hiff kv hkv
          show (kv.1, m'.deref kv.2) = if kv.1 = id then (kv.1, { m.deref kv.2 with probs := ps }) else (kv.1, m.deref kv.2)
          rw [hd]
          by_cases e : kv.1 = id
          · rw [if_pos e, if_pos (hi.2 e), (hder kv.2 (List.mem_append_left _ (List.mem_map_of_mem hkv)) (hi.2 e)).1]
          · rw [if_neg e, if_neg (mt hi.1 e)]

/-! ### new networks and deep copies -/

theorem alloc_load_old {m : Mem} {r : NetRef} (h : r.In m) (o : ONet) : (m.alloc o).1.load r = m.load r := by
  unfold Mem.load Mem.alloc
  simp only [getD_append_lt h.nodes, getD_append_lt h.edges, getD_append_lt h.edgeMap, getD_append_lt h.neighbors,
    getD_append_lt h.parents]

theorem alloc_load_new (m : Mem) (o : ONet) : (m.alloc o).1.load (m.alloc o).2 = o := by
  unfold Mem.load Mem.alloc
  simp only [getD_concat_len]

theorem alloc_in_old {m : Mem} {r : NetRef} (h : r.In m) (o : ONet) : r.In (m.alloc o).1 := by
  have h1 := h.nodes; have h2 := h.edges; have h3 := h.edgeMap; have h4 := h.neighbors; have h5 := h.parents
  refine ⟨?_, ?_, ?_, ?_, ?_⟩ <;> simp only [Mem.alloc, List.length_append, List.length_cons, List.length_nil] <;> omega

theorem alloc_in_new (m : Mem) (o : ONet) : (m.alloc o).2.In (m.alloc o).1 := by
  refine ⟨?_, ?_, ?_, ?_, ?_⟩ <;> simp [Mem.alloc]

theorem alloc_apart {m : Mem} {r : NetRef} (h : r.In m) (o : ONet) : (m.alloc o).2.Apart r := by
  have h1 := h.nodes; have h2 := h.edges; have h3 := h.edgeMap; have h4 := h.neighbors; have h5 := h.parents
  refine ⟨?_, ?_, ?_, ?_, ?_⟩ <;> simp only [Mem.alloc, ne_eq] <;> omega

theorem alloc_shows_old {m : Mem} {r : NetRef} {b : Bbn} (h : Shows m r b) (o : ONet) : Shows (m.alloc o).1 r b :=
  ⟨alloc_in_old h.here o, by rw [alloc_load_old h.here]; exact h.good, by rw [alloc_load_old h.here]; exact h.view⟩

theorem alloc_sep_old {m : Mem} {r r' : NetRef} (h : Sep m r r') (hr : r.In m) (hr' : r'.In m) (o : ONet) : Sep (m.alloc o).1 r r' :=
  ⟨h.apart, by rw [alloc_load_old hr, alloc_load_old hr']; exact h.objs⟩

/-- the copied node objects -/
theorem copyRef_addr {base : Nat} {l : List Nat} {x : Ref} (h : x.addr ∈ l) : (copyRef base l x).addr < base + l.length := by
  have := List.idxOf_lt_length_iff.2 h
  show base + l.idxOf x.addr < base + l.length
  omega

theorem refs_copyNet {base : Nat} {l : List Nat} {o : ONet} : (copyNet base l o).refs = o.refs.map (copyRef base l) := by
  unfold ONet.refs copyNet
  simp only [List.map_append, List.map_map, List.map_flatMap, List.flatMap_map]
  rfl

theorem deepcopy_ok {m : Mem} {r : NetRef} {b : Bbn} (h : Shows m r b) :
    let c := m.deepcopy r
    Shows c.1 c.2 b ∧ (∀ x ∈ (c.1.load c.2).refs, m.objs.length ≤ x.addr) ∧ (∀ r' : NetRef, r'.In m → c.2.Apart r') ∧
      (∀ r', r'.In m → c.1.load r' = m.load r') ∧ (∀ r' b', Shows m r' b' → Shows c.1 r' b') := by
  intro c
  set o := m.load r with ho
  set l := (o.refs.map Ref.addr).dedup with hl
  set m1 : Mem := { m with objs := m.objs ++ l.map (fun a => m.objs.getD a ⟨⟨0, [], []⟩, []⟩) } with hm1
  have hc : c = m1.alloc (copyNet m.objs.length l o) := rfl
  have hmore : More m m1 := More.append m _
  have hload : c.1.load c.2 = copyNet m.objs.length l o := by rw [hc]; exact alloc_load_new _ _
  have hin : ∀ x ∈ o.refs, x.addr ∈ l := fun x hx => List.mem_dedup.2 (List.mem_map_of_mem hx)
  have hder : ∀ x ∈ o.refs, c.1.deref (copyRef m.objs.length l x) = m.deref x := by
    intro x hx
    show (m.objs ++ l.map (fun a => m.objs.getD a ⟨⟨0, [], []⟩, []⟩)).getD (m.objs.length + l.idxOf x.addr) _ = m.objs.getD x.addr _
    have h1 : l.idxOf x.addr < l.length := List.idxOf_lt_length_iff.2 (hin x hx)
    have h2 := (h.good.refs x hx).1
    rw [List.getD_eq_getElem?_getD, List.getElem?_append_right (by omega), Nat.add_sub_cancel_left, List.getElem?_map,
      List.getElem?_eq_getElem h1]
    have h3 : l[l.idxOf x.addr] = x.addr := List.getElem_idxOf h1
    simp only [Option.map_some, Option.getD_some, h3]
    rw [List.getD_eq_getElem?_getD, List.getD_eq_getElem?_getD, List.getElem?_eq_getElem h2]
    rfl
  have hlen : c.1.objs.length = m.objs.length + l.length := by
    show (m.objs ++ l.map _).length = _
    simp
  refine ⟨⟨?_, ?_, ?_⟩, ?_, ?_, ?_, ?_⟩
  · rw [hc]; exact alloc_in_new _ _
  · rw [hload]
    refine ⟨?_, ?_, ?_⟩
    · intro y hy
      rw [refs_copyNet] at hy
      obtain ⟨x, hx, rfl⟩ := List.mem_map.1 hy
      refine ⟨by rw [hlen]; exact copyRef_addr (hin x hx), ?_⟩
      rw [hder x hx]
      exact (h.good.refs x hx).2
    · intro kv hkv
      obtain ⟨kv', h', rfl⟩ := List.mem_map.1 (show kv ∈ o.nodes.map (fun kv => (kv.1, copyRef m.objs.length l kv.2)) from hkv)
      exact h.good.keys kv' h'
    · have : Dict.keys (copyNet m.objs.length l o).nodes = Dict.keys o.nodes := by
        show (o.nodes.map (fun kv => (kv.1, copyRef m.objs.length l kv.2))).map Prod.fst = o.nodes.map Prod.fst
        rw [List.map_map]; rfl
      rw [this]; exact h.good.nodup
  · rw [hload, ← h.view]
    show NetView.mk _ _ _ _ _ = NetView.mk _ _ _ _ _
    congr 1
    · show (o.nodes.map (fun kv => (kv.1, copyRef m.objs.length l kv.2))).map (fun kv => (kv.1, c.1.deref kv.2)) =
        o.nodes.map (fun kv => (kv.1, m.deref kv.2))
      rw [List.map_map]
      refine List.map_congr_left ?_
      intro kv hkv
      show (kv.1, c.1.deref (copyRef m.objs.length l kv.2)) = _
      rw [hder kv.2 (List.mem_append_left _ (List.mem_map_of_mem hkv))]
    · show (o.edges.map (fun kv => (kv.1, (⟨copyRef m.objs.length l kv.2.i, copyRef m.objs.length l kv.2.j, kv.2.type⟩ : Edge Ref)))).map
        (fun kv => (kv.1, edgeView kv.2)) = o.edges.map (fun kv => (kv.1, edgeView kv.2))
      rw [List.map_map]
      rfl
  · rw [hload, refs_copyNet]
    intro y hy
    obtain ⟨x, hx, rfl⟩ := List.mem_map.1 hy
    show m.objs.length ≤ m.objs.length + _
    omega
  · intro r' hr'
    rw [hc]; exact alloc_apart (hmore.inn r' hr') _
  · intro r' hr'
    rw [hc, alloc_load_old (hmore.inn r' hr'), hmore.load]
  · intro r' b' h'
    rw [hc]; exact alloc_shows_old (hmore.shows h') _

/-! ### programs -/

/-- the objects of a program show the networks of the specification -/
structure WorldShows (w : NetWorld) (s : SpecWorld) (rs : List NetRef) : Prop where
  len : rs.length = s.vals.length
  names : w.nets.map some = s.names.map (fun g => rs[g]?)
  shows_ : ∀ (g : Nat) (r : NetRef) (b : Bbn), rs[g]? = some r → s.vals[g]? = some b → Shows w.mem r b
  sep : ∀ (g g' : Nat) (r r' : NetRef), g ≠ g' → rs[g]? = some r → rs[g']? = some r' → Sep w.mem r r'

theorem WorldShows.name {w : NetWorld} {s : SpecWorld} {rs : List NetRef} (h : WorldShows w s rs) (k : Nat) :
    (w.nets[k]? = none ∧ s.names[k]? = none) ∨
      ∃ (r : NetRef) (g : Nat) (b : Bbn), w.nets[k]? = some r ∧ s.names[k]? = some g ∧ rs[g]? = some r ∧ s.vals[g]? = some b := by
  have := congrArg (fun l => l[k]?) h.names
  simp only [List.getElem?_map] at this
  cases h1 : w.nets[k]? with
  | none =>
    rw [h1] at this
    cases h2 : s.names[k]? with
    | none => exact Or.inl ⟨rfl, rfl⟩
    | some g => rw [h2] at this; cases this
  | some r =>
    rw [h1] at this
    cases h2 : s.names[k]? with
    | none => rw [h2] at this; cases this
    | some g =>
      rw [h2] at this
      simp only [Option.map_some, Option.some.injEq] at this
      have hg : g < rs.length := by
        rw [← not_le]
        intro hc
        rw [List.getElem?_eq_none hc] at this
        cases this
      refine Or.inr ⟨r, g, s.vals[g]'(h.len ▸ hg), rfl, rfl, this.symm, ?_⟩
      exact List.getElem?_eq_getElem _

theorem getElem?_concat {α : Type} {l : List α} {a x : α} {i : Nat} (h : (l ++ [a])[i]? = some x) :
    (i < l.length ∧ l[i]? = some x) ∨ (i = l.length ∧ x = a) := by
  rcases Nat.lt_trichotomy i l.length with h' | h' | h'
  · rw [List.getElem?_append_left h'] at h
    exact Or.inl ⟨h', h⟩
  · subst h'
    rw [List.getElem?_concat_length] at h
    cases h
    exact Or.inr ⟨rfl, rfl⟩
  · rw [List.getElem?_eq_none (by simp; omega)] at h
    cases h

theorem names_append {s : List Nat} {n : List NetRef} {rs rs' : List NetRef} {g : Nat} {r : NetRef}
    (h : n.map some = s.map (fun g => rs[g]?)) (hrs : ∀ (i : Nat) (x : NetRef), rs[i]? = some x → rs'[i]? = some x) (hg : rs'[g]? = some r) :
    (n ++ [r]).map some = (s ++ [g]).map (fun g => rs'[g]?) := by
  rw [List.map_append, List.map_append]
  congr 1
  · rw [h]
    refine List.map_congr_left ?_
    intro i hi
    have : rs[i]? ∈ n.map some := by rw [h]; exact List.mem_map_of_mem hi
    obtain ⟨x, _, hx⟩ := List.mem_map.1 this
    rw [← hx, hrs i x hx.symm]
  · simp [hg]

theorem WorldShows.step {w : NetWorld} {s : SpecWorld} {rs : List NetRef} (h : WorldShows w s rs) (a : NetAct) :
    ∃ rs', WorldShows (w.step a) (s.step a) rs' := by
  have hrsApp : ∀ (r : NetRef) (i : Nat) (x : NetRef), rs[i]? = some x → (rs ++ [r])[i]? = some x := by
    intro r i x hx
    have hi : i < rs.length := by
      rw [← not_le]; intro hc; rw [List.getElem?_eq_none hc] at hx; cases hx
    rw [List.getElem?_append_left hi, hx]
  have hval : ∀ (g : Nat) (r : NetRef), rs[g]? = some r → ∃ b, s.vals[g]? = some b := by
    intro g r hr
    have hi : g < rs.length := by
      rw [← not_le]; intro hc; rw [List.getElem?_eq_none hc] at hr; cases hr
    exact ⟨_, List.getElem?_eq_getElem (h.len ▸ hi)⟩
  have hhere : ∀ (g : Nat) (r : NetRef), rs[g]? = some r → r.In w.mem := by
    intro g r hr
    obtain ⟨b, hb⟩ := hval g r hr
    exact (h.shows_ g r b hr hb).here
  cases a with
  | new =>
    set r := (w.mem.alloc {}).2 with hr
    refine ⟨rs ++ [r], ?_, ?_, ?_, ?_⟩
    · simp [SpecWorld.step, h.len]
    · show (w.nets ++ [r]).map some = (s.names ++ [s.vals.length]).map _
      refine names_append h.names (hrsApp r) ?_
      rw [← h.len]; exact List.getElem?_concat_length
    · intro g r' b h1 h2
      rcases getElem?_concat h1 with ⟨hg, h1⟩ | ⟨hg, h1⟩
      · rcases getElem?_concat (show (s.vals ++ [Bbn.empty])[g]? = some b from h2) with ⟨_, h2⟩ | ⟨hg', _⟩
        · exact alloc_shows_old (h.shows_ g r' b h1 h2) _
        · rw [h.len] at hg; omega
      · rcases getElem?_concat (show (s.vals ++ [Bbn.empty])[g]? = some b from h2) with ⟨hg', _⟩ | ⟨_, h2⟩
        · rw [h.len] at hg; omega
        · subst h1; subst h2
          refine ⟨alloc_in_new _ _, ?_, ?_⟩
          · show ((w.mem.alloc {}).1.load (w.mem.alloc {}).2).Good _ _
            rw [alloc_load_new]
            exact ⟨(by intro x hx; cases hx), (by intro kv hkv; cases hkv), List.nodup_nil⟩
          · show ((w.mem.alloc {}).1.load (w.mem.alloc {}).2).viewWith _ = _
            rw [alloc_load_new]
            rfl
    · have hnew : ∀ (i : Nat) (x : NetRef), rs[i]? = some x → Sep (w.mem.alloc {}).1 r x := by
        intro i x hx
        refine ⟨alloc_apart (hhere i x hx) _, ?_⟩
        rw [hr, alloc_load_new]
        intro y hy
        cases hy
      intro g g' r1 r2 hne h1 h2
      rcases getElem?_concat h1 with ⟨hg, h1⟩ | ⟨hg, h1⟩ <;> rcases getElem?_concat h2 with ⟨hg', h2⟩ | ⟨hg', h2⟩
      · exact alloc_sep_old (h.sep g g' r1 r2 hne h1 h2) (hhere _ _ h1) (hhere _ _ h2) _
      · subst h2; exact (hnew g r1 h1).symm
      · subst h1; exact hnew g' r2 h2
      · omega
  | copy k =>
    rcases h.name k with ⟨h1, h2⟩ | ⟨r, g, b, h1, h2, h3, h4⟩
    · refine ⟨rs, ?_⟩
      simp only [NetWorld.step, SpecWorld.step, h1, h2]
      exact h
    · refine ⟨rs, ?_⟩
      simp only [NetWorld.step, SpecWorld.step, h1, h2]
      exact ⟨h.len, names_append h.names (fun _ _ h => h) h3, h.shows_, h.sep⟩
  | deepcopy k =>
    rcases h.name k with ⟨h1, h2⟩ | ⟨r, g, b, h1, h2, h3, h4⟩
    · refine ⟨rs, ?_⟩
      simp only [NetWorld.step, SpecWorld.step, h1, h2]
      exact h
    · have hb : s.vals.getD g Bbn.empty = b := by rw [List.getD_eq_getElem?_getD, h4]; rfl
      obtain ⟨c1, c2, c3, c4, c5⟩ := deepcopy_ok (h.shows_ g r b h3 h4)
      set c := w.mem.deepcopy r with hc
      refine ⟨rs ++ [c.2], ?_⟩
      simp only [NetWorld.step, SpecWorld.step, h1, h2, hb]
      rw [← hc]
      have hnew : ∀ (i : Nat) (x : NetRef), rs[i]? = some x → Sep c.1 c.2 x := by
        intro i x hx
        obtain ⟨bx, hbx⟩ := hval i x hx
        have hs := h.shows_ i x bx hx hbx
        refine ⟨c3 x hs.here, ?_⟩
        intro y hy z hz
        rw [c4 x hs.here] at hz
        have := c2 y hy
        have := (hs.good.refs z hz).1
        omega
      refine ⟨by simp [h.len], ?_, ?_, ?_⟩
      · refine names_append h.names (hrsApp c.2) ?_
        rw [← h.len]; exact List.getElem?_concat_length
      · intro g' r' b' g1 g2
        rcases getElem?_concat g1 with ⟨hg, g1⟩ | ⟨hg, g1⟩ <;> rcases getElem?_concat g2 with ⟨hg', g2⟩ | ⟨hg', g2⟩
        · exact c5 r' b' (h.shows_ g' r' b' g1 g2)
        · rw [h.len] at hg; omega
        · rw [h.len] at hg; omega
        · subst g1; subst g2; exact c1
      · intro g' g'' r1 r2 hne g1 g2
        rcases getElem?_concat g1 with ⟨hg, g1⟩ | ⟨hg, g1⟩ <;> rcases getElem?_concat g2 with ⟨hg', g2⟩ | ⟨hg', g2⟩
        · have := h.sep g' g'' r1 r2 hne g1 g2
          exact ⟨this.apart, by rw [c4 _ (hhere _ _ g1), c4 _ (hhere _ _ g2)]; exact this.objs⟩
        · subst g2; exact (hnew g' r1 g1).symm
        · subst g1; exact hnew g'' r2 g2
        · omega
  | op k o =>
    rcases h.name k with ⟨h1, h2⟩ | ⟨r, g, b, h1, h2, h3, h4⟩
    · refine ⟨rs, ?_⟩
      simp only [NetWorld.step, SpecWorld.step, h1, h2]
      exact h
    · have hb : s.vals.getD g Bbn.empty = b := by rw [List.getD_eq_getElem?_getD, h4]; rfl
      have hgl : g < s.vals.length := by
        rw [← not_le]; intro hc; rw [List.getElem?_eq_none hc] at h4; cases h4
      refine ⟨rs, ?_⟩
      rcases op_ok (h.shows_ g r b h3 h4) o with ⟨m', e, hst, hsh⟩ | ⟨e, hsp⟩
      · simp only [NetWorld.step, SpecWorld.step, h1, h2, hb, e]
        refine ⟨by simp [h.len], h.names, ?_, ?_⟩
        · intro g' r' b' g1 g2
          by_cases hgg : g' = g
          · subst hgg
            rw [h3] at g1
            cases g1
            rw [List.getElem?_set_self hgl] at g2
            cases g2
            exact hsh
          · rw [List.getElem?_set_ne (fun e => hgg e.symm)] at g2
            exact hst.shows (h.sep g g' r r' (fun e => hgg e.symm) h3 g1) (h.shows_ g' r' b' g1 g2)
        · intro g' g'' r1 r2 hne g1 g2
          by_cases e1 : g' = g
          · subst e1
            rw [h3] at g1
            cases g1
            obtain ⟨b2, hb2⟩ := hval g'' r2 g2
            exact hst.sep_self (h.sep g' g'' r r2 hne h3 g2) (h.shows_ g'' r2 b2 g2 hb2)
          · by_cases e2 : g'' = g
            · subst e2
              rw [h3] at g2
              cases g2
              obtain ⟨b1, hb1⟩ := hval g' r1 g1
              exact (hst.sep_self (h.sep g'' g' r r1 (fun e => hne e.symm) h3 g1) (h.shows_ g' r1 b1 g1 hb1)).symm
            · exact hst.sep (h.sep g g' r r1 (fun e => e1 e.symm) h3 g1).apart (h.sep g g'' r r2 (fun e => e2 e.symm) h3 g2).apart
                (h.sep g' g'' r1 r2 hne g1 g2)
      · simp only [NetWorld.step, SpecWorld.step, h1, h2, hb, e, hsp]
        have : s.vals.set g b = s.vals := by
          apply List.ext_getElem?
          intro i
          by_cases hi : g = i
          · subst hi; rw [List.getElem?_set_self hgl, h4]
          · rw [List.getElem?_set_ne hi]
        rw [this]
        exact h

theorem worldShows_run (acts : List NetAct) : ∃ rs, WorldShows (NetWorld.run acts) (SpecWorld.run acts) rs := by
  have key : ∀ (acts : List NetAct) (w : NetWorld) (s : SpecWorld), (∃ rs, WorldShows w s rs) →
      ∃ rs, WorldShows (acts.foldl NetWorld.step w) (acts.foldl SpecWorld.step s) rs := by
    intro acts
    induction acts with
    | nil => intro w s h; exact h
    | cons a acts ih =>
      rintro w s ⟨rs, h⟩
      exact ih _ _ (h.step a)
  refine key acts _ _ ⟨[], rfl, rfl, ?_, ?_⟩
  · intro g r b h; cases h
  · intro g g' r r' _ h; cases h

end PyBBN
