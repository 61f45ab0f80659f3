import Verif.Model.Graph

/-!
# `pybbn/causality/do.py`: paths, confounders, mediators

`networkx` is not part of the repository; its three functions used here are modelled by what they are documented to do:
`DiGraph.successors`, `nx.descendants` and `nx.all_simple_paths` (depth first, neighbors in the order of insertion of the edges,
for two different nodes of the graph; `NodeNotFound` for other arguments is not modelled).
-/

namespace PyBBN

/-- an `nx.DiGraph`: its nodes and its edges in the order of `d.nodes()` and `d.edges()` -/
structure DiG (V : Type) where
  nodes : List V
  edges : List (V × V)

/-- the argument `evidence`: a `set` or a `list` -/
structure PyColl (V : Type) where
  isSet : Bool
  elems : List V

/-- the result of `get_triplet_type` -/
inductive TripletType
  | serial | diverging | converging
  deriving DecidableEq, Repr

/-- the dictionaries in the list returned by `get_paths` (the keys `x`, `y` repeat the arguments) -/
structure PathMeta (V : Type) where
  z : List V
  path : List V
  isActive : Bool
  colliders : List V
  backdoor : Bool
  frontdoor : Bool

namespace Do
variable {V : Type} [DecidableEq V]

/-- `set(g.d.successors(x))` -/
def successors (g : DiG V) (x : V) : List V := (g.edges.filter (fun e => decide (e.1 = x))).map Prod.snd

/-- `g.d.has_edge(u, v)` -/
def hasEdge (g : DiG V) (u v : V) : Bool := decide ((u, v) ∈ g.edges)

/-- `nx.descendants(g.d, z)`: the nodes other than `z` that `z` leads to -/
def descendants (g : DiG V) (z : V) : List V :=
  g.nodes.filter (fun v => decide (v ≠ z) && pathExists (successors g) (g.nodes.length + 1) z v)

/-- `pybbn/causality/do.py:10-19` `get_undirected_graph`: the neighbors of a node -/
def neighbors (g : DiG V) (v : V) : List V :=
  g.edges.foldl (fun s e =>
    let s := if e.1 = v then setAdd s e.2 else s
    if e.2 = v then setAdd s e.1 else s) []

/-- the depth first search of `nx.all_simple_paths`: the paths from `v` to `stop` that avoid `seen` -/
def pathsDfs (adj : V → List V) (stop : V) : Nat → List V → V → List (List V)
  | 0, _, _ => []
  | fuel + 1, seen, v => (adj v).flatMap (fun c =>
      if c ∈ seen then []
      else if c = stop then [[v, c]]
      else (pathsDfs adj stop fuel (c :: seen) c).map (fun p => v :: p))

/-- `pybbn/causality/do.py:28-29` `get_all_paths` -/
def allPaths (g : DiG V) (start stop : V) : List (List V) := pathsDfs (neighbors g) stop (g.nodes.length + 1) [start] start

/-- `pybbn/causality/do.py:32-36` `get_path_triplets` -/
def pathTriplets (path : List V) : List (List V) :=
  if path.length < 3 then [path]
  else (List.range (path.length - 2)).map (fun i => (path.drop i).take 3)

/-- `pybbn/causality/do.py:39-52` `get_triplet_type` -/
def tripletType (g : DiG V) (x z y : V) : Py TripletType :=
  let xChildren := successors g x
  let zChildren := successors g z
  let yChildren := successors g y
  if z ∈ xChildren ∧ y ∈ zChildren then .ok .serial
  else if z ∈ yChildren ∧ x ∈ zChildren then .ok .serial
  else if x ∈ zChildren ∧ y ∈ zChildren then .ok .diverging
  else if z ∈ xChildren ∧ z ∈ yChildren then .ok .converging
  else .error .exception

/-- `pybbn/causality/do.py:55-70` `is_active_triplet`; `z_set & evidence` raises `TypeError` when `evidence` is a list -/
def isActiveTriplet (g : DiG V) (x z y : V) (evidence : PyColl V) : Py Bool := do
  match ← tripletType g x z y with
  | .serial => .ok (if z ∈ evidence.elems then false else true)
  | .diverging => .ok (if z ∈ evidence.elems then false else true)
  | .converging =>
      let zSet := setAdd (descendants g z) z
      if evidence.isSet then
        .ok (if (zSet.filter (fun d => decide (d ∈ evidence.elems))).length > 0 then true else false)
      else .error .typeError

/-- the loop `do.py:82-84` over the triplets, with the unpacking `x, z, y` -/
def activeLoop (g : DiG V) (evidence : PyColl V) : List (List V) → Py Bool
  | [] => .ok true
  | [x, z, y] :: ts => do
      if !(← isActiveTriplet g x z y evidence) then .ok false else activeLoop g evidence ts
  | _ :: _ => .error .valueError

/-- `pybbn/causality/do.py:73-85` `is_active_path` -/
def isActivePath (g : DiG V) (path : List V) (evidence : PyColl V) : Py Bool :=
  if path.length < 3 then
    match path.head?, path.getLast? with
    | some a, some b => .ok (if a ∈ evidence.elems ∨ b ∈ evidence.elems then false else true)
    | _, _ => .error .indexError
  else activeLoop g evidence (pathTriplets path)

/-- the comprehension `do.py:93-95` -/
def colliderLoop (g : DiG V) : List (List V) → Py (List V)
  | [] => .ok []
  | [x, z, y] :: ts => do
      let t ← tripletType g x z y
      let rest ← colliderLoop g ts
      .ok (if t = .converging then z :: rest else rest)
  | _ :: _ => .error .valueError

/-- `pybbn/causality/do.py:88-95` `get_colliders` -/
def colliders (g : DiG V) (path : List V) : Py (List V) :=
  if path.length < 3 then .ok [] else colliderLoop g (pathTriplets path)

/-- `pybbn/causality/do.py:99-107` `is_backdoor_path`, `is_frontdoor_path` -/
def isBackdoor (g : DiG V) : List V → Py Bool
  | a :: b :: _ => .ok (hasEdge g b a)
  | _ => .error .indexError

def isFrontdoor (g : DiG V) : List V → Py Bool
  | a :: b :: _ => .ok (hasEdge g a b)
  | _ => .error .indexError

/-- `pybbn/causality/do.py:109-123` `get_path_metadata` -/
def pathMetadata (it : SetIter V) (g : DiG V) (x y : V) (p : List V) : Py (PathMeta V) := do
  let cs ← colliders g p
  let confounders := it.iter 0 x ((p.foldl setAdd []).filter (fun n => decide (n ≠ x ∧ n ≠ y ∧ n ∉ cs)))
  let act ← isActivePath g p ⟨true, []⟩
  let back ← isBackdoor g p
  let front ← isFrontdoor g p
  .ok { z := confounders, path := p, isActive := act, colliders := cs, backdoor := back, frontdoor := front }

/-- `pybbn/causality/do.py:98-126` `get_paths` -/
def getPaths (it : SetIter V) (g : DiG V) (x y : V) : Py (List (PathMeta V)) := (allPaths g x y).mapM (pathMetadata it g x y)

/-- `pybbn/causality/do.py:129-156` `get_all_confounders` (a set) -/
def allConfounders (it : SetIter V) (g : DiG V) (x y : V) : Py (List V) := do
  let paths ← getPaths it g x y
  let colliders := (paths.filter (fun p => !p.isActive && p.backdoor)).flatMap PathMeta.colliders
  let desc := descendants g x
  let candidates := (paths.filter (fun p => p.isActive && p.backdoor)).flatMap (fun p =>
    p.path.filter (fun n => decide (n ∉ colliders ∧ n ∉ desc ∧ n ≠ x ∧ n ≠ y)))
  .ok (candidates.foldl setAdd [])

/-- the loop shared by `find_minimal_confounders` (`do.py:162-171`) and `find_minimal_mediator` (`do.py:191-200`) -/
def keepLoop (g : DiG V) (path : List V) : List V → List V → Py (List V)
  | [], keep => .ok keep
  | c :: cs, keep => do
      if !(← isActivePath g path ⟨false, keep ++ [c]⟩) then
        if keep.length < 1 then .ok (keep ++ [c]) else keepLoop g path cs keep
      else keepLoop g path cs keep

/-- `pybbn/causality/do.py:159-171` `find_minimal_confounders` -/
def findMinimalConfounders (g : DiG V) (path z : List V) : Py (List V) := keepLoop g path z []

/-- `pybbn/causality/do.py:174-181` `get_minimal_confounders` -/
def minimalConfounders (it : SetIter V) (g : DiG V) (x y : V) : Py (List V) := do
  let paths ← getPaths it g x y
  let cs ← (paths.filter (fun p => p.isActive && p.backdoor)).mapM (fun p => findMinimalConfounders g p.path p.z)
  .ok (it.iter 1 x (cs.flatten.foldl setAdd []))

/-- `pybbn/causality/do.py:184-200` `find_minimal_mediator` -/
def findMinimalMediator (it : SetIter V) (g : DiG V) (path : List V) (x y : V) : Py (List V) := do
  let cs ← colliders g path
  let candidates := (path.foldl setAdd []).filter (fun n => decide (n ≠ x ∧ n ≠ y ∧ n ∉ cs))
  keepLoop g path (it.iter 2 x candidates) []

/-- `pybbn/causality/do.py:203-219` `get_minimal_mediators` -/
def minimalMediators (it : SetIter V) (g : DiG V) (x y : V) : Py (List V) := do
  let paths ← getPaths it g x y
  let ms ← (paths.filter (fun p => p.isActive && p.frontdoor)).mapM (fun p => findMinimalMediator it g p.path x y)
  let colliders := paths.flatMap PathMeta.colliders
  .ok (it.iter 3 x ((ms.flatten.foldl setAdd []).filter (fun n => decide (n ∉ colliders))))

end Do
end PyBBN
