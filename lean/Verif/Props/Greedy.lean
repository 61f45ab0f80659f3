import Verif.Proofs.Greedy
import Verif.Props.JoinTrees

/-! # Which cliques and separation sets are chosen: C54, C56 -/

namespace PyBBN
open Relation

/-- **C54**: the cliques are formed by greedy elimination on the moral graph (fewest new edges, then smallest table, then smallest id), and
a clique is kept unless one kept before contains it -/
theorem c54_greedy (it : SetIter Int) (ops : List BOp) :
    ∃ cs, Elim.Greedy (Bbn.run ops).vars (Moral (fun p c => (p, c) ∈ BOp.edges ops)) cs ∧
      (Triangulator.triangulate it (moralize (Bbn.run ops))).1.map (fun c => (c.nodes.map Variable.id).toFinset) = cs.foldl Elim.keep [] := by
  obtain ⟨cs, h1, h2⟩ := triangulate_greedy it (bbn_run_inv ops)
  have : MoralAdj (Bbn.run ops) = Moral (fun p c => (p, c) ∈ BOp.edges ops) := by
    funext x y; exact propext (moralAdj_iff ops x y)
  rw [this] at h1
  exact ⟨cs, h1, h2⟩

/-- **C54**: greedy elimination leaves no choice -/
theorem c54_greedy_unique (ops : List BOp) (R : Int → Int → Prop) {cs ds : List (Finset Int)} (h1 : Elim.Greedy (Bbn.run ops).vars R cs)
    (h2 : Elim.Greedy (Bbn.run ops).vars R ds) : cs = ds := h1.unique (vars_nodup (bbn_run_inv ops)) h2

/-- **C54**: so the join tree is the same for all iteration orders of the sets: same cliques and separation sets (their ids, in order, and
their nodes, up to order), same edges, same neighbors -/
theorem c54_join_tree (it it' : SetIter Int) (js js' : SetIter Str) (ops : List BOp) :
    let jt := joinTreeOf it js ops
    let jt' := joinTreeOf it' js' ops
    Dict.keys jt.nodes = Dict.keys jt'.nodes ∧ Dict.keys jt.edges = Dict.keys jt'.edges ∧ jt.neighbors = jt'.neighbors ∧
    jt.getCliques.map Clique.id = jt'.getCliques.map Clique.id ∧ jt.getSepSets.map SepSet.id = jt'.getSepSets.map SepSet.id ∧
    List.Forall₂ (fun c d : Clique => c.nodes.Perm d.nodes) jt.getCliques jt'.getCliques ∧
    List.Forall₂ (fun s t : SepSet => s.nodes.Perm t.nodes ∧ s.left.id = t.left.id ∧ s.right.id = t.right.id) jt.getSepSets jt'.getSepSets := by
  intro jt jt'
  have h : jt.Same jt' := transform_same (triangulate_same it it' (bbn_run_inv ops)) js js'
  have hc : List.Forall₂ Clique.Same jt.getCliques jt'.getCliques := by
    unfold JoinTree.getCliques
    have := h.nodes
    generalize jt.nodes = a at this
    generalize jt'.nodes = b at this
    induction this with
    | nil => exact List.Forall₂.nil
    | @cons x y l m hxy _ ih =>
      obtain ⟨_, x2⟩ := x
      obtain ⟨_, y2⟩ := y
      obtain ⟨_, hxy⟩ := hxy
      cases hxy with
      | clique h => exact List.Forall₂.cons h ih
      | sepset h => exact ih
  have hs : List.Forall₂ SepSet.Same jt.getSepSets jt'.getSepSets := by
    unfold JoinTree.getSepSets
    have := h.nodes
    generalize jt.nodes = a at this
    generalize jt'.nodes = b at this
    induction this with
    | nil => exact List.Forall₂.nil
    | @cons x y l m hxy _ ih =>
      obtain ⟨_, x2⟩ := x
      obtain ⟨_, y2⟩ := y
      obtain ⟨_, hxy⟩ := hxy
      cases hxy with
      | clique h => exact ih
      | sepset h => exact List.Forall₂.cons h ih
  refine ⟨keys_of_forall₂ h.nodes, keys_of_forall₂ h.edges, h.neighbors, ?_, ?_, hc,
    hs.imp (fun s t k => ⟨k.nodes, k.left.id_eq, k.right.id_eq⟩)⟩
  · generalize jt.getCliques = a at hc
    generalize jt'.getCliques = b at hc
    induction hc with
    | nil => rfl
    | cons k _ ih => rw [List.map_cons, List.map_cons, ih, k.id_eq]
  · generalize jt.getSepSets = a at hs
    generalize jt'.getSepSets = b at hs
    induction hs with
    | nil => rfl
    | cons k _ ih => rw [List.map_cons, List.map_cons, ih, k.id]

/-- the ids of the nodes of a clique -/
def Clique.idSet (c : Clique) : Finset Int := (c.nodes.map Variable.id).toFinset

/-- the number of rows of the table of a clique -/
def Clique.rows (c : Clique) : Nat := (c.nodes.map (fun v => v.values.length)).prod

/-- the separation set `t` is to be preferred to the separation set `SepSet(c, d)`: more nodes in common; then fewer rows in the two tables;
then the smaller id -/
def Preferred (t : SepSet) (c d : Clique) : Prop :=
  (c.idSet ∩ d.idSet).card < (t.left.idSet ∩ t.right.idSet).card ∨
  (c.idSet ∩ d.idSet).card = (t.left.idSet ∩ t.right.idSet).card ∧
    (t.left.rows + t.right.rows < c.rows + d.rows ∨
     t.left.rows + t.right.rows = c.rows + d.rows ∧ strLe t.id (SepSet.mk' c d).id = true)

/-- **C56**: the cliques of the join tree are those of the triangulation in the order in which they were formed, and any two of them with a
node in common are joined by separation sets that are all preferred to (or equal to) their own -/
theorem c56_separators (it : SetIter Int) (js : SetIter Str) (ops : List BOp) :
    let jt := joinTreeOf it js ops
    jt.getCliques = (Triangulator.triangulate it (moralize (Bbn.run ops))).1 ∧
    ∀ c d, [c, d].Sublist jt.getCliques → (c.idSet ∩ d.idSet).Nonempty →
      EqvGen (fun A B => ∃ t ∈ jt.getSepSets, t.left.idSet = A ∧ t.right.idSet = B ∧ Preferred t c d) c.idSet d.idSet := by
  intro jt
  have hs : CliqueSpec (Bbn.run ops) (Triangulator.triangulate it (moralize (Bbn.run ops))).1 := (triangulate_spec it (bbn_run_inv ops)).1
  have hf : CFam (Triangulator.triangulate it (moralize (Bbn.run ops))).1 := ⟨hs.nodup, hs.anti⟩
  have e : jt.getCliques = (Triangulator.triangulate it (moralize (Bbn.run ops))).1 := getCliques_transform js hf
  refine ⟨e, ?_⟩
  rw [e]
  intro c d hcd hne
  obtain ⟨T, h1, h2⟩ := transform_order js hs
  have hpair : ∀ l : List Clique, [c, d].Sublist l → (c, d) ∈ pairs l := by
    intro l
    induction l with
    | nil => intro h; cases h
    | cons a l ih =>
      intro h
      rw [pairs, List.mem_append]
      cases h with
      | cons _ h => exact Or.inr (ih h)
      | cons_cons _ h =>
        left
        exact List.mem_map.2 ⟨d, List.singleton_sublist.1 h, rfl⟩
  have hint : (c.intersects d).2.2 ≠ [] := by
    obtain ⟨x, hx⟩ := hne
    rw [Finset.mem_inter] at hx
    intro e
    have : x ∈ (c.intersects d).2.2 := (intersects_mem c d x).2 ⟨(c.mem_fs x).1 hx.1, (d.mem_fs x).1 hx.2⟩
    rw [e] at this
    simp at this
  have hmem : SepSet.mk' c d ∈ Transformer.getSepSets (Triangulator.triangulate it (moralize (Bbn.run ops))).1 := by
    unfold Transformer.getSepSets
    rw [mem_sortBy, List.mem_map]
    exact ⟨(c, d), List.mem_filter.2 ⟨hpair _ hcd, by simpa using hint⟩, rfl⟩
  have hgood := (getSepSets_good hf).1 _ hmem
  have hmass : (SepSet.mk' c d).mass = (c.idSet ∩ d.idSet).card := hgood.mass_eq hf
  have h3 : Conn sl sr (T.filter (fun t => Transformer.sepLe t (SepSet.mk' c d))) c.fs d.fs := h2 _ hmem
  refine EqvGen.mono ?_ _ _ h3
  rintro A B ⟨t, ht, hl, hr⟩
  rw [List.mem_filter] at ht
  refine ⟨t, (h1.mem_getSepSets t).2 ht.1, hl, hr, ?_⟩
  have hm : t.mass = (t.left.idSet ∩ t.right.idSet).card := (h1.good t ht.1).mass_eq hf
  have hle := ht.2
  unfold Transformer.sepLe at hle
  unfold Preferred
  rw [← hm, ← hmass]
  have hcost : ∀ s : SepSet, s.cost = s.left.rows + s.right.rows := fun _ => rfl
  have hcost' : (SepSet.mk' c d).cost = c.rows + d.rows := rfl
  rw [hcost, hcost'] at hle
  split_ifs at hle with k1 k2 k3 k4
  · exact Or.inl k1
  · exact Or.inr ⟨by omega, Or.inl k3⟩
  · exact Or.inr ⟨by omega, Or.inr ⟨by omega, hle⟩⟩

/-- not vacuous: in the six-node network (a loop, so that an edge must be added) the cliques `3-4-5` and `1-2-3` have node 3 in common but no
separation set of their own: they are joined by the two preferred ones `3-4-5` – `2-3-4` – `1-2-3`; the two iteration orders list the nodes
of the cliques in different orders -/
example : ((joinTreeOf .same .same c13_ops).getCliques.map Clique.nodeIds) = [[3, 4, 5], [1, 2, 0], [3, 2, 1], [4, 3, 2]] ∧
    ((joinTreeOf .rev .rev c13_ops).getCliques.map Clique.nodeIds) = [[4, 3, 5], [2, 1, 0], [2, 3, 1], [3, 4, 2]] ∧
    ((joinTreeOf .rev .rev c13_ops).getCliques.map Clique.id) = ["3-4-5".toList, "0-1-2".toList, "1-2-3".toList, "2-3-4".toList] ∧
    ((joinTreeOf .rev .rev c13_ops).getSepSets.map SepSet.id) =
      ["0-1-2-1-2-1-2-3".toList, "1-2-3-2-3-2-3-4".toList, "3-4-5-3-4-2-3-4".toList] := by
  decide +kernel

end PyBBN
