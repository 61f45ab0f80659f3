import Verif.Model.NxGraph
import Verif.Proofs.DSepProb
import Verif.Props.Do
import Verif.Props.Ace
import Verif.Props.Generator

/-!
# Graphs exported to `networkx`, and d-separation (C62, C63)
-/

namespace PyBBN
open Relation InferenceController DSep

/-! ## C62: `to_nx_graph` -/

/-- **C62**. `to_nx_graph` gives the ids of the nodes in order, without repetition, the edges requested when the network was built, without
repetition, and labels each id with the name of its node. -/
theorem c62_nx_graph (ops : List BOp) :
    let g := (Bbn.run ops).toNxGraph.1
    g.nodes = (Bbn.run ops).vars.map Variable.id ∧ g.nodes.Nodup ∧ g.edges.Nodup ∧ (∀ p c, g.E p c ↔ (p, c) ∈ BOp.edges ops) ∧
      (Bbn.run ops).toNxGraph.2 = (Bbn.run ops).vars.map (fun v => (v.id, v.name)) := by
  obtain ⟨h1, h2, h3, h4⟩ := c58_drawing ops
  have hinv := bbn_run_inv ops
  have hwf : (Gen.convertForDrawing (Bbn.run ops)).WF := by
    intro e he
    have := (h4 e.1 e.2).1 he
    rw [← c03_bbn_edges_requested] at this
    obtain ⟨f, hf, e1, e2⟩ := this
    have h5 : (Bbn.run ops).vars.map Variable.id = Dict.keys (Bbn.run ops).nodes := vids_vars hinv
    rw [h1, h5, ← e1, ← e2]
    exact hinv.ginv.emNodes _ _ (hinv.einv.em f hf)
  refine ⟨h1, h2, Gen.nodup_edges h2 h3, fun p c => (Gen.mem_edges hwf p c).trans (h4 p c), ?_⟩
  change Dict.ofList ((Bbn.run ops).toGraph.getNodes.map (fun n => (n.var.id, n.var.name))) = _
  rw [Dict.ofList_nodup]
  · simp only [Bbn.vars, List.map_map]; rfl
  · rw [List.map_map]; exact node_ids_nodup hinv

theorem nxGraph_wf (ops : List BOp) : (Bbn.run ops).toNxGraph.1.WF := by
  obtain ⟨h1, _, _, h4, _⟩ := c62_nx_graph ops
  have hinv := bbn_run_inv ops
  intro e he
  have := (h4 e.1 e.2).1 he
  rw [← c03_bbn_edges_requested] at this
  obtain ⟨f, hf, e1, e2⟩ := this
  have h5 : (Bbn.run ops).vars.map Variable.id = Dict.keys (Bbn.run ops).nodes := vids_vars hinv
  rw [h1, h5, ← e1, ← e2]
  exact hinv.ginv.emNodes _ _ (hinv.einv.em f hf)

theorem nxGraph_E (ops : List BOp) : (Bbn.run ops).toNxGraph.1.E = (Bbn.run ops).Par := by
  funext p c
  exact propext (((c62_nx_graph ops).2.2.2.1 p c).trans (par_iff ops p c).symm)

theorem nxGraph_acyclic {ops : List BOp} (hac : AcyclicOps ops) : (Bbn.run ops).toNxGraph.1.Acyclic := by
  have e : (Bbn.run ops).toNxGraph.1.E = fun p c => (p, c) ∈ BOp.edges ops := by
    funext p c; exact propext ((c62_nx_graph ops).2.2.2.1 p c)
  unfold DiG.Acyclic
  rw [e]
  exact hac

/-! ## C63: d-separation -/

variable {ops : List BOp} {it : SetIter Int} {js : SetIter Str} {jt : JoinTree}

/-- `do.py` finds every path between `x` and a node of `ys` inactive given `zs`, in the graph that `to_nx_graph` gives -/
def AllInactive (b : Bbn) (x : Int) (ys zs : List Int) : Prop :=
  ∀ y ∈ ys, ∀ p ∈ Do.allPaths b.toNxGraph.1 x y, Do.isActivePath b.toNxGraph.1 p ⟨true, zs⟩ = .ok false

/-- if every path is inactive then every path is blocked -/
theorem blocked_of_inactive (hac : AcyclicOps ops) {x : Int} {ys zs : List Int} (hin : AllInactive (Bbn.run ops) x ys zs)
    (hx : x ∉ ys) (hxz : x ∉ zs) {y : Int} (hy : y ∈ ys) (hyz : y ∉ zs) {p : List Int} (hp : IsPath (Bbn.run ops).Par x y p) :
    ¬ Open (Bbn.run ops).Par (· ∈ zs) p := by
  have hxy : x ≠ y := fun e => hx (e ▸ hy)
  rw [← nxGraph_E] at hp ⊢
  have h1 := hin y hy p ((c39_all_paths (nxGraph_wf ops) hxy p).2 hp)
  by_cases h3 : 3 ≤ p.length
  · obtain ⟨r, k1, k2⟩ := c39_path_activity (nxGraph_wf ops) (nxGraph_acyclic hac) hp h3 zs
    rw [k1] at h1
    cases h1
    intro ho
    exact absurd (k2.2 ho) (by simp)
  · exfalso
    obtain ⟨b, l, rfl⟩ := Do.path_cons hp hxy
    cases l with
    | cons c l => simp at h3
    | nil =>
      have hs := hp.stop
      simp at hs
      subst hs
      obtain ⟨r, k1, k2⟩ := c39_edge (g := (Bbn.run ops).toNxGraph.1) (x := x) (y := b) ⟨true, zs⟩
      rw [k1] at h1
      cases h1
      exact absurd (k2.2 ⟨hxz, hyz⟩) (by simp)

/-- evidence history: the nodes of `zs` are observed at the values of `τ`, and nodes outside `ys` and `zs` have no evidence -/
def EvidenceOn (b : Bbn) (ys zs : List Int) (τ : Asg) (h : List (SetIter Str × EvOp)) : Prop :=
  (∀ op ∈ h, op.2.Ok b.vars) ∧ (∀ v ∈ b.vars, v.id ∈ zs → ∀ u ∈ v.values, specHist b.vars h v.id u = if u = τ v.id then 1 else 0) ∧
    ∀ v ∈ b.vars, v.id ∉ ys → v.id ∉ zs → ∀ u ∈ v.values, specHist b.vars h v.id u = 1

/-- **C63**. On a connected acyclic network whose CPT rows sum to one, with distinct names: if `do.py` finds all paths between `x` and the
nodes of `ys` inactive given `zs`, and two evidence histories observe `zs` at the same values and otherwise put evidence on `ys` only, in
any possible way, then `get_posteriors` answers the same for `x`. -/
theorem c63_d_separation (hu : Net.Usable ops) (hac : AcyclicOps ops) (hn : (Bbn.run ops).Normalized (Bbn.run ops).parentVars)
    (hname : ((Bbn.run ops).vars.map Variable.name).Nodup) (hj : apply it js (Bbn.run ops) = .ok jt)
    {x : Variable} (hx : x ∈ (Bbn.run ops).vars) {ys zs : List Int} (hxy : x.id ∉ ys) (hxz : x.id ∉ zs) (hyz : ∀ y ∈ ys, y ∉ zs)
    (hin : AllInactive (Bbn.run ops) x.id ys zs) {τ : Asg} {h h' : List (SetIter Str × EvOp)}
    (he : EvidenceOn (Bbn.run ops) ys zs τ h) (he' : EvidenceOn (Bbn.run ops) ys zs τ h')
    (hpos : (Bbn.run ops).total (specHist (Bbn.run ops).vars h) ≠ 0) (hpos' : (Bbn.run ops).total (specHist (Bbn.run ops).vars h') ≠ 0) :
    ∃ d d', (runHist jt h).getPosteriors = .ok d ∧ (runHist jt h').getPosteriors = .ok d' ∧
      (Dict.get? d x.name).isSome ∧ Dict.get? d x.name = Dict.get? d' x.name := by
  obtain ⟨d, h1, _, h2⟩ := Reach.posteriors (s := runHist jt h) (ℓ := specHist (Bbn.run ops).vars h) hu hj hname
    ⟨h, he.1, rfl, fun _ _ _ _ => rfl⟩
  obtain ⟨d', h1', _, h2'⟩ := Reach.posteriors (s := runHist jt h') (ℓ := specHist (Bbn.run ops).vars h') hu hj hname
    ⟨h', he'.1, rfl, fun _ _ _ _ => rfl⟩
  refine ⟨d, d', h1, h1', by rw [h2 x hx]; rfl, ?_⟩
  rw [h2 x hx, h2' x hx]
  congr 1
  apply List.map_congr_left
  intro a _
  have hb := proper_of hu.toSane hac hn
  have hsep : ∀ v, ReflTransGen (Mor (Bbn.run ops).Par x.id (· ∈ ys) (· ∈ zs)) x.id v → v ∉ ys := by
    intro v hv
    refine not_mor_of_blocked (fun a b h1 h2 => hb.acyclic a (TransGen.head h1 (TransGen.single h2))) hxy ?_ hv
    intro y hy p hp
    exact blocked_of_inactive hac hin hxy hxz hy (hyz y hy) hp
  have hid : x.id ∈ (Bbn.run ops).ids := by
    obtain ⟨n, hn, rfl⟩ := List.mem_map.1 hx
    exact mem_ids.2 ⟨n, hn, rfl⟩
  rw [dsep_posterior hb hid hxz hsep ⟨he.2.1, he.2.2⟩ ⟨he'.2.1, he'.2.2⟩ hpos hpos']

/-- C62 is not vacuous: the diamond of C16 -/
example : (Bbn.run c16_ops).toNxGraph.1.nodes = [0, 1, 2, 3, 4] ∧ (Bbn.run c16_ops).toNxGraph.1.edges = [(0, 1), (0, 2), (1, 3), (2, 3), (3, 4)] ∧
    (Bbn.run c16_ops).toNxGraph.2.map (fun kv => (kv.1, String.ofList kv.2)) = [(0, "a"), (1, "b"), (2, "c"), (3, "d"), (4, "e")] :=
  ⟨by decide +kernel, by decide +kernel, by decide +kernel⟩

/-- node 0 observed -/
def c63_h : List (SetIter Str × EvOp) := [(.same, .observe (obs (c16_node 0) "on".toList))]

/-- node 0 observed and virtual evidence on node 2 -/
def c63_h' : List (SetIter Str × EvOp) :=
  [(.rev, .update [Evidence.build (c16_node 2) .virtual [("on".toList, 3/4), ("off".toList, 1/4)], obs (c16_node 0) "on".toList])]

theorem c63_h_on : EvidenceOn (Bbn.run c16_ops) [2] [0] (fun _ => "on".toList) c63_h := by
  refine ⟨?_, by decide +kernel, by decide +kernel⟩
  intro op hop
  simp only [c63_h, List.mem_cons, List.not_mem_nil, or_false] at hop
  subst hop
  exact ⟨by decide +kernel, unambiguous_of_check (by decide +kernel)⟩

theorem c63_h'_on : EvidenceOn (Bbn.run c16_ops) [2] [0] (fun _ => "on".toList) c63_h' := by
  refine ⟨?_, by decide +kernel, by decide +kernel⟩
  intro op hop
  simp only [c63_h', List.mem_cons, List.not_mem_nil, or_false] at hop
  subst hop
  intro e he
  simp only [List.mem_cons, List.not_mem_nil, or_false] at he
  rcases he with rfl | rfl
  · exact ⟨by decide +kernel, unambiguous_of_check (by decide +kernel)⟩
  · exact ⟨by decide +kernel, unambiguous_of_check (by decide +kernel)⟩

/-- the paths between two nodes, each with its activity -/
def activities (b : Bbn) (x y : Int) (zs : List Int) : List (List Int × Option Bool) :=
  (Do.allPaths b.toNxGraph.1 x y).map (fun p => (p, (Do.isActivePath b.toNxGraph.1 p ⟨true, zs⟩).val?))

/-- C63 is not vacuous: in the diamond the two paths between 1 and 2 are inactive given 0; evidence on 2 does not move 1. Without the
observation one path is active and it does. -/
example : EvidenceOn (Bbn.run c16_ops) [2] [0] (fun _ => "on".toList) c63_h ∧ EvidenceOn (Bbn.run c16_ops) [2] [0] (fun _ => "on".toList) c63_h' ∧
    activities (Bbn.run c16_ops) 1 2 [0] = [([1, 0, 2], some false), ([1, 3, 2], some false)] ∧
    activities (Bbn.run c16_ops) 1 2 [] = [([1, 0, 2], some true), ([1, 3, 2], some false)] ∧
    (Bbn.run c16_ops).total (specHist (Bbn.run c16_ops).vars c63_h) ≠ 0 ∧ (Bbn.run c16_ops).total (specHist (Bbn.run c16_ops).vars c63_h') ≠ 0 :=
  ⟨c63_h_on, c63_h'_on, by decide +kernel, by decide +kernel, by decide +kernel, by decide +kernel⟩

example := c62_nx_graph c16_ops

/-- C63 at this network and these histories -/
example := c63_d_separation c16_usable c16_acyclic c16_normalized (by decide +kernel) (c16_jt_ok .same .rev) (x := c16_node 1) (by decide +kernel)
  (ys := [2]) (zs := [0]) (by decide) (by decide) (by decide)
  (by
    have key : ∀ y ∈ [2], ∀ p ∈ Do.allPaths (Bbn.run c16_ops).toNxGraph.1 1 y,
        (Do.isActivePath (Bbn.run c16_ops).toNxGraph.1 p ⟨true, [0]⟩).val? = some false := by decide +kernel
    intro y hy p hp
    have := key y hy p hp
    cases hr : Do.isActivePath (Bbn.run c16_ops).toNxGraph.1 p ⟨true, [0]⟩ with
    | error e => rw [hr] at this; cases this
    | ok r => rw [hr] at this; rw [Option.some.inj this]) c63_h_on c63_h'_on (by decide +kernel) (by decide +kernel)

/-! ## C38: parents separated in the graph -/

/-- nodes that are not connected with `z` are independent of it -/
theorem dsep_independent {b : Bbn} (hb : b.Proper) {z : Variable} (hz : z ∈ b.vars) {Z : List Variable} (hZ : ∀ w ∈ Z, w ∈ b.vars)
    (hsep : ∀ v, ReflTransGen (Mor b.Par z.id (· ∈ vids Z) DSep.none) z.id v → v ∉ vids Z) (τ : Asg) :
    b.pr (agree (z :: Z) τ) = b.pr (isAt z.id (τ z.id)) * b.pr (agree Z τ) := by
  have htot : b.weightOf (fun _ => true) = 1 := by rw [weightOf_true, total_one hb]
  have hpr : ∀ F : Asg → Bool, b.pr F = b.weightOf F := by
    intro F; unfold Bbn.pr; rw [htot, div_one]
  have hid : z.id ∈ b.ids := by
    obtain ⟨n, hn, rfl⟩ := List.mem_map.1 hz
    exact mem_ids.2 ⟨n, hn, rfl⟩
  obtain ⟨p, q, hpq⟩ := dsep_factor hb hid (Z := DSep.none) (fun h => h) hsep τ (τ z.id)
  obtain ⟨r, h1, h2⟩ := hpq (pinned Z τ) ⟨fun _ _ h => absurd h id, fun v _ hv _ u _ => by
    unfold pinned; rw [if_neg hv]⟩
  obtain ⟨s, h3, h4⟩ := hpq noEvidence ⟨fun _ _ h => absurd h id, fun v _ _ _ u _ => rfl⟩
  have e1 : b.weightOf (agree Z τ) = b.total (pinned Z τ) := by
    rw [weightOf_eq]
    unfold Bbn.total
    congr 1
    apply List.map_congr_left
    intro σ _
    rw [weight_pinned hZ]
  have e2 : b.weightOf (agree (z :: Z) τ) = b.mass (pinned Z τ) z.id (τ z.id) := by
    rw [weightOf_eq]
    unfold Bbn.mass
    rw [sum_filter_map]
    congr 1
    apply List.map_congr_left
    intro σ _
    rw [weight_pinned hZ]
    have : agree (z :: Z) τ σ = (decide (σ z.id = τ z.id) && agree Z τ σ) := by
      unfold agree
      rw [Bool.eq_iff_iff]
      simp
    rw [this]
    by_cases g1 : σ z.id = τ z.id <;> by_cases g2 : agree Z τ σ = true <;> simp [g1, g2]
  have e3 : b.weightOf (isAt z.id (τ z.id)) = b.mass noEvidence z.id (τ z.id) := rfl
  rw [total_one hb] at h3
  rw [hpr, hpr, hpr, e1, e2, e3, h1, h2, h4]
  have : q * s * (p * r) = q * r * (p * s) := by ring
  rw [this, ← h3, mul_one]

/-- `do.py` finds every path between two different parents of the node inactive without evidence -/
def ParentsSeparated (b : Bbn) (id : Int) : Prop :=
  ∀ z ∈ b.causes id, ∀ w ∈ b.causes id, z.id ≠ w.id →
    ∀ p ∈ Do.allPaths b.toNxGraph.1 z.id w.id, Do.isActivePath b.toNxGraph.1 p ⟨true, []⟩ = .ok false

/-- **C38**: parents between which `do.py` finds no active path are independent, so `c38_causal_effect_partial` applies -/
theorem c38_separated_parents (hs : Net.Sane ops) (hac : AcyclicOps ops) (hn : (Bbn.run ops).Normalized (Bbn.run ops).parentVars) {id : Int}
    (hsep : ParentsSeparated (Bbn.run ops) id) : IndependentCauses (Bbn.run ops) id := by
  have hb := proper_of hs hac hn
  obtain ⟨_, g2, g3, _⟩ := causes_spec (bbn_run_inv ops) id
  intro τ _
  have key : ∀ Z : List Variable, (∀ z ∈ Z, z ∈ (Bbn.run ops).causes id) → (vids Z).Nodup →
      (Bbn.run ops).pr (agree Z τ) = (Z.map (fun z => (Bbn.run ops).pr (isAt z.id (τ z.id)))).prod := by
    intro Z
    induction Z with
    | nil =>
      intro _ _
      have : agree [] τ = fun _ => true := by funext σ; simp [agree]
      have htot : (Bbn.run ops).weightOf (fun _ => true) = 1 := by rw [weightOf_true, total_one hb]
      unfold Bbn.pr
      rw [this, htot]
      simp
    | cons z Z ih =>
      intro hZ hnd
      rw [vids_cons, List.nodup_cons] at hnd
      have hz := hZ z List.mem_cons_self
      rw [dsep_independent hb (g3 z hz) (fun w hw => g3 w (hZ w (List.mem_cons_of_mem _ hw))) ?_ τ,
        ih (fun w hw => hZ w (List.mem_cons_of_mem _ hw)) hnd.2, List.map_cons, List.prod_cons]
      intro v hv
      refine not_mor_of_blocked (Y := (· ∈ vids Z)) (fun a b h1 h2 => hb.acyclic a (TransGen.head h1 (TransGen.single h2))) hnd.1 ?_ hv
      intro y hy p hp
      have := blocked_of_inactive (ops := ops) (x := z.id) (ys := vids Z) (zs := []) hac ?_ hnd.1 (by simp) hy (by simp) hp
      · intro ho
        refine this ?_
        have e : (fun i : Int => i ∈ ([] : List Int)) = DSep.none := by funext i; simp [DSep.none]
        rw [e]
        exact ho
      · intro y hy q hq
        obtain ⟨w, hw, rfl⟩ := List.mem_map.1 hy
        exact hsep z hz w (hZ w (List.mem_cons_of_mem _ hw)) (fun e => hnd.1 (e ▸ List.mem_map_of_mem hw)) q hq
  exact key _ (fun _ h => h) g2

/-- two parents 4 and 0 of node 5, connected only through it, and a parent 3 of 4 -/
def c38_sep_ops : List BOp :=
  [.addEdge (mkNode 3 "d" [1/5, 4/5]) (mkNode 4 "b" [1/2, 1/2, 1/4, 3/4]),
   .addEdge (mkNode 4 "b" [1/2, 1/2, 1/4, 3/4]) (mkNode 5 "c" [1, 0, 1/3, 2/3, 0, 1, 1/7, 6/7]),
   .addEdge (mkNode 0 "a" [1/2, 1/2]) (mkNode 5 "c" [1, 0, 1/3, 2/3, 0, 1, 1/7, 6/7])]

/-- non-vacuity: the only path between the parents 4 and 0 of node 5 is inactive -/
example : AcyclicOps c38_sep_ops ∧ ParentsSeparated (Bbn.run c38_sep_ops) 5 ∧ ((Bbn.run c38_sep_ops).causes 5).map Variable.id = [4, 0] ∧
    activities (Bbn.run c38_sep_ops) 4 0 [] = [([4, 5, 0], some false)] := by
  refine ⟨acyclic_of_lt (by decide +kernel), ?_, by decide +kernel, by decide +kernel⟩
  have key : ∀ z ∈ (Bbn.run c38_sep_ops).causes 5, ∀ w ∈ (Bbn.run c38_sep_ops).causes 5, z.id ≠ w.id →
      ∀ p ∈ Do.allPaths (Bbn.run c38_sep_ops).toNxGraph.1 z.id w.id,
        (Do.isActivePath (Bbn.run c38_sep_ops).toNxGraph.1 p ⟨true, []⟩).val? = some false := by decide +kernel
  intro z hz w hw hne p hp
  have := key z hz w hw hne p hp
  cases hr : Do.isActivePath (Bbn.run c38_sep_ops).toNxGraph.1 p ⟨true, []⟩ with
  | error e => rw [hr] at this; cases this
  | ok r => rw [hr] at this; rw [Option.some.inj this]

end PyBBN
