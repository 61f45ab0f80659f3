import Verif.Proofs.Only
import Verif.Props.Serde

/-! What `from_dict(to_dict(jt))` keeps of a tree with edges: the cliques at their ends. -/

namespace PyBBN
open Relation InferenceController

/-- the clique is at the end of some edge -/
def touched (T : List SepSet) (c : Clique) : Bool := decide (∃ s ∈ T, c = s.left ∨ c = s.right)

section
variable {vars : List Variable} {cs : List Clique} {T : List SepSet} {jt : JoinTree}

theorem touched_iff {c : Clique} : touched T c = true ↔ ∃ s ∈ T, c = s.left ∨ c = s.right := by
  unfold touched; exact decide_eq_true_iff

theorem JTSpec.kept_iff (h : JTSpec cs T jt) (ho : EdgesOk T jt) {c : Clique} (hc : c ∈ cs) {i : Int} (hi : i ∈ c.nodeIds) :
    jt.kept i = touched T c := by
  rw [Bool.eq_iff_iff, touched_iff]
  unfold JoinTree.kept
  rw [decide_eq_true_iff]
  constructor
  · rintro ⟨s, hs, e⟩
    have hs := ho.perm.mem_iff.1 hs
    have hg := h.shape.good s hs
    by_contra hno
    push Not at hno
    have hiso : ∀ t ∈ T.filter (fun s => decide (i ∈ sl s ∩ sr s)), sl t ≠ c.fs ∧ sr t ≠ c.fs := by
      intro t ht
      have ht := (List.mem_filter.1 ht).1
      have hg := h.shape.good t ht
      exact ⟨fun e => (hno t ht).1 (h.fam.fs_inj hg.left hc e).symm, fun e => (hno t ht).2 (h.fam.fs_inj hg.right hc e).symm⟩
    rcases e with e | e
    · have := (h.rip i s.left hg.left c hc ((s.left.mem_fs i).2 e) ((c.mem_fs i).2 hi)).isolated hiso
      exact (hno s hs).1 (h.fam.fs_inj hg.left hc (this.2 rfl)).symm
    · have := (h.rip i s.right hg.right c hc ((s.right.mem_fs i).2 e) ((c.mem_fs i).2 hi)).isolated hiso
      exact (hno s hs).2 (h.fam.fs_inj hg.right hc (this.2 rfl)).symm
  · rintro ⟨s, hs, rfl | rfl⟩
    · exact ⟨s, ho.perm.mem_iff.2 hs, Or.inl hi⟩
    · exact ⟨s, ho.perm.mem_iff.2 hs, Or.inr hi⟩

theorem Ctx.rebuild_kept (h : Ctx vars cs T jt) (ho : EdgesOk T jt) (hne : Dict.values jt.edges ≠ []) (it : SetIter Int)
    (js : SetIter Str) :
    ∃ T', JTSpec ((cs.filter (touched T)).map (reClique it jt)) T' (jt.rebuild it js) ∧ T'.Perm (T.map (reSep (reClique it jt))) ∧
      EdgesOk T' (jt.rebuild it js) := by
  have hre0 := h.reorder it
  have hmem : ∀ c, c ∈ cs.filter (touched T) ↔ c ∈ cs ∧ ∃ s ∈ T, c = s.left ∨ c = s.right := by
    intro c; rw [List.mem_filter, touched_iff]
  have hre : Reorder (cs.filter (touched T)) (reClique it jt) := ⟨fun c hc => hre0.perm c (List.mem_filter.1 hc).1⟩
  have hfam : CFam (cs.filter (touched T)) :=
    ⟨fun c hc => h.spec.fam.nodup c (List.mem_filter.1 hc).1, h.spec.fam.anti.sublist List.filter_sublist⟩
  have hgood0 : ∀ s ∈ T, GoodSep (cs.filter (touched T)) s := by
    intro s hs
    have hg := h.spec.shape.good s hs
    exact ⟨(hmem _).2 ⟨hg.left, s, hs, Or.inl rfl⟩, (hmem _).2 ⟨hg.right, s, hs, Or.inr rfl⟩, hg.ne, hg.eq, hg.common⟩
  have hends : ∀ s ∈ T, sl (reSep (reClique it jt) s) = sl s ∧ sr (reSep (reClique it jt) s) = sr s := fun s hs =>
    ⟨hre.fs (hgood0 s hs).left, hre.fs (hgood0 s hs).right⟩
  have hcf := hre.cfam hfam
  have he : (Dict.values jt.edges).map (reSep (reClique it jt)) ≠ [] := by simpa using hne
  have eq : jt.rebuild it js = ((Dict.values jt.edges).map (reSep (reClique it jt))).foldl (fun jt s => jt.addEdge js s) {} := by
    unfold JoinTree.rebuild
    rw [if_pos he]
  set es := (Dict.values jt.edges).map (reSep (reClique it jt)) with hes
  have hperm : es.Perm (T.map (reSep (reClique it jt))) := ho.perm.map _
  have hrperm : es.reverse.Perm (T.map (reSep (reClique it jt))) := (List.reverse_perm es).trans hperm
  have hgood : ∀ s ∈ es, GoodSep ((cs.filter (touched T)).map (reClique it jt)) s := by
    intro s hs
    obtain ⟨t, ht, rfl⟩ := List.mem_map.1 (hperm.mem_iff.1 hs)
    exact hre.good hfam (hgood0 t ht)
  have hF0 : Forest sl sr es.reverse := (Forest.map hends h.spec.forest).perm hrperm.symm
  have hF : Forest sl sr (es.reverse ++ []) := by
    rw [List.append_nil]
    exact hF0
  obtain ⟨h1, h2⟩ := load_edges js hcf es _ {} [] (empty_jtree _) EdgesOk.empty hF hgood
  rw [← eq, List.append_nil] at h1 h2
  refine ⟨es.reverse, ⟨hcf, h1.congr ?_, hF0, ?_⟩, hrperm, h2⟩
  · intro c
    constructor
    · rintro (hc | ⟨s, hs, rfl | rfl⟩)
      · exact hc.elim
      · exact (hgood s hs).left
      · exact (hgood s hs).right
    · intro hc
      right
      obtain ⟨d, hd, rfl⟩ := List.mem_map.1 hc
      obtain ⟨_, s, hs, e⟩ := (hmem d).1 hd
      refine ⟨reSep (reClique it jt) s, hperm.mem_iff.2 (List.mem_map_of_mem hs), ?_⟩
      rcases e with rfl | rfl
      · exact Or.inl rfl
      · exact Or.inr rfl
  · intro v c hc d hd hvc hvd
    obtain ⟨c', hc', rfl⟩ := List.mem_map.1 hc
    obtain ⟨d', hd', rfl⟩ := List.mem_map.1 hd
    rw [hre.fs hc'] at hvc ⊢
    rw [hre.fs hd'] at hvd ⊢
    refine (h.spec.rip v c' (List.mem_filter.1 hc').1 d' (List.mem_filter.1 hd').1 hvc hvd).lift' ?_
    intro s hs
    rw [List.mem_filter] at hs
    rw [← (hends s hs.1).1, ← (hends s hs.1).2]
    apply Conn.edge (l := sl) (r := sr)
    rw [List.mem_filter]
    refine ⟨hrperm.mem_iff.2 (List.mem_map_of_mem hs.1), ?_⟩
    rw [(hends s hs.1).1, (hends s hs.1).2]
    exact hs.2

end

section
variable {ops : List BOp} {jt : JoinTree} {ℓ : Liks} {cs : List Clique} {T : List SepSet}

/-- the surviving nodes are closed under edges -/
theorem Held.closed (h : Held ops ℓ jt cs T) : ClosedIn jt.kept ops := by
  intro p c hpc
  have hi := bbn_run_inv ops
  have hN := Bbn.net_ok hi h.sane.wf
  have hpar := (parents_requested ops p c).2 hpc
  have hcv : c ∈ vids (Bbn.run ops).vars := by
    rw [vids_vars hi]
    exact (hi.ginv.emNodes _ _ ((hi.par _ _).1 hpar)).2
  obtain ⟨v, hv, rfl⟩ := List.mem_map.1 hcv
  obtain ⟨d, hd, _, hf⟩ := h.live.calib.done.pc hv
  have hspec := h.live.calib.ctx.spec
  have hc : v.id ∈ d.nodeIds := List.mem_map_of_mem (hf v (hN.self v hv))
  have hp : p ∈ d.nodeIds := by
    rw [← vids_parentVars hi] at hpar
    obtain ⟨u, hu, rfl⟩ := List.mem_map.1 hpar
    exact List.mem_map_of_mem (hf u (List.mem_append_left _ hu))
  rw [hspec.kept_iff h.edges hd hp, hspec.kept_iff h.edges hd hc]

/-- the tree read back is a tree of the network restricted to the surviving nodes -/
theorem Held.load_kept (h : Held ops ℓ jt cs T) (hne : Dict.values jt.edges ≠ []) (it : SetIter Int) (js js' : SetIter Str) (json : Bool) :
    ∃ T' jt1 jt', JoinTree.fromDict js (if json then (jt.toDict it (Bbn.run ops)).json else jt.toDict it (Bbn.run ops)) = .ok jt1 ∧
      applyFromSerde js' jt1 = .ok jt' ∧
      Held (BOp.only jt.kept ops) noEvidence jt' ((cs.filter (touched T)).map (reClique it jt)) T' ∧
      lik jt'.evidences = noEvidence ∧ T'.Perm (T.map (reSep (reClique it jt))) := by
  have hctx := h.live.calib.ctx
  have hspec := hctx.spec
  have hi := bbn_run_inv ops
  have hN := Bbn.net_ok hi h.sane.wf
  have hre := hctx.reorder it
  have hcl := h.closed
  have hwf := only_wf hcl h.sane.wf
  have hvars := only_vars hcl
  obtain ⟨T', h1, h2, h3⟩ := hctx.rebuild_kept h.edges hne it js
  have hk : (Dict.keys jt.bbnNodeDict).Nodup := nodup_foldl_set_id _ _ (by simp [Dict.keys])
  have hsane : Net.Sane (BOp.only jt.kept ops) := ⟨hwf, fun v hv => h.sane.vals v ((hvars v).1 hv).1⟩
  have hfc : ∀ v ∈ (Bbn.run (BOp.only jt.kept ops)).vars, ∃ c ∈ (cs.filter (touched T)).map (reClique it jt),
      ∀ u ∈ (Bbn.run (BOp.only jt.kept ops)).family v, u ∈ c.nodes := by
    intro v hv
    obtain ⟨hv1, hv2⟩ := (hvars v).1 hv
    obtain ⟨d, hd, _, hf⟩ := h.live.calib.done.pc hv1
    have ht : touched T d = true := by
      rw [← hspec.kept_iff h.edges hd (List.mem_map_of_mem (hf v (hN.self v hv1)))]
      exact hv2
    refine ⟨_, List.mem_map_of_mem (List.mem_filter.2 ⟨hd, ht⟩), ?_⟩
    intro u hu
    refine (hre.perm d hd).mem_iff.2 (hf u ?_)
    unfold Bbn.family at hu
    rw [only_parentVars hcl hv2] at hu
    exact hu
  have hctx1 : Ctx (Bbn.run (BOp.only jt.kept ops)).vars ((cs.filter (touched T)).map (reClique it jt)) T'
      { jt.rebuild it js with
        parentInfo := (Bbn.run ops).parents
        heap := jt.bbnNodeDict.map (fun kv => (kv.2.id, { probs := (jt.nodeObj kv.2).probs })) } := by
    refine ⟨h1.frame rfl rfl, (doms hsane).vn, (doms hsane).vals, ?_, ?_, ?_⟩
    · intro c hc v hv
      obtain ⟨d, hd, rfl⟩ := List.mem_map.1 hc
      obtain ⟨hd1, hd2⟩ := List.mem_filter.1 hd
      have hvd := (hre.perm d hd1).mem_iff.1 hv
      refine (hvars v).2 ⟨hctx.sub d hd1 v hvd, ?_⟩
      rw [hspec.kept_iff h.edges hd1 (List.mem_map_of_mem hvd)]
      exact hd2
    · intro v hv
      obtain ⟨c, hc, hf⟩ := hfc v hv
      exact ⟨c, hc, hf v (List.mem_append_right _ List.mem_cons_self)⟩
    · intro c hc
      obtain ⟨d, hd, rfl⟩ := List.mem_map.1 hc
      have hd1 := (List.mem_filter.1 hd).1
      intro e
      have := hre.perm d hd1
      rw [e] at this
      exact hctx.ne d hd1 (List.nil_perm.1 this)
  have hne' : (cs.filter (touched T)).map (reClique it jt) ≠ [] := by
    obtain ⟨s, hs⟩ := List.exists_mem_of_ne_nil _ hne
    have hs := h.edges.perm.mem_iff.1 hs
    refine List.ne_nil_of_mem (List.mem_map_of_mem (List.mem_filter.2 ⟨(hspec.shape.good s hs).left, touched_iff.2 ⟨s, hs, Or.inl rfl⟩⟩))
  have hheap : ∀ v ∈ (Bbn.run ops).vars, Dict.get? (jt.bbnNodeDict.map (fun kv => (kv.2.id, ({ probs := (jt.nodeObj kv.2).probs } : NodeObj))))
      v.id = some { probs := (jt.nodeObj v).probs } := by
    intro v hv
    have e : jt.bbnNodeDict.map (fun kv => (kv.2.id, ({ probs := (jt.nodeObj kv.2).probs } : NodeObj))) =
        jt.bbnNodeDict.map (fun kv => ((fun i => i) kv.1, (fun _ (v : Variable) => ({ probs := (jt.nodeObj v).probs } : NodeObj)) kv.1 kv.2)) := by
      apply List.map_congr_left
      rintro ⟨k, v⟩ hkv
      have := ((hctx.get_bbnNodeDict k v).1 (Dict.get?_of_mem hk hkv)).2
      simp [this]
    rw [e]
    have := Dict.get?_mapKey (f := fun i : Int => i) (fun _ _ h => h) (fun _ (v : Variable) => ({ probs := (jt.nodeObj v).probs } : NodeObj))
      jt.bbnNodeDict v.id
    rw [this, (hctx.get_bbnNodeDict v.id v).2 ⟨hv, rfl⟩]
    rfl
  have hsh : SerdeHeap (Bbn.run (BOp.only jt.kept ops)) ((cs.filter (touched T)).map (reClique it jt))
      (jt.bbnNodeDict.map (fun kv => (kv.2.id, ({ probs := (jt.nodeObj kv.2).probs } : NodeObj)))) := by
    intro n hn
    have hn0 := ((only_getNodes hcl n).1 hn).1
    have hv : n.var ∈ (Bbn.run ops).vars := List.mem_map_of_mem hn0
    obtain ⟨o, ho, e⟩ := h.probs n hn0
    refine ⟨_, hheap n.var hv, ?_, Or.inr ⟨rfl, hfc n.var (List.mem_map_of_mem hn)⟩⟩
    show (jt.nodeObj n.var).probs = _
    unfold JoinTree.nodeObj
    rw [ho, ← e]
    rfl
  have hpi : ∀ v ∈ (Bbn.run (BOp.only jt.kept ops)).vars,
      ddGet (Bbn.run ops).parents v.id = ddGet (Bbn.run (BOp.only jt.kept ops)).parents v.id := by
    intro v hv
    rw [only_parents hcl, if_pos ((hvars v).1 hv).2]
  obtain ⟨jt', b1, b2, b3, b4, b5, b6, b7, b8⟩ := serde_run (bbn_run_inv _) hwf hctx1 hne' hpi hsh js'
  refine ⟨T', _, jt', hctx.fromDict_eq h.edges it js (Bbn.run ops) (parInv_run ops).keys json, b1,
    ⟨hsane, b2, hne', ?_, ?_, b8, h3.frame b5⟩, b3, h2⟩
  · intro hc c hcm d hdm
    obtain ⟨u, hu⟩ := List.exists_mem_of_ne_nil _ (hctx1.ne c hcm)
    obtain ⟨w, hw⟩ := List.exists_mem_of_ne_nil _ (hctx1.ne d hdm)
    have huw := hc u (hctx1.sub c hcm u hu) w (hctx1.sub d hdm w hw)
    have hE : (fun p c => (p, c) ∈ BOp.edges (BOp.only jt.kept ops)) =
        fun p c => p ∈ ddGet (Bbn.run (BOp.only jt.kept ops)).parents c := by
      funext p c
      exact propext (parents_requested _ p c).symm
    rw [hE] at huw
    refine h1.conn_fam ?_ (bbn_run_inv _) huw c hcm d hdm (List.mem_map_of_mem hu) (List.mem_map_of_mem hw)
    intro v hv
    obtain ⟨k, hk1, hk2⟩ := hfc v hv
    refine ⟨k, hk1, ?_⟩
    intro i hi'
    rcases List.mem_cons.1 hi' with rfl | hi'
    · exact List.mem_map_of_mem (hk2 v (List.mem_append_right _ List.mem_cons_self))
    · rw [← vids_parentVars (bbn_run_inv _)] at hi'
      obtain ⟨x, hx, rfl⟩ := List.mem_map.1 hi'
      exact List.mem_map_of_mem (hk2 x (List.mem_append_left _ hx))
  · intro v hv
    rw [b7]
    exact hpi v hv

end

end PyBBN
