import Verif.Proofs.Transform
import Mathlib.Combinatorics.SimpleGraph.Acyclic

/-! Consequences of the shape of a join tree. -/

namespace PyBBN
open Relation

theorem Forest.nodup {V E : Type} [DecidableEq V] {l r : E → V} : ∀ {T : List E}, Forest l r T → T.Nodup
  | [], _ => List.nodup_nil
  | _ :: _, h => List.nodup_cons.2 ⟨fun c => h.1 (Conn.edge c), Forest.nodup h.2⟩

section
variable {all : List Clique} {pres : Clique → Prop} {T : List SepSet} {jt : JoinTree}

theorem JTree.mem_nodes (h : JTree all pres T jt) (k : Str) (n : JNode) :
    (k, n) ∈ jt.nodes ↔ (∃ c, pres c ∧ c.id = k ∧ n = .clique c) ∨ (∃ s ∈ T, s.id = k ∧ n = .sepset s) := by
  rw [← h.node, Dict.get?_eq_some_iff h.keys]

theorem JTree.mem_getCliques (h : JTree all pres T jt) (c : Clique) : c ∈ jt.getCliques ↔ pres c := by
  unfold JoinTree.getCliques
  rw [List.mem_filterMap]
  constructor
  · rintro ⟨⟨k, n⟩, hkn, hn⟩
    cases n with
    | clique d =>
      simp only [Option.some.injEq] at hn
      subst hn
      rcases (h.mem_nodes _ _).1 hkn with ⟨d', hd', _, e⟩ | ⟨s, _, _, e⟩
      · injection e with e; exact e ▸ hd'
      · simp at e
    | sepset s => simp at hn
  · intro hc
    exact ⟨(c.id, .clique c), (h.mem_nodes _ _).2 (Or.inl ⟨c, hc, rfl, rfl⟩), rfl⟩

theorem JTree.mem_getSepSets (h : JTree all pres T jt) (s : SepSet) : s ∈ jt.getSepSets ↔ s ∈ T := by
  unfold JoinTree.getSepSets
  rw [List.mem_filterMap]
  constructor
  · rintro ⟨⟨k, n⟩, hkn, hn⟩
    cases n with
    | clique d => simp at hn
    | sepset t =>
      simp only [Option.some.injEq] at hn
      subst hn
      rcases (h.mem_nodes _ _).1 hkn with ⟨d', hd', _, e⟩ | ⟨s, hs, _, e⟩
      · simp at e
      · injection e with e; exact e ▸ hs
  · intro hc
    exact ⟨(s.id, .sepset s), (h.mem_nodes _ _).2 (Or.inr ⟨s, hc, rfl, rfl⟩), rfl⟩

theorem JTree.cliques_nodup (h : JTree all pres T jt) : (jt.getCliques.map Clique.id).Nodup := by
  have : (jt.getCliques.map Clique.id).Sublist (Dict.keys jt.nodes) := by
    have hk : ∀ l : Dict Str JNode, (∀ k n, (k, n) ∈ l → ∀ c, n = .clique c → c.id = k) →
        ((l.filterMap (fun kv => match kv.2 with | .clique c => some c | .sepset _ => none)).map Clique.id).Sublist
          (Dict.keys l) := by
      intro l
      induction l with
      | nil => intro _; exact List.Sublist.refl _
      | cons kv l ih =>
        intro hl
        obtain ⟨k, n⟩ := kv
        have ih := ih (fun k n hkn => hl k n (List.mem_cons_of_mem _ hkn))
        cases n with
        | clique c =>
          have := hl k _ List.mem_cons_self c rfl
          simp only [List.filterMap_cons, List.map_cons, Dict.keys]
          rw [this]
          exact ih.cons_cons _
        | sepset s =>
          simp only [List.filterMap_cons, Dict.keys, List.map_cons]
          exact ih.cons _
    apply hk
    intro k n hkn c hc
    rcases (h.mem_nodes _ _).1 hkn with ⟨d', hd', hid, e⟩ | ⟨s, hs, _, e⟩
    · rw [hc] at e; injection e with e; rw [e]; exact hid
    · rw [hc] at e; simp at e
  exact List.Nodup.sublist this h.keys

theorem JTree.sepSets_nodup (h : JTree all pres T jt) : (jt.getSepSets.map SepSet.id).Nodup := by
  have : (jt.getSepSets.map SepSet.id).Sublist (Dict.keys jt.nodes) := by
    have hk : ∀ l : Dict Str JNode, (∀ k n, (k, n) ∈ l → ∀ c, n = .sepset c → c.id = k) →
        ((l.filterMap (fun kv => match kv.2 with | .clique _ => none | .sepset s => some s)).map SepSet.id).Sublist
          (Dict.keys l) := by
      intro l
      induction l with
      | nil => intro _; exact List.Sublist.refl _
      | cons kv l ih =>
        intro hl
        obtain ⟨k, n⟩ := kv
        have ih := ih (fun k n hkn => hl k n (List.mem_cons_of_mem _ hkn))
        cases n with
        | sepset c =>
          have := hl k _ List.mem_cons_self c rfl
          simp only [List.filterMap_cons, List.map_cons, Dict.keys]
          rw [this]
          exact ih.cons_cons _
        | clique s =>
          simp only [List.filterMap_cons, Dict.keys, List.map_cons]
          exact ih.cons _
    apply hk
    intro k n hkn c hc
    rcases (h.mem_nodes _ _).1 hkn with ⟨d', hd', hid, e⟩ | ⟨s, hs, hid, e⟩
    · rw [hc] at e; simp at e
    · rw [hc] at e; injection e with e; rw [e]; exact hid
  exact List.Nodup.sublist this h.keys

end

/-- the neighbor relation of a join tree as a simple graph on node ids -/
def JoinTree.graph (jt : JoinTree) : SimpleGraph Str := SimpleGraph.fromRel (fun a b => b ∈ ddGet jt.neighbors a)

section
variable {cs : List Clique} {T : List SepSet} {jt : JoinTree}

theorem JTSpec.getCliques_perm (h : JTSpec cs T jt) : jt.getCliques.Perm cs := by
  rw [List.perm_ext_iff_of_nodup (List.Nodup.of_map _ h.shape.cliques_nodup) h.fam.nodup_list]
  exact h.shape.mem_getCliques

theorem JTSpec.getSepSets_perm (h : JTSpec cs T jt) : jt.getSepSets.Perm T := by
  rw [List.perm_ext_iff_of_nodup (List.Nodup.of_map _ h.shape.sepSets_nodup) h.forest.nodup]
  exact h.shape.mem_getSepSets

theorem JTSpec.sep_nbrs (h : JTSpec cs T jt) {s : SepSet} (hs : s ∈ T) (k : Str) :
    k ∈ ddGet jt.neighbors s.id ↔ k = s.left.id ∨ k = s.right.id := by
  rw [h.shape.nb]
  constructor
  · rintro ⟨t, ht, h1⟩
    have hg := h.shape.good s hs
    have hgt := h.shape.good t ht
    rcases h1 with ⟨e, rfl⟩ | ⟨e, rfl⟩ | ⟨e, rfl⟩ | ⟨e, rfl⟩
    · exact absurd e.symm (hg.ne_clique h.fam hgt.left)
    · exact absurd e.symm (hg.ne_clique h.fam hgt.right)
    · rw [hg.inj h.fam hgt e]; exact Or.inl rfl
    · rw [hg.inj h.fam hgt e]; exact Or.inr rfl
  · rintro (rfl | rfl)
    · exact ⟨s, hs, Or.inr (Or.inr (Or.inl ⟨rfl, rfl⟩))⟩
    · exact ⟨s, hs, Or.inr (Or.inr (Or.inr ⟨rfl, rfl⟩))⟩

theorem JTSpec.graph_adj (h : JTSpec cs T jt) (a b : Str) : jt.graph.Adj a b ↔ b ∈ ddGet jt.neighbors a := by
  unfold JoinTree.graph
  rw [SimpleGraph.fromRel_adj]
  constructor
  · rintro ⟨_, h1 | h1⟩
    · exact h1
    · exact h.shape.nb_symm _ _ h1
  · intro h1
    refine ⟨?_, Or.inl h1⟩
    rintro rfl
    rw [h.shape.nb] at h1
    obtain ⟨s, hs, h1⟩ := h1
    have hg := h.shape.good s hs
    have e1 := hg.ne_clique h.fam hg.left
    have e2 := hg.ne_clique h.fam hg.right
    rcases h1 with ⟨e, e'⟩ | ⟨e, e'⟩ | ⟨e, e'⟩ | ⟨e, e'⟩
    · exact e1 (e.symm.trans e')
    · exact e2 (e.symm.trans e')
    · exact e1 (e'.symm.trans e)
    · exact e2 (e'.symm.trans e)

theorem JTSpec.acyclic (h : JTSpec cs T jt) : jt.graph.IsAcyclic := by
  have key : ∀ s ∈ T, ∀ c c' : Clique, ((c = s.left ∧ c' = s.right) ∨ (c = s.right ∧ c' = s.left)) →
      ¬ (jt.graph.deleteEdges {s(c.id, s.id)}).Reachable c.id s.id := by
    intro s hs c c' hcc hr
    rw [SimpleGraph.reachable_iff_reflTransGen] at hr
    have hg := h.shape.good s hs
    have hc : c ∈ cs := by rcases hcc with ⟨rfl, _⟩ | ⟨rfl, _⟩; exacts [hg.left, hg.right]
    have hc' : c' ∈ cs := by rcases hcc with ⟨_, rfl⟩ | ⟨_, rfl⟩; exacts [hg.right, hg.left]
    have inv : ∀ y, ReflTransGen (jt.graph.deleteEdges {s(c.id, s.id)}).Adj c.id y →
        (∀ d ∈ cs, d.id = y → Conn sl sr (T.erase s) c.fs d.fs) ∧
        (∀ t ∈ T, t.id = y → if t = s then Conn sl sr (T.erase s) c.fs c'.fs else Conn sl sr (T.erase s) c.fs t.left.fs) := by
      intro y hy
      induction hy with
      | refl =>
        refine ⟨?_, ?_⟩
        · intro d hd hid
          rw [(h.fam.id_iff hd hc).1 hid]
          exact Conn.refl _ _
        · intro t ht hid
          exact absurd hid.symm ((h.shape.good t ht).ne_clique h.fam hc)
      | @tail x y hx hxy ih =>
        rw [SimpleGraph.deleteEdges_adj, h.graph_adj, h.shape.nb] at hxy
        obtain ⟨⟨t, ht, h1⟩, hne⟩ := hxy
        have hgt := h.shape.good t ht
        by_cases hts : t = s
        · subst hts
          -- only the other side of `s` is left
          have hne1 : ¬ ((x = c.id ∧ y = t.id) ∨ (x = t.id ∧ y = c.id)) := by
            rintro (⟨rfl, rfl⟩ | ⟨rfl, rfl⟩)
            · exact hne (by simp)
            · exact hne (by simp [Sym2.eq_swap])
          have h2 : (x = c'.id ∧ y = t.id) ∨ (x = t.id ∧ y = c'.id) := by
            rcases hcc with ⟨rfl, rfl⟩ | ⟨rfl, rfl⟩ <;> tauto
          rcases h2 with ⟨rfl, rfl⟩ | ⟨rfl, rfl⟩
          · refine ⟨fun d hd hid => absurd hid (hgt.ne_clique h.fam hd), fun u hu hid => ?_⟩
            rw [if_pos ((h.shape.good u hu).inj h.fam hgt hid)]
            exact ih.1 c' hc' rfl
          · refine ⟨fun d hd hid => ?_, fun u hu hid => absurd hid.symm ((h.shape.good u hu).ne_clique h.fam hc')⟩
            rw [(h.fam.id_iff hd hc').1 hid]
            have := ih.2 t ht rfl
            rwa [if_pos rfl] at this
        · have hedge : Conn sl sr (T.erase s) t.left.fs t.right.fs :=
            Conn.edge ((List.mem_erase_of_ne hts).2 ht)
          rcases h1 with ⟨rfl, rfl⟩ | ⟨rfl, rfl⟩ | ⟨rfl, rfl⟩ | ⟨rfl, rfl⟩
          · refine ⟨fun d hd hid => absurd hid (hgt.ne_clique h.fam hd), fun u hu hid => ?_⟩
            rw [(h.shape.good u hu).inj h.fam hgt hid, if_neg hts]
            exact ih.1 _ hgt.left rfl
          · refine ⟨fun d hd hid => absurd hid (hgt.ne_clique h.fam hd), fun u hu hid => ?_⟩
            rw [(h.shape.good u hu).inj h.fam hgt hid, if_neg hts]
            exact (ih.1 _ hgt.right rfl).trans hedge.symm
          · refine ⟨fun d hd hid => ?_, fun u hu hid => absurd hid.symm ((h.shape.good u hu).ne_clique h.fam hgt.left)⟩
            rw [(h.fam.id_iff hd hgt.left).1 hid]
            have := ih.2 t ht rfl
            rwa [if_neg hts] at this
          · refine ⟨fun d hd hid => ?_, fun u hu hid => absurd hid.symm ((h.shape.good u hu).ne_clique h.fam hgt.right)⟩
            rw [(h.fam.id_iff hd hgt.right).1 hid]
            have := ih.2 t ht rfl
            rw [if_neg hts] at this
            exact this.trans hedge
    have := (inv _ hr).2 s hs rfl
    rw [if_pos rfl] at this
    have hrem := h.forest.remove hs
    rcases hcc with ⟨rfl, rfl⟩ | ⟨rfl, rfl⟩
    · exact hrem this
    · exact hrem this.symm
  rw [SimpleGraph.isAcyclic_iff_forall_adj_isBridge]
  intro a b hab
  rw [SimpleGraph.isBridge_iff]
  rw [h.graph_adj, h.shape.nb] at hab
  obtain ⟨s, hs, h1⟩ := hab
  rcases h1 with ⟨rfl, rfl⟩ | ⟨rfl, rfl⟩ | ⟨rfl, rfl⟩ | ⟨rfl, rfl⟩
  · exact key s hs s.left s.right (Or.inl ⟨rfl, rfl⟩)
  · exact key s hs s.right s.left (Or.inr ⟨rfl, rfl⟩)
  · rw [SimpleGraph.reachable_comm, Sym2.eq_swap]
    exact key s hs s.left s.right (Or.inl ⟨rfl, rfl⟩)
  · rw [SimpleGraph.reachable_comm, Sym2.eq_swap]
    exact key s hs s.right s.left (Or.inr ⟨rfl, rfl⟩)

/-- running intersection as walks in the neighbor relation -/
theorem JTSpec.rip_path (h : JTSpec cs T jt) (v : Int) {c d : Clique} (hc : c ∈ cs) (hd : d ∈ cs)
    (hvc : v ∈ c.nodeIds) (hvd : v ∈ d.nodeIds) :
    ReflTransGen (fun a b => b ∈ ddGet jt.neighbors a ∧
      (∃ n, Dict.get? jt.nodes a = some n ∧ v ∈ n.vars.map Variable.id) ∧
      (∃ n, Dict.get? jt.nodes b = some n ∧ v ∈ n.vars.map Variable.id)) c.id d.id := by
  set R := fun a b => b ∈ ddGet jt.neighbors a ∧
      (∃ n, Dict.get? jt.nodes a = some n ∧ v ∈ n.vars.map Variable.id) ∧
      (∃ n, Dict.get? jt.nodes b = some n ∧ v ∈ n.vars.map Variable.id) with hR
  have hsym : ∀ a b, R a b → R b a := fun a b ⟨h1, h2, h3⟩ => ⟨h.shape.nb_symm _ _ h1, h3, h2⟩
  have hrip := h.rip v c hc d hd ((c.mem_fs v).2 hvc) ((d.mem_fs v).2 hvd)
  have := Conn.elim (R := fun A B => A = B ∨ ∃ c ∈ cs, ∃ d ∈ cs, c.fs = A ∧ d.fs = B ∧ ReflTransGen R c.id d.id)
      (fun _ => Or.inl rfl) (by
      rintro A B (rfl | ⟨c, hc, d, hd, rfl, rfl, hp⟩)
      · exact Or.inl rfl
      · exact Or.inr ⟨d, hd, c, hc, rfl, rfl, rtg_symm hsym hp⟩) (by
      rintro A B C (rfl | ⟨c, hc, d, hd, rfl, rfl, hp⟩) (rfl | ⟨c', hc', d', hd', e1, rfl, hp'⟩)
      · exact Or.inl rfl
      · exact Or.inr ⟨c', hc', d', hd', e1, rfl, hp'⟩
      · exact Or.inr ⟨c, hc, d, hd, rfl, rfl, hp⟩
      · right
        have := h.fam.fs_inj hc' hd e1
        subst this
        exact ⟨c, hc, d', hd', rfl, rfl, hp.trans hp'⟩) (by
      intro s hs
      right
      obtain ⟨hs, hv⟩ := List.mem_filter.1 hs
      simp only [decide_eq_true_eq, Finset.mem_inter, sl, sr, Clique.mem_fs] at hv
      have hg := h.shape.good s hs
      have kl : Dict.get? jt.nodes s.left.id = some (.clique s.left) :=
        (h.shape.node _ _).2 (Or.inl ⟨s.left, hg.left, rfl, rfl⟩)
      have kr : Dict.get? jt.nodes s.right.id = some (.clique s.right) :=
        (h.shape.node _ _).2 (Or.inl ⟨s.right, hg.right, rfl, rfl⟩)
      have ks : Dict.get? jt.nodes s.id = some (.sepset s) :=
        (h.shape.node _ _).2 (Or.inr ⟨s, hs, rfl, rfl⟩)
      have vs : v ∈ s.nodes.map Variable.id := (hg.mem_nodes v).2 hv
      refine ⟨s.left, hg.left, s.right, hg.right, rfl, rfl, ?_⟩
      refine ReflTransGen.head (b := s.id) ?_ (ReflTransGen.single ?_)
      · exact ⟨(h.shape.nb _ _).2 ⟨s, hs, Or.inl ⟨rfl, rfl⟩⟩, ⟨_, kl, hv.1⟩, ⟨_, ks, vs⟩⟩
      · exact ⟨(h.shape.nb _ _).2 ⟨s, hs, Or.inr (Or.inr (Or.inr ⟨rfl, rfl⟩))⟩, ⟨_, ks, vs⟩, ⟨_, kr, hv.2⟩⟩) hrip
  rcases this with e | ⟨c', hc', d', hd', e1, e2, hp⟩
  · rw [h.fam.fs_inj hc hd e]
  · rw [h.fam.fs_inj hc' hc e1, h.fam.fs_inj hd' hd e2] at hp
    exact hp

/-- variables connected in the network lie in connected cliques -/
theorem JTSpec.conn_fam {b : Bbn} (h : JTSpec cs T jt)
    (hs : ∀ u ∈ b.vars, ∃ c ∈ cs, ∀ i ∈ u.id :: ddGet b.parents u.id, i ∈ c.nodeIds) (hb : BbnInv b) {x y : Int}
    (hxy : EqvGen (fun p c => p ∈ ddGet b.parents c) x y) :
    ∀ c ∈ cs, ∀ d ∈ cs, x ∈ c.nodeIds → y ∈ d.nodeIds → Conn sl sr T c.fs d.fs := by
  have rip : ∀ v, ∀ c ∈ cs, ∀ d ∈ cs, v ∈ c.nodeIds → v ∈ d.nodeIds → Conn sl sr T c.fs d.fs := by
    intro v c hc d hd h1 h2
    exact (h.rip v c hc d hd ((c.mem_fs v).2 h1) ((d.mem_fs v).2 h2)).mono (fun s hs => (List.mem_filter.1 hs).1)
  have cover : ∀ v ∈ vids b.vars, ∃ c ∈ cs, v ∈ c.nodeIds := by
    intro v hv
    obtain ⟨u, hu, rfl⟩ := List.mem_map.1 hv
    obtain ⟨c, hc, hfam⟩ := hs u hu
    exact ⟨c, hc, hfam _ List.mem_cons_self⟩
  have hmem : ∀ x y, EqvGen (fun p c => p ∈ ddGet b.parents c) x y → x = y ∨ (x ∈ vids b.vars ∧ y ∈ vids b.vars) := by
    intro x y hxy
    induction hxy with
    | rel a b' hab =>
      right
      rw [vids_vars hb]
      exact hb.ginv.emNodes _ _ ((hb.par _ _).1 hab)
    | refl a => exact Or.inl rfl
    | symm a b' _ ih => rcases ih with rfl | ih; exacts [Or.inl rfl, Or.inr ih.symm]
    | trans a b' c _ _ ih1 ih2 =>
      rcases ih1 with rfl | ih1
      · exact ih2
      · rcases ih2 with rfl | ih2
        · exact Or.inr ih1
        · exact Or.inr ⟨ih1.1, ih2.2⟩
  induction hxy with
  | rel p q hab =>
    intro c hc d hd hpc hqd
    have hq : q ∈ vids b.vars := by
      rw [vids_vars hb]
      exact (hb.ginv.emNodes _ _ ((hb.par _ _).1 hab)).2
    obtain ⟨u, hu, rfl⟩ := List.mem_map.1 hq
    obtain ⟨e, he, hfam⟩ := hs u hu
    exact (rip p c hc e he hpc (hfam p (List.mem_cons_of_mem _ hab))).trans
      (rip _ e he d hd (hfam _ List.mem_cons_self) hqd)
  | refl a => intro c hc d hd h1 h2; exact rip a c hc d hd h1 h2
  | symm a b' hab ih => intro c hc d hd h1 h2; exact (ih d hd c hc h2 h1).symm
  | trans a m e h1 h2 ih1 ih2 =>
    intro c hc d hd hac hed
    rcases hmem _ _ h1 with rfl | hm
    · exact ih2 c hc d hd hac hed
    · obtain ⟨k, hk, hmk⟩ := cover m hm.2
      exact (ih1 c hc k hk hac hmk).trans (ih2 k hk d hd hmk hed)

theorem JTSpec.conn_vars {b : Bbn} (h : JTSpec cs T jt) (hs : CliqueSpec b cs) (hb : BbnInv b) {x y : Int}
    (hxy : EqvGen (fun p c => p ∈ ddGet b.parents c) x y) :
    ∀ c ∈ cs, ∀ d ∈ cs, x ∈ c.nodeIds → y ∈ d.nodeIds → Conn sl sr T c.fs d.fs :=
  h.conn_fam (fun _ hu => family_covered hb hs hu) hb hxy

end

end PyBBN
