import Verif.Proofs.Rip
import Verif.Proofs.Cliques
import Verif.Props.Graphs

/-! The join tree built by `transform`: Kruskal's algorithm on the candidate separation sets. -/

namespace PyBBN
open Relation

/-! ### string order -/

theorem strLe_refl : ∀ s : Str, strLe s s = true
  | [] => rfl
  | a :: s => by simp [strLe, strLe_refl s]

theorem strLe_total : ∀ s t : Str, strLe s t = true ∨ strLe t s = true
  | [], _ => Or.inl (by simp [strLe])
  | _ :: _, [] => Or.inr (by simp [strLe])
  | a :: s, b :: t => by
      have := strLe_total s t
      simp only [strLe]
      rcases Nat.lt_trichotomy a.toNat b.toNat with h | h | h
      · left; simp [h]
      · rcases this with h' | h'
        · left; simp [h, h']
        · right; simp [h, h']
      · right; simp [h]

theorem strLe_trans : ∀ s t u : Str, strLe s t = true → strLe t u = true → strLe s u = true
  | [], _, _ => by simp [strLe]
  | _ :: _, [], _ => by simp [strLe]
  | _ :: _, _ :: _, [] => by simp [strLe]
  | a :: s, b :: t, c :: u => by
      have ih := strLe_trans s t u
      simp only [strLe]
      intro h1 h2
      split at h1 <;> split at h2 <;> rename_i e1 e2
      · rw [if_pos (by omega)]
      · split at h2
        · rw [if_pos (by omega)]
        · simp at h2
      · split at h1
        · rw [if_pos (by omega)]
        · simp at h1
      · split at h1
        · split at h2
          · rw [if_neg (by omega), if_pos (by omega)]; exact ih h1 h2
          · simp at h2
        · simp at h1

theorem char_toNat_inj {a b : Char} (h : a.toNat = b.toNat) : a = b := by
  apply Char.ext
  exact UInt32.toNat_inj.1 h

theorem strLe_antisymm : ∀ s t : Str, strLe s t = true → strLe t s = true → s = t
  | [], [] => by simp
  | [], _ :: _ => by simp [strLe]
  | _ :: _, [] => by simp [strLe]
  | a :: s, b :: t => by
      have ih := strLe_antisymm s t
      simp only [strLe]
      intro h1 h2
      split at h1 <;> split at h2
      · omega
      · split at h2
        · omega
        · simp at h2
      · split at h1
        · omega
        · simp at h1
      · split at h1
        · split at h2
          · rename_i e _
            rw [ih h1 h2, char_toNat_inj e]
          · simp at h2
        · simp at h1

theorem sepLe_total (a b : SepSet) : Transformer.sepLe a b = true ∨ Transformer.sepLe b a = true := by
  unfold Transformer.sepLe
  have := strLe_total a.id b.id
  split_ifs <;> simp_all

theorem sepLe_trans (a b c : SepSet) (h1 : Transformer.sepLe a b = true) (h2 : Transformer.sepLe b c = true) :
    Transformer.sepLe a c = true := by
  unfold Transformer.sepLe at *
  have := strLe_trans a.id b.id c.id
  split_ifs at * <;> first | omega | simp_all

theorem sepLe_mass {a b : SepSet} (h : Transformer.sepLe a b = true) : b.mass ≤ a.mass := by
  unfold Transformer.sepLe at h
  split_ifs at h <;> omega

/-! ### families of cliques and their separation sets -/

/-- a family of cliques as produced by the triangulator -/
structure CFam (all : List Clique) : Prop where
  nodup : ∀ c ∈ all, c.nodeIds.Nodup
  anti : Antichain all

theorem CFam.fs_inj {all : List Clique} (h : CFam all) {c d : Clique} (hc : c ∈ all) (hd : d ∈ all) (e : c.fs = d.fs) :
    c = d := antichain_eq h.anti hc hd (e ▸ Finset.Subset.refl _)

theorem CFam.id_iff {all : List Clique} (h : CFam all) {c d : Clique} (hc : c ∈ all) (hd : d ∈ all) :
    c.id = d.id ↔ c = d := by
  constructor
  · intro e
    apply h.fs_inj hc hd
    ext i
    rw [c.mem_fs, d.mem_fs]
    exact (c08_clique_id_injective c d (h.nodup c hc) (h.nodup d hd)).1 e i
  · rintro rfl; rfl

theorem CFam.nodup_list {all : List Clique} (h : CFam all) : all.Nodup :=
  List.Nodup.of_map _ (antichain_nodup h.anti)

/-- a separation set of two different members with a common variable -/
structure GoodSep (all : List Clique) (s : SepSet) : Prop where
  left : s.left ∈ all
  right : s.right ∈ all
  ne : s.left ≠ s.right
  eq : s = SepSet.mk' s.left s.right
  common : ∃ x, x ∈ s.left.nodeIds ∧ x ∈ s.right.nodeIds

section
variable {all : List Clique}

theorem GoodSep.inj (h : CFam all) {s t : SepSet} (hs : GoodSep all s) (ht : GoodSep all t) (e : s.id = t.id) : s = t := by
  rw [hs.eq, ht.eq] at e
  obtain ⟨e1, e2⟩ := (c08_sepset_id_injective _ _ _ _ (h.nodup _ hs.left) (h.nodup _ hs.right) (h.nodup _ ht.left)
    (h.nodup _ ht.right) hs.common ht.common).1 e
  rw [hs.eq, ht.eq, (h.id_iff hs.left ht.left).1 e1, (h.id_iff hs.right ht.right).1 e2]

theorem GoodSep.ne_clique (h : CFam all) {s : SepSet} (hs : GoodSep all s) {c : Clique} (hc : c ∈ all) : c.id ≠ s.id := by
  rw [hs.eq]
  exact c08_clique_sepset_disjoint _ _ _ (h.nodup c hc) hs.common

theorem intersects_mem (c d : Clique) (x : Int) : x ∈ (c.intersects d).2.2 ↔ x ∈ c.nodeIds ∧ x ∈ d.nodeIds := by
  unfold Clique.intersects
  simp only
  split
  · simp [List.mem_filter]
  · simp [(sortInts_perm _).mem_iff, List.mem_filter]

theorem GoodSep.mem_nodes {s : SepSet} (hs : GoodSep all s) (x : Int) :
    x ∈ vids s.nodes ↔ x ∈ s.left.nodeIds ∧ x ∈ s.right.nodeIds := by
  have e : s.nodes = s.left.nodes.filter (fun v => decide (v.id ∈ (s.left.intersects s.right).2.2)) := by
    conv_lhs => rw [hs.eq]
    rfl
  rw [e]
  simp only [vids, List.mem_map, List.mem_filter, decide_eq_true_eq, intersects_mem]
  constructor
  · rintro ⟨v, ⟨_, h2⟩, rfl⟩; exact h2
  · rintro ⟨h1, h2⟩
    obtain ⟨v, hv, rfl⟩ := List.mem_map.1 h1
    exact ⟨v, ⟨hv, h1, h2⟩, rfl⟩

theorem GoodSep.nodes_sub {s : SepSet} (hs : GoodSep all s) : s.nodes.Sublist s.left.nodes := by
  have e : s.nodes = s.left.nodes.filter (fun v => decide (v.id ∈ (s.left.intersects s.right).2.2)) := by
    conv_lhs => rw [hs.eq]
    rfl
  rw [e]
  exact List.filter_sublist

theorem GoodSep.nodup (h : CFam all) {s : SepSet} (hs : GoodSep all s) : (vids s.nodes).Nodup :=
  List.Nodup.sublist (hs.nodes_sub.map _) (h.nodup _ hs.left)

theorem GoodSep.mass_eq (h : CFam all) {s : SepSet} (hs : GoodSep all s) : s.mass = (s.left.fs ∩ s.right.fs).card := by
  have e : s.left.fs ∩ s.right.fs = (vids s.nodes).toFinset := by
    ext x
    rw [Finset.mem_inter, Clique.mem_fs, Clique.mem_fs, List.mem_toFinset, hs.mem_nodes]
  rw [e, List.toFinset_card_of_nodup (hs.nodup h)]
  simp [SepSet.mass]

end

abbrev sl (s : SepSet) : Finset Int := s.left.fs
abbrev sr (s : SepSet) : Finset Int := s.right.fs

theorem rtg_symm {α : Type} {R : α → α → Prop} (hs : ∀ a b, R a b → R b a) {x y : α} (h : ReflTransGen R x y) :
    ReflTransGen R y x := by
  induction h with
  | refl => exact ReflTransGen.refl
  | tail _ hbc ih => exact ReflTransGen.head (hs _ _ hbc) ih

/-! ### the shape of a join tree -/

/-- `jt` has exactly the cliques satisfying `pres` and the separation sets `T` -/
structure JTree (all : List Clique) (pres : Clique → Prop) (T : List SepSet) (jt : JoinTree) : Prop where
  sub : ∀ c, pres c → c ∈ all
  good : ∀ s ∈ T, GoodSep all s
  touched : ∀ s ∈ T, pres s.left ∧ pres s.right
  keys : (Dict.keys jt.nodes).Nodup
  node : ∀ k n, Dict.get? jt.nodes k = some n ↔
    (∃ c, pres c ∧ c.id = k ∧ n = .clique c) ∨ (∃ s ∈ T, s.id = k ∧ n = .sepset s)
  nb : ∀ x y, y ∈ ddGet jt.neighbors x ↔ ∃ s ∈ T, (x = s.left.id ∧ y = s.id) ∨ (x = s.right.id ∧ y = s.id) ∨
    (x = s.id ∧ y = s.left.id) ∨ (x = s.id ∧ y = s.right.id)
  nbNodup : ∀ x, (ddGet jt.neighbors x).Nodup

section
variable {all : List Clique} {pres : Clique → Prop} {T : List SepSet} {jt : JoinTree}

theorem JTree.nb_symm (h : JTree all pres T jt) (x y : Str) (hxy : y ∈ ddGet jt.neighbors x) :
    x ∈ ddGet jt.neighbors y := by
  rw [h.nb] at hxy ⊢
  obtain ⟨s, hs, h1⟩ := hxy
  exact ⟨s, hs, by tauto⟩

/-- paths between cliques in the neighbor relation are connections through separation sets -/
theorem JTree.path_iff (hf : CFam all) (h : JTree all pres T jt) {c d : Clique} (hc : c ∈ all) (hd : d ∈ all) :
    ReflTransGen (fun a b => b ∈ ddGet jt.neighbors a) c.id d.id ↔ Conn sl sr T c.fs d.fs := by
  constructor
  · intro hp
    have key : ∀ y, ReflTransGen (fun a b => b ∈ ddGet jt.neighbors a) c.id y →
        (∀ e ∈ all, e.id = y → Conn sl sr T c.fs e.fs) ∧ (∀ s ∈ T, s.id = y → Conn sl sr T c.fs s.left.fs) := by
      intro y hy
      induction hy with
      | refl =>
        refine ⟨?_, ?_⟩
        · intro e he hid
          rw [(hf.id_iff he hc).1 hid]
          exact Conn.refl _ _
        · intro s hs hid
          exact absurd hid.symm ((h.good s hs).ne_clique hf hc)
      | @tail x y hx hxy ih =>
        rw [h.nb] at hxy
        obtain ⟨s, hs, h1⟩ := hxy
        have hg := h.good s hs
        have hedge : Conn sl sr T s.left.fs s.right.fs := Conn.edge hs
        rcases h1 with ⟨rfl, rfl⟩ | ⟨rfl, rfl⟩ | ⟨rfl, rfl⟩ | ⟨rfl, rfl⟩
        · refine ⟨fun e he hid => absurd hid (hg.ne_clique hf he), fun t ht hid => ?_⟩
          rw [(h.good t ht).inj hf hg hid]
          exact ih.1 _ hg.left rfl
        · refine ⟨fun e he hid => absurd hid (hg.ne_clique hf he), fun t ht hid => ?_⟩
          rw [(h.good t ht).inj hf hg hid]
          exact (ih.1 _ hg.right rfl).trans hedge.symm
        · refine ⟨fun e he hid => ?_, fun t ht hid => absurd hid.symm ((h.good t ht).ne_clique hf hg.left)⟩
          rw [(hf.id_iff he hg.left).1 hid]
          exact ih.2 s hs rfl
        · refine ⟨fun e he hid => ?_, fun t ht hid => absurd hid.symm ((h.good t ht).ne_clique hf hg.right)⟩
          rw [(hf.id_iff he hg.right).1 hid]
          exact (ih.2 s hs rfl).trans hedge
    exact (key _ hp).1 d hd rfl
  · intro hcn
    have := Conn.elim (R := fun A B => A = B ∨ ∃ c ∈ all, ∃ d ∈ all, c.fs = A ∧ d.fs = B ∧
        ReflTransGen (fun a b => b ∈ ddGet jt.neighbors a) c.id d.id) (fun _ => Or.inl rfl) (by
        rintro A B (rfl | ⟨c, hc, d, hd, rfl, rfl, hp⟩)
        · exact Or.inl rfl
        · right
          refine ⟨d, hd, c, hc, rfl, rfl, ?_⟩
          exact rtg_symm (fun a b hab => h.nb_symm a b hab) hp) (by
        rintro A B C (rfl | ⟨c, hc, d, hd, rfl, rfl, hp⟩) (rfl | ⟨c', hc', d', hd', e1, rfl, hp'⟩)
        · exact Or.inl rfl
        · exact Or.inr ⟨c', hc', d', hd', e1, rfl, hp'⟩
        · exact Or.inr ⟨c, hc, d, hd, rfl, rfl, hp⟩
        · right
          have := hf.fs_inj hc' hd e1
          subst this
          exact ⟨c, hc, d', hd', rfl, rfl, hp.trans hp'⟩) (by
        intro s hs
        right
        have hg := h.good s hs
        refine ⟨s.left, hg.left, s.right, hg.right, rfl, rfl, ?_⟩
        refine ReflTransGen.head (b := s.id) ?_ (ReflTransGen.single ?_)
        · rw [h.nb]; exact ⟨s, hs, Or.inl ⟨rfl, rfl⟩⟩
        · rw [h.nb]; exact ⟨s, hs, Or.inr (Or.inr (Or.inr ⟨rfl, rfl⟩))⟩) hcn
    rcases this with e | ⟨c', hc', d', hd', e1, e2, hp⟩
    · rw [hf.fs_inj hc hd e]
    · rw [hf.fs_inj hc' hc e1, hf.fs_inj hd' hd e2] at hp
      exact hp

theorem JTree.mem_keys (h : JTree all pres T jt) {x y : Str} (hxy : y ∈ ddGet jt.neighbors x) :
    x ∈ Dict.keys jt.nodes ∧ y ∈ Dict.keys jt.nodes := by
  rw [h.nb] at hxy
  obtain ⟨s, hs, h1⟩ := hxy
  have k1 : s.id ∈ Dict.keys jt.nodes := Dict.mem_keys_of_get? ((h.node _ _).2 (Or.inr ⟨s, hs, rfl, rfl⟩))
  have k2 : s.left.id ∈ Dict.keys jt.nodes :=
    Dict.mem_keys_of_get? ((h.node _ _).2 (Or.inl ⟨s.left, (h.touched s hs).1, rfl, rfl⟩))
  have k3 : s.right.id ∈ Dict.keys jt.nodes :=
    Dict.mem_keys_of_get? ((h.node _ _).2 (Or.inl ⟨s.right, (h.touched s hs).2, rfl, rfl⟩))
  rcases h1 with ⟨rfl, rfl⟩ | ⟨rfl, rfl⟩ | ⟨rfl, rfl⟩ | ⟨rfl, rfl⟩ <;> exact ⟨by assumption, by assumption⟩

theorem JTree.shouldAdd_iff (hf : CFam all) (h : JTree all pres T jt) (js : SetIter Str) {s : SepSet} (hs : GoodSep all s) :
    JoinTree.shouldAdd js jt s = true ↔ ¬ Conn sl sr T s.left.fs s.right.fs := by
  unfold JoinTree.shouldAdd
  rw [if_neg (fun e => hs.ne ((hf.id_iff hs.left hs.right).1 e))]
  rw [Bool.not_eq_true', ← Bool.not_eq_true, not_iff_not]
  have := pathExists_iff' (JoinTree.nbrs js jt.edges.length jt) s.right.id (s.left.id :: Dict.keys jt.nodes) (by
    intro u _ v hv
    unfold JoinTree.nbrs at hv
    rw [js.mem] at hv
    exact List.mem_cons_of_mem _ (h.mem_keys hv).2) (jt.nodes.length + 1) s.left.id List.mem_cons_self (by
    simp [Dict.keys])
  rw [this, ← h.path_iff hf hs.left hs.right]
  unfold JoinTree.nbrs
  simp only [js.mem]

/-- adding a separation set that joins two components -/
theorem JTree.add (hf : CFam all) (h : JTree all pres T jt) (js : SetIter Str) {s : SepSet} (hs : GoodSep all s)
    (hn : ¬ Conn sl sr T s.left.fs s.right.fs) :
    JTree all (fun c => pres c ∨ c = s.left ∨ c = s.right) (s :: T) (jt.addEdge js s) := by
  unfold JoinTree.addEdge
  rw [if_pos ((h.shouldAdd_iff hf js hs).2 hn)]
  have hlr : s.left.id ≠ s.right.id := fun e => hs.ne ((hf.id_iff hs.left hs.right).1 e)
  have hls := hs.ne_clique hf hs.left
  have hrs := hs.ne_clique hf hs.right
  have hsT : s ∉ T := fun c => hn (Conn.edge c)
  have hnone : Dict.get? jt.nodes s.id = none := by
    cases hg : Dict.get? jt.nodes s.id with
    | none => rfl
    | some n =>
      rcases (h.node _ _).1 hg with ⟨c, hc, hid, _⟩ | ⟨t, ht, hid, _⟩
      · exact absurd hid (hs.ne_clique hf (h.sub c hc))
      · exact absurd ((h.good t ht).inj hf hs hid ▸ ht) hsT
  have hl : ∀ n, Dict.get? jt.nodes s.left.id = some n → n = .clique s.left := by
    intro n hg
    rcases (h.node _ _).1 hg with ⟨c, hc, hid, rfl⟩ | ⟨t, ht, hid, _⟩
    · rw [(hf.id_iff (h.sub c hc) hs.left).1 hid]
    · exact absurd hid.symm ((h.good t ht).ne_clique hf hs.left)
  have hr : ∀ n, Dict.get? jt.nodes s.right.id = some n → n = .clique s.right := by
    intro n hg
    rcases (h.node _ _).1 hg with ⟨c, hc, hid, rfl⟩ | ⟨t, ht, hid, _⟩
    · rw [(hf.id_iff (h.sub c hc) hs.right).1 hid]
    · exact absurd hid.symm ((h.good t ht).ne_clique hf hs.right)
  refine ⟨?_, ?_, ?_, ?_, ?_, ?_, ?_⟩
  · rintro c (hc | rfl | rfl)
    · exact h.sub c hc
    · exact hs.left
    · exact hs.right
  · intro t ht
    rcases List.mem_cons.1 ht with rfl | ht
    · exact hs
    · exact h.good t ht
  · intro t ht
    rcases List.mem_cons.1 ht with rfl | ht
    · exact ⟨Or.inr (Or.inl rfl), Or.inr (Or.inr rfl)⟩
    · exact ⟨Or.inl (h.touched t ht).1, Or.inl (h.touched t ht).2⟩
  · exact Dict.nodup_keys_setDefault (Dict.nodup_keys_setDefault (Dict.nodup_keys_setDefault h.keys _ _) _ _) _ _
  · intro k n
    simp only [Dict.get?_setDefault, hnone]
    by_cases e1 : s.right.id = k
    · subst e1
      simp only [if_true, Ne.symm hrs, hlr, if_false]
      constructor
      · intro he
        injection he with he
        left
        refine ⟨s.right, Or.inr (Or.inr rfl), rfl, ?_⟩
        rw [← he]
        cases hg : Dict.get? jt.nodes s.right.id with
        | none => rfl
        | some m => simp [hr m hg]
      · rintro (⟨c, hc, hid, rfl⟩ | ⟨t, ht, hid, rfl⟩)
        · have hca : c ∈ all := by
            rcases hc with hc | rfl | rfl
            · exact h.sub c hc
            · exact hs.left
            · exact hs.right
          rw [(hf.id_iff hca hs.right).1 hid]
          cases hg : Dict.get? jt.nodes s.right.id with
          | none => rfl
          | some m => simp [hr m hg]
        · have htg : GoodSep all t := by
            rcases List.mem_cons.1 ht with rfl | ht
            · exact hs
            · exact h.good t ht
          exact absurd hid.symm (htg.ne_clique hf hs.right)
    · simp only [e1, if_false]
      by_cases e2 : s.left.id = k
      · subst e2
        simp only [if_true, Ne.symm hls, if_false]
        constructor
        · intro he
          injection he with he
          left
          refine ⟨s.left, Or.inr (Or.inl rfl), rfl, ?_⟩
          rw [← he]
          cases hg : Dict.get? jt.nodes s.left.id with
          | none => rfl
          | some m => simp [hl m hg]
        · rintro (⟨c, hc, hid, rfl⟩ | ⟨t, ht, hid, rfl⟩)
          · have hca : c ∈ all := by
              rcases hc with hc | rfl | rfl
              · exact h.sub c hc
              · exact hs.left
              · exact hs.right
            rw [(hf.id_iff hca hs.left).1 hid]
            cases hg : Dict.get? jt.nodes s.left.id with
            | none => rfl
            | some m => simp [hl m hg]
          · have htg : GoodSep all t := by
              rcases List.mem_cons.1 ht with rfl | ht
              · exact hs
              · exact h.good t ht
            exact absurd hid.symm (htg.ne_clique hf hs.left)
      · simp only [e2, if_false]
        by_cases e3 : s.id = k
        · subst e3
          simp only [if_true, Option.getD_none, Option.some.injEq]
          constructor
          · rintro rfl
            exact Or.inr ⟨s, List.mem_cons_self, rfl, rfl⟩
          · rintro (⟨c, hc, hid, rfl⟩ | ⟨t, ht, hid, rfl⟩)
            · have hca : c ∈ all := by
                rcases hc with hc | rfl | rfl
                · exact h.sub c hc
                · exact hs.left
                · exact hs.right
              exact absurd hid (hs.ne_clique hf hca)
            · have htg : GoodSep all t := by
                rcases List.mem_cons.1 ht with rfl | ht
                · exact hs
                · exact h.good t ht
              rw [htg.inj hf hs hid]
        · simp only [e3, if_false, h.node]
          constructor
          · rintro (⟨c, hc, hid, rfl⟩ | ⟨t, ht, hid, rfl⟩)
            · exact Or.inl ⟨c, Or.inl hc, hid, rfl⟩
            · exact Or.inr ⟨t, List.mem_cons_of_mem _ ht, hid, rfl⟩
          · rintro (⟨c, hc | rfl | rfl, hid, rfl⟩ | ⟨t, ht, hid, rfl⟩)
            · exact Or.inl ⟨c, hc, hid, rfl⟩
            · exact absurd hid e2
            · exact absurd hid e1
            · rcases List.mem_cons.1 ht with rfl | ht
              · exact absurd hid e3
              · exact Or.inr ⟨t, ht, hid, rfl⟩
  · intro x y
    simp only [mem_ddGet_ddAdd, h.nb]
    constructor
    · rintro (⟨rfl, rfl⟩ | ⟨rfl, rfl⟩ | ⟨rfl, rfl⟩ | ⟨rfl, rfl⟩ | ⟨t, ht, h1⟩)
      · exact ⟨s, List.mem_cons_self, by simp⟩
      · exact ⟨s, List.mem_cons_self, by simp⟩
      · exact ⟨s, List.mem_cons_self, by simp⟩
      · exact ⟨s, List.mem_cons_self, by simp⟩
      · exact ⟨t, List.mem_cons_of_mem _ ht, h1⟩
    · rintro ⟨t, ht, h1⟩
      rcases List.mem_cons.1 ht with rfl | ht
      · tauto
      · exact Or.inr (Or.inr (Or.inr (Or.inr ⟨t, ht, h1⟩)))
  · intro x
    simp only [ddGet_ddAdd]
    have hd := h.nbNodup
    split_ifs <;> first
      | exact hd _
      | exact nodup_setAdd (hd _) _
      | exact nodup_setAdd (nodup_setAdd (hd _) _) _

theorem JTree.skip (hf : CFam all) (h : JTree all pres T jt) (js : SetIter Str) {s : SepSet} (hs : GoodSep all s)
    (hn : Conn sl sr T s.left.fs s.right.fs) : jt.addEdge js s = jt := by
  unfold JoinTree.addEdge
  rw [if_neg (fun c => (h.shouldAdd_iff hf js hs).1 c hn)]

theorem JTree.congr {pres' : Clique → Prop} (h : JTree all pres T jt) (hp : ∀ c, pres c ↔ pres' c) :
    JTree all pres' T jt := by
  have : pres = pres' := by funext c; exact propext (hp c)
  exact this ▸ h

end

/-- adding separation sets whose cliques are present is Kruskal's algorithm -/
theorem addEdges_spec (js : SetIter Str) {all : List Clique} (hf : CFam all) {pres : Clique → Prop} :
    ∀ (es : List SepSet) (jt : JoinTree) (T : List SepSet), JTree all pres T jt → (∀ s ∈ es, GoodSep all s) →
    (∀ s ∈ es, pres s.left ∧ pres s.right) →
    ∃ T', JTree all pres T' (es.foldl (fun jt s => jt.addEdge js s) jt) ∧ Kruskal sl sr T es T'
  | [], jt, T, h, _, _ => ⟨T, h, Kruskal.nil T⟩
  | s :: es, jt, T, h, hg, hp => by
      rw [List.foldl_cons]
      by_cases hc : Conn sl sr T s.left.fs s.right.fs
      · rw [h.skip hf js (hg s List.mem_cons_self) hc]
        obtain ⟨T', h1, h2⟩ := addEdges_spec js hf es jt T h (fun t ht => hg t (List.mem_cons_of_mem _ ht))
          (fun t ht => hp t (List.mem_cons_of_mem _ ht))
        exact ⟨T', h1, Kruskal.skip s hc h2⟩
      · have hadd := (h.add hf js (hg s List.mem_cons_self) hc).congr (pres' := pres) (by
          intro c
          constructor
          · rintro (hc | rfl | rfl)
            · exact hc
            · exact (hp s List.mem_cons_self).1
            · exact (hp s List.mem_cons_self).2
          · exact Or.inl)
        obtain ⟨T', h1, h2⟩ := addEdges_spec js hf es _ (s :: T) hadd (fun t ht => hg t (List.mem_cons_of_mem _ ht))
          (fun t ht => hp t (List.mem_cons_of_mem _ ht))
        exact ⟨T', h1, Kruskal.keep s hc h2⟩

/-! ### `transform` -/

theorem addCliques_spec {all : List Clique} (hf : CFam all) : ∀ (l : List Clique) (jt : JoinTree) (pres : Clique → Prop),
    JTree all pres [] jt → (∀ c ∈ l, c ∈ all) →
    JTree all (fun c => pres c ∨ c ∈ l) [] (l.foldl Transformer.addClique jt)
  | [], jt, pres, h, _ => h.congr (by simp)
  | c :: l, jt, pres, h, hl => by
      rw [List.foldl_cons]
      have hca := hl c List.mem_cons_self
      have h1 : JTree all (fun d => pres d ∨ d = c) [] (Transformer.addClique jt c) := by
        refine ⟨?_, by simp, by simp, Dict.nodup_keys_setDefault h.keys _ _, ?_, h.nb, h.nbNodup⟩
        · rintro d (hd | rfl)
          · exact h.sub d hd
          · exact hca
        · intro k n
          simp only [Transformer.addClique, Dict.get?_setDefault, List.not_mem_nil, false_and, exists_false, or_false]
          have hnode := h.node
          simp only [List.not_mem_nil, false_and, exists_false, or_false] at hnode
          have hexist : ∀ n, Dict.get? jt.nodes c.id = some n → n = .clique c := by
            intro n hg
            obtain ⟨d, hd, hid, rfl⟩ := (hnode _ _).1 hg
            rw [(hf.id_iff (h.sub d hd) hca).1 hid]
          by_cases e : c.id = k
          · subst e
            simp only [if_true]
            have hv : (Dict.get? jt.nodes c.id).getD (JNode.clique c) = .clique c := by
              cases hg : Dict.get? jt.nodes c.id with
              | none => rfl
              | some m => simp [hexist m hg]
            rw [hv]
            constructor
            · intro he
              injection he with he
              exact ⟨c, Or.inr rfl, rfl, he.symm⟩
            · rintro ⟨d, hd, hid, rfl⟩
              have : d ∈ all := by
                rcases hd with hd | rfl
                · exact h.sub d hd
                · exact hca
              rw [(hf.id_iff this hca).1 hid]
          · simp only [e, if_false, hnode]
            constructor
            · rintro ⟨d, hd, hid, rfl⟩; exact ⟨d, Or.inl hd, hid, rfl⟩
            · rintro ⟨d, hd | rfl, hid, rfl⟩
              · exact ⟨d, hd, hid, rfl⟩
              · exact absurd hid e
      refine (addCliques_spec hf l _ _ h1 (fun d hd => hl d (List.mem_cons_of_mem _ hd))).congr ?_
      intro d
      simp only [List.mem_cons]
      tauto

theorem empty_jtree (all : List Clique) : JTree all (fun _ => False) [] {} := by
  refine ⟨by simp, by simp, by simp, by simp [Dict.keys], ?_, ?_, ?_⟩
  · intro k n; simp [Dict.get?]
  · intro x y; simp [ddGet, Dict.get?]
  · intro x; simp [ddGet, Dict.get?]

theorem getSepSets_good {cs : List Clique} (hf : CFam cs) :
    (∀ s ∈ Transformer.getSepSets cs, GoodSep cs s) ∧
    (∀ c ∈ cs, ∀ d ∈ cs, c ≠ d → c.fs ∩ d.fs ≠ ∅ → ∃ s ∈ Transformer.getSepSets cs,
      (s.left = c ∧ s.right = d) ∨ (s.left = d ∧ s.right = c)) := by
  have hinter : ∀ c d : Clique, (c.intersects d).2.2 ≠ [] ↔ ∃ x, x ∈ c.nodeIds ∧ x ∈ d.nodeIds := by
    intro c d
    simp only [← intersects_mem]
    cases (c.intersects d).2.2 with
    | nil => simp
    | cons a l => exact ⟨fun _ => ⟨a, List.mem_cons_self⟩, fun _ => by simp⟩
  constructor
  · intro s hs
    unfold Transformer.getSepSets at hs
    rw [mem_sortBy] at hs
    obtain ⟨⟨c, d⟩, hp, rfl⟩ := List.mem_map.1 hs
    obtain ⟨hp, hne⟩ := List.mem_filter.1 hp
    obtain ⟨hc, hd⟩ := mem_pairs hp
    refine ⟨hc, hd, ?_, rfl, ?_⟩
    · have : ∀ l : List Clique, l.Nodup → (c, d) ∈ pairs l → c ≠ d := by
        intro l hl hcd
        induction l with
        | nil => simp [pairs] at hcd
        | cons a l ih =>
          rw [List.nodup_cons] at hl
          simp only [pairs, List.mem_append, List.mem_map] at hcd
          rcases hcd with ⟨y, hy, e⟩ | hcd
          · simp only [Prod.mk.injEq] at e
            obtain ⟨rfl, rfl⟩ := e
            exact fun e => hl.1 (e ▸ hy)
          · exact ih hl.2 hcd
      exact this cs hf.nodup_list hp
    · have := (hinter c d).1 (by simpa using hne)
      exact this
  · intro c hc d hd hne hcap
    obtain ⟨x, hx⟩ := Finset.nonempty_iff_ne_empty.2 hcap
    rw [Finset.mem_inter, c.mem_fs, d.mem_fs] at hx
    unfold Transformer.getSepSets
    simp only [mem_sortBy, List.mem_map, List.mem_filter]
    rcases pairs_of_mem hc hd hne with hp | hp
    · exact ⟨_, ⟨(c, d), ⟨hp, by simpa using (hinter c d).2 ⟨x, hx⟩⟩, rfl⟩, Or.inl ⟨rfl, rfl⟩⟩
    · exact ⟨_, ⟨(d, c), ⟨hp, by simpa using (hinter d c).2 ⟨x, hx.2, hx.1⟩⟩, rfl⟩, Or.inr ⟨rfl, rfl⟩⟩

/-- what later stages need of a join tree -/
structure JTSpec (cs : List Clique) (T : List SepSet) (jt : JoinTree) : Prop where
  fam : CFam cs
  shape : JTree cs (fun c => c ∈ cs) T jt
  forest : Forest sl sr T
  rip : ∀ v, ∀ c ∈ cs, ∀ d ∈ cs, v ∈ c.fs → v ∈ d.fs →
    Conn sl sr (T.filter (fun s => decide (v ∈ sl s ∩ sr s))) c.fs d.fs

theorem transform_shape (js : SetIter Str) {cs : List Clique} (hf : CFam cs) :
    ∃ T, JTree cs (fun c => c ∈ cs) T (Transformer.transform js cs) := by
  obtain ⟨hgood, _⟩ := getSepSets_good hf
  have h0 := (addCliques_spec hf cs {} _ (empty_jtree cs) (fun c hc => hc)).congr (pres' := fun c => c ∈ cs) (by simp)
  obtain ⟨T, h1, _⟩ := addEdges_spec js hf (Transformer.getSepSets cs) _ [] h0 hgood
    (fun s hs => ⟨(hgood s hs).left, (hgood s hs).right⟩)
  exact ⟨T, h1⟩

theorem transform_spec (js : SetIter Str) {b : Bbn} {cs : List Clique} (hs : CliqueSpec b cs) :
    ∃ T, JTSpec cs T (Transformer.transform js cs) := by
  have hf : CFam cs := ⟨hs.nodup, hs.anti⟩
  obtain ⟨hgood, hall⟩ := getSepSets_good hf
  have h0 := (addCliques_spec hf cs {} _ (empty_jtree cs) (fun c hc => hc)).congr (pres' := fun c => c ∈ cs) (by simp)
  obtain ⟨T, h1, h2⟩ := addEdges_spec js hf (Transformer.getSepSets cs) _ [] h0 hgood
    (fun s hs => ⟨(hgood s hs).left, (hgood s hs).right⟩)
  refine ⟨T, hf, h1, h2.forest trivial, ?_⟩
  obtain ⟨F, hj, hperm⟩ := hs.jorder
  have hF : ∀ c ∈ cs, c.fs ∈ F := fun c hc => hperm.mem_iff.2 (List.mem_map_of_mem hc)
  have hsorted := sortBy_sorted Transformer.sepLe sepLe_total sepLe_trans
    (((pairs cs).filter (fun pq => decide ((pq.1.intersects pq.2).2.2 ≠ []))).map (fun pq => SepSet.mk' pq.1 pq.2))
  have hheavy := h2.heavy (w := fun s => (sl s ∩ sr s).card) (by
    refine List.Pairwise.imp_of_mem ?_ hsorted
    intro a b ha hb hab
    change (b.left.fs ∩ b.right.fs).card ≤ (a.left.fs ∩ a.right.fs).card
    rw [← (hgood a ha).mass_eq hf, ← (hgood b hb).mass_eq hf]
    exact sepLe_mass hab) (by simp)
  intro v c hc d hd hvc hvd
  refine rip_of_max hj (hperm.nodup_iff.2 (antichain_nodup hs.anti)) (h2.forest trivial) ?_ ?_ (hF c hc) (hF d hd) hvc hvd
  · intro s hs
    have := h1.good s hs
    exact ⟨hF _ this.left, hF _ this.right⟩
  · intro A hA B hB hne hcap
    obtain ⟨c, hc, rfl⟩ := List.mem_map.1 (hperm.mem_iff.1 hA)
    obtain ⟨d, hd, rfl⟩ := List.mem_map.1 (hperm.mem_iff.1 hB)
    obtain ⟨s, hs, h3⟩ := hall c hc d hd (fun e => hne (e ▸ rfl)) hcap
    have h4 := hheavy s hs
    rcases h3 with ⟨rfl, rfl⟩ | ⟨rfl, rfl⟩
    · exact h4
    · rw [Finset.inter_comm]; exact h4.symm

end PyBBN
