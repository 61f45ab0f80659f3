import Verif.Proofs.Trace
import Verif.Props.JoinTrees
import Verif.Props.ComponentLaw
import Verif.Props.CopyLimit
import Verif.Proofs.Limit

/-! # C123: the messages of a propagation -/

namespace PyBBN
open Propagator Relation

/-- `s` is the id of a separation set, `a` and `b` are the ids of its two cliques -/
def JoinTree.Link (jt : JoinTree) (a s b : Str) : Prop :=
  s ∈ jt.getSepSets.map SepSet.id ∧ a ∈ ddGet jt.neighbors s ∧ b ∈ ddGet jt.neighbors s ∧ a ≠ b

/-- the clique with the smallest id, in the order of Python strings -/
def JoinTree.StartsAt (jt : JoinTree) (r : Str) : Prop :=
  r ∈ jt.getCliques.map Clique.id ∧ ∀ c ∈ jt.getCliques, strLe r c.id = true

/-- a schedule of messages in which a clique sends only after it has received from all its other neighbors -/
def Scheduled (jt : JoinTree) (log : List Call) : Prop :=
  ∀ (l₁ l₂ : List Call) (m : Call), log = l₁ ++ m :: l₂ → ∀ c s, jt.Link c s m.x → c ≠ m.y → (⟨c, s, m.x⟩ : Call) ∈ l₁

section
variable {cs : List Clique} {T : List SepSet} {jt : JoinTree}

theorem JTSpec.link_iff (h : JTSpec cs T jt) (a s b : Str) :
    jt.Link a s b ↔ ∃ S ∈ T, ∃ P ∈ cs, ∃ C ∈ cs, S.id = s ∧ P.id = a ∧ C.id = b ∧ Joins S P C := by
  constructor
  · rintro ⟨h1, h2, h3, h4⟩
    obtain ⟨S, hS, rfl⟩ := List.mem_map.1 h1
    rw [h.shape.mem_getSepSets] at hS
    have hg := h.shape.good S hS
    rw [h.sep_nbrs hS] at h2 h3
    rcases h2 with rfl | rfl <;> rcases h3 with rfl | rfl
    · exact absurd rfl h4
    · exact ⟨S, hS, S.left, hg.left, S.right, hg.right, rfl, rfl, rfl, Or.inl ⟨rfl, rfl⟩⟩
    · exact ⟨S, hS, S.right, hg.right, S.left, hg.left, rfl, rfl, rfl, Or.inr ⟨rfl, rfl⟩⟩
    · exact absurd rfl h4
  · rintro ⟨S, hS, P, hP, C, hC, rfl, rfl, rfl, hj⟩
    have hg := h.shape.good S hS
    refine ⟨List.mem_map_of_mem ((h.shape.mem_getSepSets _).2 hS), ?_, ?_, ?_⟩
    · rw [h.sep_nbrs hS]
      rcases hj with ⟨rfl, rfl⟩ | ⟨rfl, rfl⟩
      · exact Or.inl rfl
      · exact Or.inr rfl
    · rw [h.sep_nbrs hS]
      rcases hj with ⟨rfl, rfl⟩ | ⟨rfl, rfl⟩
      · exact Or.inr rfl
      · exact Or.inl rfl
    · intro e
      have := (h.fam.id_iff hP hC).1 e
      rcases hj with ⟨rfl, rfl⟩ | ⟨rfl, rfl⟩
      · exact hg.ne this
      · exact hg.ne this.symm

theorem attO_split {S : List Str} {f : Msg} {B : List Msg} : ∀ {A : List Msg}, AttO S (A ++ f :: B) → f.p ∈ S ∨ f.p ∈ B.map Msg.c
  | [], h => h.1
  | _ :: _, h => attO_split h.2

theorem att_seps {V : Str → List Int} {isSep : Str → Prop} {root : Str} : ∀ {L : List Msg}, Att V isSep root L → (L.map Msg.s).Nodup
  | [], _ => by simp
  | m :: L, h => by
      rw [List.map_cons, List.nodup_cons]
      exact ⟨h.2.2.2.2.2.1, att_seps h.1⟩

/-- the messages of a propagation, for join trees whatever their tables are -/
theorem JTSpec.messages (h : JTSpec cs T jt) (js : SetIter Str) {jt' : JoinTree} {log : List Call} (hr : propagateT js jt = .ok (jt', log)) :
    ∃ r, jt.StartsAt r ∧ log.Nodup ∧ Scheduled jt log ∧
      (∀ m : Call, m ∈ log ↔ jt.Link m.x m.s m.y ∧ ReflTransGen (fun a b => b ∈ ddGet jt.neighbors a) r m.x) ∧
      ∃ L : List Msg, (L.map Msg.s).Nodup ∧ log.length = 2 * L.length ∧
        (∀ s, s ∈ L.map Msg.s ↔ ∃ S ∈ T, S.id = s ∧ ReflTransGen (fun a b => b ∈ ddGet jt.neighbors a) r S.left.id) := by
  obtain ⟨R, hx⟩ : ∃ R, startClique jt = some R := by
    cases e : startClique jt with
    | some R => exact ⟨R, rfl⟩
    | none =>
      unfold propagateT at hr
      rw [show (sortBy (fun a b => strLe (Clique.id a) (Clique.id b)) jt.getCliques).head? = none from e] at hr
      cases hr
  have hRm : R ∈ jt.getCliques := by
    have := List.mem_of_mem_head? (show R ∈ startClique jt from hx)
    rw [mem_sortBy] at this
    exact this
  have hR : R ∈ cs := (h.shape.mem_getCliques _).1 hRm
  have hRk : R.id ∈ Dict.keys jt.nodes := Dict.mem_keys_of_get? (h.get_clique hR)
  have hxn : ∀ z ∈ neighboringCliques js jt R.id, z.2 ≠ R.id := by
    intro z hz e
    obtain ⟨s, hs, C, hC, rfl, hj⟩ := (h.nb_spec js hR z).1 hz
    have := (h.fam.id_iff hC hR).1 e
    subst this
    have hg := h.shape.good s hs
    rcases hj with ⟨e1, e2⟩ | ⟨e1, e2⟩
    · exact hg.ne (e1.trans e2.symm)
    · exact hg.ne (e1.trans e2.symm)
  have hnn := h.nb_nodup js hR
  obtain ⟨pre, post, m', hw, hprop⟩ := propagateT_walk js jt (x := R) (K := Dict.keys jt.nodes) hx
    (h.nb_keys js) (by simp [Dict.keys]) hRk hnn hxn
  have hlog := hprop jt' log hr
  have hedge := hw.edges (fun x hx => hx)
  obtain ⟨ex, hm', hpc⟩ := hw.marks
  have hm'n : m'.Nodup := hw.nodup (by
    rw [List.nodup_cons]
    refine ⟨?_, hnn⟩
    intro hc
    obtain ⟨z, hz, e⟩ := List.mem_map.1 hc
    exact hxn z hz e)
  have hndsm : (nds R.id pre).Perm m' := by
    rw [hm', List.cons_append]
    exact List.Perm.cons _ hpc
  have hpp := hw.perm
  have hndsp : (nds R.id post).Perm (nds R.id pre) := List.Perm.cons _ (hpp.symm.map _)
  have hndn : (nds R.id post).Nodup := hndsp.nodup_iff.2 (hndsm.nodup_iff.2 hm'n)
  obtain ⟨att1, conn1, join1⟩ := h.att js hR post hw.attO_post (fun e he => hedge e (hpp.mem_iff.2 he)) hndn
  have hmem_nds : ∀ k, k ∈ nds R.id post ↔ ∃ C ∈ cs, C.id = k ∧ Conn sl sr T R.fs C.fs := by
    intro k
    constructor
    · intro hk
      obtain ⟨C, hC, e, hc⟩ := conn1 k hk
      exact ⟨C, hC, e, hc.mono (fun t ht => (List.mem_filter.1 ht).1)⟩
    · rintro ⟨C, hC, rfl, hc⟩
      -- closure under neighbors
      have hclosed : ∀ P ∈ cs, P.id ∈ nds R.id post → ∀ z ∈ neighboringCliques js jt P.id, z.2 ∈ nds R.id post := by
        intro P hP hPm z hz
        have hz' : z.2 ∈ m' := by
          rw [hndsp.mem_iff] at hPm
          rcases List.mem_cons.1 hPm with e | hPm
          · rw [e] at hz
            rw [hm']
            exact List.mem_append_left _ (List.mem_cons_of_mem _ (List.mem_map_of_mem hz))
          · obtain ⟨e, he, hec⟩ := List.mem_map.1 hPm
            exact hw.closed e he z (by rw [hec]; exact hz)
        exact hndsp.mem_iff.2 (hndsm.mem_iff.2 hz')
      have := Conn.elim (R := fun A B => A = B ∨ ∃ P ∈ cs, ∃ Q ∈ cs, P.fs = A ∧ Q.fs = B ∧
          (P.id ∈ nds R.id post ↔ Q.id ∈ nds R.id post)) (fun _ => Or.inl rfl) (by
          rintro A B (rfl | ⟨P, hP, Q, hQ, rfl, rfl, hpq⟩)
          · exact Or.inl rfl
          · exact Or.inr ⟨Q, hQ, P, hP, rfl, rfl, hpq.symm⟩) (by
          rintro A B C (rfl | ⟨P, hP, Q, hQ, rfl, rfl, hpq⟩) (rfl | ⟨P', hP', Q', hQ', e1, rfl, hpq'⟩)
          · exact Or.inl rfl
          · exact Or.inr ⟨P', hP', Q', hQ', e1, rfl, hpq'⟩
          · exact Or.inr ⟨P, hP, Q, hQ, rfl, rfl, hpq⟩
          · have := h.fam.fs_inj hP' hQ e1
            subst this
            exact Or.inr ⟨P, hP, Q', hQ', rfl, rfl, hpq.trans hpq'⟩) (by
          intro s hs
          have hg := h.shape.good s hs
          refine Or.inr ⟨s.left, hg.left, s.right, hg.right, rfl, rfl, ?_, ?_⟩
          · intro hm
            exact hclosed _ hg.left hm (s.id, s.right.id)
              ((h.nb_spec js hg.left _).2 ⟨s, hs, s.right, hg.right, rfl, Or.inl ⟨rfl, rfl⟩⟩)
          · intro hm
            exact hclosed _ hg.right hm (s.id, s.left.id)
              ((h.nb_spec js hg.right _).2 ⟨s, hs, s.left, hg.left, rfl, Or.inr ⟨rfl, rfl⟩⟩)) hc
      rcases this with e | ⟨P, hP, Q, hQ, e1, e2, hpq⟩
      · rw [← h.fam.fs_inj hR hC e]
        exact List.mem_cons_self
      · rw [h.fam.fs_inj hP hR e1, h.fam.fs_inj hQ hC e2] at hpq
        exact hpq.1 List.mem_cons_self
  have hmem_s : ∀ s ∈ T, s.left.id ∈ nds R.id post → s.id ∈ post.map Msg.s := by
    intro s hs hl
    have hg := h.shape.good s hs
    by_contra hns
    have hr : s.right.id ∈ nds R.id post := by
      obtain ⟨C, hC, e, hc⟩ := (hmem_nds _).1 hl
      rw [(h.fam.id_iff hC hg.left).1 e] at hc
      exact (hmem_nds _).2 ⟨s.right, hg.right, rfl, hc.trans (Conn.edge (l := sl) (r := sr) hs)⟩
    obtain ⟨C, hC, e, hc⟩ := conn1 _ hl
    obtain ⟨C', hC', e', hc'⟩ := conn1 _ hr
    rw [(h.fam.id_iff hC hg.left).1 e] at hc
    rw [(h.fam.id_iff hC' hg.right).1 e'] at hc'
    apply h.forest.remove hs
    refine (hc.symm.trans hc').mono ?_
    intro t ht
    obtain ⟨ht1, ht2⟩ := List.mem_filter.1 ht
    simp only [decide_eq_true_eq] at ht2
    refine (List.mem_erase_of_ne ?_).2 ht1
    rintro rfl
    exact hns ht2
  -- the separation sets of the messages are different, and so are the cliques they lead to
  have hsn : (post.map Msg.s).Nodup := att_seps att1
  have hcn : (post.map Msg.c).Nodup := (List.nodup_cons.1 hndn).2
  have hRc : R.id ∉ post.map Msg.c := (List.nodup_cons.1 hndn).1
  have hinjS : ∀ e ∈ post, ∀ f ∈ post, e.s = f.s → e = f := fun e he f hf he' => List.inj_on_of_nodup_map hsn he hf he'
  have hinjC : ∀ e ∈ post, ∀ f ∈ post, e.c = f.c → e = f := fun e he f hf he' => List.inj_on_of_nodup_map hcn he hf he'
  have hpc' : ∀ e ∈ post, e.p ≠ e.c := by
    intro e he e1
    obtain ⟨S, hS, P, hP, C, hC, k1, k2, k3, hj⟩ := join1 e he
    exact ((h.link_iff e.p e.s e.c).2 ⟨S, hS, P, hP, C, hC, k1, k2, k3, hj⟩).2.2.2 e1
  have hlinkDown : ∀ e ∈ post, jt.Link e.p e.s e.c := fun e he => (h.link_iff _ _ _).2 (join1 e he |>.elim fun S hS => ⟨S, hS.1, hS.2⟩)
  have hlinkUp : ∀ e ∈ post, jt.Link e.c e.s e.p := fun e he => ⟨(hlinkDown e he).1, (hlinkDown e he).2.2.1, (hlinkDown e he).2.1, (hlinkDown e he).2.2.2.symm⟩
  have hpath : ∀ k ∈ nds R.id post, ReflTransGen (fun a b => b ∈ ddGet jt.neighbors a) R.id k := by
    intro k hk
    obtain ⟨C, hC, rfl, hc⟩ := (hmem_nds k).1 hk
    exact (h.shape.path_iff h.fam hR hC).2 hc
  have hnodes : ∀ C ∈ cs, ReflTransGen (fun a b => b ∈ ddGet jt.neighbors a) R.id C.id → C.id ∈ nds R.id post := fun C hC hp =>
    (hmem_nds _).2 ⟨C, hC, rfl, (h.shape.path_iff h.fam hR hC).1 hp⟩
  have hmemlog : ∀ m : Call, m ∈ log ↔ (∃ e ∈ post, m = e.up) ∨ ∃ e ∈ post, m = e.down := by
    intro m
    rw [hlog, List.mem_append, List.mem_map, List.mem_map]
    constructor
    · rintro (⟨e, he, rfl⟩ | ⟨e, he, rfl⟩)
      · exact Or.inl ⟨e, he, rfl⟩
      · exact Or.inr ⟨e, hpp.mem_iff.1 he, rfl⟩
    · rintro (⟨e, he, rfl⟩ | ⟨e, he, rfl⟩)
      · exact Or.inl ⟨e, he, rfl⟩
      · exact Or.inr ⟨e, hpp.mem_iff.2 he, rfl⟩
  have hiff : ∀ m : Call, m ∈ log ↔ jt.Link m.x m.s m.y ∧ ReflTransGen (fun a b => b ∈ ddGet jt.neighbors a) R.id m.x := by
    intro m
    rw [hmemlog]
    constructor
    · rintro (⟨e, he, rfl⟩ | ⟨e, he, rfl⟩)
      · exact ⟨hlinkUp e he, hpath _ (List.mem_cons_of_mem _ (List.mem_map_of_mem he))⟩
      · exact ⟨hlinkDown e he, hpath _ (att1.parent_mem e he)⟩
    · rintro ⟨hl, hp⟩
      obtain ⟨S, hS, P, hP, C, hC, k1, k2, k3, hj⟩ := (h.link_iff _ _ _).1 hl
      rw [← k2] at hp
      have hPn := hnodes P hP hp
      have hleft : S.left.id ∈ nds R.id post := by
        rcases hj with ⟨e1, e2⟩ | ⟨e1, e2⟩
        · rw [e1]; exact hPn
        · rw [e1]
          obtain ⟨P', hP', e', hc⟩ := (hmem_nds _).1 hPn
          rw [(h.fam.id_iff hP' hP).1 e'] at hc
          exact (hmem_nds _).2 ⟨C, hC, rfl, hc.trans (Joins.conn (Or.inr ⟨e1, e2⟩) hS)⟩
      obtain ⟨e, he, hes⟩ := List.mem_map.1 (hmem_s S hS hleft)
      obtain ⟨S', hS', P', hP', C', hC', j1, j2, j3, hj'⟩ := join1 e he
      have hSS : S' = S := by
        have : Dict.get? jt.nodes S'.id = Dict.get? jt.nodes S.id := by rw [j1, hes]
        rw [h.get_sep hS', h.get_sep hS] at this
        injection this with this
        injection this
      subst hSS
      have hm : m = ⟨P.id, S'.id, C.id⟩ := by cases m; simp_all
      rcases hj with ⟨a1, a2⟩ | ⟨a1, a2⟩ <;> rcases hj' with ⟨b1, b2⟩ | ⟨b1, b2⟩
      · exact Or.inr ⟨e, he, by rw [hm]; unfold Msg.down; rw [← j1, ← j2, ← j3, ← a1, ← a2, b1, b2]⟩
      · exact Or.inl ⟨e, he, by rw [hm]; unfold Msg.up; rw [← j1, ← j2, ← j3, ← a1, ← a2, b1, b2]⟩
      · exact Or.inl ⟨e, he, by rw [hm]; unfold Msg.up; rw [← j1, ← j2, ← j3, ← a1, ← a2, b1, b2]⟩
      · exact Or.inr ⟨e, he, by rw [hm]; unfold Msg.down; rw [← j1, ← j2, ← j3, ← a1, ← a2, b1, b2]⟩
  refine ⟨R.id, ⟨List.mem_map_of_mem hRm, start_min hx⟩, ?_, ?_, hiff, post, hsn, ?_, ?_⟩
  · rw [hlog, List.nodup_append]
    refine ⟨?_, ?_, ?_⟩
    · refine List.Nodup.map_on ?_ (List.Nodup.of_map _ hsn)
      intro e he f hf he'
      injection he' with e1 e2 e3
      exact hinjS e he f hf e2
    · refine List.Nodup.map_on ?_ (hpp.nodup_iff.2 (List.Nodup.of_map _ hsn))
      intro e he f hf he'
      injection he' with e1 e2 e3
      exact hinjS e (hpp.mem_iff.1 he) f (hpp.mem_iff.1 hf) e2
    · intro a ha b hb e
      obtain ⟨f, hf, rfl⟩ := List.mem_map.1 ha
      obtain ⟨g, hg, rfl⟩ := List.mem_map.1 hb
      injection e with e1 e2 e3
      have := hinjS f hf g (hpp.mem_iff.1 hg) e2
      subst this
      exact hpc' f hf e1.symm
  · intro l₁ l₂ m hsplit c s hl hne
    have hm : m ∈ log := by rw [hsplit]; simp
    have hmx := ((hiff m).1 hm).2
    have hcm : (⟨c, s, m.x⟩ : Call) ∈ log := by
      refine (hiff _).2 ⟨hl, ?_⟩
      obtain ⟨S, hS, P, hP, C, hC, k1, k2, k3, hj⟩ := (h.link_iff _ _ _).1 hl
      have hCc := (h.shape.path_iff h.fam hR hC).1 (by rw [k3]; exact hmx)
      rw [show (⟨c, s, m.x⟩ : Call).x = P.id from k2.symm]
      exact (h.shape.path_iff h.fam hR hP).2 (hCc.trans (hj.conn hS).symm)
    -- messages away from the start
    have hdown : ∀ (as : List Call), pre.map Msg.down = as ++ m :: l₂ → (⟨c, s, m.x⟩ : Call) ∈ post.map Msg.up ++ as := by
      intro as has
      obtain ⟨A, B', rfl, rfl, hB⟩ := List.map_eq_append_iff.1 has
      obtain ⟨e, B, rfl, rfl, rfl⟩ := List.map_eq_cons_iff.1 hB
      have he : e ∈ post := hpp.mem_iff.1 (by simp)
      rcases (hmemlog _).1 hcm with ⟨f, hf, hfe⟩ | ⟨f, hf, hfe⟩
      · rw [hfe]
        exact List.mem_append_left _ (List.mem_map_of_mem hf)
      · rw [hfe]
        refine List.mem_append_right _ (List.mem_map_of_mem ?_)
        have hfc : f.c = e.p := by injection hfe with _ _ e3; exact e3.symm
        have hatt := hw.attO_pre
        rw [List.reverse_append, List.reverse_cons, List.append_assoc] at hatt
        rcases attO_split hatt with h1 | h1
        · simp only [List.mem_singleton] at h1
          exact absurd (List.mem_map_of_mem (f := Msg.c) hf) (by rw [hfc, h1]; exact hRc)
        · obtain ⟨g, hg, hgc⟩ := List.mem_map.1 h1
          replace hg : g ∈ A := List.mem_reverse.1 hg
          rw [hinjC f hf g (hpp.mem_iff.1 (List.mem_append_left _ hg)) (hfc.trans hgc.symm)]
          exact hg
    rw [hlog] at hsplit
    rcases List.append_eq_append_iff.1 hsplit with ⟨as, ha1, ha2⟩ | ⟨bs, hb1, hb2⟩
    · rw [ha1]
      exact hdown as ha2
    · cases bs with
      | nil =>
        have := hdown [] (by simpa using hb2.symm)
        rw [List.append_nil] at this hb1
        rw [← hb1]
        exact this
      | cons m₁ bs =>
        injection hb2 with e1 e2
        subst e1
        obtain ⟨A, B', hpost, rfl, hB⟩ := List.map_eq_append_iff.1 hb1
        obtain ⟨e, B, rfl, rfl, rfl⟩ := List.map_eq_cons_iff.1 hB
        have he : e ∈ post := by rw [hpost]; simp
        rcases (hmemlog _).1 hcm with ⟨f, hf, hfe⟩ | ⟨f, hf, hfe⟩
        · rw [hfe]
          refine List.mem_map_of_mem ?_
          have hfp : f.p = e.c := by injection hfe with _ _ e3; exact e3.symm
          rw [hpost] at hf
          rcases List.mem_append.1 hf with hf | hf
          · exact hf
          · exfalso
            rcases List.mem_cons.1 hf with rfl | hf
            · exact hpc' f he hfp
            · obtain ⟨B1, B2, rfl⟩ := List.append_of_mem hf
              have hatt := hw.attO_post
              rw [hpost, show A ++ e :: (B1 ++ f :: B2) = (A ++ e :: B1) ++ f :: B2 by simp] at hatt
              rcases attO_split hatt with h1 | h1
              · simp only [List.mem_singleton] at h1
                exact absurd (List.mem_map_of_mem (f := Msg.c) he) (by rw [← hfp, h1]; exact hRc)
              · rw [hfp] at h1
                rw [hpost, List.map_append, List.map_cons, List.nodup_append] at hcn
                exact (List.nodup_cons.1 hcn.2.1).1 (by rw [List.map_append, List.map_cons]; simp [h1])
        · exfalso
          injection hfe with e1 e2 e3
          have hef := hinjC e he f hf e3
          subst hef
          exact hne e1
  · rw [hlog, List.length_append, List.length_map, List.length_map, hpp.length_eq]; omega
  · intro s
    constructor
    · intro hs
      obtain ⟨e, he, rfl⟩ := List.mem_map.1 hs
      obtain ⟨S, hS, P, hP, C, hC, k1, k2, k3, hj⟩ := join1 e he
      refine ⟨S, hS, k1, ?_⟩
      rcases hj with ⟨e1, e2⟩ | ⟨e1, e2⟩
      · rw [e1, k2]; exact hpath _ (att1.parent_mem e he)
      · rw [e1, k3]; exact hpath _ (List.mem_cons_of_mem _ (List.mem_map_of_mem he))
    · rintro ⟨S, hS, rfl, hp⟩
      exact hmem_s S hS (hnodes _ (h.shape.good S hS).left hp)

end

section
variable {ops : List BOp} {it : SetIter Int} {js js' : SetIter Str} {jt jt₀ jt' : JoinTree} {log : List Call}

theorem propagateT_of_ok (hr : propagate js jt = .ok jt') : ∃ log, propagateT js jt = .ok (jt', log) := by
  have := propagateT_fst js jt
  rw [hr] at this
  cases e : propagateT js jt with
  | error err => rw [e] at this; cases this
  | ok st =>
    rw [e] at this
    injection this with this
    exact ⟨st.2, by rw [← this]⟩

/-- **C123**. Let the tables of a join tree made by the library be whatever they are. If `propagate` succeeds, it calls
`pass_single_message` once for every separation set joined to the start clique (the clique with the smallest id) and each direction, and
for no other; and a clique sends a message to a neighbor only after it has received one from each of its other neighbors. -/
theorem c123_messages (h1 : jt₀.nodes = (joinTreeOf it js ops).nodes) (h2 : jt₀.neighbors = (joinTreeOf it js ops).neighbors)
    (hr : propagate js' jt₀ = .ok jt') :
    ∃ log r, propagateT js' jt₀ = .ok (jt', log) ∧ jt₀.StartsAt r ∧ log.Nodup ∧ Scheduled jt₀ log ∧
      ∀ m : Call, m ∈ log ↔ jt₀.Link m.x m.s m.y ∧ ReflTransGen (fun a b => b ∈ ddGet jt₀.neighbors a) r m.x := by
  obtain ⟨log, hl⟩ := propagateT_of_ok hr
  obtain ⟨T, hT⟩ := joinTree_spec it js ops
  obtain ⟨r, a1, a2, a3, a4, _⟩ := (hT.frame h1 h2).messages js' hl
  exact ⟨log, r, hl, a1, a2, a3, a4⟩

/-- **C123** for a connected network: two messages for every separation set, one in each direction, `2 (n - 1)` messages for `n` cliques. -/
theorem c123_connected (hc : ConnectedOps ops) (h1 : jt₀.nodes = (joinTreeOf it js ops).nodes)
    (h2 : jt₀.neighbors = (joinTreeOf it js ops).neighbors) (hr : propagate js' jt₀ = .ok jt') :
    ∃ log, propagateT js' jt₀ = .ok (jt', log) ∧ log.Nodup ∧ Scheduled jt₀ log ∧ (∀ m : Call, m ∈ log ↔ jt₀.Link m.x m.s m.y) ∧
      log.length = 2 * jt₀.getSepSets.length ∧ log.length + 2 = 2 * jt₀.getCliques.length := by
  obtain ⟨log, hl⟩ := propagateT_of_ok hr
  obtain ⟨T, hT⟩ := joinTree_spec it js ops
  have hT' := hT.frame h1 h2
  obtain ⟨r, a1, a2, a3, a4, L, b1, b2, b3⟩ := hT'.messages js' hl
  obtain ⟨_, _, _, _, _, _, _, hconn⟩ := c14_join_tree it js ops
  obtain ⟨hpath, hcount⟩ := hconn hc
  obtain ⟨R, hR, rfl⟩ := List.mem_map.1 a1.1
  have hkey : ∀ C ∈ (Triangulator.triangulate it (moralize (Bbn.run ops))).1, C.id ∈ Dict.keys (joinTreeOf it js ops).nodes := fun C hC =>
    Dict.mem_keys_of_get? (hT.get_clique hC)
  rw [hT'.shape.mem_getCliques] at hR
  have hreach : ∀ C ∈ (Triangulator.triangulate it (moralize (Bbn.run ops))).1,
      ReflTransGen (fun a b => b ∈ ddGet jt₀.neighbors a) R.id C.id := by
    intro C hC
    rw [h2]
    exact hpath _ (hkey R hR) _ (hkey C hC)
  have hlen : L.length = jt₀.getSepSets.length := by
    have hp := hT'.getSepSets_perm
    have hn : (jt₀.getSepSets.map SepSet.id).Nodup := hT'.shape.sepSets_nodup
    have : (L.map Msg.s).Perm (jt₀.getSepSets.map SepSet.id) := by
      rw [List.perm_ext_iff_of_nodup b1 hn]
      intro s
      rw [b3]
      constructor
      · rintro ⟨S, hS, rfl, _⟩
        exact List.mem_map_of_mem (hp.mem_iff.2 hS)
      · intro hs
        obtain ⟨S, hS, rfl⟩ := List.mem_map.1 hs
        have hS' := hp.mem_iff.1 hS
        exact ⟨S, hS', rfl, hreach _ (hT'.shape.good S hS').left⟩
    simpa using this.length_eq
  refine ⟨log, hl, a2, a3, ?_, by rw [b2, hlen], ?_⟩
  · intro m
    rw [a4]
    refine ⟨fun h => h.1, fun h => ⟨h, ?_⟩⟩
    obtain ⟨S, hS, P, hP, C, hC, k1, k2, k3, hj⟩ := (hT'.link_iff _ _ _).1 h
    rw [← k2]
    exact hreach P hP
  · have hne : (Bbn.run ops).vars ≠ [] := by
      intro e
      have hs := (triangulate_spec it (bbn_run_inv ops)).1
      obtain ⟨x, hx⟩ := List.exists_mem_of_ne_nil _ (hs.ne R hR)
      obtain ⟨u, hu, _⟩ := List.mem_map.1 hx
      have := hs.sub R hR u hu
      rw [e] at this
      cases this
    have e1 : jt₀.getSepSets = (joinTreeOf it js ops).getSepSets := by unfold JoinTree.getSepSets; rw [h1]
    have e2 : jt₀.getCliques = (joinTreeOf it js ops).getCliques := by unfold JoinTree.getCliques; rw [h1]
    have := hcount hne
    rw [b2, hlen, e1, e2]
    omega

/-- only the tables change -/
def Tab (a b : JoinTree) : Prop := ∃ p, b = { a with potentials := p }

theorem Tab.refl (a : JoinTree) : Tab a a := ⟨a.potentials, rfl⟩

theorem Tab.trans {a b c : JoinTree} (h : Tab a b) (h' : Tab b c) : Tab a c := by
  obtain ⟨p, rfl⟩ := h
  obtain ⟨q, rfl⟩ := h'
  exact ⟨q, rfl⟩

theorem collectWalk_tab (js : SetIter Str) : ∀ (fuel : Nat) (x s y : Str) (st st' : List Str × JoinTree),
    collectWalk js fuel x s y st = .ok st' → Tab st.2 st'.2
  | 0, _, _, _, _, _, h => by cases h
  | fuel + 1, x, s, y, st, st', h => by
      rw [collectWalk] at h
      obtain ⟨st1, h1, h⟩ := bind_ok h
      obtain ⟨j, h2, h⟩ := bind_ok h
      injection h with h
      have e1 : Tab st.2 st1.2 := foldlM_inv (fun a : List Str × JoinTree => Tab st.2 a.2) h1 (Tab.refl _)
        (fun sc _ a b ha hb => ha.trans (collectWalk_tab js fuel _ _ _ a b hb))
      rw [← h]
      exact e1.trans (passSingle_frame h2)

theorem distributeWalk_tab (js : SetIter Str) : ∀ (fuel : Nat) (y : Str) (st st' : List Str × JoinTree),
    distributeWalk js fuel y st = .ok st' → Tab st.2 st'.2
  | 0, _, _, _, h => by cases h
  | fuel + 1, y, st, st', h => by
      rw [distributeWalk] at h
      exact foldlM_inv (fun a : List Str × JoinTree => Tab st.2 a.2) h (Tab.refl _) (fun sc _ a b ha hb => by
        obtain ⟨j, h2, hb⟩ := bind_ok hb
        exact (ha.trans (passSingle_frame h2)).trans (distributeWalk_tab js fuel _ (a.1, j) b hb))

theorem propagate_frame (h : propagate js jt = .ok jt') : Tab jt jt' := by
  unfold propagate at h
  cases hx : (sortBy (fun a b => strLe (Clique.id a) (Clique.id b)) jt.getCliques).head? with
  | none => rw [hx] at h; cases h
  | some x =>
    rw [hx] at h
    obtain ⟨j, h1, h2⟩ := bind_ok h
    unfold collect at h1
    obtain ⟨st1, h3, h1⟩ := bind_ok h1
    injection h1 with h1
    have e1 : Tab jt st1.2 := foldlM_inv (fun a : List Str × JoinTree => Tab jt a.2) h3 (Tab.refl _)
      (fun sc _ a b ha hb => ha.trans (collectWalk_tab js _ _ _ _ a b hb))
    rw [h1] at e1
    unfold distribute at h2
    obtain ⟨st2, h4, h2⟩ := bind_ok h2
    injection h2 with h2
    rw [← h2]
    exact foldlM_inv (fun a : List Str × JoinTree => Tab jt a.2) h4 e1 (fun sc _ a b ha hb => by
        obtain ⟨j, h5, hb⟩ := bind_ok hb
        exact (ha.trans (passSingle_frame h5)).trans (distributeWalk_tab js _ _ (a.1, j) b hb))

/-- **C123** in a session: the propagations inside `apply`, and those after calls that change the evidence, are on such join trees. -/
theorem c123_session (hu : Net.Sane ops) (hj : InferenceController.apply it js (Bbn.run ops) = .ok jt) (h : List (SetIter Str × EvOp))
    (hp : ∀ op ∈ h, op.2.Nodes (Bbn.run ops).vars) :
    (∃ j1, Propagator.propagate js j1 = .ok { jt with listener := j1.listener } ∧ j1.nodes = (joinTreeOf it js ops).nodes ∧
      j1.neighbors = (joinTreeOf it js ops).neighbors) ∧
    (runHist jt h).nodes = (joinTreeOf it js ops).nodes ∧ (runHist jt h).neighbors = (joinTreeOf it js ops).neighbors := by
  have hst := runHist_sameTree hu hj h hp
  unfold InferenceController.apply InferenceController.applyWith at hj
  obtain ⟨heap1, a1, hj⟩ := bind_ok hj
  simp only at hj
  obtain ⟨heap2, a2, hj⟩ := bind_ok hj
  obtain ⟨j1, a3, hj⟩ := bind_ok hj
  obtain ⟨j2, a4, hj⟩ := bind_ok hj
  injection hj with hj
  have hsh := initializeJt_shape a3
  have e1 : j1.nodes = (joinTreeOf it js ops).nodes := hsh.1
  have e2 : j1.neighbors = (joinTreeOf it js ops).neighbors := hsh.2.1
  obtain ⟨p, hp2⟩ := propagate_frame a4
  refine ⟨⟨j1, ?_, e1, e2⟩, ?_, ?_⟩
  · rw [a4, ← hj, hp2]
  · rw [hst.nodes, ← hj, hp2]; exact e1
  · rw [hst.neighbors, ← hj, hp2]; exact e2

end

/-! ## an example: five cliques -/

/-- a tree of cliques that is not a path: 0 → 1, 0 → 2, 0 → 3, 3 → 4 and 3 → 5 -/
def c123_ops : List BOp :=
  let n (i : Int) (p : List ℚ) : BbnNode := ⟨⟨i, ['n', Char.ofNat (i.toNat + 48)], ["on".toList, "off".toList]⟩, p⟩
  let c : List ℚ := [1/2, 1/2, 1/4, 3/4]
  [.addEdge (n 0 [1/4, 3/4]) (n 1 c), .addEdge (n 0 [1/4, 3/4]) (n 2 c), .addEdge (n 0 [1/4, 3/4]) (n 3 c), .addEdge (n 3 c) (n 4 c),
   .addEdge (n 3 c) (n 5 c)]

theorem c123_usable : Net.Usable c123_ops :=
  ⟨⟨wf_of_check (by decide +kernel) (by decide +kernel), by decide +kernel⟩, connected_of_check 0 (by decide +kernel)⟩

/-- the messages of a propagation on the join tree of the example: to the start clique 0-1 and back; the clique 0-3 passes on what it got
from 3-4 and 3-5 only after it has heard from both -/
example : ((InferenceController.apply .same .same (Bbn.run c123_ops)).val?.bind (fun jt => (propagateT .same jt).val?.map (fun st =>
      (jt.getCliques.map Clique.id, st.2.map (fun m => (m.x, m.y)))))) =
    some (["0-1", "0-2", "0-3", "3-4", "3-5"].map String.toList,
      [("0-2", "0-1"), ("3-4", "0-3"), ("3-5", "0-3"), ("0-3", "0-1"), ("0-1", "0-2"), ("0-1", "0-3"), ("0-3", "3-4"),
        ("0-3", "3-5")].map (fun p => (p.1.toList, p.2.toList))) := by decide +kernel

/-- the theorems here: eight messages after any evidence -/
example (it : SetIter Int) (js js' : SetIter Str) {jt jt' : JoinTree} (hj : InferenceController.apply it js (Bbn.run c123_ops) = .ok jt)
    (h : List (SetIter Str × EvOp)) (hp : ∀ op ∈ h, op.2.Nodes (Bbn.run c123_ops).vars) (hr : propagate js' (runHist jt h) = .ok jt') :
    ∃ log, propagateT js' (runHist jt h) = .ok (jt', log) ∧ log.length = 2 * (runHist jt h).getSepSets.length := by
  obtain ⟨_, h1, h2⟩ := c123_session c123_usable.toSane hj h hp
  obtain ⟨log, a1, _, _, _, a2, _⟩ := c123_connected c123_usable.conn h1 h2 hr
  exact ⟨log, a1, a2⟩

end PyBBN
